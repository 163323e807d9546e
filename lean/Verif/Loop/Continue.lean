import Verif.Loop.Lemmas

/-!
# Runs of the loop that continue each other
-/

namespace Verif.Loop

open Verif.ADMM

variable {σ ι : Type}

/-- `s` are the variables of a run that had done `k` iterations, with the lists `pr`, `pg`, `pl`, when the run with the variables `u` started. -/
structure Shift (k : ℕ) (pr : List PyF) (pg : List Gaps) (pl : List PyF) (s u : Acc σ) : Prop where
  st : s.st = u.st
  recErrors : s.recErrors = pr ++ u.recErrors
  gaps : s.gaps = pg ++ u.gaps
  losses : s.losses = pl ++ u.losses
  ne : u.losses ≠ []
  nIter : s.nIter = k + u.nIter
  stop : s.stop = u.stop

theorem Shift.last {k : ℕ} {pr : List PyF} {pg : List Gaps} {pl : List PyF} {s u : Acc σ} (h : Shift k pr pg pl s u) :
    s.losses.getLastD .nan = u.losses.getLastD .nan := by
  rw [h.losses, List.getLastD_eq_getLast?, List.getLastD_eq_getLast?, List.getLast?_append_of_ne_nil _ h.ne]

theorem body_shift (O : Ops σ ι) (a : Args) {k : ℕ} {pr : List PyF} {pg : List Gaps} {pl : List PyF} {s u : Acc σ} (h : Shift k pr pg pl s u) :
    match body O a u with
    | .error e => body O a s = .error e
    | .ok (u', b) => ∃ s', body O a s = .ok (s', b) ∧ Shift k pr pg pl s' u' := by
  have hl := h.last
  obtain ⟨h1, h2, h3, h4, h5, h6, h7⟩ := h
  unfold body checkStop
  rw [hl, ← h1]
  cases O.sweep s.st with
  | error e => rfl
  | ok x =>
    obtain ⟨st, i⟩ := x
    dsimp only
    by_cases hc : (truthy a.tol || truthy a.absTol || a.returnErrors) = true
    · rw [if_pos hc, if_pos hc]
      by_cases hc2 : ((truthy a.tol || truthy a.absTol) && !(truthy a.feasTol && checkFeasibility (O.gaps st) (a.feasTol.getD 0)) && !a.returnErrors) = true
      · rw [if_pos hc2, if_pos hc2]
        exact ⟨_, rfl, rfl, h2, by simp [h3], h4, h5, by simp only [h6]; omega, h7⟩
      · rw [if_neg hc2, if_neg hc2]
        by_cases ht : truthy a.tol = true
        · rw [if_pos ht, if_pos ht]
          cases a.absTol with
          | none => rfl
          | some ab =>
            dsimp only
            by_cases c1 : (truthy a.feasTol && checkFeasibility (O.gaps st) (a.feasTol.getD 0) &&
                relCriterion (u.losses.getLastD PyF.nan) (lossOf (O.relError st i) (O.penalty st)) (a.tol.getD 0)) = true
            · rw [if_pos c1, if_pos c1]
              exact ⟨_, rfl, rfl, by simp [h2], by simp [h3], by simp [h4], by simp, by simp only [h6]; omega, rfl⟩
            · rw [if_neg c1, if_neg c1]
              by_cases c2 : (truthy a.feasTol && checkFeasibility (O.gaps st) (a.feasTol.getD 0) &&
                  (lossOf (O.relError st i) (O.penalty st)).lt ab) = true
              · rw [if_pos c2, if_pos c2]
                exact ⟨_, rfl, rfl, by simp [h2], by simp [h3], by simp [h4], by simp, by simp only [h6]; omega, rfl⟩
              · rw [if_neg c2, if_neg c2]
                exact ⟨_, rfl, rfl, by simp [h2], by simp [h3], by simp [h4], by simp, by simp only [h6]; omega, h7⟩
        · rw [if_neg ht, if_neg ht]
          exact ⟨_, rfl, rfl, by simp [h2], by simp [h3], by simp [h4], by simp, by simp only [h6]; omega, h7⟩
    · rw [if_neg hc, if_neg hc]
      exact ⟨_, rfl, rfl, h2, h3, h4, h5, by simp only [h6]; omega, h7⟩

theorem run_shift (O : Ops σ ι) (a : Args) {k : ℕ} {pr : List PyF} {pg : List Gaps} {pl : List PyF} : ∀ (m : ℕ) {s u : Acc σ},
    Shift k pr pg pl s u → match run O a m u with
    | .error e => run O a m s = .error e
    | .ok u' => ∃ s', run O a m s = .ok s' ∧ Shift k pr pg pl s' u'
  | 0, s, u, h => ⟨_, rfl, h.st, h.recErrors, h.gaps, h.losses, h.ne, h.nIter, h.stop⟩
  | m + 1, s, u, h => by
    have hb := body_shift O a h
    rw [run, run]
    cases hu : body O a u with
    | error e => rw [hu] at hb; simp only at hb ⊢; rw [hb]
    | ok x =>
      obtain ⟨u', b⟩ := x
      rw [hu] at hb
      obtain ⟨s', hs, hsh⟩ := hb
      rw [hs]
      cases b
      · exact run_shift O a m hsh
      · exact ⟨s', rfl, hsh⟩

/-- A run that was stopped by a criterion is not changed by allowing more iterations; one that was not is continued. -/
theorem run_add (O : Ops σ ι) (a : Args) (m : ℕ) : ∀ (n : ℕ) {s s₁ : Acc σ}, s.stop = none → run O a n s = .ok s₁ →
    (s₁.stop ≠ none → run O a (n + m) s = .ok s₁) ∧
      (s₁.stop = none → ∃ l, run O a (n + m) s = run O a m { s₁ with log := l })
  | 0, s, s₁, hs, h => by
    simp only [run, Except.ok.injEq] at h
    subst h
    refine ⟨fun h => absurd hs h, fun _ => ⟨s.log, ?_⟩⟩
    rw [Nat.zero_add]
  | n + 1, s, s₁, hs, h => by
    rw [run] at h
    rw [Nat.add_right_comm, run]
    cases hb : body O a s with
    | error e => rw [hb] at h; cases h
    | ok x =>
      obtain ⟨s', b⟩ := x
      rw [hb] at h
      obtain ⟨-, -, -, hst, hsf, -⟩ := body_ok hb
      cases b
      · exact run_add O a m n ((hsf rfl).trans hs) h
      · simp only [Except.ok.injEq] at h
        subst h
        obtain ⟨x, hx⟩ := hst rfl
        exact ⟨fun _ => rfl, fun h0 => by rw [hx] at h0; cases h0⟩

/-- The number of allowed iterations does not matter otherwise. -/
theorem run_args (O : Ops σ ι) (a : Args) (k : ℤ) : ∀ (n : ℕ) (s : Acc σ), run O { a with nIterMax := k } n s = run O a n s
  | 0, s => rfl
  | n + 1, s => by
    rw [run, run]
    rw [show body O { a with nIterMax := k } s = body O a s from rfl]
    cases body O a s with
    | error e => rfl
    | ok x =>
      obtain ⟨s', b⟩ := x
      cases b
      · exact run_args O a k n s'
      · rfl

end Verif.Loop
