import Verif.Raise.Model
import Verif.Loop.Lemmas

/-!
# Lemmas on penalties that may raise
-/

namespace Verif.Raise

open Verif.ADMM Verif.Penalties Verif.Loop Verif.Spec Finset

theorem seqPi_ok : ∀ {n : ℕ} {β : Fin n → Type} {f : (i : Fin n) → Except PyErr (β i)} {g : (i : Fin n) → β i}, seqPi n f = .ok g → ∀ i, f i = .ok (g i)
  | 0, _, _, _, _, i => i.elim0
  | n + 1, β, f, g, h, i => by
    unfold seqPi at h
    cases h0 : f 0 with
    | error e => rw [h0] at h; cases h
    | ok x =>
      rw [h0] at h
      cases h1 : seqPi n fun i => f i.succ with
      | error e => rw [h1] at h; cases h
      | ok xs =>
        rw [h1] at h
        cases h
        refine Fin.cases ?_ (fun j => ?_) i
        · exact h0
        · exact seqPi_ok h1 j

theorem seqPi_of_ok : ∀ {n : ℕ} {β : Fin n → Type} {f : (i : Fin n) → Except PyErr (β i)} {g : (i : Fin n) → β i}, (∀ i, f i = .ok (g i)) → seqPi n f = .ok g
  | 0, _, _, g, _ => by
    unfold seqPi
    exact congrArg Except.ok (funext fun i => i.elim0)
  | n + 1, β, f, g, h => by
    unfold seqPi
    rw [h 0]
    simp only
    rw [seqPi_of_ok (g := fun i => g i.succ) fun i => h i.succ]
    simp only
    exact congrArg Except.ok (funext fun i => by refine Fin.cases ?_ (fun j => ?_) i <;> rfl)

/-- The exception is that of the first entry that raises. -/
theorem seqPi_error : ∀ {n : ℕ} {β : Fin n → Type} {f : (i : Fin n) → Except PyErr (β i)} {e : PyErr}, seqPi n f = .error e →
    ∃ i, f i = .error e ∧ ∀ j < i, ∃ x, f j = .ok x
  | 0, _, _, _, h => by cases h
  | n + 1, β, f, e, h => by
    unfold seqPi at h
    cases h0 : f 0 with
    | error e' => rw [h0] at h; cases h; exact ⟨0, h0, fun j hj => absurd hj (Fin.not_lt_zero j)⟩
    | ok x =>
      rw [h0] at h
      cases h1 : seqPi n fun i => f i.succ with
      | error e' =>
        rw [h1] at h
        cases h
        obtain ⟨i, hi, hj⟩ := seqPi_error h1
        refine ⟨i.succ, hi, fun j => ?_⟩
        refine Fin.cases (fun _ => ⟨x, h0⟩) (fun k hk => hj k ?_) j
        exact Fin.succ_lt_succ_iff.1 hk
      | ok xs => rw [h1] at h; cases h

theorem seqPi_of_error {n : ℕ} {β : Fin n → Type} {f : (i : Fin n) → Except PyErr (β i)} {e : PyErr} {i : Fin n} (hi : f i = .error e)
    (hj : ∀ j < i, ∃ x, f j = .ok x) : seqPi n f = .error e := by
  cases h : seqPi n f with
  | ok g => have := seqPi_ok h i; rw [hi] at this; cases this
  | error e' =>
    obtain ⟨k, hk, hl⟩ := seqPi_error h
    rcases lt_trichotomy i k with h1 | rfl | h1
    · obtain ⟨x, hx⟩ := hl i h1; rw [hi] at hx; cases hx
    · rw [hi] at hk; cases hk; rfl
    · obtain ⟨x, hx⟩ := hj k h1; rw [hk] at hx; cases hx

/-! ### The inner loop -/

section
variable {σ : Type}

theorem innerLoopR_ok {stepR : σ → Except PyErr σ} {step : σ → σ} {stop : σ → σ → Bool} (h : ∀ s s', stepR s = .ok s' → step s = s') :
    ∀ {n : ℕ} {s t : σ}, innerLoopR stepR stop n s = .ok t → innerLoop step stop n s = t
  | 0, s, t, hr => by cases hr; rfl
  | n + 1, s, t, hr => by
    unfold innerLoopR at hr
    cases hs : stepR s with
    | error e => rw [hs] at hr; cases hr
    | ok s' =>
      rw [hs] at hr
      simp only at hr
      have e := h s s' hs
      unfold innerLoop
      rw [e]
      by_cases hst : stop s s' = true
      · rw [if_pos hst] at hr ⊢; cases hr; rfl
      · rw [if_neg hst] at hr ⊢; exact innerLoopR_ok h hr

theorem innerLoopR_error {stepR : σ → Except PyErr σ} {stop : σ → σ → Bool} {e : PyErr} :
    ∀ {n : ℕ} {s : σ}, innerLoopR stepR stop n s = .error e → 0 < n ∧ ∃ s', stepR s' = .error e
  | 0, s, hr => by cases hr
  | n + 1, s, hr => by
    unfold innerLoopR at hr
    cases hs : stepR s with
    | error e' => rw [hs] at hr; cases hr; exact ⟨by omega, s, hs⟩
    | ok s' =>
      rw [hs] at hr
      simp only at hr
      by_cases hst : stop s s' = true
      · rw [if_pos hst] at hr; cases hr
      · rw [if_neg hst] at hr; exact ⟨by omega, (innerLoopR_error hr).2⟩

/-- What the loop returns after at least one iteration is the result of a step. -/
theorem innerLoopR_last {stepR : σ → Except PyErr σ} {stop : σ → σ → Bool} : ∀ {n : ℕ} {s t : σ}, 0 < n → innerLoopR stepR stop n s = .ok t →
    ∃ s', stepR s' = .ok t
  | n + 1, s, t, _, hr => by
    unfold innerLoopR at hr
    cases hs : stepR s with
    | error e => rw [hs] at hr; cases hr
    | ok s' =>
      rw [hs] at hr
      simp only at hr
      by_cases hst : stop s s' = true
      · rw [if_pos hst] at hr; cases hr; exact ⟨s, hs⟩
      · rw [if_neg hst] at hr
        rcases Nat.eq_zero_or_pos n with rfl | hn
        · cases hr; exact ⟨s, hs⟩
        · exact innerLoopR_last hn hr

end

/-! ### The outer loop -/

section
variable {σ ι : Type}

/-- `O'` does what `O` does wherever `O` returns. -/
structure ROps.Completes (O : ROps σ ι) (O' : Ops σ ι) : Prop where
  sweep : ∀ s r, O.sweep s = .ok r → O'.sweep s = .ok r
  gaps : O'.gaps = O.gaps
  relError : O'.relError = O.relError
  penalty : ∀ s v, O.penalty s = .ok v → O'.penalty s = v

theorem bodyR_ok {O : ROps σ ι} {O' : Ops σ ι} (h : O.Completes O') {a : Args} {s : Acc σ} {r : Acc σ × Bool} (hr : bodyR O a s = .ok r) : body O' a s = .ok r := by
  unfold bodyR at hr
  unfold body
  cases hs : O.sweep s.st with
  | error e => rw [hs] at hr; cases hr
  | ok x =>
    obtain ⟨st, inter⟩ := x
    rw [hs] at hr
    rw [h.sweep _ _ hs]
    simp only [h.gaps, h.relError] at hr ⊢
    by_cases h1 : (truthy a.tol || truthy a.absTol || a.returnErrors) = true
    · rw [if_pos h1] at hr ⊢
      by_cases h2 : ((truthy a.tol || truthy a.absTol) && !(truthy a.feasTol && checkFeasibility (O.gaps st) (a.feasTol.getD 0)) && !a.returnErrors) = true
      · rw [if_pos h2] at hr ⊢; exact hr
      · rw [if_neg h2] at hr ⊢
        cases hv : O.penalty st with
        | error e => rw [hv] at hr; cases hr
        | ok v =>
          rw [hv] at hr
          rw [h.penalty _ _ hv]
          exact hr
    · rw [if_neg h1] at hr ⊢; exact hr

theorem bodyR_error {O : ROps σ ι} {O' : Ops σ ι} (h : O.Completes O') {a : Args} {s : Acc σ} {e : PyErr} (hr : bodyR O a s = .error e) :
    body O' a s = .error e ∨ (O.sweep s.st = .error e ∧ O'.sweep s.st ≠ .error e) ∨ ∃ st i, O.sweep s.st = .ok (st, i) ∧ O.penalty st = .error e := by
  unfold bodyR at hr
  unfold body
  cases hs : O.sweep s.st with
  | error e' =>
    rw [hs] at hr
    cases hr
    by_cases he : O'.sweep s.st = .error e
    · rw [he]; exact .inl rfl
    · exact .inr (.inl ⟨rfl, he⟩)
  | ok x =>
    obtain ⟨st, inter⟩ := x
    rw [hs] at hr
    rw [h.sweep _ _ hs]
    simp only [h.gaps, h.relError] at hr ⊢
    by_cases h1 : (truthy a.tol || truthy a.absTol || a.returnErrors) = true
    · rw [if_pos h1] at hr ⊢
      by_cases h2 : ((truthy a.tol || truthy a.absTol) && !(truthy a.feasTol && checkFeasibility (O.gaps st) (a.feasTol.getD 0)) && !a.returnErrors) = true
      · rw [if_pos h2] at hr; cases hr
      · rw [if_neg h2] at hr ⊢
        cases hv : O.penalty st with
        | error e' => rw [hv] at hr; cases hr; exact .inr (.inr ⟨st, inter, rfl, hv⟩)
        | ok v =>
          rw [hv] at hr
          rw [h.penalty _ _ hv]
          exact .inl hr
    · rw [if_neg h1] at hr; cases hr

theorem runR_ok {O : ROps σ ι} {O' : Ops σ ι} (h : O.Completes O') {a : Args} : ∀ {n : ℕ} {s t : Acc σ}, runR O a n s = .ok t → run O' a n s = .ok t
  | 0, s, t, hr => hr
  | n + 1, s, t, hr => by
    unfold runR at hr
    unfold run
    cases hb : bodyR O a s with
    | error e => rw [hb] at hr; cases hr
    | ok x =>
      obtain ⟨s', b⟩ := x
      rw [hb] at hr
      rw [bodyR_ok h hb]
      cases b with
      | true => exact hr
      | false => exact runR_ok h hr

theorem body_sweeps {O : Ops σ ι} {a : Args} {s s' : Acc σ} {b : Bool} (h : body O a s = .ok (s', b)) : ∃ i, O.sweep s.st = .ok (s'.st, i) := by
  obtain ⟨i, hs, -⟩ := body_ok h
  exact ⟨i, hs⟩

theorem runR_error {O : ROps σ ι} {O' : Ops σ ι} (h : O.Completes O') {a : Args} {e : PyErr} : ∀ {n : ℕ} {s : Acc σ}, runR O a n s = .error e →
    run O' a n s = .error e ∨ ∃ t < n, ∃ s', sweeps' O' t s.st = .ok s' ∧
      ((O.sweep s' = .error e ∧ O'.sweep s' ≠ .error e) ∨ ∃ st i, O.sweep s' = .ok (st, i) ∧ O.penalty st = .error e)
  | 0, s, hr => by cases hr
  | n + 1, s, hr => by
    unfold runR at hr
    unfold run
    cases hb : bodyR O a s with
    | error e' =>
      rw [hb] at hr
      cases hr
      rcases bodyR_error h hb with h1 | h1
      · rw [h1]; exact .inl rfl
      · exact .inr ⟨0, by omega, s.st, rfl, h1⟩
    | ok x =>
      obtain ⟨s', b⟩ := x
      rw [hb] at hr
      have hb' := bodyR_ok h hb
      rw [hb']
      cases b with
      | true => cases hr
      | false =>
        rcases runR_error h hr with h1 | ⟨t, ht, st, h1, h2⟩
        · exact .inl h1
        · obtain ⟨i, hs⟩ := body_sweeps hb'
          refine .inr ⟨t + 1, by omega, st, ?_, h2⟩
          rw [sweeps', hs]
          exact h1

theorem diagnostics_eq {O : ROps σ ι} {O' : Ops σ ι} (h : O.Completes O') (a : Args) (s : Acc σ) : diagnostics O' a s = diagnostics O.base a s := by
  unfold diagnostics
  simp only [h.gaps, ROps.base]

theorem initAcc_eq {O : ROps σ ι} {O' : Ops σ ι} (h : O.Completes O') (a : Args) (none : ι) {st : σ} {v : ℝ} (hv : O.penalty st = .ok v) :
    initAcc O' a none st = { initAcc O.base a none st with losses := [lossOf (O.relError st none) v] } := by
  unfold initAcc
  simp only [h.gaps, h.relError, h.penalty _ _ hv, ROps.base]

theorem fitR_ok {O : ROps σ ι} {O' : Ops σ ι} (h : O.Completes O') {a : Args} {none : ι} {st : σ} {out : Output σ} (hr : fitR O a none st = .ok out) :
    fit O' a none st = .ok out := by
  unfold fitR at hr
  unfold fit
  cases hv : O.penalty st with
  | error e => rw [hv] at hr; cases hr
  | ok v =>
    rw [hv] at hr
    simp only at hr
    rw [initAcc_eq h a none hv]
    cases hrun : runR O a a.nIterMax.toNat { initAcc O.base a none st with losses := [lossOf (O.relError st none) v] } with
    | error e => rw [hrun] at hr; cases hr
    | ok s =>
      rw [hrun] at hr
      rw [runR_ok h hrun]
      simp only [diagnostics_eq h]
      exact hr

theorem fitR_error {O : ROps σ ι} {O' : Ops σ ι} (h : O.Completes O') {a : Args} {none : ι} {st : σ} {e : PyErr} (hr : fitR O a none st = .error e) :
    fit O' a none st = .error e ∨ O.penalty st = .error e ∨ ∃ t : ℕ, (t : ℤ) < a.nIterMax ∧ ∃ s', sweeps O' t st = .ok s' ∧
      ((O.sweep s' = .error e ∧ O'.sweep s' ≠ .error e) ∨ ∃ u i, O.sweep s' = .ok (u, i) ∧ O.penalty u = .error e) := by
  unfold fitR at hr
  unfold fit
  cases hv : O.penalty st with
  | error e' => rw [hv] at hr; cases hr; exact .inr (.inl rfl)
  | ok v =>
    rw [hv] at hr
    simp only at hr
    rw [initAcc_eq h a none hv]
    cases hrun : runR O a a.nIterMax.toNat { initAcc O.base a none st with losses := [lossOf (O.relError st none) v] } with
    | ok s => rw [hrun] at hr; cases hr
    | error e' =>
      rw [hrun] at hr
      cases hr
      rcases runR_error h hrun with h1 | ⟨t, ht, s', h1, h2⟩
      · rw [h1]; exact .inl rfl
      · refine .inr (.inr ⟨t, by omega, s', ?_, h2⟩)
        rw [sweeps_eq']
        exact h1

/-- A completion that keeps the rounds as they are. -/
theorem completes_self (O : ROps σ ι) : O.Completes ⟨O.sweep, O.gaps, O.relError, fun s => (O.penalty s).toOption.getD 0⟩ :=
  ⟨fun _ _ h => h, rfl, rfl, fun s v h => by simp only [h]; rfl⟩

end

end Verif.Raise
