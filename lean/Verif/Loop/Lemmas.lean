import Verif.Loop.Model

/-!
# Lemmas on the outer loop
-/

namespace Verif.Loop

open Verif.ADMM

variable {σ ι : Type}

/-- `t` rounds of updates. -/
def sweeps (O : Ops σ ι) : ℕ → σ → Except PyErr σ
  | 0, s => .ok s
  | t + 1, s => (sweeps O t s).bind fun s' => (O.sweep s').map Prod.fst

/-- The states (with intermediate results) of an execution. -/
inductive Hist (O : Ops σ ι) (none : ι) (init : σ) : List (σ × ι) → σ → Prop
  | zero : Hist O none init [(init, none)] init
  | snoc {l : List (σ × ι)} {s s' : σ} {i : ι} : Hist O none init l s → O.sweep s = .ok (s', i) → Hist O none init (l ++ [(s', i)]) s'

theorem Hist.ne_nil {O : Ops σ ι} {none : ι} {init s : σ} {l : List (σ × ι)} (h : Hist O none init l s) : l ≠ [] := by
  cases h <;> simp

theorem Hist.sweeps_eq {O : Ops σ ι} {none : ι} {init s : σ} {l : List (σ × ι)} (h : Hist O none init l s) :
    sweeps O (l.length - 1) init = .ok s := by
  induction h with
  | zero => rfl
  | @snoc l s s' i hl hs ih =>
    have : 0 < l.length := List.length_pos_iff.2 hl.ne_nil
    obtain ⟨m, hm⟩ : ∃ m, l.length = m + 1 := ⟨l.length - 1, by omega⟩
    simp only [List.length_append, List.length_singleton, hm, Nat.add_sub_cancel] at ih ⊢
    rw [sweeps, ih]
    simp [Except.bind, hs, Except.map]

theorem Hist.get {O : Ops σ ι} {none : ι} {init s : σ} {l : List (σ × ι)} (h : Hist O none init l s) (t : ℕ) (x : σ × ι)
    (hx : l[t]? = some x) : sweeps O t init = .ok x.1 ∧ (t = 0 → x = (init, none)) ∧
      ∀ t', t = t' + 1 → ∃ p, sweeps O t' init = .ok p ∧ O.sweep p = .ok x := by
  induction h with
  | zero =>
    cases t with
    | zero => simp only [List.getElem?_cons_zero, Option.some.injEq] at hx; subst hx; exact ⟨rfl, fun _ => rfl, by simp⟩
    | succ t => simp at hx
  | @snoc l s s' i hl hs ih =>
    have hpos : 0 < l.length := List.length_pos_iff.2 hl.ne_nil
    rcases lt_trichotomy t l.length with ht | ht | ht
    · rw [List.getElem?_append_left ht] at hx
      exact ih hx
    · subst ht
      rw [List.getElem?_append_right le_rfl] at hx
      simp only [Nat.sub_self, List.getElem?_cons_zero, Option.some.injEq] at hx
      subst hx
      have h2 := hl.sweeps_eq
      refine ⟨?_, fun h => by omega, fun t' ht' => ⟨s, ?_, hs⟩⟩
      · have := (Hist.snoc hl hs).sweeps_eq
        simpa using this
      · rw [ht'] at h2; simpa using h2
    · rw [List.getElem?_append_right (by omega), List.getElem?_eq_none (by simp; omega)] at hx
      cases hx

/-! ### One iteration -/

/-- The parts of the accumulator that an iteration changes. -/
theorem body_ok {O : Ops σ ι} {a : Args} {s s' : Acc σ} {b : Bool} (h : body O a s = .ok (s', b)) :
    ∃ i, O.sweep s.st = .ok (s'.st, i) ∧ s'.nIter = s.nIter + 1 ∧
      (b = true → ∃ m, s'.stop = some m) ∧ (b = false → s'.stop = s.stop) ∧
      (a.returnErrors = true → s'.gaps = s.gaps ++ [O.gaps s'.st] ∧ s'.recErrors = s.recErrors ++ [O.relError s'.st i] ∧
        s'.losses = s.losses ++ [lossOf (O.relError s'.st i) (O.penalty s'.st)]) := by
  unfold body at h
  split at h
  · cases h
  · rename_i st inter hs
    refine ⟨inter, ?_⟩
    split at h
    · dsimp only at h
      split at h
      · rename_i hc
        cases h
        refine ⟨hs, rfl, by simp, by simp, fun hr => ?_⟩
        rw [hr] at hc; simp at hc
      · unfold checkStop at h
        split at h
        · split at h
          · cases h
          · split at h
            · cases h; exact ⟨hs, rfl, by simp, by simp, fun _ => ⟨rfl, rfl, rfl⟩⟩
            · split at h
              · cases h; exact ⟨hs, rfl, by simp, by simp, fun _ => ⟨rfl, rfl, rfl⟩⟩
              · cases h; exact ⟨hs, rfl, by simp, by simp, fun _ => ⟨rfl, rfl, rfl⟩⟩
        · cases h; exact ⟨hs, rfl, by simp, by simp, fun _ => ⟨rfl, rfl, rfl⟩⟩
    · rename_i hc
      cases h
      refine ⟨hs, rfl, by simp, by simp, fun hr => ?_⟩
      rw [hr] at hc; simp at hc

/-- When the loop is left. -/
theorem body_stop {O : Ops σ ι} {a : Args} {s s' : Acc σ} (h : body O a s = .ok (s', true)) :
    ∃ i, O.sweep s.st = .ok (s'.st, i) ∧ truthy a.tol = true ∧ (∃ abs, a.absTol = some abs) ∧ truthy a.feasTol = true ∧
      checkFeasibility (O.gaps s'.st) (a.feasTol.getD 0) = true ∧
      s'.losses = s.losses ++ [lossOf (O.relError s'.st i) (O.penalty s'.st)] ∧
      ((s'.stop = some .relative ∧ relCriterion (s.losses.getLastD .nan) (lossOf (O.relError s'.st i) (O.penalty s'.st)) (a.tol.getD 0) = true) ∨
        (s'.stop = some .absolute ∧ (lossOf (O.relError s'.st i) (O.penalty s'.st)).lt (a.absTol.getD 0) = true)) := by
  unfold body at h
  split at h
  · cases h
  · rename_i st inter hs
    refine ⟨inter, ?_⟩
    split at h
    · dsimp only at h
      split at h
      · cases h
      · unfold checkStop at h
        split at h
        · rename_i ht
          split at h
          · cases h
          · rename_i abs habs
            split at h
            · rename_i hc
              cases h
              simp only [Bool.and_eq_true] at hc
              exact ⟨hs, ht, ⟨abs, habs⟩, hc.1.1, hc.1.2, rfl, .inl ⟨rfl, hc.2⟩⟩
            · split at h
              · rename_i hc
                cases h
                simp only [Bool.and_eq_true] at hc
                exact ⟨hs, ht, ⟨abs, habs⟩, hc.1.1, hc.1.2, rfl, .inr ⟨rfl, by rw [habs]; exact hc.2⟩⟩
              · cases h
        · cases h
    · cases h

/-! ### The loop -/

/-- An execution of the loop: the state is the last of a history of rounds, the lists follow the history. -/
structure Follows (O : Ops σ ι) (a : Args) (none : ι) (init : σ) (l : List (σ × ι)) (s : Acc σ) : Prop where
  hist : Hist O none init l s.st
  len : l.length = s.nIter + 1
  lists : a.returnErrors = true → s.gaps = l.map (fun x => O.gaps x.1) ∧ s.recErrors = l.map (fun x => O.relError x.1 x.2) ∧
    s.losses = l.map fun x => lossOf (O.relError x.1 x.2) (O.penalty x.1)

theorem follows_init (O : Ops σ ι) (a : Args) (none : ι) (init : σ) : Follows O a none init [(init, none)] (initAcc O a none init) :=
  ⟨.zero, rfl, fun _ => ⟨rfl, rfl, rfl⟩⟩

theorem follows_body {O : Ops σ ι} {a : Args} {none : ι} {init : σ} {l : List (σ × ι)} {s s' : Acc σ} {b : Bool}
    (hf : Follows O a none init l s) (h : body O a s = .ok (s', b)) : ∃ i, Follows O a none init (l ++ [(s'.st, i)]) s' := by
  obtain ⟨i, hs, hn, -, -, hl⟩ := body_ok h
  refine ⟨i, hf.hist.snoc hs, by simp [hf.len, hn], fun hr => ?_⟩
  obtain ⟨h1, h2, h3⟩ := hl hr
  obtain ⟨g1, g2, g3⟩ := hf.lists hr
  simp [h1, h2, h3, g1, g2, g3]

/-- The end of the loop. -/
theorem run_ok {O : Ops σ ι} {a : Args} {none : ι} {init : σ} : ∀ {n : ℕ} {l : List (σ × ι)} {s s' : Acc σ},
    Follows O a none init l s → s.stop = .none → run O a n s = .ok s' →
    ∃ l', Follows O a none init l' s' ∧ l <+: l' ∧
      ((s'.stop = .none ∧ s'.nIter = s.nIter + n) ∨
        (s'.nIter ≤ s.nIter + n ∧ ∃ t t' : Acc σ, Follows O a none init l'.dropLast t ∧ body O a t = .ok (t', true) ∧ s' = t'))
  | 0, l, s, s', hf, hstop, h => by
    simp only [run, Except.ok.injEq] at h
    subst h
    exact ⟨l, ⟨hf.hist, hf.len, hf.lists⟩, List.prefix_rfl, .inl ⟨hstop, rfl⟩⟩
  | n + 1, l, s, s', hf, hstop, h => by
    rw [run] at h
    split at h
    · cases h
    · rename_i t hb
      cases h
      obtain ⟨i, hf'⟩ := follows_body hf hb
      obtain ⟨_, -, hn, -⟩ := body_ok hb
      refine ⟨_, hf', List.prefix_append _ _, .inr ⟨by omega, s, s', ?_, hb, rfl⟩⟩
      simpa using hf
    · rename_i t hb
      obtain ⟨i, hf'⟩ := follows_body hf hb
      obtain ⟨_, -, hn, -, hst, -⟩ := body_ok hb
      obtain ⟨l', h1, h2, h3⟩ := run_ok hf' ((hst rfl).trans hstop) h
      refine ⟨l', h1, (List.prefix_append _ _).trans h2, ?_⟩
      rcases h3 with ⟨h3, h4⟩ | ⟨h3, h4⟩
      · exact .inl ⟨h3, by omega⟩
      · exact .inr ⟨by omega, h4⟩

/-- The same rounds, first one first. -/
def sweeps' (O : Ops σ ι) : ℕ → σ → Except PyErr σ
  | 0, s => .ok s
  | t + 1, s => (O.sweep s).bind fun x => sweeps' O t x.1

theorem sweeps'_succ (O : Ops σ ι) : ∀ (t : ℕ) (s : σ), sweeps' O (t + 1) s = (sweeps' O t s).bind fun s' => (O.sweep s').map Prod.fst
  | 0, s => by
    simp only [sweeps', Except.bind]
    cases O.sweep s <;> rfl
  | t + 1, s => by
    rw [sweeps', sweeps']
    cases h : O.sweep s with
    | error e => rfl
    | ok x => simp only [Except.bind]; exact sweeps'_succ O t x.1

theorem sweeps_eq' (O : Ops σ ι) (t : ℕ) (s : σ) : sweeps O t s = sweeps' O t s := by
  induction t with
  | zero => rfl
  | succ t ih => rw [sweeps'_succ, sweeps, ih]

/-- Without relative tolerance, the loop is a number of rounds. -/
theorem run_plain {O : Ops σ ι} {a : Args} (h1 : truthy a.tol = false) :
    ∀ (n : ℕ) (s : Acc σ), (run O a n s).map (fun s => (s.st, s.nIter)) = (sweeps' O n s.st).map fun st => (st, s.nIter + n)
  | 0, s => rfl
  | n + 1, s => by
    rw [run, sweeps']
    cases hs : O.sweep s.st with
    | error e => simp [body, hs, Except.map, Except.bind]
    | ok x =>
      obtain ⟨st, i⟩ := x
      have hb : ∃ s', body O a s = .ok (s', false) ∧ s'.st = st ∧ s'.nIter = s.nIter + 1 := by
        unfold body checkStop
        simp only [hs, h1, Bool.false_or, Bool.false_eq_true, if_false]
        repeat' split
        all_goals exact ⟨_, rfl, rfl, rfl⟩
      obtain ⟨s', hb, hst, hn⟩ := hb
      rw [hb]
      simp only [Except.bind]
      rw [run_plain h1 n s', hst, hn]
      simp only [Nat.add_assoc, Nat.add_comm 1 n]

theorem run_sweeps {O : Ops σ ι} {a : Args} (h1 : truthy a.tol = false) (n : ℕ) (s : Acc σ) :
    (run O a n s).map (fun s => (s.st, s.nIter)) = (sweeps O n s.st).map fun st => (st, s.nIter + n) := by
  rw [sweeps_eq']; exact run_plain h1 n s

/-! ### The first iteration that meets the criteria -/

/-- The stopping criterion for the gaps and the last two losses. -/
noncomputable def meets (a : Args) (g : Gaps) (p q : PyF) : Bool :=
  checkFeasibility g (a.feasTol.getD 0) && (relCriterion p q (a.tol.getD 0) || q.lt (a.absTol.getD 0))

theorem body_meets {O : Ops σ ι} {a : Args} (h1 : truthy a.tol = true) (h2 : a.absTol.isSome) (h3 : truthy a.feasTol = true)
    {s s' : Acc σ} {b : Bool} (h : body O a s = .ok (s', b)) :
    (a.returnErrors = true → ∃ q, s'.losses = s.losses ++ [q] ∧ s'.gaps = s.gaps ++ [O.gaps s'.st] ∧
      b = meets a (O.gaps s'.st) (s.losses.getLastD .nan) q) := by
  intro hr
  obtain ⟨ab, hab⟩ := Option.isSome_iff_exists.1 h2
  unfold body at h
  split at h
  · cases h
  · simp only [h1, Bool.true_or, if_true, hr, Bool.not_true, Bool.and_false, Bool.false_eq_true, if_false, h3, Bool.true_and, checkStop, hab] at h
    unfold meets
    rw [hab]
    split at h
    · rename_i hc
      cases h
      refine ⟨_, rfl, rfl, ?_⟩
      simp only [Bool.and_eq_true] at hc
      rw [hc.1, hc.2]; rfl
    · rename_i hc
      split at h
      · rename_i hc'
        cases h
        refine ⟨_, rfl, rfl, ?_⟩
        simp only [Bool.and_eq_true] at hc'
        rw [hc'.1, Option.getD_some, hc'.2, Bool.or_true]; rfl
      · rename_i hc'
        cases h
        refine ⟨_, rfl, rfl, ?_⟩
        symm
        rw [← Bool.not_eq_true]
        simp only [Bool.and_eq_true, Bool.or_eq_true, Option.getD_some]
        simp only [Bool.and_eq_true] at hc hc'
        tauto

/-- The lists have one entry per iteration, and no iteration so far met the criterion. -/
structure NotYet (a : Args) (s : Acc σ) : Prop where
  losses : s.losses.length = s.nIter + 1
  gaps : s.gaps.length = s.nIter + 1
  no : ∀ k g p q, s.gaps[k + 1]? = some g → s.losses[k]? = some p → s.losses[k + 1]? = some q → meets a g p q = false
  stop : s.stop = none

theorem run_meets {O : Ops σ ι} {a : Args} (h1 : truthy a.tol = true) (h2 : a.absTol.isSome) (h3 : truthy a.feasTol = true)
    (hr : a.returnErrors = true) : ∀ {n : ℕ} {s s' : Acc σ}, NotYet a s → run O a n s = .ok s' →
      ∀ k g p q, s'.gaps[k + 1]? = some g → s'.losses[k]? = some p → s'.losses[k + 1]? = some q →
        (meets a g p q = true ↔ k + 1 = s'.nIter ∧ s'.stop.isSome)
  | 0, s, s', hs, h => by
    simp only [run, Except.ok.injEq] at h
    subst h
    intro k g p q hg hp hq
    have := hs.no k g p q hg hp hq
    simp [this, hs.stop]
  | n + 1, s, s', hs, h => by
    rw [run] at h
    split at h
    · cases h
    · rename_i t hb
      cases h
      obtain ⟨i, -, hn, hm, -⟩ := body_ok hb
      obtain ⟨q0, hl, hg0, hmeet⟩ := body_meets h1 h2 h3 hb hr
      obtain ⟨m, hm⟩ := hm rfl
      intro k g p q hg hp hq
      rw [hl] at hp hq
      rw [hg0] at hg
      rcases Nat.lt_or_ge (k + 1) (s.nIter + 1) with hk | hk
      · rw [List.getElem?_append_left (by rw [hs.gaps]; exact hk)] at hg
        rw [List.getElem?_append_left (by rw [hs.losses]; omega)] at hp
        rw [List.getElem?_append_left (by rw [hs.losses]; exact hk)] at hq
        rw [hs.no k g p q hg hp hq, hn]
        simp; omega
      · have hk' : k = s.nIter := by
          by_contra hne
          rw [List.getElem?_eq_none (by simp [hs.gaps]; omega)] at hg
          cases hg
        subst hk'
        rw [List.getElem?_append_right (by rw [hs.gaps]), hs.gaps] at hg
        rw [List.getElem?_append_right (by rw [hs.losses]), hs.losses] at hq
        rw [List.getElem?_append_left (by rw [hs.losses]; omega)] at hp
        simp only [Nat.sub_self, List.getElem?_cons_zero, Option.some.injEq] at hg hq
        have hp' : s.losses.getLastD .nan = p := by
          rw [List.getLastD_eq_getLast?, List.getLast?_eq_getElem?, hs.losses, Nat.add_sub_cancel, hp]; rfl
        rw [hp', hg, hq] at hmeet
        rw [← hmeet, hn, hm]
        simp
    · rename_i t hb
      obtain ⟨i, -, hn, -, hst, -⟩ := body_ok hb
      obtain ⟨q0, hl, hg0, hmeet⟩ := body_meets h1 h2 h3 hb hr
      refine run_meets h1 h2 h3 hr ⟨?_, ?_, ?_, (hst rfl).trans hs.stop⟩ h
      · rw [hl, List.length_append, hs.losses, hn]; rfl
      · rw [hg0, List.length_append, hs.gaps, hn]; rfl
      · intro k g p q hg hp hq
        rw [hl] at hp hq
        rw [hg0] at hg
        rcases Nat.lt_or_ge (k + 1) (s.nIter + 1) with hk | hk
        · rw [List.getElem?_append_left (by rw [hs.gaps]; exact hk)] at hg
          rw [List.getElem?_append_left (by rw [hs.losses]; omega)] at hp
          rw [List.getElem?_append_left (by rw [hs.losses]; exact hk)] at hq
          exact hs.no k g p q hg hp hq
        · have hk' : k = s.nIter := by
            by_contra hne
            rw [List.getElem?_eq_none (by simp [hs.gaps]; omega)] at hg
            cases hg
          subst hk'
          rw [List.getElem?_append_right (by rw [hs.gaps]), hs.gaps] at hg
          rw [List.getElem?_append_right (by rw [hs.losses]), hs.losses] at hq
          rw [List.getElem?_append_left (by rw [hs.losses]; omega)] at hp
          simp only [Nat.sub_self, List.getElem?_cons_zero, Option.some.injEq] at hg hq
          have hp' : s.losses.getLastD .nan = p := by
            rw [List.getLastD_eq_getLast?, List.getLast?_eq_getElem?, hs.losses, Nat.add_sub_cancel, hp]; rfl
          rw [hp', hg, hq] at hmeet
          exact hmeet.symm

end Verif.Loop
