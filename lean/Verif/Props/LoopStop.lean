import Verif.Props.Loop

/-!
# C40, C41: what the diagnostics and the tolerances do
-/

namespace Verif.Props

open Verif.Loop Verif.ADMM Verif.Penalties Verif.Spec Finset Matrix

variable {I K R nA nB nC : ℕ} {J : Fin I → ℕ}

/-! ### C40 -/

/-- Two accumulators agree on everything that influences the result. -/
structure Same {σ : Type} (a : Args) (s s' : Acc σ) : Prop where
  st : s.st = s'.st
  nIter : s.nIter = s'.nIter
  stop : s.stop = s'.stop
  prev : truthy a.tol = true → truthy a.feasTol = true → s.losses.getLastD .nan = s'.losses.getLastD .nan

/-- Two results agree: both raise the same exception, or both return the same Boolean and agreeing accumulators. -/
inductive SameRes {σ : Type} (a : Args) : Except PyErr (Acc σ × Bool) → Except PyErr (Acc σ × Bool) → Prop
  | ok {s s' : Acc σ} (b : Bool) : Same a s s' → SameRes a (.ok (s, b)) (.ok (s', b))
  | error (e : PyErr) : SameRes a (.error e) (.error e)

/-- When `return_errors` cannot matter: no stopping at all is possible, or every new state counts as feasible. -/
def Indifferent {σ ι : Type} (O : Ops σ ι) (a a' : Args) : Prop :=
  a.returnErrors = a'.returnErrors ∨ truthy a.tol = false ∨ (truthy a.feasTol = false ∧ a.absTol.isSome) ∨
    ∀ s s' i, O.sweep s = .ok (s', i) → truthy a.feasTol = true ∧ checkFeasibility (O.gaps s') (a.feasTol.getD 0) = true

theorem body_same {σ ι : Type} {O : Ops σ ι} {a a' : Args} (ht : a.tol = a'.tol) (hab : a.absTol = a'.absTol) (hf : a.feasTol = a'.feasTol)
    (hc : Indifferent O a a') {s s' : Acc σ} (hs : Same a s s') : SameRes a (body O a s) (body O a' s') := by
  unfold body
  rw [← hs.st, ← ht, ← hab, ← hf, ← hs.nIter]
  cases hsw : O.sweep s.st with
  | error e => exact .error e
  | ok x =>
    obtain ⟨st, i⟩ := x
    dsimp only
    cases h1 : truthy a.tol with
    | false =>
      unfold checkStop
      simp only [← ht, h1, Bool.false_or, Bool.false_eq_true, if_false]
      have hp : ∀ l l' : List PyF, truthy a.tol = true → truthy a.feasTol = true → l.getLastD .nan = l'.getLastD .nan := by
        intro _ _ h; rw [h1] at h; cases h
      repeat' split
      all_goals exact .ok _ ⟨rfl, rfl, hs.stop, hp _ _⟩
    | true =>
      simp only [Bool.true_or, if_true, Bool.true_and]
      unfold checkStop
      simp only [← ht, ← hab, h1, if_true]
      cases h2 : truthy a.feasTol with
      | false =>
        have hp : ∀ l l' : List PyF, truthy a.tol = true → truthy a.feasTol = true → l.getLastD .nan = l'.getLastD .nan := by
          intro _ _ _ h; rw [h2] at h; cases h
        simp only [Bool.false_and, Bool.not_false, Bool.true_and, Bool.false_eq_true, if_false]
        rcases hc with hc | hc | hc | hc
        · rw [← hc]
          split
          · exact .ok _ ⟨rfl, rfl, hs.stop, hp _ _⟩
          · split
            · exact .error _
            · exact .ok _ ⟨rfl, rfl, hs.stop, hp _ _⟩
        · rw [h1] at hc; cases hc
        · obtain ⟨ab, hab'⟩ := Option.isSome_iff_exists.1 hc.2
          rw [hab']
          dsimp only
          repeat' split
          all_goals exact .ok _ ⟨rfl, rfl, hs.stop, hp _ _⟩
        · have := (hc _ _ _ hsw).1; rw [h2] at this; cases this
      | true =>
        simp only [Bool.true_and]
        rw [← hs.prev h1 h2]
        have hfe : a.returnErrors = a'.returnErrors ∨ checkFeasibility (O.gaps st) (a.feasTol.getD 0) = true := by
          rcases hc with hc | hc | hc | hc
          · exact .inl hc
          · rw [h1] at hc; cases hc
          · rw [h2] at hc; cases hc.1
          · exact .inr (hc _ _ _ hsw).2
        have hskip : (!checkFeasibility (O.gaps st) (a.feasTol.getD 0) && !a.returnErrors)
            = (!checkFeasibility (O.gaps st) (a.feasTol.getD 0) && !a'.returnErrors) := by
          rcases hfe with h | h
          · rw [h]
          · rw [h]; rfl
        rw [← hskip]
        split
        · exact .ok _ ⟨rfl, rfl, hs.stop, hs.prev⟩
        · split
          · exact .error _
          · split
            · exact .ok _ ⟨rfl, rfl, rfl, fun _ _ => by simp⟩
            · split
              · exact .ok _ ⟨rfl, rfl, rfl, fun _ _ => by simp⟩
              · exact .ok _ ⟨rfl, rfl, hs.stop, fun _ _ => by simp⟩

theorem run_same {σ ι : Type} {O : Ops σ ι} {a a' : Args} (ht : a.tol = a'.tol) (hab : a.absTol = a'.absTol) (hf : a.feasTol = a'.feasTol)
    (hc : Indifferent O a a') : ∀ (n : ℕ) {s s' : Acc σ}, Same a s s' →
    (run O a n s).map (fun x => (x.st, x.nIter, x.stop)) = (run O a' n s').map fun x => (x.st, x.nIter, x.stop)
  | 0, s, s', h => by simp only [run, Except.map]; rw [h.st, h.nIter, h.stop]
  | n + 1, s, s', h => by
    have hb := body_same ht hab hf hc h
    rw [run, run]
    cases h1 : body O a s with
    | error e =>
      cases h2 : body O a' s' with
      | error e' => rw [h1, h2] at hb; cases hb; rfl
      | ok x' => obtain ⟨x', b'⟩ := x'; rw [h1, h2] at hb; cases hb
    | ok x =>
      obtain ⟨x, b⟩ := x
      cases h2 : body O a' s' with
      | error e' => rw [h1, h2] at hb; cases hb
      | ok x' =>
        obtain ⟨x', b'⟩ := x'
        rw [h1, h2] at hb
        obtain ⟨hq, rfl⟩ : Same a x x' ∧ b = b' := by cases hb; exact ⟨‹_›, rfl⟩
        cases b with
        | true => simp only [Except.map]; rw [hq.st, hq.nIter, hq.stop]
        | false => exact run_same ht hab hf hc n hq

theorem fit_same {σ ι : Type} {O : Ops σ ι} {a a' : Args} (hn : a.nIterMax = a'.nIterMax) (ht : a.tol = a'.tol) (hab : a.absTol = a'.absTol)
    (hf : a.feasTol = a'.feasTol) (hc : Indifferent O a a') (z : ι) (init : σ) :
    (fit O a z init).map (fun o => o.st) = (fit O a' z init).map fun o => o.st := by
  have := run_same ht hab hf hc a.nIterMax.toNat (s := initAcc O a z init) (s' := initAcc O a' z init) ⟨rfl, rfl, rfl, fun _ _ => rfl⟩
  unfold fit
  rw [← hn]
  cases h1 : run O a a.nIterMax.toNat (initAcc O a z init) with
  | error e =>
    cases h2 : run O a' a.nIterMax.toNat (initAcc O a' z init) with
    | error e' => rw [h1, h2] at this; simpa [Except.map] using this
    | ok s' => rw [h1, h2] at this; cases this
  | ok s =>
    cases h2 : run O a' a.nIterMax.toNat (initAcc O a' z init) with
    | error e' => rw [h1, h2] at this; cases this
    | ok s' =>
      rw [h1, h2] at this
      simp only [Except.map, Except.ok.injEq, Prod.mk.injEq] at this ⊢
      exact this.1

/-- C40, `verbose`: the returned values do not depend on it. -/
theorem C40_verbose (P : Problem I K R nA nB nC J) (a : Args) (v : ℤ) (init : AOState I K R nA nB nC J) :
    (cmfAoadmm P a init).map (fun o => (o.st, o.diag)) = (cmfAoadmm P { a with verbose := v } init).map fun o => (o.st, o.diag) := by
  have hb : ∀ s s' : Acc (AOState I K R nA nB nC J), { s with log := [] } = { s' with log := [] } →
      (body (aoOps P) a s).map (fun x => ({ x.1 with log := [] }, x.2)) =
      (body (aoOps P) { a with verbose := v } s').map (fun x => (({ x.1 with log := [] } : Acc _), x.2)) := by
    intro s s' h
    simp only [Acc.mk.injEq] at h
    obtain ⟨h1, h2, h3, h4, h5, h6, -⟩ := h
    unfold body checkStop
    rw [← h1, ← h2, ← h3, ← h4, ← h5, ← h6]
    cases (aoOps P).sweep s.st with
    | error e => rfl
    | ok x =>
      obtain ⟨st, i⟩ := x
      dsimp only
      split
      · split
        · rfl
        · split
          · split
            · rfl
            · split
              · rfl
              · split <;> rfl
          · rfl
      · rfl
  have hr : ∀ (n : ℕ) (s s' : Acc (AOState I K R nA nB nC J)), { s with log := [] } = { s' with log := [] } →
      (run (aoOps P) a n s).map (fun x => { x with log := [] }) =
      (run (aoOps P) { a with verbose := v } n s').map (fun x => ({ x with log := [] } : Acc _)) := by
    intro n
    induction n with
    | zero => intro s s' h; simp only [run, Except.map]; simpa using h
    | succ n ih =>
      intro s s' h
      have := hb s s' h
      rw [run, run]
      cases h1 : body (aoOps P) a s with
      | error e =>
        cases h2 : body (aoOps P) { a with verbose := v } s' with
        | error e' => rw [h1, h2] at this; simpa [Except.map] using this
        | ok x' => rw [h1, h2] at this; cases this
      | ok x =>
        obtain ⟨x, b⟩ := x
        cases h2 : body (aoOps P) { a with verbose := v } s' with
        | error e' => rw [h1, h2] at this; cases this
        | ok x' =>
          obtain ⟨x', b'⟩ := x'
          rw [h1, h2] at this
          simp only [Except.map, Except.ok.injEq, Prod.mk.injEq] at this
          obtain ⟨e1, rfl⟩ := this
          cases b with
          | true => simpa [Except.map] using e1
          | false => exact ih _ _ e1
  have := hr a.nIterMax.toNat (initAcc (aoOps P) a none init) (initAcc (aoOps P) { a with verbose := v } none init) rfl
  unfold cmfAoadmm fit
  cases h1 : run (aoOps P) a a.nIterMax.toNat (initAcc (aoOps P) a none init) with
  | error e =>
    cases h2 : run (aoOps P) { a with verbose := v } a.nIterMax.toNat (initAcc (aoOps P) { a with verbose := v } none init) with
    | error e' => rw [h1, h2] at this; simpa [Except.map] using this
    | ok x' => rw [h1, h2] at this; cases this
  | ok x =>
    cases h2 : run (aoOps P) { a with verbose := v } a.nIterMax.toNat (initAcc (aoOps P) { a with verbose := v } none init) with
    | error e' => rw [h1, h2] at this; cases this
    | ok x' =>
      rw [h1, h2] at this
      simp only [Except.map, Except.ok.injEq, Acc.mk.injEq] at this
      obtain ⟨e1, e2, e3, e4, e5, e6, -⟩ := this
      simp only [Except.map, diagnostics, e1, e2, e3, e4, e5, e6]

/-- C40 when stopping cannot depend on skipped losses: no relative tolerance, or no feasibility tolerance, or no penalties at all. Missing: the other calls,
for which it is false (`C40_false`). -/
theorem C40_partial (P : Problem I K R nA nB nC J) (a a' : Args) (hn : a.nIterMax = a'.nIterMax) (ht : a.tol = a'.tol)
    (hab : a.absTol = a'.absTol) (hf : a.feasTol = a'.feasTol) (init : AOState I K R nA nB nC J)
    (hc : (∀ t, ¬ IsSet a.tol t) ∨ ((∀ t, ¬ IsSet a.feasTol t) ∧ a.absTol ≠ none) ∨ (nA = 0 ∧ nB = 0 ∧ nC = 0 ∧ a.absTol ≠ none)) :
    (cmfAoadmm P a init).map (fun o => o.st) = (cmfAoadmm P a' init).map fun o => o.st := by
  refine fit_same hn ht hab hf ?_ none init
  have hsome : a.absTol ≠ none → a.absTol.isSome := fun h => Option.isSome_iff_ne_none.2 h
  rcases hc with h | ⟨h, h'⟩ | ⟨rfl, rfl, rfl, h'⟩
  · exact .inr (.inl (truthy_false_iff.2 h))
  · exact .inr (.inr (.inl ⟨truthy_false_iff.2 h, hsome h'⟩))
  · cases hft : truthy a.feasTol with
    | false => exact .inr (.inr (.inl ⟨hft, hsome h'⟩))
    | true => exact .inr (.inr (.inr fun s s' i _ => ⟨hft, by simp [aoOps, feasibilityGaps, checkFeasibility, maxGap]⟩))

/-! ### C41 -/

/-! ### C41 -/

/-- C41, `absolute_tol` without `tol`: it has no effect. All iterations are performed, whatever the losses are, and no stopping condition is reported
as satisfied. -/
theorem C41_absolute (P : Problem I K R nA nB nC J) (a : Args) (ht : ∀ t, ¬ IsSet a.tol t) (init : AOState I K R nA nB nC J) :
    (cmfAoadmm P a init).map (fun o => o.st) = (cmfAoadmm P (plain a.nIterMax) init).map (fun o => o.st) ∧
    ∀ out d, cmfAoadmm P a init = .ok out → out.diag = some d → (d.nIter : ℤ) = max a.nIterMax 0 ∧ d.stopping ≠ some true := by
  have e1 := run_sweeps (O := aoOps P) (a := a) (truthy_false_iff.2 ht) a.nIterMax.toNat (initAcc (aoOps P) a none init)
  have e2 := run_sweeps (O := aoOps P) (a := plain a.nIterMax) rfl a.nIterMax.toNat (initAcc (aoOps P) (plain a.nIterMax) none init)
  have e : (run (aoOps P) a a.nIterMax.toNat (initAcc (aoOps P) a none init)).map (fun s => (s.st, s.nIter)) =
      (run (aoOps P) (plain a.nIterMax) a.nIterMax.toNat (initAcc (aoOps P) (plain a.nIterMax) none init)).map fun s => (s.st, s.nIter) :=
    e1.trans e2.symm
  constructor
  · unfold cmfAoadmm fit
    rw [show (plain a.nIterMax).nIterMax = a.nIterMax from rfl]
    cases h1 : run (aoOps P) a a.nIterMax.toNat (initAcc (aoOps P) a none init) with
    | error e' =>
      cases h2 : run (aoOps P) (plain a.nIterMax) a.nIterMax.toNat (initAcc (aoOps P) (plain a.nIterMax) none init) with
      | error e'' => rw [h1, h2] at e; simpa [Except.map] using e
      | ok s' => rw [h1, h2] at e; cases e
    | ok s =>
      cases h2 : run (aoOps P) (plain a.nIterMax) a.nIterMax.toNat (initAcc (aoOps P) (plain a.nIterMax) none init) with
      | error e'' => rw [h1, h2] at e; cases e
      | ok s' =>
        rw [h1, h2] at e
        simp only [Except.map, Except.ok.injEq, Prod.mk.injEq] at e ⊢
        exact e.1
  · intro out d h hd
    obtain ⟨s, hs, -, hdiag⟩ := fit_ok h
    have hr : a.returnErrors = true := by
      by_contra hne
      rw [if_neg hne] at hdiag
      rw [hdiag] at hd; cases hd
    obtain ⟨d', hd', -, hst, hno, -⟩ := report P a hr init out h
    obtain rfl : d = d' := Option.some.inj (hd.symm.trans hd')
    have : d.stopping ≠ some true := by
      intro hstop
      obtain ⟨l, hf, -, hend⟩ := run_ok (follows_init _ a none init) rfl hs
      rw [hr, if_pos rfl] at hdiag
      obtain rfl : d = _ := Option.some.inj (hd.symm.trans hdiag)
      rcases hend with ⟨h0, -⟩ | ⟨-, t, t', -, hb, rfl⟩
      · simp only [diagnostics, h0] at hstop
        split at hstop
        · simp at *
        · split at hstop <;> simp at hstop
      · obtain ⟨_, -, hb, -⟩ := body_stop hb
        rw [truthy_false_iff.2 ht] at hb; cases hb
    exact ⟨(hno this).1, this⟩

/-- C41, `tol` without `absolute_tol`: as soon as a loss is computed in the loop (at the first iteration if diagnostics are requested), TypeError is raised. -/
theorem C41_relative (P : Problem I K R nA nB nC J) (a : Args) (tol : ℝ) (ht : IsSet a.tol tol) (hab : a.absTol = none) (hn : 0 < a.nIterMax)
    (init : AOState I K R nA nB nC J) (s) (hs : sweep P init = .ok s)
    (hc : a.returnErrors = true ∨ ∃ f, IsSet a.feasTol f ∧ checkFeasibility (feasibilityGaps s.1.F s.1.auxA s.1.auxB s.1.auxC) f = true) :
    cmfAoadmm P a init = .error .typeError := by
  obtain ⟨n, hn'⟩ : ∃ n, a.nIterMax.toNat = n + 1 := ⟨a.nIterMax.toNat - 1, by omega⟩
  have htol : truthy a.tol = true := truthy_iff.2 ⟨tol, ht⟩
  unfold cmfAoadmm fit
  rw [hn', run]
  have hb : body (aoOps P) a (initAcc (aoOps P) a none init) = .error .typeError := by
    unfold body
    rw [show (aoOps P).sweep (initAcc (aoOps P) a none init).st = .ok s from hs]
    dsimp only
    rw [if_pos (by simp [htol])]
    rw [if_neg]
    · simp [checkStop, htol, hab]
    · rcases hc with hr | ⟨f, hf, hcf⟩
      · simp [hr]
      · have h1 : truthy a.feasTol = true := truthy_iff.2 ⟨f, hf⟩
        have h2 : checkFeasibility ((aoOps P).gaps s.1) (a.feasTol.getD 0) = true := by rw [hf.getD]; exact hcf
        simp [h1, h2]
  rw [hb]

/-- The value of the reported loss. -/
noncomputable def lossValue (P : Problem I K R nA nB nC J) (s : AOState I K R nA nB nC J) : ℝ := 1 / 2 * relErr P.X s ^ 2 + regValue P s.F

/-- C41 when both tolerances (and the feasibility tolerance) are given and diagnostics are requested: the loop is left at the first iteration at which the gaps
are feasible and one of the two loss criteria holds. Missing: one of the tolerances alone, which does not work (`C41_absolute`, `C41_relative`). -/
theorem C41_partial (P : Problem I K R nA nB nC J) (hX : P.X ≠ 0) (a : Args) (tol abs ft : ℝ) (ht : IsSet a.tol tol) (hab : a.absTol = some abs)
    (hft : IsSet a.feasTol ft) (hr : a.returnErrors = true) (init : AOState I K R nA nB nC J) (out : Output (AOState I K R nA nB nC J))
    (h : cmfAoadmm P a init = .ok out) : ∃ d, out.diag = some d ∧ ∀ k < d.nIter, ∃ o o', cmfAoadmm P (plain k) init = .ok o ∧
      cmfAoadmm P (plain (k + 1)) init = .ok o' ∧ (NonzeroFactors o'.st →
        ((GapsBelow ft o'.st ∧ (|lossValue P o.st - lossValue P o'.st| < tol * lossValue P o.st ∨ lossValue P o'.st < abs)) ↔
          k + 1 = d.nIter ∧ d.stopping = some true)) := by
  obtain ⟨d, hd, -, -, -, hent⟩ := C37 P hX a hr init out h
  refine ⟨d, hd, fun k hk => ?_⟩
  obtain ⟨o, ho, -, -, hp, -⟩ := hent k hk.le
  obtain ⟨o', ho', -, -, hq, hg⟩ := hent (k + 1) hk
  refine ⟨o, o', ho, by exact_mod_cast ho', fun hnz => ?_⟩
  obtain ⟨s, hs, -, hdiag⟩ := fit_ok h
  rw [hr, if_pos rfl] at hdiag
  obtain rfl : d = _ := Option.some.inj (hd.symm.trans hdiag)
  have key := run_meets (truthy_iff.2 ⟨tol, ht⟩) (by rw [hab]; rfl) (truthy_iff.2 ⟨ft, hft⟩) hr
    ⟨rfl, rfl, fun k g p q hg => by simp [initAcc] at hg, rfl⟩ hs k _ _ _ hg hp hq
  have hstop : (diagnostics (aoOps P) a s).stopping = some true ↔ s.stop.isSome = true := by
    simp only [diagnostics]
    split
    · simpa
    · rename_i hno
      simp only [hno]
      split <;> simp
  rw [hstop, show (diagnostics (aoOps P) a s).nIter = s.nIter from rfl, ← key, meets, ht.getD, hft.getD, hab, Bool.and_eq_true, Bool.or_eq_true,
    checkFeasibility_iff hnz]
  simp [relCriterion, PyF.lt, lossValue]

end Verif.Props
