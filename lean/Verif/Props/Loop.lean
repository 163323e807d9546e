import Verif.Loop.Lemmas
import Verif.Props.Diagnostics

/-!
# C37, C38, C42, C43: the outer loop and its diagnostics
-/

namespace Verif.Props

open Verif.Loop Verif.ADMM Verif.Penalties Verif.Spec Finset Matrix

variable {I K R nA nB nC : ℕ} {J : Fin I → ℕ}

/-! ### One round of updates -/

theorem sweepB_frame {P : Problem I K R nA nB nC J} {s t : AOState I K R nA nB nC J} (h : sweepB P s = .ok t) :
    t.F.A = s.F.A ∧ t.F.C = s.F.C ∧ (P.updB = false → t = s) ∧ (P.updB = true → t.weights = none) := by
  unfold sweepB at h
  split at h
  · rename_i hb
    cases hu : admmUpdateB P.params P.X P.pensB P.l2.2.1 P.constB s.F s.auxB s.dualB with
    | error e => rw [hu] at h; cases h
    | ok u => rw [hu] at h; cases h; exact ⟨rfl, rfl, by simp [hb], fun _ => rfl⟩
  · rename_i hb
    cases h
    exact ⟨rfl, rfl, fun _ => rfl, fun h => absurd h hb⟩

theorem sweepC_frame (P : Problem I K R nA nB nC J) (s : AOState I K R nA nB nC J) :
    (sweepC P s).F.A = s.F.A ∧ (sweepC P s).F.B = s.F.B ∧ (P.updC = false → sweepC P s = s) ∧ (P.updC = true → (sweepC P s).weights = none) := by
  unfold sweepC
  split
  · rename_i hc; exact ⟨rfl, rfl, by simp [hc], fun _ => rfl⟩
  · rename_i hc; exact ⟨rfl, rfl, fun _ => rfl, fun h => absurd h hc⟩

theorem sweepA_frame {P : Problem I K R nA nB nC J} {s t : AOState I K R nA nB nC J} {i : Option (Inter I R)} (h : sweepA P s = .ok (t, i)) :
    t.F.B = s.F.B ∧ t.F.C = s.F.C ∧ (P.updA = false → t = s ∧ i = none) ∧
      (P.updA = true → t.weights = none ∧ i = some ⟨rhsA P.X s.F, crossA s.F⟩) := by
  unfold sweepA at h
  split at h
  · rename_i ha
    cases hu : admmUpdateA P.params P.X P.pensA P.l2.1 P.constA s.F s.auxA s.dualA with
    | error e => rw [hu] at h; cases h
    | ok u => rw [hu] at h; cases h; exact ⟨rfl, rfl, by simp [ha], fun _ => ⟨rfl, rfl⟩⟩
  · rename_i ha
    cases h
    exact ⟨rfl, rfl, fun _ => ⟨rfl, rfl⟩, fun h => absurd h ha⟩

theorem sweep_ok {P : Problem I K R nA nB nC J} {s t : AOState I K R nA nB nC J} {i : Option (Inter I R)} (h : sweep P s = .ok (t, i)) :
    ∃ u, sweepB P s = .ok u ∧ sweepA P (sweepC P u) = .ok (t, i) := by
  unfold sweep at h
  cases hu : sweepB P s with
  | error e => rw [hu] at h; cases h
  | ok u => rw [hu] at h; exact ⟨u, rfl, h⟩

/-- The error computed after a round of updates is that of the new factorization. -/
theorem sweep_recError {P : Problem I K R nA nB nC J} {s t : AOState I K R nA nB nC J} {i : Option (Inter I R)} (h : sweep P s = .ok (t, i)) :
    recError P.X t.weights t.F (rootSumSq P.X) i = √(sse P.X (absorb t.weights t.F)) := by
  obtain ⟨u, -, h2⟩ := sweep_ok h
  obtain ⟨hB, hC, hn, hy⟩ := sweepA_frame h2
  cases ha : P.updA with
  | false =>
    obtain ⟨-, rfl⟩ := hn ha
    exact recError_direct _ _ _
  | true =>
    obtain ⟨hw, rfl⟩ := hy ha
    have e : t.F = ⟨t.F.A, (sweepC P u).F.B, (sweepC P u).F.C⟩ := by rw [← hB, ← hC]
    rw [hw, e, recError_inter]
    congr 2
    simp [absorb]

/-! ### C37 -/

/-- A call that only performs `t` iterations: no tolerances, no diagnostics. -/
def plain (t : ℤ) : Args := ⟨t, none, none, none, false, 0⟩

theorem fit_plain {σ ι : Type} (O : Ops σ ι) (z : ι) (init s : σ) (t : ℕ) (h : sweeps O t init = .ok s) :
    ∃ o, fit O (plain t) z init = .ok o ∧ o.st = s := by
  have := run_sweeps (O := O) (a := plain t) rfl t (initAcc O (plain t) z init)
  rw [show (initAcc O (plain t) z init).st = init from rfl, h] at this
  unfold fit
  rw [show (plain t).nIterMax.toNat = t from Int.toNat_natCast t]
  cases hr : run O (plain t) t (initAcc O (plain t) z init) with
  | error e => rw [hr] at this; cases this
  | ok s' =>
    rw [hr] at this
    simp only [Except.map, Except.ok.injEq, Prod.mk.injEq] at this
    exact ⟨_, rfl, this.1⟩

theorem fit_ok {σ ι : Type} {O : Ops σ ι} {a : Args} {z : ι} {init : σ} {out : Output σ} (h : fit O a z init = .ok out) :
    ∃ s, run O a a.nIterMax.toNat (initAcc O a z init) = .ok s ∧ out.st = s.st ∧
      out.diag = if a.returnErrors then some (diagnostics O a s) else none := by
  unfold fit at h
  split at h
  · cases h
  · rename_i s hs
    cases h
    exact ⟨s, hs, rfl, rfl⟩

/-- The L2 terms and the values of all penalties. -/
noncomputable def regValue (P : Problem I K R nA nB nC J) (F : Factors I K R J) : ℝ :=
  1 / 2 * (P.l2.1 * sqNorm F.A + P.l2.2.1 * raggedSq F.B + P.l2.2.2 * sqNorm F.C)
    + (∑ p, (P.pensA p).value F.A + ∑ p, (P.pensB p).value F.B + ∑ p, (P.pensC p).value F.C)

theorem l2Penalty_eq (l : ℝ × ℝ × ℝ) (F : Factors I K R J) :
    l2Penalty l F = 1 / 2 * (l.1 * sqNorm F.A + l.2.1 * raggedSq F.B + l.2.2 * sqNorm F.C) := by
  have h : ∀ x y : ℝ, (if x ≠ 0 then 1 / 2 * x * y else 0) = 1 / 2 * (x * y) := by
    intro x y
    split
    · ring
    · rename_i hx; push Not at hx; rw [hx]; ring
  simp only [l2Penalty, h, raggedSq, sqNorm]
  ring

/-- The relative error of a factorization with weights. -/
noncomputable def relErr (X : Ragged I K J) (s : AOState I K R nA nB nC J) : ℝ := √(sse X (absorb s.weights s.F)) / √(raggedSq X)

theorem hist_entry {P : Problem I K R nA nB nC J} (hX : P.X ≠ 0) {init s : AOState I K R nA nB nC J}
    {l : List (AOState I K R nA nB nC J × Option (Inter I R))} (hl : Hist (aoOps P) none init l s) {t : ℕ}
    {x : AOState I K R nA nB nC J × Option (Inter I R)} (hx : l[t]? = some x) :
    (aoOps P).relError x.1 x.2 = .fin (relErr P.X x.1) := by
  obtain ⟨-, h0, h1⟩ := hl.get t x hx
  have hd : ∀ r, r = √(sse P.X (absorb x.1.weights x.1.F)) → PyF.div r (rootSumSq P.X) = .fin (relErr P.X x.1) := by
    rintro r rfl
    rw [rootSumSq_eq, PyF.div, if_neg (C35_direct P.X hX x.1.weights x.1.F).2.ne', relErr]
  refine hd _ ?_
  cases t with
  | zero => rw [h0 rfl]; exact recError_direct _ _ _
  | succ t =>
    obtain ⟨p, -, hp⟩ := h1 t rfl
    exact sweep_recError hp

/-- C37: with diagnostics, the three lists have one entry per iteration plus the initial one. Entry `t` describes the factorization after `t` iterations,
that is, the one returned by a call that performs `t` iterations. -/
theorem C37 (P : Problem I K R nA nB nC J) (hX : P.X ≠ 0) (a : Args) (hr : a.returnErrors = true) (init : AOState I K R nA nB nC J)
    (out : Output (AOState I K R nA nB nC J)) (h : cmfAoadmm P a init = .ok out) :
    ∃ d, out.diag = some d ∧ d.recErrors.length = d.nIter + 1 ∧ d.gaps.length = d.nIter + 1 ∧ d.losses.length = d.nIter + 1 ∧
      ∀ t ≤ d.nIter, ∃ o, cmfAoadmm P (plain t) init = .ok o ∧ (t = d.nIter → o.st = out.st) ∧
        d.recErrors[t]? = some (.fin (relErr P.X o.st)) ∧
        d.losses[t]? = some (.fin (1 / 2 * relErr P.X o.st ^ 2 + regValue P o.st.F)) ∧
        d.gaps[t]? = some (feasibilityGaps o.st.F o.st.auxA o.st.auxB o.st.auxC) := by
  obtain ⟨s, hs, hst, hd⟩ := fit_ok h
  rw [hr, if_pos rfl] at hd
  obtain ⟨l, hf, -, -⟩ := run_ok (follows_init _ a none init) rfl hs
  obtain ⟨g1, g2, g3⟩ := hf.lists hr
  refine ⟨_, hd, ?_, ?_, ?_, fun t ht => ?_⟩
  · simp [diagnostics, g2, hf.len]
  · simp [diagnostics, g1, hf.len]
  · simp [diagnostics, g3, hf.len]
  · have hlt : t < l.length := by rw [hf.len]; exact Nat.lt_succ_of_le ht
    have hx : l[t]? = some l[t] := List.getElem?_eq_getElem hlt
    obtain ⟨o, ho, hos⟩ := fit_plain (aoOps P) none init _ t (hf.hist.get t _ hx).1
    refine ⟨o, ho, fun hn => ?_, ?_, ?_, ?_⟩
    · have h1 := hf.hist.sweeps_eq
      rw [hf.len, Nat.add_sub_cancel] at h1
      have h2 := (hf.hist.get t _ hx).1
      rw [← hos] at h2
      rw [hn, show (diagnostics (aoOps P) a s).nIter = s.nIter from rfl, h1] at h2
      rw [hst]
      exact (Except.ok.inj h2).symm
    · simp [diagnostics, g2, hx, hist_entry hX hf.hist hx, hos]
    · simp only [diagnostics, g3, List.getElem?_map, hx, Option.map_some, hist_entry hX hf.hist hx, lossOf, hos]
      simp only [aoOps, l2Penalty_eq, regValue]
    · simp [diagnostics, g1, hx, hos, aoOps]

/-! ### C38 -/

theorem maxGap_fin (t : ℝ) (l : List ℝ) (m : Option ℝ) : ∃ m', maxGap (l.map .fin) (m.map .fin) = Option.map .fin m' ∧
    ((∀ x, m' = some x → x < t) ↔ (∀ x ∈ l, x < t) ∧ ∀ x, m = some x → x < t) := by
  cases l with
  | nil => exact ⟨m, rfl, by simp⟩
  | cons b l =>
    obtain ⟨k, h1, h2⟩ := pyMax_fin l b
    rw [List.map_cons, List.forall_mem_cons, ← h2]
    simp only [maxGap, h1]
    cases m with
    | none => exact ⟨some k, rfl, by simp⟩
    | some y =>
      refine ⟨some (if k < y then y else k), ?_, ?_⟩
      · simp only [Option.map_some, PyF.gt, decide_eq_true_eq]
        split <;> rfl
      · simp only [Option.some.injEq, forall_eq']
        split
        · exact ⟨fun h => ⟨by linarith, h⟩, fun h => h.2⟩
        · exact ⟨fun h => ⟨h, by linarith⟩, fun h => h.1⟩

theorem checkFeasibility_fin (a b c : List ℝ) (t : ℝ) :
    checkFeasibility ⟨a.map .fin, b.map .fin, c.map .fin⟩ t = true ↔ (∀ x ∈ a, x < t) ∧ (∀ x ∈ b, x < t) ∧ ∀ x ∈ c, x < t := by
  obtain ⟨m1, h1, e1⟩ := maxGap_fin t a none
  obtain ⟨m2, h2, e2⟩ := maxGap_fin t b m1
  obtain ⟨m3, h3, e3⟩ := maxGap_fin t c m2
  simp only [Option.map_none] at h1
  unfold checkFeasibility
  simp only [h1, h2, h3]
  have : (match Option.map PyF.fin m3 with | none => true | some x => x.lt t) = true ↔ ∀ x, m3 = some x → x < t := by
    cases m3 with
    | none => simp
    | some x => simp [PyF.lt]
  refine this.trans ?_
  rw [e3, e2, e1]
  simp
  tauto

/-- The relative distances of a factor to its auxiliary variables are below `t`; written without division. -/
def GapsBelow (t : ℝ) (s : AOState I K R nA nB nC J) : Prop :=
  (∀ p, √(sqNorm (s.F.A - s.auxA p)) < t * √(sqNorm s.F.A)) ∧
  (∀ p, √(raggedSq (s.F.B - (s.auxB p).toMats)) < t * √(raggedSq s.F.B)) ∧
  ∀ p, √(sqNorm (s.F.C - s.auxC p)) < t * √(sqNorm s.F.C)

/-- Every factor that has penalties is nonzero. -/
def NonzeroFactors (s : AOState I K R nA nB nC J) : Prop :=
  (0 < nA → s.F.A ≠ 0) ∧ (0 < nB → s.F.B ≠ 0) ∧ (0 < nC → s.F.C ≠ 0)

theorem checkFeasibility_iff {s : AOState I K R nA nB nC J} (hs : NonzeroFactors s) (t : ℝ) :
    checkFeasibility (feasibilityGaps s.F s.auxA s.auxB s.auxC) t = true ↔ GapsBelow t s := by
  have mk : ∀ {n : ℕ} (g : Fin n → PyF) (num : Fin n → ℝ) (den : ℝ) (_ : ∀ p, g p = .fin (num p / den) ∧ 0 < den),
      List.ofFn g = (List.ofFn fun p => num p / den).map .fin ∧ ((∀ x ∈ (List.ofFn fun p => num p / den), x < t) ↔ ∀ p, num p < t * den) := by
    intro n g num den h
    refine ⟨?_, ?_⟩
    · rw [List.map_ofFn]
      congr 1
      funext p
      exact (h p).1
    · rw [List.forall_mem_ofFn_iff]
      exact forall_congr' fun p => by rw [div_lt_iff₀ (h p).2]
  obtain ⟨a1, a2⟩ := mk (fun p => matGap s.F.A (s.auxA p)) (fun p => √(sqNorm (s.F.A - s.auxA p))) √(sqNorm s.F.A)
    fun p => matGap_eq (hs.1 (Fin.pos p)) _
  obtain ⟨b1, b2⟩ := mk (fun p => raggedGap s.F.B (s.auxB p)) (fun p => √(raggedSq (s.F.B - (s.auxB p).toMats))) √(raggedSq s.F.B)
    fun p => raggedGap_eq (hs.2.1 (Fin.pos p)) _
  obtain ⟨c1, c2⟩ := mk (fun p => matGap s.F.C (s.auxC p)) (fun p => √(sqNorm (s.F.C - s.auxC p))) √(sqNorm s.F.C)
    fun p => matGap_eq (hs.2.2 (Fin.pos p)) _
  rw [feasibilityGaps, a1, b1, c1, checkFeasibility_fin, a2, b2, c2]
  rfl

/-- The value of an option that is set (not `None` and not zero). -/
def IsSet (o : Option ℝ) (t : ℝ) : Prop := o = some t ∧ t ≠ 0

theorem truthy_iff {o : Option ℝ} : truthy o = true ↔ ∃ t, IsSet o t := by
  cases o with
  | none => simp [truthy, IsSet]
  | some x => simp [truthy, IsSet]

theorem IsSet.getD {o : Option ℝ} {t : ℝ} (h : IsSet o t) : o.getD 0 = t := by rw [h.1]; rfl

theorem truthy_false_iff {o : Option ℝ} : truthy o = false ↔ ∀ t, ¬ IsSet o t := by
  rw [← Bool.not_eq_true, truthy_iff]; push Not; rfl

/-- The stopping criteria hold for the last two losses. -/
def LossCriterion (a : Args) (m : Message) (losses : List PyF) : Prop :=
  (m = .relative ∧ ∃ t ls p q, IsSet a.tol t ∧ losses = ls ++ [.fin p, .fin q] ∧ |p - q| < t * p) ∨
  (m = .absolute ∧ ∃ t ls q, a.absTol = some t ∧ losses = ls ++ [.fin q] ∧ q < t)

/-- C38, with the final gaps as `_check_feasibility` sees them: what the report says about the execution. -/
theorem report (P : Problem I K R nA nB nC J) (a : Args) (hr : a.returnErrors = true) (init : AOState I K R nA nB nC J)
    (out : Output (AOState I K R nA nB nC J)) (h : cmfAoadmm P a init = .ok out) :
    ∃ d, out.diag = some d ∧ (d.nIter : ℤ) ≤ max a.nIterMax 0 ∧
      (d.stopping = some true → 0 < d.nIter ∧ LossCriterion a d.message d.losses ∧
        ∃ t, IsSet a.feasTol t ∧ checkFeasibility (feasibilityGaps out.st.F out.st.auxA out.st.auxB out.st.auxC) t = true) ∧
      (d.stopping ≠ some true → (d.nIter : ℤ) = max a.nIterMax 0 ∧ d.message = .maxIter) ∧
      (d.stopping = none ↔ (∀ t, ¬ IsSet a.tol t) ∧ ∀ t, ¬ IsSet a.absTol t) := by
  obtain ⟨s, hs, hst, hd⟩ := fit_ok h
  rw [hr, if_pos rfl] at hd
  obtain ⟨l, hf, -, hend⟩ := run_ok (follows_init _ a none init) rfl hs
  have hn0 : (initAcc (aoOps P) a none init).nIter = 0 := rfl
  rw [hn0, zero_add] at hend
  have hmax : (a.nIterMax.toNat : ℤ) = max a.nIterMax 0 := Int.toNat_eq_max _
  refine ⟨_, hd, ?_, ?_, ?_, ?_⟩
  · have : s.nIter ≤ a.nIterMax.toNat := by
      rcases hend with ⟨-, h⟩ | ⟨h, -⟩ <;> omega
    show (s.nIter : ℤ) ≤ _
    omega
  · intro hstop
    rcases hend with ⟨h0, -⟩ | ⟨-, t, t', hft, hb, rfl⟩
    · simp only [diagnostics, h0] at hstop
      split at hstop
      · simp at *
      · split at hstop <;> simp at hstop
    · obtain ⟨i, -, ht, ⟨abs, habs⟩, hfe, hfc, hl, hm⟩ := body_stop hb
      obtain ⟨tol, htol⟩ := truthy_iff.1 ht
      obtain ⟨ft, hft'⟩ := truthy_iff.1 hfe
      refine ⟨?_, ?_, ft, hft', by rw [hst]; rw [hft'.getD] at hfc; exact hfc⟩
      · have h1 := List.length_pos_iff.2 hft.hist.ne_nil
        rw [List.length_dropLast, hf.len] at h1
        show 0 < s.nIter
        omega
      obtain ⟨-, -, g3⟩ := hft.lists hr
      have hne : t.losses ≠ [] := by rw [g3]; exact fun h => hft.hist.ne_nil (List.map_eq_nil_iff.1 h)
      rcases hm with ⟨hm, hc⟩ | ⟨hm, hc⟩
      · refine .inl ⟨by simp [diagnostics, hm], tol, t.losses.dropLast, ?_⟩
        rw [htol.getD] at hc
        unfold relCriterion at hc
        split at hc
        · rename_i p q hp hq
          refine ⟨p, q, htol, ?_, of_decide_eq_true hc⟩
          show s.losses = _
          rw [hl, hq]
          have : t.losses = t.losses.dropLast ++ [.fin p] := by
            conv_lhs => rw [← List.dropLast_append_getLast hne]
            rw [← hp, List.getLastD_eq_getLast?, List.getLast?_eq_getLast_of_ne_nil hne]; rfl
          conv_lhs => rw [this]
          simp
        · cases hc
      · refine .inr ⟨by simp [diagnostics, hm], abs, t.losses, ?_⟩
        rw [habs] at hc
        cases hv : lossOf ((aoOps P).relError s.st i) ((aoOps P).penalty s.st) with
        | fin q =>
          rw [hv] at hc hl
          exact ⟨q, habs, hl, of_decide_eq_true hc⟩
        | nan => rw [hv] at hc; cases hc
        | inf => rw [hv] at hc; cases hc
  · intro hstop
    rcases hend with ⟨h0, h1⟩ | ⟨-, t, t', -, hb, rfl⟩
    · exact ⟨by show (s.nIter : ℤ) = _; omega, by simp [diagnostics, h0]⟩
    · obtain ⟨_, -, -, hm, -⟩ := body_ok hb
      obtain ⟨m, hm⟩ := hm rfl
      exact absurd (by simp [diagnostics, hm]) hstop
  · rw [← truthy_false_iff, ← truthy_false_iff]
    simp only [diagnostics]
    split
    · rename_i hsome
      simp only [reduceCtorEq, false_iff, not_and]
      rcases hend with ⟨h0, -⟩ | ⟨-, t, t', -, hb, rfl⟩
      · rw [h0] at hsome; cases hsome
      · obtain ⟨_, -, ht, -⟩ := body_stop hb
        simp [ht]
    · split
      · rename_i hc
        simp only [reduceCtorEq, false_iff, not_and]
        intro h1
        simpa [h1] using hc
      · rename_i hc
        simpa using hc

/-- C38, for final factors that are not zero. (`C38_false` shows that this is needed: a zero factor gives `nan` gaps, which the check ignores.) -/
theorem C38_partial (P : Problem I K R nA nB nC J) (a : Args) (hr : a.returnErrors = true) (init : AOState I K R nA nB nC J)
    (out : Output (AOState I K R nA nB nC J)) (h : cmfAoadmm P a init = .ok out) (hnz : NonzeroFactors out.st) :
    ∃ d, out.diag = some d ∧ (d.nIter : ℤ) ≤ max a.nIterMax 0 ∧
      (d.stopping = some true → 0 < d.nIter ∧ LossCriterion a d.message d.losses ∧ ∃ t, IsSet a.feasTol t ∧ GapsBelow t out.st) ∧
      (d.stopping ≠ some true → (d.nIter : ℤ) = max a.nIterMax 0 ∧ d.message = .maxIter) ∧
      (d.stopping = none ↔ (∀ t, ¬ IsSet a.tol t) ∧ ∀ t, ¬ IsSet a.absTol t) := by
  obtain ⟨d, h1, h2, h3, h4, h5⟩ := report P a hr init out h
  refine ⟨d, h1, h2, fun hs => ⟨(h3 hs).1, (h3 hs).2.1, ?_⟩, h4, h5⟩
  obtain ⟨t, ht, hc⟩ := (h3 hs).2.2
  exact ⟨t, ht, (checkFeasibility_iff hnz t).1 hc⟩

/-! ### C43 -/

/-- C43: without iterations the initial factorization (and the initial auxiliary and dual variables) are returned. -/
theorem C43 (P : Problem I K R nA nB nC J) (a : Args) (hn : a.nIterMax ≤ 0) (init : AOState I K R nA nB nC J) :
    ∃ out, cmfAoadmm P a init = .ok out ∧ out.st = init ∧
      (a.returnErrors = true → ∃ d r p g, out.diag = some d ∧ d.nIter = 0 ∧ d.recErrors = [r] ∧ d.losses = [p] ∧ d.gaps = [g] ∧ d.message = .maxIter) := by
  have h0 : a.nIterMax.toNat = 0 := Int.toNat_of_nonpos hn
  refine ⟨_, by unfold cmfAoadmm fit; rw [h0, run], rfl, fun hr => ?_⟩
  simp only [hr, if_true, Option.some.injEq]
  exact ⟨_, _, _, _, rfl, rfl, rfl, rfl, rfl, rfl⟩

/-! ### C42 -/

theorem sweep_frame {P : Problem I K R nA nB nC J} {s t : AOState I K R nA nB nC J} {i : Option (Inter I R)} (h : sweep P s = .ok (t, i)) :
    (P.updA = false → t.F.A = s.F.A) ∧ (P.updB = false → t.F.B = s.F.B) ∧ (P.updC = false → t.F.C = s.F.C) := by
  obtain ⟨u, hB, hA⟩ := sweep_ok h
  obtain ⟨b1, b2, b3, -⟩ := sweepB_frame hB
  obtain ⟨c1, c2, c3, -⟩ := sweepC_frame P u
  obtain ⟨a1, a2, a3, -⟩ := sweepA_frame hA
  exact ⟨fun h => by rw [(a3 h).1, c1, b1], fun h => by rw [a1, c2, b3 h], fun h => by rw [a2, c3 h, b2]⟩

theorem hist_inv {σ ι : Type} {O : Ops σ ι} {z : ι} {init s : σ} {l : List (σ × ι)} (hl : Hist O z init l s) {Q : σ → Prop} (h0 : Q init)
    (hs : ∀ s s' i, Q s → O.sweep s = .ok (s', i) → Q s') : Q s := by
  induction hl with
  | zero => exact h0
  | snoc _ hsw ih => exact hs _ _ _ ih hsw

theorem fit_hist {σ ι : Type} {O : Ops σ ι} {a : Args} {z : ι} {init : σ} {out : Output σ} (h : fit O a z init = .ok out) :
    ∃ l, Hist O z init l out.st ∧ l.length ≤ a.nIterMax.toNat + 1 ∧ (0 < a.nIterMax → 1 < l.length) := by
  obtain ⟨s, hs, hst, -⟩ := fit_ok h
  obtain ⟨l, hf, hp, hend⟩ := run_ok (follows_init O a z init) rfl hs
  have hn0 : (initAcc O a z init).nIter = 0 := rfl
  rw [hn0, zero_add] at hend
  refine ⟨l, by rw [hst]; exact hf.hist, ?_, fun hpos => ?_⟩
  · rw [hf.len]
    rcases hend with ⟨-, h⟩ | ⟨h, -⟩ <;> omega
  · rw [hf.len]
    rcases hend with ⟨-, h⟩ | ⟨-, t, t', -, hb, rfl⟩
    · omega
    · obtain ⟨_, -, hn, -⟩ := body_ok hb
      omega

/-- C42: a mode that is not updated keeps its factor, and its penalties are not used. -/
theorem C42 (X : Ragged I K J) (regsA : List (PenA I R)) (regsB : List (PenB I R J)) (regsC : List (PenC K R))
    (l2 : ℝ × ℝ × ℝ) (params : Params R) (constA constB updA updB updC : Bool) (a : Args)
    (init : AOState I K R (dropRegs updA regsA).length (dropRegs updB regsB).length (dropRegs updC regsC).length J) (out)
    (h : cmfAoadmm (.ofRegs X regsA regsB regsC l2 params constA constB updA updB updC) a init = .ok out) :
    (updA = false → out.st.F.A = init.F.A ∧ (dropRegs updA regsA).length = 0) ∧
    (updB = false → out.st.F.B = init.F.B ∧ (dropRegs updB regsB).length = 0) ∧
    (updC = false → out.st.F.C = init.F.C ∧ (dropRegs updC regsC).length = 0) := by
  obtain ⟨l, hl, -⟩ := fit_hist h
  obtain ⟨h1, h2, h3⟩ := hist_inv hl (Q := fun s => (updA = false → s.F.A = init.F.A) ∧ (updB = false → s.F.B = init.F.B) ∧
    (updC = false → s.F.C = init.F.C)) ⟨fun _ => rfl, fun _ => rfl, fun _ => rfl⟩ (fun s s' i hQ hs => by
      obtain ⟨f1, f2, f3⟩ := sweep_frame hs
      exact ⟨fun h => (f1 h).trans (hQ.1 h), fun h => (f2 h).trans (hQ.2.1 h), fun h => (f3 h).trans (hQ.2.2 h)⟩)
  exact ⟨fun h => ⟨h1 h, by simp [dropRegs, h]⟩, fun h => ⟨h2 h, by simp [dropRegs, h]⟩, fun h => ⟨h3 h, by simp [dropRegs, h]⟩⟩

end Verif.Props
