import Verif.Loop.Init
import Verif.Props.LoopFalse

/-!
# C44: initial weights
-/

namespace Verif.Props

open Verif.Loop Verif.ADMM Verif.Penalties Verif.Spec Finset Matrix

variable {I K R nA nB nC : ℕ} {J : Fin I → ℕ}

/-- Entries of the matrices that an initialisation represents: those of the given factorization with its weights (1 if absent), of the CP or PARAFAC2 tensor
TensorLy returned, or of the drawn factors or singular vectors. -/
noncomputable def initEntry (E : InitExt I K R J) (i : Fin I) (j : Fin (J i)) (k : Fin K) : InitArg I K R J → ℝ
  | .given s => ∑ r, (s.weights.getD fun _ => 1) r * (s.F.A i r * s.F.B i j r * s.F.C k r)
  | .random => E.draw.entry i j k
  | .svd => ∑ r, E.left i j r * E.rightT k r
  | .thresholdSvd => ∑ r, max (E.left i j r) 0 * max (E.rightT k r) 0
  | .parafac2Als => ∑ r, E.parafac2.weights r * (E.parafac2.A i r * (∑ q, E.parafac2.proj i j q * E.parafac2.B q r) * E.parafac2.C k r)
  | .cpAls => ∑ r, E.cp.weights r * (E.cp.A i r * E.cp.B (Fin.castLE (E.fits i) j) r * E.cp.C k r)
  | .cpHals => ∑ r, E.hals.weights r * (E.hals.A i r * E.hals.B (Fin.castLE (E.fits i) j) r * E.hals.C k r)
  | .other => 0

/-- The factorization represents those matrices, if its weights are taken into account. -/
theorem initializeCmf_represents (E : InitExt I K R J) (a : InitArg I K R J) (s : Start I K R J) (h : initializeCmf E a = .ok s)
    (i : Fin I) (j : Fin (J i)) (k : Fin K) : (absorb s.weights s.F).entry i j k = initEntry E i j k a := by
  cases a with
  | given t =>
    obtain ⟨w, F⟩ := t
    cases w with
    | none => cases h; simp [absorb, initEntry, Factors.entry]
    | some w =>
      cases h
      simp only [absorb, initEntry, Factors.entry, scaleCols, Option.getD_none, Option.getD_some]
      exact Finset.sum_congr rfl fun r _ => by ring
  | random => cases h; simp [absorb, initEntry, Factors.entry]
  | svd => cases h; simp [absorb, initEntry, Factors.entry]
  | thresholdSvd => cases h; simp [absorb, initEntry, Factors.entry]
  | parafac2Als =>
    cases h
    simp only [absorb, initEntry, Factors.entry, P2Tensor.toStart, Option.getD_some, Matrix.mul_apply]
    exact Finset.sum_congr rfl fun r _ => by ring
  | cpAls =>
    cases h
    simp only [absorb, initEntry, Factors.entry, CPTensor.toStart, Option.getD_some]
    exact Finset.sum_congr rfl fun r _ => by ring
  | cpHals =>
    cases h
    simp only [absorb, initEntry, Factors.entry, CPTensor.toStart, Option.getD_some]
    exact Finset.sum_congr rfl fun r _ => by ring
  | other => cases h

/-- The weights TensorLy returned are 1 (its default, without `normalize_factors`). -/
def UnitWeights (E : InitExt I K R J) : InitArg I K R J → Prop
  | .parafac2Als => ∀ r, E.parafac2.weights r = 1
  | .cpAls => ∀ r, E.cp.weights r = 1
  | .cpHals => ∀ r, E.hals.weights r = 1
  | _ => True

/-- C44, unless TensorLy returns weights different from 1 (then it is false: `C44_false`): the factors alone, which is what the first update uses, represent the
same matrices as the initialisation; for a given factorization, with any weights, no weights remain. -/
theorem C44_partial (E : InitExt I K R J) (a : InitArg I K R J) (hw : UnitWeights E a) (s : Start I K R J) (h : initializeCmf E a = .ok s) :
    (∀ i j k, s.F.entry i j k = initEntry E i j k a) ∧ ((∃ t, a = .given t) → s.weights = none) := by
  refine ⟨fun i j k => ?_, ?_⟩
  · rw [← initializeCmf_represents E a s h i j k]
    have : ∀ r, (s.weights.getD fun _ => 1) r = 1 := by
      cases a with
      | given t =>
        obtain ⟨w, F⟩ := t
        cases w <;> cases h <;> exact fun _ => rfl
      | random => cases h; exact fun _ => rfl
      | svd => cases h; exact fun _ => rfl
      | thresholdSvd => cases h; exact fun _ => rfl
      | parafac2Als => cases h; exact hw
      | cpAls => cases h; exact hw
      | cpHals => cases h; exact hw
      | other => cases h
    simp only [absorb, Factors.entry, this, mul_one]
  · rintro ⟨⟨w, F⟩, rfl⟩
    cases w <;> cases h <;> rfl

/-- The initialisation only fails for unknown names, with ValueError. -/
theorem C44_unknown (E : InitExt I K R J) (a : InitArg I K R J) (e : PyErr) : initializeCmf E a = .error e ↔ a = .other ∧ e = .valueError := by
  cases a with
  | given t =>
    obtain ⟨w, F⟩ := t
    cases w <;> simp [initializeCmf]
  | _ => simp [initializeCmf, eq_comm]

/-- A round of updates does not look at the weights. -/
theorem sweep_ignores (P : Problem I K R nA nB nC J) (hu : P.updA = true ∨ P.updB = true ∨ P.updC = true) (s : AOState I K R nA nB nC J)
    (w : Option (Fin R → ℝ)) : sweep P { s with weights := w } = sweep P s := by
  unfold sweep sweepB
  cases hb : P.updB with
  | true => simp
  | false =>
    simp only [Bool.false_eq_true, if_false, Except.bind]
    unfold sweepC
    cases hc : P.updC with
    | true => simp
    | false =>
      unfold sweepA
      cases ha : P.updA with
      | true => simp
      | false => simp [ha, hb, hc] at hu

/-- The initial weights have no influence on the factorization after the first iteration, and on later ones. -/
theorem C44_weights_ignored (P : Problem I K R nA nB nC J) (hu : P.updA = true ∨ P.updB = true ∨ P.updC = true) (n : ℕ) (hn : 0 < n)
    (s : AOState I K R nA nB nC J) (w : Option (Fin R → ℝ)) (out : Output (AOState I K R nA nB nC J)) (h : cmfAoadmm P (plain n) s = .ok out) :
    ∃ out', cmfAoadmm P (plain n) { s with weights := w } = .ok out' ∧ out'.st = out.st := by
  have e : ∀ m, sweeps (aoOps P) (m + 1) { s with weights := w } = sweeps (aoOps P) (m + 1) s := by
    intro m
    induction m with
    | zero => simp only [sweeps, Except.bind]; rw [show (aoOps P).sweep = sweep P from rfl, sweep_ignores P hu]
    | succ m ih => rw [sweeps, ih, ← sweeps]
  obtain ⟨m, rfl⟩ := Nat.exists_eq_succ_of_ne_zero hn.ne'
  have h2 := plain_sweeps h
  exact fit_plain (aoOps P) none _ _ _ ((e m).trans h2)

/-- C44 is false for a CP initialisation with weights: it represents the data exactly and satisfies the constraint (with the auxiliary variable equal to the factor),
but the first iteration starts from the factors without the weights, which represent 1 instead of 2, and ends with 5/3. The same initialisation with the weights
absorbed stays at the exact fit. -/
theorem C44_false : ∃ (E : InitExt 1 1 1 fun _ => 1) (s : Start 1 1 1 fun _ => 1) (P : Problem 1 1 1 1 0 0 fun _ => 1)
    (out out' : Output (AOState 1 1 1 1 0 0 fun _ => 1)),
    ValidSVD P.params ∧ initializeCmf E .cpAls = .ok s ∧ (∀ i j k, initEntry E i j k .cpAls = P.X i j k) ∧ (∀ i j k, s.F.entry i j k = 1) ∧
    cmfAoadmm P (plain 1) ⟨s.weights, s.F, fun _ => s.F.A, fun _ => 0, Fin.elim0, Fin.elim0, Fin.elim0, Fin.elim0⟩ = .ok out ∧
    (∀ i j k, out.st.F.entry i j k = 5 / 3 ∧ P.X i j k = 2) ∧ out.st.weights = none ∧
    cmfAoadmm P (plain 1) ⟨none, absorb s.weights s.F, fun _ => (absorb s.weights s.F).A, fun _ => 0, Fin.elim0, Fin.elim0, Fin.elim0, Fin.elim0⟩ = .ok out' ∧
    (∀ i j k, out'.st.F.entry i j k = 2) := by
  obtain ⟨prm, hP, hN, -, hs⟩ := exists_params 1 1 none 1
  let c : CPTensor 1 1 1 1 := ⟨fun _ => 2, sc 1, sc 1, sc 1⟩
  let E : InitExt 1 1 1 fun _ => 1 := ⟨1, fun _ => le_rfl, scF 1 1 1, fun _ => sc 1, sc 1, ⟨fun _ => 1, sc 1, sc 1, sc 1, fun _ => sc 1⟩, c, c⟩
  let P := scP (n := 1) prm 2 0 fun _ => StdPen.nonNeg.toA
  have key : ∀ z : ℝ, 0 ≤ z → ∃ o, cmfAoadmm P (plain 1) (scS z (fun _ => z) fun _ => 0) = .ok o ∧ o.st.weights = none ∧
      ∀ i j k, o.st.F.entry i j k = (1 / 2 * z + 2) / (3 / 2) := by
    intro z hz
    obtain ⟨i, hsw⟩ := sweep_scP (n := 1) hP hN hs (x := 2) (l2 := 0) le_rfl (pens := fun _ => StdPen.nonNeg.toA) (u := fun _ => nonNegRow 1)
      (v := fun _ y => max y 0) (fun _ => rfl) (fun _ y ρ aux => by funext r; obtain rfl : r = 0 := Subsingleton.elim _ _; simp [nonNegRow, clip]) z (fun _ => z) fun _ => 0
    obtain ⟨o, ho, hst⟩ := fit_plain (aoOps P) none (scS z (fun _ => z) fun _ => 0) _ 1 (sweeps_one hsw)
    refine ⟨o, ho, by rw [hst]; rfl, fun i j k => ?_⟩
    rw [hst]
    simp [Factors.entry, scS, scF, sc, scY]
    norm_num
  obtain ⟨o, ho, hw, he⟩ := key 1 zero_le_one
  obtain ⟨o', ho', -, he'⟩ := key 2 zero_le_two
  obtain ⟨o2, ho2, hst⟩ := C44_weights_ignored P (.inl rfl) 1 one_pos _ (some fun _ => 2) o ho
  refine ⟨E, E.cp.toStart E.fits, P, o2, o', hP, rfl, ?_, ?_, ?_, ?_, ?_, ?_, ?_⟩
  · intro i j k; simp [initEntry, E, c, P, scP, scX, sc]
  · intro i j k; simp [Factors.entry, CPTensor.toStart, E, c, sc]
  · refine Eq.trans (congrArg _ ?_) ho2
    rfl
  · intro i j k; rw [hst, he]; norm_num [P, scP, scX, sc]
  · rw [hst, hw]
  · refine Eq.trans (congrArg _ ?_) ho'
    have : (absorb (E.cp.toStart E.fits : Start 1 1 1 fun _ => 1).weights (E.cp.toStart E.fits : Start 1 1 1 fun _ => 1).F) = scF 2 1 1 := by
      simp [absorb, CPTensor.toStart, E, c, scF, sc]
      rfl
    rw [this]
    rfl
  · intro i j k; rw [he']; norm_num

end Verif.Props
