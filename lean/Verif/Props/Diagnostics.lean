import Verif.ADMM.ErrorModel
import Verif.Props.InnerLoop

/-!
# C35, C36: reconstruction error and feasibility gaps
-/

namespace Verif.Props

open Verif.ADMM Verif.Penalties Verif.Spec Finset Matrix

variable {I K R : ℕ} {J : Fin I → ℕ}

theorem normTerm_eq {j : ℕ} (B : Matrix (Fin j) (Fin R) ℝ) (C : Matrix (Fin K) (Fin R) ℝ) :
    normTerm B C = ∑ a, ∑ k, (∑ r, B a r * C k r) ^ 2 := by
  have h : ∀ a k, (∑ r, B a r * C k r) ^ 2 = ∑ r, ∑ s, B a r * C k r * (B a s * C k s) := fun a k => by rw [sq, sum_mul_sum]
  simp only [h, normTerm, matSum, of_apply, mul_apply, transpose_apply, sum_mul_sum]
  have e : ∀ f : Fin R → Fin R → Fin j → Fin K → ℝ, ∑ r, ∑ s, ∑ a, ∑ k, f r s a k = ∑ a, ∑ k, ∑ r, ∑ s, f r s a k := by
    intro f
    calc ∑ r, ∑ s, ∑ a, ∑ k, f r s a k = ∑ r, ∑ a, ∑ s, ∑ k, f r s a k := sum_congr rfl fun r _ => sum_comm
      _ = ∑ a, ∑ r, ∑ s, ∑ k, f r s a k := sum_comm
      _ = ∑ a, ∑ r, ∑ k, ∑ s, f r s a k := sum_congr rfl fun a _ => sum_congr rfl fun r _ => sum_comm
      _ = _ := sum_congr rfl fun a _ => sum_comm
  rw [← e]
  exact sum_congr rfl fun r _ => sum_congr rfl fun s _ => sum_congr rfl fun a _ => sum_congr rfl fun k _ => by ring

theorem innerTerm_eq {j : ℕ} (X : Matrix (Fin j) (Fin K) ℝ) (B : Matrix (Fin j) (Fin R) ℝ) (C : Matrix (Fin K) (Fin R) ℝ) :
    innerTerm X B C = ∑ a, ∑ k, X a k * ∑ r, B a r * C k r := by
  have h : (B.transpose * X * C).trace = ∑ a, ∑ k, X a k * ∑ r, B a r * C k r := by
    simp only [trace, Matrix.diag, mul_apply, transpose_apply, sum_mul, mul_sum]
    calc ∑ r, ∑ k, ∑ a, B a r * X a k * C k r = ∑ r, ∑ a, ∑ k, B a r * X a k * C k r := sum_congr rfl fun r _ => sum_comm
      _ = ∑ a, ∑ r, ∑ k, B a r * X a k * C k r := sum_comm
      _ = ∑ a, ∑ k, ∑ r, B a r * X a k * C k r := sum_congr rfl fun a _ => sum_comm
      _ = _ := sum_congr rfl fun a _ => sum_congr rfl fun k _ => sum_congr rfl fun r _ => by ring
  rw [innerTerm, ← Matrix.mul_assoc, ite_self, h]

theorem sse_expand (X : Ragged I K J) (F : Factors I K R J) :
    raggedSq X - 2 * (∑ i, ∑ j, ∑ k, X i j k * F.entry i j k) + ∑ i, ∑ j, ∑ k, F.entry i j k ^ 2 = sse X F := by
  simp only [raggedSq, sqNorm, sse, mul_sum, ← sum_sub_distrib, ← sum_add_distrib]
  exact sum_congr rfl fun i _ => sum_congr rfl fun j _ => sum_congr rfl fun k _ => by ring

theorem sse_nonneg (X : Ragged I K J) (F : Factors I K R J) : 0 ≤ sse X F :=
  sum_nonneg fun _ _ => sum_nonneg fun _ _ => sum_nonneg fun _ _ => sq_nonneg _

theorem raggedSq_nonneg (X : Ragged I R J) : 0 ≤ raggedSq X := sum_nonneg fun _ _ => sqNorm_nonneg _

/-- The factorization with the weights absorbed in `A`. -/
def absorb (w : Option (Fin R → ℝ)) (F : Factors I K R J) : Factors I K R J :=
  ⟨fun i r => F.A i r * (w.getD fun _ => 1) r, F.B, F.C⟩

theorem scaleA_eq (w : Option (Fin R → ℝ)) (F : Factors I K R J) : scaleA w F.A = (absorb w F).A := by
  cases w with
  | none => ext i r; simp [scaleA, absorb]
  | some w => rfl

theorem recError_direct (X : Ragged I K J) (w : Option (Fin R → ℝ)) (F : Factors I K R J) :
    recError X w F (rootSumSq X) none = √(sse X (absorb w F)) := by
  have e1 : ∀ i (j : Fin (J i)) k, ∑ r, F.B i j r * (absorb w F).A i r * F.C k r = (absorb w F).entry i j k := fun i j k =>
    sum_congr rfl fun r _ => by simp only [absorb]; ring
  have h : raggedSq X - 2 * (∑ i, innerTerm (X i) (Matrix.of fun j r => F.B i j r * (absorb w F).A i r) F.C)
      + ∑ i, normTerm (Matrix.of fun j r => F.B i j r * (absorb w F).A i r) F.C = sse X (absorb w F) := by
    simp only [innerTerm_eq, normTerm_eq, of_apply, e1]
    exact sse_expand X (absorb w F)
  simp only [recError, rootSumSq_eq, Real.sq_sqrt (raggedSq_nonneg X), scaleA_eq]
  rw [h, max_eq_right (sse_nonneg _ _)]

theorem recError_inter (X : Ragged I K J) (F : Factors I K R J) (A : Matrix (Fin I) (Fin R) ℝ) :
    recError X none ⟨A, F.B, F.C⟩ (rootSumSq X) (some ⟨rhsA X F, crossA F⟩) = √(sse X ⟨A, F.B, F.C⟩) := by
  rw [show sse X ⟨A, F.B, F.C⟩ = sse X (absorb none ⟨A, F.B, F.C⟩) by simp [absorb], ← recError_direct]
  simp only [recError, scaleA]
  congr 3
  · congr 1
    congr 1
    refine sum_congr rfl fun i _ => ?_
    have h : ∀ r, rhsA X F i r = ∑ j, ∑ k, X i j k * (F.B i j r * F.C k r) := by
      intro r
      have : rhsA X F i r = ((F.B i).transpose * X i * F.C) r r := by
        unfold rhsA
        split
        · rfl
        · rw [Matrix.mul_assoc]
      rw [this, mul_apply]
      simp only [mul_apply, transpose_apply, sum_mul]
      rw [sum_comm]
      exact sum_congr rfl fun j _ => sum_congr rfl fun k _ => by ring
    rw [innerTerm_eq]
    simp only [h, sum_mul, of_apply, mul_sum]
    rw [sum_comm]
    refine sum_congr rfl fun j _ => ?_
    rw [sum_comm]
    exact sum_congr rfl fun k _ => sum_congr rfl fun r _ => by ring
  · refine sum_congr rfl fun i _ => ?_
    simp only [normTerm, matSum]
    refine sum_congr rfl fun r _ => sum_congr rfl fun s _ => ?_
    rw [mul_diagonal, diagonal_mul, crossA, of_apply, of_apply]
    have e : ((Matrix.of fun j r => F.B i j r * A i r : Matrix (Fin (J i)) (Fin R) ℝ).transpose * Matrix.of fun j r => F.B i j r * A i r) r s
        = A i r * ((F.B i).transpose * F.B i) r s * A i s := by
      rw [mul_apply, mul_apply, mul_sum, sum_mul]
      refine sum_congr rfl fun j _ => ?_
      simp only [transpose_apply, of_apply]
      ring
    rw [e]
    ring

/-- C35, from scratch: the recorded value is the relative error of the factorization, weights included. -/
theorem C35_direct (X : Ragged I K J) (hX : X ≠ 0) (w : Option (Fin R → ℝ)) (F : Factors I K R J) :
    PyF.div (recError X w F (rootSumSq X) none) (rootSumSq X) = .fin (√(sse X (absorb w F)) / √(raggedSq X)) ∧
    0 < √(raggedSq X) := by
  have hpos : 0 < raggedSq X := by
    refine lt_of_le_of_ne (raggedSq_nonneg X) fun h => hX (funext fun i => ?_)
    exact sqNorm_eq_zero ((sum_eq_zero_iff_of_nonneg fun i _ => sqNorm_nonneg (X i)).1 h.symm i (mem_univ i))
  have := Real.sqrt_pos.2 hpos
  rw [recError_direct, rootSumSq_eq, PyF.div, if_neg this.ne']
  exact ⟨rfl, this⟩

/-- C35, reusing what the A-update computed from the factors `F` before it replaced `F.A` by any `A`. -/
theorem C35_reused (X : Ragged I K J) (hX : X ≠ 0) (F : Factors I K R J) (A : Matrix (Fin I) (Fin R) ℝ) :
    PyF.div (recError X none ⟨A, F.B, F.C⟩ (rootSumSq X) (some ⟨rhsA X F, crossA F⟩)) (rootSumSq X)
      = .fin (√(sse X ⟨A, F.B, F.C⟩) / √(raggedSq X)) := by
  have := (C35_direct (R := R) X hX none F).2
  rw [recError_inter, rootSumSq_eq, PyF.div, if_neg this.ne']

/-- A 1 × 1 matrix `-1`, represented by 1 * 3 * 1 with weight 2: the relative error is 7. -/
example : PyF.div (recError (I := 1) (J := fun _ => 1) (fun _ => !![-1]) (some fun _ => 2) ⟨!![1], fun _ => !![3], !![1]⟩
    (rootSumSq (I := 1) (J := fun _ => 1) fun _ => !![-1]) none) (rootSumSq (I := 1) (J := fun _ => 1) fun _ => !![-1]) = .fin 7 := by
  rw [(C35_direct (fun _ => !![-1]) (fun h => by simpa using congrFun (congrFun (congrFun h 0) 0) 0) _ _).1]
  have h1 : sse (I := 1) (J := fun _ => 1) (fun _ => !![-1]) (absorb (some fun _ => 2) ⟨!![1], fun _ => !![3], !![1]⟩) = 7 ^ 2 := by
    simp [sse, absorb, Factors.entry]; norm_num
  have h2 : raggedSq (I := 1) (J := fun _ => 1) (fun _ => !![(-1 : ℝ)]) = 1 := by
    simp [raggedSq, sqNorm]
  rw [h1, h2, Real.sqrt_one, Real.sqrt_sq (by norm_num), div_one]

/-! ### C36 -/

theorem matGap_eq {m : ℕ} {X : Matrix (Fin m) (Fin R) ℝ} (hX : X ≠ 0) (Z : Matrix (Fin m) (Fin R) ℝ) :
    matGap X Z = .fin (√(sqNorm (X - Z)) / √(sqNorm X)) ∧ 0 < √(sqNorm X) := by
  have hpos : 0 < sqNorm X := lt_of_le_of_ne (sqNorm_nonneg X) fun h => hX (sqNorm_eq_zero h.symm)
  have := Real.sqrt_pos.2 hpos
  rw [matGap, matNorm_eq, matNorm_eq, PyF.div, if_neg this.ne', sqNorm_sub_comm]
  exact ⟨rfl, this⟩

theorem raggedGap_eq {X : Ragged I R J} (hX : X ≠ 0) (Z : AuxB I R J) :
    raggedGap X Z = .fin (√(raggedSq (X - Z.toMats)) / √(raggedSq X)) ∧ 0 < √(raggedSq X) := by
  have := (C35_direct (R := R) X hX none ⟨0, 0, 0⟩).2
  rw [raggedGap, rootSumSq_eq, rootSumSq_eq, PyF.div, if_neg this.ne', auxB_subtract, raggedSq_sub_comm]
  exact ⟨rfl, this⟩

/-- C36: the gaps of every penalty of every mode, and when they are zero. -/
theorem C36 {nA nB nC : ℕ} (F : Factors I K R J) (auxA : Fin nA → Matrix (Fin I) (Fin R) ℝ) (auxB : Fin nB → AuxB I R J)
    (auxC : Fin nC → Matrix (Fin K) (Fin R) ℝ) (hA : F.A ≠ 0) (hB : F.B ≠ 0) (hC : F.C ≠ 0) :
    (∃ gA : Fin nA → ℝ, (feasibilityGaps F auxA auxB auxC).A = List.ofFn (fun p => .fin (gA p)) ∧
      (∀ p, gA p = √(sqNorm (F.A - auxA p)) / √(sqNorm F.A)) ∧ ∀ p, gA p = 0 ↔ F.A = auxA p) ∧
    (∃ gB : Fin nB → ℝ, (feasibilityGaps F auxA auxB auxC).B = List.ofFn (fun p => .fin (gB p)) ∧
      (∀ p, gB p = √(raggedSq (F.B - (auxB p).toMats)) / √(raggedSq F.B)) ∧ ∀ p, gB p = 0 ↔ F.B = (auxB p).toMats) ∧
    ∃ gC : Fin nC → ℝ, (feasibilityGaps F auxA auxB auxC).C = List.ofFn (fun p => .fin (gC p)) ∧
      (∀ p, gC p = √(sqNorm (F.C - auxC p)) / √(sqNorm F.C)) ∧ ∀ p, gC p = 0 ↔ F.C = auxC p := by
  have hz : ∀ {m : ℕ} (X Z : Matrix (Fin m) (Fin R) ℝ), X ≠ 0 → (√(sqNorm (X - Z)) / √(sqNorm X) = 0 ↔ X = Z) := by
    intro m X Z hX
    rw [div_eq_zero_iff, or_iff_left (matGap_eq hX Z).2.ne', Real.sqrt_eq_zero (sqNorm_nonneg _)]
    constructor
    · intro h; exact sub_eq_zero.1 (sqNorm_eq_zero h)
    · rintro rfl; simp [sqNorm]
  refine ⟨⟨_, ?_, fun p => rfl, fun p => hz _ _ hA⟩, ⟨_, ?_, fun p => rfl, fun p => ?_⟩, ⟨_, ?_, fun p => rfl, fun p => hz _ _ hC⟩⟩
  · simp only [feasibilityGaps, fun p => (matGap_eq hA (auxA p)).1]
  · simp only [feasibilityGaps, fun p => (raggedGap_eq hB (auxB p)).1]
  · rw [div_eq_zero_iff, or_iff_left (raggedGap_eq hB (auxB p)).2.ne', Real.sqrt_eq_zero (raggedSq_nonneg _)]
    constructor
    · intro h
      funext i
      have := (sum_eq_zero_iff_of_nonneg fun i _ => sqNorm_nonneg _).1 h i (mem_univ i)
      exact sub_eq_zero.1 (sqNorm_eq_zero this)
    · intro h; rw [h]; simp [raggedSq, sqNorm]
  · simp only [feasibilityGaps, fun p => (matGap_eq hC (auxC p)).1]

/-- A PARAFAC2 auxiliary variable with basis 2 and coordinate 3 for the factor 5: the gap is 1/5. -/
example : raggedGap (I := 1) (J := fun _ => 1) (fun _ => !![5]) (.p2 ⟨fun _ => !![2], !![3]⟩) = .fin (1 / 5) := by
  rw [(raggedGap_eq (fun h => by simpa using congrFun (congrFun (congrFun h 0) 0) 0) _).1]
  have h1 : raggedSq (I := 1) (J := fun _ => 1) ((fun _ => !![5]) - AuxB.toMats (.p2 ⟨fun _ => !![2], !![3]⟩)) = 1 := by
    simp [raggedSq, sqNorm, AuxB.toMats, p2Matrices]; norm_num
  have h2 : raggedSq (I := 1) (J := fun _ => 1) (fun _ => !![(5 : ℝ)]) = 5 ^ 2 := by
    simp [raggedSq, sqNorm]
  rw [h1, h2, Real.sqrt_one, Real.sqrt_sq (by norm_num)]

end Verif.Props
