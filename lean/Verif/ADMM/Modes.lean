import Verif.ADMM.LeastSquares
import Verif.ADMM.Abstract
import Mathlib.Algebra.BigOperators.Fin
import Mathlib.Data.Fintype.BigOperators

/-!
# Helper lemmas: the three modes as ridge regression problems
-/

namespace Verif.ADMM

open Verif.Penalties Verif.Spec Finset Matrix

variable {I K R n : ℕ} {J : Fin I → ℕ}

/-! ### Inner products -/

/-- Frobenius inner product with one weight per row. -/
def matIP {m : ℕ} (w : Fin m → ℝ) (hw : ∀ i, 0 ≤ w i) : IP (Matrix (Fin m) (Fin R) ℝ) where
  ip X Y := ∑ i, w i * ∑ r, X i r * Y i r
  add_left X Y Z := by
    rw [← sum_add_distrib]
    refine sum_congr rfl fun i _ => ?_
    rw [← mul_add, ← sum_add_distrib]
    congr 1
    exact sum_congr rfl fun r _ => by rw [Matrix.add_apply]; ring
  smul_left c X Z := by
    rw [mul_sum]
    refine sum_congr rfl fun i _ => ?_
    rw [mul_left_comm]
    congr 1
    rw [mul_sum]
    exact sum_congr rfl fun r _ => by rw [Matrix.smul_apply, smul_eq_mul]; ring
  symm X Y := sum_congr rfl fun i _ => by
    congr 1
    exact sum_congr rfl fun r _ => mul_comm _ _
  nonneg X := sum_nonneg fun i _ => mul_nonneg (hw i) (sum_nonneg fun r _ => mul_self_nonneg _)

/-- Frobenius inner product of lists of matrices with one weight per matrix. -/
def ragIP (w : Fin I → ℝ) (hw : ∀ i, 0 ≤ w i) : IP (Ragged I R J) where
  ip X Y := ∑ i, w i * inner (X i) (Y i)
  add_left X Y Z := by
    rw [← sum_add_distrib]
    exact sum_congr rfl fun i _ => by rw [Pi.add_apply, inner_add_left]; ring
  smul_left c X Z := by
    rw [mul_sum]
    exact sum_congr rfl fun i _ => by rw [Pi.smul_apply, inner_smul_left]; ring
  symm X Y := sum_congr rfl fun i _ => by rw [inner_comm]
  nonneg X := sum_nonneg fun i _ => mul_nonneg (hw i) (by rw [inner_self]; exact sqNorm_nonneg _)

/-! ### Designs -/

/-- Design matrix for row `i` of mode 0. -/
def designA (F : Factors I K R J) (i : Fin I) : Matrix (Fin (J i) × Fin K) (Fin R) ℝ :=
  Matrix.of fun jk r => F.B i jk.1 r * F.C jk.2 r

/-- Data for row `i` of mode 0. -/
def dataA (X : Ragged I K J) (i : Fin I) : Matrix (Fin 1) (Fin (J i) × Fin K) ℝ := Matrix.of fun _ jk => X i jk.1 jk.2

/-- Design matrix for block `i` of mode 1. -/
def designB (F : Factors I K R J) (i : Fin I) : Matrix (Fin K) (Fin R) ℝ := Matrix.of fun k r => F.C k r * F.A i r

/-- Design matrix for mode 2. -/
def designC (F : Factors I K R J) : Matrix ((i : Fin I) × Fin (J i)) (Fin R) ℝ :=
  Matrix.of fun ij r => F.B ij.1 ij.2 r * F.A ij.1 r

/-- Data for mode 2. -/
def dataC (X : Ragged I K J) : Matrix (Fin K) ((i : Fin I) × Fin (J i)) ℝ := Matrix.of fun k ij => X ij.1 ij.2 k

theorem crossA_eq (F : Factors I K R J) (i : Fin I) : crossA F i = (designA F i).transpose * designA F i := by
  ext r s
  simp only [crossA, designA, Matrix.of_apply, mul_apply, transpose_apply, Fintype.sum_prod_type, sum_mul_sum]
  exact sum_congr rfl fun j _ => sum_congr rfl fun k _ => by ring

theorem rhsA_eq (X : Ragged I K J) (F : Factors I K R J) (i : Fin I) : rowMat (rhsA X F i) = dataA X i * designA F i := by
  ext z r
  have h1 : ((F.B i).transpose * X i * F.C) r r = ∑ j, ∑ k, X i j k * (F.B i j r * F.C k r) := by
    rw [Matrix.mul_assoc]
    simp only [mul_apply, transpose_apply, mul_sum]
    exact sum_congr rfl fun j _ => sum_congr rfl fun k _ => by ring
  have h2 : rhsA X F i r = ∑ j, ∑ k, X i j k * (F.B i j r * F.C k r) := by
    unfold rhsA
    split
    · exact h1
    · rw [← Matrix.mul_assoc]; exact h1
  show rhsA X F i r = _
  rw [h2, mul_apply, Fintype.sum_prod_type]
  rfl

theorem crossB_eq (F : Factors I K R J) (i : Fin I) : crossB F i = (designB F i).transpose * designB F i := by
  ext r s
  simp only [crossB, designB, Matrix.of_apply, mul_apply, transpose_apply, sum_mul]
  exact sum_congr rfl fun k _ => by ring

theorem rhsB_eq (X : Ragged I K J) (F : Factors I K R J) (i : Fin I) : rhsB X F i = X i * designB F i := rfl

theorem crossC_eq (F : Factors I K R J) : crossC F = (designC F).transpose * designC F := by
  ext r s
  rw [crossC, Matrix.sum_apply, mul_apply, Fintype.sum_sigma]
  exact sum_congr rfl fun i _ => mul_apply

theorem rhsC_eq (X : Ragged I K J) (F : Factors I K R J) : rhsC X F = dataC X * designC F := by
  ext k r
  rw [rhsC, Matrix.sum_apply, mul_apply, Fintype.sum_sigma]
  exact sum_congr rfl fun i _ => mul_apply

/-! ### The sum of squared errors -/

theorem sqNorm_rows {m : ℕ} (Y : Matrix (Fin m) (Fin R) ℝ) : sqNorm Y = ∑ i, sqNorm (rowMat (Y i)) := by
  refine sum_congr rfl fun i _ => ?_
  rw [sqNorm, Fin.sum_univ_one]
  rfl

theorem sse_A (X : Ragged I K J) (F : Factors I K R J) (l2 : ℝ) (Y : Matrix (Fin I) (Fin R) ℝ) :
    1 / 2 * sse X ⟨Y, F.B, F.C⟩ + l2 / 2 * sqNorm Y = ∑ i, lsq (dataA X i) (designA F i) l2 (rowMat (Y i)) := by
  simp only [lsq, sum_add_distrib, ← mul_sum, ← sqNorm_rows]
  congr 2
  refine sum_congr rfl fun i _ => ?_
  rw [frobSq, Fin.sum_univ_one, Fintype.sum_prod_type]
  refine sum_congr rfl fun j _ => sum_congr rfl fun k _ => ?_
  congr 2
  rw [mul_apply]
  exact sum_congr rfl fun r _ => mul_assoc _ _ _

theorem sse_B (X : Ragged I K J) (F : Factors I K R J) (l2 : ℝ) (Y : Ragged I R J) :
    1 / 2 * sse X ⟨F.A, Y, F.C⟩ + l2 / 2 * raggedSq Y = ∑ i, lsq (X i) (designB F i) l2 (Y i) := by
  simp only [lsq, sum_add_distrib, ← mul_sum]
  congr 2
  refine sum_congr rfl fun i _ => sum_congr rfl fun j _ => sum_congr rfl fun k _ => ?_
  congr 2
  rw [mul_apply]
  exact sum_congr rfl fun r _ => by simp only [designB, transpose_apply, Matrix.of_apply]; ring

theorem sse_C (X : Ragged I K J) (F : Factors I K R J) (l2 : ℝ) (Y : Matrix (Fin K) (Fin R) ℝ) :
    1 / 2 * sse X ⟨F.A, F.B, Y⟩ + l2 / 2 * sqNorm Y = lsq (dataC X) (designC F) l2 Y := by
  simp only [lsq]
  congr 2
  rw [frobSq, sum_comm, Fintype.sum_sigma]
  refine sum_congr rfl fun i _ => sum_congr rfl fun j _ => sum_congr rfl fun k _ => ?_
  congr 2
  rw [mul_apply]
  exact sum_congr rfl fun r _ => by simp only [designC, transpose_apply, Matrix.of_apply]; ring

/-! ### Solvability -/

theorem isUnit_gram {κ : Type} [Fintype κ] (M : Matrix κ (Fin R) ℝ) {c d : ℝ}
    (h : ∀ v : Fin R → ℝ, v ≠ 0 → 0 < ∑ k, (∑ r, M k r * v r) ^ 2 + d * ∑ r, v r ^ 2) (hc : d ≤ c) :
    IsUnit (M.transpose * M + c • (1 : Matrix (Fin R) (Fin R) ℝ)) := by
  rw [← Matrix.mulVec_injective_iff_isUnit]
  intro v w hvw
  by_contra hne
  have hv : v - w ≠ 0 := sub_ne_zero.2 hne
  have h1 := h (v - w) hv
  have h0 : (M.transpose * M + c • (1 : Matrix (Fin R) (Fin R) ℝ)).mulVec (v - w) = 0 := by
    rw [mulVec_sub]; exact sub_eq_zero.2 hvw
  have h2 : ∑ i, (v - w) i * (M.transpose * M + c • (1 : Matrix (Fin R) (Fin R) ℝ)).mulVec (v - w) i = 0 := by
    rw [h0]; simp
  have h3 : ∑ i, (v - w) i * (M.transpose * M + c • (1 : Matrix (Fin R) (Fin R) ℝ)).mulVec (v - w) i
      = ∑ k, (∑ r, M k r * (v - w) r) ^ 2 + c * ∑ r, (v - w) r ^ 2 := by
    generalize v - w = u
    have e : ∑ k, (∑ r, M k r * u r) ^ 2 = ∑ i, u i * (M.transpose * M).mulVec u i := by
      rw [← mulVec_mulVec]
      simp only [mulVec, dotProduct, transpose_apply, mul_sum, sq, sum_mul]
      rw [sum_comm]
      exact sum_congr rfl fun i _ => sum_congr rfl fun j _ => sum_congr rfl fun k _ => by ring
    rw [e, mul_sum, ← sum_add_distrib]
    refine sum_congr rfl fun i _ => ?_
    rw [add_mulVec, smul_mulVec, one_mulVec]
    simp only [Pi.add_apply, Pi.smul_apply, smul_eq_mul]
    ring
  have h4 : 0 ≤ ∑ r, (v - w) r ^ 2 := sum_nonneg fun _ _ => sq_nonneg _
  have h5 := mul_le_mul_of_nonneg_right hc h4
  rw [h3] at h2
  linarith

/-- A strictly convex ridge problem has no nonzero direction of zero curvature. -/
theorem curvature_pos {κ : Type} [Fintype κ] {m : ℕ} (M : Matrix κ (Fin R) ℝ) {d : ℝ}
    (h : ∀ v : Fin R → ℝ, v ≠ 0 → 0 < ∑ k, (∑ r, M k r * v r) ^ 2 + d * ∑ r, v r ^ 2) (V : Matrix (Fin m) (Fin R) ℝ) :
    0 ≤ 1 / 2 * sqNorm (V * M.transpose) + d / 2 * sqNorm V ∧
      (V ≠ 0 → 0 < 1 / 2 * sqNorm (V * M.transpose) + d / 2 * sqNorm V) := by
  have e : 1 / 2 * sqNorm (V * M.transpose) + d / 2 * sqNorm V
      = ∑ i, 1 / 2 * (∑ k, (∑ r, M k r * V i r) ^ 2 + d * ∑ r, V i r ^ 2) := by
    simp only [sqNorm, mul_apply, transpose_apply]
    rw [mul_sum, mul_sum, ← sum_add_distrib]
    refine sum_congr rfl fun i _ => ?_
    rw [mul_add, ← mul_assoc (1 / 2) d, div_eq_mul_one_div d 2, mul_comm d (1 / 2)]
    congr 2
    exact sum_congr rfl fun k _ => by
      congr 1
      exact sum_congr rfl fun r _ => mul_comm _ _
  have hnn : ∀ i, 0 ≤ 1 / 2 * (∑ k, (∑ r, M k r * V i r) ^ 2 + d * ∑ r, V i r ^ 2) := by
    intro i
    by_cases hi : V i = 0
    · simp [hi]
    · exact mul_nonneg (by norm_num) (h _ hi).le
  rw [e]
  refine ⟨sum_nonneg fun i _ => hnn i, fun hV => ?_⟩
  obtain ⟨i, hi⟩ : ∃ i, V i ≠ 0 := by
    by_contra hc
    push Not at hc
    exact hV (by ext i r; exact congrFun (hc i) r)
  exact sum_pos' (fun i _ => hnn i) ⟨i, mem_univ i, mul_pos (by norm_num) (h _ hi)⟩

theorem solvableA_design {F : Factors I K R J} {l2 : ℝ} (h : SolvableA F l2) (i : Fin I) (v : Fin R → ℝ) (hv : v ≠ 0) :
    0 < ∑ k, (∑ r, designA F i k r * v r) ^ 2 + l2 * ∑ r, v r ^ 2 := by
  have := h i v hv
  rw [Fintype.sum_prod_type]
  convert this using 6
  simp only [designA, Matrix.of_apply]; ring

theorem solvableB_design {F : Factors I K R J} {l2 : ℝ} (h : SolvableB F l2) (i : Fin I) (v : Fin R → ℝ) (hv : v ≠ 0) :
    0 < ∑ k, (∑ r, designB F i k r * v r) ^ 2 + l2 * ∑ r, v r ^ 2 := by
  have := h i v hv
  convert this using 5
  simp only [designB, Matrix.of_apply]; ring

theorem solvableC_design {F : Factors I K R J} {l2 : ℝ} (h : SolvableC F l2) (v : Fin R → ℝ) (hv : v ≠ 0) :
    0 < ∑ k, (∑ r, designC F k r * v r) ^ 2 + l2 * ∑ r, v r ^ 2 := by
  have := h v hv
  rw [Fintype.sum_sigma]
  convert this using 7
  simp only [designC, Matrix.of_apply]; ring

end Verif.ADMM
