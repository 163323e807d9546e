import Verif.ADMM.Model
import Verif.Penalties.GenL2

/-!
# Helper lemmas: linear systems and least squares
-/

namespace Verif.ADMM

open Verif.Penalties Verif.Spec Finset Matrix

section Solve
variable {m n : ℕ}

/-- Solving with an SVD of a symmetric invertible matrix. -/
theorem svdSolve_mul {G : Matrix (Fin n) (Fin n) ℝ} {d : SVD n n n} (hd : d.Valid G) (hs : G.transpose = G)
    (h0 : ∀ i, d.s i ≠ 0) (rhs : Matrix (Fin m) (Fin n) ℝ) : svdSolve d rhs * G = rhs := by
  have hU := mul_eq_one_comm.1 hd.left
  have e1 : colDiv d.U d.s = d.U * diagonal (fun i => (d.s i)⁻¹) := by
    ext i j; rw [mul_diagonal]; rfl
  have e2 : G = d.Vh.transpose * (diagonal d.s * d.U.transpose) := by
    rw [← hs, ← hd.eq, transpose_mul, transpose_mul, diagonal_transpose]
  have e3 : diagonal (fun i => (d.s i)⁻¹) * diagonal d.s = (1 : Matrix (Fin n) (Fin n) ℝ) := by
    rw [diagonal_mul_diagonal, ← diagonal_one]
    congr 1
    funext i
    exact inv_mul_cancel₀ (h0 i)
  calc svdSolve d rhs * G = rhs * d.U * (diagonal (fun i => (d.s i)⁻¹) * ((d.Vh * d.Vh.transpose) * (diagonal d.s * d.U.transpose))) := by
        rw [svdSolve, e1]
        conv_lhs => rw [e2]
        simp only [Matrix.mul_assoc]
    _ = rhs * d.U * ((diagonal (fun i => (d.s i)⁻¹) * diagonal d.s) * d.U.transpose) := by
        rw [hd.right, Matrix.one_mul, Matrix.mul_assoc (diagonal _)]
    _ = rhs := by rw [e3, Matrix.one_mul, Matrix.mul_assoc, hU, Matrix.mul_one]

/-- The singular values of an invertible matrix are nonzero. -/
theorem svd_ne_zero {G : Matrix (Fin n) (Fin n) ℝ} {d : SVD n n n} (hd : d.Valid G) (h : IsUnit G) (i : Fin n) : d.s i ≠ 0 := by
  intro h0
  obtain ⟨H, hH⟩ := h.exists_left_inv
  have e1 : G * d.Vh.transpose = d.U * diagonal d.s := by
    conv_lhs => rw [← hd.eq]
    rw [Matrix.mul_assoc, hd.right, Matrix.mul_one]
  have e2 : d.Vh.transpose = H * (d.U * diagonal d.s) := by rw [← e1, ← Matrix.mul_assoc, hH, Matrix.one_mul]
  have e3 : ∀ j, d.Vh i j = 0 := by
    intro j
    have := congrFun (congrFun e2 j) i
    rw [← Matrix.mul_assoc, mul_diagonal, h0, mul_zero] at this
    exact this
  have e4 := congrFun (congrFun hd.right i) i
  rw [mul_apply, one_apply_eq] at e4
  simp [e3] at e4

/-- Conversely, nonzero singular values make the matrix invertible. -/
theorem isUnit_of_svd {G : Matrix (Fin n) (Fin n) ℝ} {d : SVD n n n} (hd : d.Valid G) (h : ∀ i, d.s i ≠ 0) : IsUnit G := by
  have hV := mul_eq_one_comm.1 hd.right
  have hU := mul_eq_one_comm.1 hd.left
  refine ⟨⟨G, d.Vh.transpose * diagonal (fun i => (d.s i)⁻¹) * d.U.transpose, ?_, ?_⟩, rfl⟩
  · conv_lhs => rw [← hd.eq]
    have : diagonal d.s * diagonal (fun i => (d.s i)⁻¹) = (1 : Matrix (Fin n) (Fin n) ℝ) := by
      rw [diagonal_mul_diagonal, ← diagonal_one]; congr 1; funext i; exact mul_inv_cancel₀ (h i)
    calc _ = d.U * (diagonal d.s * ((d.Vh * d.Vh.transpose) * diagonal (fun i => (d.s i)⁻¹))) * d.U.transpose := by
          simp only [Matrix.mul_assoc]
      _ = _ := by rw [hd.right, Matrix.one_mul, this, Matrix.mul_one, hU]
  · conv_lhs => rw [← hd.eq]
    have : diagonal (fun i => (d.s i)⁻¹) * diagonal d.s = (1 : Matrix (Fin n) (Fin n) ℝ) := by
      rw [diagonal_mul_diagonal, ← diagonal_one]; congr 1; funext i; exact inv_mul_cancel₀ (h i)
    calc _ = d.Vh.transpose * (diagonal (fun i => (d.s i)⁻¹) * ((d.U.transpose * d.U) * diagonal d.s)) * d.Vh := by
          simp only [Matrix.mul_assoc]
      _ = _ := by rw [hd.left, Matrix.one_mul, this, Matrix.mul_one, hV]

/-- A vector as a matrix with one row. -/
def rowMat (v : Fin n → ℝ) : Matrix (Fin 1) (Fin n) ℝ := Matrix.of fun _ => v

/-- The row version is the matrix version for one row. -/
theorem svdSolveRow_eq (d : SVD n n n) (v : Fin n → ℝ) : rowMat (svdSolveRow d v) = svdSolve d (rowMat v) := by
  ext i r
  rw [svdSolve, mul_apply]
  simp only [mul_apply]
  rfl

/-- A positive semidefinite matrix plus a positive multiple of the identity is invertible. -/
theorem isUnit_add_ridge {G : Matrix (Fin n) (Fin n) ℝ} (hp : PSD G) {c : ℝ} (hc : 0 < c) :
    IsUnit (G + c • (1 : Matrix (Fin n) (Fin n) ℝ)) := by
  rw [← Matrix.mulVec_injective_iff_isUnit]
  intro v w hvw
  have h0 : (G + c • (1 : Matrix (Fin n) (Fin n) ℝ)).mulVec (v - w) = 0 := by
    rw [mulVec_sub, hvw, sub_self]
  have h1 := hp (v - w)
  have h2 : ∑ i, (v - w) i * (G + c • (1 : Matrix (Fin n) (Fin n) ℝ)).mulVec (v - w) i = 0 := by
    rw [h0]; simp
  have h3 : ∑ i, (v - w) i * (G + c • (1 : Matrix (Fin n) (Fin n) ℝ)).mulVec (v - w) i
      = ∑ i, ∑ j, (v - w) i * G i j * (v - w) j + c * ∑ i, (v - w) i ^ 2 := by
    rw [mul_sum, ← sum_add_distrib]
    refine sum_congr rfl fun i _ => ?_
    rw [add_mulVec, smul_mulVec, one_mulVec]
    simp only [Pi.add_apply, Pi.smul_apply, smul_eq_mul, mulVec, dotProduct, mul_add, mul_sum]
    congr 1
    · exact sum_congr rfl fun j _ => by ring
    · ring
  have h4 : ∑ i, (v - w) i ^ 2 = 0 := by
    have h5 : 0 ≤ ∑ i, (v - w) i ^ 2 := sum_nonneg fun _ _ => sq_nonneg _
    rw [h3] at h2
    nlinarith
  rw [sum_eq_zero_iff_of_nonneg fun _ _ => sq_nonneg _] at h4
  funext i
  have := h4 i (mem_univ i)
  have := pow_eq_zero_iff (two_ne_zero) |>.1 this
  simpa [sub_eq_zero] using this

theorem psd_gram {κ : Type} [Fintype κ] (M : Matrix κ (Fin n) ℝ) : PSD (M.transpose * M) := by
  intro x
  have : ∑ i, ∑ j, x i * (M.transpose * M) i j * x j = ∑ k, (∑ i, M k i * x i) ^ 2 := by
    simp only [mul_apply, transpose_apply, sq, mul_sum, sum_mul]
    rw [sum_congr rfl fun i _ => sum_comm, sum_comm]
    exact sum_congr rfl fun k _ => sum_congr rfl fun i _ => sum_congr rfl fun j _ => by ring
  rw [this]
  exact sum_nonneg fun _ _ => sq_nonneg _

end Solve

section LSQ
variable {μ κ ν : Type} [Fintype μ] [Fintype κ] [Fintype ν] [DecidableEq ν]

/-- Ridge regression objective. -/
noncomputable def lsq (D : Matrix μ κ ℝ) (M : Matrix κ ν ℝ) (l2 : ℝ) (Y : Matrix μ ν ℝ) : ℝ :=
  1 / 2 * frobSq D (Y * M.transpose) + l2 / 2 * sqNorm Y

/-- Exact expansion around a solution of the (shifted) normal equations. -/
theorem lsq_expand (D : Matrix μ κ ℝ) (M : Matrix κ ν ℝ) (l2 c : ℝ) (T Y' : Matrix μ ν ℝ)
    (h : Y' * (M.transpose * M + (c + l2) • 1) = T + D * M) (Y : Matrix μ ν ℝ) :
    lsq D M l2 Y = lsq D M l2 Y' + inner (T - c • Y') (Y - Y')
      + (1 / 2 * sqNorm ((Y - Y') * M.transpose) + l2 / 2 * sqNorm (Y - Y')) := by
  have hN : Y' * (M.transpose * M) + (c + l2) • Y' = T + D * M := by
    rw [← h, Matrix.mul_add, Matrix.mul_smul, Matrix.mul_one]
  obtain ⟨V, rfl⟩ : ∃ V, Y = Y' + V := ⟨Y - Y', by abel⟩
  rw [add_sub_cancel_left]
  have h1 : T - c • Y' = Y' * (M.transpose * M) + l2 • Y' - D * M := by
    have : T = Y' * (M.transpose * M) + (c + l2) • Y' - D * M := by rw [hN]; abel
    rw [this, add_smul]; abel
  have h2 : inner (Y' * (M.transpose * M)) V = inner (Y' * M.transpose) (V * M.transpose) := by
    rw [← Matrix.mul_assoc, inner_mul_right]
  have h3 : inner (D * M) V = inner D (V * M.transpose) := by
    rw [inner_mul_right]
  rw [h1, inner_sub_left, inner_add_left, inner_smul_left, h2, h3]
  simp only [lsq, frobSq_eq]
  rw [Matrix.add_mul]
  have e1 : sqNorm (D - (Y' * M.transpose + V * M.transpose)) = sqNorm (D - Y' * M.transpose)
      - 2 * inner (D - Y' * M.transpose) (V * M.transpose) + sqNorm (V * M.transpose) := by
    rw [← sub_sub]
    generalize D - Y' * M.transpose = E
    rw [← inner_self, ← inner_self, ← inner_self, inner_sub_left, inner_sub_right, inner_sub_right,
      inner_comm (V * M.transpose) E]
    ring
  have e2 : sqNorm (Y' + V) = sqNorm Y' + 2 * inner Y' V + sqNorm V := by
    rw [← inner_self, ← inner_self, ← inner_self, inner_add_left, inner_add_right, inner_add_right, inner_comm V Y']
    ring
  rw [e1, e2, inner_sub_left]
  ring

end LSQ

end Verif.ADMM
