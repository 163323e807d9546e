import Verif.Tac
import Verif.Penalties.Model
import Verif.Penalties.Geometry
import Mathlib.LinearAlgebra.Matrix.NonsingularInverse

/-!
# Helper lemmas: the generalized L2 penalty
-/

namespace Verif.Spec

open Finset

variable {ι κ : Type} [Fintype ι] [Fintype κ]

theorem inner_comm (X Y : Matrix ι κ ℝ) : inner X Y = inner Y X :=
  sum_congr rfl fun _ _ => sum_congr rfl fun _ _ => mul_comm _ _

theorem inner_add_left (X Y Z : Matrix ι κ ℝ) : inner (X + Y) Z = inner X Z + inner Y Z := by
  simp only [inner, ← sum_add_distrib, Matrix.add_apply]
  exact sum_congr rfl fun _ _ => sum_congr rfl fun _ _ => by ring

theorem inner_sub_left (X Y Z : Matrix ι κ ℝ) : inner (X - Y) Z = inner X Z - inner Y Z := by
  simp only [inner, ← sum_sub_distrib, Matrix.sub_apply]
  exact sum_congr rfl fun _ _ => sum_congr rfl fun _ _ => by ring

theorem inner_smul_left (c : ℝ) (X Z : Matrix ι κ ℝ) : inner (c • X) Z = c * inner X Z := by
  simp only [inner, mul_sum, Matrix.smul_apply, smul_eq_mul]
  exact sum_congr rfl fun _ _ => sum_congr rfl fun _ _ => by ring

theorem inner_add_right (X Y Z : Matrix ι κ ℝ) : inner Z (X + Y) = inner Z X + inner Z Y := by
  rw [inner_comm, inner_add_left, inner_comm X, inner_comm Y]

theorem inner_sub_right (X Y Z : Matrix ι κ ℝ) : inner Z (X - Y) = inner Z X - inner Z Y := by
  rw [inner_comm, inner_sub_left, inner_comm X, inner_comm Y]

theorem inner_smul_right (c : ℝ) (X Z : Matrix ι κ ℝ) : inner Z (c • X) = c * inner Z X := by
  rw [inner_comm, inner_smul_left, inner_comm X]

theorem inner_self (X : Matrix ι κ ℝ) : inner X X = sqNorm X :=
  sum_congr rfl fun _ _ => sum_congr rfl fun _ _ => (sq _).symm

theorem frobSq_eq (X Y : Matrix ι κ ℝ) : frobSq X Y = sqNorm (X - Y) := rfl

theorem sqNorm_nonneg (X : Matrix ι κ ℝ) : 0 ≤ sqNorm X :=
  sum_nonneg fun _ _ => sum_nonneg fun _ _ => sq_nonneg _

/-- The inner product is the trace of `Xᵀ Y`. -/
theorem inner_eq_trace (X Y : Matrix ι κ ℝ) : inner X Y = (X.transpose * Y).trace := by
  simp only [inner, Matrix.trace, Matrix.diag, Matrix.mul_apply, Matrix.transpose_apply]
  exact sum_comm

/-- Moving a matrix to the other side of the inner product. -/
theorem inner_mul_left {ι' : Type} [Fintype ι'] (A : Matrix ι ι' ℝ) (X : Matrix ι' κ ℝ) (Y : Matrix ι κ ℝ) :
    inner (A * X) Y = inner X (A.transpose * Y) := by
  rw [inner_eq_trace, inner_eq_trace, Matrix.transpose_mul, Matrix.mul_assoc]

theorem inner_mul_right {κ' : Type} [Fintype κ'] (X : Matrix ι κ' ℝ) (B : Matrix κ' κ ℝ) (Y : Matrix ι κ ℝ) :
    inner (X * B) Y = inner X (Y * B.transpose) := by
  rw [inner_eq_trace, inner_eq_trace, Matrix.transpose_mul, Matrix.mul_assoc, Matrix.trace_mul_comm, Matrix.mul_assoc]

end Verif.Spec

namespace Verif.Penalties

open Verif.Spec Finset Matrix

/-- The quadratic form of a matrix is non-negative. -/
def PSD {m : ℕ} (M : Matrix (Fin m) (Fin m) ℝ) : Prop := ∀ x : Fin m → ℝ, 0 ≤ ∑ i, ∑ j, x i * M i j * x j

theorem psd_inner {m n : ℕ} {M : Matrix (Fin m) (Fin m) ℝ} (h : PSD M) (X : Matrix (Fin m) (Fin n) ℝ) :
    0 ≤ inner X (M * X) := by
  have e : inner X (M * X) = ∑ r, ∑ i, ∑ j, X i r * M i j * X j r := by
    rw [inner, sum_comm]
    refine sum_congr rfl fun r _ => sum_congr rfl fun i _ => ?_
    rw [mul_apply, mul_sum]
    exact sum_congr rfl fun j _ => by ring
  rw [e]
  exact sum_nonneg fun r _ => h fun i => X i r

/-- A column matrix of zero norm is zero. -/
theorem sqNorm_eq_zero {ι κ : Type} [Fintype ι] [Fintype κ] {X : Matrix ι κ ℝ} (h : sqNorm X = 0) : X = 0 := by
  refine frobSq_eq_zero.1 ?_
  rw [frobSq_eq, sub_zero, h]

/-- For a symmetric positive semidefinite matrix every SVD is an eigenvalue decomposition: `M U = U diag(s)`. -/
theorem svd_psd {m : ℕ} {M : Matrix (Fin m) (Fin m) ℝ} {d : SVD m m m} (hs : M.transpose = M) (hp : PSD M)
    (hd : d.Valid M) : M * d.U = d.U * diagonal d.s := by
  have hMM : M * (M * d.U) = d.U * diagonal d.s * diagonal d.s := by
    have h1 : M * M = d.U * diagonal d.s * diagonal d.s * d.U.transpose := by
      calc M * M = M * M.transpose := by rw [hs]
        _ = (d.U * diagonal d.s * d.Vh) * (d.U * diagonal d.s * d.Vh).transpose := by rw [hd.eq]
        _ = d.U * diagonal d.s * (d.Vh * d.Vh.transpose) * diagonal d.s * d.U.transpose := by
            simp only [transpose_mul, diagonal_transpose, Matrix.mul_assoc]
        _ = _ := by rw [hd.right, Matrix.mul_one]
    rw [← Matrix.mul_assoc, h1, Matrix.mul_assoc, hd.left, Matrix.mul_one]
  -- the residual of each column
  have hcol : ∀ k i, (M * d.U) i k = d.s k * d.U i k := by
    intro k
    let u : Matrix (Fin m) (Fin 1) ℝ := fun i _ => d.U i k
    have hMu : ∀ i c, (M * u) i c = (M * d.U) i k := fun i c => rfl
    have hMMu : M * (M * u) = d.s k ^ 2 • u := by
      ext i c
      have := congrFun (congrFun hMM i) k
      rw [mul_diagonal, mul_diagonal] at this
      rw [Matrix.smul_apply, smul_eq_mul]
      calc (M * (M * u)) i c = (M * (M * d.U)) i k := rfl
        _ = d.U i k * d.s k * d.s k := this
        _ = d.s k ^ 2 * d.U i k := by ring
    set w := M * u - d.s k • u with hw
    have hMw : M * w = -(d.s k) • w := by
      rw [hw, Matrix.mul_sub, hMMu, Matrix.mul_smul, smul_sub, smul_smul]
      rw [neg_smul, neg_mul, neg_smul, sub_neg_eq_add, ← sq]
      abel
    have hnn := psd_inner hp w
    rw [hMw, inner_smul_right, inner_self] at hnn
    have hw0 : w = 0 := by
      rcases (hd.nonneg k).lt_or_eq with hk | hk
      · refine sqNorm_eq_zero (le_antisymm ?_ (sqNorm_nonneg w))
        by_contra hc
        have := mul_pos hk (not_le.1 hc)
        linarith
      · refine sqNorm_eq_zero ?_
        have : w = M * u := by rw [hw, ← hk, zero_smul, sub_zero]
        rw [this, ← inner_self, inner_mul_left, hs, hMMu, ← hk]
        rw [inner_smul_right]; ring
    intro i
    have := congrFun (congrFun hw0 i) 0
    rw [hw, Matrix.sub_apply, Matrix.smul_apply, smul_eq_mul, Matrix.zero_apply] at this
    rw [← hMu i 0]
    exact sub_eq_zero.1 this
  ext i k
  rw [hcol, mul_diagonal, mul_comm]

/-- The update solves the linear system of the proximal operator. -/
theorem genL2_system {m n : ℕ} {M : Matrix (Fin m) (Fin m) ℝ} {d : SVD m m m} (hs : M.transpose = M) (hp : PSD M)
    (hd : d.Valid M) {ρ : ℝ} (hρ : 0 < ρ) (Y A : Matrix (Fin m) (Fin n) ℝ) :
    M * genL2Mat d n Y ρ A + (1 / 2 * ρ) • genL2Mat d n Y ρ A = (1 / 2 * ρ) • Y := by
  have hU := mul_eq_one_comm.1 hd.left
  have hMU := svd_psd hs hp hd
  have e1 : (Matrix.of (fun i j => d.U i j * (1 / (d.s j + 1 / 2 * ρ))) : Matrix (Fin m) (Fin m) ℝ)
      = d.U * diagonal (fun j => 1 / (d.s j + 1 / 2 * ρ)) := by
    ext i j; rw [mul_diagonal]; rfl
  have e2 : genL2Mat d n Y ρ A = d.U * diagonal (fun j => 1 / (d.s j + 1 / 2 * ρ)) *
      (d.U.transpose * ((1 / 2 * ρ) • Y)) := by
    rw [← e1]; rfl
  have e3 : diagonal d.s * diagonal (fun j => 1 / (d.s j + 1 / 2 * ρ)) +
      (1 / 2 * ρ) • diagonal (fun j => 1 / (d.s j + 1 / 2 * ρ)) = (1 : Matrix (Fin m) (Fin m) ℝ) := by
    rw [diagonal_mul_diagonal, ← diagonal_smul, diagonal_add, ← diagonal_one]
    congr 1
    funext j
    have := hd.nonneg j
    have : 0 < d.s j + 1 / 2 * ρ := by linarith
    simp only [Pi.smul_apply, smul_eq_mul]
    rw [← add_mul]
    field_simp
  rw [e2]
  calc _ = d.U * (diagonal d.s * diagonal (fun j => 1 / (d.s j + 1 / 2 * ρ)) +
      (1 / 2 * ρ) • diagonal (fun j => 1 / (d.s j + 1 / 2 * ρ))) * (d.U.transpose * ((1 / 2 * ρ) • Y)) := by
        rw [Matrix.mul_add, Matrix.add_mul, ← Matrix.mul_assoc d.U (diagonal d.s), ← hMU]
        simp only [Matrix.mul_assoc, Matrix.mul_smul, Matrix.smul_mul]
    _ = _ := by rw [e3, Matrix.mul_one, ← Matrix.mul_assoc, hU, Matrix.one_mul]

end Verif.Penalties
