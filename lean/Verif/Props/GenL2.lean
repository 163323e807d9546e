import Verif.Penalties.GenL2
import Mathlib.LinearAlgebra.Matrix.Notation

/-!
# C20: GeneralizedL2Penalty
-/

namespace Verif.Props

open Verif.Penalties Verif.Spec Finset

variable {m n : ℕ}

/-- C20, the penalty: it is the sum over the columns of `x_rᵀ M x_r`, which is non-negative. -/
theorem C20_penalty (M : Matrix (Fin m) (Fin m) ℝ) (hp : ∀ x : Fin m → ℝ, 0 ≤ ∑ i, ∑ j, x i * M i j * x j)
    (X : Matrix (Fin m) (Fin n) ℝ) :
    genL2Penalty M X = ∑ r, ∑ i, ∑ j, X i r * M i j * X j r ∧ 0 ≤ genL2Penalty M X := by
  have e : genL2Penalty M X = ∑ r, ∑ i, ∑ j, X i r * M i j * X j r := by
    simp only [genL2Penalty, Matrix.trace, Matrix.diag, Matrix.mul_apply, Matrix.transpose_apply, sum_mul]
    exact sum_congr rfl fun r _ => sum_comm
  exact ⟨e, e ▸ sum_nonneg fun r _ => hp fun i => X i r⟩

/-- C20: for a symmetric positive semidefinite norm matrix and any singular value decomposition of it, the update is the
unique minimiser of `penalty(x) + ρ/2 ‖x - y‖²`, whatever the previous auxiliary variable is. -/
theorem C20_prox (M : Matrix (Fin m) (Fin m) ℝ) (hs : M.transpose = M)
    (hp : ∀ x : Fin m → ℝ, 0 ≤ ∑ i, ∑ j, x i * M i j * x j) (d : SVD m m m) (hd : d.Valid M) (ρ : ℝ) (hρ : 0 < ρ)
    (Y A : Matrix (Fin m) (Fin n) ℝ) :
    IsProx Set.univ (fun X => ∑ r, ∑ i, ∑ j, X i r * M i j * X j r) ρ Y (genL2Mat d n Y ρ A) := by
  refine isProx_of_subgrad hρ (Set.mem_univ _) fun Z _ => ?_
  have hg : ∀ X : Matrix (Fin m) (Fin n) ℝ, ∑ r, ∑ i, ∑ j, X i r * M i j * X j r = inner X (M * X) := by
    intro X
    rw [← (C20_penalty M hp X).1, genL2Penalty, inner_eq_trace, Matrix.mul_assoc]
  rw [hg, hg]
  have hsys := genL2_system hs hp hd hρ Y A
  set X := genL2Mat d n Y ρ A
  have h1 : ρ * inner (Y - X) (Z - X) = 2 * inner (M * X) (Z - X) := by
    have : inner (M * X + (1 / 2 * ρ) • X) (Z - X) = inner ((1 / 2 * ρ) • Y) (Z - X) := by rw [hsys]
    rw [inner_add_left, inner_smul_left, inner_smul_left] at this
    rw [inner_sub_left]
    linarith
  have h2 := psd_inner hp (Z - X)
  have h3 : inner (M * X) Z = inner X (M * Z) := by rw [inner_mul_left, hs]
  have h4 : inner Z (M * X) = inner (M * X) Z := inner_comm _ _
  have h5 : inner (M * X) X = inner X (M * X) := inner_comm _ _
  rw [Matrix.mul_sub, inner_sub_left, inner_sub_right, inner_sub_right] at h2
  rw [h1, inner_sub_right]
  linarith

/-- The hypotheses hold for a degenerate matrix, the graph Laplacian of an edge, with a decomposition whose right singular vectors
differ from the left ones. -/
noncomputable def laplacianSVD : SVD 2 2 2 where
  U := !![(√2)⁻¹, (√2)⁻¹; -(√2)⁻¹, (√2)⁻¹]
  s := ![2, 0]
  Vh := !![(√2)⁻¹, -(√2)⁻¹; -(√2)⁻¹, -(√2)⁻¹]

example : (!![1, -1; -1, 1] : Matrix (Fin 2) (Fin 2) ℝ).transpose = !![1, -1; -1, 1] ∧
    (∀ x : Fin 2 → ℝ, 0 ≤ ∑ i, ∑ j, x i * (!![1, -1; -1, 1] : Matrix (Fin 2) (Fin 2) ℝ) i j * x j) ∧
    laplacianSVD.Valid !![1, -1; -1, 1] := by
  have h2 : (√2)⁻¹ * (√2)⁻¹ = (1 / 2 : ℝ) := by
    rw [← mul_inv, Real.mul_self_sqrt (by norm_num)]; norm_num
  refine ⟨?_, ?_, ?_, ?_, ?_, ?_⟩
  · ext i j; fin_cases i <;> fin_cases j <;> rfl
  · intro x
    simp only [Fin.sum_univ_two, Matrix.of_apply, Matrix.cons_val_zero, Matrix.cons_val_one]
    simp
    nlinarith [sq_nonneg (x 0 - x 1)]
  · ext i j
    rw [Matrix.mul_apply, Fin.sum_univ_two, Matrix.mul_diagonal, Matrix.mul_diagonal]
    fin_cases i <;> fin_cases j <;> simp [laplacianSVD] <;> linarith
  · ext i j
    fin_cases i <;> fin_cases j <;> simp [laplacianSVD, Matrix.mul_apply, Fin.sum_univ_two] <;> linarith
  · ext i j
    fin_cases i <;> fin_cases j <;> simp [laplacianSVD, Matrix.mul_apply, Fin.sum_univ_two] <;> linarith
  · intro i; fin_cases i <;> simp [laplacianSVD]

end Verif.Props
