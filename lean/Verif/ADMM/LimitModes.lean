import Verif.ADMM.Limit
import Mathlib.Topology.Order.Lattice
import Mathlib.Topology.Instances.Matrix
import Mathlib.LinearAlgebra.Matrix.Nondegenerate
import Mathlib.LinearAlgebra.Matrix.ToLinearEquiv

/-!
# Helper lemmas: the subproblems of the three modes in coordinates, and their limits
-/

namespace Verif.ADMM

open Finset Filter Matrix Verif.Spec Verif.Penalties
open scoped Topology

variable {I K R n : ℕ} {J : Fin I → ℕ}

/-! ### Entries as coordinates -/

/-- The entries of a matrix. -/
def matEntry {m : ℕ} (a : Fin m × Fin R) : Matrix (Fin m) (Fin R) ℝ →ₗ[ℝ] ℝ where
  toFun Y := Y a.1 a.2
  map_add' _ _ := rfl
  map_smul' _ _ := rfl

/-- The entries of a list of matrices. -/
def ragEntry (a : (i : Fin I) × Fin (J i) × Fin R) : Ragged I R J →ₗ[ℝ] ℝ where
  toFun Y := Y a.1 a.2.1 a.2.2
  map_add' _ _ := rfl
  map_smul' _ _ := rfl

theorem matIP_coords {m : ℕ} {w : Fin m → ℝ} (hw : ∀ i, 0 ≤ w i) : (matIP (R := R) w hw).InCoords matEntry fun a => w a.1 := by
  intro X Y
  rw [Fintype.sum_prod_type]
  show ∑ i, w i * ∑ r, X i r * Y i r = _
  refine sum_congr rfl fun i _ => ?_
  exact mul_sum (univ : Finset (Fin R)) (fun r => X i r * Y i r) (w i)

theorem ragIP_coords {w : Fin I → ℝ} (hw : ∀ i, 0 ≤ w i) : (ragIP (R := R) (J := J) w hw).InCoords ragEntry fun a => w a.1 := by
  intro X Y
  rw [Fintype.sum_sigma]
  show ∑ i, w i * Spec.inner (X i) (Y i) = _
  refine sum_congr rfl fun i _ => ?_
  rw [Fintype.sum_prod_type]
  show w i * Spec.inner (X i) (Y i) = _
  rw [Spec.inner, mul_sum]
  refine sum_congr rfl fun j _ => ?_
  exact mul_sum (univ : Finset (Fin R)) (fun r => X i j r * Y i j r) (w i)

/-! ### Gradients -/

/-- The gradient of the least squares problem `lsq`. -/
def lsqGrad {μ κ : Type} [Fintype κ] (D : Matrix μ κ ℝ) (M : Matrix κ (Fin R) ℝ) (l2 : ℝ) (Y : Matrix μ (Fin R) ℝ) : Matrix μ (Fin R) ℝ :=
  Y * (M.transpose * M + l2 • 1) - D * M

theorem tendsto_mul {μ κ ν : Type} [Fintype κ] {M : ℕ → Matrix μ κ ℝ} {M0 : Matrix μ κ ℝ} {N : ℕ → Matrix κ ν ℝ} {N0 : Matrix κ ν ℝ}
    (h : ∀ a b, Tendsto (fun k => M k a b) atTop (𝓝 (M0 a b))) (h' : ∀ a b, Tendsto (fun k => N k a b) atTop (𝓝 (N0 a b))) (a : μ) (b : ν) :
    Tendsto (fun k => (M k * N k) a b) atTop (𝓝 ((M0 * N0) a b)) := by
  simp only [Matrix.mul_apply]
  exact tendsto_finsetSum _ fun c _ => (h a c).mul (h' c b)

theorem tendsto_gram {κ : Type} [Fintype κ] {M : ℕ → Matrix κ (Fin R) ℝ} {M0 : Matrix κ (Fin R) ℝ}
    (h : ∀ a b, Tendsto (fun k => M k a b) atTop (𝓝 (M0 a b))) (l2 : ℝ) (a b : Fin R) :
    Tendsto (fun k => ((M k).transpose * M k + l2 • (1 : Matrix (Fin R) (Fin R) ℝ)) a b) atTop (𝓝 ((M0.transpose * M0 + l2 • (1 : Matrix (Fin R) (Fin R) ℝ)) a b)) := by
  simp only [Matrix.add_apply]
  exact (tendsto_mul (fun a b => h b a) h a b).add_const _

theorem tendsto_lsqGrad {μ κ : Type} [Fintype κ] (D : Matrix μ κ ℝ) {M : ℕ → Matrix κ (Fin R) ℝ} {M0 : Matrix κ (Fin R) ℝ}
    (h : ∀ a b, Tendsto (fun k => M k a b) atTop (𝓝 (M0 a b))) (l2 : ℝ) (Y : Matrix μ (Fin R) ℝ) (a : μ) (b : Fin R) :
    Tendsto (fun k => lsqGrad D (M k) l2 Y a b) atTop (𝓝 (lsqGrad D M0 l2 Y a b)) := by
  simp only [lsqGrad, Matrix.sub_apply]
  exact (tendsto_mul (M := fun _ => Y) (M0 := Y) (fun _ _ => tendsto_const_nhds) (tendsto_gram h l2) a b).sub
    (tendsto_mul (M := fun _ => D) (M0 := D) (fun _ _ => tendsto_const_nhds) h a b)

theorem quadAt_A (X : Ragged I K J) (F : Factors I K R J) (l2 : ℝ) (y : Matrix (Fin I) (Fin R) ℝ) :
    QuadAt (fitA X l2 F) (quadA F l2) matEntry y fun a => lsqGrad (dataA X a.1) (designA F a.1) l2 (rowMat (y a.1)) 0 a.2 := by
  intro Y
  have h : fitA X l2 F (y + (Y - y)) = ∑ i, (lsq (dataA X i) (designA F i) l2 (rowMat (y i)) + Spec.inner (lsqGrad (dataA X i) (designA F i) l2 (rowMat (y i))) (rowMat ((Y - y) i))
      + (1 / 2 * sqNorm (rowMat ((Y - y) i) * (designA F i).transpose) + l2 / 2 * sqNorm (rowMat ((Y - y) i)))) := by
    rw [fitA, sse_A]
    exact sum_congr rfl fun i _ => lsq_first_order (dataA X i) (designA F i) l2 (rowMat (y i)) (rowMat ((Y - y) i))
  rw [add_sub_cancel] at h
  rw [h, sum_add_distrib, sum_add_distrib, ← sse_A X F, quadA, Fintype.sum_prod_type]
  congr 2
  refine sum_congr rfl fun i _ => ?_
  rw [Spec.inner, Fin.sum_univ_one]
  rfl

theorem quadAt_B (X : Ragged I K J) (F : Factors I K R J) (l2 : ℝ) (y : Ragged I R J) :
    QuadAt (fitB X l2 F) (quadB F l2) ragEntry y fun a => lsqGrad (X a.1) (designB F a.1) l2 (y a.1) a.2.1 a.2.2 := by
  intro Y
  have h : fitB X l2 F (y + (Y - y)) = ∑ i, (lsq (X i) (designB F i) l2 (y i) + Spec.inner (lsqGrad (X i) (designB F i) l2 (y i)) ((Y - y) i)
      + (1 / 2 * sqNorm ((Y - y) i * (designB F i).transpose) + l2 / 2 * sqNorm ((Y - y) i))) := by
    rw [fitB, sse_B]
    exact sum_congr rfl fun i _ => lsq_first_order (X i) (designB F i) l2 (y i) ((Y - y) i)
  rw [add_sub_cancel] at h
  rw [h, sum_add_distrib, sum_add_distrib, ← sse_B X F, quadB, Fintype.sum_sigma]
  congr 2
  refine sum_congr rfl fun i _ => ?_
  rw [Spec.inner, Fintype.sum_prod_type]
  rfl

theorem quadAt_C (X : Ragged I K J) (F : Factors I K R J) (l2 : ℝ) (y : Matrix (Fin K) (Fin R) ℝ) :
    QuadAt (fitC X l2 F) (quadC F l2) matEntry y fun a => lsqGrad (dataC X) (designC F) l2 y a.1 a.2 := by
  intro Y
  have h : fitC X l2 F (y + (Y - y)) = lsq (dataC X) (designC F) l2 y + Spec.inner (lsqGrad (dataC X) (designC F) l2 y) (Y - y)
      + (1 / 2 * sqNorm ((Y - y) * (designC F).transpose) + l2 / 2 * sqNorm (Y - y)) := by
    rw [fitC, sse_C]
    exact lsq_first_order (dataC X) (designC F) l2 y (Y - y)
  rw [add_sub_cancel] at h
  rw [h, ← sse_C X F, quadC, Fintype.sum_prod_type]
  rfl

/-! ### Feasibility penalties -/

theorem tendsto_isWeights {constant : Bool} {w ρ : ℕ → Fin I → ℝ} {w0 ρ0 : Fin I → ℝ} (h : ∀ k, IsWeights constant (w k) (ρ k)) (h0 : IsWeights constant w0 ρ0)
    (hw : ∀ i, Tendsto (fun k => w k i) atTop (𝓝 (w0 i))) (i : Fin I) : Tendsto (fun k => ρ k i) atTop (𝓝 (ρ0 i)) := by
  cases constant with
  | false =>
    rw [h0.1 rfl]
    exact (hw i).congr fun k => by rw [(h k).1 rfl]
  | true =>
    have key : ∀ {w ρ : Fin I → ℝ}, IsWeights true w ρ → ρ i = univ.sup' ⟨i, mem_univ i⟩ w := by
      intro w ρ h
      obtain ⟨i₀, h1, h2⟩ := h.2 rfl
      rw [h2]
      exact le_antisymm (le_sup' w (mem_univ i₀)) (sup'_le _ _ fun j _ => h1 j)
    rw [key h0]
    exact (Tendsto.finset_sup'_nhds_apply ⟨i, mem_univ i⟩ fun j _ => hw j).congr fun k => (key (h k)).symm

/-! ### Problems with a unique solution -/

theorem solvable_iff {κ : Type} [Fintype κ] (M : Matrix κ (Fin R) ℝ) {l2 : ℝ} (hl : 0 ≤ l2) :
    (∀ v : Fin R → ℝ, v ≠ 0 → 0 < ∑ a, (∑ r, M a r * v r) ^ 2 + l2 * ∑ r, v r ^ 2) ↔ (M.transpose * M + l2 • (1 : Matrix (Fin R) (Fin R) ℝ)).det ≠ 0 := by
  have e : ∀ v : Fin R → ℝ, (M.transpose * M + l2 • (1 : Matrix (Fin R) (Fin R) ℝ)) *ᵥ v = M.transpose *ᵥ (M *ᵥ v) + l2 • v := by
    intro v
    rw [Matrix.add_mulVec, ← Matrix.mulVec_mulVec, Matrix.smul_mulVec, Matrix.one_mulVec]
  have q : ∀ v : Fin R → ℝ, v ⬝ᵥ ((M.transpose * M + l2 • (1 : Matrix (Fin R) (Fin R) ℝ)) *ᵥ v) = ∑ a, (∑ r, M a r * v r) ^ 2 + l2 * ∑ r, v r ^ 2 := by
    intro v
    rw [e, dotProduct_add, Matrix.dotProduct_mulVec, Matrix.vecMul_transpose, dotProduct_smul, smul_eq_mul]
    simp only [dotProduct, Matrix.mulVec, ← sq]
  rw [Ne, ← Matrix.exists_mulVec_eq_zero_iff]
  constructor
  · rintro h ⟨v, hv, h0⟩
    have := h v hv
    rw [← q, h0, dotProduct_zero] at this
    exact lt_irrefl _ this
  · intro h v hv
    have h1 : 0 ≤ ∑ a, (∑ r, M a r * v r) ^ 2 := sum_nonneg fun _ _ => sq_nonneg _
    have h2 : 0 ≤ l2 * ∑ r, v r ^ 2 := mul_nonneg hl (sum_nonneg fun _ _ => sq_nonneg _)
    refine lt_of_le_of_ne (add_nonneg h1 h2) fun h0 => h ⟨v, hv, ?_⟩
    have h3 : ∑ a, (∑ r, M a r * v r) ^ 2 = 0 := by linarith
    have h4 : l2 * ∑ r, v r ^ 2 = 0 := by linarith
    have h5 : M *ᵥ v = 0 := funext fun a => pow_eq_zero_iff (two_ne_zero) |>.1 ((sum_eq_zero_iff_of_nonneg fun _ _ => sq_nonneg _).1 h3 a (mem_univ a))
    have h6 : l2 = 0 := by
      rcases mul_eq_zero.1 h4 with h | h
      · exact h
      · exact absurd (funext fun r => pow_eq_zero_iff (two_ne_zero) |>.1 ((sum_eq_zero_iff_of_nonneg fun _ _ => sq_nonneg _).1 h r (mem_univ r))) hv
    rw [e, h5, h6, Matrix.mulVec_zero, zero_smul, add_zero]

theorem eventually_solvable {κ : Type} [Fintype κ] {M : ℕ → Matrix κ (Fin R) ℝ} {M0 : Matrix κ (Fin R) ℝ} (h : ∀ a b, Tendsto (fun k => M k a b) atTop (𝓝 (M0 a b)))
    {l2 : ℝ} (hl : 0 ≤ l2) (h0 : ∀ v : Fin R → ℝ, v ≠ 0 → 0 < ∑ a, (∑ r, M0 a r * v r) ^ 2 + l2 * ∑ r, v r ^ 2) :
    ∀ᶠ k in atTop, ∀ v : Fin R → ℝ, v ≠ 0 → 0 < ∑ a, (∑ r, M k a r * v r) ^ 2 + l2 * ∑ r, v r ^ 2 := by
  rw [solvable_iff M0 hl] at h0
  have ht : Tendsto (fun k => ((M k).transpose * M k + l2 • (1 : Matrix (Fin R) (Fin R) ℝ)).det) atTop (𝓝 (M0.transpose * M0 + l2 • (1 : Matrix (Fin R) (Fin R) ℝ)).det) := by
    have hm : Tendsto (fun k => (M k).transpose * M k + l2 • (1 : Matrix (Fin R) (Fin R) ℝ)) atTop (𝓝 (M0.transpose * M0 + l2 • (1 : Matrix (Fin R) (Fin R) ℝ))) :=
      tendsto_pi_nhds.2 fun a => tendsto_pi_nhds.2 fun b => tendsto_gram h l2 a b
    exact ((continuous_id.matrix_det).tendsto _).comp hm
  exact (ht.eventually_ne h0).mono fun k hk => (solvable_iff (M k) hl).2 hk

end Verif.ADMM
