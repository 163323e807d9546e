import Verif.Penalties.Elementwise

/-!
# Helper lemmas: total variation of a vector
-/

namespace Verif.Penalties

open Finset

variable {m : ℕ}

/-- Total variation of a vector. -/
def tv (x : Fin m → ℝ) : ℝ := ∑ i : Fin (m - 1), |x ⟨i + 1, by omega⟩ - x ⟨i, by omega⟩|

theorem tv_smul (c : ℝ) (hc : 0 ≤ c) (x : Fin m → ℝ) : tv (fun i => c * x i) = c * tv x := by
  rw [tv, tv, mul_sum]
  refine sum_congr rfl fun i _ => ?_
  rw [← mul_sub, abs_mul, abs_of_nonneg hc]

theorem tv_add_le (x y : Fin m → ℝ) : tv (fun i => x i + y i) ≤ tv x + tv y := by
  rw [tv, tv, tv, ← sum_add_distrib]
  refine sum_le_sum fun i _ => ?_
  rw [add_sub_add_comm]
  exact abs_add_le _ _

/-- A non-negative quadratic without constant term has a non-negative linear term. -/
theorem linear_nonneg {a b : ℝ} (h : ∀ t : ℝ, 0 < t → t ≤ 1 → 0 ≤ t * (b + t * a)) : 0 ≤ b := by
  by_contra hb
  push Not at hb
  set t := min 1 (-b / (2 * (|a| + 1))) with ht
  have hpos : 0 < t := lt_min one_pos (div_pos (by linarith) (by positivity))
  have h1 := h t hpos (min_le_left _ _)
  have h2 : t * (2 * (|a| + 1)) ≤ -b := by
    rw [← le_div_iff₀ (by positivity)]; exact min_le_right _ _
  have h3 : 0 ≤ b + t * a := nonneg_of_mul_nonneg_right h1 hpos
  have h4 : t * a ≤ t * |a| := mul_le_mul_of_nonneg_left (le_abs_self a) hpos.le
  have h5 : 0 ≤ t * |a| := by positivity
  nlinarith

/-- Optimality conditions of total variation denoising: the residual is bounded by the total variation, with equality at the
solution. -/
theorem tv_optimal {y x : Fin m → ℝ} {l : ℝ} (hl : 0 ≤ l)
    (h : ∀ z : Fin m → ℝ, ∑ i, (x i - y i) ^ 2 + l * tv x ≤ ∑ i, (z i - y i) ^ 2 + l * tv z) :
    (∀ v : Fin m → ℝ, 2 * ∑ i, (y i - x i) * v i ≤ l * tv v) ∧ 2 * ∑ i, (y i - x i) * x i = l * tv x := by
  have hle : ∀ v : Fin m → ℝ, 2 * ∑ i, (y i - x i) * v i ≤ l * tv v := by
    intro v
    have := linear_nonneg (a := ∑ i, v i ^ 2) (b := l * tv v - 2 * ∑ i, (y i - x i) * v i) ?_
    · linarith
    intro t ht _
    have h1 := h fun i => x i + t * v i
    have h2 := tv_add_le x fun i => t * v i
    rw [tv_smul t ht.le] at h2
    have h3 : ∑ i, (x i + t * v i - y i) ^ 2
        = ∑ i, (x i - y i) ^ 2 - t * (2 * ∑ i, (y i - x i) * v i) + t * (t * ∑ i, v i ^ 2) := by
      simp only [mul_sum, ← sum_sub_distrib, ← sum_add_distrib]
      exact sum_congr rfl fun _ _ => by ring
    have h4 := mul_le_mul_of_nonneg_left h2 hl
    rw [h3] at h1
    nlinarith
  refine ⟨hle, le_antisymm (hle x) ?_⟩
  have := linear_nonneg (a := ∑ i, x i ^ 2) (b := 2 * ∑ i, (y i - x i) * x i - l * tv x) ?_
  · linarith
  intro t ht ht1
  have h1 := h fun i => (1 - t) * x i
  rw [tv_smul (1 - t) (by linarith)] at h1
  have h3 : ∑ i, ((1 - t) * x i - y i) ^ 2
      = ∑ i, (x i - y i) ^ 2 + t * (2 * ∑ i, (y i - x i) * x i) + t * (t * ∑ i, x i ^ 2) := by
    simp only [mul_sum, ← sum_add_distrib]
    exact sum_congr rfl fun _ _ => by ring
  rw [h3] at h1
  nlinarith

/-- Soft thresholding is monotone. -/
theorem soft_mono {t : ℝ} (ht : 0 ≤ t) {x y : ℝ} (h : x ≤ y) : soft t x ≤ soft t y ∧ x - soft t x ≤ y - soft t y := by
  rcases soft_cases t x ht with ⟨h1, e1⟩ | ⟨h1, e1⟩ | ⟨h1, e1⟩ <;>
    rcases soft_cases t y ht with ⟨h2, e2⟩ | ⟨h2, e2⟩ | ⟨h2, e2⟩ <;>
    rw [e1, e2] <;>
    first
    | exact ⟨by linarith, by linarith⟩
    | (have := abs_le.1 h1; exact ⟨by linarith, by linarith⟩)
    | (have := abs_le.1 h2; exact ⟨by linarith, by linarith⟩)

/-- Soft thresholding splits the total variation. -/
theorem tv_soft {t : ℝ} (ht : 0 ≤ t) (x : Fin m → ℝ) :
    tv x = tv (fun i => soft t (x i)) + tv (fun i => x i - soft t (x i)) := by
  rw [tv, tv, tv, ← sum_add_distrib]
  refine sum_congr rfl fun i _ => ?_
  rcases le_total (x ⟨i, by omega⟩) (x ⟨i + 1, by omega⟩) with h | h
  · obtain ⟨h1, h2⟩ := soft_mono ht h
    rw [abs_of_nonneg (by linarith), abs_of_nonneg (by linarith), abs_of_nonneg (by linarith)]; ring
  · obtain ⟨h1, h2⟩ := soft_mono ht h
    rw [abs_of_nonpos (by linarith), abs_of_nonpos (by linarith), abs_of_nonpos (by linarith)]; ring

/-- Thresholding the solution of total variation denoising gives a subgradient inequality for the joint problem. -/
theorem tv_soft_subgrad {y x : Fin m → ℝ} {α β ρ : ℝ} (hα : 0 ≤ α) (hβ : 0 ≤ β) (hρ : 0 < ρ)
    (h : ∀ z : Fin m → ℝ, ∑ i, (x i - y i) ^ 2 + α * 2 / ρ * tv x ≤ ∑ i, (z i - y i) ^ 2 + α * 2 / ρ * tv z)
    (w : Fin m → ℝ) :
    α * tv (fun i => soft (β / ρ) (x i)) + β * ∑ i, |soft (β / ρ) (x i)| +
      ρ * ∑ i, (y i - soft (β / ρ) (x i)) * (w i - soft (β / ρ) (x i)) ≤ α * tv w + β * ∑ i, |w i| := by
  have ht : 0 ≤ β / ρ := by positivity
  obtain ⟨h1, h2⟩ := tv_optimal (by positivity) h
  have h3 := h1 w
  have h4 := h1 fun i => x i - soft (β / ρ) (x i)
  have h5 := tv_soft ht x
  set z : Fin m → ℝ := fun i => soft (β / ρ) (x i) with hz
  have hsum : ∑ i, (β / ρ * |z i| + (x i - z i) * (w i - z i)) ≤ ∑ i, β / ρ * |w i| :=
    sum_le_sum fun i _ => soft_subgrad _ _ _ ht
  rw [sum_add_distrib, ← mul_sum, ← mul_sum] at hsum
  have hexp : ∑ i, (y i - z i) * (w i - z i) = ∑ i, (y i - x i) * w i - ∑ i, (y i - x i) * x i
      + ∑ i, (y i - x i) * (x i - z i) + ∑ i, (x i - z i) * (w i - z i) := by
    simp only [← sum_add_distrib, ← sum_sub_distrib]
    exact sum_congr rfl fun _ _ => by ring
  have e1 : ρ * (α * 2 / ρ) = 2 * α := by field_simp
  have e2 : ρ * (β / ρ) = β := by field_simp
  have k1 := mul_le_mul_of_nonneg_left h3 hρ.le
  have k2 := mul_le_mul_of_nonneg_left h4 hρ.le
  have k3 := mul_le_mul_of_nonneg_left hsum hρ.le
  rw [← mul_assoc ρ (α * 2 / ρ), e1] at k1 k2
  rw [mul_add, ← mul_assoc ρ (β / ρ), e2, ← mul_assoc ρ (β / ρ), e2] at k3
  have k4 : ρ * (2 * ∑ i, (y i - x i) * x i) = 2 * α * tv x := by rw [h2, ← mul_assoc ρ (α * 2 / ρ), e1]
  have k5 : α * tv x = α * (tv z + tv fun i => x i - z i) := by rw [h5]
  rw [hexp]
  show α * tv z + β * ∑ i, |z i| + _ ≤ _
  have k2' : ρ * (2 * ∑ i, (y i - x i) * (x i - z i)) ≤ 2 * α * tv fun i => x i - z i := k2
  linarith

theorem soft_zero (x : ℝ) : soft 0 x = x := by
  rcases soft_cases 0 x le_rfl with ⟨_, e⟩ | ⟨_, e⟩ | ⟨h, e⟩
  · rw [e, sub_zero]
  · rw [e, add_zero]
  · rw [e]; exact (abs_nonpos_iff.1 h).symm

end Verif.Penalties
