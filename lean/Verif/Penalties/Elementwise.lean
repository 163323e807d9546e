import Verif.Penalties.Geometry
import Verif.Penalties.Model

/-!
# Helper lemmas: clipping and soft thresholding of numbers
-/

namespace Verif.Penalties

/-- The interval given by optional bounds. -/
theorem clip_mem {lo hi : Option ℝ} (h : ∀ l ∈ lo, ∀ u ∈ hi, l ≤ u) (x : ℝ) :
    (∀ l ∈ lo, l ≤ clip lo hi x) ∧ (∀ u ∈ hi, clip lo hi x ≤ u) := by
  cases lo <;> cases hi <;> simp_all [clip]

/-- Variational inequality for clipping. -/
theorem clip_inner {lo hi : Option ℝ} (x z : ℝ) (hl : ∀ l ∈ lo, l ≤ z) (hu : ∀ u ∈ hi, z ≤ u)
    (h : ∀ l ∈ lo, ∀ u ∈ hi, l ≤ u) : (x - clip lo hi x) * (z - clip lo hi x) ≤ 0 := by
  cases lo with
  | none =>
    cases hi with
    | none => simp [clip]
    | some u =>
      simp only [Option.mem_def, Option.some.injEq, forall_eq'] at hu
      simp only [clip]
      rcases le_total x u with h' | h'
      · simp [min_eq_left h']
      · rw [min_eq_right h']; nlinarith
  | some l =>
    simp only [Option.mem_def, Option.some.injEq, forall_eq'] at hl
    cases hi with
    | none =>
      simp only [clip]
      rcases le_total x l with h' | h'
      · rw [max_eq_right h']; nlinarith
      · simp [max_eq_left h']
    | some u =>
      simp only [Option.mem_def, Option.some.injEq, forall_eq'] at hu h
      simp only [clip]
      rcases le_total x l with h' | h'
      · rw [max_eq_right h', min_eq_left h]; nlinarith
      · rw [max_eq_left h']
        rcases le_total x u with h'' | h''
        · simp [min_eq_left h'']
        · rw [min_eq_right h'']; nlinarith

theorem clip_nonneg (x : ℝ) : clip (some 0) none x = max x 0 := rfl

/-- Soft thresholding. -/
noncomputable def soft (t x : ℝ) : ℝ := sgn x * clip (some 0) none (|x| - t)

theorem soft_cases (t x : ℝ) (ht : 0 ≤ t) :
    (t ≤ x ∧ soft t x = x - t) ∨ (x ≤ -t ∧ soft t x = x + t) ∨ (|x| ≤ t ∧ soft t x = 0) := by
  rcases le_total |x| t with h | h
  · right; right
    refine ⟨h, ?_⟩
    rw [soft, clip_nonneg, max_eq_right (by linarith), mul_zero]
  · rw [soft, clip_nonneg, max_eq_left (by linarith)]
    rcases lt_trichotomy x 0 with hx | hx | hx
    · right; left
      rw [abs_of_neg hx] at h ⊢
      refine ⟨by linarith, ?_⟩
      simp only [sgn, if_pos hx]; ring
    · subst hx
      simp only [abs_zero] at h
      have : t = 0 := le_antisymm h ht
      subst this
      left
      simp [sgn]
    · left
      rw [abs_of_pos hx] at h ⊢
      refine ⟨h, ?_⟩
      simp only [sgn, if_neg (not_lt.2 hx.le), if_neg hx.ne']; ring

/-- `x - soft t x` is a subgradient of `t |·|` at `soft t x`. -/
theorem soft_subgrad (t x z : ℝ) (ht : 0 ≤ t) : t * |soft t x| + (x - soft t x) * (z - soft t x) ≤ t * |z| := by
  have hz1 := mul_le_mul_of_nonneg_left (le_abs_self z) ht
  have hz2 := mul_le_mul_of_nonneg_left (neg_abs_le z) ht
  rcases soft_cases t x ht with ⟨h, e⟩ | ⟨h, e⟩ | ⟨h, e⟩
  · rw [e, abs_of_nonneg (by linarith)]; nlinarith
  · rw [e, abs_of_nonpos (by linarith)]; nlinarith
  · rw [e, abs_zero]
    have : x * z ≤ t * |z| := by
      calc x * z ≤ |x * z| := le_abs_self _
        _ = |x| * |z| := abs_mul _ _
        _ ≤ t * |z| := mul_le_mul_of_nonneg_right h (abs_nonneg _)
    nlinarith

/-- Same for non-negative soft thresholding. -/
theorem softPos_subgrad (t x z : ℝ) (hz : 0 ≤ z) :
    t * |clip (some 0) none (x - t)| + (x - clip (some 0) none (x - t)) * (z - clip (some 0) none (x - t)) ≤ t * |z| := by
  rw [clip_nonneg, abs_of_nonneg hz]
  rcases le_total (x - t) 0 with h | h
  · rw [max_eq_right h, abs_zero]; nlinarith
  · rw [max_eq_left h, abs_of_nonneg h]; nlinarith

end Verif.Penalties
