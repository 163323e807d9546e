import Mathlib.Tactic.Positivity
import Verif.Tac
import Verif.Spec.Prox

/-!
# Helper lemmas: nearest points and proximal operators
-/

namespace Verif.Spec

open Finset

variable {ι κ : Type} [Fintype ι] [Fintype κ]

theorem frobSq_eq_zero {X Y : Matrix ι κ ℝ} : frobSq X Y = 0 ↔ X = Y := by
  constructor
  · intro h
    unfold frobSq at h
    rw [sum_eq_zero_iff_of_nonneg (fun i _ => sum_nonneg fun r _ => sq_nonneg _)] at h
    ext i r
    have h1 := h i (mem_univ _)
    rw [sum_eq_zero_iff_of_nonneg (fun r _ => sq_nonneg _)] at h1
    have h2 := h1 r (mem_univ _)
    have := pow_eq_zero_iff (two_ne_zero) |>.1 h2
    linarith
  · rintro rfl
    simp [frobSq]

theorem frobSq_nonneg (X Y : Matrix ι κ ℝ) : 0 ≤ frobSq X Y :=
  sum_nonneg fun _ _ => sum_nonneg fun _ _ => sq_nonneg _

theorem frobSq_pos {X Y : Matrix ι κ ℝ} (h : X ≠ Y) : 0 < frobSq X Y :=
  lt_of_le_of_ne (frobSq_nonneg _ _) fun h' => h (frobSq_eq_zero.1 h'.symm)

theorem frobSq_comm (X Y : Matrix ι κ ℝ) : frobSq X Y = frobSq Y X :=
  sum_congr rfl fun _ _ => sum_congr rfl fun _ _ => by ring

/-- Expansion around `X`. -/
theorem frobSq_expand (X Y Z : Matrix ι κ ℝ) :
    frobSq Z Y = frobSq X Y + frobSq Z X - 2 * inner (Y - X) (Z - X) := by
  simp only [frobSq, inner, mul_sum, ← sum_add_distrib, ← sum_sub_distrib, Matrix.sub_apply]
  exact sum_congr rfl fun _ _ => sum_congr rfl fun _ _ => by ring

/-- The variational inequality characterises the nearest point. -/
theorem isProj_of_inner {C : Set (Matrix ι κ ℝ)} {Y X : Matrix ι κ ℝ} (hX : X ∈ C)
    (h : ∀ Z ∈ C, inner (Y - X) (Z - X) ≤ 0) : IsProj C Y X := by
  refine ⟨hX, fun Z hZ hne => ?_⟩
  rw [frobSq_expand X Y Z]
  have := frobSq_pos hne
  have := h Z hZ
  linarith

/-- The subgradient inequality characterises the proximal point. -/
theorem isProx_of_subgrad {C : Set (Matrix ι κ ℝ)} {g : Matrix ι κ ℝ → ℝ} {ρ : ℝ} (hρ : 0 < ρ) {Y X : Matrix ι κ ℝ}
    (hX : X ∈ C) (h : ∀ Z ∈ C, g X + ρ * inner (Y - X) (Z - X) ≤ g Z) : IsProx C g ρ Y X := by
  refine ⟨hX, fun Z hZ hne => ?_⟩
  rw [frobSq_expand X Y Z]
  have := mul_pos hρ (frobSq_pos hne)
  have := h Z hZ
  nlinarith

theorem IsProj.unique {C : Set (Matrix ι κ ℝ)} {Y X X' : Matrix ι κ ℝ} (h : IsProj C Y X) (h' : IsProj C Y X') :
    X = X' := by
  by_contra hne
  have h1 := h.2 X' h'.1 (Ne.symm hne)
  have h2 := h'.2 X h.1 hne
  linarith

/-- A feasible point is its own projection. -/
theorem IsProj.fixed {C : Set (Matrix ι κ ℝ)} {Y X : Matrix ι κ ℝ} (h : IsProj C Y X) (hY : Y ∈ C) : X = Y := by
  by_contra hne
  have h1 := h.2 Y hY (Ne.symm hne)
  rw [frobSq_eq_zero.2 (rfl : Y = Y)] at h1
  exact absurd h1 (not_lt.2 (frobSq_nonneg _ _))

theorem isProj_iff_isProx {C : Set (Matrix ι κ ℝ)} {Y X : Matrix ι κ ℝ} {ρ : ℝ} (hρ : 0 < ρ) :
    IsProx C (fun _ => 0) ρ Y X ↔ IsProj C Y X := by
  unfold IsProx IsProj
  refine and_congr_right fun _ => forall₂_congr fun Z _ => imp_congr_right fun _ => ?_
  simp only [zero_add]
  exact mul_lt_mul_iff_right₀ (by positivity)

/-- Same for vectors. -/
theorem isProjVec_of_inner {C : Set (ι → ℝ)} {y x : ι → ℝ} (hx : x ∈ C)
    (h : ∀ z ∈ C, ∑ i, (y i - x i) * (z i - x i) ≤ 0) : IsProjVec C y x := by
  refine ⟨hx, fun z hz hne => ?_⟩
  have e : ∑ i, (z i - y i) ^ 2 = ∑ i, (x i - y i) ^ 2 + ∑ i, (z i - x i) ^ 2 - 2 * ∑ i, (y i - x i) * (z i - x i) := by
    simp only [mul_sum, ← sum_add_distrib, ← sum_sub_distrib]
    exact sum_congr rfl fun _ _ => by ring
  obtain ⟨i, hi⟩ := Function.ne_iff.1 hne
  have h1 : 0 < ∑ i, (z i - x i) ^ 2 :=
    lt_of_lt_of_le (sq_pos_of_ne_zero (sub_ne_zero.2 hi))
      (single_le_sum (f := fun i => (z i - x i) ^ 2) (fun i _ => sq_nonneg _) (mem_univ i))
  have := h z hz
  linarith

theorem inner_le_zero {X Y : Matrix ι κ ℝ} (h : ∀ i r, X i r * Y i r ≤ 0) : inner X Y ≤ 0 :=
  sum_nonpos fun i _ => sum_nonpos fun r _ => h i r

end Verif.Spec
