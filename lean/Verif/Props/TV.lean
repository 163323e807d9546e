import Verif.Penalties.TV

/-!
# C21: TotalVariationPenalty
-/

namespace Verif.Props

open Verif.Penalties Verif.Spec Finset

variable {m n : ℕ}

/-- Contract of the external solver: each row of the result minimises `‖x - y‖² + lam * TV(x)` for the corresponding row. -/
def SolvesTV (solver : Matrix (Fin n) (Fin m) ℝ → ℝ → Matrix (Fin n) (Fin m) ℝ) : Prop :=
  ∀ (Y : Matrix (Fin n) (Fin m) ℝ) (lam : ℝ), 0 < lam → ∀ (r : Fin n) (z : Fin m → ℝ),
    ∑ i, (solver Y lam r i - Y r i) ^ 2 + lam * ∑ i : Fin (m - 1), |solver Y lam r ⟨i + 1, by omega⟩ - solver Y lam r ⟨i, by omega⟩|
      ≤ ∑ i, (z i - Y r i) ^ 2 + lam * ∑ i : Fin (m - 1), |z ⟨i + 1, by omega⟩ - z ⟨i, by omega⟩|

/-- C21: with a correct solver the update is the unique minimiser of `α TV(x) + β ‖x‖₁ + ρ/2 ‖x - y‖²`, for every strength accepted
by the constructor. -/
theorem C21_prox (solver : Matrix (Fin n) (Fin m) ℝ → ℝ → Matrix (Fin n) (Fin m) ℝ) (hsol : SolvesTV solver)
    (α₀ β₀ α β : ℝ) (hinit : tvInit true α₀ β₀ = .ok (α, β)) (ρ : ℝ) (hρ : 0 < ρ) (Y A : Matrix (Fin m) (Fin n) ℝ) :
    IsProx Set.univ (fun X => α * totalVar X + β * absSum X) ρ Y (tvMat solver α β Y ρ A) := by
  have hαβ : 0 < α ∧ 0 ≤ β := by
    simp only [tvInit, Bool.not_true, Bool.false_eq_true, if_false] at hinit
    split at hinit
    · simp at hinit
    split at hinit
    · simp at hinit
    simp only [Except.ok.injEq, Prod.mk.injEq] at hinit
    constructor <;> linarith [hinit.1, hinit.2]
  obtain ⟨hα, hβ⟩ := hαβ
  set x : Matrix (Fin n) (Fin m) ℝ := solver Y.transpose (α * 2 / ρ) with hx
  have hout : ∀ i r, tvMat solver α β Y ρ A i r = soft (β / ρ) (x r i) := by
    intro i r
    by_cases hb : β = 0
    · subst hb
      simp only [tvMat, ne_eq, not_true_eq_false, if_false, zero_div, soft_zero]; rfl
    · simp only [tvMat, ne_eq, hb, not_false_eq_true, if_true]; rfl
  refine isProx_of_subgrad hρ (Set.mem_univ _) fun Z _ => ?_
  have hcol := fun r => tv_soft_subgrad (y := fun i => Y i r) (x := x r) hα.le hβ hρ
    (fun z => hsol Y.transpose (α * 2 / ρ) (by positivity) r z) fun i => Z i r
  have key := sum_le_sum fun r (_ : r ∈ univ) => hcol r
  simp only [sum_add_distrib, ← mul_sum] at key
  have e0 : ∀ W : Matrix (Fin m) (Fin n) ℝ, ∑ r, ∑ i, |W i r| = absSum W := fun W => sum_comm
  have e1 : ∑ r, ∑ i, |Z i r| = absSum Z := e0 Z
  have e2 : ∑ r, ∑ i, |soft (β / ρ) (x r i)| = absSum (tvMat solver α β Y ρ A) := by
    rw [← e0]; simp only [hout]
  have e3 : ∑ r, tv (fun i => Z i r) = totalVar Z := rfl
  have e4 : ∑ r, tv (fun i => soft (β / ρ) (x r i)) = totalVar (tvMat solver α β Y ρ A) := by
    simp only [totalVar, tv, hout]
  have e5 : ∑ r, ∑ i, (Y i r - soft (β / ρ) (x r i)) * (Z i r - soft (β / ρ) (x r i))
      = inner (Y - tvMat solver α β Y ρ A) (Z - tvMat solver α β Y ρ A) := by
    rw [inner, sum_comm]
    simp only [Matrix.sub_apply, hout]
  rw [e1, e2, e3, e4, e5] at key
  exact key

/-- C21: the reported penalty is `α TV(x) + β ‖x‖₁`, and the constructor accepts exactly `α > 0`, `β ≥ 0` when the external package
is installed. -/
theorem C21_penalty (α β : ℝ) : (∀ X : Matrix (Fin m) (Fin n) ℝ, tvPenalty α β X = α * totalVar X + β * absSum X) ∧
    (∀ b, tvInit b α β = .ok (α, β) ↔ b = true ∧ 0 < α ∧ 0 ≤ β) := by
  refine ⟨fun X => ?_, fun b => ?_⟩
  · have e : totalVar X = ∑ i : Fin (m - 1), ∑ r, |X ⟨i + 1, by omega⟩ r - X ⟨i, by omega⟩ r| := sum_comm
    by_cases hb : β = 0
    · simp [tvPenalty, hb, e]
    · simp [tvPenalty, hb, e, absSum]
  · cases b
    · simp [tvInit]
    · simp only [tvInit, Bool.not_true, Bool.false_eq_true, if_false, true_and]
      split
      · simp only [reduceCtorEq, false_iff]; intro h; linarith
      · split
        · simp only [reduceCtorEq, false_iff]; intro h; linarith
        · simp only [true_iff]; constructor <;> linarith

/-- A correct solver exists for vectors of length two: move both entries towards each other. -/
noncomputable def solver2 (Y : Matrix (Fin 1) (Fin 2) ℝ) (lam : ℝ) : Matrix (Fin 1) (Fin 2) ℝ :=
  let d := min (lam / 2) (|Y 0 1 - Y 0 0| / 2)
  !![if Y 0 0 ≤ Y 0 1 then Y 0 0 + d else Y 0 0 - d, if Y 0 0 ≤ Y 0 1 then Y 0 1 - d else Y 0 1 + d]

example : SolvesTV solver2 ∧ tvInit true 1 2 = .ok (1, 2) := by
  refine ⟨?_, by norm_num [tvInit]⟩
  intro Y lam hlam r z
  obtain rfl : r = 0 := Subsingleton.elim _ _
  have hs : ∀ w : Fin 2 → ℝ, ∑ i : Fin (2 - 1), |w ⟨i + 1, by omega⟩ - w ⟨i, by omega⟩| = |w 1 - w 0| := by
    intro w
    exact Fin.sum_univ_one (fun i : Fin 1 => |w ⟨i + 1, by omega⟩ - w ⟨i, by omega⟩|)
  rw [hs, hs, Fin.sum_univ_two, Fin.sum_univ_two]
  have e0 : solver2 Y lam 0 0 = if Y 0 0 ≤ Y 0 1 then Y 0 0 + min (lam / 2) (|Y 0 1 - Y 0 0| / 2)
    else Y 0 0 - min (lam / 2) (|Y 0 1 - Y 0 0| / 2) := rfl
  have e1 : solver2 Y lam 0 1 = if Y 0 0 ≤ Y 0 1 then Y 0 1 - min (lam / 2) (|Y 0 1 - Y 0 0| / 2)
    else Y 0 1 + min (lam / 2) (|Y 0 1 - Y 0 0| / 2) := rfl
  rw [e0, e1]
  by_cases h : Y 0 0 ≤ Y 0 1
  · simp only [if_pos h]
    rw [abs_of_nonneg (by linarith : 0 ≤ Y 0 1 - Y 0 0)]
    have h1 := neg_abs_le (z 1 - z 0)
    have h2 := le_abs_self (z 1 - z 0)
    rcases le_total (lam / 2) ((Y 0 1 - Y 0 0) / 2) with h' | h'
    · rw [min_eq_left h', abs_of_nonneg (by linarith)]
      nlinarith [sq_nonneg (z 0 - Y 0 0 - lam / 2), sq_nonneg (z 1 - Y 0 1 + lam / 2), mul_le_mul_of_nonneg_left h2 hlam.le]
    · rw [min_eq_right h']
      have e : Y 0 1 - (Y 0 1 - Y 0 0) / 2 - (Y 0 0 + (Y 0 1 - Y 0 0) / 2) = 0 := by ring
      rw [e, abs_zero]
      have h3 : (Y 0 1 - Y 0 0) * (z 1 - z 0) ≤ lam * |z 1 - z 0| := by
        calc _ ≤ (Y 0 1 - Y 0 0) * |z 1 - z 0| := mul_le_mul_of_nonneg_left h2 (by linarith)
          _ ≤ _ := mul_le_mul_of_nonneg_right (by linarith) (abs_nonneg _)
      nlinarith [sq_nonneg (z 0 - Y 0 0 - (Y 0 1 - Y 0 0) / 2), sq_nonneg (z 1 - Y 0 1 + (Y 0 1 - Y 0 0) / 2)]
  · simp only [if_neg h]
    push Not at h
    rw [abs_of_nonpos (by linarith : Y 0 1 - Y 0 0 ≤ 0)]
    have h2 := neg_le_abs (z 1 - z 0)
    rcases le_total (lam / 2) (-(Y 0 1 - Y 0 0) / 2) with h' | h'
    · rw [min_eq_left h', abs_of_nonpos (by linarith)]
      nlinarith [sq_nonneg (z 0 - Y 0 0 + lam / 2), sq_nonneg (z 1 - Y 0 1 - lam / 2), mul_le_mul_of_nonneg_left h2 hlam.le]
    · rw [min_eq_right h']
      have e : Y 0 1 + -(Y 0 1 - Y 0 0) / 2 - (Y 0 0 - -(Y 0 1 - Y 0 0) / 2) = 0 := by ring
      rw [e, abs_zero]
      have h3 : (Y 0 0 - Y 0 1) * (-(z 1 - z 0)) ≤ lam * |z 1 - z 0| := by
        calc _ ≤ (Y 0 0 - Y 0 1) * |z 1 - z 0| := mul_le_mul_of_nonneg_left h2 (by linarith)
          _ ≤ _ := mul_le_mul_of_nonneg_right (by linarith) (abs_nonneg _)
      nlinarith [sq_nonneg (z 0 - Y 0 0 + (Y 0 0 - Y 0 1) / 2), sq_nonneg (z 1 - Y 0 1 - (Y 0 0 - Y 0 1) / 2)]

end Verif.Props
