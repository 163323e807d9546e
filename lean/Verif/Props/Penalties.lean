import Mathlib.Algebra.Order.BigOperators.Ring.Finset
import Verif.Penalties.Elementwise

/-!
# C15-C18, C22: NonNegativity, Box, L1Penalty, L2Ball
-/

namespace Verif.Props

open Verif.Penalties Verif.Spec Finset

variable {m n : ℕ}

/-- C15: the NonNegativity update is the unique nearest non-negative matrix, for every feasibility penalty and auxiliary
variable. -/
theorem C15_nonneg (X : Matrix (Fin m) (Fin n) ℝ) (ρ : ℝ) (aux : Matrix (Fin m) (Fin n) ℝ) :
    IsProj {Z | ∀ i r, 0 ≤ Z i r} X (nonNegMat m n X ρ aux) := by
  refine isProj_of_inner (fun i r => ?_) fun Z hZ => inner_le_zero fun i r => ?_
  · exact (clip_mem (lo := some 0) (hi := none) (by simp) _).1 0 rfl
  · exact clip_inner (lo := some 0) (hi := none) _ _ (by simpa using hZ i r) (by simp) (by simp)

/-- C15, row update. -/
theorem C15_nonneg_row (x : Fin n → ℝ) (ρ : ℝ) (aux : Fin n → ℝ) :
    IsProjVec {z | ∀ r, 0 ≤ z r} x (nonNegRow n x ρ aux) := by
  refine isProjVec_of_inner (fun r => ?_) fun Z hZ => sum_nonpos fun r _ => ?_
  · exact (clip_mem (lo := some 0) (hi := none) (by simp) _).1 0 rfl
  · exact clip_inner (lo := some 0) (hi := none) _ _ (by simpa using hZ r) (by simp) (by simp)

/-- C15: feasible input is returned unchanged. -/
theorem C15_fixed (X : Matrix (Fin m) (Fin n) ℝ) (ρ : ℝ) (aux : Matrix (Fin m) (Fin n) ℝ) (h : ∀ i r, 0 ≤ X i r) :
    nonNegMat m n X ρ aux = X := (C15_nonneg X ρ aux).fixed h

example : nonNegMat 1 2 !![-1, 2] 3 0 = !![0, 2] := by
  ext i r; fin_cases i; fin_cases r <;> norm_num [nonNegMat, clip]

/-- The matrices with all entries in the interval given by optional bounds. -/
def BoxSet (lo hi : Option ℝ) (m n : ℕ) : Set (Matrix (Fin m) (Fin n) ℝ) :=
  {Z | ∀ i r, (∀ l, lo = some l → l ≤ Z i r) ∧ (∀ u, hi = some u → Z i r ≤ u)}

/-- C16: the Box update is the unique nearest matrix with entries between the bounds. -/
theorem C16_box (lo hi : Option ℝ) (h : ∀ l u, lo = some l → hi = some u → l ≤ u) (X : Matrix (Fin m) (Fin n) ℝ)
    (ρ : ℝ) (aux : Matrix (Fin m) (Fin n) ℝ) : IsProj (BoxSet lo hi m n) X (boxMat lo hi m n X ρ aux) := by
  have h' : ∀ l ∈ lo, ∀ u ∈ hi, l ≤ u := fun l hl u hu => h l u hl hu
  refine isProj_of_inner (fun i r => ?_) fun Z hZ => inner_le_zero fun i r => ?_
  · exact clip_mem h' _
  · exact clip_inner _ _ (hZ i r).1 (hZ i r).2 h'

theorem C16_box_row (lo hi : Option ℝ) (h : ∀ l u, lo = some l → hi = some u → l ≤ u) (x : Fin n → ℝ)
    (ρ : ℝ) (aux : Fin n → ℝ) : IsProjVec
      {z | ∀ r, (∀ l, lo = some l → l ≤ z r) ∧ (∀ u, hi = some u → z r ≤ u)} x (boxRow lo hi n x ρ aux) := by
  have h' : ∀ l ∈ lo, ∀ u ∈ hi, l ≤ u := fun l hl u hu => h l u hl hu
  refine isProjVec_of_inner (fun r => ?_) fun Z hZ => sum_nonpos fun r _ => ?_
  · exact clip_mem h' _
  · exact clip_inner _ _ (hZ r).1 (hZ r).2 h'

theorem C16_fixed (lo hi : Option ℝ) (h : ∀ l u, lo = some l → hi = some u → l ≤ u) (X : Matrix (Fin m) (Fin n) ℝ)
    (ρ : ℝ) (aux : Matrix (Fin m) (Fin n) ℝ) (hX : X ∈ BoxSet lo hi m n) : boxMat lo hi m n X ρ aux = X :=
  (C16_box lo hi h X ρ aux).fixed hX

example : boxMat (some (-1)) (some 1) 1 3 !![-4, 0, 2] 3 0 = !![-1, 0, 1] := by
  ext i r; fin_cases i; fin_cases r <;> norm_num [boxMat, clip]

/-- C16, the hypothesis `min_val <= max_val` is needed: with crossed bounds the upper bound wins and the lower one is violated.
The constructor does not check this. -/
theorem C16_crossed (l u : ℝ) (h : u < l) (X : Matrix (Fin m) (Fin n) ℝ) (ρ : ℝ) (aux : Matrix (Fin m) (Fin n) ℝ) (i : Fin m)
    (r : Fin n) : boxMat (some l) (some u) m n X ρ aux i r = u := by
  simp only [boxMat, clip]
  exact min_eq_right (h.le.trans (le_max_right _ _))

/-- C17: the L1 update is the unique minimiser of `penalty(x) + rho/2 ||x - y||^2`, with the penalty the class
reports, over all matrices or over the non-negative ones. -/
theorem C17_l1 {s γ : ℝ} (hs : l1Init s = .ok γ) {ρ : ℝ} (hρ : 0 < ρ) (nonNeg : Bool) (Y aux : Matrix (Fin m) (Fin n) ℝ) :
    IsProx {Z | nonNeg → ∀ i r, 0 ≤ Z i r} (l1Penalty γ) ρ Y (l1Mat γ nonNeg m n Y ρ aux) := by
  have hγ : 0 ≤ γ := by
    unfold l1Init at hs
    split at hs
    · simp at hs
    · simp only [Except.ok.injEq] at hs; linarith
  have ht : 0 ≤ γ / ρ := by positivity
  have hexp : ∀ X Z : Matrix (Fin m) (Fin n) ℝ,
      (∀ i r, γ / ρ * |X i r| + (Y i r - X i r) * (Z i r - X i r) ≤ γ / ρ * |Z i r|) →
      l1Penalty γ X + ρ * inner (Y - X) (Z - X) ≤ l1Penalty γ Z := by
    intro X Z h
    simp only [l1Penalty, inner, sum_mul, mul_sum, ← sum_add_distrib]
    refine sum_le_sum fun i _ => sum_le_sum fun r _ => ?_
    have := mul_le_mul_of_nonneg_left (h i r) hρ.le
    have e : ∀ a : ℝ, ρ * (γ / ρ * a) = a * γ := fun a => by field_simp
    rw [mul_add, e, e] at this
    exact this
  refine isProx_of_subgrad hρ ?_ fun Z hZ => hexp _ _ fun i r => ?_
  · rintro rfl i r
    simp only [l1Mat, if_true, clip_nonneg]
    exact le_max_right _ _
  · cases nonNeg with
    | false =>
      simp only [l1Mat, Bool.false_eq_true, if_false]
      exact soft_subgrad _ _ _ ht
    | true =>
      simp only [l1Mat, if_true]
      exact softPos_subgrad _ _ _ (hZ rfl i r)

/-- C17: the constructor accepts exactly the non-negative strengths, and the penalty it reports is `γ` times the sum of absolute
values, also for a list of matrices. -/
theorem C17_penalty (γ : ℝ) : (∀ s, l1Init s = .ok γ ↔ s = γ ∧ 0 ≤ s) ∧
    (∀ X : Matrix (Fin m) (Fin n) ℝ, l1Penalty γ X = γ * absSum X) ∧
    ∀ (I : ℕ) (J : Fin I → ℕ) (X : (i : Fin I) → Matrix (Fin (J i)) (Fin n) ℝ),
      l1PenaltyList γ X = ∑ i, γ * absSum (X i) := by
  refine ⟨fun s => ?_, fun X => by simp [l1Penalty, absSum, mul_comm], fun I J X => ?_⟩
  · unfold l1Init
    split
    · simp only [reduceCtorEq, false_iff, not_and]; intro; linarith
    · simp only [Except.ok.injEq, iff_self_and]; intro; linarith
  · simp only [l1PenaltyList, absSum, mul_sum, mul_comm]

example : l1Mat 1 false 1 3 !![-4, 1, 2] 2 0 = !![-7/2, 1/2, 3/2] := by
  ext i r; fin_cases i; fin_cases r <;> norm_num [l1Mat, clip, sgn]

/-! ### C18 -/

/-- The matrices whose columns have norm at most `b` (and are non-negative if requested). -/
def BallSet (b : ℝ) (nonNeg : Bool) (m n : ℕ) : Set (Matrix (Fin m) (Fin n) ℝ) :=
  {Z | (∀ r, √(colSq Z r) ≤ b) ∧ (nonNeg → ∀ i r, 0 ≤ Z i r)}

/-- One column: `x` is the input after the optional clipping, `y` the input. -/
theorem ball_column {b : ℝ} (hb : 0 < b) (x : Fin m → ℝ) :
    √(∑ i, (x i * b / max (√(∑ i, x i ^ 2)) b) ^ 2) ≤ b ∧
    ∀ z : Fin m → ℝ, √(∑ i, z i ^ 2) ≤ b →
      ∑ i, (x i - x i * b / max (√(∑ i, x i ^ 2)) b) * (z i - x i * b / max (√(∑ i, x i ^ 2)) b) ≤ 0 := by
  set N := √(∑ i, x i ^ 2) with hN
  have hNn : 0 ≤ N := Real.sqrt_nonneg _
  have hN2 : N ^ 2 = ∑ i, x i ^ 2 := Real.sq_sqrt (sum_nonneg fun _ _ => sq_nonneg _)
  have hM : 0 < max N b := lt_max_of_lt_right hb
  set c := b / max N b with hc
  have hc0 : 0 < c := div_pos hb hM
  have hc1 : c ≤ 1 := (div_le_one hM).2 (le_max_right _ _)
  have hcN : c * N ≤ b := by
    rw [hc, div_mul_eq_mul_div, div_le_iff₀ hM]
    exact mul_le_mul_of_nonneg_left (le_max_left _ _) hb.le
  have hx : ∀ i, x i * b / max N b = c * x i := fun i => by rw [hc]; ring
  simp only [hx]
  constructor
  · have : ∑ i, (c * x i) ^ 2 = (c * N) ^ 2 := by
      rw [mul_pow, hN2, mul_sum]; exact sum_congr rfl fun _ _ => by ring
    rw [this, Real.sqrt_sq (by positivity)]
    exact hcN
  · intro z hz
    have hcs : ∑ i, x i * z i ≤ N * b := by
      have h1 := sum_mul_sq_le_sq_mul_sq univ x z
      have hz2 : ∑ i, z i ^ 2 ≤ b ^ 2 := by
        rw [← Real.sqrt_le_sqrt_iff (by positivity), Real.sqrt_sq hb.le]; exact hz
      rw [← hN2] at h1
      have : (∑ i, x i * z i) ^ 2 ≤ (N * b) ^ 2 := by nlinarith [sq_nonneg N]
      exact le_of_abs_le (abs_le_of_sq_le_sq this (by positivity))
    have e : ∑ i, (x i - c * x i) * (z i - c * x i) = (1 - c) * (∑ i, x i * z i - c * N ^ 2) := by
      rw [hN2, mul_sum, ← sum_sub_distrib, mul_sum]
      exact sum_congr rfl fun _ _ => by ring
    rw [e]
    rcases le_total N b with h | h
    · have : c = 1 := by rw [hc, max_eq_right h, div_self hb.ne']
      simp [this]
    · have h2 : c * N = b := by
        rw [hc, max_eq_left h, div_mul_cancel₀]
        exact (lt_of_lt_of_le hb h).ne'
      refine mul_nonpos_of_nonneg_of_nonpos (by linarith) ?_
      have : c * N ^ 2 = b * N := by rw [← h2]; ring
      rw [this]
      linarith [mul_comm N b]

/-- C18: the L2Ball update is the unique nearest matrix with column norms at most the bound (and non-negative entries when
requested). -/
theorem C18_l2ball {s b : ℝ} (hs : l2BallInit s = .ok b) (nonNeg : Bool) (Y : Matrix (Fin m) (Fin n) ℝ) (ρ : ℝ)
    (aux : Matrix (Fin m) (Fin n) ℝ) : IsProj (BallSet b nonNeg m n) Y (l2BallMat b nonNeg m n Y ρ aux) := by
  have hb : 0 < b := by
    unfold l2BallInit at hs
    split at hs
    · simp at hs
    · simp only [Except.ok.injEq] at hs; linarith
  set x : Matrix (Fin m) (Fin n) ℝ := fun i r => if nonNeg then clip (some 0) none (Y i r) else Y i r with hx
  have hout : ∀ i r, l2BallMat b nonNeg m n Y ρ aux i r = x i r * b / max (√(∑ i, x i r ^ 2)) b := fun _ _ => rfl
  have hcol := fun r => ball_column hb fun i => x i r
  have hM : ∀ r, 0 < max (√(∑ i, x i r ^ 2)) b := fun r => lt_max_of_lt_right hb
  refine isProj_of_inner ⟨fun r => ?_, fun hn i r => ?_⟩ fun Z hZ => ?_
  · simp only [colSq, hout]
    exact (hcol r).1
  · rw [hout]
    have : 0 ≤ x i r := by subst hn; exact le_max_right _ _
    have := hM r
    positivity
  · rw [inner, sum_comm]
    refine sum_nonpos fun r _ => ?_
    simp only [Matrix.sub_apply, hout]
    refine le_trans ?_ ((hcol r).2 (fun i => Z i r) (hZ.1 r))
    refine sum_le_sum fun i _ => ?_
    cases nonNeg with
    | false => simp [hx]
    | true =>
      have hxi : x i r = max (Y i r) 0 := rfl
      rcases le_total (Y i r) 0 with h | h
      · have : x i r = 0 := by rw [hxi, max_eq_right h]
        rw [this]
        have := hZ.2 rfl i r
        simp only [zero_mul, zero_div, sub_zero]
        nlinarith
      · have : x i r = Y i r := by rw [hxi, max_eq_left h]
        rw [this]

/-- C18: a feasible matrix is unchanged; the constructor accepts exactly positive bounds. -/
theorem C18_fixed {s b : ℝ} (hs : l2BallInit s = .ok b) (nonNeg : Bool) (Y : Matrix (Fin m) (Fin n) ℝ) (ρ : ℝ)
    (aux : Matrix (Fin m) (Fin n) ℝ) (hY : Y ∈ BallSet b nonNeg m n) : l2BallMat b nonNeg m n Y ρ aux = Y :=
  (C18_l2ball hs nonNeg Y ρ aux).fixed hY

theorem C18_init (s b : ℝ) : l2BallInit s = .ok b ↔ s = b ∧ 0 < s := by
  unfold l2BallInit
  split
  · simp only [reduceCtorEq, false_iff, not_and]; intro; linarith
  · simp only [Except.ok.injEq, iff_self_and]; intro; linarith

/-- A non-trivial case: the column (3, 4) is shrunk to norm 1. -/
example : l2BallInit 1 = .ok 1 ∧ l2BallMat 1 false 2 1 !![3; 4] 1 0 = !![3/5; 4/5] := by
  refine ⟨by norm_num [l2BallInit], ?_⟩
  have : √(25 : ℝ) = 5 := by
    rw [show (25 : ℝ) = 5 ^ 2 by norm_num]; exact Real.sqrt_sq (by norm_num)
  ext i r; fin_cases r; fin_cases i <;> norm_num [l2BallMat, clip, Fin.sum_univ_two, this]

/-! ### C22 -/

/-- C22: for NonNegativity, Box and L1 the overridden matrix update is the row update applied to each row. -/
theorem C22_rows (X aux : Matrix (Fin m) (Fin n) ℝ) (ρ : ℝ) :
    nonNegMat m n X ρ aux = matrixFromRows (nonNegRow n) X ρ aux ∧
    (∀ lo hi, boxMat lo hi m n X ρ aux = matrixFromRows (boxRow lo hi n) X ρ aux) ∧
    ∀ γ nonNeg, l1Mat γ nonNeg m n X ρ aux = matrixFromRows (l1Row γ nonNeg n) X ρ aux :=
  ⟨rfl, fun _ _ => rfl, fun _ _ => rfl⟩

/-- C22: updating a list of matrices updates each of them with its own feasibility penalty and auxiliary matrix. -/
theorem C22_list {α β γ δ : Type} (f : α → β → γ → δ) (fms : List α) (ρs : List β) (auxes : List γ)
    (h1 : ρs.length = fms.length) (h2 : auxes.length = fms.length) :
    (matricesUpdate f fms ρs auxes).length = fms.length ∧
    ∀ (i : ℕ) (hi : i < fms.length), (matricesUpdate f fms ρs auxes)[i]? =
      some (f fms[i] ρs[i] auxes[i]) := by
  constructor
  · simp [matricesUpdate, h1, h2]
  · intro i hi
    rw [List.getElem?_eq_getElem (by simp [matricesUpdate, h1, h2, hi])]
    simp [matricesUpdate]

example : matricesUpdate (fun (x : ℝ) ρ (_ : ℝ) => x * ρ) [1, 2] [3, 4] [0, 0] = [1 * 3, 2 * 4] := rfl

end Verif.Props
