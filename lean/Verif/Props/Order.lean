import Verif.Examples.Order
import Mathlib.Data.Fin.VecNotation
import Mathlib.Data.Fin.Tuple.Sort
import Mathlib.Algebra.BigOperators.Field
import Mathlib.Tactic.Linarith
import Mathlib.Tactic.FieldSimp
import Mathlib.Tactic.NormNum

/-!
# C118: normalising and ordering components in the examples
-/

set_option linter.unusedSectionVars false

namespace Verif.Props

open Verif.Spec Verif.Examples Finset

variable {I K R m : ℕ} {J : Fin I → ℕ}

/-- The contract of `np.argsort`: a permutation that sorts in ascending order. -/
def IsArgsort (argsort : (Fin R → ℝ) → Fin R → Fin R) : Prop := ∀ v, Function.Bijective (argsort v) ∧ Monotone fun r => v (argsort v r)

/-- How much of the data a component explains on its own: the sum of squares of the matrices it stands for. -/
def strength (w : Fin R → ℝ) (F : Factors I K R J) (r : Fin R) : ℝ := ∑ i, ∑ j, ∑ k, (w r * F.A i r * F.B i j r * F.C k r) ^ 2

theorem colNorm_sq (X : Matrix (Fin m) (Fin R) ℝ) (r : Fin R) : colNorm X r ^ 2 = ∑ i, X i r ^ 2 := Real.sq_sqrt (sum_nonneg fun _ _ => sq_nonneg _)

theorem colNorm_nonneg (X : Matrix (Fin m) (Fin R) ℝ) (r : Fin R) : 0 ≤ colNorm X r := Real.sqrt_nonneg _

/-- If the columns of all B_i have the same norms, as under the PARAFAC2 constraint, the strength is the square of the product of weight and norms. -/
theorem strength_eq (w : Fin R → ℝ) (F : Factors I K R J) (r : Fin R) (b : ℝ) (hB : ∀ i, ∑ j, F.B i j r ^ 2 = b ^ 2) :
    strength w F r = (w r * colNorm F.A r * b * colNorm F.C r) ^ 2 := by
  have h : ∀ i, ∑ j, ∑ k, (w r * F.A i r * F.B i j r * F.C k r) ^ 2 = w r ^ 2 * colNorm F.C r ^ 2 * b ^ 2 * F.A i r ^ 2 := by
    intro i
    have e : ∀ j k, (w r * F.A i r * F.B i j r * F.C k r) ^ 2 = w r ^ 2 * F.A i r ^ 2 * F.B i j r ^ 2 * F.C k r ^ 2 := fun j k => by ring
    simp only [e]
    have e2 : ∀ j, ∑ k, w r ^ 2 * F.A i r ^ 2 * F.B i j r ^ 2 * F.C k r ^ 2 = w r ^ 2 * F.A i r ^ 2 * colNorm F.C r ^ 2 * F.B i j r ^ 2 := fun j => by
      rw [← mul_sum, ← colNorm_sq]
      ring
    simp only [e2]
    rw [← mul_sum, hB i]
    ring
  simp only [strength, h]
  rw [← mul_sum, ← colNorm_sq]
  ring

theorem gram_norm {X : Matrix (Fin m) (Fin R) ℝ} (r : Fin R) : (X.transpose * X) r r = ∑ i, X i r ^ 2 := by
  rw [Matrix.mul_apply]
  exact sum_congr rfl fun i _ => by rw [Matrix.transpose_apply]; ring

/-! ### Ordering -/

/-- C118 for the bike sharing example: if the B_i satisfy the PARAFAC2 constraint and the weights are None or not negative, the components are in the order of the variation they explain,
beginning with the largest. -/
theorem C118_bike (argsort : (Fin R → ℝ) → Fin R → Fin R) (ha : IsArgsort argsort) (w : Option (Fin R → ℝ)) (hw : ∀ r, 0 ≤ (w.getD fun _ => 1) r) (F : Factors I K R J) (i₀ : Fin I)
    (hB : ∀ i, (F.B i).transpose * F.B i = (F.B i₀).transpose * F.B i₀) (p q : Fin R) (hpq : p ≤ q) :
    strength (w.getD fun _ => 1) F (bikeOrder argsort w F.A (F.B i₀) F.C q) ≤ strength (w.getD fun _ => 1) F (bikeOrder argsort w F.A (F.B i₀) F.C p) := by
  have hs : ∀ r, strength (w.getD fun _ => 1) F r = ((w.getD fun _ => 1) r * colNorm F.A r * colNorm (F.B i₀) r * colNorm F.C r) ^ 2 := fun r =>
    strength_eq _ F r _ fun i => by rw [colNorm_sq, ← gram_norm, hB i, gram_norm]
  have := (ha fun r => -(w.getD fun _ => 1) r * (colNorm F.A r * colNorm (F.B i₀) r * colNorm F.C r)).2 hpq
  rw [hs, hs]
  refine pow_le_pow_left₀ ?_ ?_ 2
  · exact mul_nonneg (mul_nonneg (mul_nonneg (hw _) (colNorm_nonneg _ _)) (colNorm_nonneg _ _)) (colNorm_nonneg _ _)
  · unfold bikeOrder
    simp only at this
    linarith

/-- C118 fails for the example on etching: the comment says that the first component explains most of the variation, but the components are in ascending order; the first explains least. -/
theorem C118_etch_false (argsort : (Fin R → ℝ) → Fin R → Fin R) (ha : IsArgsort argsort) (w : Fin R → ℝ) (hw : ∀ r, 0 ≤ w r) (A : Matrix (Fin I) (Fin R) ℝ)
    (P : (i : Fin I) → Matrix (Fin (J i)) (Fin m) ℝ) (hP : ∀ i, (P i).transpose * P i = 1) (B : Matrix (Fin m) (Fin R) ℝ) (C : Matrix (Fin K) (Fin R) ℝ) (p q : Fin R) (hpq : p ≤ q) :
    strength w ⟨A, fun i => P i * B, C⟩ (etchOrder argsort w A B C p) ≤ strength w ⟨A, fun i => P i * B, C⟩ (etchOrder argsort w A B C q) := by
  have hs : ∀ r, strength w ⟨A, fun i => P i * B, C⟩ r = (w r * colNorm A r * colNorm B r * colNorm C r) ^ 2 := fun r =>
    strength_eq w ⟨A, fun i => P i * B, C⟩ r _ fun i => by
      show ∑ j, (P i * B) j r ^ 2 = _
      rw [colNorm_sq, ← gram_norm, ← gram_norm, Matrix.transpose_mul, Matrix.mul_assoc, ← Matrix.mul_assoc (P i).transpose, hP i, Matrix.one_mul]
  rw [hs, hs]
  refine pow_le_pow_left₀ ?_ ((ha fun r => w r * colNorm A r * colNorm B r * colNorm C r).2 hpq) 2
  exact mul_nonneg (mul_nonneg (mul_nonneg (hw _) (colNorm_nonneg _ _)) (colNorm_nonneg _ _)) (colNorm_nonneg _ _)

/-- The same for the regularised model of this example, if the columns of A and C have norm 1 (the bound imposed on them). -/
theorem C118_tv_false (argsort : (Fin R → ℝ) → Fin R → Fin R) (ha : IsArgsort argsort) (F : Factors I K R J) (i₀ : Fin I)
    (hB : ∀ i, (F.B i).transpose * F.B i = (F.B i₀).transpose * F.B i₀) (hA : ∀ r, colNorm F.A r = 1) (hC : ∀ r, colNorm F.C r = 1) (p q : Fin R) (hpq : p ≤ q) :
    strength (fun _ => 1) F (tvOrder argsort (F.B i₀) p) ≤ strength (fun _ => 1) F (tvOrder argsort (F.B i₀) q) := by
  have hs : ∀ r, strength (fun _ => 1) F r = colNorm (F.B i₀) r ^ 2 := fun r => by
    rw [strength_eq _ F r (colNorm (F.B i₀) r) fun i => by rw [colNorm_sq, ← gram_norm, hB i, gram_norm], hA, hC]
    ring
  rw [hs, hs]
  exact pow_le_pow_left₀ (colNorm_nonneg _ _) ((ha _).2 hpq) 2

/-! ### Normalising -/

/-- C118: if no column of A or C is zero, normalising does not change the matrices that the factors stand for, and the columns of A and C have norm 1. -/
theorem C118_normalise (F : Factors I K R J) (hA : ∀ r, colNorm F.A r ≠ 0) (hC : ∀ r, colNorm F.C r ≠ 0) :
    (etchNormalise F).recon = F.recon ∧ (∀ r, colNorm (etchNormalise F).A r = 1) ∧ ∀ r, colNorm (etchNormalise F).C r = 1 := by
  have unit : ∀ {n : ℕ} (X : Matrix (Fin n) (Fin R) ℝ), (∀ r, colNorm X r ≠ 0) → ∀ r, colNorm (fun i r => X i r / colNorm X r) r = 1 := by
    intro n X hX r
    have : ∑ i, (X i r / colNorm X r) ^ 2 = 1 := by
      simp only [div_pow]
      rw [← Finset.sum_div, ← colNorm_sq]
      exact div_self (pow_ne_zero 2 (hX r))
    unfold colNorm at this ⊢
    rw [this, Real.sqrt_one]
  refine ⟨?_, unit F.A hA, unit F.C hC⟩
  funext i
  ext j k
  show ∑ r, F.A i r / colNorm F.A r * (F.B i j r * colNorm F.A r * colNorm F.C r) * (F.C k r / colNorm F.C r) = ∑ r, F.A i r * F.B i j r * F.C k r
  refine sum_congr rfl fun r _ => ?_
  have h1 := hA r
  have h2 := hC r
  field_simp

/-- `normalize` gives columns of norm 1 and the same directions, for columns that are not zero. -/
theorem C118_unit (X : Matrix (Fin m) (Fin R) ℝ) (r : Fin R) (hX : ∃ i, X i r ≠ 0) :
    ∑ i, normalizeCols X i r ^ 2 = 1 ∧ ∃ c > 0, ∀ i, normalizeCols X i r = c * X i r := by
  obtain ⟨i₀, hi⟩ := hX
  have hpos : 0 < ∑ i, X i r ^ 2 := sum_pos' (fun i _ => sq_nonneg _) ⟨i₀, mem_univ _, by positivity⟩
  constructor
  · simp only [normalizeCols, div_pow]
    rw [← Finset.sum_div, Real.sq_sqrt hpos.le]
    exact div_self hpos.ne'
  · exact ⟨(√(∑ i, X i r ^ 2))⁻¹, inv_pos.2 (Real.sqrt_pos.2 hpos), fun i => by rw [normalizeCols, div_eq_inv_mul]⟩

/-- C118: reordering the components does not change the matrices, and clipping does not if the factors are not negative. -/
theorem C118_frames (order : Fin R → Fin R) (ho : Function.Bijective order) (F : Factors I K R J) (hA : ∀ i r, 0 ≤ F.A i r) (hB : ∀ i j r, 0 ≤ F.B i j r) (hC : ∀ k r, 0 ≤ F.C k r) :
    (bikeFrames order F).recon = F.recon := by
  funext i
  ext j k
  show ∑ r, max 0 (F.A i (order r)) * max 0 (F.B i j (order r)) * max 0 (F.C k (order r)) = ∑ r, F.A i r * F.B i j r * F.C k r
  rw [← ho.sum_comp fun r => F.A i r * F.B i j r * F.C k r]
  exact sum_congr rfl fun r _ => by rw [max_eq_right (hA _ _), max_eq_right (hB _ _ _), max_eq_right (hC _ _)]

/-- C118: if no column is constant over all matrices, each column of the standardised matrices taken together has mean 0 and mean square 1; so the sum of squares that the reported errors are
relative to is the number of entries. -/
theorem C118_standardise (X : Ragged I K J) (hX : ∀ k, ∃ i i', ∃ j j', X i j k ≠ X i' j' k) :
    (∀ k, ∑ i, ∑ j, standardised X i j k = 0) ∧ (∀ k, ∑ i, ∑ j, standardised X i j k ^ 2 = rowsOf J) ∧ ∑ i, ∑ j, ∑ k, standardised X i j k ^ 2 = rowsOf J * K := by
  have hN : ∀ _ : Fin K, (0 : ℝ) < rowsOf J := fun k => by
    obtain ⟨i, -, j, -⟩ := hX k
    have : 0 < rowsOf J := (Nat.zero_lt_of_lt j.isLt).trans_le (single_le_sum (f := J) (fun _ _ => Nat.zero_le _) (mem_univ i))
    exact_mod_cast this
  have hpos : ∀ k, 0 < (∑ i, ∑ j, (X i j k - stackedMean X k) ^ 2) / rowsOf J := by
    intro k
    refine div_pos ?_ (hN k)
    refine lt_of_le_of_ne (sum_nonneg fun _ _ => sum_nonneg fun _ _ => sq_nonneg _) fun h0 => ?_
    obtain ⟨i, i', j, j', hne⟩ := hX k
    have all : ∀ i j, X i j k = stackedMean X k := by
      intro i j
      have h1 := (sum_eq_zero_iff_of_nonneg fun i _ => sum_nonneg fun j _ => sq_nonneg (X i j k - stackedMean X k)).1 h0.symm i (mem_univ i)
      have h2 := (sum_eq_zero_iff_of_nonneg fun j _ => sq_nonneg (X i j k - stackedMean X k)).1 h1 j (mem_univ j)
      exact sub_eq_zero.1 (pow_eq_zero_iff two_ne_zero |>.1 h2)
    exact hne ((all i j).trans (all i' j').symm)
  have hsq : ∀ k, ∑ i, ∑ j, standardised X i j k ^ 2 = rowsOf J := by
    intro k
    have e : ∀ i j, standardised X i j k ^ 2 = (X i j k - stackedMean X k) ^ 2 / ((∑ i, ∑ j, (X i j k - stackedMean X k) ^ 2) / rowsOf J) := fun i j => by
      rw [standardised, div_pow, stackedStd, Real.sq_sqrt (hpos k).le]
    simp only [e, ← Finset.sum_div]
    have h1 := (hN k).ne'
    have h2 : (∑ i, ∑ j, (X i j k - stackedMean X k) ^ 2) ≠ 0 := fun h => by
      have := hpos k
      rw [h, zero_div] at this
      exact lt_irrefl _ this
    field_simp
  refine ⟨fun k => ?_, hsq, ?_⟩
  · simp only [standardised, ← Finset.sum_div, sum_sub_distrib, sum_const, card_univ, Fintype.card_fin, nsmul_eq_mul]
    rw [← Finset.sum_mul]
    have e : (∑ i, (J i : ℝ)) * stackedMean X k = ∑ i, ∑ j, X i j k := by
      have : (∑ i, (J i : ℝ)) = rowsOf J := by simp [rowsOf]
      rw [this, stackedMean, mul_div_cancel₀ _ (hN k).ne']
    rw [e, sub_self, zero_div]
  · have e : ∑ i, ∑ j, ∑ k, standardised X i j k ^ 2 = ∑ k, ∑ i, ∑ j, standardised X i j k ^ 2 := by
      rw [sum_comm (s := (univ : Finset (Fin K)))]
      exact sum_congr rfl fun i _ => sum_comm
    rw [e]
    simp [hsq, mul_comm]

/-- Two matrices without constant columns. -/
example : ∀ k, ∃ i i', ∃ j j', (fun i j _ => (i.val + j.val : ℝ) : Ragged 2 1 fun i => i.val + 1) i j k ≠ (fun i j _ => (i.val + j.val : ℝ) : Ragged 2 1 fun i => i.val + 1) i' j' k :=
  fun _ => ⟨0, 1, 0, 1, by norm_num⟩

/-- The contract of `np.argsort` can be met. -/
theorem argsort_exists : IsArgsort (fun v : Fin R → ℝ => ⇑(Tuple.sort v)) := fun v => ⟨(Tuple.sort v).bijective, Tuple.monotone_sort v⟩

/-- A case of `C118_etch_false`: of two components that explain 1 and 4, the weaker is plotted as the first. -/
example (argsort : (Fin 2 → ℝ) → Fin 2 → Fin 2) (ha : IsArgsort argsort) :
    let F : Factors 1 1 2 (fun _ => 1) := ⟨fun _ => ![1, 2], fun _ => (1 : Matrix (Fin 1) (Fin 1) ℝ) * (Matrix.of fun _ => ![1, 1] : Matrix (Fin 1) (Fin 2) ℝ), fun _ => ![1, 1]⟩
    strength (fun _ => 1) F 0 = 1 ∧ strength (fun _ => 1) F 1 = 4 ∧ etchOrder argsort (fun _ => 1) F.A (m := 1) (Matrix.of fun _ => ![1, 1]) F.C 0 = 0 := by
  intro F
  have h0 : strength (fun _ => 1) F 0 = 1 := by simp [strength, F]
  have h1 : strength (fun _ => 1) F 1 = 4 := by norm_num [strength, F]
  refine ⟨h0, h1, ?_⟩
  have h := C118_etch_false argsort ha (fun _ => 1) (fun _ => zero_le_one) F.A (J := fun _ => 1) (m := 1) (fun _ => 1) (fun _ => by simp) (Matrix.of fun _ => ![1, 1]) F.C 0 1 (by decide)
  have hb := (ha fun r => 1 * colNorm F.A r * colNorm (m := 1) (Matrix.of fun _ => ![1, 1]) r * colNorm F.C r).1.1
  by_contra hne
  have e0 : etchOrder argsort (fun _ => 1) F.A (m := 1) (Matrix.of fun _ => ![1, 1]) F.C 0 = 1 := by omega
  have e1 : etchOrder argsort (fun _ => 1) F.A (m := 1) (Matrix.of fun _ => ![1, 1]) F.C 1 = 0 := by
    by_contra h2
    have e2 : etchOrder argsort (fun _ => 1) F.A (m := 1) (Matrix.of fun _ => ![1, 1]) F.C 1 = 1 := by omega
    exact absurd (hb (e0.trans e2.symm)) (by decide)
  rw [e0, e1] at h
  change strength (fun _ => 1) F 1 ≤ strength (fun _ => 1) F 0 at h
  rw [h0, h1] at h
  norm_num at h

/-- Factors that meet the hypotheses of `C118_bike`, `C118_tv_false`, `C118_normalise` and `C118_frames`: columns of norm 1 and B_i with the same cross product. -/
example : let F : Factors 2 1 1 (fun _ => 2) := ⟨fun i _ => if i = 0 then 3 / 5 else 4 / 5, fun i j _ => if i = j then 7 else 0, fun _ _ => 1⟩
    (∀ i, (F.B i).transpose * F.B i = (F.B 0).transpose * F.B 0) ∧ (∀ r, colNorm F.A r = 1) ∧ ∀ r, colNorm F.C r = 1 := by
  intro F
  refine ⟨fun i => ?_, fun r => ?_, fun r => by simp [colNorm, F]⟩
  · ext r s
    rw [Matrix.mul_apply, Matrix.mul_apply, Fin.sum_univ_two, Fin.sum_univ_two]
    simp only [F]
    fin_cases i
    · rfl
    · show (if (1 : Fin 2) = 0 then (7 : ℝ) else 0) * (if (1 : Fin 2) = 0 then 7 else 0) + (if (1 : Fin 2) = 1 then 7 else 0) * (if (1 : Fin 2) = 1 then 7 else 0) =
        (if (0 : Fin 2) = 0 then (7 : ℝ) else 0) * (if (0 : Fin 2) = 0 then 7 else 0) + (if (0 : Fin 2) = 1 then 7 else 0) * (if (0 : Fin 2) = 1 then 7 else 0)
      norm_num
  · simp only [colNorm, F, Fin.sum_univ_two]
    norm_num

end Verif.Props
