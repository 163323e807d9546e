import Mathlib.Algebra.Order.Archimedean.Basic
import Verif.Penalties.Simplex

/-!
# C19: UnitSimplex
-/

namespace Verif.Props

open Verif.Penalties Verif.Spec Finset

variable {m n : ℕ}

/-- The matrices whose columns are non-negative and sum to one. -/
def SimplexSet (m n : ℕ) : Set (Matrix (Fin m) (Fin n) ℝ) := {Z | (∀ i r, 0 ≤ Z i r) ∧ ∀ r, ∑ i, Z i r = 1}

/-- C19, accuracy. Whatever the UnitSimplex update returns is non-negative, has column sums that differ from one by at most
(number of rows) * (bisection tolerance), and is entrywise within the bisection tolerance of the exact projection onto the
simplex. The tolerance is scipy's `2e-12 + 4 eps |multiplier|`, bounded here by the size `b` of the entries. -/
theorem C19_accuracy (hm : 0 < m) (X Z : Matrix (Fin m) (Fin n) ℝ) (h : simplexMat X = .ok Z) (b : ℝ)
    (hb : ∀ i r, |X i r| ≤ b) :
    (∀ i r, 0 ≤ Z i r) ∧
    (∀ r, |∑ i, Z i r - 1| ≤ m * (2 / 10 ^ 12 + 4 / 2 ^ 52 * (11 / 10 * (b + 1 + 1 / 10 ^ 5)))) ∧
    ∃ P, IsProj (SimplexSet m n) X P ∧
      ∀ i r, |Z i r - P i r| ≤ 2 / 10 ^ 12 + 4 / 2 ^ 52 * (11 / 10 * (b + 1 + 1 / 10 ^ 5)) := by
  have hcol : ∀ r, ∃ μ ν, (∀ i, Z i r = max (X i r - μ) 0) ∧ simplexF (fun i => X i r) ν = 0 ∧
      |μ - ν| ≤ 2 / 10 ^ 12 + 4 / 2 ^ 52 * (11 / 10 * (b + 1 + 1 / 10 ^ 5)) := by
    intro r
    obtain ⟨μ, h1, h2⟩ := (simplexLoop_ok X _ _ Z h r).1 (List.mem_finRange r)
    obtain ⟨ν, h3, h4, h5⟩ := lagrange_ok _ hm h1
    refine ⟨μ, ν, h2, h3, h4.trans ?_⟩
    have := h5 b fun i => hb i r
    gcongr
  choose μ ν h1 h2 h3 using hcol
  have hdiff : ∀ i r, |Z i r - max (X i r - ν r) 0| ≤ |μ r - ν r| := by
    intro i r
    rw [h1]
    refine (abs_max_sub_max_le_abs _ _ _).trans ?_
    rw [abs_sub_comm (μ r)]
    exact le_of_eq (by congr 1; ring)
  have hsum : ∀ r, ∑ i, max (X i r - ν r) 0 = 1 := fun r => by
    have := h2 r; rw [simplexF_eq] at this; linarith
  refine ⟨fun i r => by rw [h1]; exact le_max_right _ _, fun r => ?_, fun i r => max (X i r - ν r) 0, ?_, fun i r => ?_⟩
  · have e : ∑ i, Z i r - 1 = ∑ i, (Z i r - max (X i r - ν r) 0) := by rw [sum_sub_distrib, hsum r]
    rw [e]
    calc |∑ i, (Z i r - max (X i r - ν r) 0)| ≤ ∑ i, |Z i r - max (X i r - ν r) 0| := abs_sum_le_sum_abs _ _
      _ ≤ ∑ _i : Fin m, (2 / 10 ^ 12 + 4 / 2 ^ 52 * (11 / 10 * (b + 1 + 1 / 10 ^ 5))) :=
          sum_le_sum fun i _ => (hdiff i r).trans (h3 r)
      _ = _ := by rw [sum_const, card_univ, Fintype.card_fin, nsmul_eq_mul]
  · refine isProj_of_inner ⟨fun i r => le_max_right _ _, hsum⟩ fun W hW => ?_
    rw [inner, sum_comm]
    refine sum_nonpos fun r _ => ?_
    exact simplex_kkt (fun i => X i r) (h2 r) (fun i => W i r) (fun i => hW.1 i r) (hW.2 r)
  · exact (hdiff i r).trans (h3 r)

/-- C19: an exact root of the equation the code solves gives exactly the projection. -/
theorem C19_exact_root (X : Matrix (Fin m) (Fin n) ℝ) (μ : Fin n → ℝ)
    (hμ : ∀ r, simplexF (fun i => X i r) (μ r) = 0) :
    IsProj (SimplexSet m n) X (fun i r => clip (some 0) none (X i r - μ r)) := by
  refine isProj_of_inner ⟨fun i r => le_max_right _ _, fun r => ?_⟩ fun W hW => ?_
  · have := hμ r; rw [simplexF] at this; linarith
  · rw [inner, sum_comm]
    exact sum_nonpos fun r _ => simplex_kkt (fun i => X i r) (hμ r) (fun i => W i r) (fun i => hW.1 i r) (hW.2 r)

/-- C19, the bracket: the bracket contains a sign change, so the only exception a non-empty matrix can raise is the
RuntimeError of scipy's iteration limit; never its "must have different signs" ValueError. -/
theorem C19_bracket (hm : 0 < m) (X : Matrix (Fin m) (Fin n) ℝ) (e : PyErr) (h : simplexMat X = .error e) :
    e = .runtimeError := by
  obtain ⟨r, hr⟩ := simplexLoop_error X _ _ e h
  obtain ⟨lo, hi, h1, -⟩ := lagrange_eq (fun i => X i r) hm
  rw [h1] at hr
  have : ∀ (n : ℕ) (xa dm : ℝ) (f : ℝ → ℝ) (a b : ℝ) (c : Bool), bisectLoop f a b c n xa dm = .error e → e = .runtimeError := by
    intro n
    induction n with
    | zero => intro xa dm f a b c h; simp only [bisectLoop, Except.error.injEq] at h; exact h.symm
    | succ n ih =>
      intro xa dm f a b c h
      rw [bisectLoop] at h
      split at h
      · simp at h
      · exact ih _ _ _ _ _ _ h
  exact this _ _ _ _ _ _ _ hr

/-- C19, success. Partial: the full claim ("never fails for a non-empty matrix") is false for enormous entries, see
`C19_never_fails_false`; it holds whenever no entry exceeds `10^18` in absolute value. -/
theorem C19_never_fails_partial (hm : 0 < m) (X : Matrix (Fin m) (Fin n) ℝ) (hX : ∀ i r, |X i r| ≤ 10 ^ 18) :
    ∃ Z, simplexMat X = .ok Z := by
  refine simplexLoop_succeeds X _ _ fun r _ => ?_
  obtain ⟨lo, hi, h1, h2, -, -, h5⟩ := lagrange_eq (fun i => X i r) hm
  obtain ⟨e1, e2⟩ := h5 (10 ^ 18) fun i => hX i r
  rw [h1]
  refine bisectLoop_terminates (by positivity) _ 99 lo (hi - lo) (by linarith) ?_
  have e1 := abs_le.1 e1
  have e2 := abs_le.1 e2
  norm_num at e1 e2 ⊢
  linarith [e1.1, e2.2]

/-- The hypotheses hold for a matrix with mixed signs. -/
example : (0 < 2) ∧ ∀ i r, |(!![-3, 1/2; 7, 1/2] : Matrix (Fin 2) (Fin 2) ℝ) i r| ≤ 10 ^ 18 := by
  refine ⟨by norm_num, fun i r => ?_⟩
  fin_cases i <;> fin_cases r <;> simp <;> norm_num

/-- The column of the counterexample. -/
noncomputable def hugeCol : Fin 2 → ℝ := ![0, -10 ^ 31]

theorem hugeCol_F (μ : ℝ) : (μ = -1 → simplexF hugeCol μ = 0) ∧ (μ < -1 → 0 < simplexF hugeCol μ) ∧
    (-1 < μ → simplexF hugeCol μ < 0) := by
  have e : simplexF hugeCol μ = max (-μ) 0 + max (-10 ^ 31 - μ) 0 - 1 := by
    rw [simplexF_eq, Fin.sum_univ_two]
    simp [hugeCol]
  rw [e]
  refine ⟨?_, ?_, ?_⟩
  · rintro rfl
    rw [max_eq_left (by norm_num), max_eq_right (by norm_num)]; norm_num
  · intro h
    have h1 := le_max_left (-μ) 0
    have h2 := le_max_right (-10 ^ 31 - μ) 0
    linarith
  · intro h
    rw [max_eq_right (a := -10 ^ 31 - μ) (by norm_num; linarith)]
    rcases le_total (-μ) 0 with h' | h'
    · rw [max_eq_right h']; norm_num
    · rw [max_eq_left h']; linarith

/-- The midpoints never hit the root -1. -/
theorem hugeCol_miss (K J : ℕ) : (11 / 10 * (-10 ^ 31 - 1 - 1 / 10 ^ 5) : ℝ) + K *
    ((11 / 10 * (0 + 1 / 10 ^ 5) - 11 / 10 * (-10 ^ 31 - 1 - 1 / 10 ^ 5)) / 2 ^ J) ≠ -1 := by
  intro h
  have h1 : (K : ℝ) * (2 * (55 * 10 ^ 35 + 550011)) = 2 ^ J * (2 * (55 * 10 ^ 35 + 550011) - 1000011) := by
    have h2J : (2 : ℝ) ^ J ≠ 0 := by positivity
    field_simp at h
    linear_combination h
  have h2 : K * (2 * (55 * 10 ^ 35 + 550011)) + 2 ^ J * 1000011 = 2 ^ J * (2 * (55 * 10 ^ 35 + 550011)) := by
    have : ((K * (2 * (55 * 10 ^ 35 + 550011)) + 2 ^ J * 1000011 : ℕ) : ℝ)
        = ((2 ^ J * (2 * (55 * 10 ^ 35 + 550011)) : ℕ) : ℝ) := by
      push_cast; linarith
    exact_mod_cast this
  have h3 : (55 * 10 ^ 35 + 550011) ∣ 2 ^ J * 1000011 := by
    refine (Nat.dvd_add_right (a := 55 * 10 ^ 35 + 550011) (b := K * (2 * (55 * 10 ^ 35 + 550011))) ⟨K * 2, by ring⟩).1 ?_
    rw [h2]; exact ⟨2 ^ J * 2, by ring⟩
  have h4 : Nat.Coprime (55 * 10 ^ 35 + 550011) (2 ^ J) := by
    refine Nat.Coprime.pow_right _ ?_
    decide +kernel
  have h5 := Nat.le_of_dvd (by norm_num) (h4.dvd_of_dvd_mul_left h3)
  norm_num at h5

theorem simplexMat_huge : simplexMat (fun i _ => hugeCol i : Matrix (Fin 2) (Fin 1) ℝ) = .error .runtimeError := by
  have hlo : vecMin (List.ofFn hugeCol) = .ok (-10 ^ 31) := by
    have : List.ofFn hugeCol = [0, -10 ^ 31] := by simp [hugeCol]
    rw [this]; simp only [vecMin, List.foldl_cons, List.foldl_nil, Except.ok.injEq]
    exact min_eq_right (by norm_num)
  have hhi : vecMax (List.ofFn hugeCol) = .ok 0 := by
    have : List.ofFn hugeCol = [0, -10 ^ 31] := by simp [hugeCol]
    rw [this]; simp only [vecMax, List.foldl_cons, List.foldl_nil, Except.ok.injEq]
    exact max_eq_left (by norm_num)
  have hlag : lagrange hugeCol = .error .runtimeError := by
    simp only [lagrange, hlo, hhi, ok_bind]
    rw [min_eq_right (by norm_num), max_eq_right (by norm_num)]
    generalize hL : (11 / 10 * (-10 ^ 31 - 1 - 1 / 10 ^ 5) : ℝ) = lo
    generalize hH : (11 / 10 * (0 + 1 / 10 ^ 5) : ℝ) = hi
    have hlo1 : lo < -1 := by rw [← hL]; norm_num
    have hhi1 : -1 < hi := by rw [← hH]; norm_num
    have hW : 2 ^ 100 ≤ hi - lo := by rw [← hL, ← hH]; norm_num
    have hmiss : ∀ K J : ℕ, lo + K * ((hi - lo) / 2 ^ J) ≠ -1 := by
      intro K J; rw [← hL, ← hH]; exact hugeCol_miss K J
    rw [bisect_eq ((hugeCol_F lo).2.1 hlo1) ((hugeCol_F hi).2.2 hhi1)]
    refine bisectLoop_fails (fun n xa dm => ∃ j k : ℕ, n + j = 100 ∧ dm = (hi - lo) / 2 ^ j ∧
      xa = lo + k * ((hi - lo) / 2 ^ j) ∧ xa ≤ -1 ∧ -1 ≤ xa + dm) ?_ 100 lo (hi - lo)
      ⟨0, 0, rfl, by simp, by simp, hlo1.le, by linarith⟩
    rintro n xa dm ⟨j, k, hnj, hdm, hxa, h1, h2⟩
    set d := dm * (1 / 2) with hd
    have hdm2 : dm = d + d := by rw [hd]; ring
    have hdj : d = (hi - lo) / 2 ^ (j + 1) := by rw [hd, hdm, pow_succ]; field_simp
    have hxm : xa + d = lo + ((2 * k + 1 : ℕ) : ℝ) * ((hi - lo) / 2 ^ (j + 1)) := by
      rw [hdj, hxa]; push_cast
      rw [pow_succ]; field_simp; ring
    have hne : xa + d ≠ -1 := by rw [hxm]; exact hmiss _ _
    have hd1 : 1 ≤ d := by
      rw [hdj, le_div_iff₀ (by positivity), one_mul]
      exact le_trans (pow_le_pow_right₀ (by norm_num) (by omega)) hW
    have hxabs : |xa + d| ≤ 1 + d := by rw [abs_le]; constructor <;> linarith
    refine ⟨?_, ?_, ?_⟩
    · rcases lt_or_gt_of_ne hne with h | h
      · exact ((hugeCol_F _).2.1 h).ne'
      · exact ((hugeCol_F _).2.2 h).ne
    · rw [abs_of_nonneg (by linarith : 0 ≤ d)]
      norm_num at *
      linarith
    · refine ⟨j + 1, if xa + d < -1 then 2 * k + 1 else 2 * k, by omega, hdj, ?_, ?_, ?_⟩
      · rcases lt_or_gt_of_ne hne with h | h
        · rw [if_pos (by simp [((hugeCol_F _).2.1 h).le]), if_pos h, hxm]
        · rw [if_neg (by simp [((hugeCol_F _).2.2 h)]), if_neg (not_lt.2 h.le), hxa]
          push_cast; rw [pow_succ]; field_simp
      · rcases lt_or_gt_of_ne hne with h | h
        · rw [if_pos (by simp [((hugeCol_F _).2.1 h).le])]; exact h.le
        · rw [if_neg (by simp [((hugeCol_F _).2.2 h)])]; exact h1
      · rcases lt_or_gt_of_ne hne with h | h
        · rw [if_pos (by simp [((hugeCol_F _).2.1 h).le])]; linarith
        · rw [if_neg (by simp [((hugeCol_F _).2.2 h)])]; exact h.le
  simp only [simplexMat, List.finRange_succ, List.finRange_zero, List.map_nil, simplexLoop]
  rw [hlag]
  rfl

/-- C19: the claim that the update never fails is false: for the column (0, -10^31) scipy's bisection does not converge within its
100 iterations and raises RuntimeError. -/
theorem C19_never_fails_false : ∃ X : Matrix (Fin 2) (Fin 1) ℝ, simplexMat X = .error .runtimeError := ⟨_, simplexMat_huge⟩

/-- C19: a matrix with no rows (and at least one column) raises ValueError (`tl.min` of an empty array). -/
theorem C19_no_rows (X : Matrix (Fin 0) (Fin (n + 1)) ℝ) : simplexMat X = .error .valueError := by
  simp only [simplexMat, List.finRange_succ, simplexLoop, lagrange, List.ofFn_zero, vecMin, error_bind]

end Verif.Props
