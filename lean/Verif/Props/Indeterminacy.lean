import Mathlib.LinearAlgebra.Matrix.NonsingularInverse
import Verif.Props.InitRefine
import Verif.Props.Parafac2Short

/-!
# C112: which factorizations represent the same data

The statements of `docs/coupled_matrix_factorization.rst` lines 25-85 on scales, signs and uniqueness, for the matrices that
`CoupledMatrixFactorization.to_matrices` returns.
-/

set_option linter.unusedSectionVars false

namespace Verif.Props

open Verif.CMF Verif.Spec Verif.Loop Finset

variable {I K R : ℕ} {J : Fin I → ℕ}

/-! ### The represented data -/

/-- C112, the represented data: the matrices of an accepted factorization without weights are those of the formula. -/
theorem C112_data {x : CMFArg ℝ} {c : Fact ℝ} (h : construct x = .ok c) {F : Factors I K R J} (hF : SameFact c ⟨none, F⟩) :
    ∃ ms, toMatrices c = .ok ms ∧ SameList ms F.recon := by
  obtain ⟨ms, h1, -, h3, h4⟩ := C06_matrices h
  refine ⟨ms, h1, h3.trans hF.B.1, fun i => ?_⟩
  obtain ⟨B, hB, hS⟩ := hF.B.2 i
  obtain ⟨M, hM, hm⟩ := h4 i B hB
  refine ⟨M, hM, by rw [hm.1, hS.rows, hF.C.rows], fun j k => ?_⟩
  rw [hm.2 j (by rw [hS.rows]; exact j.2) k (by rw [hF.C.rows]; exact k.2)]
  have hw : c.weights = none := by
    have := hF.weights
    rcases hc : c.weights with _ | w
    · rfl
    · rw [hc] at this; exact this.elim
  have hR : c.rank = R := by
    have := ((C07_accepts_iff x c).1 h).1.A_shape
    rw [hF.A.1] at this
    simp only [List.cons.injEq, and_true] at this
    exact this.2.symm
  simp only [reprEntry, hw, weightAt, hR, one_mul, Factors.recon, Matrix.of_apply, Factors.entry]
  rw [← Fin.sum_univ_eq_sum_range fun r => c.A.get [i.val, r] * B.get [j.val, r] * c.C.get [k.val, r]]
  exact sum_congr rfl fun r _ => by rw [hF.A.2 i r, hS.2 j r, hF.C.2 k r]

/-! ### Scales -/

/-- Column `r` of `B i` multiplied and entry `r` of row `i` of `A` divided by `s i r`. -/
noncomputable def scaleBy (s : Fin I → Fin R → ℝ) (F : Factors I K R J) : Factors I K R J :=
  ⟨.of fun i r => F.A i r / s i r, fun i => .of fun j r => F.B i j r * s i r, F.C⟩

/-- C112, scales: any column of any B matrix may be scaled if the entry of A is scaled inversely. -/
theorem C112_scale {s : Fin I → Fin R → ℝ} (hs : ∀ i r, s i r ≠ 0) (F : Factors I K R J) : (scaleBy s F).recon = F.recon := by
  funext i
  ext j k
  simp only [Factors.recon, Matrix.of_apply, Factors.entry]
  refine sum_congr rfl fun r _ => ?_
  have := hs i r
  simp only [scaleBy, Matrix.of_apply]
  field_simp

/-- C112, nothing else: with the same C, whose columns are linearly independent, and no zero in A, there are no other factorizations of the same data. -/
theorem C112_only {F F' : Factors I K R J} (hC : F'.C = F.C) (hli : LinearIndependent ℝ F.C.transpose) (hA : ∀ i r, F.A i r ≠ 0) (hA' : ∀ i r, F'.A i r ≠ 0)
    (h : F'.recon = F.recon) : ∃ s : Fin I → Fin R → ℝ, (∀ i r, s i r ≠ 0) ∧ F' = scaleBy s F := by
  have e : ∀ i j r, F'.A i r * F'.B i j r = F.A i r * F.B i j r := by
    intro i j
    have h0 : ∑ r, (F'.A i r * F'.B i j r - F.A i r * F.B i j r) • F.C.transpose r = 0 := by
      funext k
      have := congrFun (congrFun (congrFun h i) j) k
      simp only [Factors.recon, Matrix.of_apply, Factors.entry, hC] at this
      simp only [Finset.sum_apply, Pi.smul_apply, Matrix.transpose_apply, smul_eq_mul, sub_mul, sum_sub_distrib, this, Pi.zero_apply, sub_self]
    exact fun r => sub_eq_zero.1 (Fintype.linearIndependent_iff.1 hli _ h0 r)
  refine ⟨fun i r => F.A i r / F'.A i r, fun i r => div_ne_zero (hA i r) (hA' i r), ?_⟩
  obtain ⟨A', B', C'⟩ := F'
  obtain rfl : C' = F.C := hC
  simp only [scaleBy, Factors.mk.injEq, and_true]
  constructor
  · ext i r
    have := hA i r; have := hA' i r
    simp only [Matrix.of_apply]
    field_simp
  · funext i
    ext j r
    have h1 := hA' i r
    have := e i j r
    simp only [Matrix.of_apply] at this ⊢
    field_simp
    linarith

/-- C112, fixed A: if A is the same and has no zeros, nothing is scaled. -/
theorem C112_fixed {s : Fin I → Fin R → ℝ} {F : Factors I K R J} (hA : ∀ i r, F.A i r ≠ 0) (h : (scaleBy s F).A = F.A) : scaleBy s F = F := by
  have hs : ∀ i r, s i r = 1 := fun i r => by
    have := congrFun (congrFun h i) r
    simp only [scaleBy, Matrix.of_apply] at this
    by_cases h0 : s i r = 0
    · rw [h0, div_zero] at this; exact absurd this.symm (hA i r)
    · rw [div_eq_iff h0] at this
      exact (mul_left_cancel₀ (hA i r) (by rw [mul_one]; exact this)).symm
  simp only [scaleBy, hs, div_one, mul_one]
  rfl

/-! ### The PARAFAC2 constraint -/

/-- Inner product of two columns. -/
def colDot {n : ℕ} (B : Matrix (Fin n) (Fin R) ℝ) (r q : Fin R) : ℝ := ∑ j, B j r * B j q

theorem constantCross_iff {B : (i : Fin I) → Matrix (Fin (J i)) (Fin R) ℝ} : ConstantCross B ↔ ∀ i i' r q, colDot (B i) r q = colDot (B i') r q := by
  refine forall₂_congr fun i i' => ?_
  rw [← Matrix.ext_iff]
  exact Iff.rfl

theorem colDot_scale (s : Fin I → Fin R → ℝ) (F : Factors I K R J) (i : Fin I) (r q : Fin R) :
    colDot ((scaleBy s F).B i) r q = s i r * s i q * colDot (F.B i) r q := by
  simp only [colDot, scaleBy, Matrix.of_apply, mul_sum]
  exact sum_congr rfl fun _ _ => by ring

/-- C112, PARAFAC2: the scaled matrices satisfy the PARAFAC2 constraint exactly if for all non-orthogonal columns the products of the scales agree. -/
theorem C112_parafac2 (s : Fin I → Fin R → ℝ) {F : Factors I K R J} (h : ConstantCross F.B) :
    ConstantCross (scaleBy s F).B ↔ ∀ i i' r q, colDot (F.B i) r q ≠ 0 → s i r * s i q = s i' r * s i' q := by
  rw [constantCross_iff] at h ⊢
  refine forall₂_congr fun i i' => forall₂_congr fun r q => ?_
  rw [colDot_scale, colDot_scale, ← h i i' r q]
  by_cases h0 : colDot (F.B i) r q = 0
  · simp [h0]
  · simp [h0]

/-- C112, PARAFAC2 takes care of the scales: those of a column that is not zero have the same absolute value in all matrices. -/
theorem C112_magnitude {s : Fin I → Fin R → ℝ} {F : Factors I K R J} (h : ConstantCross F.B) (h' : ConstantCross (scaleBy s F).B) (i i' : Fin I) (r : Fin R)
    (hr : ∃ j, F.B i j r ≠ 0) : |s i r| = |s i' r| := by
  rw [← sq_eq_sq_iff_abs_eq_abs, pow_two, pow_two]
  refine (C112_parafac2 s h).1 h' i i' r r ?_
  obtain ⟨j, hj⟩ := hr
  exact (sum_pos' (f := fun j => F.B i j r * F.B i j r) (fun _ _ => mul_self_nonneg _) ⟨j, mem_univ _, mul_self_pos.2 hj⟩).ne'

/-- Signs `e` in matrix `i₀` and none elsewhere. -/
def flipIn (i₀ : Fin I) (e : Fin R → ℝ) (i : Fin I) (r : Fin R) : ℝ := if i = i₀ then e r else 1

/-- C112, signs: with at least two matrices, signs of columns in one matrix can be flipped under the PARAFAC2 constraint exactly if non-orthogonal columns are flipped together.
So all columns that are linked to a flipped one by a chain of non-orthogonal columns have to be flipped. -/
theorem C112_flip_partial {i₀ i₁ : Fin I} (hi : i₁ ≠ i₀) {e : Fin R → ℝ} (he : ∀ r, e r = 1 ∨ e r = -1) {F : Factors I K R J} (h : ConstantCross F.B) :
    ConstantCross (scaleBy (flipIn i₀ e) F).B ↔ ∀ r q, colDot (F.B i₀) r q ≠ 0 → e r = e q := by
  rw [C112_parafac2 _ h]
  have hc := constantCross_iff.1 h
  have key : ∀ r q, e r * e q = 1 ↔ e r = e q := fun r q => by
    rcases he r with h1 | h1 <;> rcases he q with h2 | h2 <;> rw [h1, h2] <;> norm_num
  constructor
  · intro H r q hrq
    have := H i₀ i₁ r q hrq
    simp only [flipIn, if_true, if_neg hi, mul_one] at this
    exact (key r q).1 this
  · intro H i i' r q hrq
    rw [hc i i₀ r q] at hrq
    have := (key r q).2 (H r q hrq)
    simp only [flipIn]
    split <;> split <;> simp [this]

/-- The columns (1, 0), (1, 1), (0, 1), in two matrices. -/
def chain : Factors 2 1 3 (fun _ => 2) := ⟨.of fun _ _ => 1, fun _ => !![1, 1, 0; 0, 1, 1], !![1, 2, 3]⟩

/-- C112, the documented condition for signs is not enough: the first column and the only column that is not orthogonal to it are flipped in the first matrix, which violates
the PARAFAC2 constraint because the second column is not orthogonal to the third. -/
theorem C112_flip_false : ConstantCross chain.B ∧ (∀ q, colDot (chain.B 0) 0 q ≠ 0 ↔ (![-1, -1, 1] : Fin 3 → ℝ) q = -1) ∧
    ¬ ConstantCross (scaleBy (flipIn 0 ![-1, -1, 1]) chain).B := by
  refine ⟨fun i j => rfl, fun q => ?_, fun h => ?_⟩
  · fin_cases q <;> norm_num [colDot, chain, Fin.sum_univ_two]
  · have := (C112_flip_partial (i₁ := 1) (by decide) (fun r => by fin_cases r <;> simp) (fun i j => rfl)).1 h 1 2 (by simp [colDot, chain, Fin.sum_univ_two])
    simp at this
    norm_num at this

/-- C112, positive A: two PARAFAC2 factorizations of the same data with the same C, whose columns are linearly independent, positive A and no zero columns in the B matrices differ
only by one positive factor for each component. -/
theorem C112_unique_partial {F F' : Factors I K R J} (hC : F'.C = F.C) (hli : LinearIndependent ℝ F.C.transpose) (hA : ∀ i r, 0 < F.A i r) (hA' : ∀ i r, 0 < F'.A i r)
    (hB : ∀ i r, ∃ j, F.B i j r ≠ 0) (hP : ConstantCross F.B) (hP' : ConstantCross F'.B) (h : F'.recon = F.recon) :
    ∃ t : Fin R → ℝ, (∀ r, 0 < t r) ∧ F' = scaleBy (fun _ => t) F := by
  obtain ⟨s, hs, rfl⟩ := C112_only hC hli (fun i r => (hA i r).ne') (fun i r => (hA' i r).ne') h
  have pos : ∀ i r, 0 < s i r := fun i r => by
    have := hA' i r
    simp only [scaleBy, Matrix.of_apply] at this
    exact (div_pos_iff_of_pos_left (hA i r)).1 this
  rcases Nat.eq_zero_or_pos I with rfl | hI
  · refine ⟨fun _ => 1, fun _ => one_pos, ?_⟩
    congr 1
    funext i
    exact i.elim0
  · refine ⟨s ⟨0, hI⟩, pos _, ?_⟩
    congr 1
    funext i r
    have := C112_magnitude hP hP' i ⟨0, hI⟩ r (hB i r)
    rwa [abs_of_pos (pos _ _), abs_of_pos (pos _ _)] at this

/-- Two matrices of two components: the identity and an exchange of the rows as B matrices, and A with different entries. -/
def twoComp : Factors 2 2 2 (fun _ => 2) := ⟨!![1, 2; 3, 4], ![!![1, 0; 0, 1], !![0, 1; 1, 0]], 1⟩

/-- The hypotheses of the last theorem hold for this factorization and the one with components scaled by 2 and 3. -/
example : LinearIndependent ℝ twoComp.C.transpose ∧ (∀ i r, 0 < twoComp.A i r) ∧ (∀ i r, 0 < (scaleBy (fun _ => ![2, 3]) twoComp).A i r) ∧ (∀ i r, ∃ j, twoComp.B i j r ≠ 0) ∧
    ConstantCross twoComp.B ∧ ConstantCross (scaleBy (fun _ => ![2, 3]) twoComp).B ∧ (scaleBy (fun _ => ![2, 3]) twoComp).recon = twoComp.recon := by
  have hc : ConstantCross twoComp.B := by
    rw [constantCross_iff]; intro i i' r q
    fin_cases i <;> fin_cases i' <;> fin_cases r <;> fin_cases q <;> norm_num [colDot, twoComp, Fin.sum_univ_two]
  refine ⟨?_, ?_, ?_, ?_, hc, (C112_parafac2 _ hc).2 fun _ _ _ _ _ => rfl, C112_scale (fun _ r => by fin_cases r <;> simp) _⟩
  · refine Fintype.linearIndependent_iff.2 fun g h r => ?_
    have := congrFun h r
    simpa [twoComp, Matrix.one_apply] using this
  · intro i r
    fin_cases i <;> fin_cases r <;> norm_num [twoComp]
  · intro i r
    fin_cases i <;> fin_cases r <;> norm_num [twoComp, scaleBy]
  · intro i r
    fin_cases i <;> fin_cases r
    · exact ⟨0, by simp [twoComp]⟩
    · exact ⟨1, by simp [twoComp]⟩
    · exact ⟨1, by simp [twoComp]⟩
    · exact ⟨0, by simp [twoComp]⟩

/-- Two matrices with one component that is absent in the second one. -/
def absent (t : ℝ) : Factors 2 1 1 (fun _ => 1) := ⟨!![1; 0], ![!![1], !![t]], !![1]⟩

/-- C112, non-negative A is not enough: if a component is absent in a matrix, the sign of its column in that matrix is free. -/
theorem C112_nonneg_false : (absent (-1)).recon = (absent 1).recon ∧ ConstantCross (absent (-1)).B ∧ ConstantCross (absent 1).B ∧ (∀ i r, 0 ≤ (absent 1).A i r) ∧
    (absent (-1)).A = (absent 1).A ∧ (absent (-1)).C = (absent 1).C ∧ (absent (-1)).B 0 = (absent 1).B 0 ∧ (absent (-1)).B 1 ≠ (absent 1).B 1 := by
  refine ⟨?_, ?_, ?_, ?_, rfl, rfl, rfl, ?_⟩
  · funext i; ext j k
    fin_cases i <;> simp [Factors.recon, Factors.entry, absent]
  · rw [constantCross_iff]; intro i i' r q
    fin_cases i <;> fin_cases i' <;> fin_cases r <;> fin_cases q <;> norm_num [colDot, absent]
  · rw [constantCross_iff]; intro i i' r q
    fin_cases i <;> fin_cases i' <;> fin_cases r <;> fin_cases q <;> norm_num [colDot, absent]
  · intro i r
    fin_cases i <;> fin_cases r <;> simp [absent]
  · intro h
    have := congrFun (congrFun h 0) 0
    norm_num [absent] at this

/-! ### No constraints -/

/-- C112, mixing: for every invertible matrix T there is a factorization of the same data with C T in place of C. -/
theorem C112_mix (F : Factors I K R J) (T : Matrix (Fin R) (Fin R) ℝ) (hT : IsUnit T.det) : ∃ F' : Factors I K R J, F'.C = F.C * T ∧ F'.recon = F.recon := by
  refine ⟨⟨.of fun _ _ => 1, fun i => (Matrix.of fun j r => F.A i r * F.B i j r) * (T⁻¹).transpose, F.C * T⟩, rfl, ?_⟩
  funext i
  have e : ∀ G : Factors I K R J, G.recon i = (Matrix.of fun j r => G.A i r * G.B i j r) * G.C.transpose := fun G => rfl
  rw [e, e]
  have e1 : (Matrix.of fun j r => (Matrix.of fun (_ : Fin I) (_ : Fin R) => (1 : ℝ)) i r * ((Matrix.of fun j r => F.A i r * F.B i j r) * (T⁻¹).transpose) j r) =
      (Matrix.of fun j r => F.A i r * F.B i j r) * (T⁻¹).transpose := by
    ext j r
    rw [Matrix.of_apply, Matrix.of_apply, one_mul]
  simp only [e1]
  rw [Matrix.transpose_mul, Matrix.mul_assoc, ← Matrix.mul_assoc (T⁻¹).transpose, ← Matrix.transpose_mul, Matrix.mul_nonsing_inv _ hT, Matrix.transpose_one, Matrix.one_mul]

/-- C112, not unique without constraints: with two components and linearly independent columns of C there is a factorization of the same data with a column of C that is no
multiple of any of the columns. -/
theorem C112_not_unique (F : Factors I K R J) (hR : 2 ≤ R) (hli : LinearIndependent ℝ F.C.transpose) :
    ∃ F' : Factors I K R J, F'.recon = F.recon ∧ ∃ q, ∀ r (t : ℝ), (fun k => F'.C k q) ≠ fun k => t * F.C k r := by
  obtain ⟨a, b, hab⟩ : ∃ a b : Fin R, a ≠ b := ⟨⟨0, by omega⟩, ⟨1, by omega⟩, by simp⟩
  obtain ⟨F', hC, hF⟩ := C112_mix F (Matrix.transvection a b 1) (by rw [Matrix.det_transvection_of_ne _ _ hab]; exact isUnit_one)
  refine ⟨F', hF, b, fun r t h => ?_⟩
  have h0 : ∑ q, ((if q = b then 1 else 0) + (if q = a then 1 else 0) - (if q = r then t else 0) : ℝ) • F.C.transpose q = 0 := by
    funext k
    have h1 := congrFun h k
    rw [hC] at h1
    simp only [Matrix.transvection, Matrix.mul_add, Matrix.mul_one, Matrix.add_apply, Matrix.mul_single_apply_same, mul_one] at h1
    simp only [Finset.sum_apply, Pi.smul_apply, Matrix.transpose_apply, smul_eq_mul, sub_mul, add_mul, sum_add_distrib, sum_sub_distrib, ite_mul, one_mul, zero_mul,
      sum_ite_eq', mem_univ, if_true, Pi.zero_apply, sub_eq_zero]
    exact h1
  have := Fintype.linearIndependent_iff.1 hli _ h0
  have ha := this a
  have hb := this b
  simp only [if_true, hab, hab.symm, if_false, zero_add, add_zero] at ha hb
  by_cases hr : a = r
  · subst hr
    rw [if_neg hab.symm] at hb
    norm_num at hb
  · rw [if_neg hr] at ha
    norm_num at ha

end Verif.Props
