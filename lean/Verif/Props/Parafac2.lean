import Verif.Penalties.GenL2

/-!
# C23, C24: the PARAFAC2 constraint
-/

namespace Verif.Props

open Verif.Penalties Verif.Spec Finset

variable {I R : ℕ} {J : Fin I → ℕ}

/-- Orthonormal columns. -/
def Orthonormal {m n : ℕ} (P : Matrix (Fin m) (Fin n) ℝ) : Prop := P.transpose * P = 1

/-- The weighted squared distance between the matrices and `P_i Δ`. -/
noncomputable def p2Cost (X : (i : Fin I) → Matrix (Fin (J i)) (Fin R) ℝ) (ρ : Fin I → ℝ)
    (P : (i : Fin I) → Matrix (Fin (J i)) (Fin R) ℝ) (D : Matrix (Fin R) (Fin R) ℝ) : ℝ :=
  ∑ i, ρ i * frobSq (X i) (P i * D)

/-- Contract of the SVD function: correct on every matrix. -/
def SVDFun (svd : (i : Fin I) → Matrix (Fin (J i)) (Fin R) ℝ → SVD (J i) R R) : Prop := ∀ i M, (svd i M).Valid M

theorem bases_orthonormal {svd : (i : Fin I) → Matrix (Fin (J i)) (Fin R) ℝ → SVD (J i) R R} (hsvd : SVDFun svd)
    (X : (i : Fin I) → Matrix (Fin (J i)) (Fin R) ℝ) (D : Matrix (Fin R) (Fin R) ℝ) (i : Fin I) :
    Orthonormal (p2Bases svd X D i) := by
  have hd := hsvd i (X i * D.transpose)
  have h2 := mul_eq_one_comm.1 hd.right
  unfold Orthonormal p2Bases
  simp only
  rw [Matrix.transpose_mul, Matrix.mul_assoc, ← Matrix.mul_assoc _ _ (svd i (X i * D.transpose)).Vh, hd.left, Matrix.one_mul,
    h2]

/-- The bases stay orthonormal over the iterations. -/
theorem update_orthonormal {svd : (i : Fin I) → Matrix (Fin (J i)) (Fin R) ℝ → SVD (J i) R R} (hsvd : SVDFun svd)
    (updB updC : Bool) (X : (i : Fin I) → Matrix (Fin (J i)) (Fin R) ℝ) (ρ : Fin I → ℝ) (n : ℕ) (aux : P2Aux I J R)
    (h : (updB = true ∧ 0 < n) ∨ ∀ i, Orthonormal (aux.bases i)) (i : Fin I) :
    Orthonormal ((p2Update svd updB updC X ρ n aux).bases i) := by
  induction n generalizing aux with
  | zero => exact (h.resolve_left (by simp)) i
  | succ n ih =>
    have hP : ∀ i, Orthonormal ((if updB then p2Bases svd X aux.coord else aux.bases) i) := by
      intro i
      cases updB
      · simpa using (h.resolve_left (by simp)) i
      · simpa using bases_orthonormal hsvd X aux.coord i
    rw [p2Update]
    split
    · exact hP i
    · exact ih _ (.inr hP)

/-- C23: after an update with at least one iteration that updates the basis matrices (or if they were orthonormal already), every
basis matrix has orthonormal columns, and all auxiliary matrices have the same cross product. `SVDFun` requires the thin SVD with `R`
orthonormal left singular vectors, which forces every matrix to have at least `R` rows. -/
theorem C23_constraint (svd : (i : Fin I) → Matrix (Fin (J i)) (Fin R) ℝ → SVD (J i) R R) (hsvd : SVDFun svd)
    (updB updC : Bool) (X : (i : Fin I) → Matrix (Fin (J i)) (Fin R) ℝ) (ρ : Fin I → ℝ) (n : ℕ) (aux : P2Aux I J R)
    (h : (updB = true ∧ 0 < n) ∨ ∀ i, Orthonormal (aux.bases i)) :
    (∀ i, Orthonormal ((p2Update svd updB updC X ρ n aux).bases i)) ∧
    ∀ i j, (p2Matrices (p2Update svd updB updC X ρ n aux) i).transpose * p2Matrices (p2Update svd updB updC X ρ n aux) i
      = (p2Matrices (p2Update svd updB updC X ρ n aux) j).transpose * p2Matrices (p2Update svd updB updC X ρ n aux) j := by
  have ho := update_orthonormal hsvd updB updC X ρ n aux h
  set a := p2Update svd updB updC X ρ n aux
  have e : ∀ i, (p2Matrices a i).transpose * p2Matrices a i = a.coord.transpose * a.coord := by
    intro i
    have := ho i
    unfold Orthonormal at this
    rw [p2Matrices, Matrix.transpose_mul, Matrix.mul_assoc, ← Matrix.mul_assoc _ _ a.coord, this, Matrix.one_mul]
  exact ⟨ho, fun i j => by rw [e i, e j]⟩

theorem orthonormal_diag {m n : ℕ} {U Q : Matrix (Fin m) (Fin n) ℝ} (hU : Orthonormal U) (hQ : Orthonormal Q) (k : Fin n) :
    (U.transpose * Q) k k ≤ 1 := by
  have h1 := congrFun (congrFun hU k) k
  have h2 := congrFun (congrFun hQ k) k
  rw [Matrix.mul_apply, Matrix.one_apply_eq] at h1 h2
  rw [Matrix.mul_apply]
  simp only [Matrix.transpose_apply] at *
  have : ∑ i, 2 * (U i k * Q i k) ≤ ∑ i, (U i k * U i k + Q i k * Q i k) :=
    sum_le_sum fun i _ => by nlinarith [sq_nonneg (U i k - Q i k)]
  rw [← mul_sum, sum_add_distrib, h1, h2] at this
  linarith

theorem frobSq_orthonormal {m n k : ℕ} (X : Matrix (Fin m) (Fin k) ℝ) {P : Matrix (Fin m) (Fin n) ℝ} (hP : Orthonormal P)
    (D : Matrix (Fin n) (Fin k) ℝ) :
    frobSq X (P * D) = sqNorm X - 2 * inner X (P * D) + sqNorm D := by
  have h : sqNorm (P * D) = sqNorm D := by
    unfold Orthonormal at hP
    rw [← inner_self, inner_mul_left, ← Matrix.mul_assoc, hP, Matrix.one_mul, inner_self]
  rw [frobSq_eq, ← inner_self, inner_sub_left, inner_sub_right, inner_sub_right, inner_self, inner_self, h,
    inner_comm (P * D) X]
  ring

/-- Inner product with a matrix given by its SVD. -/
theorem inner_svd {m k n : ℕ} {M : Matrix (Fin m) (Fin n) ℝ} {d : SVD m k n} (hd : d.Valid M) (P : Matrix (Fin m) (Fin n) ℝ) :
    inner M P = ∑ l, d.s l * (d.U.transpose * (P * d.Vh.transpose)) l l := by
  rw [← hd.eq, inner_mul_right, inner_mul_left, inner]
  refine sum_congr rfl fun l _ => ?_
  rw [sum_eq_single l, Matrix.diagonal_apply_eq]
  · intro b _ hb
    rw [Matrix.diagonal_apply_ne _ (Ne.symm hb), zero_mul]
  · intro h; exact absurd (mem_univ l) h

/-- C24, basis matrices: for the given coordinate matrix each updated basis matrix is nearest among all matrices with orthonormal
columns (orthogonal Procrustes problem). -/
theorem C24_procrustes (svd : (i : Fin I) → Matrix (Fin (J i)) (Fin R) ℝ → SVD (J i) R R) (hsvd : SVDFun svd)
    (X : (i : Fin I) → Matrix (Fin (J i)) (Fin R) ℝ) (D : Matrix (Fin R) (Fin R) ℝ) (i : Fin I)
    (Q : Matrix (Fin (J i)) (Fin R) ℝ) (hQ : Orthonormal Q) :
    frobSq (X i) (p2Bases svd X D i * D) ≤ frobSq (X i) (Q * D) := by
  have hd := hsvd i (X i * D.transpose)
  have hP := bases_orthonormal hsvd X D i
  rw [frobSq_orthonormal _ hP, frobSq_orthonormal _ hQ]
  have e : ∀ W : Matrix (Fin (J i)) (Fin R) ℝ, inner (X i) (W * D) = inner (X i * D.transpose) W := by
    intro W; rw [inner_comm, inner_mul_right, inner_comm]
  have key : inner (X i) (Q * D) ≤ inner (X i) (p2Bases svd X D i * D) := by
    rw [e, e, inner_svd hd, inner_svd hd]
    refine sum_le_sum fun l _ => mul_le_mul_of_nonneg_left ?_ (hd.nonneg l)
    have h1 : (svd i (X i * D.transpose)).U.transpose * (p2Bases svd X D i * (svd i (X i * D.transpose)).Vh.transpose) = 1 := by
      unfold p2Bases
      simp only
      rw [Matrix.mul_assoc (svd i (X i * D.transpose)).U, hd.right, Matrix.mul_one, hd.left]
    rw [h1, Matrix.one_apply_eq]
    refine orthonormal_diag hd.left ?_ l
    unfold Orthonormal at hQ ⊢
    rw [Matrix.transpose_mul, Matrix.transpose_transpose, Matrix.mul_assoc, ← Matrix.mul_assoc Q.transpose, hQ, Matrix.one_mul,
      hd.right]
  linarith

/-- C24, coordinate matrix: for given orthonormal bases the updated coordinate matrix is the unique minimiser of the weighted
distance. -/
theorem C24_coordinate (hI : 0 < I) (X : (i : Fin I) → Matrix (Fin (J i)) (Fin R) ℝ) (ρ : Fin I → ℝ) (hρ : ∀ i, 0 < ρ i)
    (P : (i : Fin I) → Matrix (Fin (J i)) (Fin R) ℝ) (hP : ∀ i, Orthonormal (P i)) (D : Matrix (Fin R) (Fin R) ℝ)
    (hne : D ≠ p2Coord X ρ P) : p2Cost X ρ P (p2Coord X ρ P) < p2Cost X ρ P D := by
  have hS : 0 < ∑ i, ρ i := sum_pos (fun i _ => hρ i) ⟨⟨0, hI⟩, mem_univ _⟩
  have e : ∀ E, p2Cost X ρ P E = ∑ i, ρ i * sqNorm (X i) + (∑ i, ρ i) * (frobSq E (p2Coord X ρ P) - sqNorm (p2Coord X ρ P)) := by
    intro E
    have h1 : p2Cost X ρ P E = ∑ i, ρ i * sqNorm (X i) - 2 * inner (∑ i, (ρ i • (P i).transpose) * X i) E + (∑ i, ρ i) * sqNorm E := by
      have h3 : inner (∑ i, (ρ i • (P i).transpose) * X i) E = ∑ i, ρ i * inner (X i) (P i * E) := by
        have h4 : ∀ s : Finset (Fin I), inner (∑ i ∈ s, (ρ i • (P i).transpose) * X i) E
            = ∑ i ∈ s, ρ i * inner (X i) (P i * E) := by
          intro s
          induction s using Finset.induction_on with
          | empty => simp [inner]
          | insert a s ha ih =>
            rw [sum_insert ha, sum_insert ha, inner_add_left, ih, Matrix.smul_mul, inner_smul_left, inner_mul_left,
              Matrix.transpose_transpose]
        exact h4 univ
      rw [h3, p2Cost, mul_sum, sum_mul, ← sum_sub_distrib, ← sum_add_distrib]
      refine sum_congr rfl fun i _ => ?_
      rw [frobSq_orthonormal _ (hP i)]; ring
    have h2 : ∑ i, (ρ i • (P i).transpose) * X i = (∑ i, ρ i) • p2Coord X ρ P := by
      rw [p2Coord, smul_smul, mul_one_div_cancel hS.ne', one_smul]
    rw [h1, h2, inner_smul_left, frobSq_eq, ← inner_self (E - _), inner_sub_left, inner_sub_right, inner_sub_right, inner_self,
      inner_self, inner_comm E]
    ring
  rw [e, e, frobSq_eq_zero.2 rfl]
  have := mul_pos hS (frobSq_pos hne)
  linarith

/-- One more iteration never increases the distance. -/
theorem step_descent {svd : (i : Fin I) → Matrix (Fin (J i)) (Fin R) ℝ → SVD (J i) R R} (hsvd : SVDFun svd)
    (hI : 0 < I) (updB updC : Bool) (X : (i : Fin I) → Matrix (Fin (J i)) (Fin R) ℝ) (ρ : Fin I → ℝ) (hρ : ∀ i, 0 < ρ i)
    (aux : P2Aux I J R) (h : ∀ i, Orthonormal (aux.bases i)) :
    let P := if updB then p2Bases svd X aux.coord else aux.bases
    let D := if updC then p2Coord X ρ P else aux.coord
    (∀ i, Orthonormal (P i)) ∧ p2Cost X ρ P D ≤ p2Cost X ρ aux.bases aux.coord := by
  have hP : ∀ i, Orthonormal ((if updB then p2Bases svd X aux.coord else aux.bases) i) := by
    intro i
    cases updB
    · simpa using h i
    · simpa using bases_orthonormal hsvd X aux.coord i
  refine ⟨hP, ?_⟩
  have h1 : p2Cost X ρ (if updB then p2Bases svd X aux.coord else aux.bases) aux.coord ≤ p2Cost X ρ aux.bases aux.coord := by
    cases updB
    · simp
    · simp only [if_true]
      exact sum_le_sum fun i _ => mul_le_mul_of_nonneg_left (C24_procrustes svd hsvd X aux.coord i _ (h i)) (hρ i).le
  refine le_trans ?_ h1
  cases updC
  · simp
  · simp only [if_true]
    by_cases hne : aux.coord = p2Coord X ρ (if updB then p2Bases svd X aux.coord else aux.bases)
    · rw [← hne]
    · exact (C24_coordinate hI X ρ hρ _ hP _ hne).le

/-- C24: more iterations never give a larger weighted distance; in particular no update moves further away than its starting point
(`n = 0`). -/
theorem C24_descent (svd : (i : Fin I) → Matrix (Fin (J i)) (Fin R) ℝ → SVD (J i) R R) (hsvd : SVDFun svd)
    (hI : 0 < I) (updB updC : Bool) (X : (i : Fin I) → Matrix (Fin (J i)) (Fin R) ℝ) (ρ : Fin I → ℝ) (hρ : ∀ i, 0 < ρ i)
    (aux : P2Aux I J R) (h : ∀ i, Orthonormal (aux.bases i)) (n k : ℕ) :
    ∑ i, ρ i * frobSq (X i) (p2Matrices (p2Update svd updB updC X ρ (n + k) aux) i)
      ≤ ∑ i, ρ i * frobSq (X i) (p2Matrices (p2Update svd updB updC X ρ n aux) i) := by
  show p2Cost X ρ _ _ ≤ p2Cost X ρ _ _
  induction k with
  | zero => exact le_rfl
  | succ k ih =>
    refine le_trans ?_ ih
    have : ∀ (n : ℕ) (aux : P2Aux I J R), (∀ i, Orthonormal (aux.bases i)) →
        p2Cost X ρ (p2Update svd updB updC X ρ (n + 1) aux).bases (p2Update svd updB updC X ρ (n + 1) aux).coord
          ≤ p2Cost X ρ (p2Update svd updB updC X ρ n aux).bases (p2Update svd updB updC X ρ n aux).coord := by
      intro n
      induction n with
      | zero =>
        intro aux h
        have := (step_descent hsvd hI updB updC X ρ hρ aux h).2
        simp only [p2Update]
        split <;> exact this
      | succ n ih =>
        intro aux h
        have e : ∀ n : ℕ, p2Update svd updB updC X ρ (n + 1) aux
            = let P := if updB then p2Bases svd X aux.coord else aux.bases
              let D := if updC then p2Coord X ρ P else aux.coord
              if !updC || !updB then ⟨P, D⟩ else p2Update svd updB updC X ρ n ⟨P, D⟩ := fun _ => rfl
        rw [e (n + 1), e n]
        cases hf : (!updC || !updB)
        · simp only [Bool.false_eq_true, if_false]
          exact ih _ (step_descent hsvd hI updB updC X ρ hρ aux h).1
        · simp only [if_true]
          exact le_rfl
    exact this _ aux h

/-- C24: input that already satisfies the constraint with the current auxiliary variable is returned unchanged. -/
theorem C24_fixed (svd : (i : Fin I) → Matrix (Fin (J i)) (Fin R) ℝ → SVD (J i) R R) (hsvd : SVDFun svd)
    (hI : 0 < I) (updB updC : Bool) (ρ : Fin I → ℝ) (hρ : ∀ i, 0 < ρ i)
    (aux : P2Aux I J R) (h : ∀ i, Orthonormal (aux.bases i)) (n : ℕ) :
    p2Matrices (p2Update svd updB updC (p2Matrices aux) ρ n aux) = p2Matrices aux := by
  have h1 := C24_descent svd hsvd hI updB updC (p2Matrices aux) ρ hρ aux h 0 n
  have h2 : ∑ i, ρ i * frobSq (p2Matrices aux i) (p2Matrices (p2Update svd updB updC (p2Matrices aux) ρ 0 aux) i) = 0 :=
    sum_eq_zero fun i _ => by rw [p2Update, frobSq_eq_zero.2 rfl, mul_zero]
  rw [h2, zero_add] at h1
  have h0 := le_antisymm h1 (sum_nonneg fun i _ => mul_nonneg (hρ i).le (frobSq_nonneg _ _))
  rw [sum_eq_zero_iff_of_nonneg fun i _ => mul_nonneg (hρ i).le (frobSq_nonneg _ _)] at h0
  funext i
  have := (mul_eq_zero.1 (h0 i (mem_univ i))).resolve_left (hρ i).ne'
  exact (frobSq_eq_zero.1 this).symm

/-- The SVD contract can be met: scalars (`R = 1`, one row). -/
noncomputable def svd1 (M : Matrix (Fin 1) (Fin 1) ℝ) : SVD 1 1 1 :=
  ⟨fun _ _ => if M 0 0 < 0 then -1 else 1, fun _ => |M 0 0|, 1⟩

example : SVDFun (I := 2) (J := fun _ => 1) (R := 1) (fun _ => svd1) ∧
    ∀ i : Fin 2, Orthonormal ((⟨fun _ _ _ => -1, 1⟩ : P2Aux 2 (fun _ => 1) 1).bases i) := by
  constructor
  · intro i M
    refine ⟨?_, ?_, ?_, fun _ => abs_nonneg _⟩
    · ext a b
      obtain rfl : a = 0 := Subsingleton.elim _ _
      obtain rfl : b = 0 := Subsingleton.elim _ _
      have e : (svd1 M).Vh = 1 := rfl
      rw [e, Matrix.mul_one, Matrix.mul_diagonal]
      show (if M 0 0 < 0 then (-1 : ℝ) else 1) * |M 0 0| = M 0 0
      split
      · rename_i h; rw [abs_of_neg h]; ring
      · rename_i h; rw [abs_of_nonneg (not_lt.1 h), one_mul]
    · ext a b
      obtain rfl : a = 0 := Subsingleton.elim _ _
      obtain rfl : b = 0 := Subsingleton.elim _ _
      rw [Matrix.mul_apply, Fin.sum_univ_one, Matrix.one_apply_eq]
      show (if M 0 0 < 0 then (-1 : ℝ) else 1) * (if M 0 0 < 0 then -1 else 1) = 1
      split <;> norm_num
    · show (1 : Matrix (Fin 1) (Fin 1) ℝ) * (1 : Matrix (Fin 1) (Fin 1) ℝ).transpose = 1
      rw [Matrix.transpose_one, Matrix.mul_one]
  · intro i
    unfold Orthonormal
    ext a b
    obtain rfl : a = 0 := Subsingleton.elim _ _
    obtain rfl : b = 0 := Subsingleton.elim _ _
    rw [Matrix.mul_apply, Fin.sum_univ_one, Matrix.one_apply_eq]
    show (-1 : ℝ) * -1 = 1
    norm_num

end Verif.Props
