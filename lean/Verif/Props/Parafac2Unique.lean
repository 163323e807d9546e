import Mathlib.LinearAlgebra.Matrix.NonsingularInverse
import Mathlib.LinearAlgebra.Matrix.ToLin
import Verif.Props.Indeterminacy

/-!
# C124: uniqueness under the PARAFAC2 constraint

`docs/coupled_matrix_factorization.rst` lines 70-79: the constant cross product constraint is used to obtain uniqueness. Two PARAFAC2 factorizations with the same number of
components that represent the same matrices have the same components up to order and scale, if one of them has linearly independent columns in C and in a B matrix and enough
different rows in A.
-/

set_option linter.unusedSectionVars false

namespace Verif.Props

open Verif.CMF Verif.Spec Verif.Loop Finset

variable {I K R n : ℕ} {J : Fin I → ℕ}

/-! ### Forms of degree two and four -/

/-- The value at `v` of the form of degree four with coefficients `c`. -/
def quartic (c : Fin R → Fin R → Fin R → Fin R → ℝ) (v : Fin R → ℝ) : ℝ := ∑ p, ∑ q, ∑ r, ∑ s, c p q r s * (v p * v q * v r * v s)

/-- Rows that determine forms of degree four: a form that is zero at all of them is zero. -/
def FourRows (A : Matrix (Fin I) (Fin R) ℝ) : Prop := ∀ c, (∀ i, quartic c (A i) = 0) → ∀ v, quartic c v = 0

/-- The value at `v` of the form of degree two with coefficients `P`. -/
def quadratic (P : Fin R → Fin R → ℝ) (v : Fin R → ℝ) : ℝ := ∑ p, ∑ q, P p q * (v p * v q)

theorem quartic_mul (P Q : Fin R → Fin R → ℝ) (v : Fin R → ℝ) : quartic (fun p q r s => P p q * Q r s) v = quadratic P v * quadratic Q v := by
  simp only [quartic, quadratic]
  rw [sum_mul]
  refine sum_congr rfl fun p _ => ?_
  rw [sum_mul]
  refine sum_congr rfl fun q _ => ?_
  rw [mul_sum]
  refine sum_congr rfl fun r _ => ?_
  rw [mul_sum]
  exact sum_congr rfl fun s _ => by ring

theorem quartic_sub (c d : Fin R → Fin R → Fin R → Fin R → ℝ) (v : Fin R → ℝ) : quartic (fun p q r s => c p q r s - d p q r s) v = quartic c v - quartic d v := by
  simp only [quartic, sub_mul, sum_sub_distrib]

theorem quartic_smul (t : ℝ) (c : Fin R → Fin R → Fin R → Fin R → ℝ) (v : Fin R → ℝ) : quartic (fun p q r s => t * c p q r s) v = t * quartic c v := by
  simp only [quartic, mul_sum, mul_assoc]

/-- An identity between products of quadratic forms that holds at the rows of A holds everywhere. -/
theorem FourRows.mul_eq {A : Matrix (Fin I) (Fin R) ℝ} (hA : FourRows A) {P Q P' Q' : Fin R → Fin R → ℝ} {x y : ℝ}
    (h : ∀ i, x * (quadratic P (A i) * quadratic Q (A i)) = y * (quadratic P' (A i) * quadratic Q' (A i))) (v : Fin R → ℝ) :
    x * (quadratic P v * quadratic Q v) = y * (quadratic P' v * quadratic Q' v) := by
  have e : ∀ w, quartic (fun p q r s => x * (P p q * Q r s) - y * (P' p q * Q' r s)) w =
      x * (quadratic P w * quadratic Q w) - y * (quadratic P' w * quadratic Q' w) := fun w => by
    rw [quartic_sub (fun p q r s => x * (P p q * Q r s)) (fun p q r s => y * (P' p q * Q' r s)), quartic_smul x (fun p q r s => P p q * Q r s),
      quartic_smul y (fun p q r s => P' p q * Q' r s), quartic_mul, quartic_mul]
  have := hA _ (fun i => by rw [e, h i, sub_self]) v
  rw [e] at this
  linarith

/-- No column of such a matrix is zero. -/
theorem FourRows.col {A : Matrix (Fin I) (Fin R) ℝ} (hA : FourRows A) (r : Fin R) : ∃ i, A i r ≠ 0 := by
  by_contra hc
  push Not at hc
  have e : ∀ v : Fin R → ℝ, quadratic (fun p q => if p = r then if q = r then 1 else 0 else 0) v = v r * v r := fun v => by
    simp [quadratic]
  have := hA.mul_eq (P := fun p q => if p = r then if q = r then 1 else 0 else 0) (Q := fun p q => if p = r then if q = r then 1 else 0 else 0)
    (P' := fun p q => if p = r then if q = r then 1 else 0 else 0) (Q' := fun p q => if p = r then if q = r then 1 else 0 else 0) (x := 1) (y := 0)
    (fun i => by rw [e, hc i]; simp) (fun _ => 1)
  rw [e] at this
  norm_num at this

/-! ### Linearly independent columns -/

theorem dotSelf_pos {n : ℕ} {f : Fin n → ℝ} (h : f ≠ 0) : 0 < ∑ j, f j * f j := by
  obtain ⟨j, hj⟩ := Function.ne_iff.1 h
  exact sum_pos' (fun _ _ => mul_self_nonneg _) ⟨j, mem_univ _, mul_self_pos.2 hj⟩

/-- The inequality of Cauchy and Schwarz is strict for vectors that are no multiples of each other. -/
theorem dot_strict {n : ℕ} {f g : Fin n → ℝ} (hg : g ≠ 0) (h : ∀ t : ℝ, f ≠ t • g) :
    (∑ j, f j * g j) * (∑ j, f j * g j) < (∑ j, f j * f j) * ∑ j, g j * g j := by
  have hgg := dotSelf_pos hg
  set pp := ∑ j, f j * f j
  set pq := ∑ j, f j * g j
  set qq := ∑ j, g j * g j
  have h1 : f - (pq / qq) • g ≠ 0 := fun h0 => h _ (sub_eq_zero.1 h0)
  have h2 := dotSelf_pos h1
  have e : ∑ j, (f - (pq / qq) • g) j * (f - (pq / qq) • g) j = pp - pq * pq / qq := by
    have : ∀ j, (f - (pq / qq) • g) j * (f - (pq / qq) • g) j = f j * f j - 2 * (pq / qq) * (f j * g j) + (pq / qq) ^ 2 * (g j * g j) := fun j => by
      simp only [Pi.sub_apply, Pi.smul_apply, smul_eq_mul]; ring
    simp only [this, sum_add_distrib, sum_sub_distrib, ← mul_sum]
    change pp - 2 * (pq / qq) * pq + (pq / qq) ^ 2 * qq = _
    field_simp
    ring
  rw [e, sub_pos, div_lt_iff₀ hgg] at h2
  exact h2

/-- Linearly independent columns, as a statement on combinations of columns. -/
theorem indep_iff {n : ℕ} {M : Matrix (Fin n) (Fin R) ℝ} : LinearIndependent ℝ M.transpose ↔ ∀ v : Fin R → ℝ, (∀ j, ∑ r, M j r * v r = 0) → v = 0 := by
  have e : ∀ v : Fin R → ℝ, ∑ r, v r • M.transpose r = 0 ↔ ∀ j, ∑ r, M j r * v r = 0 := fun v => by
    rw [funext_iff]
    refine forall_congr' fun j => ?_
    simp only [Finset.sum_apply, Pi.smul_apply, Matrix.transpose_apply, smul_eq_mul, Pi.zero_apply, mul_comm]
  refine Fintype.linearIndependent_iff.trans ?_
  exact ⟨fun h v hv => funext (h v ((e v).2 hv)), fun h v hv => congrFun (h v ((e v).1 hv))⟩

theorem cross_self {n : ℕ} (M : Matrix (Fin n) (Fin R) ℝ) (v : Fin R → ℝ) :
    ∑ p, ∑ q, v p * v q * colDot M p q = ∑ j, (∑ r, M j r * v r) * ∑ r, M j r * v r := by
  have e : ∀ j, (∑ r, M j r * v r) * ∑ r, M j r * v r = ∑ p, ∑ q, M j p * v p * (M j q * v q) := fun j => sum_mul_sum _ _ _ _
  simp only [e, colDot, mul_sum]
  rw [sum_comm_cycle]
  exact sum_congr rfl fun j _ => sum_congr rfl fun p _ => sum_congr rfl fun q _ => by ring

/-- Linear independence depends on the cross products only. -/
theorem indep_cross {n m : ℕ} {M : Matrix (Fin n) (Fin R) ℝ} {N : Matrix (Fin m) (Fin R) ℝ} (h : ∀ p q, colDot M p q = colDot N p q)
    (hM : LinearIndependent ℝ M.transpose) : LinearIndependent ℝ N.transpose := by
  rw [indep_iff] at hM ⊢
  intro v hv
  by_contra hne
  obtain ⟨j, hj⟩ : ∃ j, ∑ r, M j r * v r ≠ 0 := by
    by_contra hc
    push Not at hc
    exact hne (hM v hc)
  have h1 : 0 < ∑ j, (∑ r, M j r * v r) * ∑ r, M j r * v r := dotSelf_pos (f := fun j => ∑ r, M j r * v r) fun h0 => hj (congrFun h0 j)
  rw [← cross_self] at h1
  simp only [h] at h1
  rw [cross_self] at h1
  simp only [hv, mul_zero, sum_const_zero, lt_irrefl] at h1

/-- A left inverse. -/
theorem indep_left {n : ℕ} {M : Matrix (Fin n) (Fin R) ℝ} (h : LinearIndependent ℝ M.transpose) :
    ∃ W : Matrix (Fin R) (Fin n) ℝ, ∀ p q, ∑ j, W p j * M j q = if p = q then 1 else 0 := by
  have inj : Function.Injective (Matrix.toLin' M) := by
    rw [injective_iff_map_eq_zero]
    intro v hv
    rw [indep_iff] at h
    refine h v fun j => ?_
    have := congrFun hv j
    rwa [Matrix.toLin'_apply, Matrix.mulVec, dotProduct] at this
  obtain ⟨L, hL⟩ := (Matrix.toLin' M).exists_leftInverse_of_injective (LinearMap.ker_eq_bot.2 inj)
  refine ⟨LinearMap.toMatrix' L, fun p q => ?_⟩
  have e : LinearMap.toMatrix' L * M = 1 := by
    have := congrArg LinearMap.toMatrix' hL
    rwa [LinearMap.toMatrix'_comp, LinearMap.toMatrix'_toLin', LinearMap.toMatrix'_id] at this
  have := congrFun (congrFun e p) q
  rwa [Matrix.mul_apply, Matrix.one_apply] at this

/-! ### Relation of two factorizations -/

/-- Two factorizations of the same data: the columns of one C are combinations of those of the other one, and the B matrices are related by the same coefficients. -/
theorem same_data {F G : Factors I K R J} (hC : LinearIndependent ℝ G.C.transpose) (hB : ∀ i, LinearIndependent ℝ (G.B i).transpose) (hA : ∀ r, ∃ i, G.A i r ≠ 0)
    (h : F.recon = G.recon) : ∃ S : Matrix (Fin R) (Fin R) ℝ, (∀ k r, G.C k r = ∑ q, F.C k q * S q r) ∧
      (∀ v : Fin R → ℝ, (∀ q, ∑ r, S q r * v r = 0) → v = 0) ∧ (∀ v : Fin R → ℝ, (∀ r, ∑ q, S q r * v q = 0) → v = 0) ∧
      ∀ i j q, F.A i q * F.B i j q = ∑ r, S q r * (G.A i r * G.B i j r) := by
  have hX : ∀ i j k, ∑ q, F.A i q * F.B i j q * F.C k q = ∑ r, G.A i r * G.B i j r * G.C k r := fun i j k => congrFun (congrFun (congrFun h i) j) k
  choose i hi using hA
  choose W hW using fun i => indep_left (hB i)
  have hS : ∀ k r, G.C k r = ∑ q, F.C k q * Matrix.of (fun q r => F.A (i r) q * (∑ j, W (i r) r j * F.B (i r) j q) / G.A (i r) r) q r := fun k r => by
    have e1 : ∑ j, W (i r) r j * ∑ q, G.A (i r) q * G.B (i r) j q * G.C k q = G.A (i r) r * G.C k r := by
      calc _ = ∑ q, G.A (i r) q * G.C k q * ∑ j, W (i r) r j * G.B (i r) j q := by
            simp only [mul_sum]
            rw [sum_comm]
            exact sum_congr rfl fun q _ => sum_congr rfl fun j _ => by ring
        _ = _ := by simp only [hW, mul_ite, mul_one, mul_zero, sum_ite_eq, mem_univ, if_true]
    have e2 : ∑ j, W (i r) r j * ∑ q, F.A (i r) q * F.B (i r) j q * F.C k q = ∑ q, F.C k q * (F.A (i r) q * ∑ j, W (i r) r j * F.B (i r) j q) := by
      simp only [mul_sum]
      rw [sum_comm]
      exact sum_congr rfl fun q _ => sum_congr rfl fun j _ => by ring
    simp only [hX] at e2
    rw [e1] at e2
    have := hi r
    simp only [Matrix.of_apply, ← mul_div_assoc, ← sum_div]
    rw [← e2, mul_div_cancel_left₀ _ this]
  set S : Matrix (Fin R) (Fin R) ℝ := Matrix.of (fun q r => F.A (i r) q * (∑ j, W (i r) r j * F.B (i r) j q) / G.A (i r) r)
  have inj : ∀ v : Fin R → ℝ, (∀ q, ∑ r, S q r * v r = 0) → v = 0 := fun v hv => by
    refine indep_iff.1 hC v fun k => ?_
    calc ∑ r, G.C k r * v r = ∑ q, F.C k q * ∑ r, S q r * v r := by
          simp only [hS, sum_mul, mul_sum]
          rw [sum_comm]
          exact sum_congr rfl fun q _ => sum_congr rfl fun r _ => by ring
      _ = 0 := by simp only [hv, mul_zero, sum_const_zero]
  obtain ⟨T, hT⟩ := indep_left (indep_iff.2 inj)
  have hTS : T * S = 1 := by ext p q; rw [Matrix.mul_apply, hT, Matrix.one_apply]
  have hST : S * T = 1 := mul_eq_one_comm.1 hTS
  refine ⟨S, hS, inj, fun v hv => funext fun p => ?_, fun i j q => ?_⟩
  · have : ∑ r, (∑ q, S q r * v q) * T r p = v p := by
      calc _ = ∑ q, v q * (S * T) q p := by
            simp only [Matrix.mul_apply, sum_mul, mul_sum]
            rw [sum_comm]
            exact sum_congr rfl fun q _ => sum_congr rfl fun r _ => by ring
        _ = v p := by simp only [hST, Matrix.one_apply, mul_ite, mul_one, mul_zero, sum_ite_eq', mem_univ, if_true]
    rw [← this]
    simp only [hv, zero_mul, sum_const_zero, Pi.zero_apply]
  · have z : (fun q => F.A i q * F.B i j q - ∑ r, S q r * (G.A i r * G.B i j r)) = 0 := by
      have key : ∀ k, ∑ q, F.C k q * (F.A i q * F.B i j q - ∑ r, S q r * (G.A i r * G.B i j r)) = 0 := fun k => by
        have e1 : ∑ q, F.C k q * ∑ r, S q r * (G.A i r * G.B i j r) = ∑ r, G.A i r * G.B i j r * G.C k r := by
          simp only [hS, mul_sum]
          rw [sum_comm]
          exact sum_congr rfl fun q _ => sum_congr rfl fun r _ => by ring
        simp only [mul_sub, sum_sub_distrib]
        rw [e1, ← hX, sub_eq_zero]
        exact sum_congr rfl fun q _ => by ring
      set w := fun q => F.A i q * F.B i j q - ∑ r, S q r * (G.A i r * G.B i j r)
      have hw : (fun r => ∑ q, T r q * w q) = 0 := by
        refine indep_iff.1 hC _ fun k => ?_
        calc ∑ r, G.C k r * ∑ q, T r q * w q = ∑ p, F.C k p * ∑ q, (S * T) p q * w q := by
              simp only [hS, Matrix.mul_apply, sum_mul, mul_sum]
              rw [sum_comm_cycle]
              exact sum_congr rfl fun p _ => by
                rw [sum_comm]
                exact sum_congr rfl fun q _ => sum_congr rfl fun r _ => by ring
          _ = 0 := by
              simp only [hST, Matrix.one_apply, ite_mul, one_mul, zero_mul, sum_ite_eq, mem_univ, if_true]
              exact key k
      funext p
      have : ∑ r, S p r * ∑ q, T r q * w q = w p := by
        calc _ = ∑ q, (S * T) p q * w q := by
              simp only [Matrix.mul_apply, sum_mul, mul_sum]
              rw [sum_comm]
              exact sum_congr rfl fun q _ => sum_congr rfl fun r _ => by ring
          _ = _ := by simp only [hST, Matrix.one_apply, ite_mul, one_mul, zero_mul, sum_ite_eq, mem_univ, if_true]
      rw [← this]
      have hw' : ∀ r, ∑ q, T r q * w q = 0 := fun r => congrFun hw r
      simp only [hw', mul_zero, sum_const_zero, Pi.zero_apply]
    exact sub_eq_zero.1 (congrFun z q)

/-- The cross products of the columns of a matrix of combinations. -/
theorem cross_comb {n : ℕ} (M : Matrix (Fin n) (Fin R) ℝ) (S : Matrix (Fin R) (Fin R) ℝ) (v : Fin R → ℝ) (p q : Fin R) :
    ∑ j, (∑ r, S p r * (v r * M j r)) * (∑ r, S q r * (v r * M j r)) = quadratic (fun r s => S p r * S q s * colDot M r s) v := by
  have e : ∀ j, (∑ r, S p r * (v r * M j r)) * (∑ r, S q r * (v r * M j r)) = ∑ r, ∑ s, S p r * (v r * M j r) * (S q s * (v s * M j s)) := fun j => sum_mul_sum _ _ _ _
  simp only [e, quadratic, colDot, mul_sum, sum_mul]
  rw [sum_comm]
  refine sum_congr rfl fun r _ => ?_
  rw [sum_comm]
  exact sum_congr rfl fun s _ => sum_congr rfl fun j _ => by ring

/-- The coefficients have at most one entry that is not zero in each column. -/
theorem one_entry {F G : Factors I K R J} (i₀ : Fin I) (hB : LinearIndependent ℝ (G.B i₀).transpose) (hA : FourRows G.A) (hF : ConstantCross F.B) (hG : ConstantCross G.B)
    {S : Matrix (Fin R) (Fin R) ℝ} (hS : ∀ v : Fin R → ℝ, (∀ r, ∑ q, S q r * v q = 0) → v = 0)
    (hD : ∀ i j q, F.A i q * F.B i j q = ∑ r, S q r * (G.A i r * G.B i j r)) :
    (∀ p, 0 < colDot (F.B i₀) p p) ∧ ∀ p q r, p ≠ q → S p r * S q r = 0 := by
  rw [constantCross_iff] at hF hG
  set N : Fin R → Fin R → Fin R → Fin R → ℝ := fun p q r s => S p r * S q s * colDot (G.B i₀) r s with hNdef
  set Φ : Fin R → Fin R → ℝ := colDot (F.B i₀) with hΦ
  have hN : ∀ i p q, quadratic (N p q) (G.A i) = F.A i p * F.A i q * Φ p q := fun i p q => by
    have e : N p q = fun r s => S p r * S q s * colDot (G.B i) r s := by funext r s; rw [hG i i₀]
    rw [e, ← cross_comb, hΦ, hF i₀ i, colDot, mul_sum]
    exact sum_congr rfl fun j _ => by rw [← hD, ← hD]; ring
  -- the values at the vector of ones
  have h1 : ∀ p q, quadratic (N p q) (fun _ => 1) = ∑ j, (∑ r, S p r * G.B i₀ j r) * ∑ r, S q r * G.B i₀ j r := fun p q => by
    rw [hNdef, ← cross_comb]
    simp only [one_mul]
  have comb : ∀ w : Fin R → ℝ, (∀ j, ∑ p, w p * ∑ r, S p r * G.B i₀ j r = 0) → w = 0 := fun w hw => by
    refine hS w fun r => ?_
    refine congrFun (indep_iff.1 hB (fun r => ∑ q, S q r * w q) fun j => ?_) r
    rw [← hw j]
    simp only [mul_sum]
    rw [sum_comm]
    exact sum_congr rfl fun q _ => sum_congr rfl fun r _ => by ring
  have hne : ∀ q, (fun j => ∑ r, S q r * G.B i₀ j r) ≠ 0 := fun q h0 => by
    have := congrFun (comb (fun p => if p = q then 1 else 0) fun j => by
      simp only [ite_mul, one_mul, zero_mul, sum_ite_eq', mem_univ, if_true]
      exact congrFun h0 j) q
    simp at this
  have pos : ∀ p, 0 < quadratic (N p p) (fun _ => 1) := fun p => by rw [h1]; exact dotSelf_pos (hne p)
  have strict : ∀ p q, p ≠ q → quadratic (N p q) (fun _ => 1) * quadratic (N p q) (fun _ => 1) < quadratic (N p p) (fun _ => 1) * quadratic (N q q) (fun _ => 1) :=
    fun p q hpq => by
    rw [h1, h1, h1]
    refine dot_strict (hne q) fun t h0 => ?_
    have := congrFun (comb (fun s => (if s = p then 1 else 0) - if s = q then t else 0) fun j => by
      simp only [sub_mul, ite_mul, one_mul, zero_mul, sum_sub_distrib, sum_ite_eq', mem_univ, if_true]
      exact sub_eq_zero.2 (congrFun h0 j)) p
    simp [hpq] at this
  -- the columns of the B matrices of the first factorization
  have Φpos : ∀ p, 0 < Φ p p := fun p => by
    have nn : 0 ≤ Φ p p := sum_nonneg fun j _ => mul_self_nonneg _
    rcases nn.eq_or_lt with h0 | h0
    · have := hA.mul_eq (P := N p p) (Q := N p p) (P' := N p p) (Q' := N p p) (x := 1) (y := 0) (fun i => by rw [hN, ← h0]; simp) (fun _ => 1)
      have := mul_self_pos.2 (pos p).ne'
      linarith
    · exact h0
  refine ⟨Φpos, fun p q r hpq => ?_⟩
  have sym : Φ q p = Φ p q := by rw [hΦ]; simp only [colDot, mul_comm]
  have id4 := hA.mul_eq (P := N p q) (Q := N p q) (P' := N p p) (Q' := N q q) (x := Φ p p * Φ q q) (y := Φ p q * Φ p q) (fun i => by simp only [hN]; ring)
  have lt : Φ p q * Φ p q < Φ p p * Φ q q := by
    have a := id4 fun _ => 1
    have b := strict p q hpq
    have c := mul_pos (Φpos p) (Φpos q)
    have d := mul_pos (pos p) (pos q)
    by_contra hc
    push Not at hc
    have := mul_le_mul_of_nonneg_right hc d.le
    have := mul_lt_mul_of_pos_left b c
    linarith
  have e : ∀ x y, quadratic (N x y) (fun s => if s = r then 1 else 0) = S x r * S y r * colDot (G.B i₀) r r := fun x y => by
    simp [quadratic, hNdef]
  have hr : 0 < colDot (G.B i₀) r r := by
    refine dotSelf_pos (f := fun j => G.B i₀ j r) fun h0 => ?_
    have := congrFun (indep_iff.1 hB (fun s => if s = r then 1 else 0) fun j => by
      simp only [mul_ite, mul_one, mul_zero, sum_ite_eq', mem_univ, if_true]
      exact congrFun h0 j) r
    simp at this
  have a := id4 fun s => if s = r then 1 else 0
  rw [e, e, e] at a
  have b : (Φ p p * Φ q q - Φ p q * Φ p q) * (colDot (G.B i₀) r r * colDot (G.B i₀) r r) * ((S p r * S q r) * (S p r * S q r)) = 0 := by linear_combination a
  have c : (Φ p p * Φ q q - Φ p q * Φ p q) * (colDot (G.B i₀) r r * colDot (G.B i₀) r r) ≠ 0 := (mul_pos (sub_pos.2 lt) (mul_pos hr hr)).ne'
  exact mul_self_eq_zero.1 ((mul_eq_zero.1 b).resolve_left c)

/-- C124: a PARAFAC2 factorization with linearly independent columns in C and in a B matrix, whose A determines forms of degree four, is unique. Every PARAFAC2 factorization of the
same matrices with as many components has the same components in another order, with the same columns of C and the same sizes of the entries of A up to one factor for each component. -/
theorem C124_unique {F G : Factors I K R J} (i₀ : Fin I) (hC : LinearIndependent ℝ G.C.transpose) (hB : LinearIndependent ℝ (G.B i₀).transpose) (hA : FourRows G.A)
    (hG : ConstantCross G.B) (hF : ConstantCross F.B) (h : F.recon = G.recon) :
    ∃ (π : Equiv.Perm (Fin R)) (t u : Fin R → ℝ), (∀ r, t r ≠ 0 ∧ 0 < u r) ∧ (∀ k r, G.C k r = t r * F.C k (π r)) ∧ (∀ i r, |F.A i (π r)| = u r * |G.A i r|) ∧
      ∀ i j r, F.A i (π r) * F.B i j (π r) = t r * (G.A i r * G.B i j r) := by
  have hc := constantCross_iff.1 hG
  obtain ⟨S, h1, h2, h3, h4⟩ := same_data hC (fun i => indep_cross (fun p q => hc i₀ i p q) hB) hA.col h
  obtain ⟨pos, one⟩ := one_entry i₀ hB hA hF hG h3 h4
  have ex : ∀ r, ∃ q, S q r ≠ 0 := fun r => by
    by_contra hn
    push Not at hn
    have := congrFun (h2 (fun s => if s = r then 1 else 0) fun q => by simp only [mul_ite, mul_one, mul_zero, sum_ite_eq', mem_univ, if_true, hn]) r
    simp at this
  choose f hf using ex
  have zero : ∀ q r, q ≠ f r → S q r = 0 := fun q r hq => (mul_eq_zero.1 (one q (f r) r hq)).resolve_right (hf r)
  have surj : Function.Surjective f := fun q => by
    by_contra hn
    push Not at hn
    have := congrFun (h3 (fun s => if s = q then 1 else 0) fun r => by
      simp only [mul_ite, mul_one, mul_zero, sum_ite_eq', mem_univ, if_true]
      exact zero q r (hn r).symm) q
    simp at this
  have bij : Function.Bijective f := ⟨Finite.injective_iff_surjective.2 surj, surj⟩
  have zero' : ∀ r s, s ≠ r → S (f r) s = 0 := fun r s hs => zero _ _ fun h => hs (bij.1 h).symm
  have hAB : ∀ i j r, F.A i (f r) * F.B i j (f r) = S (f r) r * (G.A i r * G.B i j r) := fun i j r => by
    rw [h4, sum_eq_single r (fun s _ hs => by rw [zero' r s hs, zero_mul]) fun hn => absurd (mem_univ _) hn]
  have hr : ∀ r, 0 < colDot (G.B i₀) r r := fun r => by
    refine dotSelf_pos (f := fun j => G.B i₀ j r) fun h0 => ?_
    have := congrFun (indep_iff.1 hB (fun s => if s = r then 1 else 0) fun j => by
      simp only [mul_ite, mul_one, mul_zero, sum_ite_eq', mem_univ, if_true]
      exact congrFun h0 j) r
    simp at this
  refine ⟨Equiv.ofBijective f bij, fun r => S (f r) r, fun r => |S (f r) r| * Real.sqrt (colDot (G.B i₀) r r / colDot (F.B i₀) (f r) (f r)),
    fun r => ⟨hf r, mul_pos (abs_pos.2 (hf r)) (Real.sqrt_pos.2 (div_pos (hr r) (pos _)))⟩, fun k r => ?_, fun i r => ?_, hAB⟩
  · rw [h1, sum_eq_single (f r) (fun q _ hq => by rw [zero q r hq, mul_zero]) fun hn => absurd (mem_univ _) hn, mul_comm]
    rfl
  · have sq : F.A i (f r) ^ 2 * colDot (F.B i₀) (f r) (f r) = S (f r) r ^ 2 * G.A i r ^ 2 * colDot (G.B i₀) r r := by
      rw [constantCross_iff.1 hF i₀ i, hc i₀ i, colDot, colDot, mul_sum, mul_sum]
      refine sum_congr rfl fun j _ => ?_
      have := hAB i j r
      linear_combination (F.A i (f r) * F.B i j (f r) + S (f r) r * (G.A i r * G.B i j r)) * this
    have e : F.A i (f r) ^ 2 = (|S (f r) r| * Real.sqrt (colDot (G.B i₀) r r / colDot (F.B i₀) (f r) (f r)) * |G.A i r|) ^ 2 := by
      rw [mul_pow, mul_pow, Real.sq_sqrt (div_pos (hr r) (pos _)).le, sq_abs, sq_abs]
      have := (pos (f r)).ne'
      field_simp
      linarith
    have e2 := (sq_eq_sq_iff_abs_eq_abs _ _).1 e
    rw [abs_of_nonneg (mul_nonneg (mul_nonneg (abs_nonneg _) (Real.sqrt_nonneg _)) (abs_nonneg (G.A i r)))] at e2
    exact e2

/-- C124, components: the matrices of every single component are the same. -/
theorem C124_components {F G : Factors I K R J} (i₀ : Fin I) (hC : LinearIndependent ℝ G.C.transpose) (hB : LinearIndependent ℝ (G.B i₀).transpose) (hA : FourRows G.A)
    (hG : ConstantCross G.B) (hF : ConstantCross F.B) (h : F.recon = G.recon) :
    ∃ π : Equiv.Perm (Fin R), ∀ i j k r, F.A i (π r) * F.B i j (π r) * F.C k (π r) = G.A i r * G.B i j r * G.C k r := by
  obtain ⟨π, t, u, -, h2, -, h4⟩ := C124_unique i₀ hC hB hA hG hF h
  exact ⟨π, fun i j k r => by rw [h4, h2]; ring⟩

/-- C124, non-negative A: the columns of A agree up to one factor for each component, and so do the columns of the B matrices in which the component is present. -/
theorem C124_nonneg {F G : Factors I K R J} (i₀ : Fin I) (hC : LinearIndependent ℝ G.C.transpose) (hB : LinearIndependent ℝ (G.B i₀).transpose) (hA : FourRows G.A)
    (hG : ConstantCross G.B) (hF : ConstantCross F.B) (h : F.recon = G.recon) (nG : ∀ i r, 0 ≤ G.A i r) (nF : ∀ i r, 0 ≤ F.A i r) :
    ∃ (π : Equiv.Perm (Fin R)) (t u : Fin R → ℝ), (∀ r, t r ≠ 0 ∧ 0 < u r) ∧ (∀ k r, F.C k (π r) = G.C k r / t r) ∧ (∀ i r, F.A i (π r) = u r * G.A i r) ∧
      ∀ i j r, G.A i r ≠ 0 → F.B i j (π r) = t r / u r * G.B i j r := by
  obtain ⟨π, t, u, h1, h2, h3, h4⟩ := C124_unique i₀ hC hB hA hG hF h
  have hu : ∀ i r, F.A i (π r) = u r * G.A i r := fun i r => by
    have := h3 i r
    rwa [abs_of_nonneg (nF _ _), abs_of_nonneg (nG _ _)] at this
  refine ⟨π, t, u, h1, fun k r => by rw [h2, mul_div_cancel_left₀ _ (h1 r).1], hu, fun i j r hr => ?_⟩
  have a := h4 i j r
  rw [hu] at a
  have := (h1 r).2.ne'
  field_simp
  refine mul_left_cancel₀ hr ?_
  linear_combination a

/-- C124, one matrix: the constraint says nothing about a single matrix, so that a factorization with two components is not unique. -/
theorem C124_one (F : Factors 1 K R (fun _ => n)) (hR : 2 ≤ R) (hC : LinearIndependent ℝ F.C.transpose) :
    ∃ F' : Factors 1 K R (fun _ => n), ConstantCross F'.B ∧ F'.recon = F.recon ∧ ∃ q, ∀ r (t : ℝ), (fun k => F'.C k q) ≠ fun k => t * F.C k r := by
  obtain ⟨F', h1, h2⟩ := C112_not_unique F hR hC
  exact ⟨F', fun i j => by rw [Subsingleton.elim i j], h1, h2⟩

/-- Two matrices of two components. -/
noncomputable def twoMixed : Factors 2 2 2 (fun _ => 2) :=
  ⟨!![1, 1; 4, 5], ![!![2, 1; 1, 1], !![Real.sqrt 10 / 2, Real.sqrt 10 / 5; Real.sqrt 10 / 2, Real.sqrt 10 * 2 / 5]], 1⟩

/-- Two matrices of two components whose B matrices are identity matrices. -/
noncomputable def twoUnmixed : Factors 2 2 2 (fun _ => 2) := ⟨!![1, 1; Real.sqrt 10, 2 * Real.sqrt 10], fun _ => 1, !![2, 1; 1, 1]⟩

/-- C124, two matrices: the constraint does not make a factorization of two matrices unique. Both factorizations satisfy it, are non-negative, and have linearly independent columns in C
and in the B matrices, but no column of one C is a multiple of a column of the other one. -/
theorem C124_two : twoMixed.recon = twoUnmixed.recon ∧ ConstantCross twoMixed.B ∧ ConstantCross twoUnmixed.B ∧ LinearIndependent ℝ twoMixed.C.transpose ∧
    LinearIndependent ℝ twoUnmixed.C.transpose ∧ (∀ i, LinearIndependent ℝ (twoMixed.B i).transpose) ∧ (∀ i, LinearIndependent ℝ (twoUnmixed.B i).transpose) ∧
    (∀ i r, 0 < twoMixed.A i r) ∧ (∀ i j r, 0 ≤ twoMixed.B i j r) ∧ (∀ k r, 0 ≤ twoMixed.C k r) ∧ (∀ i r, 0 < twoUnmixed.A i r) ∧ (∀ i j r, 0 ≤ twoUnmixed.B i j r) ∧
    (∀ k r, 0 ≤ twoUnmixed.C k r) ∧ ∀ q r (t : ℝ), (fun k => twoMixed.C k q) ≠ fun k => t * twoUnmixed.C k r := by
  have s0 : 0 < Real.sqrt 10 := Real.sqrt_pos.2 (by norm_num)
  have s2 : Real.sqrt 10 * Real.sqrt 10 = 10 := Real.mul_self_sqrt (by norm_num)
  have hc : ConstantCross twoMixed.B := by
    rw [constantCross_iff]
    have key : ∀ i r q, colDot (twoMixed.B i) r q = colDot (twoMixed.B 0) r q := fun i r q => by
      fin_cases i <;> fin_cases r <;> fin_cases q <;> simp [colDot, twoMixed, Fin.sum_univ_two] <;> nlinarith [s2]
    exact fun i i' r q => (key i r q).trans (key i' r q).symm
  have h0 : LinearIndependent ℝ (twoMixed.B 0).transpose := by
    refine indep_iff.2 fun v h => ?_
    have h0 := h 0
    have h1 := h 1
    simp [twoMixed, Fin.sum_univ_two] at h0 h1
    funext r
    fin_cases r
    · change v 0 = 0; linarith
    · change v 1 = 0; linarith
  have one : LinearIndependent ℝ (1 : Matrix (Fin 2) (Fin 2) ℝ).transpose := by
    refine indep_iff.2 fun v h => funext fun r => ?_
    have := h r
    simpa [Matrix.one_apply] using this
  refine ⟨?_, hc, fun i j => rfl, one, ?_, fun i => indep_cross (fun p q => (constantCross_iff.1 hc) 0 i p q) h0, fun i => one, ?_, ?_, ?_, ?_, ?_, ?_, ?_⟩
  · funext i
    ext j k
    fin_cases i <;> fin_cases j <;> fin_cases k <;>
      simp [Factors.recon, Factors.entry, twoMixed, twoUnmixed, Fin.sum_univ_two] <;> ring
  · refine indep_iff.2 fun v h => ?_
    have h0 := h 0
    have h1 := h 1
    simp [twoUnmixed, Fin.sum_univ_two] at h0 h1
    funext r
    fin_cases r
    · change v 0 = 0; linarith
    · change v 1 = 0; linarith
  · intro i r
    fin_cases i <;> fin_cases r <;> norm_num [twoMixed]
  · intro i j r
    fin_cases i <;> fin_cases j <;> fin_cases r <;> simp [twoMixed] <;> positivity
  · intro k r
    fin_cases k <;> fin_cases r <;> norm_num [twoMixed]
  · intro i r
    fin_cases i <;> fin_cases r <;> norm_num [twoUnmixed]
  · intro i j r
    fin_cases j <;> fin_cases r <;> norm_num [twoUnmixed]
  · intro k r
    fin_cases k <;> fin_cases r <;> norm_num [twoUnmixed]
  · intro q r t h
    have a := congrFun h 0
    have b := congrFun h 1
    fin_cases q <;> fin_cases r <;> simp [twoMixed, twoUnmixed] at a b
    all_goals first
      | (rw [a] at b; norm_num at b)
      | linarith

/-! ### Factorization objects -/

/-- C124, factorization objects: if `to_matrices` of two accepted factorizations without weights returns the same matrices, then the components agree. -/
theorem C124_objects {x y : CMFArg ℝ} {c d : Fact ℝ} (hx : construct x = .ok c) (hy : construct y = .ok d) {F G : Factors I K R J} (hFc : SameFact c ⟨none, F⟩)
    (hGd : SameFact d ⟨none, G⟩) (h : toMatrices c = toMatrices d) (i₀ : Fin I) (hC : LinearIndependent ℝ G.C.transpose) (hB : LinearIndependent ℝ (G.B i₀).transpose)
    (hA : FourRows G.A) (hG : ConstantCross G.B) (hF : ConstantCross F.B) :
    ∃ π : Equiv.Perm (Fin R), ∀ i j k r, F.A i (π r) * F.B i j (π r) * F.C k (π r) = G.A i r * G.B i j r * G.C k r := by
  obtain ⟨ms, h1, -, h2⟩ := C112_data hx hFc
  obtain ⟨ns, h3, -, h4⟩ := C112_data hy hGd
  rw [h1, h3] at h
  cases Except.ok.inj h
  refine C124_components i₀ hC hB hA hG hF ?_
  funext i
  obtain ⟨M, e1, e2⟩ := h2 i
  obtain ⟨N, e3, e4⟩ := h4 i
  rw [e1] at e3
  cases Option.some.inj e3
  ext j k
  rw [← e2.2, ← e4.2]

/-! ### Instance -/

/-- Five matrices of two components with non-negative A. -/
def fiveComp : Factors 5 2 2 (fun _ => 2) := ⟨!![1, 0; 0, 1; 1, 1; 1, 2; 2, 1], fun _ => !![1, 1; 0, 1], 1⟩

/-- Five rows of which no two are multiples of each other determine the forms of degree four in two variables. -/
theorem five_rows : FourRows fiveComp.A := by
  intro c h v
  have a00 : fiveComp.A 0 0 = 1 := by simp [fiveComp]
  have a01 : fiveComp.A 0 1 = 0 := by simp [fiveComp]
  have a10 : fiveComp.A 1 0 = 0 := by simp [fiveComp]
  have a11 : fiveComp.A 1 1 = 1 := by simp [fiveComp]
  have a20 : fiveComp.A 2 0 = 1 := by simp [fiveComp]
  have a21 : fiveComp.A 2 1 = 1 := by simp [fiveComp]
  have a30 : fiveComp.A 3 0 = 1 := by simp [fiveComp]
  have a31 : fiveComp.A 3 1 = 2 := by simp [fiveComp]
  have a40 : fiveComp.A 4 0 = 2 := by simp [fiveComp]
  have a41 : fiveComp.A 4 1 = 1 := by simp [fiveComp]
  have h0 := h 0
  have h1 := h 1
  have h2 := h 2
  have h3 := h 3
  have h4 := h 4
  simp only [quartic, Fin.sum_univ_two, a00, a01, a10, a11, a20, a21, a30, a31, a40, a41] at h0 h1 h2 h3 h4 ⊢
  linear_combination (v 0) ^ 4 * h0 + (v 1) ^ 4 * h1 + (v 0) ^ 2 * (v 1) ^ 2 * (5 * (h2 - h0 - h1) - ((h3 - h0 - 16 * h1) + (h4 - 16 * h0 - h1)) / 2) +
    (v 0) ^ 3 * (v 1) * (((h2 - h0 - h1) - (5 * (h2 - h0 - h1) - ((h3 - h0 - 16 * h1) + (h4 - 16 * h0 - h1)) / 2) - ((h3 - h0 - 16 * h1) - (h4 - 16 * h0 - h1)) / 6) / 2) +
    (v 0) * (v 1) ^ 3 * (((h2 - h0 - h1) - (5 * (h2 - h0 - h1) - ((h3 - h0 - 16 * h1) + (h4 - 16 * h0 - h1)) / 2) + ((h3 - h0 - 16 * h1) - (h4 - 16 * h0 - h1)) / 6) / 2)

/-- The hypotheses hold for these matrices, and for the factorization with the first component scaled by 2 in every matrix. -/
example : LinearIndependent ℝ fiveComp.C.transpose ∧ LinearIndependent ℝ (fiveComp.B 0).transpose ∧ FourRows fiveComp.A ∧ ConstantCross fiveComp.B ∧
    (∀ i r, 0 ≤ fiveComp.A i r) ∧ ConstantCross (scaleBy (fun _ => ![2, 1]) fiveComp).B ∧ (scaleBy (fun _ => ![2, 1]) fiveComp).recon = fiveComp.recon ∧
    ∀ i r, 0 ≤ (scaleBy (fun _ => ![2, 1]) fiveComp).A i r := by
  have hc : ConstantCross fiveComp.B := fun i j => rfl
  refine ⟨?_, ?_, five_rows, hc, ?_, (C112_parafac2 _ hc).2 fun _ _ _ _ _ => rfl, C112_scale (fun _ r => by fin_cases r <;> simp) _, ?_⟩
  · refine indep_iff.2 fun v h => funext fun r => ?_
    have := h r
    simpa [fiveComp, Matrix.one_apply] using this
  · refine indep_iff.2 fun v h => ?_
    have h0 := h 0
    have h1 := h 1
    simp [fiveComp, Fin.sum_univ_two] at h0 h1
    funext r
    fin_cases r
    · simpa [h1] using h0
    · exact h1
  · intro i r
    fin_cases i <;> fin_cases r <;> norm_num [fiveComp]
  · intro i r
    fin_cases i <;> fin_cases r <;> norm_num [fiveComp, scaleBy]

/-- The array of a matrix. -/
noncomputable def matArray {m n : ℕ} (X : Matrix (Fin m) (Fin n) ℝ) : NDArray ℝ := .mk2 m n fun i j => if h : i < m ∧ j < n then X ⟨i, h.1⟩ ⟨j, h.2⟩ else 0

theorem matArray_same {m n : ℕ} (X : Matrix (Fin m) (Fin n) ℝ) : SameMat (matArray X) X :=
  ⟨rfl, fun i j => by simp [matArray, NDArray.mk2]⟩

/-- Every factorization has a factorization object without weights, so that the last theorem applies to these matrices. -/
theorem has_object (F : Factors I K R J) : ∃ x c, construct x = .ok c ∧ SameFact c (⟨none, F⟩ : Start I K R J) := by
  obtain ⟨c, h⟩ := constructNone_same (F := F) (matArray_same F.A) (Bs := List.ofFn fun i => matArray (F.B i))
    ⟨List.length_ofFn, fun i => ⟨_, by simp, matArray_same _⟩⟩ (matArray_same F.C)
  exact ⟨_, c, h⟩

end Verif.Props
