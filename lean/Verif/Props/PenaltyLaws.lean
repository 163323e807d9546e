import Verif.ADMM.Concrete
import Verif.Props.Simplex
import Verif.Props.LoopFeasible

/-!
# C79, C80: laws of the penalty updates

The test classes of `testing/admm_penalty.py` (lines 416-561) check for some matrices that an update does not increase the penalty, leaves invariant points alone and
changes other points. Here for all matrices.
-/

namespace Verif.Props

open Verif.Penalties Verif.Spec Verif.ADMM Finset

variable {m n : ℕ}

theorem stdPen_fn_nonneg (p : StdPen m n) (h : p.Valid) (Z : Matrix (Fin m) (Fin n) ℝ) : 0 ≤ p.fn Z := by
  have ha : 0 ≤ absSum Z := sum_nonneg fun _ _ => sum_nonneg fun _ _ => abs_nonneg _
  have ht : 0 ≤ totalVar Z := sum_nonneg fun _ _ => sum_nonneg fun _ _ => abs_nonneg _
  cases p with
  | nonNeg => exact le_rfl
  | box lo hi => exact le_rfl
  | l1 γ nn => exact mul_nonneg h ha
  | l2Ball b nn => exact le_rfl
  | genL2 M d => exact sum_nonneg fun r _ => h.2.1 fun i => Z i r
  | tv solver α β => exact add_nonneg (mul_nonneg h.2.1.le ht) (mul_nonneg h.2.2 ha)

/-- Shrinking a feasible matrix of a penalty that is not a pure constraint reduces the penalty in proportion. -/
theorem stdPen_fn_shrink (p : StdPen m n) (h : p.Valid) {Z : Matrix (Fin m) (Fin n) ℝ} {t : ℝ} (h0 : 0 ≤ t) (h1 : t ≤ 1) :
    p.fn (fun i r => t * Z i r) ≤ t * p.fn Z := by
  have ha : absSum (fun i r => t * Z i r) = t * absSum Z := by
    simp only [absSum, abs_mul, abs_of_nonneg h0, mul_sum]
  have ht : totalVar (fun i r => t * Z i r) = t * totalVar Z := by
    simp only [totalVar, ← mul_sub, abs_mul, abs_of_nonneg h0, mul_sum]
  cases p with
  | nonNeg => simp [StdPen.fn]
  | box lo hi => simp [StdPen.fn]
  | l1 γ nn => simp only [StdPen.fn, ha]; linarith
  | l2Ball b nn => simp [StdPen.fn]
  | genL2 M d =>
    simp only [StdPen.fn]
    have e : ∑ r, ∑ i, ∑ j, t * Z i r * M i j * (t * Z j r) = t * (t * ∑ r, ∑ i, ∑ j, Z i r * M i j * Z j r) := by
      simp only [mul_sum]
      exact sum_congr rfl fun _ _ => sum_congr rfl fun _ _ => sum_congr rfl fun _ _ => by ring
    rw [e]
    have hq : 0 ≤ ∑ r, ∑ i, ∑ j, Z i r * M i j * Z j r := sum_nonneg fun r _ => h.2.1 fun i => Z i r
    exact mul_le_mul_of_nonneg_left (by nlinarith) h0
  | tv solver α β => simp only [StdPen.fn, ha, ht]; linarith

theorem stdPen_shrink_mem (p : StdPen m n) (hp : ¬ ∃ lo hi, p = .box lo hi) {Z : Matrix (Fin m) (Fin n) ℝ} (hZ : Z ∈ p.feasible) {t : ℝ} (h0 : 0 ≤ t) (h1 : t ≤ 1) :
    (fun i r => t * Z i r) ∈ p.feasible := by
  cases p with
  | nonNeg => exact fun i r => mul_nonneg h0 (hZ i r)
  | box lo hi => exact absurd ⟨lo, hi, rfl⟩ hp
  | l1 γ nn => exact fun hn i r => mul_nonneg h0 (hZ hn i r)
  | l2Ball b nn =>
    refine ⟨fun r => ?_, fun hn i r => mul_nonneg h0 (hZ.2 hn i r)⟩
    have e : colSq (fun i r => t * Z i r) r = t ^ 2 * colSq Z r := by simp only [colSq, mul_pow, mul_sum]
    rw [e, Real.sqrt_mul (sq_nonneg t), Real.sqrt_sq h0]
    have := hZ.1 r
    have hs := Real.sqrt_nonneg (colSq Z r)
    nlinarith
  | genL2 M d => trivial
  | tv solver α β => trivial

/-- C79: for every convex penalty of the package with accepted parameters and every positive feasibility penalty, an update never increases the penalty, decreases it by at
least `rho/2` times the squared step if the matrix is feasible, and leaves a matrix unchanged exactly if the matrix is feasible and has penalty 0. -/
theorem C79_updates (p : StdPen m n) (h : p.Valid) {ρ : ℝ} (hρ : 0 < ρ) (X aux : Matrix (Fin m) (Fin n) ℝ) :
    p.value (p.mat X ρ aux) ≤ p.value X ∧
    (X ∈ p.feasible → p.value (p.mat X ρ aux) + ρ / 2 * frobSq (p.mat X ρ aux) X ≤ p.value X) ∧
    (p.mat X ρ aux = X ↔ X ∈ p.feasible ∧ p.value X = 0) := by
  simp only [p.value_eq h]
  obtain ⟨hP, hmin⟩ := p.isProx h hρ X aux
  set P := p.mat X ρ aux with hPdef
  have hdec : X ∈ p.feasible → p.fn P + ρ / 2 * frobSq P X ≤ p.fn X := by
    intro hX
    by_cases he : X = P
    · rw [← he, frobSq_eq_zero.2 rfl]; linarith
    · have := hmin X hX he
      rw [frobSq_eq_zero.2 (rfl : X = X)] at this
      linarith
  refine ⟨?_, hdec, ?_, ?_⟩
  · by_cases hX : X ∈ p.feasible
    · have := hdec hX
      have := mul_nonneg (by positivity : (0 : ℝ) ≤ ρ / 2) (frobSq_nonneg P X)
      linarith
    · cases p with
      | nonNeg => exact le_rfl
      | box lo hi => exact le_rfl
      | l2Ball b nn => exact le_rfl
      | genL2 M d => exact absurd trivial hX
      | tv solver α β => exact absurd trivial hX
      | l1 γ nn =>
        refine mul_le_mul_of_nonneg_left (sum_le_sum fun i _ => sum_le_sum fun r _ => ?_) h
        have hγ : 0 ≤ γ / ρ := div_nonneg h hρ.le
        cases nn with
        | false => exact absurd (fun hn => by cases hn) hX
        | true =>
          show |max (X i r - γ / ρ) 0| ≤ |X i r|
          rw [abs_of_nonneg (le_max_right _ _)]
          exact max_le ((sub_le_self _ hγ).trans (le_abs_self _)) (abs_nonneg _)
  · intro he
    have hX : X ∈ p.feasible := he ▸ hP
    refine ⟨hX, le_antisymm ?_ (stdPen_fn_nonneg p h X)⟩
    by_cases hb : ∃ lo hi, p = .box lo hi
    · obtain ⟨lo, hi, rfl⟩ := hb
      exact le_rfl
    have key := linear_nonneg (a := ρ / 2 * sqNorm X) (b := - p.fn X) fun t ht ht1 => ?_
    · linarith
    set W : Matrix (Fin m) (Fin n) ℝ := fun i r => (1 - t) * X i r with hW
    have hWm : W ∈ p.feasible := stdPen_shrink_mem p hb hX (by linarith) (by linarith)
    have hWf : p.fn W ≤ (1 - t) * p.fn X := stdPen_fn_shrink p h (by linarith) (by linarith)
    have hd : frobSq W X = t ^ 2 * sqNorm X := by
      simp only [hW, frobSq, sqNorm, mul_sum]
      exact sum_congr rfl fun _ _ => sum_congr rfl fun _ _ => by ring
    have hle : p.fn X ≤ p.fn W + ρ / 2 * frobSq W X := by
      by_cases hw : W = P
      · rw [he] at hw
        rw [hw, frobSq_eq_zero.2 rfl]; linarith
      · have := hmin W hWm hw
        rw [he, frobSq_eq_zero.2 (rfl : X = X)] at this
        linarith
    rw [hd] at hle
    nlinarith
  · rintro ⟨hX, h0⟩
    by_contra hne
    have := hmin X hX (Ne.symm hne)
    rw [frobSq_eq_zero.2 (rfl : X = X), h0] at this
    have h1 := mul_nonneg (by positivity : (0 : ℝ) ≤ ρ / 2) (frobSq_nonneg P X)
    have h2 := stdPen_fn_nonneg p h P
    linarith

/-- The unimodality update returns a nearest matrix with unimodal (non-negative) columns. -/
theorem unimodalMat_nearest (nn : Bool) (hm : 0 < m) (hn : 0 < n) (ρ : ℝ) (X aux : Matrix (Fin m) (Fin n) ℝ) :
    (∀ r, IsUnimodal (fun i => unimodalMat nn m n X ρ aux i r) ∧ (nn = true → ∀ i, 0 ≤ unimodalMat nn m n X ρ aux i r)) ∧
    ∀ V : Matrix (Fin m) (Fin n) ℝ, (∀ r, IsUnimodal (fun i => V i r) ∧ (nn = true → ∀ i, 0 ≤ V i r)) →
      frobSq (unimodalMat nn m n X ρ aux) X ≤ frobSq V X := by
  obtain ⟨u, h1, -, -, h2, h3⟩ := C03_matrix_columns hm hn (Equiv.refl (Fin n)) X nn
  have e : unimodalMat nn m n X ρ aux = Matrix.of u := by
    unfold unimodalMat
    rw [h1]
    rfl
  have hd : ∀ W : Matrix (Fin m) (Fin n) ℝ, frobSq W X = sqDist (fun p : Fin m × Fin n => X p.1 p.2) (fun p => W p.1 p.2) := by
    intro W
    simp only [frobSq, sqDist, Fintype.sum_prod_type]
    exact sum_congr rfl fun _ _ => sum_congr rfl fun _ _ => by ring
  rw [e]
  refine ⟨h2, fun V hV => ?_⟩
  rw [hd, hd]
  exact h3 (fun p => V p.1 p.2) hV

/-- C79 for unimodality: an update leaves a matrix unchanged exactly if its columns are unimodal, and non-negative if requested. -/
theorem C79_unimodal (nn : Bool) (hm : 0 < m) (hn : 0 < n) (ρ : ℝ) (X aux : Matrix (Fin m) (Fin n) ℝ) :
    unimodalMat nn m n X ρ aux = X ↔ ∀ r, IsUnimodal (fun i => X i r) ∧ (nn → ∀ i, 0 ≤ X i r) := by
  obtain ⟨hmem, hmin⟩ := unimodalMat_nearest nn hm hn ρ X aux
  constructor
  · intro h
    rw [h] at hmem
    exact hmem
  · intro h
    have := hmin X h
    rw [frobSq_eq_zero.2 (rfl : X = X)] at this
    exact frobSq_eq_zero.1 (le_antisymm this (frobSq_nonneg _ _))

/-- C79 for the unit simplex: a matrix with columns in the simplex is changed by no more than the tolerance of the root finder. -/
theorem C79_simplex (hm : 0 < m) (X Z : Matrix (Fin m) (Fin n) ℝ) (hX : X ∈ SimplexSet m n) (h : simplexMat X = .ok Z) (b : ℝ) (hb : ∀ i r, |X i r| ≤ b) (i : Fin m)
    (r : Fin n) : |Z i r - X i r| ≤ 2 / 10 ^ 12 + 4 / 2 ^ 52 * (11 / 10 * (b + 1 + 1 / 10 ^ 5)) := by
  obtain ⟨-, -, P, hP, hZ⟩ := C19_accuracy hm X Z h b hb
  rw [← hP.fixed hX]
  exact hZ i r

/-! ### Non-expansiveness -/

theorem isProx_variational {C : Set (Matrix (Fin m) (Fin n) ℝ)} {g : Matrix (Fin m) (Fin n) ℝ → ℝ} (hg : ConvexOn ℝ C g) {ρ : ℝ}
    {Y P : Matrix (Fin m) (Fin n) ℝ} (h : IsProx C g ρ Y P) {Z : Matrix (Fin m) (Fin n) ℝ} (hZ : Z ∈ C) : g P + ρ * inner (Y - P) (Z - P) ≤ g Z := by
  have key := linear_nonneg (a := ρ / 2 * sqNorm (Z - P)) (b := g Z - g P - ρ * inner (Y - P) (Z - P)) fun t ht ht1 => ?_
  · linarith
  set W : Matrix (Fin m) (Fin n) ℝ := (1 - t) • P + t • Z with hW
  have hWm : W ∈ C := hg.1 h.1 hZ (by linarith) ht.le (by ring)
  have hWg : g W ≤ (1 - t) * g P + t * g Z := hg.2 h.1 hZ (by linarith) ht.le (by ring)
  have hle : g P + ρ / 2 * frobSq P Y ≤ g W + ρ / 2 * frobSq W Y := by
    by_cases hw : W = P
    · rw [hw]
    · exact (h.2 W hWm hw).le
  have e : W - P = t • (Z - P) := by
    rw [hW]; ext i r; simp only [Matrix.sub_apply, Matrix.add_apply, Matrix.smul_apply, smul_eq_mul]; ring
  have e1 : frobSq W P = t ^ 2 * sqNorm (Z - P) := by
    have : frobSq W P = sqNorm (W - P) := rfl
    rw [this, e]
    simp only [sqNorm, Matrix.smul_apply, smul_eq_mul, mul_pow, mul_sum]
  have e2 : inner (Y - P) (W - P) = t * inner (Y - P) (Z - P) := by
    rw [e]
    simp only [inner, Matrix.smul_apply, smul_eq_mul, mul_sum]
    exact sum_congr rfl fun _ _ => sum_congr rfl fun _ _ => by ring
  rw [frobSq_expand P Y W, e1, e2] at hle
  nlinarith

/-- C80: for every convex penalty of the package the update is firmly non-expansive: the outputs for two matrices are no further apart than the matrices, whatever the
auxiliary variables. -/
theorem C80_nonexpansive (p : StdPen m n) (h : p.Valid) {ρ : ℝ} (hρ : 0 < ρ) (X Y aux aux' : Matrix (Fin m) (Fin n) ℝ) :
    frobSq (p.mat X ρ aux) (p.mat Y ρ aux') ≤ inner (p.mat X ρ aux - p.mat Y ρ aux') (X - Y) ∧
    frobSq (p.mat X ρ aux) (p.mat Y ρ aux') ≤ frobSq X Y := by
  have hX := p.isProx h hρ X aux
  have hY := p.isProx h hρ Y aux'
  set P := p.mat X ρ aux
  set Q := p.mat Y ρ aux'
  have h1 := isProx_variational (p.convexOn h) hX hY.1
  have h2 := isProx_variational (p.convexOn h) hY hX.1
  have e1 : inner (X - P) (Q - P) + inner (Y - Q) (P - Q) = frobSq P Q - inner (P - Q) (X - Y) := by
    simp only [inner, frobSq, ← sum_add_distrib, ← sum_sub_distrib, Matrix.sub_apply]
    exact sum_congr rfl fun _ _ => sum_congr rfl fun _ _ => by ring
  have h3 : ρ * (frobSq P Q - inner (P - Q) (X - Y)) ≤ 0 := by
    rw [← e1, mul_add]; linarith
  have h4 : frobSq P Q ≤ inner (P - Q) (X - Y) := by
    by_contra hc
    push Not at hc
    have := mul_pos hρ (sub_pos.2 hc)
    linarith
  refine ⟨h4, ?_⟩
  have e2 : 2 * inner (P - Q) (X - Y) ≤ frobSq P Q + frobSq X Y := by
    simp only [inner, frobSq, mul_sum, ← sum_add_distrib, Matrix.sub_apply]
    exact sum_le_sum fun i _ => sum_le_sum fun r _ => by nlinarith [sq_nonneg (P i r - Q i r - (X i r - Y i r))]
  linarith

theorem unimodal3 {u : Fin 3 → ℝ} (h : IsUnimodal u) : u 0 ≤ u 1 ∨ u 2 ≤ u 1 := by
  obtain ⟨t, h1, h2⟩ := h
  rcases le_total 1 t with ht | ht
  · exact .inl (h1 0 1 (by decide) ht)
  · exact .inr (h2 1 2 ht (by decide))

/-- C80 fails for unimodality, whose feasible set is not convex: (1.1, 0, 1) and (1, 0, 1.1) are at squared distance 0.02, the updates at more than 0.5. -/
theorem C80_unimodal_false (nn : Bool) (ρ : ℝ) (aux : Matrix (Fin 3) (Fin 1) ℝ) :
    ∃ X Y : Matrix (Fin 3) (Fin 1) ℝ, frobSq X Y = 1 / 50 ∧ 1 / 2 < frobSq (unimodalMat nn 3 1 X ρ aux) (unimodalMat nn 3 1 Y ρ aux) := by
  refine ⟨fun i _ => ![11 / 10, 0, 1] i, fun i _ => ![1, 0, 11 / 10] i, ?_, ?_⟩
  · simp [frobSq, Fin.sum_univ_three]; norm_num
  obtain ⟨hP, hP'⟩ := unimodalMat_nearest nn (by norm_num) (by norm_num) ρ (fun (i : Fin 3) (_ : Fin 1) => ![(11 : ℝ) / 10, 0, 1] i) aux
  obtain ⟨hQ, hQ'⟩ := unimodalMat_nearest nn (by norm_num) (by norm_num) ρ (fun (i : Fin 3) (_ : Fin 1) => ![(1 : ℝ), 0, 11 / 10] i) aux
  have hP1 := hP' (fun i _ => ![11 / 10, 1 / 2, 1 / 2] i) fun _ => ⟨⟨0, by
    constructor <;> intro i j <;> fin_cases i <;> fin_cases j <;> norm_num [Fin.le_def, Fin.ext_iff]⟩, fun _ i => by fin_cases i <;> norm_num⟩
  have hQ1 := hQ' (fun i _ => ![1 / 2, 1 / 2, 11 / 10] i) fun _ => ⟨⟨2, by
    constructor <;> intro i j <;> fin_cases i <;> fin_cases j <;> norm_num [Fin.le_def, Fin.ext_iff]⟩, fun _ i => by fin_cases i <;> norm_num⟩
  have hp := unimodal3 (hP 0).1
  have hq := unimodal3 (hQ 0).1
  revert hP1 hQ1 hp hq
  generalize unimodalMat nn 3 1 (fun (i : Fin 3) (_ : Fin 1) => ![(11 : ℝ) / 10, 0, 1] i) ρ aux = P
  generalize unimodalMat nn 3 1 (fun (i : Fin 3) (_ : Fin 1) => ![(1 : ℝ), 0, 11 / 10] i) ρ aux = Q
  intro hP1 hQ1 hp hq
  simp [frobSq, Fin.sum_univ_three] at hP1 hQ1 ⊢
  norm_num at hP1 hQ1
  have hp' : P 2 0 ≤ P 1 0 := by
    rcases hp with h | h
    · nlinarith [sq_nonneg (P 0 0 - 11 / 20), sq_nonneg (P 1 0 - 11 / 20), sq_nonneg (P 2 0 - 1)]
    · exact h
  have hq' : Q 0 0 ≤ Q 1 0 := by
    rcases hq with h | h
    · exact h
    · nlinarith [sq_nonneg (Q 2 0 - 11 / 20), sq_nonneg (Q 1 0 - 11 / 20), sq_nonneg (Q 0 0 - 1)]
  have p0 : P 0 0 = 11 / 10 := by nlinarith [sq_nonneg (P 0 0 - 11 / 10), sq_nonneg (P 1 0 - 1 / 2), sq_nonneg (P 2 0 - 1 / 2)]
  have q0 : Q 0 0 = 1 / 2 := by nlinarith [sq_nonneg (Q 2 0 - 11 / 10), sq_nonneg (Q 1 0 - 1 / 2), sq_nonneg (Q 0 0 - 1 / 2)]
  have p2 : P 2 0 = 1 / 2 := by nlinarith [sq_nonneg (P 0 0 - 11 / 10), sq_nonneg (P 1 0 - 1 / 2), sq_nonneg (P 2 0 - 1 / 2)]
  have q2 : Q 2 0 = 11 / 10 := by nlinarith [sq_nonneg (Q 2 0 - 11 / 10), sq_nonneg (Q 1 0 - 1 / 2), sq_nonneg (Q 0 0 - 1 / 2)]
  rw [p0, q0, p2, q2]
  nlinarith [sq_nonneg (P 1 0 - Q 1 0)]

/-- A penalty meeting the hypotheses: L1 of strength 2 with non-negativity, on a matrix with a negative entry. The update changes it. -/
example : (StdPen.l1 2 true : StdPen 2 1).Valid ∧ (StdPen.l1 2 true : StdPen 2 1).mat (fun i _ => ![3, -1] i) 1 0 ≠ fun i _ => ![3, -1] i := by
  have hv : (StdPen.l1 2 true : StdPen 2 1).Valid := by norm_num [StdPen.Valid]
  refine ⟨hv, fun h => ?_⟩
  have := ((C79_updates _ hv one_pos _ _).2.2.1 h).1 rfl 1 0
  norm_num at this

/-- A box that does not contain 0: its matrices are unchanged. -/
example : (StdPen.box (some 1) (some 2) : StdPen 2 1).mat (fun i _ => ![1, 2] i) 1 0 = fun i _ => ![1, 2] i := by
  refine (C79_updates (.box (some 1) (some 2)) (by norm_num [StdPen.Valid]) one_pos _ _).2.2.2 ⟨fun i r => ?_, rfl⟩
  fin_cases i <;> norm_num

/-- A column in the simplex. -/
example : (fun i _ => ![1 / 3, 2 / 3] i : Matrix (Fin 2) (Fin 1) ℝ) ∈ SimplexSet 2 1 := by
  refine ⟨fun i r => ?_, fun r => ?_⟩
  · fin_cases i <;> norm_num
  · norm_num [Fin.sum_univ_two]

/-- A unimodal column that is not monotone. -/
example : unimodalMat true 3 1 (fun i _ => ![1, 5, 2] i) 1 0 = fun i _ => ![1, 5, 2] i := by
  refine (C79_unimodal true (by norm_num) (by norm_num) 1 _ _).2 fun r => ⟨⟨1, ?_⟩, fun _ i => ?_⟩
  · constructor <;> intro i j <;> fin_cases i <;> fin_cases j <;> norm_num [Fin.le_def, Fin.ext_iff]
  · fin_cases i <;> norm_num

end Verif.Props
