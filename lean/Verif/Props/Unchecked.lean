import Verif.Props.LoopRate

/-!
# C123: numbers that are not checked (negative `l2_penalty`, `feasibility_penalty_scale` that is not positive)
-/

set_option linter.unusedSectionVars false

namespace Verif.Props

open Verif.ADMM Verif.Penalties Verif.Spec Verif.Loop Finset Matrix Filter

variable {I K R n m : ℕ} {J : Fin I → ℕ}

/-! ### Directions of negative curvature -/

theorem quad_unbounded {f : ℝ → ℝ} {a b c : ℝ} (h : ∀ t, f t = a + t * b + t ^ 2 * c) (hc : c < 0) (M : ℝ) : ∃ t, f t < M := by
  have hc0 : c ≠ 0 := hc.ne
  refine ⟨(|b| + |a - M| + 1) / -c + 1, ?_⟩
  set t := (|b| + |a - M| + 1) / -c + 1 with ht
  have h1 : (t - 1) * -c = |b| + |a - M| + 1 := by
    rw [ht, add_sub_cancel_right, div_mul_cancel₀]
    exact neg_ne_zero.2 hc0
  have hq : 0 ≤ (|b| + |a - M| + 1) / -c := div_nonneg (by positivity) (by linarith)
  have ht1 : 1 ≤ t := by linarith
  have h2 : t * b ≤ t * |b| := mul_le_mul_of_nonneg_left (le_abs_self b) (by linarith)
  have h3 : a - M ≤ |a - M| := le_abs_self _
  have h4 : t ^ 2 * c = -(t * (|b| + |a - M| + 1)) + t * c := by linear_combination (-t) * h1
  have h5 : |a - M| ≤ t * |a - M| := le_mul_of_one_le_left (abs_nonneg _) ht1
  have h6 : t * c ≤ 0 := mul_nonpos_of_nonneg_of_nonpos (by linarith) hc.le
  rw [h, h4]
  nlinarith

/-- The same for a function on matrices that is quadratic around 0. -/
theorem quadAt_unbounded {V ι : Type} [AddCommGroup V] [Module ℝ V] [Fintype ι] {f q : V → ℝ} {c : ι → V →ₗ[ℝ] ℝ} {a : ι → ℝ} (h : QuadAt f q c 0 a)
    {v : V} (hq : ∀ t : ℝ, q (t • v) = t ^ 2 * q v) (hv : q v < 0) (M : ℝ) : ∃ y, f y < M := by
  obtain ⟨t, ht⟩ := quad_unbounded (f := fun t => f (t • v)) (a := f 0) (b := ∑ i, a i * c i v) (c := q v) (fun t => by
    show f (t • v) = _
    rw [h (t • v), sub_zero, hq, mul_sum]
    simp only [map_smul, smul_eq_mul]
    congr 2
    exact sum_congr rfl fun i _ => by ring) hv M
  exact ⟨_, ht⟩

theorem sqNorm_smul_any {μ ν : Type} [Fintype μ] [Fintype ν] (t : ℝ) (V : Matrix μ ν ℝ) : sqNorm (t • V) = t ^ 2 * sqNorm V := by
  simp only [sqNorm, Matrix.smul_apply, smul_eq_mul, mul_pow, mul_sum]

theorem lsqQuad_smul {κ : Type} [Fintype κ] (M : Matrix κ (Fin R) ℝ) (l2 t : ℝ) (V : Matrix (Fin m) (Fin R) ℝ) :
    1 / 2 * sqNorm ((t • V) * M.transpose) + l2 / 2 * sqNorm (t • V) = t ^ 2 * (1 / 2 * sqNorm (V * M.transpose) + l2 / 2 * sqNorm V) := by
  rw [Matrix.smul_mul, sqNorm_smul_any, sqNorm_smul_any]
  ring

/-- The quadratic form at a matrix with a single nonzero row. -/
theorem lsqQuad_row {κ : Type} [Fintype κ] (M : Matrix κ (Fin R) ℝ) (l2 : ℝ) (j : Fin m) (v : Fin R → ℝ) :
    1 / 2 * sqNorm ((Matrix.of fun j' r => if j' = j then v r else 0) * M.transpose) + l2 / 2 * sqNorm (Matrix.of fun j' r => if j' = j then v r else 0)
      = 1 / 2 * (∑ k, (∑ r, M k r * v r) ^ 2 + l2 * ∑ r, v r ^ 2) := by
  have h1 : sqNorm ((Matrix.of fun j' r => if j' = j then v r else 0 : Matrix (Fin m) (Fin R) ℝ) * M.transpose) = ∑ k, (∑ r, M k r * v r) ^ 2 := by
    simp only [sqNorm, mul_apply, transpose_apply, Matrix.of_apply]
    rw [sum_eq_single j]
    · refine sum_congr rfl fun k _ => ?_
      congr 1
      exact sum_congr rfl fun r _ => by rw [if_pos rfl, mul_comm]
    · intro i _ hi
      simp [hi]
    · intro h; exact absurd (mem_univ j) h
  have h2 : sqNorm (Matrix.of fun j' r => if j' = j then v r else 0 : Matrix (Fin m) (Fin R) ℝ) = ∑ r, v r ^ 2 := by
    simp only [sqNorm, Matrix.of_apply]
    rw [sum_eq_single j]
    · simp
    · intro i _ hi
      simp [hi]
    · intro h; exact absurd (mem_univ j) h
  rw [h1, h2]
  ring

/-- C123, mode 0: if `l2_penalty` is so negative that the objective decreases along some direction, the objective has no lower bound, but the update returns. -/
theorem C123_unbounded_A (P : Params R) (X : Ragged I K J) (l2 : ℝ) (F : Factors I K R J) (i : Fin I) (v : Fin R → ℝ)
    (hv : ∑ j, ∑ k, (∑ r, v r * F.B i j r * F.C k r) ^ 2 + l2 * ∑ r, v r ^ 2 < 0)
    (constant : Bool) (pens : Fin 0 → PenA I R) (aux dual : Fin 0 → Matrix (Fin I) (Fin R) ℝ) :
    (∀ b, ∃ Y, fitA X l2 F Y < b) ∧ ∃ s, admmUpdateA P X pens l2 constant F aux dual = .ok s := by
  refine ⟨fun b => ?_, ?_⟩
  · refine quadAt_unbounded (quadAt_A X F l2 0) (v := (Matrix.of fun i' r => if i' = i then v r else 0 : Matrix (Fin I) (Fin R) ℝ)) (fun t => ?_) ?_ b
    · rw [quadA, quadA, mul_sum]
      exact sum_congr rfl fun i' _ => lsqQuad_smul (designA F i') l2 t (rowMat _)
    · rw [quadA, sum_eq_single i]
      · have e : rowMat ((Matrix.of fun i' r => if i' = i then v r else 0 : Matrix (Fin I) (Fin R) ℝ) i)
            = (Matrix.of fun (j' : Fin 1) r => if j' = 0 then v r else 0) := by
          ext a r
          simp [rowMat, Subsingleton.elim a 0]
        rw [e, lsqQuad_row, Fintype.sum_prod_type]
        have : ∑ j, ∑ k, (∑ r, designA F i (j, k) r * v r) ^ 2 = ∑ j, ∑ k, (∑ r, v r * F.B i j r * F.C k r) ^ 2 :=
          sum_congr rfl fun j _ => sum_congr rfl fun k _ => by
            congr 1
            exact sum_congr rfl fun r _ => by simp only [designA, Matrix.of_apply]; ring
        rw [this]
        linarith
      · intro i' _ hi
        have e : rowMat ((Matrix.of fun i' r => if i' = i then v r else 0 : Matrix (Fin I) (Fin R) ℝ) i') = 0 := by
          ext a r
          simp [rowMat, hi]
        rw [e]
        simp [sqNorm]
      · intro h; exact absurd (mem_univ i) h
  · rw [admmUpdateA_succeeds]
    exact ⟨fun _ => i.pos, fun _ _ _ p => p.elim0⟩

/-- C123, mode 1. -/
theorem C123_unbounded_B (P : Params R) (X : Ragged I K J) (l2 : ℝ) (F : Factors I K R J) (i : Fin I) (j : Fin (J i)) (v : Fin R → ℝ)
    (hv : ∑ k, (∑ r, F.A i r * v r * F.C k r) ^ 2 + l2 * ∑ r, v r ^ 2 < 0)
    (constant : Bool) (pens : Fin 0 → PenB I R J) (aux : Fin 0 → AuxB I R J) (dual : Fin 0 → Ragged I R J) :
    (∀ b, ∃ Y, fitB X l2 F Y < b) ∧ ∃ s, admmUpdateB P X pens l2 constant F aux dual = .ok s := by
  refine ⟨fun b => ?_, ?_⟩
  · set V : Ragged I R J := Function.update 0 i (Matrix.of fun j' r => if j' = j then v r else 0) with hV
    refine quadAt_unbounded (quadAt_B X F l2 0) (v := V) (fun t => ?_) ?_ b
    · rw [quadB, quadB, mul_sum]
      exact sum_congr rfl fun i' _ => lsqQuad_smul (designB F i') l2 t (V i')
    · rw [quadB, sum_eq_single i]
      · rw [hV, Function.update_self, lsqQuad_row]
        have : ∑ k, (∑ r, designB F i k r * v r) ^ 2 = ∑ k, (∑ r, F.A i r * v r * F.C k r) ^ 2 :=
          sum_congr rfl fun k _ => by
            congr 1
            exact sum_congr rfl fun r _ => by simp only [designB, Matrix.of_apply]; ring
        rw [this]
        linarith
      · intro i' _ hi
        rw [hV, Function.update_of_ne hi]
        simp [sqNorm]
      · intro h; exact absurd (mem_univ i) h
  · rw [admmUpdateB_succeeds]
    exact fun _ => i.pos

/-- C123, mode 2. -/
theorem C123_unbounded_C (X : Ragged I K J) (l2 : ℝ) (F : Factors I K R J) (k : Fin K) (v : Fin R → ℝ)
    (hv : ∑ i, ∑ j, (∑ r, F.A i r * F.B i j r * v r) ^ 2 + l2 * ∑ r, v r ^ 2 < 0) : ∀ b, ∃ Y, fitC X l2 F Y < b := by
  intro b
  refine quadAt_unbounded (quadAt_C X F l2 0) (v := (Matrix.of fun k' r => if k' = k then v r else 0 : Matrix (Fin K) (Fin R) ℝ)) (fun t => ?_) ?_ b
  · exact lsqQuad_smul (designC F) l2 t _
  · rw [quadC, lsqQuad_row, Fintype.sum_sigma]
    have : ∑ i, ∑ j, (∑ r, designC F ⟨i, j⟩ r * v r) ^ 2 = ∑ i, ∑ j, (∑ r, F.A i r * F.B i j r * v r) ^ 2 :=
      sum_congr rfl fun i _ => sum_congr rfl fun j _ => by
        congr 1
        exact sum_congr rfl fun r _ => by simp only [designC, Matrix.of_apply]; ring
    rw [this]
    linarith

/-! ### Maximisers -/

theorem isUnit_gram_neg {κ : Type} [Fintype κ] (M : Matrix κ (Fin R) ℝ) {c : ℝ}
    (h : ∀ v : Fin R → ℝ, v ≠ 0 → ∑ k, (∑ r, M k r * v r) ^ 2 + c * ∑ r, v r ^ 2 < 0) : IsUnit (M.transpose * M + c • (1 : Matrix (Fin R) (Fin R) ℝ)) := by
  rw [← Matrix.mulVec_injective_iff_isUnit]
  intro v w hvw
  by_contra hne
  have h1 := h (v - w) (sub_ne_zero.2 hne)
  have h0 : (M.transpose * M + c • (1 : Matrix (Fin R) (Fin R) ℝ)).mulVec (v - w) = 0 := by
    rw [mulVec_sub]; exact sub_eq_zero.2 hvw
  have h2 : ∑ i, (v - w) i * (M.transpose * M + c • (1 : Matrix (Fin R) (Fin R) ℝ)).mulVec (v - w) i = 0 := by
    rw [h0]; simp
  have h3 : ∑ i, (v - w) i * (M.transpose * M + c • (1 : Matrix (Fin R) (Fin R) ℝ)).mulVec (v - w) i
      = ∑ k, (∑ r, M k r * (v - w) r) ^ 2 + c * ∑ r, (v - w) r ^ 2 := by
    generalize v - w = u
    have e : ∑ k, (∑ r, M k r * u r) ^ 2 = ∑ i, u i * (M.transpose * M).mulVec u i := by
      rw [← mulVec_mulVec]
      simp only [mulVec, dotProduct, transpose_apply, mul_sum, sq, sum_mul]
      rw [sum_comm]
      exact sum_congr rfl fun i _ => sum_congr rfl fun j _ => sum_congr rfl fun k _ => by ring
    rw [e, mul_sum, ← sum_add_distrib]
    refine sum_congr rfl fun i _ => ?_
    rw [add_mulVec, smul_mulVec, one_mulVec]
    simp only [Pi.add_apply, Pi.smul_apply, smul_eq_mul]
    ring
  rw [h3] at h2
  linarith

theorem curvature_neg {κ : Type} [Fintype κ] (M : Matrix κ (Fin R) ℝ) {d : ℝ}
    (h : ∀ v : Fin R → ℝ, v ≠ 0 → ∑ k, (∑ r, M k r * v r) ^ 2 + d * ∑ r, v r ^ 2 < 0) (V : Matrix (Fin m) (Fin R) ℝ) :
    1 / 2 * sqNorm (V * M.transpose) + d / 2 * sqNorm V ≤ 0 ∧ (V ≠ 0 → 1 / 2 * sqNorm (V * M.transpose) + d / 2 * sqNorm V < 0) := by
  have e : 1 / 2 * sqNorm (V * M.transpose) + d / 2 * sqNorm V = 1 / 2 * ∑ i, (∑ k, (∑ r, M k r * V i r) ^ 2 + d * ∑ r, V i r ^ 2) := by
    rw [sqNorm_mul_transpose, sum_add_distrib, ← mul_sum]
    show _ = 1 / 2 * (_ + d * sqNorm V)
    ring
  have hnp : ∀ i, ∑ k, (∑ r, M k r * V i r) ^ 2 + d * ∑ r, V i r ^ 2 ≤ 0 := by
    intro i
    by_cases hi : V i = 0
    · simp [hi]
    · exact (h _ hi).le
  rw [e]
  refine ⟨?_, fun hV => ?_⟩
  · have := sum_nonpos fun i (_ : i ∈ univ) => hnp i
    linarith
  · obtain ⟨i, hi⟩ : ∃ i, V i ≠ 0 := by
      by_contra hc
      push Not at hc
      exact hV (by ext i r; exact congrFun (hc i) r)
    have := sum_lt_sum (f := fun i => ∑ k, (∑ r, M k r * V i r) ^ 2 + d * ∑ r, V i r ^ 2) (g := fun _ => 0) (fun i _ => hnp i) ⟨i, mem_univ i, h _ hi⟩
    rw [sum_const_zero] at this
    linarith

/-- C123, mode 0: if `l2_penalty` is so negative that the objective decreases along all directions, the update returns the maximiser of the objective. -/
theorem C123_max_A (P : Params R) (hsvd : ValidSVD P) (hN : 0 < P.nInner) (X : Ragged I K J) (l2 : ℝ)
    (constant : Bool) (F : Factors I K R J) (pens : Fin 0 → PenA I R) (aux dual : Fin 0 → Matrix (Fin I) (Fin R) ℝ)
    (hneg : ∀ i (v : Fin R → ℝ), v ≠ 0 → ∑ j, ∑ k, (∑ r, v r * F.B i j r * F.C k r) ^ 2 + l2 * ∑ r, v r ^ 2 < 0)
    (s : MatState I R 0) (h : admmUpdateA P X pens l2 constant F aux dual = .ok s) (Y : Matrix (Fin I) (Fin R) ℝ) (hY : Y ≠ s.x) :
    fitA X l2 F Y < fitA X l2 F s.x := by
  obtain ⟨o, ρ, -, -, -, -, rfl⟩ := admmUpdateA_ok h
  obtain ⟨s₀, hs⟩ := innerLoop_last (stepA pens o ρ (fun i => P.svd (addRidge (crossA F i) (ρ i) 0 l2)) (rhsA X F))
    (matStop P.innerTol) P.nInner ⟨F.A, aux, dual⟩ hN
  rw [hs] at hY ⊢
  have hd : ∀ i (v : Fin R → ℝ), v ≠ 0 → ∑ k, (∑ r, designA F i k r * v r) ^ 2 + l2 * ∑ r, v r ^ 2 < 0 := by
    intro i v hv
    have := hneg i v hv
    rw [Fintype.sum_prod_type]
    convert this using 6
    simp only [designA, Matrix.of_apply]; ring
  have hu : ∀ i, IsUnit (addRidge (crossA F i) (ρ i) 0 l2) := fun i => by
    rw [crossA_eq, addRidge, Nat.cast_zero, mul_zero, zero_add]
    exact isUnit_gram_neg _ (hd i)
  have hexp := stepA_expand X F l2 pens o ρ (fun i => P.svd (addRidge (crossA F i) (ρ i) 0 l2)) (fun i => hsvd _) hu s₀ Y
  simp only [univ_eq_empty, sum_empty, add_zero] at hexp
  set x := (stepA pens o ρ (fun i => P.svd (addRidge (crossA F i) (ρ i) 0 l2)) (rhsA X F) s₀).x
  have hq : quadA F l2 (Y - x) < 0 := by
    have hc := fun i => curvature_neg (designA F i) (hd i) (rowMat ((Y - x) i))
    obtain ⟨i, hi⟩ : ∃ i, rowMat ((Y - x) i) ≠ 0 := by
      by_contra hc
      push Not at hc
      exact hY (by ext i r; exact sub_eq_zero.1 (congrFun (congrFun (hc i) 0) r))
    have := sum_lt_sum (g := fun _ => (0 : ℝ)) (fun i _ => (hc i).1) ⟨i, mem_univ i, (hc i).2 hi⟩
    rw [sum_const_zero] at this
    exact this
  simp only [fitA]
  linarith

/-- C123, mode 1. -/
theorem C123_max_B (P : Params R) (hsvd : ValidSVD P) (hN : 0 < P.nInner) (X : Ragged I K J) (l2 : ℝ)
    (constant : Bool) (F : Factors I K R J) (pens : Fin 0 → PenB I R J) (aux : Fin 0 → AuxB I R J) (dual : Fin 0 → Ragged I R J)
    (hneg : ∀ i (v : Fin R → ℝ), v ≠ 0 → ∑ k, (∑ r, F.A i r * v r * F.C k r) ^ 2 + l2 * ∑ r, v r ^ 2 < 0)
    (s : RagState I R 0 J) (h : admmUpdateB P X pens l2 constant F aux dual = .ok s) (Y : Ragged I R J) (hY : Y ≠ s.x) :
    fitB X l2 F Y < fitB X l2 F s.x := by
  obtain ⟨ρ, -, rfl⟩ := admmUpdateB_ok h
  obtain ⟨s₀, hs⟩ := innerLoop_last (stepB pens ρ (fun i => P.svd (addRidge (crossB F i) (ρ i) 0 l2)) (rhsB X F))
    (ragStop P.innerTol) P.nInner ⟨F.B, aux, dual⟩ hN
  rw [hs] at hY ⊢
  have hd : ∀ i (v : Fin R → ℝ), v ≠ 0 → ∑ k, (∑ r, designB F i k r * v r) ^ 2 + l2 * ∑ r, v r ^ 2 < 0 := by
    intro i v hv
    have := hneg i v hv
    convert this using 5
    simp only [designB, Matrix.of_apply]; ring
  have hu : ∀ i, IsUnit (addRidge (crossB F i) (ρ i) 0 l2) := fun i => by
    rw [crossB_eq, addRidge, Nat.cast_zero, mul_zero, zero_add]
    exact isUnit_gram_neg _ (hd i)
  have hexp := stepB_expand X F l2 pens ρ (fun i => P.svd (addRidge (crossB F i) (ρ i) 0 l2)) (fun i => hsvd _) hu s₀ Y
  simp only [univ_eq_empty, sum_empty, add_zero] at hexp
  set x := (stepB pens ρ (fun i => P.svd (addRidge (crossB F i) (ρ i) 0 l2)) (rhsB X F) s₀).x
  have hq : quadB F l2 (Y - x) < 0 := by
    have hc := fun i => curvature_neg (designB F i) (hd i) ((Y - x) i)
    obtain ⟨i, hi⟩ : ∃ i, (Y - x) i ≠ 0 := by
      by_contra hc
      push Not at hc
      exact hY (funext fun i => sub_eq_zero.1 (hc i))
    have := sum_lt_sum (g := fun _ => (0 : ℝ)) (fun i _ => (hc i).1) ⟨i, mem_univ i, (hc i).2 hi⟩
    rw [sum_const_zero] at this
    exact this
  simp only [fitB]
  linarith

/-- C123, mode 2. -/
theorem C123_max_C (P : Params R) (hsvd : ValidSVD P) (hN : 0 < P.nInner) (X : Ragged I K J) (l2 : ℝ)
    (F : Factors I K R J) (pens : Fin 0 → PenC K R) (aux dual : Fin 0 → Matrix (Fin K) (Fin R) ℝ)
    (hneg : ∀ v : Fin R → ℝ, v ≠ 0 → ∑ i, ∑ j, (∑ r, F.A i r * F.B i j r * v r) ^ 2 + l2 * ∑ r, v r ^ 2 < 0)
    (Y : Matrix (Fin K) (Fin R) ℝ) (hY : Y ≠ (admmUpdateC P X pens l2 F aux dual).x) :
    fitC X l2 F Y < fitC X l2 F (admmUpdateC P X pens l2 F aux dual).x := by
  rw [admmUpdateC_eq] at hY ⊢
  obtain ⟨s₀, hs⟩ := innerLoop_last (stepC pens (weightC P.scale F) (P.svd (addRidge (crossC F) (weightC P.scale F) 0 l2)) (rhsC X F))
    (matStop P.innerTol) P.nInner ⟨F.C, aux, dual⟩ hN
  rw [hs] at hY ⊢
  have hd : ∀ v : Fin R → ℝ, v ≠ 0 → ∑ k, (∑ r, designC F k r * v r) ^ 2 + l2 * ∑ r, v r ^ 2 < 0 := by
    intro v hv
    have := hneg v hv
    rw [Fintype.sum_sigma]
    convert this using 7
    simp only [designC, Matrix.of_apply]; ring
  have hu : IsUnit (addRidge (crossC F) (weightC P.scale F) 0 l2) := by
    rw [crossC_eq, addRidge, Nat.cast_zero, mul_zero, zero_add]
    exact isUnit_gram_neg _ hd
  have hexp := stepC_expand X F l2 pens (weightC P.scale F) _ (hsvd _) hu s₀ Y
  simp only [univ_eq_empty, sum_empty, add_zero] at hexp
  set x := (stepC pens (weightC P.scale F) (P.svd (addRidge (crossC F) (weightC P.scale F) 0 l2)) (rhsC X F) s₀).x
  have hq : quadC F l2 (Y - x) < 0 := (curvature_neg (designC F) hd (Y - x)).2 (sub_ne_zero.2 hY)
  simp only [fitC]
  linarith

/-! ### Feasibility penalties that are zero -/

theorem weights_zero {constant : Bool} {w ρ : Fin I → ℝ} (h : IsWeights constant w ρ) (hw : ∀ i, w i = 0) (i : Fin I) : ρ i = 0 := by
  cases constant with
  | false => rw [h.1 rfl, hw]
  | true =>
    obtain ⟨i₀, -, h2⟩ := h.2 rfl
    rw [h2, hw]

/-- C123, mode 0: with `feasibility_penalty_scale=0` the returned factor does not depend on the penalties: it is that of the call without penalties. -/
theorem C123_zero_A (P : Params R) (hs : P.scale = 0) (hN : 0 < P.nInner) (X : Ragged I K J) (l2 : ℝ) (constant : Bool) (F : Factors I K R J)
    (pens : Fin n → PenA I R) (aux dual : Fin n → Matrix (Fin I) (Fin R) ℝ) (s : MatState I R n) (h : admmUpdateA P X pens l2 constant F aux dual = .ok s)
    (pens0 : Fin 0 → PenA I R) (aux0 dual0 : Fin 0 → Matrix (Fin I) (Fin R) ℝ) (s0 : MatState I R 0)
    (h0 : admmUpdateA P X pens0 l2 constant F aux0 dual0 = .ok s0) : s.x = s0.x := by
  obtain ⟨o, ρ, hρ, -, -, -, rfl⟩ := admmUpdateA_ok h
  obtain ⟨o', ρ', hρ', -, -, -, rfl⟩ := admmUpdateA_ok h0
  have hz : ∀ i, weightA P.scale F i = 0 := fun i => by rw [hs, weightA, zero_div, zero_mul]
  have e : ρ = fun _ => 0 := funext fun i => weights_zero hρ hz i
  have e' : ρ' = fun _ => 0 := funext fun i => weights_zero hρ' hz i
  subst e e'
  obtain ⟨t, ht⟩ := innerLoop_last (stepA pens o (fun _ => 0) (fun i => P.svd (addRidge (crossA F i) 0 n l2)) (rhsA X F)) (matStop P.innerTol) P.nInner
    ⟨F.A, aux, dual⟩ hN
  obtain ⟨t', ht'⟩ := innerLoop_last (stepA pens0 o' (fun _ => 0) (fun i => P.svd (addRidge (crossA F i) 0 0 l2)) (rhsA X F)) (matStop P.innerTol) P.nInner
    ⟨F.A, aux0, dual0⟩ hN
  rw [ht, ht']
  funext i
  simp only [stepA, zero_smul, zero_add, addRidge, zero_mul]

/-- C123, mode 1. -/
theorem C123_zero_B (P : Params R) (hs : P.scale = 0) (hN : 0 < P.nInner) (X : Ragged I K J) (l2 : ℝ) (constant : Bool) (F : Factors I K R J)
    (pens : Fin n → PenB I R J) (aux : Fin n → AuxB I R J) (dual : Fin n → Ragged I R J) (s : RagState I R n J)
    (h : admmUpdateB P X pens l2 constant F aux dual = .ok s)
    (pens0 : Fin 0 → PenB I R J) (aux0 : Fin 0 → AuxB I R J) (dual0 : Fin 0 → Ragged I R J) (s0 : RagState I R 0 J)
    (h0 : admmUpdateB P X pens0 l2 constant F aux0 dual0 = .ok s0) : s.x = s0.x := by
  obtain ⟨ρ, hρ, rfl⟩ := admmUpdateB_ok h
  obtain ⟨ρ', hρ', rfl⟩ := admmUpdateB_ok h0
  have hz : ∀ i, weightB P.scale F i = 0 := fun i => by rw [hs, weightB, zero_div, zero_mul]
  have e : ρ = fun _ => 0 := funext fun i => weights_zero hρ hz i
  have e' : ρ' = fun _ => 0 := funext fun i => weights_zero hρ' hz i
  subst e e'
  obtain ⟨t, ht⟩ := innerLoop_last (stepB pens (fun _ => 0) (fun i => P.svd (addRidge (crossB F i) 0 n l2)) (rhsB X F)) (ragStop P.innerTol) P.nInner
    ⟨F.B, aux, dual⟩ hN
  obtain ⟨t', ht'⟩ := innerLoop_last (stepB pens0 (fun _ => 0) (fun i => P.svd (addRidge (crossB F i) 0 0 l2)) (rhsB X F)) (ragStop P.innerTol) P.nInner
    ⟨F.B, aux0, dual0⟩ hN
  rw [ht, ht']
  funext i
  simp only [stepB, zero_smul, zero_add, addRidge, zero_mul]

/-- C123, mode 2. -/
theorem C123_zero_C (P : Params R) (hs : P.scale = 0) (hN : 0 < P.nInner) (X : Ragged I K J) (l2 : ℝ) (F : Factors I K R J)
    (pens : Fin n → PenC K R) (aux dual : Fin n → Matrix (Fin K) (Fin R) ℝ) (pens0 : Fin 0 → PenC K R) (aux0 dual0 : Fin 0 → Matrix (Fin K) (Fin R) ℝ) :
    (admmUpdateC P X pens l2 F aux dual).x = (admmUpdateC P X pens0 l2 F aux0 dual0).x := by
  rw [admmUpdateC_eq, admmUpdateC_eq, show weightC P.scale F = 0 by rw [hs, weightC, zero_div, zero_mul]]
  obtain ⟨t, ht⟩ := innerLoop_last (stepC pens 0 (P.svd (addRidge (crossC F) 0 n l2)) (rhsC X F)) (matStop P.innerTol) P.nInner ⟨F.C, aux, dual⟩ hN
  obtain ⟨t', ht'⟩ := innerLoop_last (stepC pens0 0 (P.svd (addRidge (crossC F) 0 0 l2)) (rhsC X F)) (matStop P.innerTol) P.nInner ⟨F.C, aux0, dual0⟩ hN
  rw [ht, ht']
  simp only [stepC, zero_smul, zero_add, addRidge, zero_mul]

/-! ### Runs -/

/-- C123 fails for `l2_penalty=-3`: data 1, the other factors 1. The call returns, and the returned A is the maximiser of the objective, which has no lower bound. -/
theorem C123_l2_false : ∃ (P : Problem 1 1 1 0 0 0 fun _ => 1) (init : AOState 1 1 1 0 0 0 fun _ => 1), P.l2 = (-3, 0, 0) ∧ P.updA = true ∧
    ValidSVD P.params ∧ 0 < P.params.nInner ∧
    ∃ out, cmfAoadmm P (plain 1) init = .ok out ∧ (∀ b, ∃ Y, fitA P.X (-3) init.F Y < b) ∧
      ∀ Y, Y ≠ out.st.F.A → fitA P.X (-3) init.F Y < fitA P.X (-3) init.F out.st.F.A := by
  obtain ⟨prm, hP, hN, ht, hscale⟩ := exists_params 1 1 none 1
  let P : Problem 1 1 1 0 0 0 fun _ => 1 := ⟨fun _ => !![1], Fin.elim0, Fin.elim0, Fin.elim0, (-3, 0, 0), prm, false, false, true, false, false⟩
  let init : AOState 1 1 1 0 0 0 fun _ => 1 := ⟨none, ones, Fin.elim0, Fin.elim0, Fin.elim0, Fin.elim0, Fin.elim0, Fin.elim0⟩
  choose outs ho using fun n : ℕ => C61 P one_pos (fun _ p => p.elim0) (plain n) (by simp [plain, truthy]) init
  have hneg : ∀ (i : Fin 1) (v : Fin 1 → ℝ), v ≠ 0 → ∑ j, ∑ k, (∑ r, v r * init.F.B i j r * init.F.C k r) ^ 2 + -3 * ∑ r, v r ^ 2 < 0 := by
    intro i v hv
    have h0 : v 0 ≠ 0 := fun h => hv (funext fun r => by rw [Subsingleton.elim r 0]; exact h)
    have : 0 < v 0 ^ 2 := by positivity
    simp [init, ones]
    linarith
  obtain ⟨seq, M, h0, hseq, hM⟩ := C59_A P (by show 0 < prm.nInner; omega) rfl rfl rfl init outs ho
  obtain ⟨e, h1, h2, -⟩ := hM 1
  rw [show P.params.nInner = 1 from hN] at h2
  have hM1 : M 1 = 1 := by omega
  rw [hM1] at e
  have hx : (outs 1).st.F.A = (seq 1).x := by rw [← e]
  have hs0 := hseq 0
  rw [h0] at hs0
  refine ⟨P, init, rfl, rfl, hP, by show 0 < prm.nInner; omega, outs 1, ho 1, ?_, fun Y hY => ?_⟩
  · refine (C123_unbounded_A prm P.X (-3) init.F 0 (fun _ => 1) (hneg 0 _ fun h => ?_) false P.pensA init.auxA init.dualA).1
    exact one_ne_zero (congrFun h 0)
  · rw [hx] at hY ⊢
    exact C123_max_A (once P.params) hP one_pos P.X (-3) false init.F P.pensA init.auxA init.dualA hneg (seq 1) hs0 Y hY

/-- C123 fails for `feasibility_penalty_scale=-1`: non-negativity on A, data -1, the other factors 1. The call returns, and whatever the initial auxiliary and dual
variables are, A falls below every number when the number of iterations grows. -/
theorem C123_scale_false : ∃ (P : Problem 1 1 1 1 0 0 fun _ => 1), P.params.scale = -1 ∧ P.updA = true ∧ P.pensA 0 = (StdPen.nonNeg : StdPen 1 1).toA ∧
    ValidSVD P.params ∧ 0 < P.params.nInner ∧
    ∀ init : AOState 1 1 1 1 0 0 fun _ => 1, init.F = ones → ∃ outs : ℕ → Output (AOState 1 1 1 1 0 0 fun _ => 1),
      (∀ n : ℕ, cmfAoadmm P (plain n) init = .ok (outs n)) ∧ Tendsto (fun n => (outs n).st.F.A 0 0) atTop atBot := by
  obtain ⟨prm, hP, hN, ht, hscale⟩ := exists_params 1 1 none (-1)
  let P : Problem 1 1 1 1 0 0 fun _ => 1 :=
    ⟨fun _ => !![-1], fun _ => (StdPen.nonNeg : StdPen 1 1).toA, Fin.elim0, Fin.elim0, (0, 0, 0), prm, false, false, true, false, false⟩
  refine ⟨P, hscale, rfl, rfl, hP, by show 0 < prm.nInner; omega, fun init hinit => ?_⟩
  choose outs ho using fun n : ℕ => C61 P one_pos (fun _ p => by fin_cases p; rfl) (plain n) (by simp [plain, truthy]) init
  refine ⟨outs, ho, ?_⟩
  obtain ⟨seq, M, h0, hseq, hM⟩ := C59_A P (by show 0 < prm.nInner; omega) rfl rfl rfl init outs ho
  have hMn : ∀ n, M n = n := fun n => by
    have := (hM n).2
    rw [show P.params.nInner = 1 from hN] at this
    omega
  have hx : ∀ n, (outs n).st.F.A = (seq n).x := fun n => by
    have := (hM n).1
    rw [hMn] at this
    rw [← this]
  have hstep : ∀ k, (seq (k + 1)).x 0 0 = (seq k).dual 0 0 0 - (seq k).aux 0 0 0 - 2 ∧
      (seq (k + 1)).aux 0 0 0 = max 0 ((seq (k + 1)).x 0 0 + (seq k).dual 0 0 0) ∧
      (seq (k + 1)).dual 0 0 0 = (seq (k + 1)).x 0 0 - ((seq (k + 1)).aux 0 0 0 - (seq k).dual 0 0 0) := by
    intro k
    obtain ⟨o, ρ, hρ, ho1, -, -, hs⟩ := admmUpdateA_ok (hseq k)
    have hsc : P.params.scale = -1 := hscale
    have hρ0 : ρ 0 = -1 / 2 := by
      rw [hρ.1 rfl]
      show weightA P.params.scale _ 0 = _
      rw [hsc, hinit]
      simp [weightA, ones]
    have ho2 := ho1 rfl
    subst ho2
    rw [show (once P.params).nInner = 1 from rfl, innerLoop_one] at hs
    have hG : addRidge (crossA ⟨(seq k).x, init.F.B, init.F.C⟩ 0) (ρ 0) 1 0 0 0 = 1 / 2 := by
      rw [hinit, hρ0]
      simp [addRidge, crossA, ones, Matrix.mul_apply]
      norm_num
    have e1 : (seq (k + 1)).x 0 0 = (seq k).dual 0 0 0 - (seq k).aux 0 0 0 - 2 := by
      rw [hs]
      show svdSolveRow (P.params.svd (addRidge (crossA ⟨(seq k).x, init.F.B, init.F.C⟩ 0) (ρ 0) 1 0)) _ 0 = _
      rw [svdSolveRow_one (hP _) (by rw [hG]; norm_num), hG, hρ0]
      simp [rhsA, hinit, ones, P, Matrix.mul_apply]
      ring
    refine ⟨e1, ?_, ?_⟩
    · rw [hs]
      simp [stepA, auxA, P, StdPen.toA, StdPen.row, nonNegRow, clip]
      exact max_comm _ _
    · conv_lhs => rw [hs]
      conv_rhs => rw [hs]
      rfl
  have hinv : ∀ k, (seq (k + 1)).dual 0 0 0 ≤ -2 * k ∧ 0 ≤ (seq (k + 1)).aux 0 0 0 := by
    intro k
    induction k with
    | zero =>
      obtain ⟨-, e2, e3⟩ := hstep 0
      rw [Nat.cast_zero, mul_zero]
      refine ⟨?_, by rw [e2]; exact le_max_left _ _⟩
      rw [e3, e2]
      linarith [le_max_right 0 ((seq (0 + 1)).x 0 0 + (seq 0).dual 0 0 0)]
    | succ k ih =>
      obtain ⟨e1, e2, e3⟩ := hstep (k + 1)
      refine ⟨?_, by rw [e2]; exact le_max_left _ _⟩
      have hk : (0 : ℝ) ≤ k := Nat.cast_nonneg k
      have hle : 0 ≤ (seq (k + 1 + 1)).aux 0 0 0 := by rw [e2]; exact le_max_left _ _
      rw [e3, e1]
      push_cast
      linarith [ih.1, ih.2]
  have hlim : ∀ n, (outs (n + 2)).st.F.A 0 0 ≤ -(n : ℝ) := by
    intro n
    rw [hx, (hstep (n + 1)).1]
    have hk : (0 : ℝ) ≤ n := Nat.cast_nonneg n
    linarith [(hinv n).1, (hinv n).2]
  rw [← tendsto_add_atTop_iff_nat 2]
  exact tendsto_atBot_mono hlim (tendsto_neg_atTop_atBot.comp tendsto_natCast_atTop_atTop)

/-- C123 for a scale of 0: non-negativity on C, data -1, the other factors 1: the call without penalties returns the same C, which is -1. -/
example : ∃ P : Params 1, ValidSVD P ∧ P.scale = 0 ∧ 0 < P.nInner ∧ ∀ aux dual : Fin 1 → Matrix (Fin 1) (Fin 1) ℝ,
    (admmUpdateC P (fun _ => !![-1]) (fun _ => (StdPen.nonNeg : StdPen 1 1).toC) 0 ones aux dual).x = !![-1] := by
  obtain ⟨prm, hP, hN, -, hscale⟩ := exists_params 1 3 none 0
  refine ⟨prm, hP, hscale, by omega, fun aux dual => ?_⟩
  rw [C123_zero_C prm hscale (by omega) _ _ _ _ aux dual Fin.elim0 Fin.elim0 Fin.elim0]
  by_contra hne
  have h := C27_C prm hP (by omega) (fun _ => !![-1]) (0, 0, 0) ones Fin.elim0 Fin.elim0 Fin.elim0 solvable_ones.2.2 !![-1] (Ne.symm hne)
  have h2 : ridgeObj (I := 1) (J := fun _ => 1) (fun _ => !![-1]) (0, 0, 0) ⟨ones.A, ones.B, !![-1]⟩ = 0 := by
    simp [ridgeObj, sse, Factors.entry, ones]
  rw [h2] at h
  have h3 : ∀ Y, 0 ≤ ridgeObj (I := 1) (J := fun _ => 1) (fun _ => !![-1]) (0, 0, 0) (⟨ones.A, ones.B, Y⟩ : Factors 1 1 1 fun _ => 1) := fun Y => by
    simp [ridgeObj, sse]
    positivity
  exact absurd h (not_lt.2 (h3 _))

end Verif.Props
