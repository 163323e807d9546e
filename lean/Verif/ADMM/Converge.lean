import Mathlib.Topology.Algebra.Order.LiminfLimsup
import Mathlib.Analysis.Real.Sqrt
import Verif.ADMM.Contracts

/-!
# Helper lemmas: from the abstract convergence theorem to the entries of the factors
-/

namespace Verif.ADMM

open Verif.Penalties Verif.Spec Finset Matrix Filter

variable {I K R n : ℕ} {J : Fin I → ℕ}

theorem tendsto_of_sq_le {a b : ℕ → ℝ} {c : ℝ} (hc : 0 < c) (h : ∀ k, c * a k ^ 2 ≤ b k) (hb : Tendsto b atTop (nhds 0)) :
    Tendsto a atTop (nhds 0) := by
  have h1 : Tendsto (fun k => a k ^ 2) atTop (nhds 0) := by
    refine squeeze_zero (fun k => sq_nonneg _) (fun k => ?_) (by simpa using hb.div_const c)
    rw [le_div_iff₀ hc]
    linarith [h k]
  have h2 := (Real.continuous_sqrt.tendsto 0).comp h1
  rw [Real.sqrt_zero] at h2
  refine (tendsto_zero_iff_abs_tendsto_zero a).2 (h2.congr fun k => ?_)
  simp only [Function.comp_apply]
  exact Real.sqrt_sq_eq_abs _

theorem sq_le_sqNorm {ι κ : Type} [Fintype ι] [Fintype κ] (X : Matrix ι κ ℝ) (i : ι) (r : κ) : X i r ^ 2 ≤ sqNorm X := by
  refine le_trans ?_ (single_le_sum (f := fun i => ∑ r, X i r ^ 2) (fun i _ => sum_nonneg fun _ _ => sq_nonneg _) (mem_univ i))
  exact single_le_sum (f := fun r => X i r ^ 2) (fun _ _ => sq_nonneg _) (mem_univ r)

/-- Vanishing curvature: the fitted values vanish, and so does the argument if the problem is solvable. -/
theorem tendsto_of_curvature {κ : Type} [Fintype κ] {m : ℕ} (M : Matrix κ (Fin R) ℝ) {l2 : ℝ} (hl : 0 ≤ l2)
    {V : ℕ → Matrix (Fin m) (Fin R) ℝ} {b : ℕ → ℝ}
    (hb : ∀ k, 1 / 2 * sqNorm (V k * M.transpose) + l2 / 2 * sqNorm (V k) ≤ b k) (h0 : Tendsto b atTop (nhds 0)) :
    (∀ i j, Tendsto (fun k => (V k * M.transpose) i j) atTop (nhds 0)) ∧
    ((∀ v : Fin R → ℝ, v ≠ 0 → 0 < ∑ k, (∑ r, M k r * v r) ^ 2 + l2 * ∑ r, v r ^ 2) →
      ∀ i r, Tendsto (fun k => V k i r) atTop (nhds 0)) := by
  have hn1 := fun k => sqNorm_nonneg (V k * M.transpose)
  have hn2 : ∀ k, 0 ≤ l2 / 2 * sqNorm (V k) := fun k => mul_nonneg (by linarith) (sqNorm_nonneg _)
  have h1 : ∀ i j, Tendsto (fun k => (V k * M.transpose) i j) atTop (nhds 0) := fun i j =>
    tendsto_of_sq_le (c := 1 / 2) (by norm_num) (fun k => by
      have := sq_le_sqNorm (V k * M.transpose) i j
      have := hb k
      have := hn2 k
      linarith) h0
  have h2 : ∀ i r, Tendsto (fun k => l2 * V k i r) atTop (nhds 0) := by
    intro i r
    rcases hl.eq_or_lt with rfl | hl'
    · simp
    · have : Tendsto (fun k => V k i r) atTop (nhds 0) := tendsto_of_sq_le (c := l2 / 2) (by linarith) (fun k => by
        have a := mul_le_mul_of_nonneg_left (sq_le_sqNorm (V k) i r) (by linarith : (0:ℝ) ≤ l2 / 2)
        have := hb k
        have := hn1 k
        linarith) h0
      simpa using this.const_mul l2
  refine ⟨h1, fun hsol i r => ?_⟩
  have hu := isUnit_gram M hsol le_rfl
  obtain ⟨H, hH⟩ := hu.exists_right_inv
  have e : ∀ k, V k i r = ∑ s, ((∑ j, (V k * M.transpose) i j * M j s) + l2 * V k i s) * H s r := by
    intro k
    have : V k = (V k * M.transpose * M + l2 • V k) * H := by
      rw [Matrix.mul_assoc (V k)]
      conv_lhs => rw [← Matrix.mul_one (V k), ← hH, ← Matrix.mul_assoc, Matrix.mul_add, Matrix.mul_smul, Matrix.mul_one]
    conv_lhs => rw [this, mul_apply]
    refine sum_congr rfl fun s _ => ?_
    rw [Matrix.add_apply, Matrix.smul_apply, smul_eq_mul, mul_apply (M := V k * M.transpose)]
  have : Tendsto (fun k => ∑ s, ((∑ j, (V k * M.transpose) i j * M j s) + l2 * V k i s) * H s r) atTop
      (nhds (∑ s, ((∑ j, 0 * M j s) + 0) * H s r)) :=
    tendsto_finsetSum _ fun s _ => ((tendsto_finsetSum _ fun j _ => (h1 i j).mul_const _).add (h2 i s)).mul_const _
  simp only [zero_mul, sum_const_zero, add_zero] at this
  exact this.congr fun k => (e k).symm

/-- A ridge objective equals its first-order bound plus the curvature, when it lies above the first-order bound. -/
theorem first_order_quadratic {V : Type} [AddCommGroup V] [Module ℝ V] {f q : V → ℝ} {D L : V → ℝ} {xs : V}
    (hexp : ∀ v, f (xs + v) = f xs + D v + q v) (hD : ∀ (t : ℝ) v, D (t • v) = t * D v) (hL : ∀ (t : ℝ) v, L (t • v) = t * L v)
    (hq : ∀ (t : ℝ) v, q (t • v) = t ^ 2 * q v) (h : ∀ v, f xs - L v ≤ f (xs + v)) (v : V) : f xs - L v + q v ≤ f (xs + v) := by
  have hnn : ∀ w, 0 ≤ D w + L w := fun w => by
    refine linear_nonneg (a := q w) fun t ht _ => ?_
    have := h (t • w)
    rw [hexp, hD, hL, hq] at this
    linarith
  have := hnn v
  rw [hexp]
  linarith

theorem lsq_first_order {μ κ ν : Type} [Fintype μ] [Fintype κ] [Fintype ν] [DecidableEq ν] (D : Matrix μ κ ℝ) (M : Matrix κ ν ℝ)
    (l2 : ℝ) (Y' V : Matrix μ ν ℝ) :
    lsq D M l2 (Y' + V) = lsq D M l2 Y' + inner (Y' * (M.transpose * M + l2 • 1) - D * M) V
      + (1 / 2 * sqNorm (V * M.transpose) + l2 / 2 * sqNorm V) := by
  have := lsq_expand D M l2 0 (Y' * (M.transpose * M + l2 • 1) - D * M) Y' (by rw [zero_add, sub_add_cancel]) (Y' + V)
  rw [add_sub_cancel_left, zero_smul, sub_zero] at this
  exact this

theorem sqNorm_smul {ι κ : Type} [Fintype ι] [Fintype κ] (t : ℝ) (X : Matrix ι κ ℝ) : sqNorm (t • X) = t ^ 2 * sqNorm X := by
  simp only [sqNorm, mul_sum, Matrix.smul_apply, smul_eq_mul, mul_pow]

theorem quadA_smul (F : Factors I K R J) (l2 t : ℝ) (V : Matrix (Fin I) (Fin R) ℝ) : quadA F l2 (t • V) = t ^ 2 * quadA F l2 V := by
  rw [quadA, quadA, mul_sum]
  refine sum_congr rfl fun i _ => ?_
  have e : rowMat ((t • V) i) = t • rowMat (V i) := rfl
  rw [e, Matrix.smul_mul, sqNorm_smul, sqNorm_smul]
  ring

theorem quadB_smul (F : Factors I K R J) (l2 t : ℝ) (V : Ragged I R J) : quadB F l2 (t • V) = t ^ 2 * quadB F l2 V := by
  rw [quadB, quadB, mul_sum]
  refine sum_congr rfl fun i _ => ?_
  rw [Pi.smul_apply, Matrix.smul_mul, sqNorm_smul, sqNorm_smul]
  ring

theorem quadC_smul (F : Factors I K R J) (l2 t : ℝ) (V : Matrix (Fin K) (Fin R) ℝ) : quadC F l2 (t • V) = t ^ 2 * quadC F l2 V := by
  rw [quadC, quadC, Matrix.smul_mul, sqNorm_smul, sqNorm_smul]
  ring

theorem quadA_neg (F : Factors I K R J) (l2 : ℝ) (V : Matrix (Fin I) (Fin R) ℝ) : quadA F l2 (-V) = quadA F l2 V := by
  have := quadA_smul F l2 (-1) V
  rwa [neg_one_smul, neg_one_sq, one_mul] at this

theorem quadB_neg (F : Factors I K R J) (l2 : ℝ) (V : Ragged I R J) : quadB F l2 (-V) = quadB F l2 V := by
  have := quadB_smul F l2 (-1) V
  rwa [neg_one_smul, neg_one_sq, one_mul] at this

theorem quadC_neg (F : Factors I K R J) (l2 : ℝ) (V : Matrix (Fin K) (Fin R) ℝ) : quadC F l2 (-V) = quadC F l2 V := by
  have := quadC_smul F l2 (-1) V
  rwa [neg_one_smul, neg_one_sq, one_mul] at this

/-! ### Kuhn-Tucker points become saddle points -/

theorem kktA (X : Ragged I K J) (F : Factors I K R J) (l2 : ℝ) (xs : Matrix (Fin I) (Fin R) ℝ) (S : Matrix (Fin I) (Fin R) ℝ)
    (h : ∀ Y, 1 / 2 * sse X ⟨xs, F.B, F.C⟩ + l2 / 2 * sqNorm xs - inner S (Y - xs) ≤ 1 / 2 * sse X ⟨Y, F.B, F.C⟩ + l2 / 2 * sqNorm Y)
    (Y : Matrix (Fin I) (Fin R) ℝ) :
    1 / 2 * sse X ⟨xs, F.B, F.C⟩ + l2 / 2 * sqNorm xs - inner S (Y - xs) + quadA F l2 (Y - xs)
      ≤ 1 / 2 * sse X ⟨Y, F.B, F.C⟩ + l2 / 2 * sqNorm Y := by
  have := first_order_quadratic (f := fun Y => 1 / 2 * sse X ⟨Y, F.B, F.C⟩ + l2 / 2 * sqNorm Y) (q := quadA F l2)
    (D := fun V => ∑ i, inner (rowMat (xs i) * ((designA F i).transpose * designA F i + l2 • 1) - dataA X i * designA F i) (rowMat (V i)))
    (L := fun V => inner S V) (xs := xs) ?_ ?_ ?_ (quadA_smul F l2) ?_ (Y - xs)
  · rw [add_sub_cancel] at this
    exact this
  · intro v
    rw [sse_A, sse_A, quadA, ← sum_add_distrib, ← sum_add_distrib]
    exact sum_congr rfl fun i _ => lsq_first_order (dataA X i) (designA F i) l2 (rowMat (xs i)) (rowMat (v i))
  · intro t v
    rw [mul_sum]
    exact sum_congr rfl fun i _ => inner_smul_right t _ _
  · exact fun t v => inner_smul_right t _ _
  · intro v
    have := h (xs + v)
    rwa [add_sub_cancel_left] at this

theorem kktB (X : Ragged I K J) (F : Factors I K R J) (l2 : ℝ) (xs : Ragged I R J) (S : Ragged I R J)
    (h : ∀ Y : Ragged I R J, 1 / 2 * sse X ⟨F.A, xs, F.C⟩ + l2 / 2 * raggedSq xs - ∑ i, inner (S i) (Y i - xs i)
      ≤ 1 / 2 * sse X ⟨F.A, Y, F.C⟩ + l2 / 2 * raggedSq Y) (Y : Ragged I R J) :
    1 / 2 * sse X ⟨F.A, xs, F.C⟩ + l2 / 2 * raggedSq xs - ∑ i, inner (S i) (Y i - xs i) + quadB F l2 (Y - xs)
      ≤ 1 / 2 * sse X ⟨F.A, Y, F.C⟩ + l2 / 2 * raggedSq Y := by
  have := first_order_quadratic (f := fun Y : Ragged I R J => 1 / 2 * sse X ⟨F.A, Y, F.C⟩ + l2 / 2 * raggedSq Y) (q := quadB F l2)
    (D := fun V => ∑ i, inner (xs i * ((designB F i).transpose * designB F i + l2 • 1) - X i * designB F i) (V i))
    (L := fun V => ∑ i, inner (S i) (V i)) (xs := xs) ?_ ?_ ?_ (quadB_smul F l2) ?_ (Y - xs)
  · rw [add_sub_cancel] at this
    exact this
  · intro v
    rw [sse_B, sse_B, quadB, ← sum_add_distrib, ← sum_add_distrib]
    exact sum_congr rfl fun i _ => lsq_first_order (X i) (designB F i) l2 (xs i) (v i)
  · intro t v
    rw [mul_sum]
    exact sum_congr rfl fun i _ => inner_smul_right t _ _
  · intro t v
    rw [mul_sum]
    exact sum_congr rfl fun i _ => inner_smul_right t _ _
  · intro v
    have := h (xs + v)
    simp only [Pi.add_apply, add_sub_cancel_left] at this
    exact this

theorem kktC (X : Ragged I K J) (F : Factors I K R J) (l2 : ℝ) (xs S : Matrix (Fin K) (Fin R) ℝ)
    (h : ∀ Y, 1 / 2 * sse X ⟨F.A, F.B, xs⟩ + l2 / 2 * sqNorm xs - inner S (Y - xs) ≤ 1 / 2 * sse X ⟨F.A, F.B, Y⟩ + l2 / 2 * sqNorm Y)
    (Y : Matrix (Fin K) (Fin R) ℝ) :
    1 / 2 * sse X ⟨F.A, F.B, xs⟩ + l2 / 2 * sqNorm xs - inner S (Y - xs) + quadC F l2 (Y - xs)
      ≤ 1 / 2 * sse X ⟨F.A, F.B, Y⟩ + l2 / 2 * sqNorm Y := by
  have := first_order_quadratic (f := fun Y => 1 / 2 * sse X ⟨F.A, F.B, Y⟩ + l2 / 2 * sqNorm Y) (q := quadC F l2)
    (D := fun V => inner (xs * ((designC F).transpose * designC F + l2 • 1) - dataC X * designC F) V)
    (L := fun V => inner S V) (xs := xs) ?_ ?_ ?_ (quadC_smul F l2) ?_ (Y - xs)
  · rw [add_sub_cancel] at this
    exact this
  · intro v
    rw [sse_C, sse_C, quadC]
    exact lsq_first_order (dataC X) (designC F) l2 xs v
  · exact fun t v => inner_smul_right t _ _
  · exact fun t v => inner_smul_right t _ _
  · intro v
    have := h (xs + v)
    rwa [add_sub_cancel_left] at this

end Verif.ADMM
