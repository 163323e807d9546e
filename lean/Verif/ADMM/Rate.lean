import Verif.ADMM.Abstract
import Mathlib.Algebra.BigOperators.Field

/-!
# Rates of consensus ADMM

Any number of convex penalties: the squared gaps and changes decrease at least like `1/N`. One convex penalty and a strongly convex quadratic
fit: everything converges geometrically.
-/

namespace Verif.ADMM

open Finset

variable {V : Type} [AddCommGroup V] [Module ℝ V] {n : ℕ}

namespace IP

variable (W : IP V)

theorem smul_right (c : ℝ) (x z : V) : W.ip x (c • z) = c * W.ip x z := by rw [W.symm, W.smul_left, W.symm]

theorem sq_add_le (x y : V) : W.sq (x + y) ≤ 2 * (W.sq x + W.sq y) := by
  have := W.sq_nonneg (x - y)
  simp only [sq, W.add_left, W.add_right, W.sub_left, W.sub_right] at *
  have := W.symm x y
  linarith

end IP

variable {W : IP V} {f q : V → ℝ} {C : Fin n → Set V} {g : Fin n → V → ℝ}

/-- The changes of the auxiliary and dual variables in one step. -/
def change (W : IP V) (z u z' u' : Fin n → V) : ℝ := ∑ p, (W.sq (u' p - u p) + W.sq (z' p - z p))

/-- Two steps from different states do not increase the distance of the states. -/
theorem IsStep.nonexpansive {z u z' u' y v y' v' : Fin n → V} {x x₁ : V} (h : IsStep W f q C g z u x z' u') (h₁ : IsStep W f q C g y v x₁ y' v')
    (hq0 : ∀ v, 0 ≤ q v) : change W y' v' z' u' ≤ change W y v z u := by
  have a := h.xopt x₁
  have b := h₁.xopt x
  have q1 := hq0 (x₁ - x)
  have q2 := hq0 (x - x₁)
  have hz : ∀ p, W.ip (x + u p - z' p) (y' p - z' p) + W.ip (x₁ + v p - y' p) (z' p - y' p) ≤ 0 := by
    intro p
    have a := h.zopt p (y' p) (h₁.zmem p)
    have b := h₁.zopt p (z' p) (h.zmem p)
    linarith
  have key : ∀ p, W.sq (u' p - v' p) + W.sq (z' p - y' p) - (W.sq (u p - v p) + W.sq (z p - y p))
      ≤ 2 * W.ip (z p - u p - x) (x₁ - x) + 2 * W.ip (y p - v p - x₁) (x - x₁) := by
    intro p
    have h4 := hz p
    have h5 := W.sq_nonneg ((x - x₁) - (z p - y p))
    rw [h.ueq p, h₁.ueq p]
    simp only [IP.sq, IP.add_right, IP.sub_right, W.add_left, W.sub_left] at *
    have s1 := W.symm (u p) x
    have s2 := W.symm (u p) (z' p)
    have s3 := W.symm (u p) (v p)
    have s4 := W.symm (u p) x₁
    have s5 := W.symm (u p) (y' p)
    have s6 := W.symm (v p) x
    have s7 := W.symm (v p) x₁
    have s8 := W.symm (v p) (z' p)
    have s9 := W.symm (v p) (y' p)
    have s10 := W.symm x x₁
    have s11 := W.symm x (z' p)
    have s12 := W.symm x (y' p)
    have s13 := W.symm x₁ (z' p)
    have s14 := W.symm x₁ (y' p)
    have s15 := W.symm (z' p) (y' p)
    have s16 := W.symm x (z p)
    have s17 := W.symm x (y p)
    have s18 := W.symm x₁ (z p)
    have s19 := W.symm x₁ (y p)
    have s20 := W.symm (z p) (y p)
    linarith
  have hsum := sum_le_sum fun p (_ : p ∈ univ) => key p
  simp only [sum_sub_distrib, sum_add_distrib, ← mul_sum] at hsum
  simp only [change, sum_add_distrib]
  linarith

/-- The last iterate: after `N + 1` steps the squared gaps and changes sum to at most the first energy divided by `N`. -/
theorem admm_rate {x : ℕ → V} {z u : ℕ → Fin n → V} (hstep : ∀ k, IsStep W f q C g (z k) (u k) (x (k + 1)) (z (k + 1)) (u (k + 1)))
    {xs : V} {us : Fin n → V} (hs : IsSaddle W f q C g xs us) (hq : ∀ v, q (-v) = q v) (hq0 : ∀ v, 0 ≤ q v) (N : ℕ) :
    N * ∑ p, (W.sq (x (N + 1) - z (N + 1) p) + W.sq (z (N + 1) p - z N p)) ≤ energy W xs us (z 0) (u 0) := by
  have hE : ∀ z u : Fin n → V, 0 ≤ energy W xs us z u := fun z u => sum_nonneg fun p _ => add_nonneg (W.sq_nonneg _) (W.sq_nonneg _)
  set d : ℕ → ℝ := fun k => change W (z k) (u k) (z (k + 1)) (u (k + 1)) with hd
  have hmono : ∀ k, d (k + 1) ≤ d k := fun k => (hstep (k + 1)).nonexpansive (hstep k) hq0
  have hanti : Antitone d := antitone_nat_of_succ_le hmono
  have hu : ∀ k p, u (k + 1) p - u k p = x (k + 1) - z (k + 1) p := fun k p => by rw [(hstep k).ueq p]; abel
  have hdec : ∀ k, d (k + 1) + energy W xs us (z (k + 2)) (u (k + 2)) ≤ energy W xs us (z (k + 1)) (u (k + 1)) := by
    intro k
    have h1 := (hstep (k + 1)).energy_le hs hq
    have h2 := hq0 (x (k + 1 + 1) - xs)
    have h3 : d (k + 1) ≤ ∑ p, W.sq (x (k + 1 + 1) - z (k + 1) p) := by
      refine sum_le_sum fun p _ => ?_
      rw [hu]
      exact (hstep k).gap_le (hstep (k + 1)) p
    linarith
  have hsum : ∀ N, ∑ k ∈ range N, d (k + 1) + energy W xs us (z (N + 1)) (u (N + 1)) ≤ energy W xs us (z 0) (u 0) := by
    intro N
    induction N with
    | zero =>
      have h1 := (hstep 0).energy_le hs hq
      have h2 := hq0 (x (0 + 1) - xs)
      have h3 : 0 ≤ ∑ p, W.sq (x (0 + 1) - z 0 p) := sum_nonneg fun p _ => W.sq_nonneg _
      simp only [range_zero, sum_empty, zero_add] at *
      linarith
    | succ N ih =>
      rw [sum_range_succ]
      have := hdec N
      linarith
  have h1 : ∑ k ∈ range N, d N ≤ ∑ k ∈ range N, d (k + 1) := sum_le_sum fun k hk => hanti (Nat.succ_le_of_lt (mem_range.1 hk))
  rw [sum_const, card_range, nsmul_eq_mul] at h1
  have h2 := hsum N
  have h3 := hE (z (N + 1)) (u (N + 1))
  have h4 : d N = ∑ p, (W.sq (x (N + 1) - z (N + 1) p) + W.sq (z (N + 1) p - z N p)) := sum_congr rfl fun p _ => by rw [hu]
  rw [← h4]
  linarith

/-! ### One penalty -/

/-- A function below its first-order bound with curvature at most `L`, and above with non-negative curvature, at two points: the difference of the gradients is
co-coercive. -/
theorem cocoercive {x y gx gy : V} {L : ℝ} (hL : 0 < L) (hx : ∀ v, f x + W.ip gx (v - x) + q (v - x) = f v) (hy : ∀ v, f y + W.ip gy (v - y) + q (v - y) = f v)
    (hq0 : ∀ v, 0 ≤ q v) (hqL : ∀ v, 2 * q v ≤ L * W.sq v) : W.sq (gx - gy) ≤ L * W.ip (gx - gy) (x - y) := by
  have a1 := hx (x - (1 / L) • (gx - gy))
  have a2 := hy (x - (1 / L) • (gx - gy))
  have b1 := hy (y + (1 / L) • (gx - gy))
  have b2 := hx (y + (1 / L) • (gx - gy))
  have a3 := hq0 (x - (1 / L) • (gx - gy) - y)
  have b3 := hq0 (y + (1 / L) • (gx - gy) - x)
  have a4 := hqL (x - (1 / L) • (gx - gy) - x)
  have b4 := hqL (y + (1 / L) • (gx - gy) - y)
  set h := gx - gy with hh
  have e1 : x - (1 / L) • h - x = -((1 / L) • h) := by abel
  have e2 : y + (1 / L) • h - y = (1 / L) • h := by abel
  rw [e1] at a1 a4
  rw [e2] at b1 b4
  have s1 : W.sq (-((1 / L) • h)) = (1 / L) ^ 2 * W.sq h := by
    simp only [IP.sq, W.neg_left]
    rw [W.symm, W.neg_left, W.smul_left, W.smul_right]
    ring
  have s2 : W.sq ((1 / L) • h) = (1 / L) ^ 2 * W.sq h := by
    simp only [IP.sq]
    rw [W.smul_left, W.smul_right]
    ring
  rw [s1] at a4
  rw [s2] at b4
  have c : L * ((1 / L) ^ 2 * W.sq h) = 1 / L * W.sq h := by field_simp
  rw [c] at a4 b4
  have d1 : W.ip gx (-((1 / L) • h)) = -(1 / L * W.ip gx h) := by rw [W.symm, W.neg_left, W.smul_left, W.symm]
  have d2 : W.ip gy ((1 / L) • h) = 1 / L * W.ip gy h := by rw [W.smul_right]
  have d3 : W.ip gy (x - (1 / L) • h - y) = W.ip gy (x - y) - 1 / L * W.ip gy h := by
    rw [W.sub_right _ y, W.sub_right x, W.smul_right, W.sub_right x y]; ring
  have d4 : W.ip gx (y + (1 / L) • h - x) = -W.ip gx (x - y) + 1 / L * W.ip gx h := by
    rw [W.sub_right _ x, W.add_right, W.smul_right, W.sub_right x y]; ring
  rw [d1] at a1
  rw [d3] at a2
  rw [d2] at b1
  rw [d4] at b2
  have e3 : W.sq h = W.ip gx h - W.ip gy h := by rw [IP.sq]; nth_rewrite 1 [hh]; rw [W.sub_left]
  have e4 : W.ip h (x - y) = W.ip gx (x - y) - W.ip gy (x - y) := by rw [hh, W.sub_left]
  have fin : 1 / L * W.sq h ≤ W.ip h (x - y) := by
    have k : 1 / L * W.sq h = 1 / L * W.ip gx h - 1 / L * W.ip gy h := by rw [e3]; ring
    rw [e4]
    linarith
  have := mul_le_mul_of_nonneg_left fin hL.le
  rwa [← mul_assoc, mul_one_div_cancel hL.ne', one_mul] at this

/-- The factor by which squared distances shrink: strong convexity `μ` and smoothness `L` of the fit relative to the feasibility penalty. -/
noncomputable def rate (μ L : ℝ) : ℝ := 1 - 2 * μ / (1 + 2 * μ + L * μ)

theorem rate_bounds {μ L : ℝ} (hμ : 0 < μ) (hL : 0 < L) : 0 < rate μ L ∧ rate μ L < 1 := by
  have h : 0 < 1 + 2 * μ + L * μ := by positivity
  have h1 := mul_pos hL hμ
  refine ⟨?_, ?_⟩
  · rw [rate, sub_pos, div_lt_one h]
    linarith
  · rw [rate, sub_lt_self_iff]
    positivity

/-- One step with one penalty shrinks the squared distance of `z + u`, and bounds that of the factor. -/
theorem IsStep.contract {z₀ u₀ z u z' u' : Fin 1 → V} {x x' : V} {C : Fin 1 → Set V} {g : Fin 1 → V → ℝ} (h₀ : IsStep W f q C g z₀ u₀ x z u)
    (h : IsStep W f q C g z u x' z' u') {xs : V} {us : Fin 1 → V} (hs : IsSaddle W f q C g xs us) {μ L : ℝ} (hμ : 0 < μ) (hL : 0 < L)
    (hx : ∀ v, f x' + W.ip (z 0 - u 0 - x') (v - x') + q (v - x') = f v) (hxs : ∀ v, f xs + W.ip (-us 0) (v - xs) + q (v - xs) = f v)
    (hq : ∀ v, q (-v) = q v) (hq0 : ∀ v, 0 ≤ q v) (hqμ : ∀ v, μ * W.sq v ≤ 2 * q v) (hqL : ∀ v, 2 * q v ≤ L * W.sq v) :
    W.sq (z' 0 + u' 0 - (xs + us 0)) ≤ rate μ L * W.sq (z 0 + u 0 - (xs + us 0)) ∧ W.sq (x' - xs) ≤ W.sq (z 0 + u 0 - (xs + us 0)) ∧
      W.sq (u 0 - us 0) + W.sq (z 0 - xs) ≤ W.sq (z 0 + u 0 - (xs + us 0)) := by
  have hco := cocoercive hL hx hxs hq0 hqL
  have hst : μ * W.sq (x' - xs) ≤ W.ip (z 0 - u 0 - x' - -us 0) (x' - xs) := by
    have a := hx xs
    have b := hxs x'
    have c := hqμ (x' - xs)
    have e : xs - x' = -(x' - xs) := by abel
    rw [e, hq, W.symm, W.neg_left, W.symm] at a
    rw [W.sub_left]
    linarith
  -- monotonicity of the proximal operator
  have hmon : 0 ≤ W.ip (u 0 - us 0) (z 0 - xs) := by
    have a := h₀.zopt 0 xs (hs.mem 0)
    have b := hs.gopt 0 (z 0) (h₀.zmem 0)
    have e : x + u₀ 0 - z 0 = u 0 := by rw [h₀.ueq 0]; abel
    rw [e] at a
    have e2 : xs - z 0 = -(z 0 - xs) := by abel
    rw [e2, W.symm, W.neg_left, W.symm] at a
    rw [W.sub_left]
    linarith
  set s := x' - xs with hs'
  set e := u 0 - us 0 with he
  set w := z 0 - xs with hw
  have hh : z 0 - u 0 - x' - -us 0 = w - e - s := by rw [hs', he, hw]; abel
  rw [hh] at hco hst
  have ht : z 0 + u 0 - (xs + us 0) = w + e := by rw [he, hw]; abel
  have ht' : z' 0 + u' 0 - (xs + us 0) = s + e := by rw [h.ueq 0, hs', he]; abel
  rw [ht, ht']
  -- everything in terms of inner products
  have n1 := W.sq_nonneg s
  have n2 := W.sq_nonneg (w + e - (s - (w - e - s)))
  have n3 := W.sq_nonneg e
  have n4 := W.sq_nonneg (w - e - s)
  have hpos : 0 < 1 + 2 * μ + L * μ := by positivity
  have sym1 := W.symm w e
  have sym2 := W.symm w s
  have sym3 := W.symm e s
  set ws := W.ip w s
  set es := W.ip e s
  set we := W.ip w e
  have x1 : W.sq (w + e) = W.sq w + 2 * we + W.sq e := by simp only [IP.sq, W.add_left, W.add_right]; linarith
  have x2 : W.sq (s + e) = W.sq s + 2 * es + W.sq e := by simp only [IP.sq, W.add_left, W.add_right]; linarith
  have x3 : W.sq (w - e - s) = W.sq w + W.sq e + W.sq s - 2 * we - 2 * ws + 2 * es := by
    simp only [IP.sq, W.sub_left, W.sub_right]; linarith
  have x4 : W.ip (w - e - s) s = ws - es - W.sq s := by simp only [IP.sq, W.sub_left]; rfl
  have x5 : 0 ≤ we := by rw [sym1]; exact hmon
  have x6 : W.sq (w + e - (s - (w - e - s))) = 4 * (W.sq w + W.sq s - 2 * ws) := by
    simp only [IP.sq, W.sub_left, W.sub_right, W.add_left, W.add_right]; linarith
  rw [x3, x4] at hco
  rw [x4] at hst
  rw [x3] at n4
  rw [x6] at n2
  rw [x1, x2]
  set a := W.sq w
  set b := W.sq e
  set c := W.sq s
  -- `d = ⟨s, h⟩`
  have hd : 0 ≤ ws - es - c := (mul_nonneg hμ.le n1).trans hst
  have hsum : μ * (a + b - 2 * we) ≤ (1 + 2 * μ + L * μ) * (ws - es - c) := by
    -- `‖s + h‖² = ‖s‖² + 2⟨s, h⟩ + ‖h‖²`
    have i1 := mul_le_mul_of_nonneg_left hco hμ.le
    nlinarith
  refine ⟨?_, ?_, ?_⟩
  · -- `‖½(w+e) + ½(s-h)‖² ≤ ½‖w+e‖² + ½‖s-h‖²` and `‖s-h‖² = ‖s+h‖² - 4⟨s,h⟩`
    have k1 : c + 2 * es + b ≤ 1 / 2 * (a + 2 * we + b) + 1 / 2 * (a + b - 2 * we - 4 * (ws - es - c)) := by linarith
    have k2 : 2 * μ / (1 + 2 * μ + L * μ) * (a + b - 2 * we) ≤ 2 * (ws - es - c) := by
      rw [div_mul_eq_mul_div, div_le_iff₀ hpos]
      linarith
    have k3 : a + b - 2 * we ≤ a + 2 * we + b := by linarith
    rw [rate]
    rcases le_or_gt μ L with hle | hlt
    · have k4 : 2 * μ / (1 + 2 * μ + L * μ) ≤ 1 / 2 := by
        rw [div_le_iff₀ hpos]
        nlinarith [sq_nonneg (μ - 1)]
      have k5 := mul_le_mul_of_nonneg_left k3 (show 0 ≤ 1 / 2 - 2 * μ / (1 + 2 * μ + L * μ) by linarith)
      linarith
    · -- then the form vanishes
      have k4 : ∀ v, W.sq v = 0 := fun v => by
        have i1 := (hqμ v).trans (hqL v)
        have i2 := W.sq_nonneg v
        nlinarith
      rw [← x1, ← x2, k4, k4, mul_zero]
  · linarith
  · linarith

/-- One penalty: geometric convergence of the factor, the auxiliary and the dual variable. -/
theorem admm_linear {x : ℕ → V} {z u : ℕ → Fin 1 → V} {C : Fin 1 → Set V} {g : Fin 1 → V → ℝ}
    (hstep : ∀ k, IsStep W f q C g (z k) (u k) (x (k + 1)) (z (k + 1)) (u (k + 1)))
    {xs : V} {us : Fin 1 → V} (hs : IsSaddle W f q C g xs us) (hquad : ∀ y, ∃ D : V → ℝ, (∀ v, D (-v) = -D v) ∧ ∀ v, f v = f y + D (v - y) + q (v - y))
    {μ L : ℝ} (hμ : 0 < μ) (hL : 0 < L)
    (hq : ∀ v, q (-v) = q v) (hq0 : ∀ v, 0 ≤ q v) (hqμ : ∀ v, μ * W.sq v ≤ 2 * q v) (hqL : ∀ v, 2 * q v ≤ L * W.sq v) (k : ℕ) :
    W.sq (x (k + 2) - xs) ≤ rate μ L ^ k * (2 * energy W xs us (z 0) (u 0)) ∧
      energy W xs us (z (k + 1)) (u (k + 1)) ≤ rate μ L ^ k * (2 * energy W xs us (z 0) (u 0)) := by
  -- first-order bounds of quadratics are equalities
  have exact : ∀ (y G : V), (∀ v, f y + W.ip G (v - y) + q (v - y) ≤ f v) → ∀ v, f y + W.ip G (v - y) + q (v - y) = f v := by
    intro y G h
    obtain ⟨D, hD, hexp⟩ := hquad y
    have h1 : ∀ v, W.ip G v ≤ D v := fun v => by
      have := h (y + v)
      rw [hexp (y + v), add_sub_cancel_left] at this
      linarith
    intro v
    refine le_antisymm (h v) ?_
    have h2 := h1 (-(v - y))
    rw [hD, W.symm, W.neg_left, W.symm] at h2
    rw [hexp v]
    linarith
  have hx : ∀ k v, f (x (k + 1)) + W.ip (z k 0 - u k 0 - x (k + 1)) (v - x (k + 1)) + q (v - x (k + 1)) = f v := fun k =>
    exact _ _ fun v => by
      have := (hstep k).xopt v
      rwa [Fin.sum_univ_one] at this
  have hxs : ∀ v, f xs + W.ip (-us 0) (v - xs) + q (v - xs) = f v := exact _ _ fun v => by
    have := hs.fopt v
    rw [Fin.sum_univ_one] at this
    rw [W.neg_left]
    linarith
  have hc := fun k => (hstep k).contract (hstep (k + 1)) hs hμ hL (hx (k + 1)) hxs hq hq0 hqμ hqL
  have hr := rate_bounds hμ hL
  have hT : W.sq (z (k + 1) 0 + u (k + 1) 0 - (xs + us 0)) ≤ rate μ L ^ k * (2 * energy W xs us (z 0) (u 0)) := by
    induction k with
    | zero =>
      have h1 := (hstep 0).energy_le hs hq
      have h2 := hq0 (x (0 + 1) - xs)
      have h3 : 0 ≤ ∑ p, W.sq (x (0 + 1) - z 0 p) := sum_nonneg fun p _ => W.sq_nonneg _
      have h4 := W.sq_add_le (u (0 + 1) 0 - us 0) (z (0 + 1) 0 - xs)
      have e : z (0 + 1) 0 + u (0 + 1) 0 - (xs + us 0) = u (0 + 1) 0 - us 0 + (z (0 + 1) 0 - xs) := by abel
      have e2 : energy W xs us (z (0 + 1)) (u (0 + 1)) = W.sq (u (0 + 1) 0 - us 0) + W.sq (z (0 + 1) 0 - xs) := Fin.sum_univ_one _
      rw [e, pow_zero, one_mul]
      linarith
    | succ k ih =>
      have h1 := (hc k).1
      have h2 := mul_le_mul_of_nonneg_left ih hr.1.le
      rw [pow_succ]
      calc _ ≤ _ := h1
        _ ≤ _ := h2
        _ = _ := by ring
  refine ⟨(hc k).2.1.trans hT, le_trans ?_ hT⟩
  rw [energy, Fin.sum_univ_one]
  exact (hc k).2.2

end Verif.ADMM
