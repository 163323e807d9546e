import Verif.Tac
import Mathlib.Topology.Algebra.InfiniteSum.Real
import Mathlib.Topology.Algebra.InfiniteSum.Group
import Mathlib.Algebra.Module.Basic
import Mathlib.Algebra.BigOperators.Ring.Finset
import Mathlib.Topology.Instances.Real.Lemmas

/-!
# Consensus ADMM in an abstract space

`minimise f(x) + Σ_p g_p(z_p)` subject to `x = z_p`, with a (weighted) inner product. Used for all three modes.
-/

namespace Verif.ADMM

open Finset

/-- A positive semidefinite symmetric bilinear form. -/
structure IP (V : Type) [AddCommGroup V] [Module ℝ V] where
  ip : V → V → ℝ
  add_left : ∀ x y z, ip (x + y) z = ip x z + ip y z
  smul_left : ∀ (c : ℝ) x z, ip (c • x) z = c * ip x z
  symm : ∀ x y, ip x y = ip y x
  nonneg : ∀ x, 0 ≤ ip x x

namespace IP

variable {V : Type} [AddCommGroup V] [Module ℝ V] (W : IP V)

theorem neg_left (x z : V) : W.ip (-x) z = -W.ip x z := by
  rw [← neg_one_smul ℝ x, W.smul_left]; ring

theorem sub_left (x y z : V) : W.ip (x - y) z = W.ip x z - W.ip y z := by
  rw [sub_eq_add_neg, W.add_left, W.neg_left]; ring

theorem add_right (x y z : V) : W.ip z (x + y) = W.ip z x + W.ip z y := by
  rw [W.symm, W.add_left, W.symm x, W.symm y]

theorem sub_right (x y z : V) : W.ip z (x - y) = W.ip z x - W.ip z y := by
  rw [W.symm, W.sub_left, W.symm x, W.symm y]

/-- Squared norm. -/
def sq (x : V) : ℝ := W.ip x x

theorem sq_nonneg (x : V) : 0 ≤ W.sq x := W.nonneg x

theorem zero_left (z : V) : W.ip 0 z = 0 := by
  have := W.smul_left 0 0 z
  rwa [zero_smul, zero_mul] at this

theorem zero_right (z : V) : W.ip z 0 = 0 := by rw [W.symm, W.zero_left]

end IP

variable {V : Type} [AddCommGroup V] [Module ℝ V] {n : ℕ}

/-- One step of consensus ADMM, given by its optimality conditions. `q` is the strong convexity of `f`. -/
structure IsStep (W : IP V) (f q : V → ℝ) (C : Fin n → Set V) (g : Fin n → V → ℝ) (z u : Fin n → V) (x' : V)
    (z' u' : Fin n → V) : Prop where
  xopt : ∀ y, f x' + ∑ p, W.ip (z p - u p - x') (y - x') + q (y - x') ≤ f y
  zmem : ∀ p, z' p ∈ C p
  zopt : ∀ p, ∀ y ∈ C p, g p (z' p) + W.ip (x' + u p - z' p) (y - z' p) ≤ g p y
  ueq : ∀ p, u' p = u p + (x' - z' p)

/-- A saddle point: `xs` feasible, `us` multipliers. -/
structure IsSaddle (W : IP V) (f q : V → ℝ) (C : Fin n → Set V) (g : Fin n → V → ℝ) (xs : V) (us : Fin n → V) : Prop where
  mem : ∀ p, xs ∈ C p
  fopt : ∀ y, f xs - ∑ p, W.ip (us p) (y - xs) + q (y - xs) ≤ f y
  gopt : ∀ p, ∀ y ∈ C p, g p xs + W.ip (us p) (y - xs) ≤ g p y

/-- The energy. -/
def energy (W : IP V) (xs : V) (us z u : Fin n → V) : ℝ := ∑ p, (W.sq (u p - us p) + W.sq (z p - xs))

variable {W : IP V} {f q : V → ℝ} {C : Fin n → Set V} {g : Fin n → V → ℝ}

/-- At a saddle point the objective is minimal among the feasible points. -/
theorem IsSaddle.minimal {xs : V} {us : Fin n → V} (h : IsSaddle W f q C g xs us) (y : V) (hy : ∀ p, y ∈ C p) :
    f xs + ∑ p, g p xs + q (y - xs) ≤ f y + ∑ p, g p y := by
  have h1 := h.fopt y
  have h2 := sum_le_sum fun p (_ : p ∈ univ) => h.gopt p y (hy p)
  rw [sum_add_distrib] at h2
  linarith

/-- The energy decreases by at least the squared distance of the new factor to the old auxiliary variables plus four times the strong
convexity term. -/
theorem IsStep.energy_le {z u z' u' : Fin n → V} {x' : V} (h : IsStep W f q C g z u x' z' u') {xs : V} {us : Fin n → V}
    (hs : IsSaddle W f q C g xs us) (hq : ∀ v, q (-v) = q v) :
    energy W xs us z' u' + ∑ p, W.sq (x' - z p) + 4 * q (x' - xs) ≤ energy W xs us z u := by
  have h1 := h.xopt xs
  have h2 := hs.fopt x'
  rw [← neg_sub x' xs, hq] at h1
  have h3 : ∀ p, W.ip (x' + u p - z' p) (xs - z' p) + W.ip (us p) (z' p - xs) ≤ 0 := by
    intro p
    have a := h.zopt p xs (hs.mem p)
    have b := hs.gopt p (z' p) (h.zmem p)
    linarith
  have key : ∀ p, W.sq (u' p - us p) + W.sq (z' p - xs) + W.sq (x' - z p) - (W.sq (u p - us p) + W.sq (z p - xs))
      ≤ 2 * (W.ip (z p - u p - x') (-(x' - xs))) - 2 * (W.ip (us p) (x' - xs)) := by
    intro p
    have h4 := h3 p
    rw [h.ueq p]
    simp only [IP.sq, IP.add_right, IP.sub_right, W.add_left, W.sub_left, neg_sub] at *
    have s1 := W.symm (u p) x'
    have s2 := W.symm (u p) (z' p)
    have s3 := W.symm (u p) (us p)
    have s4 := W.symm (us p) x'
    have s5 := W.symm (us p) (z' p)
    have s6 := W.symm x' (z' p)
    have s7 := W.symm xs (z' p)
    have s8 := W.symm xs (z p)
    have s9 := W.symm x' (z p)
    have s10 := W.symm xs x'
    have s11 := W.symm xs (u p)
    have s12 := W.symm xs (us p)
    linarith
  have hsum := sum_le_sum fun p (_ : p ∈ univ) => key p
  simp only [sum_sub_distrib, sum_add_distrib, ← mul_sum] at hsum
  simp only [energy, sum_add_distrib]
  linarith

/-- Two consecutive steps: the auxiliary and dual changes are aligned, so the gap is bounded by the distance above. -/
theorem IsStep.gap_le {z₀ u₀ z u z' u' : Fin n → V} {x x' : V} (h₀ : IsStep W f q C g z₀ u₀ x z u)
    (h : IsStep W f q C g z u x' z' u') (p : Fin n) : W.sq (x' - z' p) + W.sq (z' p - z p) ≤ W.sq (x' - z p) := by
  have h1 := h₀.zopt p (z' p) (h.zmem p)
  have h2 := h.zopt p (z p) (h₀.zmem p)
  have e : x + u₀ p - z p = u p := by rw [h₀.ueq p]; abel
  rw [e] at h1
  simp only [IP.sq, IP.sub_right, W.add_left, W.sub_left] at *
  have s1 := W.symm (z p) (z' p)
  have s2 := W.symm x' (z p)
  have s3 := W.symm x' (z' p)
  linarith

/-- A sequence of non-negative numbers with bounded partial sums tends to zero. -/
theorem tendsto_zero_of_sum_le {a : ℕ → ℝ} {c : ℝ} (ha : ∀ k, 0 ≤ a k) (h : ∀ N, ∑ k ∈ range N, a k ≤ c) :
    Filter.Tendsto a Filter.atTop (nhds 0) :=
  (summable_of_sum_range_le ha h).tendsto_atTop_zero

/-- Convergence of the iteration: the gaps and the strong convexity term tend to zero. -/
theorem admm_converges {x : ℕ → V} {z u : ℕ → Fin n → V} (hstep : ∀ k, IsStep W f q C g (z k) (u k) (x (k + 1)) (z (k + 1)) (u (k + 1)))
    {xs : V} {us : Fin n → V} (hs : IsSaddle W f q C g xs us) (hq : ∀ v, q (-v) = q v) (hq0 : ∀ v, 0 ≤ q v) :
    (∀ k, energy W xs us (z (k + 1)) (u (k + 1)) ≤ energy W xs us (z k) (u k)) ∧
    (∀ p, Filter.Tendsto (fun k => W.sq (x k - z k p)) Filter.atTop (nhds 0)) ∧
    Filter.Tendsto (fun k => q (x k - xs)) Filter.atTop (nhds 0) := by
  have hdec := fun k => (hstep k).energy_le hs hq
  have hE : ∀ z u : Fin n → V, 0 ≤ energy W xs us z u := fun z u =>
    sum_nonneg fun p _ => add_nonneg (W.sq_nonneg _) (W.sq_nonneg _)
  have hsum : ∀ N, ∑ k ∈ range N, (∑ p, W.sq (x (k + 1) - z k p) + 4 * q (x (k + 1) - xs)) ≤ energy W xs us (z 0) (u 0) := by
    intro N
    have : ∑ k ∈ range N, (∑ p, W.sq (x (k + 1) - z k p) + 4 * q (x (k + 1) - xs)) + energy W xs us (z N) (u N)
        ≤ energy W xs us (z 0) (u 0) := by
      induction N with
      | zero => simp
      | succ N ih =>
        rw [sum_range_succ]
        have := hdec N
        linarith
    have := hE (z N) (u N)
    linarith
  have hnn : ∀ k, 0 ≤ ∑ p, W.sq (x (k + 1) - z k p) + 4 * q (x (k + 1) - xs) := fun k =>
    add_nonneg (sum_nonneg fun p _ => W.sq_nonneg _) (mul_nonneg (by norm_num) (hq0 _))
  have hlim := tendsto_zero_of_sum_le hnn hsum
  refine ⟨fun k => ?_, fun p => ?_, ?_⟩
  · have h1 := hdec k
    have h2 := hnn k
    linarith
  · rw [← Filter.tendsto_add_atTop_iff_nat 2]
    refine squeeze_zero (fun k => W.sq_nonneg _) (fun k => ?_) (hlim.comp (Filter.tendsto_add_atTop_nat 1))
    have h1 := (hstep k).gap_le (hstep (k + 1)) p
    have h2 := W.sq_nonneg (z (k + 2) p - z (k + 1) p)
    have h3 : W.sq (x (k + 1 + 1) - z (k + 1) p) ≤ ∑ p, W.sq (x (k + 1 + 1) - z (k + 1) p) :=
      single_le_sum (f := fun p => W.sq (x (k + 1 + 1) - z (k + 1) p)) (fun p _ => W.sq_nonneg _) (mem_univ p)
    have h4 := hq0 (x (k + 1 + 1) - xs)
    simp only [Function.comp_apply]
    linarith
  · rw [← Filter.tendsto_add_atTop_iff_nat 1]
    refine squeeze_zero (fun k => hq0 _) (fun k => ?_) hlim
    have h3 : 0 ≤ ∑ p, W.sq (x (k + 1) - z k p) := sum_nonneg fun p _ => W.sq_nonneg _
    have h4 := hq0 (x (k + 1) - xs)
    linarith

/-- A fixed point of the step is a saddle point, provided the form is definite. -/
theorem IsStep.saddle_of_fixed {z u : Fin n → V} {x' : V} (h : IsStep W f q C g z u x' z u) :
    (∀ p, x' = z p) ∧ IsSaddle W f q C g x' u := by
  have hx : ∀ p, x' = z p := by
    intro p
    have := h.ueq p
    have h0 : x' - z p = 0 := by
      have := congrArg (fun v => v - u p) this
      simpa using this.symm
    exact sub_eq_zero.1 h0
  refine ⟨hx, fun p => hx p ▸ h.zmem p, fun y => ?_, fun p y hy => ?_⟩
  · have h1 := h.xopt y
    have e : ∀ p, W.ip (z p - u p - x') (y - x') = -W.ip (u p) (y - x') := by
      intro p
      rw [← hx p, ← W.neg_left]
      congr 1
      abel
    simp only [e, sum_neg_distrib] at h1
    linarith
  · have h1 := h.zopt p y hy
    rw [← hx p] at h1
    have e : x' + u p - x' = u p := by abel
    rwa [e] at h1

end Verif.ADMM
