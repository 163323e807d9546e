import Verif.ADMM.Periodic
import Verif.ADMM.Converge
import Mathlib.Topology.Algebra.Order.LiminfLimsup
import Mathlib.Algebra.Module.LinearMap.Defs
import Mathlib.Algebra.Order.BigOperators.Ring.Finset

/-!
# Steps of consensus ADMM depend continuously on the problem and on the state

Convergence is that of all coordinates `c i`.
-/

namespace Verif.ADMM

open Finset Filter

/-- A quadratic that is below a linear term whose coefficients vanish forces its argument to vanish. -/
theorem tendsto_of_quadratic {ι : Type} [Fintype ι] {w e d : ℕ → ι → ℝ} {w0 : ι → ℝ} (hw : ∀ i, Tendsto (fun k => w k i) atTop (nhds (w0 i))) (hpos : ∀ i, 0 < w0 i)
    (he : ∀ i, Tendsto (fun k => e k i) atTop (nhds 0)) {m : ℝ} (hm : 1 ≤ m) (h : ∀ᶠ k in atTop, m * ∑ i, w k i * d k i ^ 2 ≤ ∑ i, e k i * d k i) (i : ι) :
    Tendsto (fun k => d k i) atTop (nhds 0) := by
  obtain ⟨κ, hκ, hκw⟩ : ∃ κ : ℝ, 0 < κ ∧ ∀ i, 2 * κ ≤ w0 i := by
    by_cases hne : (univ : Finset ι).Nonempty
    · refine ⟨univ.inf' hne w0 / 2, ?_, fun i => ?_⟩
      · have : 0 < univ.inf' hne w0 := (lt_inf'_iff _).2 fun i _ => hpos i
        linarith
      · have := inf'_le w0 (mem_univ i)
        linarith
    · exact absurd ⟨i, mem_univ i⟩ hne
  have hw' : ∀ᶠ k in atTop, ∀ i, κ ≤ w k i := by
    rw [eventually_all]
    intro i
    exact ((hw i).eventually (lt_mem_nhds (show κ < w0 i by have := hκw i; linarith))).mono fun k hk => hk.le
  have hsum : Tendsto (fun k => κ⁻¹ ^ 2 * ∑ i, e k i ^ 2) atTop (nhds 0) := by
    have := (tendsto_finsetSum univ fun i _ => (he i).pow 2).const_mul (κ⁻¹ ^ 2)
    simpa using this
  have hd2 : Tendsto (fun k => d k i ^ 2) atTop (nhds 0) := by
    refine squeeze_zero' (Eventually.of_forall fun k => sq_nonneg _) ?_ hsum
    filter_upwards [h, hw'] with k hk hwk
    have h1 : κ * ∑ i, d k i ^ 2 ≤ ∑ i, w k i * d k i ^ 2 := by
      rw [mul_sum]
      exact sum_le_sum fun i _ => mul_le_mul_of_nonneg_right (hwk i) (sq_nonneg _)
    have h0 : 0 ≤ ∑ i, w k i * d k i ^ 2 := sum_nonneg fun i _ => mul_nonneg (hκ.le.trans (hwk i)) (sq_nonneg _)
    have h2 : ∑ i, w k i * d k i ^ 2 ≤ m * ∑ i, w k i * d k i ^ 2 := by nlinarith
    have h3 : ∑ i, e k i * d k i ≤ κ / 2 * ∑ i, d k i ^ 2 + κ⁻¹ / 2 * ∑ i, e k i ^ 2 := by
      rw [mul_sum, mul_sum, ← sum_add_distrib]
      refine sum_le_sum fun i _ => ?_
      have : 0 ≤ κ / 2 * (d k i - κ⁻¹ * e k i) ^ 2 := mul_nonneg (by linarith) (sq_nonneg _)
      have e1 : κ / 2 * (d k i - κ⁻¹ * e k i) ^ 2 = κ / 2 * d k i ^ 2 - (κ * κ⁻¹) * (e k i * d k i) + (κ * κ⁻¹) * (κ⁻¹ / 2 * e k i ^ 2) := by ring
      rw [mul_inv_cancel₀ hκ.ne'] at e1
      linarith
    have h4 : κ / 2 * ∑ i, d k i ^ 2 ≤ κ⁻¹ / 2 * ∑ i, e k i ^ 2 := by linarith
    have h5 : ∑ i, d k i ^ 2 ≤ κ⁻¹ ^ 2 * ∑ i, e k i ^ 2 := by
      have := mul_le_mul_of_nonneg_left h4 (show 0 ≤ 2 * κ⁻¹ by positivity)
      have e2 : 2 * κ⁻¹ * (κ / 2 * ∑ i, d k i ^ 2) = (κ * κ⁻¹) * ∑ i, d k i ^ 2 := by ring
      rw [e2, mul_inv_cancel₀ hκ.ne', one_mul] at this
      calc _ ≤ _ := this
        _ = _ := by ring
    exact (single_le_sum (f := fun i => d k i ^ 2) (fun i _ => sq_nonneg _) (mem_univ i)).trans h5
  exact tendsto_of_sq_le one_pos (fun k => (one_mul _).le) hd2

variable {V ι : Type} [AddCommGroup V] [Module ℝ V] [Fintype ι] {n : ℕ}

/-- The inner product is given by coordinates and weights. -/
def IP.InCoords (W : IP V) (c : ι → V →ₗ[ℝ] ℝ) (w : ι → ℝ) : Prop := ∀ x y, W.ip x y = ∑ i, w i * (c i x * c i y)

/-- The function `f` is quadratic: gradient `a` at `x0` and curvature `q`. -/
def QuadAt (f q : V → ℝ) (c : ι → V →ₗ[ℝ] ℝ) (x0 : V) (a : ι → ℝ) : Prop := ∀ y, f y = f x0 + ∑ i, a i * c i (y - x0) + q (y - x0)

/-- Continuity of one step. -/
theorem IsStep.tendsto (hn : 0 < n) {c : ι → V →ₗ[ℝ] ℝ} {W : ℕ → IP V} {w : ℕ → ι → ℝ} {W0 : IP V} {w0 : ι → ℝ} {f q : ℕ → V → ℝ} {f0 q0 : V → ℝ}
    {C : Fin n → Set V} {g : Fin n → V → ℝ} {z u z' u' : ℕ → Fin n → V} {x : ℕ → V} {z0 u0 z0' u0' : Fin n → V} {x0 : V} {a : ℕ → ι → ℝ} {a0 : ι → ℝ}
    (hW : ∀ᶠ k in atTop, (W k).InCoords c (w k)) (hW0 : W0.InCoords c w0) (hw : ∀ i, Tendsto (fun k => w k i) atTop (nhds (w0 i))) (hpos : ∀ i, 0 < w0 i)
    (hstep : ∀ᶠ k in atTop, IsStep (W k) (f k) (q k) C g (z k) (u k) (x k) (z' k) (u' k)) (hstep0 : IsStep W0 f0 q0 C g z0 u0 x0 z0' u0')
    (hf : ∀ k, QuadAt (f k) (q k) c x0 (a k)) (hf0 : QuadAt f0 q0 c x0 a0) (hq : ∀ k v, 0 ≤ q k v) (ha : ∀ i, Tendsto (fun k => a k i) atTop (nhds (a0 i)))
    (hz : ∀ p i, Tendsto (fun k => c i (z k p)) atTop (nhds (c i (z0 p)))) (hu : ∀ p i, Tendsto (fun k => c i (u k p)) atTop (nhds (c i (u0 p)))) :
    (∀ i, Tendsto (fun k => c i (x k)) atTop (nhds (c i x0))) ∧ (∀ p i, Tendsto (fun k => c i (z' k p)) atTop (nhds (c i (z0' p)))) ∧
      ∀ p i, Tendsto (fun k => c i (u' k p)) atTop (nhds (c i (u0' p))) := by
  -- the factor
  have hx : ∀ i, Tendsto (fun k => c i (x k)) atTop (nhds (c i x0)) := by
    have hlin : ∀ v, ∑ i, (∑ p, w0 i * c i (z0 p - u0 p - x0) - a0 i) * c i v ≤ 0 := by
      intro v
      have h1 := hstep0.xopt (x0 + v)
      rw [hf0 (x0 + v), add_sub_cancel_left] at h1
      have h2 : ∑ p, W0.ip (z0 p - u0 p - x0) v = ∑ i, (∑ p, w0 i * c i (z0 p - u0 p - x0)) * c i v := by
        simp only [hW0 _ _]
        rw [sum_comm]
        refine sum_congr rfl fun i _ => ?_
        rw [sum_mul]
        exact sum_congr rfl fun p _ => by ring
      rw [h2] at h1
      simp only [sub_mul, sum_sub_distrib]
      linarith
    have hlin0 : ∀ v, ∑ i, (∑ p, w0 i * c i (z0 p - u0 p - x0) - a0 i) * c i v = 0 := by
      intro v
      refine le_antisymm (hlin v) ?_
      have := hlin (-v)
      simp only [map_neg, mul_neg, sum_neg_distrib] at this
      linarith
    have key := tendsto_of_quadratic (w := w) (d := fun k i => c i (x k - x0))
      (e := fun k i => (∑ p, w k i * c i (z k p - u k p - x0) - a k i) - (∑ p, w0 i * c i (z0 p - u0 p - x0) - a0 i)) (m := n) hw hpos (fun i => ?_)
      (by exact_mod_cast hn) ?_
    · intro i
      have := (key i).add_const (c i x0)
      rw [zero_add] at this
      refine this.congr fun k => ?_
      rw [map_sub]; ring
    · have h1 : Tendsto (fun k => ∑ p, w k i * c i (z k p - u k p - x0)) atTop (nhds (∑ p, w0 i * c i (z0 p - u0 p - x0))) := by
        refine tendsto_finsetSum univ fun p _ => (hw i).mul ?_
        simp only [map_sub]
        exact ((hz p i).sub (hu p i)).sub_const _
      have := (h1.sub (ha i)).sub_const (∑ p, w0 i * c i (z0 p - u0 p - x0) - a0 i)
      rwa [sub_self] at this
    · filter_upwards [hstep, hW] with k hk hWk
      have h1 := hk.xopt x0
      have h2 := hf k (x k)
      have q1 := hq k (x0 - x k)
      have q2 := hq k (x k - x0)
      have h3 : ∑ p, (W k).ip (z k p - u k p - x k) (x0 - x k)
          = n * ∑ i, w k i * c i (x k - x0) ^ 2 - ∑ i, (∑ p, w k i * c i (z k p - u k p - x0)) * c i (x k - x0) := by
        have e : ∀ p, (W k).ip (z k p - u k p - x k) (x0 - x k)
            = ∑ i, w k i * c i (x k - x0) ^ 2 - ∑ i, w k i * c i (z k p - u k p - x0) * c i (x k - x0) := by
          intro p
          rw [hWk, ← sum_sub_distrib]
          refine sum_congr rfl fun i _ => ?_
          simp only [map_sub]
          ring
        simp only [e, sum_sub_distrib, sum_const, card_univ, Fintype.card_fin, nsmul_eq_mul, sum_mul]
        congr 1
        rw [sum_comm]
      simp only [sub_mul, sum_sub_distrib] at hlin0 ⊢
      have h4 := hlin0 (x k - x0)
      linarith
  -- the auxiliary variables
  have hz' : ∀ p i, Tendsto (fun k => c i (z' k p)) atTop (nhds (c i (z0' p))) := by
    intro p
    have key := tendsto_of_quadratic (w := w) (d := fun k i => c i (z' k p - z0' p))
      (e := fun k i => w k i * c i (x k + u k p - z0' p) - w0 i * c i (x0 + u0 p - z0' p)) (m := 1) hw hpos (fun i => ?_) le_rfl ?_
    · intro i
      have := (key i).add_const (c i (z0' p))
      rw [zero_add] at this
      refine this.congr fun k => ?_
      rw [map_sub]; ring
    · have h1 : Tendsto (fun k => w k i * c i (x k + u k p - z0' p)) atTop (nhds (w0 i * c i (x0 + u0 p - z0' p))) := by
        refine (hw i).mul ?_
        simp only [map_sub, map_add]
        exact ((hx i).add (hu p i)).sub_const _
      have := h1.sub_const (w0 i * c i (x0 + u0 p - z0' p))
      rwa [sub_self] at this
    · filter_upwards [hstep, hW] with k hk hWk
      have h1 := hk.zopt p (z0' p) (hstep0.zmem p)
      have h2 := hstep0.zopt p (z' k p) (hk.zmem p)
      rw [hWk] at h1
      rw [hW0] at h2
      have e1 : ∑ i, w k i * (c i (x k + u k p - z' k p) * c i (z0' p - z' k p))
          = ∑ i, w k i * c i (z' k p - z0' p) ^ 2 - ∑ i, w k i * c i (x k + u k p - z0' p) * c i (z' k p - z0' p) := by
        rw [← sum_sub_distrib]
        refine sum_congr rfl fun i _ => ?_
        simp only [map_sub, map_add]
        ring
      have e2 : ∑ i, w0 i * (c i (x0 + u0 p - z0' p) * c i (z' k p - z0' p)) = ∑ i, w0 i * c i (x0 + u0 p - z0' p) * c i (z' k p - z0' p) :=
        sum_congr rfl fun i _ => by ring
      simp only [sub_mul, sum_sub_distrib]
      linarith
  refine ⟨hx, hz', fun p i => ?_⟩
  have := (hu p i).add ((hx i).sub (hz' p i))
  rw [← map_sub, ← map_add, ← hstep0.ueq p] at this
  refine this.congr' ?_
  filter_upwards [hstep] with k hk
  rw [hk.ueq p, map_add, map_sub]

theorem IP.InCoords.definite {W : IP V} {c : ι → V →ₗ[ℝ] ℝ} {w : ι → ℝ} (h : W.InCoords c w) (hw : ∀ i, 0 < w i) (hext : ∀ v, (∀ i, c i v = 0) → v = 0) (v : V)
    (hv : W.sq v = 0) : v = 0 := by
  refine hext v fun i => ?_
  rw [IP.sq, h] at hv
  have := (sum_eq_zero_iff_of_nonneg fun i _ => mul_nonneg (hw i).le (mul_self_nonneg (c i v))).1 hv i (mem_univ i)
  exact mul_self_eq_zero.1 ((mul_eq_zero.1 this).resolve_left (hw i).ne')

/-- Limits of runs: if the states before and after at most `N` steps have the same limit, this limit is a saddle point of the limit of the problems. -/
theorem limit_saddle (hn : 0 < n) {c : ι → V →ₗ[ℝ] ℝ} (hext : ∀ v, (∀ i, c i v = 0) → v = 0) {W : ℕ → IP V} {w : ℕ → ι → ℝ} {W0 : IP V} {w0 : ι → ℝ} {f q : ℕ → V → ℝ}
    {f0 q0 : V → ℝ} {C : Fin n → Set V} {g : Fin n → V → ℝ} {x : ℕ → ℕ → V} {z u : ℕ → ℕ → Fin n → V} {M : ℕ → ℕ} {N : ℕ} (hM : ∀ k, 0 < M k ∧ M k ≤ N)
    (hW : ∀ᶠ k in atTop, (W k).InCoords c (w k)) (hW0 : W0.InCoords c w0) (hw : ∀ i, Tendsto (fun k => w k i) atTop (nhds (w0 i))) (hpos : ∀ i, 0 < w0 i)
    (hstep : ∀ᶠ k in atTop, ∀ j < M k, IsStep (W k) (f k) (q k) C g (z k j) (u k j) (x k (j + 1)) (z k (j + 1)) (u k (j + 1)))
    {x0 : ℕ → V} {z0 u0 : ℕ → Fin n → V} (hstep0 : ∀ j, IsStep W0 f0 q0 C g (z0 j) (u0 j) (x0 (j + 1)) (z0 (j + 1)) (u0 (j + 1)))
    {a : V → ℕ → ι → ℝ} {a0 : V → ι → ℝ} (hf : ∀ y k, QuadAt (f k) (q k) c y (a y k)) (hf0 : ∀ y, QuadAt f0 q0 c y (a0 y)) (hq : ∀ k v, 0 ≤ q k v) (hq0 : ∀ v, 0 ≤ q0 v)
    (ha : ∀ y i, Tendsto (fun k => a y k i) atTop (nhds (a0 y i)))
    (hz : ∀ p i, Tendsto (fun k => c i (z k 0 p)) atTop (nhds (c i (z0 0 p)))) (hu : ∀ p i, Tendsto (fun k => c i (u k 0 p)) atTop (nhds (c i (u0 0 p))))
    (xs : V) (hxM : ∀ i, Tendsto (fun k => c i (x k (M k))) atTop (nhds (c i xs))) (hzM : ∀ p i, Tendsto (fun k => c i (z k (M k) p)) atTop (nhds (c i (z0 0 p))))
    (huM : ∀ p i, Tendsto (fun k => c i (u k (M k) p)) atTop (nhds (c i (u0 0 p)))) :
    (∀ p, xs = z0 0 p) ∧ IsSaddle W0 f0 q0 C g xs (u0 0) := by
  obtain ⟨m, hm⟩ : ∃ m, ∃ᶠ k in atTop, M k = m := by
    by_contra hne
    have h1 : ∀ m, ∀ᶠ k in atTop, M k ≠ m := fun m => by
      by_contra hc
      exact hne ⟨m, hc⟩
    have h2 : ∀ᶠ k in atTop, ∀ m ∈ range (N + 1), M k ≠ m := (eventually_all_finset _).2 fun m _ => h1 m
    obtain ⟨k, hk⟩ := h2.exists
    exact hk (M k) (mem_range.2 (Nat.lt_succ_of_le (hM k).2)) rfl
  obtain ⟨φ, hφ, hφm⟩ := extraction_of_frequently_atTop hm
  have ht := hφ.tendsto_atTop
  have hm0 : 0 < m := by rw [← hφm 0]; exact (hM _).1
  have key : ∀ j, j ≤ m → (0 < j → ∀ i, Tendsto (fun k => c i (x (φ k) j)) atTop (nhds (c i (x0 j)))) ∧
      (∀ p i, Tendsto (fun k => c i (z (φ k) j p)) atTop (nhds (c i (z0 j p)))) ∧ ∀ p i, Tendsto (fun k => c i (u (φ k) j p)) atTop (nhds (c i (u0 j p))) := by
    intro j
    induction j with
    | zero => exact fun _ => ⟨fun h => absurd h (lt_irrefl _), fun p i => (hz p i).comp ht, fun p i => (hu p i).comp ht⟩
    | succ j ih =>
      intro hj
      obtain ⟨-, i2, i3⟩ := ih (by omega)
      obtain ⟨r1, r2, r3⟩ := IsStep.tendsto (W := fun k => W (φ k)) (w := fun k => w (φ k)) (f := fun k => f (φ k)) (q := fun k => q (φ k))
        (x := fun k => x (φ k) (j + 1)) (z' := fun k => z (φ k) (j + 1)) (u' := fun k => u (φ k) (j + 1)) (z := fun k => z (φ k) j) (u := fun k => u (φ k) j)
        (a := fun k => a (x0 (j + 1)) (φ k)) hn (ht.eventually hW) hW0 (fun i => (hw i).comp ht) hpos
        ((ht.eventually hstep).mono fun k hk => hk j (by rw [hφm]; omega)) (hstep0 j) (fun k => hf _ _) (hf0 _) (fun k => hq _) (fun i => (ha _ i).comp ht) i2 i3
      exact ⟨fun _ => r1, r2, r3⟩
  obtain ⟨k1, k2, k3⟩ := key m le_rfl
  have ext : ∀ v v' : V, (∀ i, c i v = c i v') → v = v' := fun v v' h =>
    sub_eq_zero.1 (hext _ fun i => by rw [map_sub, h i, sub_self])
  have ex : x0 m = xs := ext _ _ fun i => tendsto_nhds_unique (k1 hm0 i) (((hxM i).comp ht).congr fun k => by simp only [Function.comp_apply, hφm])
  have ez : z0 m = z0 0 := funext fun p => ext _ _ fun i => tendsto_nhds_unique (k2 p i) (((hzM p i).comp ht).congr fun k => by simp only [Function.comp_apply, hφm])
  have eu : u0 m = u0 0 := funext fun p => ext _ _ fun i => tendsto_nhds_unique (k3 p i) (((huM p i).comp ht).congr fun k => by simp only [Function.comp_apply, hφm])
  have := step_of_cycle hm0 (fun j _ => hstep0 j) ez eu (hW0.definite hpos hext) hq0
  rw [ex] at this
  exact this.saddle_of_fixed

end Verif.ADMM
