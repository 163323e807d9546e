import Mathlib.Analysis.LocallyConvex.Separation
import Mathlib.Analysis.Convex.Continuous
import Mathlib.Analysis.Normed.Module.FiniteDimension
import Mathlib.Analysis.Normed.Group.Bounded
import Mathlib.Analysis.Matrix.Normed
import Mathlib.Topology.Order.Compact
import Verif.ADMM.Converge
import Verif.ADMM.Concrete

/-!
# Existence of multipliers and of minimisers of the regularized subproblems

Helper facts about convex problems; no code is modelled here.
-/

namespace Verif.ADMM

open Verif.Spec Finset Filter Topology

section Abstract

variable {V : Type} [NormedAddCommGroup V] [NormedSpace ℝ V] [FiniteDimensional ℝ V] {n : ℕ}

/-- Values of the problem with shifted constraints. -/
def perturbed (f : V → ℝ) (C : Fin n → Set V) (g : Fin n → V → ℝ) : Set ((Fin n → V) × ℝ) :=
  {w | ∃ x, (∀ p, x + w.1 p ∈ C p) ∧ f x + ∑ p, g p (x + w.1 p) < w.2}

omit [FiniteDimensional ℝ V] in
theorem convex_perturbed {f : V → ℝ} (hf : ConvexOn ℝ Set.univ f) {C : Fin n → Set V} {g : Fin n → V → ℝ}
    (hg : ∀ p, ConvexOn ℝ (C p) (g p)) : Convex ℝ (perturbed f C g) := by
  rw [convex_iff_forall_pos]
  rintro ⟨u, s⟩ ⟨x, hx, hs⟩ ⟨v, t⟩ ⟨y, hy, ht⟩ a b ha hb hab
  have e : ∀ p, a • x + b • y + (a • u + b • v) p = a • (x + u p) + b • (y + v p) := fun p => by
    simp only [Pi.add_apply, Pi.smul_apply, smul_add]; abel
  refine ⟨a • x + b • y, fun p => ?_, ?_⟩
  · show a • x + b • y + (a • u + b • v) p ∈ C p
    rw [e]
    exact (hg p).1 (hx p) (hy p) ha.le hb.le hab
  · show f (a • x + b • y) + ∑ p, g p (a • x + b • y + (a • u + b • v) p) < a * s + b * t
    have h1 := hf.2 (Set.mem_univ x) (Set.mem_univ y) ha.le hb.le hab
    have h2 : ∑ p, g p (a • x + b • y + (a • u + b • v) p) ≤ ∑ p, (a * g p (x + u p) + b * g p (y + v p)) := by
      refine sum_le_sum fun p _ => ?_
      rw [e]
      exact (hg p).2 (hx p) (hy p) ha.le hb.le hab
    rw [sum_add_distrib, ← mul_sum, ← mul_sum] at h2
    have h3 := mul_lt_mul_of_pos_left hs ha
    have h4 := mul_lt_mul_of_pos_left ht hb
    simp only [smul_eq_mul] at h1 h3 h4
    linarith

theorem interior_perturbed {f : V → ℝ} (hf : ConvexOn ℝ Set.univ f) {C : Fin n → Set V} {g : Fin n → V → ℝ}
    (hg : ∀ p, ConvexOn ℝ (C p) (g p)) {x0 : V} (p0 : Fin n) (hx0 : x0 ∈ C p0) (hint : ∀ p, p ≠ p0 → x0 ∈ interior (C p)) :
    ∃ T, ((0 : Fin n → V), T) ∈ interior (perturbed f C g) := by
  set φ : (Fin n → V) → ℝ := fun u => f (x0 - u p0) + ∑ p, g p (x0 - u p0 + u p) with hφ
  have hsub : ∀ p, Continuous fun u : Fin n → V => x0 - u p0 + u p := fun p =>
    (continuous_const.sub (continuous_apply p0)).add (continuous_apply p)
  have hcont : ContinuousAt φ 0 := by
    refine ContinuousAt.add ?_ (tendsto_finsetSum _ fun p _ => ?_)
    · have h1 : Continuous f := (hf.locallyLipschitz).continuous
      exact (h1.comp (continuous_const.sub (continuous_apply p0))).continuousAt
    · by_cases hp : p = p0
      · subst hp
        simp only [sub_add_cancel]
        exact continuousAt_const
      · have h1 : ContinuousAt (g p) x0 := ((hg p).continuousOn_interior).continuousAt (isOpen_interior.mem_nhds (hint p hp))
        have h2 := (hsub p).continuousAt (x := 0)
        exact ContinuousAt.comp (f := fun u : Fin n → V => x0 - u p0 + u p) (by simpa using h1) h2
  have hev : ∀ᶠ u in 𝓝 (0 : Fin n → V), ∀ p, x0 - u p0 + u p ∈ C p := by
    rw [eventually_all]
    intro p
    by_cases hp : p = p0
    · subst hp
      exact Eventually.of_forall fun u => by rwa [sub_add_cancel]
    · have h2 : Tendsto (fun u : Fin n → V => x0 - u p0 + u p) (𝓝 0) (𝓝 x0) := by
        have := (hsub p).tendsto 0
        simpa using this
      exact (h2.eventually (isOpen_interior.mem_nhds (hint p hp))).mono fun u hu => interior_subset hu
  have hlt : ∀ᶠ u in 𝓝 (0 : Fin n → V), φ u < φ 0 + 1 := hcont.eventually (gt_mem_nhds (by linarith))
  refine ⟨φ 0 + 2, mem_interior_iff_mem_nhds.mpr ?_⟩
  have h1 : ∀ᶠ w in 𝓝 ((0 : Fin n → V), φ 0 + 2), (∀ p, x0 - w.1 p0 + w.1 p ∈ C p) ∧ φ w.1 < φ 0 + 1 :=
    (continuous_fst.tendsto ((0 : Fin n → V), φ 0 + 2)).eventually (hev.and hlt)
  have h2 : ∀ᶠ w in 𝓝 ((0 : Fin n → V), φ 0 + 2), φ 0 + 1 < w.2 :=
    (continuous_snd.tendsto ((0 : Fin n → V), φ 0 + 2)).eventually (lt_mem_nhds (by simp))
  filter_upwards [h1, h2] with w hw hw2
  exact ⟨x0 - w.1 p0, hw.1, hw.2.trans hw2⟩

/-- A minimiser of a convex problem has multipliers when one point satisfies all constraints, all but one of them strictly. -/
theorem exists_multipliers {f : V → ℝ} (hf : ConvexOn ℝ Set.univ f) {C : Fin n → Set V} {g : Fin n → V → ℝ}
    (hg : ∀ p, ConvexOn ℝ (C p) (g p)) {x0 : V} (p0 : Fin n) (hx0 : x0 ∈ C p0) (hint : ∀ p, p ≠ p0 → x0 ∈ interior (C p))
    {xs : V} (hxs : IsMinOver f C g xs) :
    ∃ ℓ : Fin n → V →ₗ[ℝ] ℝ, (∀ y, f xs ≤ f y + ∑ p, ℓ p (y - xs)) ∧ ∀ p, ∀ y ∈ C p, g p xs ≤ g p y - ℓ p (y - xs) := by
  set m := f xs + ∑ p, g p xs with hm
  obtain ⟨T, hT⟩ := interior_perturbed hf hg p0 hx0 hint
  have hnot : ((0 : Fin n → V), m) ∉ interior (perturbed f C g) := by
    intro h
    obtain ⟨x, hx, hlt⟩ := interior_subset h
    simp only [Pi.zero_apply, add_zero] at hx hlt
    exact absurd (hxs.2 x hx) (not_le.mpr hlt)
  obtain ⟨φ, hφ0, hφ⟩ := geometric_hahn_banach_of_nonempty_interior_point (convex_perturbed hf hg) hnot ⟨_, hT⟩
  have hsum : ∀ (u : Fin n → V) (t : ℝ), φ (u, t) = ∑ p, φ (Pi.single p (u p), 0) + φ (0, 1) * t := by
    intro u t
    have e1 : (u, t) = (∑ p, ((Pi.single p (u p) : Fin n → V), (0 : ℝ))) + t • ((0 : Fin n → V), (1 : ℝ)) := by
      refine Prod.ext ?_ ?_
      · rw [Prod.fst_add, Prod.fst_sum]
        simp only [Prod.smul_fst, smul_zero, add_zero]
        exact (Finset.univ_sum_single u).symm
      · rw [Prod.snd_add, Prod.snd_sum]
        simp
    rw [e1, map_add, map_sum, map_smul, smul_eq_mul, mul_comm t]
  have hz : ∀ t : ℝ, φ (0, t) = φ (0, 1) * t := by
    intro t
    rw [hsum 0 t]
    have : ∀ p : Fin n, φ ((Pi.single p ((0 : Fin n → V) p) : Fin n → V), (0 : ℝ)) = 0 := fun p => by
      rw [Pi.zero_apply, Pi.single_zero]
      exact map_zero φ
    rw [sum_congr rfl fun p _ => this p, sum_const_zero, zero_add]
  have hc0 : φ (0, 1) ≤ 0 := by
    have : ((0 : Fin n → V), m + 1) ∈ perturbed f C g :=
      ⟨xs, fun p => by simpa using hxs.1 p, by simp only [Pi.zero_apply, add_zero, ← hm]; linarith⟩
    have h1 := hφ _ this
    rw [hz (m + 1), hz m] at h1
    linarith
  have hc : φ (0, 1) < 0 := by
    refine lt_of_le_of_ne hc0 fun hc => hφ0 ?_
    have hle : ∀ w, φ w ≤ 0 := by
      intro w
      have ht : Tendsto (fun t : ℝ => ((0 : Fin n → V), T) + t • w) (𝓝 0) (𝓝 ((0 : Fin n → V), T)) := by
        have : Continuous fun t : ℝ => ((0 : Fin n → V), T) + t • w := by fun_prop
        simpa using this.tendsto 0
      have h1 : ∀ᶠ t in 𝓝 (0 : ℝ), ((0 : Fin n → V), T) + t • w ∈ perturbed f C g :=
        (ht.eventually (isOpen_interior.mem_nhds hT)).mono fun t ht => interior_subset ht
      obtain ⟨t, ht1, ht2⟩ := ((h1.filter_mono nhdsWithin_le_nhds).and (self_mem_nhdsWithin (a := (0 : ℝ)) (s := Set.Ioi 0))).exists
      have h2 := hφ _ ht1
      rw [map_add, map_smul, hz T, hz m, hc, smul_eq_mul] at h2
      have ht2 : 0 < t := ht2
      by_contra hcon
      push Not at hcon
      nlinarith [mul_pos ht2 hcon]
    refine ContinuousLinearMap.ext fun w => le_antisymm (hle w) ?_
    have := hle (-w)
    rw [map_neg] at this
    show (0 : ℝ) ≤ φ w
    linarith
  have key : ∀ (x : V) (y : Fin n → V), (∀ p, y p ∈ C p) →
      ∑ p, φ (Pi.single p (y p - x), 0) + φ (0, 1) * (f x + ∑ p, g p (y p)) ≤ φ (0, 1) * m := by
    intro x y hy
    have h1 : ∀ t, f x + ∑ p, g p (y p) < t → ∑ p, φ (Pi.single p (y p - x), 0) + φ (0, 1) * t ≤ φ (0, 1) * m := by
      intro t ht
      have := hφ (fun p => y p - x, t) ⟨x, fun p => by simpa using hy p, by simpa using ht⟩
      rwa [hz m, hsum] at this
    refine le_of_forall_pos_le_add fun ε hε => ?_
    have h2 := h1 (f x + ∑ p, g p (y p) + ε / (-φ (0, 1))) (by have := div_pos hε (neg_pos.mpr hc); linarith)
    have h3 : φ (0, 1) * (ε / (-φ (0, 1))) = -ε := by
      have := hc.ne
      field_simp
    rw [mul_add, h3] at h2
    linarith
  set ℓ : Fin n → V →ₗ[ℝ] ℝ := fun p =>
    { toFun := fun v => (-φ (0, 1))⁻¹ * φ (Pi.single p v, 0)
      map_add' := fun v w => by
        have : ((Pi.single p (v + w) : Fin n → V), (0 : ℝ)) = (Pi.single p v, 0) + (Pi.single p w, 0) := by
          rw [Pi.single_add, Prod.mk_add_mk, add_zero]
        rw [this, map_add, mul_add]
      map_smul' := fun t v => by
        have : ((Pi.single p (t • v) : Fin n → V), (0 : ℝ)) = t • ((Pi.single p v : Fin n → V), (0 : ℝ)) := by
          rw [Pi.single_smul, Prod.smul_mk, smul_zero]
        rw [this, map_smul]
        simp only [smul_eq_mul, RingHom.id_apply]
        ring } with hℓ
  have key' : ∀ (x : V) (y : Fin n → V), (∀ p, y p ∈ C p) → m ≤ f x + ∑ p, g p (y p) - ∑ p, ℓ p (y p - x) := by
    intro x y hy
    have h1 := mul_le_mul_of_nonneg_left (key x y hy) (inv_nonneg.mpr (neg_pos.mpr hc).le)
    have h2 : (-φ (0, 1))⁻¹ * φ (0, 1) = -1 := by
      have := hc.ne
      field_simp
    rw [mul_add, ← mul_assoc, ← mul_assoc, h2, mul_sum] at h1
    have h3 : ∑ p, ℓ p (y p - x) = ∑ p, (-φ (0, 1))⁻¹ * φ (Pi.single p (y p - x), 0) := rfl
    linarith
  refine ⟨ℓ, fun y => ?_, fun p y hy => ?_⟩
  · have h1 := key' y (fun _ => xs) hxs.1
    have h2 : ∑ p, ℓ p (y - xs) = - ∑ p, ℓ p (xs - y) := by
      rw [← sum_neg_distrib]
      exact sum_congr rfl fun p _ => by rw [← map_neg, neg_sub]
    rw [hm] at h1
    linarith
  · have h1 := key' xs (Function.update (fun _ => xs) p y) (fun q => by
      by_cases hq : q = p
      · subst hq; simpa using hy
      · simpa [Function.update_of_ne hq] using hxs.1 q)
    have h2 : ∑ q, g q (Function.update (fun _ => xs) p y q) = ∑ q, g q xs + (g p y - g p xs) := by
      rw [← sub_eq_iff_eq_add', ← sum_sub_distrib, sum_eq_single p]
      · simp
      · intro q _ hq
        simp [Function.update_of_ne hq]
      · simp
    have h3 : ∑ q, ℓ q (Function.update (fun _ => xs) p y q - xs) = ℓ p (y - xs) := by
      rw [sum_eq_single p]
      · simp
      · intro q _ hq
        simp [Function.update_of_ne hq]
      · simp
    rw [h2, h3, hm] at h1
    linarith

/-- A continuous function with a quadratic lower bound is coercive. -/
theorem coercive_of_quadratic {f q : V → ℝ} {c : ℝ} (hq : Continuous q) (hhom : ∀ (t : ℝ) v, q (t • v) = t ^ 2 * q v) (hpos : ∀ v, v ≠ 0 → 0 < q v)
    (hle : ∀ v, q v - c ≤ f v) : Tendsto f (cocompact V) atTop := by
  obtain ⟨d, hd, hqd⟩ : ∃ d : ℝ, 0 < d ∧ ∀ v, d * ‖v‖ ^ 2 ≤ q v := by
    by_cases hne : (Metric.sphere (0 : V) 1).Nonempty
    · obtain ⟨w, hw, hmin⟩ := (isCompact_sphere (0 : V) 1).exists_isMinOn hne hq.continuousOn
      have hw0 : w ≠ 0 := by
        rintro rfl
        simp at hw
      refine ⟨q w, hpos w hw0, fun v => ?_⟩
      by_cases hv : v = 0
      · subst hv
        have := hhom 0 0
        simp at this
        simp [this]
      · have hn : ‖v‖ ≠ 0 := norm_ne_zero_iff.mpr hv
        have h1 : q w ≤ q (‖v‖⁻¹ • v) := hmin (by simp [norm_smul, hn])
        rw [hhom] at h1
        have h2 : 0 < ‖v‖ ^ 2 := by positivity
        rw [inv_pow] at h1
        calc q w * ‖v‖ ^ 2 ≤ (‖v‖ ^ 2)⁻¹ * q v * ‖v‖ ^ 2 := mul_le_mul_of_nonneg_right h1 h2.le
          _ = q v := by field_simp
    · refine ⟨1, one_pos, fun v => ?_⟩
      have hv : v = 0 := by
        by_contra hv
        exact hne ⟨‖v‖⁻¹ • v, by simp [norm_smul, norm_ne_zero_iff.mpr hv]⟩
      subst hv
      have := hhom 0 0
      simp at this
      simp [this]
  have h1 : Tendsto (fun v : V => d * ‖v‖ ^ 2 - c) (cocompact V) atTop := by
    have h2 : Tendsto (fun x : ℝ => d * x ^ 2 - c) atTop atTop :=
      tendsto_atTop_add_const_right _ _ ((tendsto_pow_atTop two_ne_zero).const_mul_atTop hd)
    exact h2.comp tendsto_norm_cocompact_atTop
  exact tendsto_atTop_mono (fun v => by have := hqd v; have := hle v; linarith) h1

omit [NormedSpace ℝ V] [FiniteDimensional ℝ V] in
/-- A coercive continuous function with constraints and penalties bounded below has a minimiser. -/
theorem exists_minOver {f : V → ℝ} (hf : Continuous f) (hco : Tendsto f (cocompact V) atTop) {C : Fin n → Set V} (hC : ∀ p, IsClosed (C p))
    {g : Fin n → V → ℝ} (hg : ∀ p, ContinuousOn (g p) (C p)) (hb : ∀ p, ∀ y ∈ C p, 0 ≤ g p y) {x0 : V} (hx0 : ∀ p, x0 ∈ C p) :
    ∃ xs, IsMinOver f C g xs := by
  have hcl : IsClosed {x | ∀ p, x ∈ C p} := by
    have : {x | ∀ p, x ∈ C p} = ⋂ p, C p := by ext x; simp
    rw [this]
    exact isClosed_iInter hC
  have hcont : ContinuousOn (fun x => f x + ∑ p, g p x) {x | ∀ p, x ∈ C p} :=
    hf.continuousOn.add (continuousOn_finsetSum _ fun p _ => (hg p).mono fun x hx => hx p)
  obtain ⟨xs, hxs, hmin⟩ := hcont.exists_isMinOn' hcl (x₀ := x0) hx0 (by
    have h1 : ∀ᶠ x in cocompact V, f x0 + ∑ p, g p x0 ≤ f x := hco.eventually_ge_atTop _
    have h2 : ∀ᶠ x in cocompact V ⊓ 𝓟 {x | ∀ p, x ∈ C p}, x ∈ {x | ∀ p, x ∈ C p} := Filter.mem_inf_of_right (mem_principal_self _)
    filter_upwards [h1.filter_mono inf_le_left, h2] with x hx hx2
    have : 0 ≤ ∑ p, g p x := sum_nonneg fun p _ => hb p x (hx2 p)
    linarith)
  exact ⟨xs, hxs, fun y hy => hmin hy⟩

end Abstract

end Verif.ADMM
