import Verif.ADMM.Saddle

/-!
# Multipliers and minimisers for the three subproblems

Helper facts; no code is modelled here.
-/

namespace Verif.ADMM

open Verif.Spec Finset Filter Topology

attribute [local instance] Matrix.normedAddCommGroup Matrix.normedSpace

variable {I K R n m : ℕ} {J : Fin I → ℕ}

/-! ### Linear functions as inner products -/

theorem linear_eq_inner (ℓ : Matrix (Fin m) (Fin R) ℝ →ₗ[ℝ] ℝ) :
    ∃ L : Matrix (Fin m) (Fin R) ℝ, ∀ Y, ℓ Y = Spec.inner L Y := by
  refine ⟨Matrix.of fun i r => ℓ (Matrix.single i r 1), fun Y => ?_⟩
  conv_lhs => rw [Matrix.matrix_eq_sum_single Y]
  rw [map_sum]
  refine sum_congr rfl fun i _ => ?_
  rw [map_sum]
  refine sum_congr rfl fun r _ => ?_
  have : Matrix.single i r (Y i r) = Y i r • Matrix.single i r (1 : ℝ) := by rw [Matrix.smul_single, smul_eq_mul, mul_one]
  rw [this, map_smul, smul_eq_mul, mul_comm]
  rfl

theorem linear_eq_ragInner (ℓ : Ragged I R J →ₗ[ℝ] ℝ) : ∃ L : Ragged I R J, ∀ Y, ℓ Y = ragInner L Y := by
  have h : ∀ i, ∃ L : Matrix (Fin (J i)) (Fin R) ℝ, ∀ Y, ℓ (Pi.single i Y) = Spec.inner L Y := fun i =>
    linear_eq_inner (ℓ.comp (LinearMap.single ℝ (fun i => Matrix (Fin (J i)) (Fin R) ℝ) i))
  choose L hL using h
  refine ⟨L, fun Y => ?_⟩
  conv_lhs => rw [← Finset.univ_sum_single Y]
  rw [map_sum]
  exact sum_congr rfl fun i _ => hL i (Y i)

/-! ### Points strictly inside -/

theorem mem_interior_mat {C : Set (Matrix (Fin m) (Fin R) ℝ)} {x : Matrix (Fin m) (Fin R) ℝ} (h : InsideMat C x) : x ∈ interior C := by
  obtain ⟨ε, hε, h⟩ := h
  refine mem_interior.mpr ⟨Metric.ball x ε, fun Y hY => h Y fun i r => ?_, Metric.isOpen_ball, Metric.mem_ball_self hε⟩
  rw [Metric.mem_ball, dist_eq_norm] at hY
  exact (Matrix.norm_entry_le_entrywise_sup_norm (Y - x) (i := i) (j := r)).trans_lt hY

theorem mem_interior_rag {C : Set (Ragged I R J)} {x : Ragged I R J} (h : InsideRag C x) : x ∈ interior C := by
  obtain ⟨ε, hε, h⟩ := h
  refine mem_interior.mpr ⟨Metric.ball x ε, fun Y hY => h Y fun i j r => ?_, Metric.isOpen_ball, Metric.mem_ball_self hε⟩
  rw [Metric.mem_ball, dist_eq_norm] at hY
  exact ((Matrix.norm_entry_le_entrywise_sup_norm ((Y - x) i) (i := j) (j := r)).trans (norm_le_pi_norm (Y - x) i)).trans_lt hY

/-! ### Saddle points -/

theorem exists_saddle_mat {f : Matrix (Fin m) (Fin R) ℝ → ℝ} (hf : ConvexOn ℝ Set.univ f) {C : Fin n → Set (Matrix (Fin m) (Fin R) ℝ)}
    {g : Fin n → Matrix (Fin m) (Fin R) ℝ → ℝ} (hg : ∀ p, ConvexOn ℝ (C p) (g p)) {x0 : Matrix (Fin m) (Fin R) ℝ} (p0 : Fin n)
    (hx0 : x0 ∈ C p0) (hint : ∀ p, p ≠ p0 → InsideMat (C p) x0) {xs : Matrix (Fin m) (Fin R) ℝ} (hxs : IsMinOver f C g xs) :
    ∃ Λ, IsSaddlePoint Spec.inner f C g xs Λ := by
  obtain ⟨ℓ, h1, h2⟩ := exists_multipliers hf hg p0 hx0 (fun p hp => mem_interior_mat (hint p hp)) hxs
  choose Λ hΛ using fun p => linear_eq_inner (ℓ p)
  refine ⟨Λ, hxs.1, fun y => ?_, fun p y hy => ?_⟩
  · have := h1 y
    simp only [hΛ] at this
    exact this
  · have := h2 p y hy
    rwa [hΛ] at this

theorem exists_saddle_rag {f : Ragged I R J → ℝ} (hf : ConvexOn ℝ Set.univ f) {C : Fin n → Set (Ragged I R J)}
    {g : Fin n → Ragged I R J → ℝ} (hg : ∀ p, ConvexOn ℝ (C p) (g p)) {x0 : Ragged I R J} (p0 : Fin n)
    (hx0 : x0 ∈ C p0) (hint : ∀ p, p ≠ p0 → InsideRag (C p) x0) {xs : Ragged I R J} (hxs : IsMinOver f C g xs) :
    ∃ Λ, IsSaddlePoint ragInner f C g xs Λ := by
  obtain ⟨ℓ, h1, h2⟩ := exists_multipliers hf hg p0 hx0 (fun p hp => mem_interior_rag (hint p hp)) hxs
  choose Λ hΛ using fun p => linear_eq_ragInner (ℓ p)
  refine ⟨Λ, hxs.1, fun y => ?_, fun p y hy => ?_⟩
  · have := h1 y
    simp only [hΛ] at this
    exact this
  · have := h2 p y hy
    rwa [hΛ] at this

/-! ### Ridge least squares -/

section Ridge

variable {V κ ι : Type} [NormedAddCommGroup V] [NormedSpace ℝ V] [FiniteDimensional ℝ V] [Fintype κ] [Fintype ι]

/-- Half the squared residuals plus a ridge term. -/
noncomputable def ridge (x : κ → ℝ) (e : κ → V →ₗ[ℝ] ℝ) (c : ι → V →ₗ[ℝ] ℝ) (l2 : ℝ) (v : V) : ℝ :=
  1 / 2 * ∑ k, (x k - e k v) ^ 2 + l2 / 2 * ∑ i, c i v ^ 2

omit [FiniteDimensional ℝ V] in
theorem convexOn_sq_affine (a : ℝ) (e : V →ₗ[ℝ] ℝ) : ConvexOn ℝ Set.univ fun v => (a - e v) ^ 2 := by
  refine ⟨convex_univ, fun x _ y _ s t hs ht hst => ?_⟩
  simp only [map_add, map_smul, smul_eq_mul]
  obtain rfl : t = 1 - s := by linarith
  nlinarith [mul_nonneg (mul_nonneg hs ht) (sq_nonneg (e x - e y))]

omit [FiniteDimensional ℝ V] in
theorem convexOn_ridge (x : κ → ℝ) (e : κ → V →ₗ[ℝ] ℝ) (c : ι → V →ₗ[ℝ] ℝ) {l2 : ℝ} (hl : 0 ≤ l2) :
    ConvexOn ℝ Set.univ (ridge x e c l2) := by
  have h1 := (convexOn_sum' univ convex_univ fun k _ => convexOn_sq_affine (x k) (e k)).smul (c := (1 / 2 : ℝ)) (by norm_num)
  have h2 : ConvexOn ℝ Set.univ fun v : V => ∑ i, c i v ^ 2 := by
    refine convexOn_sum' univ convex_univ fun i _ => ?_
    have := convexOn_sq_affine 0 (c i)
    simpa using this
  exact h1.add (h2.smul (by linarith : 0 ≤ l2 / 2))

theorem continuous_ridge (x : κ → ℝ) (e : κ → V →ₗ[ℝ] ℝ) (c : ι → V →ₗ[ℝ] ℝ) (l2 : ℝ) : Continuous (ridge x e c l2) := by
  have he : ∀ k, Continuous (e k) := fun k => (e k).continuous_of_finiteDimensional
  have hc : ∀ k, Continuous (c k) := fun k => (c k).continuous_of_finiteDimensional
  unfold ridge
  fun_prop

theorem coercive_ridge (x : κ → ℝ) (e : κ → V →ₗ[ℝ] ℝ) (c : ι → V →ₗ[ℝ] ℝ) {l2 : ℝ} (hl : 0 ≤ l2)
    (hpos : ∀ v, v ≠ 0 → 0 < ∑ k, e k v ^ 2 + l2 * ∑ i, c i v ^ 2) : Tendsto (ridge x e c l2) (cocompact V) atTop := by
  have he : ∀ k, Continuous (e k) := fun k => (e k).continuous_of_finiteDimensional
  have hc : ∀ k, Continuous (c k) := fun k => (c k).continuous_of_finiteDimensional
  refine coercive_of_quadratic (q := fun v => 1 / 4 * (∑ k, e k v ^ 2 + l2 * ∑ i, c i v ^ 2)) (c := 1 / 2 * ∑ k, x k ^ 2) (by fun_prop) ?_ ?_ ?_
  · intro t v
    simp only [map_smul, smul_eq_mul, mul_pow, ← mul_sum]
    ring
  · intro v hv
    have := hpos v hv
    linarith
  · intro v
    have h1 : ∑ k, e k v ^ 2 ≤ ∑ k, (2 * (x k - e k v) ^ 2 + 2 * x k ^ 2) := by
      refine sum_le_sum fun k _ => ?_
      nlinarith [sq_nonneg (2 * x k - e k v)]
    rw [sum_add_distrib, ← mul_sum, ← mul_sum] at h1
    have h2 : 0 ≤ l2 * ∑ i, c i v ^ 2 := mul_nonneg hl (sum_nonneg fun i _ => sq_nonneg _)
    unfold ridge
    linarith

end Ridge

/-! ### The three fits -/

/-- A weighted row sum as a linear function. -/
def rowLin (i : Fin m) (w : Fin R → ℝ) : Matrix (Fin m) (Fin R) ℝ →ₗ[ℝ] ℝ where
  toFun Y := ∑ r, Y i r * w r
  map_add' Y Z := by simp only [Matrix.add_apply, add_mul, sum_add_distrib]
  map_smul' t Y := by simp only [Matrix.smul_apply, smul_eq_mul, mul_assoc, mul_sum, RingHom.id_apply]

@[simp] theorem entryLin_apply (i : Fin m) (r : Fin R) (Z : Matrix (Fin m) (Fin R) ℝ) : entryLin i r Z = Z i r := rfl

@[simp] theorem rowLin_apply (i : Fin m) (w : Fin R → ℝ) (Z : Matrix (Fin m) (Fin R) ℝ) : rowLin i w Z = ∑ r, Z i r * w r := rfl

theorem fitA_eq (X : Ragged I K J) (l2 : ℝ) (F : Factors I K R J) :
    fitA X l2 F = ridge (κ := (i : Fin I) × Fin (J i) × Fin K) (ι := Fin I × Fin R) (fun k => X k.1 k.2.1 k.2.2)
      (fun k => rowLin k.1 fun r => F.B k.1 k.2.1 r * F.C k.2.2 r) (fun p => entryLin p.1 p.2) l2 := by
  funext Y
  simp only [fitA, ridge, sse, Factors.entry, sqNorm, Fintype.sum_sigma, Fintype.sum_prod_type, rowLin_apply, entryLin_apply,
    mul_assoc]

theorem fitB_eq (X : Ragged I K J) (l2 : ℝ) (F : Factors I K R J) :
    fitB X l2 F = ridge (κ := (i : Fin I) × Fin (J i) × Fin K) (ι := (i : Fin I) × Fin (J i) × Fin R) (fun k => X k.1 k.2.1 k.2.2)
      (fun k => (rowLin k.2.1 fun r => F.A k.1 r * F.C k.2.2 r).comp (LinearMap.proj k.1))
      (fun p => (entryLin p.2.1 p.2.2).comp (LinearMap.proj p.1)) l2 := by
  funext Y
  simp only [fitB, ridge, sse, Factors.entry, raggedSq, sqNorm, Fintype.sum_sigma, Fintype.sum_prod_type, rowLin_apply, entryLin_apply, LinearMap.comp_apply,
    LinearMap.proj_apply]
  congr 2
  refine sum_congr rfl fun i _ => sum_congr rfl fun j _ => sum_congr rfl fun k _ => ?_
  congr 2
  exact sum_congr rfl fun r _ => by ring

theorem fitC_eq (X : Ragged I K J) (l2 : ℝ) (F : Factors I K R J) :
    fitC X l2 F = ridge (κ := (i : Fin I) × Fin (J i) × Fin K) (ι := Fin K × Fin R) (fun k => X k.1 k.2.1 k.2.2)
      (fun k => rowLin k.2.2 fun r => F.A k.1 r * F.B k.1 k.2.1 r) (fun p => entryLin p.1 p.2) l2 := by
  funext Y
  simp only [fitC, ridge, sse, Factors.entry, sqNorm, Fintype.sum_sigma, Fintype.sum_prod_type, rowLin_apply, entryLin_apply]
  congr 2
  refine sum_congr rfl fun i _ => sum_congr rfl fun j _ => sum_congr rfl fun k _ => ?_
  congr 2
  exact sum_congr rfl fun r _ => by ring

theorem convexOn_fitA (X : Ragged I K J) {l2 : ℝ} (hl : 0 ≤ l2) (F : Factors I K R J) : ConvexOn ℝ Set.univ (fitA X l2 F) := by
  rw [fitA_eq]; exact convexOn_ridge _ _ _ hl

theorem convexOn_fitB (X : Ragged I K J) {l2 : ℝ} (hl : 0 ≤ l2) (F : Factors I K R J) : ConvexOn ℝ Set.univ (fitB X l2 F) := by
  rw [fitB_eq]; exact convexOn_ridge _ _ _ hl

theorem convexOn_fitC (X : Ragged I K J) {l2 : ℝ} (hl : 0 ≤ l2) (F : Factors I K R J) : ConvexOn ℝ Set.univ (fitC X l2 F) := by
  rw [fitC_eq]; exact convexOn_ridge _ _ _ hl

theorem exists_row_ne_zero {Y : Matrix (Fin m) (Fin R) ℝ} (h : Y ≠ 0) : ∃ i, Y i ≠ 0 := by
  by_contra hc
  push Not at hc
  exact h (funext hc)

theorem coercive_fitA (X : Ragged I K J) {l2 : ℝ} (hl : 0 ≤ l2) {F : Factors I K R J} (hs : SolvableA F l2) :
    Tendsto (fitA X l2 F) (cocompact _) atTop := by
  rw [fitA_eq]
  refine coercive_ridge _ _ _ hl fun Y hY => ?_
  obtain ⟨i₀, hi₀⟩ := exists_row_ne_zero hY
  simp only [Fintype.sum_sigma, Fintype.sum_prod_type, rowLin_apply, entryLin_apply, mul_sum, ← sum_add_distrib]
  have h0 : ∀ i, 0 ≤ ∑ j, ∑ k, (∑ r, Y i r * (F.B i j r * F.C k r)) ^ 2 + ∑ r, l2 * Y i r ^ 2 := fun i =>
    add_nonneg (sum_nonneg fun _ _ => sum_nonneg fun _ _ => sq_nonneg _) (sum_nonneg fun _ _ => mul_nonneg hl (sq_nonneg _))
  refine sum_pos' (fun i _ => h0 i) ⟨i₀, mem_univ _, ?_⟩
  have := hs i₀ (Y i₀) hi₀
  simpa only [mul_sum, mul_assoc] using this

theorem coercive_fitB (X : Ragged I K J) {l2 : ℝ} (hl : 0 ≤ l2) {F : Factors I K R J} (hs : SolvableB F l2) :
    Tendsto (fitB X l2 F) (cocompact _) atTop := by
  rw [fitB_eq]
  refine coercive_ridge _ _ _ hl fun Y hY => ?_
  obtain ⟨i₀, hi₀⟩ : ∃ i, Y i ≠ 0 := by
    by_contra hc
    push Not at hc
    exact hY (funext hc)
  obtain ⟨j₀, hj₀⟩ := exists_row_ne_zero hi₀
  simp only [Fintype.sum_sigma, Fintype.sum_prod_type, rowLin_apply, entryLin_apply, LinearMap.comp_apply, LinearMap.proj_apply,
    mul_sum, ← sum_add_distrib]
  have h0 : ∀ i (j : Fin (J i)), 0 ≤ ∑ k, (∑ r, Y i j r * (F.A i r * F.C k r)) ^ 2 + ∑ r, l2 * Y i j r ^ 2 := fun i j =>
    add_nonneg (sum_nonneg fun _ _ => sq_nonneg _) (sum_nonneg fun _ _ => mul_nonneg hl (sq_nonneg _))
  refine sum_pos' (fun i _ => sum_nonneg fun j _ => h0 i j) ⟨i₀, mem_univ _, sum_pos' (fun j _ => h0 i₀ j) ⟨j₀, mem_univ _, ?_⟩⟩
  have := hs i₀ (Y i₀ j₀) hj₀
  rw [mul_sum] at this
  refine this.trans_eq ?_
  congr 1
  refine sum_congr rfl fun k _ => ?_
  congr 1
  exact sum_congr rfl fun r _ => by ring

theorem coercive_fitC (X : Ragged I K J) {l2 : ℝ} (hl : 0 ≤ l2) {F : Factors I K R J} (hs : SolvableC F l2) :
    Tendsto (fitC X l2 F) (cocompact _) atTop := by
  rw [fitC_eq]
  refine coercive_ridge _ _ _ hl fun Y hY => ?_
  obtain ⟨k₀, hk₀⟩ := exists_row_ne_zero hY
  have e : ∑ q : (i : Fin I) × Fin (J i) × Fin K, rowLin q.2.2 (fun r => F.A q.1 r * F.B q.1 q.2.1 r) Y ^ 2
      = ∑ k, ∑ i, ∑ j, (∑ r, F.A i r * F.B i j r * Y k r) ^ 2 := by
    simp only [Fintype.sum_sigma, Fintype.sum_prod_type, rowLin_apply]
    rw [sum_comm (s := univ (α := Fin K))]
    refine sum_congr rfl fun i _ => ?_
    rw [sum_comm]
    refine sum_congr rfl fun k _ => sum_congr rfl fun j _ => ?_
    congr 1
    exact sum_congr rfl fun r _ => by ring
  rw [e]
  simp only [Fintype.sum_prod_type, entryLin_apply]
  rw [mul_sum, ← sum_add_distrib]
  have h0 : ∀ k, 0 ≤ ∑ i, ∑ j, (∑ r, F.A i r * F.B i j r * Y k r) ^ 2 + l2 * ∑ r, Y k r ^ 2 := fun k =>
    add_nonneg (sum_nonneg fun _ _ => sum_nonneg fun _ _ => sq_nonneg _) (mul_nonneg hl (sum_nonneg fun _ _ => sq_nonneg _))
  exact sum_pos' (fun k _ => h0 k) ⟨k₀, mem_univ _, hs (Y k₀) hk₀⟩

/-! ### The package's convex penalties -/

theorem continuous_entry (i : Fin m) (r : Fin R) : Continuous fun Z : Matrix (Fin m) (Fin R) ℝ => Z i r :=
  (entryLin i r).continuous_of_finiteDimensional

theorem StdPen.isClosed_feasible (p : StdPen m R) : IsClosed p.feasible := by
  have hnn : IsClosed {Z : Matrix (Fin m) (Fin R) ℝ | ∀ i r, 0 ≤ Z i r} := by
    simp only [Set.ofPred_forall]
    exact isClosed_iInter fun i => isClosed_iInter fun r => isClosed_le continuous_const (continuous_entry i r)
  have hnn' : ∀ nn : Bool, IsClosed {Z : Matrix (Fin m) (Fin R) ℝ | nn → ∀ i r, 0 ≤ Z i r} := by
    intro nn
    cases nn with
    | false => simp
    | true => simpa using hnn
  cases p with
  | nonNeg => exact hnn
  | box lo hi =>
    have : StdPen.feasible (.box lo hi : StdPen m R) = ⋂ i, ⋂ r, ((⋂ l, ⋂ (_ : lo = some l), {Z | l ≤ Z i r}) ∩ ⋂ u, ⋂ (_ : hi = some u), {Z | Z i r ≤ u}) := by
      ext Z
      simp [StdPen.feasible]
    rw [this]
    exact isClosed_iInter fun i => isClosed_iInter fun r => IsClosed.inter
      (isClosed_iInter fun l => isClosed_iInter fun _ => isClosed_le continuous_const (continuous_entry i r))
      (isClosed_iInter fun u => isClosed_iInter fun _ => isClosed_le (continuous_entry i r) continuous_const)
  | l1 γ nn => exact hnn' nn
  | l2Ball b nn =>
    have h1 : IsClosed {Z : Matrix (Fin m) (Fin R) ℝ | ∀ r, √(colSq Z r) ≤ b} := by
      simp only [Set.ofPred_forall]
      refine isClosed_iInter fun r => isClosed_le (Real.continuous_sqrt.comp ?_) continuous_const
      exact continuous_finsetSum _ fun i _ => (continuous_entry i r).pow 2
    exact h1.inter (hnn' nn)
  | genL2 M d => exact isClosed_univ
  | tv solver α β => exact isClosed_univ

theorem StdPen.continuous_fn (p : StdPen m R) : Continuous p.fn := by
  have h := continuous_entry (m := m) (R := R)
  have habs : Continuous (absSum : Matrix (Fin m) (Fin R) ℝ → ℝ) :=
    continuous_finsetSum _ fun i _ => continuous_finsetSum _ fun r _ => (h i r).abs
  cases p with
  | nonNeg => exact continuous_const
  | box lo hi => exact continuous_const
  | l1 γ nn => exact continuous_const.mul habs
  | l2Ball b nn => exact continuous_const
  | genL2 M d =>
    exact continuous_finsetSum _ fun r _ => continuous_finsetSum _ fun i _ => continuous_finsetSum _ fun j _ =>
      ((h i r).mul continuous_const).mul (h j r)
  | tv solver α β =>
    have htv : Continuous (totalVar : Matrix (Fin m) (Fin R) ℝ → ℝ) :=
      continuous_finsetSum _ fun r _ => continuous_finsetSum _ fun i _ => ((h _ r).sub (h _ r)).abs
    exact (continuous_const.mul htv).add (continuous_const.mul habs)

theorem StdPen.fn_nonneg (p : StdPen m R) (hv : p.Valid) (Z : Matrix (Fin m) (Fin R) ℝ) : 0 ≤ p.fn Z := by
  have habs : 0 ≤ absSum Z := sum_nonneg fun i _ => sum_nonneg fun r _ => abs_nonneg _
  cases p with
  | nonNeg => exact le_rfl
  | box lo hi => exact le_rfl
  | l1 γ nn => exact mul_nonneg hv habs
  | l2Ball b nn => exact le_rfl
  | genL2 M d => exact sum_nonneg fun r _ => hv.2.1 fun i => Z i r
  | tv solver α β =>
    have htv : 0 ≤ totalVar Z := sum_nonneg fun r _ => sum_nonneg fun i _ => abs_nonneg _
    exact add_nonneg (mul_nonneg hv.2.1.le htv) (mul_nonneg hv.2.2 habs)

/-! ### Minimisers exist -/

theorem existsMin_aux {f : Matrix (Fin m) (Fin R) ℝ → ℝ} (hf : Continuous f) (hco : Tendsto f (cocompact _) atTop) (std : Fin n → StdPen m R)
    (hv : ∀ p, (std p).Valid) {x0 : Matrix (Fin m) (Fin R) ℝ} (hx0 : ∀ p, x0 ∈ (std p).feasible) :
    ∃ xs, IsMinOver f (fun p => (std p).feasible) (fun p => (std p).fn) xs :=
  exists_minOver hf hco (fun p => (std p).isClosed_feasible) (fun p => (std p).continuous_fn.continuousOn)
    (fun p y _ => (std p).fn_nonneg (hv p) y) hx0

theorem exists_minA (X : Ragged I K J) {l2 : ℝ} (hl : 0 ≤ l2) {F : Factors I K R J} (hs : SolvableA F l2) (std : Fin n → StdPen I R)
    (hv : ∀ p, (std p).Valid) {x0 : Matrix (Fin I) (Fin R) ℝ} (hx0 : ∀ p, x0 ∈ (std p).feasible) :
    ∃ xs, IsMinOver (fitA X l2 F) (fun p => (std p).feasible) (fun p => (std p).fn) xs :=
  existsMin_aux (by rw [fitA_eq]; exact continuous_ridge _ _ _ _) (coercive_fitA X hl hs) std hv hx0

theorem exists_minC (X : Ragged I K J) {l2 : ℝ} (hl : 0 ≤ l2) {F : Factors I K R J} (hs : SolvableC F l2) (std : Fin n → StdPen K R)
    (hv : ∀ p, (std p).Valid) {x0 : Matrix (Fin K) (Fin R) ℝ} (hx0 : ∀ p, x0 ∈ (std p).feasible) :
    ∃ xs, IsMinOver (fitC X l2 F) (fun p => (std p).feasible) (fun p => (std p).fn) xs :=
  existsMin_aux (by rw [fitC_eq]; exact continuous_ridge _ _ _ _) (coercive_fitC X hl hs) std hv hx0

theorem exists_minB (X : Ragged I K J) {l2 : ℝ} (hl : 0 ≤ l2) {F : Factors I K R J} (hs : SolvableB F l2)
    (std : Fin n → (i : Fin I) → StdPen (J i) R) (hv : ∀ p i, (std p i).Valid) {x0 : Ragged I R J} (hx0 : ∀ p i, x0 i ∈ (std p i).feasible) :
    ∃ xs, IsMinOver (fitB X l2 F) (fun p => {Z : Ragged I R J | ∀ i, Z i ∈ (std p i).feasible}) (fun p Z => ∑ i, (std p i).fn (Z i)) xs := by
  refine exists_minOver (by rw [fitB_eq]; exact continuous_ridge _ _ _ _) (coercive_fitB X hl hs) (fun p => ?_)
    (fun p => (continuous_finsetSum _ fun i _ => (std p i).continuous_fn.comp (continuous_apply i)).continuousOn)
    (fun p y _ => sum_nonneg fun i _ => (std p i).fn_nonneg (hv p i) (y i)) (x0 := x0) hx0
  have : {Z : Ragged I R J | ∀ i, Z i ∈ (std p i).feasible} = ⋂ i, (fun Z : Ragged I R J => Z i) ⁻¹' (std p i).feasible := by
    ext Z; simp
  rw [this]
  exact isClosed_iInter fun i => (std p i).isClosed_feasible.preimage (continuous_apply i)

end Verif.ADMM
