import Verif.Props.LoopLasso

/-!
# C138: the limits of factors with bounds
-/

set_option linter.unusedSectionVars false

namespace Verif.Props

open Verif.ADMM Verif.Penalties Verif.Spec Verif.Loop Finset Matrix Filter

variable {I K R n nA nB nC : ℕ} {J : Fin I → ℕ}

/-- The bounds hold for `y`. -/
def InBox (lo hi : Option ℝ) (y : ℝ) : Prop := (∀ l, lo = some l → l ≤ y) ∧ ∀ u, hi = some u → y ≤ u

/-- Optimality of an entry `y` with derivative `g` for bounds: it satisfies them, a positive derivative is only possible at the lower bound, and a negative one at the upper bound. -/
def BoxEntry (lo hi : Option ℝ) (g y : ℝ) : Prop := InBox lo hi y ∧ (0 < g → lo = some y) ∧ (g < 0 → hi = some y)

theorem box_le {lo hi : Option ℝ} {g y z : ℝ} (h : BoxEntry lo hi g y) (hz : InBox lo hi z) : 0 ≤ g * (z - y) := by
  obtain ⟨-, h2, h3⟩ := h
  rcases lt_trichotomy g 0 with h0 | h0 | h0
  · nlinarith [hz.2 y (h3 h0)]
  · rw [h0, zero_mul]
  · nlinarith [hz.1 y (h2 h0)]

theorem box_of {lo hi : Option ℝ} {g y q : ℝ} (hy : InBox lo hi y) (h : ∀ z, InBox lo hi z → 0 ≤ g * (z - y) + q * (z - y) ^ 2) : BoxEntry lo hi g y := by
  refine ⟨hy, fun hg => ?_, fun hg => ?_⟩
  · by_contra hne
    obtain ⟨δ, hδ, hin⟩ : ∃ δ : ℝ, 0 < δ ∧ ∀ l, lo = some l → l ≤ y - δ := by
      cases lo with
      | none => exact ⟨1, one_pos, fun l hl => by cases hl⟩
      | some l =>
        have h1 : l ≤ y := hy.1 l rfl
        have h2 : l ≠ y := fun e => hne (by rw [e])
        exact ⟨y - l, by have := lt_of_le_of_ne h1 h2; linarith, fun l' hl' => by cases hl'; linarith⟩
    have : 0 ≤ -(g * δ) := nonneg_of_small (b := q * δ ^ 2) fun t ht0 ht1 => by
      have := h (y - t * δ) ⟨fun l hl => by nlinarith [hin l hl], fun u hu => by nlinarith [hy.2 u hu]⟩
      nlinarith
    nlinarith
  · by_contra hne
    obtain ⟨δ, hδ, hin⟩ : ∃ δ : ℝ, 0 < δ ∧ ∀ u, hi = some u → y + δ ≤ u := by
      cases hi with
      | none => exact ⟨1, one_pos, fun l hl => by cases hl⟩
      | some u =>
        have h1 : y ≤ u := hy.2 u rfl
        have h2 : u ≠ y := fun e => hne (by rw [e])
        exact ⟨u - y, by have := lt_of_le_of_ne h1 h2.symm; linarith, fun l' hl' => by cases hl'; linarith⟩
    have : 0 ≤ g * δ := nonneg_of_small (b := q * δ ^ 2) fun t ht0 ht1 => by
      have := h (y + t * δ) ⟨fun l hl => by nlinarith [hy.1 l hl], fun u hu => by nlinarith [hin u hu]⟩
      nlinarith
    nlinarith

/-- Minimisers of a convex quadratic function with bounds. -/
theorem box_iff {V ι : Type} [Fintype ι] [DecidableEq ι] [AddCommGroup V] (f : V → ℝ) (co : ι → V → ℝ) (G : V → ι → ℝ) (Q : V → ℝ) (hQ : ∀ v, 0 ≤ Q v)
    (hf : ∀ y z, f z = f y + ∑ p, G y p * (co p z - co p y) + Q (z - y)) (move : V → ι → ℝ → V) (hm : ∀ y p t q, co q (move y p t) = if q = p then t else co q y)
    (hq : ∀ p, ∃ c, ∀ y t, Q (move y p t - y) = c * (t - co p y) ^ 2) (lo hi : Option ℝ) (y : V) :
    ((∀ p, InBox lo hi (co p y)) ∧ ∀ z, (∀ p, InBox lo hi (co p z)) → f y ≤ f z) ↔ ∀ p, BoxEntry lo hi (G y p) (co p y) := by
  constructor
  · rintro ⟨h1, h2⟩ p
    obtain ⟨c, hc⟩ := hq p
    refine box_of (h1 p) (q := c) fun z hz => ?_
    have := h2 (move y p z) fun q => by
      rw [hm]
      split
      · exact hz
      · exact h1 q
    rw [hf y (move y p z), hc] at this
    have e1 : ∑ q, G y q * (co q (move y p z) - co q y) = G y p * (z - co p y) := by
      rw [sum_eq_single p]
      · rw [hm, if_pos rfl]
      · intro q _ hqp
        rw [hm, if_neg hqp, sub_self, mul_zero]
      · intro hp
        exact absurd (mem_univ p) hp
    rw [e1] at this
    linarith
  · intro h
    refine ⟨fun p => (h p).1, fun z hz => ?_⟩
    rw [hf y z]
    have : 0 ≤ ∑ p, G y p * (co p z - co p y) := sum_nonneg fun p _ => box_le (h p) (hz p)
    linarith [hQ (z - y)]

theorem box_minC (X : Ragged I K J) {l : ℝ} (hl : 0 ≤ l) (F : Factors I K R J) (lo hi : Option ℝ) (Y : Matrix (Fin K) (Fin R) ℝ) :
    IsMinOver (fitC X l F) (fun _ : Fin 1 => (StdPen.box lo hi : StdPen K R).feasible) (fun _ => (StdPen.box lo hi : StdPen K R).fn) Y ↔ ∀ k r, BoxEntry lo hi (gradC X l F Y k r) (Y k r) := by
  have key := box_iff (fitC X l F) (fun p : Fin K × Fin R => fun Z => Z p.1 p.2) (fun Z p => gradC X l F Z p.1 p.2) (quadC l F)
    (fun v => add_nonneg (mul_nonneg (by norm_num) (sum_nonneg fun _ _ => sum_nonneg fun _ _ => sum_nonneg fun _ _ => sq_nonneg _)) (mul_nonneg (by linarith) (sqNorm_nonneg _)))
    (fun y z => by rw [fitC_expand X l F y z, Fintype.sum_prod_type]) setEntry (fun y p t q => by simp [setEntry])
    (fun p => ⟨quadC l F (setEntry 0 p 1), fun y t => by rw [setEntry_sub, quadC_smul]; ring⟩) lo hi Y
  simp only [Prod.forall] at key
  rw [← key]
  simp only [IsMinOver, univ_unique, forall_const, StdPen.feasible, StdPen.fn, Set.mem_ofPred_eq, add_zero, sum_const_zero, InBox]

theorem box_minA (X : Ragged I K J) {l : ℝ} (hl : 0 ≤ l) (F : Factors I K R J) (lo hi : Option ℝ) (Y : Matrix (Fin I) (Fin R) ℝ) :
    IsMinOver (fitA X l F) (fun _ : Fin 1 => (StdPen.box lo hi : StdPen I R).feasible) (fun _ => (StdPen.box lo hi : StdPen I R).fn) Y ↔ ∀ i r, BoxEntry lo hi (gradA X l F Y i r) (Y i r) := by
  have key := box_iff (fitA X l F) (fun p : Fin I × Fin R => fun Z => Z p.1 p.2) (fun Z p => gradA X l F Z p.1 p.2) (quadA l F)
    (fun v => add_nonneg (mul_nonneg (by norm_num) (sum_nonneg fun _ _ => sum_nonneg fun _ _ => sum_nonneg fun _ _ => sq_nonneg _)) (mul_nonneg (by linarith) (sqNorm_nonneg _)))
    (fun y z => by rw [fitA_expand X l F y z, Fintype.sum_prod_type]) setEntry (fun y p t q => by simp [setEntry])
    (fun p => ⟨quadA l F (setEntry 0 p 1), fun y t => by rw [setEntry_sub, quadA_smul]; ring⟩) lo hi Y
  simp only [Prod.forall] at key
  rw [← key]
  simp only [IsMinOver, univ_unique, forall_const, StdPen.feasible, StdPen.fn, Set.mem_ofPred_eq, add_zero, sum_const_zero, InBox]

theorem box_minB (X : Ragged I K J) {l : ℝ} (hl : 0 ≤ l) (F : Factors I K R J) (lo hi : Option ℝ) (Y : Ragged I R J) :
    IsMinOver (fitB X l F) (fun _ : Fin 1 => {Z : Ragged I R J | ∀ i, Z i ∈ (StdPen.box lo hi : StdPen (J i) R).feasible}) (fun _ Z => ∑ i, (StdPen.box lo hi : StdPen (J i) R).fn (Z i)) Y ↔
      ∀ i j r, BoxEntry lo hi (gradB X l F Y i j r) (Y i j r) := by
  have key := box_iff (fitB X l F) (fun p : (i : Fin I) × Fin (J i) × Fin R => fun Z => Z p.1 p.2.1 p.2.2) (fun Z p => gradB X l F Z p.1 p.2.1 p.2.2) (quadB l F)
    (fun v => add_nonneg (mul_nonneg (by norm_num) (sum_nonneg fun _ _ => sum_nonneg fun _ _ => sum_nonneg fun _ _ => sq_nonneg _))
      (mul_nonneg (by linarith) (sum_nonneg fun _ _ => sqNorm_nonneg _)))
    (fun y z => by rw [fitB_expand X l F y z]; simp only [Fintype.sum_sigma, Fintype.sum_prod_type]) setRag (fun y p t q => by simp [setRag])
    (fun p => ⟨quadB l F (setRag 0 p 1), fun y t => by rw [setRag_sub, quadB_smul]; ring⟩) lo hi Y
  simp only [Sigma.forall, Prod.forall] at key
  rw [← key]
  simp only [IsMinOver, univ_unique, forall_const, StdPen.feasible, StdPen.fn, Set.mem_ofPred_eq, add_zero, sum_const_zero, InBox]

/-- The penalty stands for the bounds: `Box(lo, hi)`, or `NonNegativity()` with 0 and no upper bound. -/
def Bounds {m R : ℕ} (lo hi : Option ℝ) (p : StdPen m R) : Prop := p = .box lo hi ∨ p = .nonNeg ∧ lo = some 0 ∧ hi = none

theorem Bounds.eq {m R : ℕ} {lo hi : Option ℝ} {p : StdPen m R} (h : Bounds lo hi p) : p.feasible = (StdPen.box lo hi : StdPen m R).feasible ∧ p.fn = (StdPen.box lo hi : StdPen m R).fn := by
  rcases h with rfl | ⟨rfl, rfl, rfl⟩
  · exact ⟨rfl, rfl⟩
  · refine ⟨?_, rfl⟩
    simp [StdPen.feasible]

theorem Bounds.valid {m R : ℕ} {lo hi : Option ℝ} {p : StdPen m R} (h : Bounds lo hi p) (hv : ∀ l u, lo = some l → hi = some u → l ≤ u) : p.Valid := by
  rcases h with rfl | ⟨rfl, rfl, rfl⟩
  · exact hv
  · trivial

theorem exists_inBox {lo hi : Option ℝ} (hv : ∀ l u, lo = some l → hi = some u → l ≤ u) : ∃ y, InBox lo hi y := by
  cases lo with
  | none =>
    cases hi with
    | none => exact ⟨0, fun _ h => (by cases h), fun _ h => (by cases h)⟩
    | some u => exact ⟨u, fun _ h => (by cases h), fun _ h => (by cases h; rfl)⟩
  | some l => exact ⟨l, fun _ h => (by cases h; rfl), fun u h => hv l u rfl h⟩

/-- C138, A: if only this factor is updated and has bounds, then its iterates and auxiliary variables converge to the only matrix whose entries are optimal in the sense of
`BoxEntry`. -/
theorem C138_A (P : Problem I K R 1 nB nC J) (hsvd : ValidSVD P.params) (hN : 0 < P.params.nInner) (hA : P.updA = true) (hB : P.updB = false)
    (hC : P.updC = false) (hl : 0 ≤ P.l2.1) (init : AOState I K R 1 nB nC J) (hw : ∀ i, 0 < weightA P.params.scale init.F i) (hsol : SolvableA init.F P.l2.1)
    {lo hi : Option ℝ} (hv : ∀ l u, lo = some l → hi = some u → l ≤ u) {p : StdPen I R} (hp : Bounds lo hi p) (hpens : P.pensA 0 = p.toA)
    (outs : ℕ → Output (AOState I K R 1 nB nC J)) (h : ∀ n : ℕ, cmfAoadmm P (plain n) init = .ok (outs n)) :
    ∃ xs : Matrix (Fin I) (Fin R) ℝ, (∀ i r, Tendsto (fun n => (outs n).st.F.A i r) atTop (nhds (xs i r))) ∧ (∀ i r, Tendsto (fun n => (outs n).st.auxA 0 i r) atTop (nhds (xs i r))) ∧
      ∀ Y : Matrix (Fin I) (Fin R) ℝ, (∀ i r, BoxEntry lo hi (gradA P.X P.l2.1 init.F Y i r) (Y i r)) ↔ Y = xs := by
  obtain ⟨y0, hy0⟩ := exists_inBox hv
  obtain ⟨xs, h1, h2, h3⟩ := C68_A P hsvd hN hA hB hC hl init hw hsol (fun _ => p) (fun _ => hp.valid hv) (fun q => by rw [Subsingleton.elim q 0]; exact hpens) (Matrix.of fun _ _ => y0) 0 (by rw [hp.eq.1]; exact fun _ _ => hy0)
    (fun q hq => absurd (Subsingleton.elim q 0) hq) outs h
  refine ⟨xs, h2, h3 0, fun Y => (box_minA P.X hl init.F lo hi Y).symm.trans ?_⟩
  have := h1 Y
  simp only [hp.eq.1, hp.eq.2] at this
  exact this

/-- C138, the B factor matrices: if only this factor is updated and has bounds, then its iterates and auxiliary variables converge to the only matrix whose entries are optimal in the sense of
`BoxEntry`. -/
theorem C138_B (P : Problem I K R nA 1 nC J) (hsvd : ValidSVD P.params) (hN : 0 < P.params.nInner) (hA : P.updA = false) (hB : P.updB = true)
    (hC : P.updC = false) (hl : 0 ≤ P.l2.2.1) (init : AOState I K R nA 1 nC J) (hw : ∀ i, 0 < weightB P.params.scale init.F i) (hsol : SolvableB init.F P.l2.2.1)
    {lo hi : Option ℝ} (hv : ∀ l u, lo = some l → hi = some u → l ≤ u) {p : (i : Fin I) → StdPen (J i) R} (hp : ∀ i, Bounds lo hi (p i)) (hpens : P.pensB 0 = StdPen.toB p)
    (outs : ℕ → Output (AOState I K R nA 1 nC J)) (h : ∀ n : ℕ, cmfAoadmm P (plain n) init = .ok (outs n)) :
    ∃ xs : Ragged I R J, (∀ i j r, Tendsto (fun n => (outs n).st.F.B i j r) atTop (nhds (xs i j r))) ∧ (∀ i j r, Tendsto (fun n => ((outs n).st.auxB 0).toMats i j r) atTop (nhds (xs i j r))) ∧
      ∀ Y : Ragged I R J, (∀ i j r, BoxEntry lo hi (gradB P.X P.l2.2.1 init.F Y i j r) (Y i j r)) ↔ Y = xs := by
  obtain ⟨y0, hy0⟩ := exists_inBox hv
  obtain ⟨xs, h1, h2, h3⟩ := C68_B P hsvd hN hA hB hC hl init hw hsol (fun _ => p) (fun _ i => (hp i).valid hv) (fun q => by rw [Subsingleton.elim q 0]; exact hpens) (fun _ => Matrix.of fun _ _ => y0) 0 (fun i => by rw [(hp i).eq.1]; exact fun _ _ => hy0)
    (fun q hq => absurd (Subsingleton.elim q 0) hq) outs h
  refine ⟨xs, h2, h3 0, fun Y => (box_minB P.X hl init.F lo hi Y).symm.trans ?_⟩
  have := h1 Y
  simp only [fun i => (hp i).eq.1, fun i => (hp i).eq.2] at this
  exact this

/-- C138, C: if only this factor is updated and has bounds, then its iterates and auxiliary variables converge to the only matrix whose entries are optimal in the sense of
`BoxEntry`. -/
theorem C138_C (P : Problem I K R nA nB 1 J) (hsvd : ValidSVD P.params) (hN : 0 < P.params.nInner) (hA : P.updA = false) (hB : P.updB = false)
    (hC : P.updC = true) (hl : 0 ≤ P.l2.2.2) (init : AOState I K R nA nB 1 J) (hw : 0 < weightC P.params.scale init.F) (hsol : SolvableC init.F P.l2.2.2)
    {lo hi : Option ℝ} (hv : ∀ l u, lo = some l → hi = some u → l ≤ u) {p : StdPen K R} (hp : Bounds lo hi p) (hpens : P.pensC 0 = p.toC)
    (outs : ℕ → Output (AOState I K R nA nB 1 J)) (h : ∀ n : ℕ, cmfAoadmm P (plain n) init = .ok (outs n)) :
    ∃ xs : Matrix (Fin K) (Fin R) ℝ, (∀ k r, Tendsto (fun n => (outs n).st.F.C k r) atTop (nhds (xs k r))) ∧ (∀ k r, Tendsto (fun n => (outs n).st.auxC 0 k r) atTop (nhds (xs k r))) ∧
      ∀ Y : Matrix (Fin K) (Fin R) ℝ, (∀ k r, BoxEntry lo hi (gradC P.X P.l2.2.2 init.F Y k r) (Y k r)) ↔ Y = xs := by
  obtain ⟨y0, hy0⟩ := exists_inBox hv
  obtain ⟨xs, h1, h2, h3⟩ := C68_C P hsvd hN hA hB hC hl init hw hsol (fun _ => p) (fun _ => hp.valid hv) (fun q => by rw [Subsingleton.elim q 0]; exact hpens) (Matrix.of fun _ _ => y0) 0 (by rw [hp.eq.1]; exact fun _ _ => hy0)
    (fun q hq => absurd (Subsingleton.elim q 0) hq) outs h
  refine ⟨xs, h2, h3 0, fun Y => (box_minC P.X hl init.F lo hi Y).symm.trans ?_⟩
  have := h1 Y
  simp only [hp.eq.1, hp.eq.2] at this
  exact this

/-- The data matrix `[[-5]]`, B and C equal to 1, A non-negative: A tends to 0, where the derivative is 5. -/
theorem C138_example : ∃ (P : Problem 1 1 1 1 0 0 fun _ => 1) (init : AOState 1 1 1 1 0 0 fun _ => 1) (outs : ℕ → Output (AOState 1 1 1 1 0 0 fun _ => 1)),
    (∀ n : ℕ, cmfAoadmm P (plain n) init = .ok (outs n)) ∧ P.pensA 0 = (StdPen.nonNeg : StdPen 1 1).toA ∧ init.F.A = !![7] ∧ gradA P.X 0 init.F 0 0 0 = 5 ∧
      Tendsto (fun n => (outs n).st.F.A 0 0) atTop (nhds 0) := by
  obtain ⟨prm, hP, hN, -, hscale⟩ := exists_params 1 3 none 2
  let P : Problem 1 1 1 1 0 0 fun _ => 1 :=
    ⟨fun _ => !![-5], fun _ => (StdPen.nonNeg : StdPen 1 1).toA, Fin.elim0, Fin.elim0, (0, 0, 0), prm, false, false, true, false, false⟩
  let init : AOState 1 1 1 1 0 0 fun _ => 1 := ⟨none, ⟨!![7], ones.B, ones.C⟩, fun _ => !![5], fun _ => !![4], Fin.elim0, Fin.elim0, Fin.elim0, Fin.elim0⟩
  choose outs ho using fun n : ℕ => C61 P one_pos (fun _ p => by fin_cases p; rfl) (plain n) (by simp [plain, truthy]) init
  have eg : gradA P.X 0 init.F 0 0 0 = 5 := by
    simp [gradA, Factors.entry, P, init, ones]
  refine ⟨P, init, outs, ho, rfl, rfl, eg, ?_⟩
  obtain ⟨xs, h1, -, h3⟩ := C138_A P hP (by show 0 < prm.nInner; omega) rfl rfl rfl le_rfl init
    (by show ∀ i, 0 < weightA prm.scale _ i; rw [hscale]; exact weightA_ones) solvable_ones.1 (lo := some 0) (hi := none) (fun _ _ _ h => by cases h) (.inr ⟨rfl, rfl, rfl⟩) rfl outs ho
  have h5 : 0 = xs := (h3 _).1 (by
    intro i r
    fin_cases i; fin_cases r
    show BoxEntry (some 0) none (gradA P.X 0 init.F 0 0 0) 0
    rw [eg]
    exact ⟨⟨fun l hl => (by cases hl; rfl), fun u hu => (by cases hu)⟩, fun _ => rfl, fun h => (by norm_num at h)⟩)
  have := h1 0 0
  rw [← h5] at this
  exact this

end Verif.Props
