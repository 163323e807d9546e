import Verif.Props.ADMMRate
import Verif.Props.ADMMExamples

/-!
# C121: the inner loop stops on its own, unless the solution is zero
-/

set_option linter.unusedSectionVars false

namespace Verif.Props

open Verif.ADMM Verif.Penalties Verif.Spec Finset Matrix Filter
open scoped Topology

variable {I K R n m : ℕ} {J : Fin I → ℕ}

/-! ### Convergent sequences meet the criterion -/

theorem tendsto_rootSqNorm {Y : ℕ → Matrix (Fin m) (Fin R) ℝ} {Y0 : Matrix (Fin m) (Fin R) ℝ} (h : ∀ i r, Tendsto (fun k => Y k i r) atTop (𝓝 (Y0 i r))) :
    Tendsto (fun k => √(sqNorm (Y k))) atTop (𝓝 √(sqNorm Y0)) :=
  (Real.continuous_sqrt.tendsto _).comp (tendsto_finsetSum _ fun i _ => tendsto_finsetSum _ fun r _ => (h i r).pow 2)

theorem tendsto_rootRaggedSq {Y : ℕ → Ragged I R J} {Y0 : Ragged I R J} (h : ∀ i j r, Tendsto (fun k => Y k i j r) atTop (𝓝 (Y0 i j r))) :
    Tendsto (fun k => √(raggedSq (Y k))) atTop (𝓝 √(raggedSq Y0)) :=
  (Real.continuous_sqrt.tendsto _).comp
    (tendsto_finsetSum _ fun i _ => tendsto_finsetSum _ fun j _ => tendsto_finsetSum _ fun r _ => (h i j r).pow 2)

theorem eventually_done {norm change : ℕ → ℝ} {gaps : ℕ → Fin n → ℝ} {t d : ℝ} (ht : 0 < t) (hd : 0 < d) (h1 : Tendsto norm atTop (𝓝 d))
    (h2 : Tendsto change atTop (𝓝 0)) (h3 : ∀ p, Tendsto (fun k => gaps k p) atTop (𝓝 0)) :
    ∃ k, InnerDone (some t) (norm k) (change k) (gaps k) := by
  have e : ∀ {a : ℕ → ℝ}, Tendsto a atTop (𝓝 0) → ∀ᶠ k in atTop, a k < t * norm k := fun ha =>
    ha.eventually_lt (h1.const_mul t) (mul_pos ht hd)
  obtain ⟨k, h4, h5⟩ := ((e h2).and (eventually_all.2 fun p => e (h3 p))).exists
  exact ⟨k, t, rfl, ht, h4.le, h5⟩

theorem sqrt_sqNorm_pos {Y : Matrix (Fin m) (Fin R) ℝ} (h : Y ≠ 0) : 0 < √(sqNorm Y) := by
  refine Real.sqrt_pos.2 (lt_of_le_of_ne (sqNorm_nonneg Y) fun h0 => h ?_)
  ext i r
  have := sq_le_sqNorm Y i r
  rw [← h0] at this
  exact pow_eq_zero_iff (two_ne_zero) |>.1 (le_antisymm this (sq_nonneg _))

theorem sqrt_raggedSq_pos {Y : Ragged I R J} (h : Y ≠ 0) : 0 < √(raggedSq Y) := by
  have hnn : ∀ i, 0 ≤ sqNorm (Y i) := fun i => sqNorm_nonneg _
  refine Real.sqrt_pos.2 (lt_of_le_of_ne (sum_nonneg fun i _ => hnn i) fun h0 => h ?_)
  funext i
  have h1 : sqNorm (Y i) = 0 := (sum_eq_zero_iff_of_nonneg fun i _ => hnn i).1 h0.symm i (mem_univ i)
  ext j r
  have := sq_le_sqNorm (Y i) j r
  rw [h1] at this
  exact pow_eq_zero_iff (two_ne_zero) |>.1 (le_antisymm this (sq_nonneg _))

/-! ### C121 -/

/-- The state of a call with limit `N` in terms of the sequence of single iterations and the first time the criterion is met. -/
theorem first_done {σ : Type} {seq : ℕ → σ} {done : σ → σ → Prop} (h : ∃ k, done (seq k) (seq (k + 1))) :
    ∃ k, done (seq k) (seq (k + 1)) ∧ ∀ (M N : ℕ), k + 1 ≤ N → M ≤ N → (M < N → ∃ j, M = j + 1 ∧ done (seq j) (seq (j + 1))) →
      (∀ j, j + 1 < M → ¬ done (seq j) (seq (j + 1))) → M = k + 1 := by
  classical
  refine ⟨Nat.find h, Nat.find_spec h, fun M N hN hMN h1 h2 => ?_⟩
  have h3 : ¬ Nat.find h + 1 < M := fun hlt => h2 _ hlt (Nat.find_spec h)
  rcases Nat.lt_or_ge M N with hlt | hge
  · obtain ⟨j, hj, hd⟩ := h1 hlt
    have := Nat.find_min' h hd
    omega
  · omega

/-- C121, mode 0: with a positive inner tolerance, convex penalties, a uniquely solvable fit and a saddle point whose factor is not zero, there is a number of inner
iterations from which on the limit has no effect: the loop is left because the criterion is met. -/
theorem C121_A (P : Params R) (hsvd : ValidSVD P) (X : Ragged I K J) {l2 : ℝ} (hl : 0 ≤ l2)
    (constant : Bool) (F : Factors I K R J) (pens : Fin n → PenA I R) (hn : 0 < n) (hw : ∀ i, 0 < weightA P.scale F i)
    (C : Fin n → Set (Matrix (Fin I) (Fin R) ℝ)) (g : Fin n → Matrix (Fin I) (Fin R) ℝ → ℝ)
    (hp : ∀ p, (pens p).ProxOf (C p) (g p)) (hg : ∀ p, ConvexOn ℝ (C p) (g p))
    (aux dual : Fin n → Matrix (Fin I) (Fin R) ℝ)
    (xs : Matrix (Fin I) (Fin R) ℝ) (Λ : Fin n → Matrix (Fin I) (Fin R) ℝ) (hs : IsSaddlePoint inner (fitA X l2 F) C g xs Λ) (hsol : SolvableA F l2) (hxs : xs ≠ 0)
    {t : ℝ} (ht : P.innerTol = some t) (ht0 : 0 < t) (h1 : constant = true → 0 < I) (h2 : constant = false → ∀ p, (pens p).row.isSome) :
    ∃ (N : ℕ) (s : MatState I R n), (∀ p, √(sqNorm (s.x - s.aux p)) < t * √(sqNorm s.x)) ∧
      ∀ M, N ≤ M → admmUpdateA { P with nInner := M } X pens l2 constant F aux dual = .ok s := by
  obtain ⟨seq, h0, hseq⟩ := exists_seqA P X pens l2 constant F h1 h2 ⟨F.A, aux, dual⟩
  obtain ⟨-, -, hgap, -, hx⟩ := C32_A P hsvd X hl constant F pens hn hw C g hp hg seq hseq xs Λ hs
  have hx := hx hsol
  have hdone : ∃ k, MatDone P.innerTol (seq k).x (seq (k + 1)).x (seq (k + 1)).aux := by
    rw [ht]
    refine eventually_done ht0 (sqrt_sqNorm_pos hxs) (tendsto_rootSqNorm fun i r => (hx i r).comp (tendsto_add_atTop_nat 1)) ?_ fun p => ?_
    · have := tendsto_rootSqNorm (Y := fun k => (seq (k + 1)).x - (seq k).x) (Y0 := 0) (fun i r => by
        have := ((hx i r).comp (tendsto_add_atTop_nat 1)).sub (hx i r)
        rwa [sub_self] at this)
      simpa [sqNorm] using this
    · have := tendsto_rootSqNorm (Y := fun k => (seq (k + 1)).x - (seq (k + 1)).aux p) (Y0 := 0) (fun i r => (hgap p i r).comp (tendsto_add_atTop_nat 1))
      simpa [sqNorm] using this
  obtain ⟨k, hk, hfirst⟩ := first_done (seq := seq) (done := fun s s' => MatDone P.innerTol s.x s'.x s'.aux) hdone
  refine ⟨k + 1, seq (k + 1), fun p => ?_, fun N hN => ?_⟩
  · obtain ⟨t', ht', -, -, h⟩ := hk
    rw [ht] at ht'
    obtain rfl := Option.some.inj ht'
    exact h p
  · obtain ⟨P', hP', hN', ht', ho⟩ : ∃ P' : Params R, P' = { P with nInner := N } ∧ P'.nInner = N ∧ P'.innerTol = P.innerTol ∧ once P' = once P :=
      ⟨{ P with nInner := N }, rfl, rfl, rfl, rfl⟩
    rw [← hP']
    obtain ⟨s, hs⟩ := (admmUpdateA_succeeds P' X pens l2 constant F aux dual).2 ⟨h1, fun hc _ _ => h2 hc⟩
    obtain ⟨M, hM, seq', h0', hsM, hstep, -, hd, hnd⟩ := C33_A P' X pens l2 constant F aux dual s hs
    rw [hN'] at hM hd
    rw [ht'] at hd
    simp only [ht', ho] at hnd hstep
    have heq : ∀ j ≤ M, seq' j = seq j := by
      intro j
      induction j with
      | zero => intro _; rw [h0, h0']
      | succ j ih =>
        intro hj
        have a := hstep j hj
        have b := hseq j
        rw [← ih (by omega)] at b
        exact Except.ok.inj (a.symm.trans b)
    have hMk : M = k + 1 := hfirst M N hN hM
      (fun hlt => by
        obtain ⟨j, hj, h⟩ := hd hlt
        rw [heq j (by omega), heq (j + 1) (by omega)] at h
        exact ⟨j, hj, h⟩)
      (fun j hj => by
        have := hnd j hj
        rwa [heq j (by omega), heq (j + 1) (by omega)] at this)
    rw [hs, hsM, heq M le_rfl, hMk]

/-- C121, mode 1. -/
theorem C121_B (P : Params R) (hsvd : ValidSVD P) (X : Ragged I K J) {l2 : ℝ} (hl : 0 ≤ l2)
    (constant : Bool) (F : Factors I K R J) (pens : Fin n → PenB I R J) (hn : 0 < n) (hw : ∀ i, 0 < weightB P.scale F i)
    (C : Fin n → Set (Ragged I R J)) (g : Fin n → Ragged I R J → ℝ)
    (hp : ∀ p, (pens p).ProxOf (C p) (g p)) (hg : ∀ p, ConvexOn ℝ (C p) (g p))
    (aux : Fin n → AuxB I R J) (dual : Fin n → Ragged I R J)
    (xs : Ragged I R J) (Λ : Fin n → Ragged I R J) (hs : IsSaddlePoint ragInner (fitB X l2 F) C g xs Λ) (hsol : SolvableB F l2) (hxs : xs ≠ 0)
    {t : ℝ} (ht : P.innerTol = some t) (ht0 : 0 < t) (h1 : constant = true → 0 < I) :
    ∃ (N : ℕ) (s : RagState I R n J), (∀ p, √(raggedSq (s.x - (s.aux p).toMats)) < t * √(raggedSq s.x)) ∧
      ∀ M, N ≤ M → admmUpdateB { P with nInner := M } X pens l2 constant F aux dual = .ok s := by
  obtain ⟨seq, h0, hseq⟩ := exists_seqB P X pens l2 constant F h1 ⟨F.B, aux, dual⟩
  obtain ⟨-, -, hgap, -, hx⟩ := C32_B P hsvd X hl constant F pens hn hw C g hp hg seq hseq xs Λ hs
  have hx := hx hsol
  have hdone : ∃ k, RagDone P.innerTol (seq k).x (seq (k + 1)).x fun p => ((seq (k + 1)).aux p).toMats := by
    rw [ht]
    refine eventually_done ht0 (sqrt_raggedSq_pos hxs) (tendsto_rootRaggedSq fun i j r => (hx i j r).comp (tendsto_add_atTop_nat 1)) ?_ fun p => ?_
    · have := tendsto_rootRaggedSq (Y := fun k => (seq (k + 1)).x - (seq k).x) (Y0 := 0) (fun i j r => by
        have := ((hx i j r).comp (tendsto_add_atTop_nat 1)).sub (hx i j r)
        rwa [sub_self] at this)
      simpa [raggedSq, sqNorm] using this
    · have := tendsto_rootRaggedSq (Y := fun k => (seq (k + 1)).x - ((seq (k + 1)).aux p).toMats) (Y0 := 0)
        (fun i j r => (hgap p i j r).comp (tendsto_add_atTop_nat 1))
      simpa [raggedSq, sqNorm] using this
  obtain ⟨k, hk, hfirst⟩ := first_done (seq := seq) (done := fun s s' => RagDone P.innerTol s.x s'.x fun p => (s'.aux p).toMats) hdone
  refine ⟨k + 1, seq (k + 1), fun p => ?_, fun N hN => ?_⟩
  · obtain ⟨t', ht', -, -, h⟩ := hk
    rw [ht] at ht'
    obtain rfl := Option.some.inj ht'
    exact h p
  · obtain ⟨P', hP', hN', ht', ho⟩ : ∃ P' : Params R, P' = { P with nInner := N } ∧ P'.nInner = N ∧ P'.innerTol = P.innerTol ∧ once P' = once P :=
      ⟨{ P with nInner := N }, rfl, rfl, rfl, rfl⟩
    rw [← hP']
    obtain ⟨s, hs⟩ := (admmUpdateB_succeeds P' X pens l2 constant F aux dual).2 h1
    obtain ⟨M, hM, seq', h0', hsM, hstep, -, hd, hnd⟩ := C33_B P' X pens l2 constant F aux dual s hs
    rw [hN'] at hM hd
    rw [ht'] at hd
    simp only [ht', ho] at hnd hstep
    have heq : ∀ j ≤ M, seq' j = seq j := by
      intro j
      induction j with
      | zero => intro _; rw [h0, h0']
      | succ j ih =>
        intro hj
        have a := hstep j hj
        have b := hseq j
        rw [← ih (by omega)] at b
        exact Except.ok.inj (a.symm.trans b)
    have hMk : M = k + 1 := hfirst M N hN hM
      (fun hlt => by
        obtain ⟨j, hj, h⟩ := hd hlt
        rw [heq j (by omega), heq (j + 1) (by omega)] at h
        exact ⟨j, hj, h⟩)
      (fun j hj => by
        have := hnd j hj
        rwa [heq j (by omega), heq (j + 1) (by omega)] at this)
    rw [hs, hsM, heq M le_rfl, hMk]

/-- C121, mode 2. -/
theorem C121_C (P : Params R) (hsvd : ValidSVD P) (X : Ragged I K J) {l2 : ℝ} (hl : 0 ≤ l2)
    (F : Factors I K R J) (pens : Fin n → PenC K R) (hn : 0 < n) (hw : 0 < weightC P.scale F)
    (C : Fin n → Set (Matrix (Fin K) (Fin R) ℝ)) (g : Fin n → Matrix (Fin K) (Fin R) ℝ → ℝ)
    (hp : ∀ p, (pens p).ProxOf (C p) (g p)) (hg : ∀ p, ConvexOn ℝ (C p) (g p))
    (aux dual : Fin n → Matrix (Fin K) (Fin R) ℝ)
    (xs : Matrix (Fin K) (Fin R) ℝ) (Λ : Fin n → Matrix (Fin K) (Fin R) ℝ) (hs : IsSaddlePoint inner (fitC X l2 F) C g xs Λ) (hsol : SolvableC F l2) (hxs : xs ≠ 0)
    {t : ℝ} (ht : P.innerTol = some t) (ht0 : 0 < t) :
    ∃ (N : ℕ) (s : MatState K R n), (∀ p, √(sqNorm (s.x - s.aux p)) < t * √(sqNorm s.x)) ∧
      ∀ M, N ≤ M → admmUpdateC { P with nInner := M } X pens l2 F aux dual = s := by
  let seq : ℕ → MatState K R n := fun k => (fun s => admmUpdateC (once P) X pens l2 ⟨F.A, F.B, s.x⟩ s.aux s.dual)^[k] ⟨F.C, aux, dual⟩
  have h0 : seq 0 = ⟨F.C, aux, dual⟩ := rfl
  have hseq : ∀ k, admmUpdateC (once P) X pens l2 ⟨F.A, F.B, (seq k).x⟩ (seq k).aux (seq k).dual = seq (k + 1) := fun k => by
    simp only [seq, Function.iterate_succ_apply']
  obtain ⟨-, -, hgap, -, hx⟩ := C32_C P hsvd X hl F pens hn hw C g hp hg seq hseq xs Λ hs
  have hx := hx hsol
  have hdone : ∃ k, MatDone P.innerTol (seq k).x (seq (k + 1)).x (seq (k + 1)).aux := by
    rw [ht]
    refine eventually_done ht0 (sqrt_sqNorm_pos hxs) (tendsto_rootSqNorm fun i r => (hx i r).comp (tendsto_add_atTop_nat 1)) ?_ fun p => ?_
    · have := tendsto_rootSqNorm (Y := fun k => (seq (k + 1)).x - (seq k).x) (Y0 := 0) (fun i r => by
        have := ((hx i r).comp (tendsto_add_atTop_nat 1)).sub (hx i r)
        rwa [sub_self] at this)
      simpa [sqNorm] using this
    · have := tendsto_rootSqNorm (Y := fun k => (seq (k + 1)).x - (seq (k + 1)).aux p) (Y0 := 0) (fun i r => (hgap p i r).comp (tendsto_add_atTop_nat 1))
      simpa [sqNorm] using this
  obtain ⟨k, hk, hfirst⟩ := first_done (seq := seq) (done := fun s s' => MatDone P.innerTol s.x s'.x s'.aux) hdone
  refine ⟨k + 1, seq (k + 1), fun p => ?_, fun N hN => ?_⟩
  · obtain ⟨t', ht', -, -, h⟩ := hk
    rw [ht] at ht'
    obtain rfl := Option.some.inj ht'
    exact h p
  · obtain ⟨P', hP', hN', ht', ho⟩ : ∃ P' : Params R, P' = { P with nInner := N } ∧ P'.nInner = N ∧ P'.innerTol = P.innerTol ∧ once P' = once P :=
      ⟨{ P with nInner := N }, rfl, rfl, rfl, rfl⟩
    rw [← hP']
    obtain ⟨M, hM, seq', h0', hsM, hstep, -, hd, hnd⟩ := C33_C P' X pens l2 F aux dual
    rw [hN'] at hM hd
    rw [ht'] at hd
    simp only [ht', ho] at hnd hstep
    have heq : ∀ j ≤ M, seq' j = seq j := by
      intro j
      induction j with
      | zero => intro _; rw [h0, h0']
      | succ j ih =>
        intro hj
        have a := hstep j hj
        have b := hseq j
        rw [← ih (by omega)] at b
        exact a.symm.trans b
    have hMk : M = k + 1 := hfirst M N hN hM
      (fun hlt => by
        obtain ⟨j, hj, h⟩ := hd hlt
        rw [heq j (by omega), heq (j + 1) (by omega)] at h
        exact ⟨j, hj, h⟩)
      (fun j hj => by
        have := hnd j hj
        rwa [heq j (by omega), heq (j + 1) (by omega)] at this)
    rw [hsM, heq M le_rfl, hMk]

/-! ### The solution zero -/

theorem saddle_zero : IsSaddlePoint Spec.inner (fitA dataNeg 0 ones) (fun _ : Fin 1 => (StdPen.nonNeg (m := 1) (R := 1)).feasible)
    (fun _ => (StdPen.nonNeg (m := 1) (R := 1)).fn) 0 fun _ => !![-1] := by
  refine ⟨fun p i r => le_rfl, fun y => ?_, fun p y hy => ?_⟩
  · simp [fitA, sse, Factors.entry, dataNeg, ones, sqNorm, Spec.inner]
    nlinarith [sq_nonneg (y 0 0)]
  · have : 0 ≤ y 0 0 := hy 0 0
    simpa [StdPen.fn, Spec.inner] using this

/-- One inner iteration for the data -1, factors 1 and a non-negativity constraint. -/
theorem zero_step {P : Params 1} (hP : ValidSVD P) (hscale : P.scale = 2) {e : ℝ} (he : e ≤ 1) (x : Matrix (Fin 1) (Fin 1) ℝ) {s : MatState 1 1 1}
    (hs : admmUpdateA (once P) dataNeg (fun _ => (StdPen.nonNeg).toA) 0 false ⟨x, ones.B, ones.C⟩ (fun _ => 0) (fun _ => !![-1 + e]) = .ok s) :
    s.x = !![-(e / 2)] ∧ s.aux = (fun _ => 0) ∧ s.dual = fun _ => !![-1 + e / 2] := by
  have hw : ∀ i, weightA (once P).scale ⟨x, ones.B, ones.C⟩ i = 1 := by
    intro i
    show weightA P.scale _ i = 1
    rw [hscale]; simp [weightA, ones]
  obtain ⟨ρ, hρ, hx, hz, hu⟩ := C28_A (once P) hP rfl dataNeg le_rfl false ⟨x, ones.B, ones.C⟩ (fun _ => (StdPen.nonNeg).toA) (fun _ => 0) (fun _ => !![-1 + e]) one_pos
    (fun i => by rw [hw]; norm_num) s hs
  have hρ1 : ∀ i, ρ i = 1 := fun i => by rw [hρ.1 rfl]; exact hw i
  have hx0 : s.x = !![-(e / 2)] := by
    by_contra hne
    have := hx _ (Ne.symm hne)
    simp [augA, sse, Factors.entry, dataNeg, ones, sqNorm, hρ1] at this
    nlinarith [sq_nonneg (s.x 0 0 + e / 2)]
  have h0 : s.aux 0 = 0 := by
    by_contra hne
    have h1 := hz 0 _ _ ((StdPen.nonNeg).proxA trivial)
    have hm : 0 ≤ s.aux 0 0 0 := h1.1 0 0
    have := h1.2 0 (fun i r => le_rfl) (Ne.symm hne)
    simp [StdPen.fn, hx0, hρ1] at this
    nlinarith
  have haux : s.aux = fun _ => 0 := by
    funext p
    obtain rfl : p = 0 := Subsingleton.elim _ _
    exact h0
  refine ⟨hx0, haux, ?_⟩
  funext p
  rw [hu p, hx0, haux]
  ext i r
  fin_cases i; fin_cases r
  simp
  ring

/-- C121 needs a solution other than zero: data -1, factors 1 and a non-negativity constraint, the solution is 0. With any inner tolerance up to 1 every call uses all its
inner iterations: after `M` of them the factor is `-1/2^M`, and its relative gap is 1. -/
theorem C121_zero {t : ℝ} (ht : t ≤ 1) : ∃ P : Params 1, ValidSVD P ∧ P.innerTol = some t ∧ ∀ M : ℕ, ∃ s,
    admmUpdateA { P with nInner := M + 1 } dataNeg (fun _ : Fin 1 => (StdPen.nonNeg).toA) 0 false ones (fun _ => 0) (fun _ => 0) = .ok s ∧ s.x = !![-(1 / 2) ^ (M + 1)] := by
  obtain ⟨P, hP, -, hPt, hscale⟩ := exists_params 1 1 (some t) 2
  refine ⟨P, hP, hPt, fun N => ?_⟩
  obtain ⟨P', hP', hN', ht', ho⟩ : ∃ P' : Params 1, P' = { P with nInner := N + 1 } ∧ P'.nInner = N + 1 ∧ P'.innerTol = P.innerTol ∧ once P' = once P :=
    ⟨{ P with nInner := N + 1 }, rfl, rfl, rfl, rfl⟩
  rw [← hP']
  obtain ⟨s, hs⟩ := (admmUpdateA_succeeds P' dataNeg (fun _ : Fin 1 => (StdPen.nonNeg).toA) 0 false ones (fun _ => 0) (fun _ => 0)).2
    ⟨by simp, fun _ _ _ p => rfl⟩
  refine ⟨s, hs, ?_⟩
  obtain ⟨M, hM, seq, h0, hsM, hstep, -, hd, -⟩ := C33_A P' dataNeg (fun _ : Fin 1 => (StdPen.nonNeg).toA) 0 false ones (fun _ => 0) (fun _ => 0) s hs
  rw [hN'] at hM hd
  rw [ht', hPt] at hd
  simp only [ho] at hstep
  have key : ∀ j, j ≤ M → (0 < j → (seq j).x = !![-(1 / 2) ^ j]) ∧ (seq j).aux = (fun _ => 0) ∧ (seq j).dual = fun _ => !![-1 + (1 / 2) ^ j] := by
    intro j
    induction j with
    | zero =>
      intro _
      rw [h0]
      refine ⟨fun h => absurd h (lt_irrefl _), rfl, ?_⟩
      funext p
      ext i r
      fin_cases i; fin_cases r
      simp
    | succ j ih =>
      intro hj
      obtain ⟨-, i2, i3⟩ := ih (by omega)
      have h1 := hstep j (by omega)
      rw [i2, i3] at h1
      have h2 : ((1 : ℝ) / 2) ^ j ≤ 1 := pow_le_one₀ (by norm_num) (by norm_num)
      obtain ⟨a1, a2, a3⟩ := zero_step hP hscale h2 _ h1
      have e : ((1 : ℝ) / 2) ^ j / 2 = (1 / 2) ^ (j + 1) := by rw [pow_succ]; ring
      rw [e] at a1 a3
      exact ⟨fun _ => a1, a2, a3⟩
  have hMN : M = N + 1 := by
    by_contra hne
    obtain ⟨k, hk, t', ht', ht0, -, hgap⟩ := hd (by omega)
    obtain rfl := Option.some.inj ht'
    have := hgap 0
    rw [← hk, (key M le_rfl).2.1] at this
    simp only [sub_zero] at this
    have hn := Real.sqrt_nonneg (sqNorm (seq M).x)
    nlinarith
  rw [hsM, (key M le_rfl).1 (by omega), hMN]

/-- The number of inner iterations cannot be bounded there. -/
theorem C121_zero_false {t : ℝ} (ht : t ≤ 1) : ∃ P : Params 1, ValidSVD P ∧ P.innerTol = some t ∧
    ¬ ∃ (N : ℕ) (s : MatState 1 1 1), ∀ M, N ≤ M →
      admmUpdateA { P with nInner := M } dataNeg (fun _ : Fin 1 => (StdPen.nonNeg).toA) 0 false ones (fun _ => 0) (fun _ => 0) = .ok s := by
  obtain ⟨P, hP, hPt, h⟩ := C121_zero ht
  refine ⟨P, hP, hPt, ?_⟩
  rintro ⟨N, s, hs⟩
  obtain ⟨s1, h1, e1⟩ := h N
  obtain ⟨s2, h2, e2⟩ := h (N + 1)
  have a1 := Except.ok.inj (h1.symm.trans (hs (N + 1) (by omega)))
  have a2 := Except.ok.inj (h2.symm.trans (hs (N + 1 + 1) (by omega)))
  rw [a1] at e1
  rw [a2, e1] at e2
  have e3 := congrFun (congrFun e2 0) 0
  simp only [Matrix.of_apply, Matrix.cons_val', Matrix.cons_val_fin_one, neg_inj] at e3
  rw [pow_succ (1 / 2 : ℝ) (N + 1)] at e3
  have : (0 : ℝ) < (1 / 2) ^ (N + 1) := by positivity
  linarith

/-! ### Cases -/

/-- C119 and C120 apply to the same problem from any start; here `μ = 1`, `c = 0` and the squared distances are at least halved in every iteration. -/
example (x z u : ℝ) : ∃ (P : Params 1) (seq : ℕ → MatState 1 1 1), ValidSVD P ∧ seq 0 = ⟨!![x], fun _ => !![z], fun _ => !![u]⟩ ∧
    (∀ k, admmUpdateA (once P) dataNeg (fun _ => (StdPen.nonNeg).toA) 0 false ⟨(seq k).x, ones.B, ones.C⟩ (seq k).aux (seq k).dual = .ok (seq (k + 1))) ∧
    ∀ k, (seq (k + 2)).x 0 0 ^ 2 ≤ (1 / 2) ^ k * (2 * ((u + 1) ^ 2 + z ^ 2)) ∧
      k * (((seq (k + 1)).x 0 0 - (seq (k + 1)).aux 0 0 0) ^ 2 + ((seq (k + 1)).aux 0 0 0 - (seq k).aux 0 0 0) ^ 2) ≤ (u + 1) ^ 2 + z ^ 2 := by
  obtain ⟨P, hP, -, -, hscale⟩ := exists_params 1 1 none 2
  obtain ⟨seq, h0, hseq⟩ := exists_seqA P dataNeg (fun _ : Fin 1 => (StdPen.nonNeg (m := 1) (R := 1)).toA) 0 false ones (by simp) (fun _ p => rfl)
    ⟨!![x], fun _ => !![z], fun _ => !![u]⟩
  refine ⟨P, seq, hP, h0, hseq, fun k => ?_⟩
  have hw : ∀ i, weightA P.scale ones i = 1 := fun i => by rw [hscale]; simp [weightA, ones]
  have hw' : ∀ i, 0 < weightA P.scale ones i := fun i => by rw [hw]; norm_num
  have hρ : IsWeights false (weightA P.scale ones) fun _ => 1 := ⟨fun _ => funext fun i => (hw i).symm, fun h => by cases h⟩
  have hE : matDist (fun _ => 1) 0 (fun _ : Fin 1 => !![-1]) (seq 0).aux (seq 0).dual = (u + 1) ^ 2 + z ^ 2 := by
    rw [h0]
    simp [matDist]
  constructor
  · have := (C120_A P hP dataNeg le_rfl false ones _ hw' _ _ (fun _ => (StdPen.nonNeg).proxA trivial) (fun _ => (StdPen.nonNeg).convexOn trivial) seq hseq _ _ saddle_zero _ hρ
      (μ := 1) (c := 0) (θ := 1 / 2) one_pos le_rfl (fun i => by simp) (fun i v => by simp [ones]) (by rw [hscale]; norm_num) one_pos k).2.2.1
    rw [hE] at this
    simpa using this
  · have := C119_A P hP dataNeg le_rfl false ones _ one_pos hw' _ _ (fun _ => (StdPen.nonNeg).proxA trivial) (fun _ => (StdPen.nonNeg).convexOn trivial) seq hseq _ _ saddle_zero _ hρ k
    rw [hE] at this
    simpa using this

/-- C121 applies: data 1, solution 1, multiplier 0. -/
example {t : ℝ} (ht : 0 < t) (z u : ℝ) : ∃ P : Params 1, ValidSVD P ∧ P.innerTol = some t ∧ ∃ (N : ℕ) (s : MatState 1 1 1),
    (∀ p, √(sqNorm (s.x - s.aux p)) < t * √(sqNorm s.x)) ∧
    ∀ M, N ≤ M → admmUpdateA { P with nInner := M } (fun _ => !![1]) (fun _ => (StdPen.nonNeg).toA) 0 false ones (fun _ => !![z]) (fun _ => !![u]) = .ok s := by
  obtain ⟨P, hP, -, hPt, hscale⟩ := exists_params 1 1 (some t) 2
  refine ⟨P, hP, hPt, ?_⟩
  refine C121_A P hP _ le_rfl false ones _ one_pos (fun i => by rw [hscale]; exact weightA_ones i) _ _ (fun _ => (StdPen.nonNeg).proxA trivial) (fun _ => (StdPen.nonNeg).convexOn trivial)
    _ _ !![1] (fun _ => 0) ?_ solvable_ones.1 (fun h => by simpa using congrFun (congrFun h 0) 0) hPt ht (by simp) (fun _ _ => rfl)
  refine ⟨fun p i r => ?_, fun y => ?_, fun p y hy => ?_⟩
  · fin_cases i; fin_cases r
    exact zero_le_one
  · simp [fitA, sse, Factors.entry, ones, sqNorm, Spec.inner]
    nlinarith [sq_nonneg (1 - y 0 0)]
  · simp [StdPen.fn, Spec.inner]

end Verif.Props
