import Verif.Props.LoopKKT

/-!
# C144: the optimality conditions in all modes of limits with L1 penalties on every factor
-/

set_option linter.unusedSectionVars false

namespace Verif.Props

open Verif.Loop Verif.ADMM Verif.Penalties Verif.Spec Finset Matrix Filter

variable {I K R : ℕ} {J : Fin I → ℕ}

/-- C144: let the state after `n` and after `n + 1` iterations converge to `t` along some iteration counts, with an L1 penalty on every updated factor. In the limit every entry of every updated
factor is optimal in the sense of `LassoEntry`, with the derivatives of the fit at the limit, and the auxiliary variables equal the factors. -/
theorem C144 (P : Problem I K R 1 1 1 J) (hI : 0 < I) (hsvd : ValidSVD P.params) (hN : 0 < P.params.nInner) (init : AOState I K R 1 1 1 J)
    (outs : ℕ → Output (AOState I K R 1 1 1 J)) (h : ∀ n : ℕ, cmfAoadmm P (plain n) init = .ok (outs n)) (t : AOState I K R 1 1 1 J) (φ : ℕ → ℕ)
    (ht : StateTo (fun n => (outs (φ n)).st) t) (ht' : StateTo (fun n => (outs (φ n + 1)).st) t)
    {γA γB γC : ℝ} (hγA : 0 ≤ γA) (hγB : 0 ≤ γB) (hγC : 0 ≤ γC) (nA nB nC : Bool)
    (eA : P.pensA 0 = (StdPen.l1 γA nA : StdPen I R).toA) (eB : P.pensB 0 = StdPen.toB fun i => (StdPen.l1 γB nB : StdPen (J i) R)) (eC : P.pensC 0 = (StdPen.l1 γC nC : StdPen K R).toC) (hlA : 0 ≤ P.l2.1) (hlB : 0 ≤ P.l2.2.1) (hlC : 0 ≤ P.l2.2.2)
    (hwA : P.updA = true → ∀ i, 0 < weightA P.params.scale t.F i) (hwB : P.updB = true → ∀ i, 0 < weightB P.params.scale t.F i) (hwC : P.updC = true → 0 < weightC P.params.scale t.F) :
    (P.updA = true → t.auxA 0 = t.F.A ∧ ∀ i r, LassoEntry γA nA (gradA P.X P.l2.1 t.F t.F.A i r) (t.F.A i r)) ∧
    (P.updB = true → (t.auxB 0).toMats = t.F.B ∧ ∀ i j r, LassoEntry γB nB (gradB P.X P.l2.2.1 t.F t.F.B i j r) (t.F.B i j r)) ∧
    (P.updC = true → t.auxC 0 = t.F.C ∧ ∀ k r, LassoEntry γC nC (gradC P.X P.l2.2.2 t.F t.F.C k r) (t.F.C k r)) := by
  obtain ⟨ρA, hρA⟩ := exists_weights hI P.constA (weightA P.params.scale t.F)
  obtain ⟨ρB, hρB⟩ := exists_weights hI P.constB (weightB P.params.scale t.F)
  obtain ⟨o1, o2, o3⟩ := C115 P hsvd hN init outs h t φ ht ht' (fun _ => (StdPen.l1 γA nA : StdPen I R).feasible) (fun _ => (StdPen.l1 γA nA : StdPen I R).fn) ρA
    (fun u => ⟨fun q => by rw [Subsingleton.elim q 0, eA]; exact StdPen.proxA _ hγA, fun _ => StdPen.convexOn _ hγA, hlA, hρA, .inl ⟨one_pos, hwA u⟩⟩)
    (fun _ => {Z | ∀ i, Z i ∈ (StdPen.l1 γB nB : StdPen (J i) R).feasible}) (fun _ Z => ∑ i, (StdPen.l1 γB nB : StdPen (J i) R).fn (Z i)) ρB
    (fun u => ⟨fun q => by rw [Subsingleton.elim q 0, eB]; exact StdPen.proxB _ fun i => hγB, fun _ => StdPen.convexB _ fun i => hγB, hlB, hρB, .inl ⟨one_pos, hwB u⟩⟩)
    (fun _ => (StdPen.l1 γC nC : StdPen K R).feasible) (fun _ => (StdPen.l1 γC nC : StdPen K R).fn)
    (fun u => ⟨fun q => by rw [Subsingleton.elim q 0, eC]; exact StdPen.proxC _ hγC, fun _ => StdPen.convexOn _ hγC, hlC, .inl ⟨one_pos, hwC u⟩⟩)
  exact ⟨fun u => ⟨(o1 u).1 0, (lasso_minA P.X hlA t.F hγA nA _).1 (o1 u).2⟩, fun u => ⟨(o2 u).1 0, (lasso_minB P.X hlB t.F hγB nB _).1 (o2 u).2⟩,
    fun u => ⟨(o3 u).1 0, (lasso_minC P.X hlC t.F hγC nC _).1 (o3 u).2⟩⟩

/-! ### Balance -/

theorem lasso_mul {γ g y : ℝ} {nn : Bool} (h : LassoEntry γ nn g y) : g * y = -(γ * |y|) := by
  rcases lt_trichotomy y 0 with hy | rfl | hy
  · cases nn with
    | true => exact absurd (by simpa [LassoEntry] using h : 0 ≤ y ∧ -γ ≤ g ∧ (0 < y → g = -γ)).1 (not_le.2 hy)
    | false =>
      rw [(by simpa [LassoEntry] using h : |g| ≤ γ ∧ (0 < y → g = -γ) ∧ (y < 0 → g = γ)).2.2 hy, abs_of_neg hy]
      ring
  · simp
  · have : g = -γ := by
      cases nn with
      | true => exact (by simpa [LassoEntry] using h : 0 ≤ y ∧ -γ ≤ g ∧ (0 < y → g = -γ)).2.2 hy
      | false => exact (by simpa [LassoEntry] using h : |g| ≤ γ ∧ (0 < y → g = -γ) ∧ (y < 0 → g = γ)).2.1 hy
    rw [this, abs_of_pos hy]
    ring

/-- The part of a component in the residual. -/
def share (X : Ragged I K J) (F : Factors I K R J) (r : Fin R) : ℝ := ∑ i, ∑ j, ∑ k, (F.entry i j k - X i j k) * (F.A i r * F.B i j r * F.C k r)

theorem balance_A {X : Ragged I K J} {l γ : ℝ} {nn : Bool} {F : Factors I K R J} (h : ∀ i r, LassoEntry γ nn (gradA X l F F.A i r) (F.A i r)) (r : Fin R) :
    γ * ∑ i, |F.A i r| + l * ∑ i, F.A i r ^ 2 = -share X F r := by
  have h1 : ∑ i, gradA X l F F.A i r * F.A i r = -(γ * ∑ i, |F.A i r|) := by
    rw [mul_sum, ← sum_neg_distrib]
    exact sum_congr rfl fun i _ => lasso_mul (h i r)
  have h2 : ∑ i, gradA X l F F.A i r * F.A i r = share X F r + l * ∑ i, F.A i r ^ 2 := by
    rw [share, mul_sum, ← sum_add_distrib]
    refine sum_congr rfl fun i _ => ?_
    simp only [gradA, add_mul, sum_mul]
    congr 1
    · exact sum_congr rfl fun j _ => sum_congr rfl fun k _ => by ring
    · ring
  linarith

theorem balance_B {X : Ragged I K J} {l γ : ℝ} {nn : Bool} {F : Factors I K R J} (h : ∀ i j r, LassoEntry γ nn (gradB X l F F.B i j r) (F.B i j r)) (r : Fin R) :
    γ * ∑ i, ∑ j, |F.B i j r| + l * ∑ i, ∑ j, F.B i j r ^ 2 = -share X F r := by
  have h1 : ∑ i, ∑ j, gradB X l F F.B i j r * F.B i j r = -(γ * ∑ i, ∑ j, |F.B i j r|) := by
    simp only [mul_sum, ← sum_neg_distrib]
    exact sum_congr rfl fun i _ => sum_congr rfl fun j _ => lasso_mul (h i j r)
  have h2 : ∑ i, ∑ j, gradB X l F F.B i j r * F.B i j r = share X F r + l * ∑ i, ∑ j, F.B i j r ^ 2 := by
    simp only [share, mul_sum, ← sum_add_distrib]
    refine sum_congr rfl fun i _ => sum_congr rfl fun j _ => ?_
    simp only [gradB, add_mul, sum_mul]
    congr 1
    · exact sum_congr rfl fun k _ => by ring
    · ring
  linarith

theorem balance_C {X : Ragged I K J} {l γ : ℝ} {nn : Bool} {F : Factors I K R J} (h : ∀ k r, LassoEntry γ nn (gradC X l F F.C k r) (F.C k r)) (r : Fin R) :
    γ * ∑ k, |F.C k r| + l * ∑ k, F.C k r ^ 2 = -share X F r := by
  have h1 : ∑ k, gradC X l F F.C k r * F.C k r = -(γ * ∑ k, |F.C k r|) := by
    rw [mul_sum, ← sum_neg_distrib]
    exact sum_congr rfl fun k _ => lasso_mul (h k r)
  have h2 : ∑ k, gradC X l F F.C k r * F.C k r = share X F r + l * ∑ k, F.C k r ^ 2 := by
    have e : share X F r = ∑ k, ∑ i, ∑ j, (F.entry i j k - X i j k) * (F.A i r * F.B i j r * F.C k r) := by
      rw [share, sum_comm]
      refine sum_congr rfl fun i _ => ?_
      rw [sum_comm]
    rw [e, mul_sum, ← sum_add_distrib]
    refine sum_congr rfl fun k _ => ?_
    simp only [gradC, add_mul, sum_mul]
    congr 1
    · exact sum_congr rfl fun i _ => sum_congr rfl fun j _ => by ring
    · ring
  linarith

/-- C144, balance: if all factors are updated, then in the limit the penalties (with the L2 penalty counted twice) of a component are the same in all modes. -/
theorem C144_balance (P : Problem I K R 1 1 1 J) (hI : 0 < I) (hsvd : ValidSVD P.params) (hN : 0 < P.params.nInner) (init : AOState I K R 1 1 1 J)
    (outs : ℕ → Output (AOState I K R 1 1 1 J)) (h : ∀ n : ℕ, cmfAoadmm P (plain n) init = .ok (outs n)) (t : AOState I K R 1 1 1 J) (φ : ℕ → ℕ)
    (ht : StateTo (fun n => (outs (φ n)).st) t) (ht' : StateTo (fun n => (outs (φ n + 1)).st) t)
    {γA γB γC : ℝ} (hγA : 0 ≤ γA) (hγB : 0 ≤ γB) (hγC : 0 ≤ γC) (nA nB nC : Bool)
    (eA : P.pensA 0 = (StdPen.l1 γA nA : StdPen I R).toA) (eB : P.pensB 0 = StdPen.toB fun i => (StdPen.l1 γB nB : StdPen (J i) R)) (eC : P.pensC 0 = (StdPen.l1 γC nC : StdPen K R).toC) (hlA : 0 ≤ P.l2.1) (hlB : 0 ≤ P.l2.2.1) (hlC : 0 ≤ P.l2.2.2)
    (uA : P.updA = true) (uB : P.updB = true) (uC : P.updC = true)
    (hwA : ∀ i, 0 < weightA P.params.scale t.F i) (hwB : ∀ i, 0 < weightB P.params.scale t.F i) (hwC : 0 < weightC P.params.scale t.F) (r : Fin R) :
    γA * ∑ i, |t.F.A i r| + P.l2.1 * ∑ i, t.F.A i r ^ 2 = γB * ∑ i, ∑ j, |t.F.B i j r| + P.l2.2.1 * ∑ i, ∑ j, t.F.B i j r ^ 2 ∧
    γA * ∑ i, |t.F.A i r| + P.l2.1 * ∑ i, t.F.A i r ^ 2 = γC * ∑ k, |t.F.C k r| + P.l2.2.2 * ∑ k, t.F.C k r ^ 2 := by
  obtain ⟨o1, o2, o3⟩ := C144 P hI hsvd hN init outs h t φ ht ht' hγA hγB hγC nA nB nC eA eB eC hlA hlB hlC (fun _ => hwA) (fun _ => hwB) (fun _ => hwC)
  rw [balance_A (o1 uA).2 r, balance_B (o2 uB).2 r, balance_C (o3 uC).2 r]
  exact ⟨rfl, rfl⟩

/-! ### A case: data 2, an L1 penalty of strength 1 on every factor; the factors 1, 1 and 1 solve all three subproblems -/

/-- The problem, with five inner iterations. -/
noncomputable def sparseProblem (prm : Params 1) : Problem 1 1 1 1 1 1 (fun _ => 1) :=
  ⟨fun _ => !![2], fun _ => (StdPen.l1 1 false).toA, fun _ => StdPen.toB fun _ => StdPen.l1 1 false, fun _ => (StdPen.l1 1 false).toC, (0, 0, 0), prm, false, true, true, true, true⟩

/-- The state. -/
def sparseState : AOState 1 1 1 1 1 1 (fun _ => 1) :=
  ⟨none, ones, fun _ => !![1], fun _ => !![1], fun _ => .mats fun _ => !![1], fun _ _ => !![1], fun _ => !![1], fun _ => !![1]⟩

/-- C144 applies: the run converges, with all factors updated, and in the limit all derivatives are -1. -/
theorem C144_example : ∃ (prm : Params 1) (outs : ℕ → Output (AOState 1 1 1 1 1 1 (fun _ => 1))), prm.nInner = 5 ∧
    (∀ n : ℕ, cmfAoadmm (sparseProblem prm) (plain n) sparseState = .ok (outs n)) ∧ StateTo (fun n => (outs n).st) sparseState ∧
    (∀ i r, LassoEntry 1 false (gradA (sparseProblem prm).X 0 ones ones.A i r) (ones.A i r)) ∧
    (∀ i j r, LassoEntry 1 false (gradB (sparseProblem prm).X 0 ones ones.B i j r) (ones.B i j r)) ∧
    (∀ k r, LassoEntry 1 false (gradC (sparseProblem prm).X 0 ones ones.C k r) (ones.C k r)) ∧ gradC (sparseProblem prm).X 0 ones ones.C 0 0 = -1 := by
  obtain ⟨prm, hP, hN, -, hscale⟩ := exists_params 1 5 none 2
  have hN' : 0 < prm.nInner := by omega
  have hout : ∀ n : ℕ, ∃ o, cmfAoadmm (sparseProblem prm) (plain n) sparseState = .ok o := fun n =>
    C61 _ one_pos (fun _ _ => rfl) _ (by intro h; cases h) _
  choose outs ho using hout
  have wA : ∀ i, weightA prm.scale ones i = 1 := by intro i; rw [hscale]; simp [weightA, ones]
  have wB : ∀ i, weightB prm.scale ones i = 1 := by intro i; rw [hscale]; simp [weightB, ones]
  have wC : weightC prm.scale ones = 1 := by rw [hscale]; simp [weightC, ones]
  have cA : ConvexA (sparseProblem prm) ones (fun _ => (StdPen.l1 (m := 1) (R := 1) 1 false).feasible) (fun _ => (StdPen.l1 (m := 1) (R := 1) 1 false).fn) (fun _ => 1) :=
    ⟨fun _ => StdPen.proxA _ zero_le_one, fun _ => StdPen.convexOn _ zero_le_one, le_rfl, ⟨fun _ => funext fun i => (wA i).symm, fun h => by cases h⟩,
      .inl ⟨one_pos, fun i => by rw [show (sparseProblem prm).params = prm from rfl, wA]; norm_num⟩⟩
  have cB : ConvexB (sparseProblem prm) ones (fun _ => {Z | ∀ i, Z i ∈ (StdPen.l1 (m := 1) (R := 1) 1 false).feasible}) (fun _ Z => ∑ i, (StdPen.l1 (m := 1) (R := 1) 1 false).fn (Z i)) (fun _ => 1) :=
    ⟨fun _ => StdPen.proxB _ fun _ => zero_le_one, fun _ => StdPen.convexB (J := fun _ => 1) _ fun _ => zero_le_one, le_rfl,
      ⟨fun h => (by cases h), fun _ => ⟨0, fun i => by rw [Subsingleton.elim i 0], fun i => (wB 0).symm⟩⟩,
      .inl ⟨one_pos, fun i => by rw [show (sparseProblem prm).params = prm from rfl, wB]; norm_num⟩⟩
  have cC : ConvexC (sparseProblem prm) ones (fun _ => (StdPen.l1 (m := 1) (R := 1) 1 false).feasible) (fun _ => (StdPen.l1 (m := 1) (R := 1) 1 false).fn) :=
    ⟨fun _ => StdPen.proxC _ zero_le_one, fun _ => StdPen.convexOn _ zero_le_one, le_rfl,
      .inl ⟨one_pos, by rw [show (sparseProblem prm).params = prm from rfl, wC]; norm_num⟩⟩
  have hst := C114_stay (sparseProblem prm) hP hN' sparseState outs ho _ _ _ (fun _ => cA) _ _ _ (fun _ => cB) _ _ (fun _ => cC)
    (fun _ => ⟨fun _ => rfl, by
      refine ⟨fun _ => fun h => (by cases h), fun y => ?_, fun p y _ => ?_⟩
      · simp [fitA, sse, Factors.entry, sparseProblem, sparseState, ones, sqNorm, Spec.inner, rowMult]
        nlinarith [sq_nonneg (y 0 0 - 1)]
      · simp [sparseState, ones, StdPen.fn, absSum, Spec.inner, rowMult]
        linarith [le_abs_self (y 0 0)]⟩)
    (fun _ => ⟨fun _ => rfl, by
      refine ⟨fun _ _ => fun h => (by cases h), fun y => ?_, fun p y _ => ?_⟩
      · simp [fitB, sse, Factors.entry, sparseProblem, sparseState, ones, raggedSq, sqNorm, ragInner, Spec.inner, ragMult]
        nlinarith [sq_nonneg (y 0 0 0 - 1)]
      · simp [sparseState, ones, StdPen.fn, absSum, ragInner, Spec.inner, ragMult]
        linarith [le_abs_self (y 0 0 0)]⟩)
    (fun _ => ⟨fun _ => rfl, by
      refine ⟨fun _ => fun h => (by cases h), fun y => ?_, fun p y _ => ?_⟩
      · rw [show weightC (sparseProblem prm).params.scale sparseState.F = 1 from wC]
        simp [fitC, sse, Factors.entry, sparseProblem, sparseState, ones, sqNorm, Spec.inner, rowMult]
        nlinarith [sq_nonneg (y 0 0 - 1)]
      · rw [show weightC (sparseProblem prm).params.scale sparseState.F = 1 from wC]
        simp [sparseState, ones, StdPen.fn, absSum, Spec.inner, rowMult]
        linarith [le_abs_self (y 0 0)]⟩)
  have hto : ∀ f : ℕ → ℕ, StateTo (fun n => (outs (f n)).st) sparseState := by
    intro f
    refine ⟨⟨fun i r => ?_, fun i j r => ?_, fun k r => ?_⟩, fun p i r => ?_, fun p i j r => ?_, fun p i r => ?_, fun p i r => ?_, fun p i j r => ?_, fun p i r => ?_⟩
    · simp only [(hst _).F]; exact tendsto_const_nhds
    · simp only [(hst _).F]; exact tendsto_const_nhds
    · simp only [(hst _).F]; exact tendsto_const_nhds
    · simp only [(hst _).auxA]; exact tendsto_const_nhds
    · simp only [(hst _).auxB]; exact tendsto_const_nhds
    · simp only [(hst _).auxC]; exact tendsto_const_nhds
    · simp only [(hst _).dualA]; exact tendsto_const_nhds
    · simp only [(hst _).dualB]; exact tendsto_const_nhds
    · simp only [(hst _).dualC]; exact tendsto_const_nhds
  obtain ⟨o1, o2, o3⟩ := C144 (sparseProblem prm) one_pos hP hN' sparseState outs ho sparseState id (hto id) (hto fun n => n + 1) zero_le_one zero_le_one zero_le_one
    false false false rfl rfl rfl le_rfl le_rfl le_rfl
    (fun _ i => by rw [show weightA (sparseProblem prm).params.scale sparseState.F i = 1 from wA i]; norm_num)
    (fun _ i => by rw [show weightB (sparseProblem prm).params.scale sparseState.F i = 1 from wB i]; norm_num)
    (fun _ => by rw [show weightC (sparseProblem prm).params.scale sparseState.F = 1 from wC]; norm_num)
  refine ⟨prm, outs, hN, ho, hto id, (o1 rfl).2, (o2 rfl).2, (o3 rfl).2, ?_⟩
  simp [gradC, sparseProblem, ones, Factors.entry]
  norm_num

end Verif.Props
