import Verif.Props.LoopLimit
import Verif.Props.LoopBox

/-!
# C143: the optimality conditions in all modes of limits with bounds on every factor
-/

set_option linter.unusedSectionVars false

namespace Verif.Props

open Verif.Loop Verif.ADMM Verif.Penalties Verif.Spec Finset Matrix Filter

variable {I K R n nA nB nC : ℕ} {J : Fin I → ℕ}

theorem exists_weights (hI : 0 < I) (constant : Bool) (w : Fin I → ℝ) : ∃ ρ, IsWeights constant w ρ := by
  cases constant with
  | false => exact ⟨w, fun _ => rfl, fun h => by cases h⟩
  | true =>
    have : Nonempty (Fin I) := ⟨⟨0, hI⟩⟩
    obtain ⟨i₀, h⟩ := Finite.exists_max w
    exact ⟨fun _ => w i₀, fun h => (by cases h), fun _ => ⟨i₀, h, fun _ => rfl⟩⟩

/-- C143: let the state after `n` and after `n + 1` iterations converge to `t` along some iteration counts, with bounds on every updated factor. In the limit every entry of every updated
factor is optimal in the sense of `BoxEntry`, with the derivatives of the fit at the limit, and the auxiliary variables equal the factors. -/
theorem C143 (P : Problem I K R 1 1 1 J) (hI : 0 < I) (hsvd : ValidSVD P.params) (hN : 0 < P.params.nInner) (init : AOState I K R 1 1 1 J)
    (outs : ℕ → Output (AOState I K R 1 1 1 J)) (h : ∀ n : ℕ, cmfAoadmm P (plain n) init = .ok (outs n)) (t : AOState I K R 1 1 1 J) (φ : ℕ → ℕ)
    (ht : StateTo (fun n => (outs (φ n)).st) t) (ht' : StateTo (fun n => (outs (φ n + 1)).st) t)
    {loA hiA loB hiB loC hiC : Option ℝ} (hvA : ∀ l u, loA = some l → hiA = some u → l ≤ u) (hvB : ∀ l u, loB = some l → hiB = some u → l ≤ u) (hvC : ∀ l u, loC = some l → hiC = some u → l ≤ u)
    {pA : StdPen I R} (hpA : Bounds loA hiA pA) {pB : (i : Fin I) → StdPen (J i) R} (hpB : ∀ i, Bounds loB hiB (pB i)) {pC : StdPen K R} (hpC : Bounds loC hiC pC)
    (eA : P.pensA 0 = pA.toA) (eB : P.pensB 0 = StdPen.toB pB) (eC : P.pensC 0 = pC.toC) (hlA : 0 ≤ P.l2.1) (hlB : 0 ≤ P.l2.2.1) (hlC : 0 ≤ P.l2.2.2)
    (hwA : P.updA = true → ∀ i, 0 < weightA P.params.scale t.F i) (hwB : P.updB = true → ∀ i, 0 < weightB P.params.scale t.F i) (hwC : P.updC = true → 0 < weightC P.params.scale t.F) :
    (P.updA = true → t.auxA 0 = t.F.A ∧ ∀ i r, BoxEntry loA hiA (gradA P.X P.l2.1 t.F t.F.A i r) (t.F.A i r)) ∧
    (P.updB = true → (t.auxB 0).toMats = t.F.B ∧ ∀ i j r, BoxEntry loB hiB (gradB P.X P.l2.2.1 t.F t.F.B i j r) (t.F.B i j r)) ∧
    (P.updC = true → t.auxC 0 = t.F.C ∧ ∀ k r, BoxEntry loC hiC (gradC P.X P.l2.2.2 t.F t.F.C k r) (t.F.C k r)) := by
  obtain ⟨ρA, hρA⟩ := exists_weights hI P.constA (weightA P.params.scale t.F)
  obtain ⟨ρB, hρB⟩ := exists_weights hI P.constB (weightB P.params.scale t.F)
  obtain ⟨o1, o2, o3⟩ := C115 P hsvd hN init outs h t φ ht ht' (fun _ => pA.feasible) (fun _ => pA.fn) ρA
    (fun u => ⟨fun q => by rw [Subsingleton.elim q 0, eA]; exact StdPen.proxA _ (hpA.valid hvA), fun _ => StdPen.convexOn _ (hpA.valid hvA), hlA, hρA, .inl ⟨one_pos, hwA u⟩⟩)
    (fun _ => {Z | ∀ i, Z i ∈ (pB i).feasible}) (fun _ Z => ∑ i, (pB i).fn (Z i)) ρB
    (fun u => ⟨fun q => by rw [Subsingleton.elim q 0, eB]; exact StdPen.proxB _ fun i => (hpB i).valid hvB, fun _ => StdPen.convexB _ fun i => (hpB i).valid hvB, hlB, hρB, .inl ⟨one_pos, hwB u⟩⟩)
    (fun _ => pC.feasible) (fun _ => pC.fn)
    (fun u => ⟨fun q => by rw [Subsingleton.elim q 0, eC]; exact StdPen.proxC _ (hpC.valid hvC), fun _ => StdPen.convexOn _ (hpC.valid hvC), hlC, .inl ⟨one_pos, hwC u⟩⟩)
  simp only [hpA.eq.1, hpA.eq.2, hpC.eq.1, hpC.eq.2, fun i => (hpB i).eq.1, fun i => (hpB i).eq.2] at o1 o2 o3
  exact ⟨fun u => ⟨(o1 u).1 0, (box_minA P.X hlA t.F loA hiA _).1 (o1 u).2⟩, fun u => ⟨(o2 u).1 0, (box_minB P.X hlB t.F loB hiB _).1 (o2 u).2⟩,
    fun u => ⟨(o3 u).1 0, (box_minC P.X hlC t.F loC hiC _).1 (o3 u).2⟩⟩

/-! ### A case: data (1, -1), all factors non-negative; the factors 1, 1 and (1, 0) solve all three subproblems -/

/-- The factors. -/
def edgeF : Factors 1 2 1 (fun _ => 1) := ⟨!![1], fun _ => !![1], !![1; 0]⟩

/-- The problem, with five inner iterations. -/
noncomputable def edgeProblem (prm : Params 1) : Problem 1 2 1 1 1 1 (fun _ => 1) :=
  ⟨fun _ => !![1, -1], fun _ => StdPen.nonNeg.toA, fun _ => StdPen.toB fun _ => StdPen.nonNeg, fun _ => StdPen.nonNeg.toC, (0, 0, 0), prm, false, true, true, true, true⟩

/-- The state. -/
def edgeState : AOState 1 2 1 1 1 1 (fun _ => 1) :=
  ⟨none, edgeF, fun _ => !![1], fun _ => 0, fun _ => .mats fun _ => !![1], fun _ _ => 0, fun _ => !![1; 0], fun _ => !![0; -1]⟩

/-- The run stays there. -/
theorem edge_run : ∃ (prm : Params 1) (outs : ℕ → Output (AOState 1 2 1 1 1 1 (fun _ => 1))), ValidSVD prm ∧ prm.nInner = 5 ∧
    (∀ n : ℕ, cmfAoadmm (edgeProblem prm) (plain n) edgeState = .ok (outs n)) ∧ (∀ f : ℕ → ℕ, StateTo (fun n => (outs (f n)).st) edgeState) ∧
    (∀ i, weightA prm.scale edgeF i = 1) ∧ (∀ i, weightB prm.scale edgeF i = 1) ∧ weightC prm.scale edgeF = 1 := by
  obtain ⟨prm, hP, hN, -, hscale⟩ := exists_params 1 5 none 2
  have hN' : 0 < prm.nInner := by omega
  have hout : ∀ n : ℕ, ∃ o, cmfAoadmm (edgeProblem prm) (plain n) edgeState = .ok o := fun n =>
    C61 _ one_pos (fun _ _ => rfl) _ (by intro h; cases h) _
  choose outs ho using hout
  have wA : ∀ i, weightA prm.scale edgeF i = 1 := by intro i; rw [hscale]; simp [weightA, edgeF]
  have wB : ∀ i, weightB prm.scale edgeF i = 1 := by intro i; rw [hscale]; simp [weightB, edgeF]
  have wC : weightC prm.scale edgeF = 1 := by rw [hscale]; simp [weightC, edgeF]
  have cA : ConvexA (edgeProblem prm) edgeF (fun _ => (StdPen.nonNeg (m := 1) (R := 1)).feasible) (fun _ => (StdPen.nonNeg (m := 1) (R := 1)).fn) (fun _ => 1) :=
    ⟨fun _ => StdPen.proxA _ trivial, fun _ => StdPen.convexOn _ trivial, le_rfl, ⟨fun _ => funext fun i => (wA i).symm, fun h => by cases h⟩,
      .inl ⟨one_pos, fun i => by rw [show (edgeProblem prm).params = prm from rfl, wA]; norm_num⟩⟩
  have cB : ConvexB (edgeProblem prm) edgeF (fun _ => {Z | ∀ i, Z i ∈ (StdPen.nonNeg (m := 1) (R := 1)).feasible}) (fun _ Z => ∑ i, (StdPen.nonNeg (m := 1) (R := 1)).fn (Z i)) (fun _ => 1) :=
    ⟨fun _ => StdPen.proxB _ fun _ => trivial, fun _ => StdPen.convexB (J := fun _ => 1) _ fun _ => trivial, le_rfl,
      ⟨fun h => (by cases h), fun _ => ⟨0, fun i => by rw [Subsingleton.elim i 0], fun i => (wB 0).symm⟩⟩,
      .inl ⟨one_pos, fun i => by rw [show (edgeProblem prm).params = prm from rfl, wB]; norm_num⟩⟩
  have cC : ConvexC (edgeProblem prm) edgeF (fun _ => (StdPen.nonNeg (m := 2) (R := 1)).feasible) (fun _ => (StdPen.nonNeg (m := 2) (R := 1)).fn) :=
    ⟨fun _ => StdPen.proxC _ trivial, fun _ => StdPen.convexOn _ trivial, le_rfl,
      .inl ⟨one_pos, by rw [show (edgeProblem prm).params = prm from rfl, wC]; norm_num⟩⟩
  have hst := C114_stay (edgeProblem prm) hP hN' edgeState outs ho _ _ _ (fun _ => cA) _ _ _ (fun _ => cB) _ _ (fun _ => cC)
    (fun _ => ⟨fun _ => rfl, by
      refine ⟨fun _ i r => ?_, fun y => ?_, fun p y _ => ?_⟩
      · obtain rfl : i = 0 := Subsingleton.elim _ _
        obtain rfl : r = 0 := Subsingleton.elim _ _
        simp [edgeState, edgeF]
      · simp [fitA, sse, Factors.entry, edgeProblem, edgeState, edgeF, sqNorm, Spec.inner, rowMult]
        nlinarith [sq_nonneg (y 0 0 - 1)]
      · simp [edgeState, StdPen.fn, Spec.inner, rowMult]⟩)
    (fun _ => ⟨fun _ => rfl, by
      refine ⟨fun _ i j r => ?_, fun y => ?_, fun p y _ => ?_⟩
      · obtain rfl : j = 0 := Subsingleton.elim _ _
        obtain rfl : r = 0 := Subsingleton.elim _ _
        simp [edgeState, edgeF]
      · simp [fitB, sse, Factors.entry, edgeProblem, edgeState, edgeF, raggedSq, sqNorm, ragInner, Spec.inner, ragMult]
        nlinarith [sq_nonneg (y 0 0 0 - 1)]
      · simp [edgeState, StdPen.fn, ragInner, Spec.inner, ragMult]⟩)
    (fun _ => ⟨fun _ => rfl, by
      refine ⟨fun _ i r => ?_, fun y => ?_, fun p y hy => ?_⟩
      · obtain rfl : r = 0 := Subsingleton.elim _ _
        fin_cases i <;> simp [edgeState, edgeF]
      · have e : weightC (edgeProblem prm).params.scale edgeState.F = 1 := wC
        rw [e]
        simp [fitC, sse, Factors.entry, edgeProblem, edgeState, edgeF, sqNorm, Spec.inner, rowMult, Fin.sum_univ_two]
        nlinarith [sq_nonneg (y 0 0 - 1), sq_nonneg (y 1 0)]
      · have e : weightC (edgeProblem prm).params.scale edgeState.F = 1 := wC
        have h1 : 0 ≤ y 1 0 := hy 1 0
        rw [e]
        simpa [edgeState, edgeF, StdPen.fn, Spec.inner, rowMult, Fin.sum_univ_two] using h1⟩)
  have hto : ∀ f : ℕ → ℕ, StateTo (fun n => (outs (f n)).st) edgeState := by
    intro f
    refine ⟨⟨fun i r => ?_, fun i j r => ?_, fun k r => ?_⟩, fun p i r => ?_, fun p i j r => ?_, fun p i r => ?_, fun p i r => ?_, fun p i j r => ?_, fun p i r => ?_⟩
    · simp only [(hst _).F]; exact tendsto_const_nhds
    · simp only [(hst _).F]; exact tendsto_const_nhds
    · simp only [(hst _).F]; exact tendsto_const_nhds
    · simp only [(hst _).auxA]; exact tendsto_const_nhds
    · simp only [(hst _).auxB]; exact tendsto_const_nhds
    · simp only [(hst _).auxC]; exact tendsto_const_nhds
    · simp only [(hst _).dualA]; exact tendsto_const_nhds
    · simp only [(hst _).dualB]; exact tendsto_const_nhds
    · simp only [(hst _).dualC]; exact tendsto_const_nhds
  exact ⟨prm, outs, hP, hN, ho, hto, wA, wB, wC⟩

/-- C143 applies: the run converges, with all factors updated, and in the limit the derivative for the second entry of C is positive. -/
theorem C143_example : ∃ (prm : Params 1) (outs : ℕ → Output (AOState 1 2 1 1 1 1 (fun _ => 1))), prm.nInner = 5 ∧
    (∀ n : ℕ, cmfAoadmm (edgeProblem prm) (plain n) edgeState = .ok (outs n)) ∧ StateTo (fun n => (outs n).st) edgeState ∧
    (∀ i r, BoxEntry (some 0) none (gradA (edgeProblem prm).X 0 edgeF edgeF.A i r) (edgeF.A i r)) ∧
    (∀ i j r, BoxEntry (some 0) none (gradB (edgeProblem prm).X 0 edgeF edgeF.B i j r) (edgeF.B i j r)) ∧
    (∀ k r, BoxEntry (some 0) none (gradC (edgeProblem prm).X 0 edgeF edgeF.C k r) (edgeF.C k r)) ∧ gradC (edgeProblem prm).X 0 edgeF edgeF.C 1 0 = 1 := by
  obtain ⟨prm, outs, hP, hN, ho, hto, wA, wB, wC⟩ := edge_run
  have hN' : 0 < prm.nInner := by omega
  have hv : ∀ l u : ℝ, some (0 : ℝ) = some l → (none : Option ℝ) = some u → l ≤ u := fun _ _ _ h => by cases h
  obtain ⟨o1, o2, o3⟩ := C143 (edgeProblem prm) one_pos hP hN' edgeState outs ho edgeState id (hto id) (hto fun n => n + 1) hv hv hv
    (.inr ⟨rfl, rfl, rfl⟩) (fun _ => .inr ⟨rfl, rfl, rfl⟩) (.inr ⟨rfl, rfl, rfl⟩) rfl rfl rfl le_rfl le_rfl le_rfl
    (fun _ i => by rw [show weightA (edgeProblem prm).params.scale edgeState.F i = 1 from wA i]; norm_num)
    (fun _ i => by rw [show weightB (edgeProblem prm).params.scale edgeState.F i = 1 from wB i]; norm_num)
    (fun _ => by rw [show weightC (edgeProblem prm).params.scale edgeState.F = 1 from wC]; norm_num)
  refine ⟨prm, outs, hN, ho, hto id, (o1 rfl).2, (o2 rfl).2, (o3 rfl).2, ?_⟩
  simp [gradC, edgeProblem, edgeF, Factors.entry]

end Verif.Props
