import Verif.Props.WholeReturns
import Verif.Props.LoopExamples

/-!
# Calls that meet the hypotheses of C65, C66 and C67
-/

namespace Verif.Props

open Verif.Whole Verif.Loop Verif.ADMM Verif.Penalties Verif.Parse Verif.Spec Finset Matrix

/-- Everything drawn is 1, `condat_tv` is not installed, eigenvalues are never negative, and the caller has no penalties. -/
noncomputable def exWorld : World 1 1 1 (fun _ => 1) where
  negEig _ _ := false
  hasTV := false
  knownSvd s := s == "truncated_svd"
  svdSq n := (exists_svd_fun n).choose
  svdThin _ := (exists_svd_fun 1).choose
  tv _ _ M _ := M
  init := ⟨1, fun _ => le_rfl, scF 1 1 1, fun _ => 1, 1, ⟨1, 1, 1, 1, fun _ => 1⟩, ⟨1, 1, 1, 1⟩, ⟨1, 1, 1, 1⟩⟩
  draw _ _ _ := ⟨sc 1, fun _ => 1, 1, 1⟩
  user _ := ⟨.error .typeError, .error .typeError, .error .typeError, .error .typeError, .error .typeError, .error .typeError, .error .typeError, .error .typeError,
    .error .typeError⟩

/-- `cmf_aoadmm([[[1]]], 1, init=..., non_negative={0: True}, update_B=False, update_C=False, dual_init="zeros", tol=1e-2, absolute_tol=0.1, feasibility_tol=1e-4,
n_iter_max=1000, inner_n_iter_max=1, return_errors=True)`. -/
noncomputable def exCall : Call 1 1 1 (fun _ => 1) where
  X := scX 1
  init := .given ⟨none, scF 1 1 1⟩
  l2 := .one .none
  args := { noArgs with nonNeg := .dict fun i => if i = 0 then some (.bool true) else none }
  regs := none
  scale := 1
  constFeas := .truth false
  auxInit := "random_uniform"
  dualInit := "zeros"
  svd := "truncated_svd"
  innerTol := none
  nInner := 1
  updA := true
  updB := false
  updC := false
  loop := tolArgs

/-- The values for the modes. -/
def exModes : Fin 3 → ModeArgs := ![{ noMode with nonNeg := .bool true }, noMode, noMode]

theorem exForms : AllForms exCall.args exModes := by
  have hone : ∀ g : ModeArgs → Leaf, (∀ m, g (exModes m) = .none) → Forms (.one .none) fun m => g (exModes m) := by
    intro g hg
    rw [show (fun m => g (exModes m)) = fun _ => Leaf.none from funext hg]
    exact .one _
  refine ⟨.dict _ _ (fun i l e => ?_) (fun i e => ?_), hone (·.lower) ?_, hone (·.upper) ?_, hone (·.normBound) ?_, hone (·.unimodal) ?_, ?_, hone (·.l1) ?_, hone (·.tv) ?_,
    hone (·.genL2) ?_⟩
  · fin_cases i <;> simp at e
    simpa [exModes] using e
  · fin_cases i <;> simp at e <;> rfl
  all_goals intro m; fin_cases m <;> rfl

theorem exScalar : ∀ m, Scalar (exModes m) := by
  intro m
  fin_cases m
  · exact { noMode_scalar with nonNeg := .inr ⟨true, rfl⟩ }
  · exact noMode_scalar
  · exact noMode_scalar

theorem exAdmissible : ∀ m, Admissible exWorld (exModes m) := by
  intro m
  refine ⟨exScalar m, ?_, ?_, ?_, ?_, ?_⟩ <;> fin_cases m <;> simp [exModes, noMode, Leaf.real]

/-- The hypotheses of C67 hold for `exCall`. -/
theorem exReturns (a : Args) (ha : truthy a.tol = true → a.absTol.isSome) (h : Heap String) : ∃ h' res, call exWorld { exCall with loop := a } h = (h', .ok res) := by
  refine C67 exWorld _ h one_pos rfl (by rfl) (by intro e; cases e) (.inl rfl) (.inr (.inr rfl)) (fun _ => .none) (.one _) exModes exForms exAdmissible ?_ ?_ ?_ (.inr (.inl rfl)) ?_ ha
  all_goals simp [exModes, noMode, MatrixWise, Leaf.real]

theorem exParse : parseMode exWorld.negEig (exCall.settings exWorld) { noMode with nonNeg := .bool true } = .ok [.built .nonNegativity "random_uniform" "zeros" none] := by
  simp [parseMode, noMode, Leaf.truth, Leaf.given, Leaf.isNone, genL2Regs, ballRegs, tvRegs, l1Regs, Settings.mk1, Call.settings, exCall]

theorem exParse' : parseMode exWorld.negEig (exCall.settings exWorld) noMode = .ok [] := by
  simp [parseMode, noMode, Leaf.truth, Leaf.given, Leaf.isNone, genL2Regs, ballRegs, tvRegs, l1Regs]

/-- The call stops after one iteration, with all conditions satisfied and factors equal to 1. -/
theorem exRuns (h : Heap String) : ∃ h' res d, call exWorld exCall h = (h', .ok res) ∧ res.out.st.weights = none ∧ res.out.st.F = scF 1 1 1 ∧ res.out.diag = some d ∧ d.nIter = 1 ∧ d.feasible = some true := by
  obtain ⟨h', res, e⟩ := exReturns tolArgs (fun _ => rfl) h
  rw [show ({ exCall with loop := tolArgs } : Call 1 1 1 fun _ => 1) = exCall from rfl] at e
  obtain ⟨start, l2, args, hs, hl, hargs, parsed, user, hm, hsol⟩ := call_ok (by intro b L hb; cases hb) e
  obtain ⟨args', hargs', hf'⟩ := C49_modes exForms
  rw [hargs] at hargs'
  cases hargs'
  cases hs
  cases hl
  obtain ⟨p0, u0⟩ := hm 0 (by omega)
  obtain ⟨p1, u1⟩ := hm 1 (by omega)
  obtain ⟨p2, u2⟩ := hm 2 (by omega)
  rw [show args 0 = { noMode with nonNeg := .bool true } from hf' 0, exParse] at p0
  rw [show args 1 = noMode from hf' 1, exParse'] at p1
  rw [show args 2 = noMode from hf' 2, exParse'] at p2
  rw [← Except.ok.inj p0, ← Except.ok.inj p1, ← Except.ok.inj p2, show user 0 = [] from u0, show user 1 = [] from u1, show user 2 = [] from u2] at hsol
  let prm : Params 1 := ⟨exWorld.svdSq 1, 1, none, 1⟩
  have hP : ValidSVD prm := (exists_svd_fun 1).choose_spec
  obtain ⟨out, d, hout, hst, -, hd, hn, -, hfe⟩ := stops_explicit hP rfl rfl
  have h0 : ∀ p : Fin [(.built .nonNegativity "random_uniform" "zeros" none : Pen String)].length, p = ⟨0, Nat.one_pos⟩ := fun p => Fin.ext (by
    simp)
  have hzero : exWorld.dualA 0 (.built .nonNegativity "random_uniform" "zeros" none) = .ok (sc 0) := by
    rw [World.dualA, World.scheme, if_neg (by decide), if_neg (by decide), if_pos rfl]
    rfl
  let S : Setup exWorld exCall [.built .nonNegativity "random_uniform" "zeros" none] [] [] :=
    ⟨fun _ => sc 1, Fin.elim0, Fin.elim0, fun _ => sc 0, Fin.elim0, Fin.elim0, fun _ => StdPen.nonNeg.toA, Fin.elim0, Fin.elim0, (false, false),
      fun p => by rw [h0 p]; rfl, fun p => p.elim0, fun p => p.elim0, fun p => by rw [h0 p]; exact hzero, fun p => p.elim0,
      fun p => p.elim0, fun p => by rw [h0 p]; rfl, fun p => p.elim0, fun p => p.elim0, rfl⟩
  have hS := solve_setup (W := exWorld) (c := exCall) (start := ⟨none, scF 1 1 1⟩) (l2 := (0, 0, 0)) (regsA := [.built .nonNegativity "random_uniform" "zeros" none])
    (regsB := []) (regsC := []) S
  have hres : solve exWorld exCall ⟨none, scF 1 1 1⟩ (0, 0, 0) [.built .nonNegativity "random_uniform" "zeros" none] [] [] = .ok res := hsol
  have e1 : S.problem (0, 0, 0) = scP prm 1 0 fun _ : Fin 1 => StdPen.nonNeg.toA := by
    show Problem.mk _ _ _ _ _ _ _ _ _ _ _ = Problem.mk _ _ _ _ _ _ _ _ _ _ _
    congr 1
  have e2 : S.state ⟨none, scF 1 1 1⟩ = scS (n := 1) 1 (fun _ => 1) fun _ => 0 := by
    show AOState.mk _ _ _ _ _ _ _ _ = AOState.mk _ _ _ _ _ _ _ _
    congr 1
  have hS' : solve exWorld exCall ⟨none, scF 1 1 1⟩ (0, 0, 0) [.built .nonNegativity "random_uniform" "zeros" none] [] [] = .ok ⟨1, 0, 0, out⟩ := by
    refine hS.trans ?_
    show Except.map (fun out => (⟨1, 0, 0, out⟩ : Result 1 1 1 fun _ => 1)) (cmfAoadmm (S.problem (0, 0, 0)) tolArgs (S.state ⟨none, scF 1 1 1⟩)) = _
    have : cmfAoadmm (S.problem (0, 0, 0)) tolArgs (S.state ⟨none, scF 1 1 1⟩) = .ok out := by
      rw [e1, e2]; exact hout
    exact congrArg (Except.map _) this
  rw [hS'] at hres
  cases hres
  exact ⟨h', _, d, e, by rw [hst]; rfl, by rw [hst]; rfl, hd, hn, hfe⟩

/-- C65 applies to `exCall`. -/
example : ∃ h' res, call exWorld exCall [] = (h', .ok res) ∧ ∃ Z : Matrix (Fin 1) (Fin 1) ℝ, (∀ i r, 0 ≤ Z i r) ∧
    √(sqNorm (res.out.st.F.A - Z)) < 1 / 10000 * √(sqNorm res.out.st.F.A) := by
  obtain ⟨h', res, d, e, -, hF, hd, -, hfe⟩ := exRuns []
  refine ⟨h', res, e, ?_⟩
  have hne : sc 1 ≠ 0 := fun h => by
    have := congrFun (congrFun h 0) 0
    simp [sc] at this
  exact (C65 exWorld (fun _ => (exists_svd_fun 1).choose_spec) exCall [] h' res (by intro b L hb; cases hb) e exModes exForms exScalar (by intro m; fin_cases m <;> simp [exModes, noMode])
    (by intro m; fin_cases m <;> simp [Consistent, exModes, noMode]) (fun _ => one_pos) one_pos (by norm_num [exCall, tolArgs]) (1 / 10000) ⟨rfl, by norm_num⟩ d hd hfe
    (by rw [hF]; exact hne) (by rw [hF]; exact fun h => hne (congrFun h 0)) (by rw [hF]; exact hne)).1 rfl .nonNeg rfl

/-- C66 applies to `exCall`: two losses are reported, and both are 0. -/
example : ∃ h' res d, call exWorld exCall [] = (h', .ok res) ∧ res.out.diag = some d ∧ d.losses.length = 2 ∧ d.losses[1]? = some (.fin 0) := by
  obtain ⟨h', res, d, e, hw, hF, hd, hn, hfe⟩ := exRuns []
  have hX : exCall.X ≠ 0 := fun h => by
    have := congrFun (congrFun (congrFun h 0) 0) 0
    simp [exCall, scX, sc] at this
  obtain ⟨d', hd', hlen, -, user, hu, hent⟩ := C66 exWorld exCall [] h' res (by intro b L hb; cases hb) e exModes exForms exScalar (fun _ => .none) (.one _) hX rfl
  obtain rfl : d = d' := Option.some.inj (hd.symm.trans hd')
  obtain ⟨o, ho, hlast, -, hl⟩ := hent 1 (by omega)
  refine ⟨h', res, d, e, hd, by omega, ?_⟩
  have u0 : user 0 = [] := hu 0 (by omega)
  rw [hl, (hlast (by omega)).1, (hlast (by omega)).2, hw, hF]
  have hsse : sse (scX 1) (absorb none (scF 1 1 1)) = 0 := by
    rw [show absorb none (scF 1 1 1) = scF 1 1 1 from by simp [absorb], sse_sc]
    norm_num
  simp [documentedLoss, hsse, exCall, exModes, noMode, modeTerm, genTerm, Leaf.real, userA, u0]

/-- Arguments that use most of what C67 allows: an L1 penalty on C, a norm bound on A with a constant feasibility penalty, PARAFAC2, matrices with different numbers of rows. -/
noncomputable def exCall2 : Call 2 3 2 ![4, 5] where
  X i j k := i + j + k
  init := .random
  l2 := .iter [.num (1 / 10), .none, .num (1 / 10)]
  args := { noArgs with nonNeg := .one (.bool true), l1 := .dict fun i => if i = 2 then some (.num 3) else none, normBound := .iter [.num 1, .none, .none], parafac2 := true }
  regs := none
  scale := 1
  constFeas := .str "A"
  auxInit := "random_standard_normal"
  dualInit := "zeros"
  svd := "truncated_svd"
  innerTol := some (1 / 1000)
  nInner := 5
  updA := true
  updB := true
  updC := true
  loop := tolArgs

/-- The values for the modes. -/
noncomputable def exModes2 : Fin 3 → ModeArgs :=
  ![{ noMode with nonNeg := .bool true, normBound := .num 1 }, { noMode with nonNeg := .bool true, parafac2 := true }, { noMode with nonNeg := .bool true, l1 := .num 3 }]

theorem exForms2 : AllForms exCall2.args exModes2 := by
  have hone : ∀ (g : ModeArgs → Leaf) (x : Leaf), (∀ m, g (exModes2 m) = x) → Forms (.one x) fun m => g (exModes2 m) := by
    intro g x hg
    rw [show (fun m => g (exModes2 m)) = fun _ => x from funext hg]
    exact .one _
  refine ⟨hone (·.nonNeg) _ ?_, hone (·.lower) _ ?_, hone (·.upper) _ ?_, ?_, hone (·.unimodal) _ ?_, ?_, .dict _ _ (fun i l e => ?_) (fun i e => ?_), hone (·.tv) _ ?_,
    hone (·.genL2) _ ?_⟩
  · intro m; fin_cases m <;> rfl
  · intro m; fin_cases m <;> rfl
  · intro m; fin_cases m <;> rfl
  · rw [show (fun m => (exModes2 m).normBound) = ![.num 1, .none, .none] by funext m; fin_cases m <;> rfl]
    exact .three _ _ _
  · intro m; fin_cases m <;> rfl
  · intro m; fin_cases m <;> rfl
  · fin_cases i <;> simp at e
    simpa [exModes2] using e
  · fin_cases i <;> simp at e <;> rfl
  · intro m; fin_cases m <;> rfl
  · intro m; fin_cases m <;> rfl

theorem exScalar2 : ∀ m, Scalar (exModes2 m) := by
  intro m
  fin_cases m
  · exact { noMode_scalar with nonNeg := .inr ⟨true, rfl⟩, normBound := .inr ⟨1, rfl⟩ }
  · exact { noMode_scalar with nonNeg := .inr ⟨true, rfl⟩ }
  · exact { noMode_scalar with nonNeg := .inr ⟨true, rfl⟩, l1 := .inr (.inr ⟨3, rfl⟩) }

/-- C67 applies to `exCall2`. -/
theorem exReturns2 (W : World 2 3 2 ![4, 5]) (h : Heap String) (hW : W.knownSvd "truncated_svd" = true) (a : Args) (ha : truthy a.tol = true → a.absTol.isSome) :
    ∃ h' res, call W { exCall2 with loop := a } h = (h', .ok res) := by
  refine C67 W _ h two_pos rfl hW (by intro e; cases e) (.inr (.inl rfl)) (.inr (.inr rfl)) _ (.three _ _ _) exModes2 exForms2 (fun m => ⟨exScalar2 m, ?_, ?_, ?_, ?_, ?_⟩) ?_ ?_ ?_
    (.inr (.inr (.inl rfl))) (fun _ _ => .inr rfl) ha
  all_goals first | (fin_cases m <;> simp [exModes2, noMode, Leaf.real]) | simp [exModes2, noMode]

end Verif.Props
