import Verif.Props.WholeSolve
import Verif.Props.LoopBound

/-!
# C84 for a whole call
-/

namespace Verif.Props

open Verif.Whole Verif.Loop Verif.ADMM Verif.Penalties Verif.Parse Verif.Spec Finset Matrix

variable {I K R : ℕ} {J : Fin I → ℕ}

theorem parse_noMode {σ : Type} (negEig : (m : ℕ) → Matrix (Fin m) (Fin m) ℝ → Bool) (s : Settings σ) : parseMode negEig s noMode = .ok [] := by
  simp [parseMode, noMode, Leaf.truth, Leaf.given, Leaf.isNone, genL2Regs, ballRegs, tvRegs, l1Regs, Except.bind, bind, pure, Except.pure]

/-- A call that asks for no penalties runs the loop without penalties. -/
theorem call_free {W : World I K R J} {c : Call I K R J} {h h' : Heap String} {res : Result I K R J} (hregs : c.regs = none) (hf : AllForms c.args fun _ => noMode)
    {l2 : Fin 3 → Leaf} (hl2 : Forms c.l2 l2) {start : Start I K R J} (hstart : initializeCmf W.init c.init = .ok start) (e : call W c h = (h', .ok res)) :
    ∃ (S : Setup W c [] [] []) (out : _), cmfAoadmm (S.problem ((l2 0).real, (l2 1).real, (l2 2).real)) c.loop (S.state start) = .ok out ∧ res = ⟨_, _, _, out⟩ := by
  have hs : NotSelf h c.regs := fun b L hb => by rw [hregs] at hb; cases hb
  obtain ⟨start', l2', args, h1, h2, h3, parsed, user, hm, hcall⟩ := call_parts hs e
  obtain rfl := Except.ok.inj (hstart.symm.trans h1)
  obtain ⟨args', ha', he⟩ := C49_modes hf
  obtain rfl := Except.ok.inj (h3.symm.trans ha')
  obtain ⟨q0, q1, q2⟩ := l2_values (c := c) hl2 h2
  have hu : ∀ m : Fin 3, parsed m ++ user m = [] := fun m => by
    have hu := (hm m m.isLt).2
    rw [hregs] at hu
    have hp := (hm m m.isLt).1
    rw [he m, parse_noMode] at hp
    rw [show user m = [] from hu, ← Except.ok.inj hp]
    rfl
  have hd : ∀ u : Bool, dropRegs u ([] : List (Pen String)) = [] := fun u => by cases u <;> rfl
  have e0 := hu 0
  have e1 := hu 1
  have e2 := hu 2
  simp only [Fin.val_zero, Fin.val_one, Fin.val_two] at e0 e1 e2
  rw [q0, q1, q2, e0, e1, e2] at hcall
  have hsol : solve W c start _ _ _ _ = .ok res := (congrArg Prod.snd (e.symm.trans (hcall c.loop))).symm
  have hok := solve_ok hsol
  rw [hd, hd, hd] at hok
  obtain ⟨S, out, hout, rfl⟩ := hok
  exact ⟨S, out, hout, rfl⟩

/-- C84 for a call with data of norm 1, positive L2 penalties on the factors that are updated, and no other penalties: it reports that the stopping conditions are satisfied, after
at most `N` iterations if `N` reductions by the factor `1 - tol` bring the initial loss below `absolute_tol`. -/
theorem C84_call (W : World I K R J) (hW : GoodWorld W) (c : Call I K R J) (h h' : Heap String) (res : Result I K R J) (hregs : c.regs = none)
    (hf : AllForms c.args fun _ => noMode) {l2 : Fin 3 → Leaf} (hl2 : Forms c.l2 l2) (hA : c.updA = true → 0 < (l2 0).real) (hB : c.updB = true → 0 < (l2 1).real)
    (hC : c.updC = true → 0 < (l2 2).real) (hX : raggedSq c.X = 1) (hN : 0 < c.nInner) {start : Start I K R J} (hstart : initializeCmf W.init c.init = .ok start)
    (hw : start.weights = none) (tol abs ft : ℝ) (h0 : 0 < tol) (h1 : tol ≤ 1) (h3 : ft ≠ 0) (ht : c.loop.tol = some tol) (hab : c.loop.absTol = some abs)
    (hft : c.loop.feasTol = some ft) (hr : c.loop.returnErrors = true) (N : ℕ) (hN1 : 1 ≤ N)
    (hb : (1 - tol) ^ N * (1 / 2 * sse c.X start.F + 1 / 2 * ((l2 0).real * sqNorm start.F.A + (l2 1).real * raggedSq start.F.B + (l2 2).real * sqNorm start.F.C)) < abs)
    (hmax : (N : ℤ) ≤ c.loop.nIterMax) (e : call W c h = (h', .ok res)) : ∃ d, res.out.diag = some d ∧ d.stopping = some true ∧ d.nIter ≤ N := by
  obtain ⟨S, out, hout, rfl⟩ := call_free hregs hf hl2 hstart e
  refine C84 (S.problem ((l2 0).real, (l2 1).real, (l2 2).real)) (fun hz => ?_) (hW.svd R) hN (.inr hX) c.loop tol abs ft ht hab ⟨hft, h3⟩ h0 h1 hr (S.state start) hw
    (fun _ _ o _ => invertible_of_l2 _ hA hB hC o.st) N hN1 ?_ hmax out hout
  · rw [show (S.problem ((l2 0).real, (l2 1).real, (l2 2).real)).X = c.X from rfl] at hz
    rw [hz] at hX
    simp [raggedSq, sqNorm] at hX
  · refine lt_of_eq_of_lt ?_ hb
    have e1 : absorb (S.state start).weights (S.state start).F = start.F := by
      show absorb start.weights start.F = _
      rw [hw]
      simp [absorb]
    unfold lossValue relErr regValue
    rw [e1, show (S.problem ((l2 0).real, (l2 1).real, (l2 2).real)).X = c.X from rfl, hX]
    simp only [Real.sqrt_one, div_one, Real.sq_sqrt (sse_nonneg c.X start.F), Setup.problem, Call.problem, List.length_nil, univ_eq_empty, sum_empty, add_zero]
    rfl

/-! ### A call that meets the hypotheses -/

/-- `cmf_aoadmm([[[1]]], 1, init=..., l2_penalty=1, n_iter_max=100, tol=0.5, absolute_tol=1, feasibility_tol=1e-4, return_errors=True, ...)`, all factors initially 2. -/
noncomputable def exCall4 : Call 1 1 1 (fun _ => 1) where
  X := scX 1
  init := .given ⟨none, scF 2 2 2⟩
  l2 := .one (.num 1)
  args := noArgs
  regs := none
  scale := 1
  constFeas := .truth false
  auxInit := "random_uniform"
  dualInit := "random_uniform"
  svd := "truncated_svd"
  innerTol := none
  nInner := 2
  updA := true
  updB := true
  updC := true
  loop := ⟨100, some (1 / 2), some 1, some (1 / 10 ^ 4), true, 0⟩

theorem exForms4 : AllForms exCall4.args fun _ => noMode := by
  exact ⟨.one _, .one _, .one _, .one _, .one _, fun m => by simp [noMode, exCall4, noArgs], .one _, .one _, .one _⟩

/-- C84 at work: the initial loss is 61/2, so at most five iterations are needed. -/
example : ∃ h' res d, call exWorldTV exCall4 [] = (h', .ok res) ∧ res.out.diag = some d ∧ d.stopping = some true ∧ d.nIter ≤ 5 := by
  obtain ⟨h', res, e⟩ : ∃ h' res, call exWorldTV exCall4 [] = (h', .ok res) := by
    refine C67 exWorldTV exCall4 [] one_pos rfl (by rfl) (by intro e; cases e) (.inl rfl) (.inl rfl) (fun _ => .num 1) (.one _) (fun _ => noMode) exForms4
      (fun m => ⟨noMode_scalar, ?_, ?_, ?_, ?_, ?_⟩) ?_ ?_ ?_ (.inr (.inl rfl)) ?_ fun _ => rfl
    all_goals simp [noMode, MatrixWise, Leaf.real]
  obtain ⟨d, h1, h2, h3⟩ := C84_call exWorldTV exWorldTV_good exCall4 [] h' res rfl exForms4 (l2 := fun _ => .num 1) (.one _) (fun _ => one_pos) (fun _ => one_pos)
    (fun _ => one_pos) (by simp [exCall4, raggedSq_sc]) two_pos rfl rfl (1 / 2) 1 (1 / 10 ^ 4) (by norm_num) (by norm_num) (by norm_num) rfl rfl rfl rfl 5 (by norm_num)
    (by
      have hs : sse exCall4.X (scF 2 2 2) = (1 - 8) ^ 2 := by
        refine (sse_sc 1 2 2 2).trans ?_
        norm_num
      simp only [Leaf.real, hs]
      simp only [scF, sqNorm_sc, raggedSq, univ_unique, sum_singleton]
      norm_num) (by norm_num [exCall4]) e
  exact ⟨h', res, d, e, h1, h2, h3⟩

end Verif.Props
