import Verif.Props.LoopFalse
import Verif.Props.LoopFeasible
import Verif.Props.LoopWarm
import Verif.Props.LoopPrint

/-!
# Executions that meet the hypotheses of C29, C30_partial, C37, C38_partial, C39_partial, C40_partial, C41_partial, C75, C76
-/

namespace Verif.Props

open Verif.Loop Verif.ADMM Verif.Penalties Verif.Spec Finset Matrix

/-- All tolerances set, diagnostics requested. -/
noncomputable def tolArgs : Args := ⟨1000, some (1 / 100), some (1 / 10), some (1 / 10000), true, 0⟩

/-- One matrix, a non-negativity constraint on A, all tolerances set, diagnostics requested: the call stops after one iteration with nonzero factors
and reports that all conditions are satisfied. -/
theorem stops_explicit {prm : Params 1} (hP : ValidSVD prm) (hN : prm.nInner = 1) (hs : prm.scale = 1) : ∃ (out : Output _) (d : Diagnostics),
    cmfAoadmm (scP prm 1 0 fun _ : Fin 1 => StdPen.nonNeg.toA) tolArgs (scS (n := 1) 1 (fun _ => 1) fun _ => 0) = .ok out ∧
    out.st = scS (n := 1) 1 (fun _ => 1) (fun _ => 0) ∧ NonzeroFactors out.st ∧
    out.diag = some d ∧ d.nIter = 1 ∧ d.stopping = some true ∧ d.feasible = some true := by
  obtain ⟨i, h⟩ := sweep_nonNeg hP hN hs 1 1 0 1 (by norm_num) (by norm_num)
  rw [add_zero] at h
  have hnz : NonzeroFactors (scS (n := 1) 1 (fun _ => 1) fun _ => 0) := by
    refine ⟨fun _ h => ?_, by simp, by simp⟩
    have := congrFun (congrFun h 0) 0
    simp [scS, scF, sc] at this
  set P := scP prm 1 0 fun _ : Fin 1 => StdPen.nonNeg.toA with hPdef
  have hX : P.X ≠ 0 := fun h => by
    have := congrFun (congrFun (congrFun h 0) 0) 0
    simp [hPdef, scP, scX, sc] at this
  let a : Args := tolArgs
  have hta : IsSet a.tol (1 / 100) := ⟨rfl, by norm_num⟩
  have htf : IsSet a.feasTol (1 / 10000) := ⟨rfl, by norm_num⟩
  have hall : ∀ k : ℕ, ∀ o, cmfAoadmm P (plain k) (scS (n := 1) 1 (fun _ => 1) fun _ => 0) = .ok o → o.st = scS (n := 1) 1 (fun _ => 1) fun _ => 0 := by
    intro k o ho
    have h1 := plain_sweeps ho
    rw [sweeps_fixed h k] at h1
    exact (Except.ok.inj h1).symm
  obtain ⟨out, hout⟩ := C61 P one_pos (fun _ p => rfl) a (fun _ => rfl) (scS (n := 1) 1 (fun _ => 1) fun _ => 0)
  obtain ⟨d, hd, -, -, -, hent⟩ := C37 P hX a rfl _ out hout
  have hst : out.st = scS (n := 1) 1 (fun _ => 1) fun _ => 0 := by
    obtain ⟨o, ho, he, -⟩ := hent d.nIter le_rfl
    rw [← he rfl]
    exact hall _ o ho
  have hz : NonzeroFactors out.st := by rw [hst]; exact hnz
  obtain ⟨d1, hd1, -, hyes, hno, -⟩ := C38_partial P a rfl _ out hout hz
  obtain rfl : d = d1 := Option.some.inj (hd.symm.trans hd1)
  have hpos : 0 < d.nIter := by
    by_contra hc
    have h0 : d.nIter = 0 := by omega
    have : d.stopping ≠ some true := fun hs => hc (hyes hs).1
    have := (hno this).1
    rw [h0] at this
    norm_num [a, tolArgs] at this
  obtain ⟨d2, hd2, hiff⟩ := C41_partial P hX a _ _ _ hta rfl htf rfl _ out hout
  obtain rfl : d = d2 := Option.some.inj (hd.symm.trans hd2)
  obtain ⟨o, o', ho, ho', hi⟩ := hiff 0 hpos
  have e' := hall 1 o' ho'
  have hg : GapsBelow (1 / 10000) o'.st := by
    rw [e', ← checkFeasibility_iff hnz, check_scS _ _ _ _ one_ne_zero]
    norm_num
  obtain ⟨h1, h2⟩ := (hi (by rw [e']; exact hnz)).1 ⟨hg, .inr (by rw [e', lossValue_scS]; norm_num)⟩
  refine ⟨out, d, hout, hst, hz, hd, h1.symm, h2, ?_⟩
  obtain ⟨s, -, hs1, hdiag⟩ := fit_ok hout
  rw [hd, if_pos (show a.returnErrors = true from rfl)] at hdiag
  obtain rfl := Option.some.inj hdiag
  have hc : checkFeasibility (feasibilityGaps s.st.F s.st.auxA s.st.auxB s.st.auxC) (1 / 10000) = true := by
    rw [← hs1, hst, check_scS _ _ _ _ one_ne_zero]
    norm_num
  simp only [diagnostics]
  rw [if_pos (truthy_iff.2 ⟨_, htf⟩)]
  exact congrArg some hc

/-- One matrix, a non-negativity constraint on A, all tolerances set, diagnostics requested: the call stops after one iteration with nonzero factors
and reports that all conditions are satisfied. The hypotheses of C37, C38_partial (with `stopping = some true`), C39_partial and C41_partial hold. -/
theorem stops_example : ∃ (P : Problem 1 1 1 1 0 0 (fun _ => 1)) (a : Args) (init : AOState 1 1 1 1 0 0 fun _ => 1) (out : Output _) (d : Diagnostics),
    P.X ≠ 0 ∧ ValidSVD P.params ∧ 0 < P.params.nInner ∧ P.updA = true ∧ P.pensA 0 = StdPen.nonNeg.toA ∧ a.returnErrors = true ∧
    IsSet a.tol (1 / 100) ∧ a.absTol = some (1 / 10) ∧ IsSet a.feasTol (1 / 10000) ∧ cmfAoadmm P a init = .ok out ∧ NonzeroFactors out.st ∧
    out.diag = some d ∧ d.nIter = 1 ∧ d.stopping = some true ∧ d.feasible = some true := by
  obtain ⟨prm, hP, hN, -, hs⟩ := exists_params 1 1 none 1
  obtain ⟨out, d, h, -, hz, hd, hn, h1, h2⟩ := stops_explicit hP hN hs
  refine ⟨_, tolArgs, _, out, d, fun h => ?_, hP, by show 0 < prm.nInner; omega, rfl, rfl, rfl, ⟨rfl, by norm_num⟩, rfl, ⟨rfl, by norm_num⟩, h, hz, hd, hn, h1, h2⟩
  have := congrFun (congrFun (congrFun h 0) 0) 0
  simp [scP, scX, sc] at this

/-- The call of `stops_example`: A is within the tolerance of a non-negative matrix (C39_partial). -/
example : ∃ (P : Problem 1 1 1 1 0 0 (fun _ => 1)) (a : Args) (init : AOState 1 1 1 1 0 0 fun _ => 1) (out : Output _),
    cmfAoadmm P a init = .ok out ∧ ∃ Z : Matrix (Fin 1) (Fin 1) ℝ, (∀ i r, 0 ≤ Z i r) ∧ √(sqNorm (out.st.F.A - Z)) < 1 / 10000 * √(sqNorm out.st.F.A) := by
  obtain ⟨P, a, init, out, d, -, -, hN, hu, hp, -, -, -, htf, h, hz, hd, hn, -, hf⟩ := stops_example
  have hk : 0 < a.nIterMax := by
    by_contra hc
    obtain ⟨o, ho, -, hdiag⟩ := C43 P a (not_lt.1 hc) init
    have e : out = o := Except.ok.inj (h.symm.trans ho)
    subst e
    have hr : a.returnErrors = true := by
      obtain ⟨s, -, -, hs⟩ := fit_ok h
      by_contra hr
      rw [if_neg hr, hd] at hs
      cases hs
    obtain ⟨d', r, p, g, hd', h0, -⟩ := hdiag hr
    obtain rfl : d = d' := Option.some.inj (hd.symm.trans hd')
    omega
  refine ⟨P, a, init, out, h, ?_⟩
  obtain ⟨Z, hZ, hlt⟩ := (C39_partial P hN ⟨fun _ => hu, fun h => absurd h (by decide), fun h => absurd h (by decide)⟩
    (fun _ => HardPen.nonNeg.set 1 1) Fin.elim0 Fin.elim0 Fin.elim0
    (fun p => by rw [Subsingleton.elim p 0, hp]; exact HardPen.intoA .nonNeg trivial) (fun p => p.elim0) (fun p => p.elim0) a hk _ htf init
    (fun p => p.elim0) out h d hd hf hz).1 0
  exact ⟨Z, hZ, hlt⟩

/-- One matrix with norm 1, l2 penalty 1, no penalties, one iteration: the hypotheses of C29 and C30_partial hold, and the loss decreases strictly. -/
theorem decreases_example : ∃ (P : Problem 1 1 1 0 0 0 (fun _ => 1)) (a : Args) (init : AOState 1 1 1 0 0 0 fun _ => 1) (out : Output _),
    P.X ≠ 0 ∧ ValidSVD P.params ∧ 0 < P.params.nInner ∧ raggedSq P.X = 1 ∧ P.l2 = (1, 0, 0) ∧ a.returnErrors = true ∧ init.weights = none ∧
    (∀ t : ℕ, t < a.nIterMax → ∀ o, cmfAoadmm P (plain t) init = .ok o → Invertible P o.st) ∧ cmfAoadmm P a init = .ok out ∧
    ridgeObj P.X P.l2 out.st.F < ridgeObj P.X P.l2 init.F := by
  obtain ⟨prm, hP, hN, -, hs⟩ := exists_params 1 1 none 1
  obtain ⟨i, hsw⟩ := sweep_scP (n := 0) (x := 1) (l2 := 1) (pens := Fin.elim0) (u := Fin.elim0) (v := Fin.elim0) hP hN hs zero_le_one
    (fun p => p.elim0) (fun p => p.elim0) 0 Fin.elim0 Fin.elim0
  have hX : (scP prm 1 1 (n := 0) Fin.elim0).X ≠ 0 := fun h => by
    have := congrFun (congrFun (congrFun h 0) 0) 0
    simp [scP, scX, sc] at this
  obtain ⟨out, hout, hst⟩ := fit_exists (scP prm 1 1 (n := 0) Fin.elim0) ⟨1, none, none, none, true, 0⟩ rfl (scS 0 Fin.elim0 Fin.elim0) _
    (sweeps_one hsw)
  refine ⟨_, _, _, out, hX, hP, by show 0 < prm.nInner; omega, by simp [scP, raggedSq_sc], rfl, rfl, rfl, ?_, hout, ?_⟩
  · intro t _ o _
    exact invertible_of_l2 _ (fun _ => zero_lt_one) (by simp [scP]) (by simp [scP]) _
  · rw [hst]
    simp only [ridgeObj, scP, scS, sse_sc]
    simp only [scY, scF, sqNorm_sc]
    norm_num

/-- The call of `stops_example` with `verbose=True` (C75, C76): three things are printed, the last one is "converged in 0 iterations" after one iteration. -/
theorem prints_example : ∃ (P : Problem 1 1 1 1 0 0 (fun _ => 1)) (a : Args) (init : AOState 1 1 1 1 0 0 fun _ => 1) (out : Output _) (d : Diagnostics),
    P.X ≠ 0 ∧ a.verbose = 1 ∧ cmfAoadmm P a init = .ok out ∧ out.diag = some d ∧ d.nIter = 1 ∧
    ∃ r p q g, out.log = [.initial (stateGaps init), .computed 0 r p q g, .converged 0 d.message] := by
  obtain ⟨P, a, init, out, d, hX, -, -, -, -, hr, -, -, -, h, -, hd, hn, hstop, -⟩ := stops_example
  have hv := C40_verbose P a 1 init
  rw [h] at hv
  cases h' : cmfAoadmm P { a with verbose := 1 } init with
  | error e => rw [h'] at hv; cases hv
  | ok o =>
    rw [h'] at hv
    simp only [Except.map, Except.ok.injEq, Prod.mk.injEq] at hv
    have hd' : o.diag = some d := by rw [← hv.2, hd]
    obtain ⟨n, lines, last, -, h1, h2, h3, -, h5, h6⟩ := C75 P hX _ init o h'
    obtain rfl : n = 1 := by rw [← h1 d hd', hn]
    have hl : lines.length = 1 := by simpa using congrArg List.length h3
    obtain ⟨x, rfl⟩ := List.length_eq_one_iff.mp hl
    obtain ⟨it, r, p, q, g, rfl, -⟩ := h5 d hd' x (List.mem_singleton.mpr rfl)
    have hit : it = 0 := by simpa [Log.iter] using h3
    subst hit
    refine ⟨P, _, init, o, d, hX, rfl, h', hd', hn, r, p, q, g, ?_⟩
    rcases h6 with ⟨-, -, h6⟩ | ⟨m, h6, -, -, h7⟩
    · exact absurd hstop (h6 d hd').2
    · rw [h2, h6, (h7 d hd').1]
      simp

end Verif.Props
