import Verif.Props.WholeSolve
import Verif.Props.LoopStops

/-!
# C83 for a whole call: the stopping conditions of a call that updates one factor are eventually satisfied
-/

namespace Verif.Props

open Verif.Whole Verif.Loop Verif.ADMM Verif.Penalties Verif.Parse Verif.Spec Finset Matrix Filter Topology

variable {I K R nA nB nC : ℕ} {J : Fin I → ℕ}

theorem no_regs {u : Bool} {l : List (Pen String)} (hu : u = false) : (dropRegs u l).length = 0 := by subst hu; rfl

theorem kept (P : Problem I K R nA nB nC J) (init : AOState I K R nA nB nC J) (outs : ℕ → Output (AOState I K R nA nB nC J))
    (h : ∀ n : ℕ, cmfAoadmm P (plain n) init = .ok (outs n)) : (P.updA = false → ∀ n, (outs n).st.F.A = init.F.A) ∧
      (P.updB = false → ∀ n, (outs n).st.F.B = init.F.B) ∧ (P.updC = false → ∀ n, (outs n).st.F.C = init.F.C) := by
  obtain ⟨h0, hs⟩ := outs_succ h
  refine ⟨fun hu n => ?_, fun hu n => ?_, fun hu n => ?_⟩ <;> induction n with
  | zero => rw [h0]
  | succ n ih =>
    obtain ⟨i, hi⟩ := hs n
    obtain ⟨f1, f2, f3⟩ := sweep_frame hi
    first | rw [f1 hu, ih] | rw [f2 hu, ih] | rw [f3 hu, ih]

/-- C83 for calls as in `C82_C` whose solution is not zero. -/
theorem C83_C (W : World I K R J) (hW : GoodWorld W) (c : Call I K R J) (h : Heap String) (hregs : c.regs = none) {f : Fin 3 → ModeArgs} (hf : AllForms c.args f)
    {l2 : Fin 3 → Leaf} (hl2 : Forms c.l2 l2) (hc : AsksConvex (f 2) K) (hA : c.updA = false) (hB : c.updB = false) (hC : c.updC = true) (hN : 0 < c.nInner)
    (hl : 0 ≤ (l2 2).real) (hK : 0 < K) (hR : 0 < R) {start : Start I K R J} (hstart : initializeCmf W.init c.init = .ok start)
    (hw : 0 < weightC c.scale start.F) (hsol : SolvableC start.F (l2 2).real) (hin : ∃ x0, InsideMat (Requested (f 2) K R) x0)
    (h' : ℕ → Heap String) (res : ℕ → Result I K R J) (e : ∀ n : ℕ, call W { c with loop := plain n } h = (h' n, .ok (res n)))
    (hX : c.X ≠ 0) (hnz : ¬ OnlyMin (Requested (f 2) K R) (fun Z => 1 / 2 * sse c.X ⟨start.F.A, start.F.B, Z⟩ + (l2 2).real / 2 * sqNorm Z + modeTerm (f 2) Z) 0)
    (tol abs ft : ℝ) (h1 : 0 < tol) (h2 : 0 < abs) (h3 : 0 < ft) :
    ∃ N : ℕ, ∀ a h'' r, a.tol = some tol → a.absTol = some abs → a.feasTol = some ft → a.returnErrors = true → (N : ℤ) ≤ a.nIterMax →
      call W { c with loop := a } h = (h'', .ok r) → ∃ d, r.out.diag = some d ∧ d.stopping = some true ∧ d.nIter ≤ N := by
  obtain ⟨l₀, l₁, l₂, S, outs, xs, ho, -, gen, hmin, hlim, haux, hcont⟩ :=
    solved_C W hW c h hregs hf hl2 hc hA hB hC hN hl hK hR hstart hw hsol hin h' res e
  obtain ⟨kA, kB, kC⟩ := kept _ _ outs ho
  obtain ⟨N, hN'⟩ := C83 _ hX ⟨fun p => (Fin.cast (no_regs hA) p).elim0, fun p => (Fin.cast (no_regs hB) p).elim0, hcont⟩ _ outs ho ⟨start.F.A, start.F.B, xs⟩
    ⟨fun i r => by simp only [kA hA]; exact tendsto_const_nhds, fun i j r => by simp only [kB hB]; exact tendsto_const_nhds, hlim,
      fun p => (Fin.cast (no_regs hA) p).elim0, fun p => (Fin.cast (no_regs hB) p).elim0, haux⟩ (fun hp => absurd (no_regs hA) hp.ne') (fun hp => absurd (no_regs hB) hp.ne') (fun _ h0 => hnz (h0 ▸ hmin)) tol abs ft h1 h2 h3
  refine ⟨N, fun a h'' r ht hab hft hr hN hcall => ?_⟩
  obtain ⟨out, hout, rfl⟩ := gen a h'' r hcall
  exact hN' a out ht hab hft hr hN hout

/-- C83 for calls as in `C82_A` whose solution is not zero. -/
theorem C83_A (W : World I K R J) (hW : GoodWorld W) (c : Call I K R J) (h : Heap String) (hregs : c.regs = none) {f : Fin 3 → ModeArgs} (hf : AllForms c.args f)
    {l2 : Fin 3 → Leaf} (hl2 : Forms c.l2 l2) (hc : AsksConvex (f 0) I) (hA : c.updA = true) (hB : c.updB = false) (hC : c.updC = false) (hN : 0 < c.nInner)
    (hl : 0 ≤ (l2 0).real) (hI : 0 < I) (hR : 0 < R) {start : Start I K R J} (hstart : initializeCmf W.init c.init = .ok start)
    (hw : ∀ i, 0 < weightA c.scale start.F i) (hsol : SolvableA start.F (l2 0).real) (hin : ∃ x0, InsideMat (Requested (f 0) I R) x0)
    (h' : ℕ → Heap String) (res : ℕ → Result I K R J) (e : ∀ n : ℕ, call W { c with loop := plain n } h = (h' n, .ok (res n)))
    (hX : c.X ≠ 0) (hnz : ¬ OnlyMin (Requested (f 0) I R) (fun Z => 1 / 2 * sse c.X ⟨Z, start.F.B, start.F.C⟩ + (l2 0).real / 2 * sqNorm Z + modeTerm (f 0) Z) 0)
    (tol abs ft : ℝ) (h1 : 0 < tol) (h2 : 0 < abs) (h3 : 0 < ft) :
    ∃ N : ℕ, ∀ a h'' r, a.tol = some tol → a.absTol = some abs → a.feasTol = some ft → a.returnErrors = true → (N : ℤ) ≤ a.nIterMax →
      call W { c with loop := a } h = (h'', .ok r) → ∃ d, r.out.diag = some d ∧ d.stopping = some true ∧ d.nIter ≤ N := by
  obtain ⟨l₀, l₁, l₂, S, outs, xs, ho, -, gen, hmin, hlim, haux, hcont⟩ :=
    solved_A W hW c h hregs hf hl2 hc hA hB hC hN hl hI hR hstart hw hsol hin h' res e
  obtain ⟨kA, kB, kC⟩ := kept _ _ outs ho
  obtain ⟨N, hN'⟩ := C83 _ hX ⟨hcont, fun p => (Fin.cast (no_regs hB) p).elim0, fun p => (Fin.cast (no_regs hC) p).elim0⟩ _ outs ho ⟨xs, start.F.B, start.F.C⟩
    ⟨hlim, fun i j r => by simp only [kB hB]; exact tendsto_const_nhds, fun k r => by simp only [kC hC]; exact tendsto_const_nhds,
      haux, fun p => (Fin.cast (no_regs hB) p).elim0, fun p => (Fin.cast (no_regs hC) p).elim0⟩ (fun _ h0 => hnz (h0 ▸ hmin)) (fun hp => absurd (no_regs hB) hp.ne') (fun hp => absurd (no_regs hC) hp.ne') tol abs ft h1 h2 h3
  refine ⟨N, fun a h'' r ht hab hft hr hN hcall => ?_⟩
  obtain ⟨out, hout, rfl⟩ := gen a h'' r hcall
  exact hN' a out ht hab hft hr hN hout

/-- C83 for calls as in `C82_B` whose solution is not zero. -/
theorem C83_B (W : World I K R J) (hW : GoodWorld W) (c : Call I K R J) (h : Heap String) (hregs : c.regs = none) {f : Fin 3 → ModeArgs} (hf : AllForms c.args f)
    {l2 : Fin 3 → Leaf} (hl2 : Forms c.l2 l2) (hc : ∀ i, AsksConvex (f 1) (J i)) (hA : c.updA = false) (hB : c.updB = true) (hC : c.updC = false) (hN : 0 < c.nInner)
    (hl : 0 ≤ (l2 1).real) (hI : 0 < I) (hJ : ∀ i, 0 < J i) (hR : 0 < R) {start : Start I K R J} (hstart : initializeCmf W.init c.init = .ok start)
    (hw : ∀ i, 0 < weightB c.scale start.F i) (hsol : SolvableB start.F (l2 1).real) (hin : ∃ x0, InsideRag {Z | ∀ i, Z i ∈ Requested (f 1) (J i) R} x0)
    (h' : ℕ → Heap String) (res : ℕ → Result I K R J) (e : ∀ n : ℕ, call W { c with loop := plain n } h = (h' n, .ok (res n)))
    (hX : c.X ≠ 0) (hnz : ¬ OnlyMin {Z : Ragged I R J | ∀ i, Z i ∈ Requested (f 1) (J i) R}
        (fun Z => 1 / 2 * sse c.X ⟨start.F.A, Z, start.F.C⟩ + (l2 1).real / 2 * ∑ i, sqNorm (Z i) + ∑ i, modeTerm (f 1) (Z i)) 0)
    (tol abs ft : ℝ) (h1 : 0 < tol) (h2 : 0 < abs) (h3 : 0 < ft) :
    ∃ N : ℕ, ∀ a h'' r, a.tol = some tol → a.absTol = some abs → a.feasTol = some ft → a.returnErrors = true → (N : ℤ) ≤ a.nIterMax →
      call W { c with loop := a } h = (h'', .ok r) → ∃ d, r.out.diag = some d ∧ d.stopping = some true ∧ d.nIter ≤ N := by
  obtain ⟨l₀, l₁, l₂, S, outs, xs, ho, -, gen, hmin, hlim, haux, hcont⟩ :=
    solved_B W hW c h hregs hf hl2 hc hA hB hC hN hl hI hJ hR hstart hw hsol hin h' res e
  obtain ⟨kA, kB, kC⟩ := kept _ _ outs ho
  obtain ⟨N, hN'⟩ := C83 _ hX ⟨fun p => (Fin.cast (no_regs hA) p).elim0, hcont, fun p => (Fin.cast (no_regs hC) p).elim0⟩ _ outs ho ⟨start.F.A, xs, start.F.C⟩
    ⟨fun i r => by simp only [kA hA]; exact tendsto_const_nhds, hlim, fun k r => by simp only [kC hC]; exact tendsto_const_nhds,
      fun p => (Fin.cast (no_regs hA) p).elim0, haux, fun p => (Fin.cast (no_regs hC) p).elim0⟩ (fun hp => absurd (no_regs hA) hp.ne') (fun _ h0 => hnz (h0 ▸ hmin)) (fun hp => absurd (no_regs hC) hp.ne') tol abs ft h1 h2 h3
  refine ⟨N, fun a h'' r ht hab hft hr hN hcall => ?_⟩
  obtain ⟨out, hout, rfl⟩ := gen a h'' r hcall
  exact hN' a out ht hab hft hr hN hout

/-! ### A call that meets the hypotheses -/

theorem exReturns3' (a : Args) (ha : a.absTol.isSome) (h : Heap String) : ∃ h' res, call exWorldTV { exCall3 with loop := a } h = (h', .ok res) := by
  refine C67 exWorldTV { exCall3 with loop := a } h one_pos rfl (by rfl) (by intro e; cases e) (.inl rfl) (.inl rfl) (fun _ => .none) (.one _) exModes3 exForms3
    (fun m => ⟨exScalar3 m, ?_, ?_, ?_, ?_, ?_⟩) ?_ ?_ ?_ (.inr (.inl rfl)) ?_ fun _ => ha
  all_goals first | (fin_cases m <;> simp [exModes3, noMode, Leaf.real]) | simp [exModes3, noMode, MatrixWise, Leaf.real, exCall3]

/-- C83 at work: with `tol=1e-8, absolute_tol=1e-10, feasibility_tol=1e-4` and enough iterations the call of `C82` returns and reports convergence. -/
example : ∃ N : ℕ, ∀ v : ℤ, ∀ m : ℤ, (N : ℤ) ≤ m → ∃ h' r d,
    call exWorldTV { exCall3 with loop := ⟨m, some (1 / 10 ^ 8), some (1 / 10 ^ 10), some (1 / 10 ^ 4), true, v⟩ } [] = (h', .ok r) ∧
      r.out.diag = some d ∧ d.stopping = some true ∧ d.nIter ≤ N := by
  choose h' res e using fun n => exReturns3 n []
  obtain ⟨N, hN⟩ := C83_C exWorldTV exWorldTV_good exCall3 [] rfl exForms3 (l2 := fun _ => .none) (.one _)
    ⟨exScalar3 2, by simp [exModes3, noMode], rfl, by simp [exModes3, noMode], by simp [exModes3, noMode]⟩ rfl rfl rfl two_pos le_rfl one_pos one_pos rfl
    (by simp [weightC, exCall3, scF, sc]) (fun v hv => by
      have : v 0 ≠ 0 := fun h0 => hv (funext fun i => by fin_cases i; exact h0)
      simp [scF, sc, Leaf.real]
      positivity)
    ⟨sc 1, 1, one_pos, fun Y hY => ⟨fun _ i r => by
      have := abs_lt.1 (hY i r)
      simp only [sc] at this
      linarith [this.1], by simp [exModes3, noMode], by simp [exModes3, noMode], by simp [exModes3, noMode], by simp [exModes3, noMode]⟩⟩ h' res e
    (fun h0 => by simpa [exCall3, scX, sc] using congrFun (congrFun (congrFun h0 0) 0) 0)
    (fun hmin => by
      have hs : ∀ x : ℝ, sse exCall3.X (⟨(scF 1 1 7).A, (scF 1 1 7).B, sc x⟩ : Factors 1 1 1 fun _ => 1) = (3 - x) ^ 2 := fun x => by
        refine (sse_sc 3 1 1 x).trans ?_
        norm_num
      have hm : ∀ x : ℝ, modeTerm (exModes3 2) (sc x) = |x| := fun x => by simp [modeTerm, exModes3, noMode, Leaf.real, absSum, sc, totalVar, genTerm]
      have h0 : (0 : Matrix (Fin 1) (Fin 1) ℝ) = sc 0 := by ext i r; fin_cases i; fin_cases r; rfl
      rw [h0] at hmin
      have := ((hmin (sc 0)).2 rfl).2 (sc 2)
        ⟨fun _ i r => by simp [sc], by simp [exModes3, noMode], by simp [exModes3, noMode], by simp [exModes3, noMode], by simp [exModes3, noMode]⟩
      simp only [hs, hm, Leaf.real] at this
      norm_num at this)
    (1 / 10 ^ 8) (1 / 10 ^ 10) (1 / 10 ^ 4) (by norm_num) (by norm_num) (by norm_num)
  refine ⟨N, fun v m hm => ?_⟩
  obtain ⟨h'', r, hc⟩ := exReturns3' ⟨m, some (1 / 10 ^ 8), some (1 / 10 ^ 10), some (1 / 10 ^ 4), true, v⟩ rfl []
  obtain ⟨d, hd, h1, h2⟩ := hN _ h'' r rfl rfl rfl rfl hm hc
  exact ⟨h'', r, d, hc, hd, h1, h2⟩

end Verif.Props
