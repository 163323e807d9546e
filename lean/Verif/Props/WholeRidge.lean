import Verif.Props.WholeBound
import Verif.Props.LoopRidge

/-!
# C88 for a whole call
-/

namespace Verif.Props

open Verif.Whole Verif.Loop Verif.ADMM Verif.Penalties Verif.Parse Verif.Spec Finset Matrix Filter Topology

variable {I K R : ℕ} {J : Fin I → ℕ}

/-- Calls that ask for no penalties and differ in the number of iterations run one loop without penalties. -/
theorem calls_free {W : World I K R J} {c : Call I K R J} {h : Heap String} (hregs : c.regs = none) (hf : AllForms c.args fun _ => noMode)
    {l2 : Fin 3 → Leaf} (hl2 : Forms c.l2 l2) {start : Start I K R J} (hstart : initializeCmf W.init c.init = .ok start)
    {h' : ℕ → Heap String} {res : ℕ → Result I K R J} (e : ∀ n : ℕ, call W { c with loop := plain n } h = (h' n, .ok (res n))) :
    ∃ (S : Setup W c [] [] []) (outs : ℕ → _), (∀ n : ℕ, cmfAoadmm (S.problem ((l2 0).real, (l2 1).real, (l2 2).real)) (plain n) (S.state start) = .ok (outs n)) ∧
      (∀ n, res n = ⟨_, _, _, outs n⟩) ∧
      ∀ (a : Args) (h'' : Heap String) (r : Result I K R J), call W { c with loop := a } h = (h'', .ok r) →
        ∃ out, cmfAoadmm (S.problem ((l2 0).real, (l2 1).real, (l2 2).real)) a (S.state start) = .ok out ∧ r = ⟨_, _, _, out⟩ := by
  obtain ⟨l₀, l₁, l₂, h0, h1, h2, hex⟩ := call_runs hregs hf hl2 hstart e
  rw [parse_noMode] at h0 h1 h2
  cases h0; cases h1; cases h2
  have hd : ∀ u : Bool, dropRegs u ([] : List (Pen String)) = [] := fun u => by cases u <;> rfl
  rw [hd, hd, hd] at hex
  exact hex

/-- C88 for calls without penalties and with a positive ridge on every updated factor, which return for every number of iterations. -/
theorem C88_call (W : World I K R J) (hW : GoodWorld W) (c : Call I K R J) (h : Heap String) (hregs : c.regs = none) (hf : AllForms c.args fun _ => noMode)
    {l2 : Fin 3 → Leaf} (hl2 : Forms c.l2 l2) (hA : c.updA = true → 0 < (l2 0).real) (hB : c.updB = true → 0 < (l2 1).real) (hC : c.updC = true → 0 < (l2 2).real)
    (hN : 0 < c.nInner) {start : Start I K R J} (hstart : initializeCmf W.init c.init = .ok start)
    (h' : ℕ → Heap String) (res : ℕ → Result I K R J) (e : ∀ n : ℕ, call W { c with loop := plain n } h = (h' n, .ok (res n)))
    (F : ℕ → Factors I K R J) (hF : ∀ n, F n = (res n).out.st.F) (l : ℝ × ℝ × ℝ) (hl : l = ((l2 0).real, (l2 1).real, (l2 2).real)) :
    (∀ n, l.1 * sqNorm (F n).A + l.2.1 * raggedSq (F n).B + l.2.2 * sqNorm (F n).C ≤ 2 * ridgeObj c.X l start.F) ∧
    (∀ n, ∑ k ∈ range n, moved l (F k) (F (k + 1)) ≤ 2 * (ridgeObj c.X l start.F - ridgeObj c.X l (F n))) ∧
    (∃ (G : Factors I K R J) (φ : ℕ → ℕ), StrictMono φ ∧ FactorsTo (fun n => F (φ n)) G) ∧
    ∀ (G : Factors I K R J) (φ : ℕ → ℕ), StrictMono φ → FactorsTo (fun n => F (φ n)) G →
      BlockOptimal c.X l c.updA c.updB c.updC G ∧ Tendsto (fun n => ridgeObj c.X l (F n)) atTop (𝓝 (ridgeObj c.X l G)) ∧
      (c.updA = true → c.updB = true → c.updC = true → IsStationary c.X l G) := by
  obtain ⟨S, outs, ho, hr, -⟩ := calls_free hregs hf hl2 hstart e
  subst hl
  obtain rfl : F = fun n => (outs n).st.F := funext fun n => by rw [hF, hr n]
  obtain ⟨r1, r2, r3, r4⟩ := C88 (S.problem ((l2 0).real, (l2 1).real, (l2 2).real)) ⟨hA, hB, hC⟩ (hW.svd R) hN (S.state start) outs ho
  refine ⟨r1, r2, r3, fun G φ hφ hG => ⟨(r4 G φ hφ hG).1, (r4 G φ hφ hG).2, fun a b d => ?_⟩⟩
  exact C88_stationary (S.problem ((l2 0).real, (l2 1).real, (l2 2).real)) a b d ⟨hA a, hB b, hC d⟩ (hW.svd R) hN (S.state start) outs ho G φ hφ hG

/-- C83 for calls without penalties and with a positive ridge on every updated factor: for all positive tolerances there is a number `N` such that every call with these tolerances,
diagnostics and `n_iter_max` of at least `N` that returns reports that the stopping conditions are satisfied, after at most `N` iterations. -/
theorem C83_ridge_call (W : World I K R J) (hW : GoodWorld W) (c : Call I K R J) (h : Heap String) (hregs : c.regs = none) (hf : AllForms c.args fun _ => noMode)
    {l2 : Fin 3 → Leaf} (hl2 : Forms c.l2 l2) (hA : c.updA = true → 0 < (l2 0).real) (hB : c.updB = true → 0 < (l2 1).real) (hC : c.updC = true → 0 < (l2 2).real)
    (hN : 0 < c.nInner) (hX : c.X ≠ 0) {start : Start I K R J} (hstart : initializeCmf W.init c.init = .ok start)
    (h' : ℕ → Heap String) (res : ℕ → Result I K R J) (e : ∀ n : ℕ, call W { c with loop := plain n } h = (h' n, .ok (res n)))
    (tol abs ft : ℝ) (h1 : 0 < tol) (h2 : 0 < abs) (h3 : ft ≠ 0) :
    ∃ N : ℕ, ∀ (a : Args) (h'' : Heap String) (r : Result I K R J), a.tol = some tol → a.absTol = some abs → a.feasTol = some ft → a.returnErrors = true →
      (N : ℤ) ≤ a.nIterMax → call W { c with loop := a } h = (h'', .ok r) → ∃ d, r.out.diag = some d ∧ d.stopping = some true ∧ d.nIter ≤ N := by
  obtain ⟨S, outs, ho, -, gen⟩ := calls_free hregs hf hl2 hstart e
  obtain ⟨N, hN'⟩ := C83_ridge (S.problem ((l2 0).real, (l2 1).real, (l2 2).real)) hX ⟨hA, hB, hC⟩ (hW.svd R) hN (S.state start) outs ho tol abs ft h1 h2 h3
  refine ⟨N, fun a h'' r ht hab hft hr hmax hcall => ?_⟩
  obtain ⟨out, hout, rfl⟩ := gen a h'' r hcall
  exact hN' a out ht hab hft hr hmax hout

/-! ### A call that meets the hypotheses -/

/-- C88 at work: the calls of the example of C84 with `n` iterations return, and some subsequence of the results tends to a stationary point of
`(1 - a b c)² / 2 + (a² + b² + c²) / 2`. -/
example : ∃ (h' : ℕ → Heap String) (res : ℕ → Result 1 1 1 fun _ => 1), (∀ n : ℕ, call exWorldTV { exCall4 with loop := plain n } [] = (h' n, .ok (res n))) ∧
    ∃ (G : Factors 1 1 1 fun _ => 1) (φ : ℕ → ℕ), StrictMono φ ∧ FactorsTo (fun n => (res (φ n)).out.st.F) G ∧ IsStationary (scX 1) (1, 1, 1) G := by
  have hret : ∀ n : ℕ, ∃ h' res, call exWorldTV { exCall4 with loop := plain n } [] = (h', .ok res) := fun n => by
    refine C67 exWorldTV { exCall4 with loop := plain n } [] one_pos rfl (by rfl) (by intro e; cases e) (.inl rfl) (.inl rfl) (fun _ => .num 1) (.one _) (fun _ => noMode) exForms4
      (fun m => ⟨noMode_scalar, ?_, ?_, ?_, ?_, ?_⟩) ?_ ?_ ?_ (.inr (.inl rfl)) ?_ ?_
    all_goals simp [noMode, MatrixWise, Leaf.real, plain, truthy, exCall4]
  choose h' res e using hret
  obtain ⟨-, -, ⟨G, φ, hφ, hG⟩, r⟩ := C88_call exWorldTV exWorldTV_good exCall4 [] rfl exForms4 (l2 := fun _ => .num 1) (.one _) (fun _ => one_pos) (fun _ => one_pos)
    (fun _ => one_pos) two_pos rfl h' res e _ (fun _ => rfl) (1, 1, 1) rfl
  exact ⟨h', res, e, G, φ, hφ, hG, (r G φ hφ hG).2.2 rfl rfl rfl⟩

end Verif.Props
