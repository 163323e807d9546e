import Verif.Props.WholeBound
import Verif.Props.LoopLowRank

/-!
# C136 for a whole call
-/

namespace Verif.Props

open Verif.Whole Verif.Loop Verif.ADMM Verif.Penalties Verif.Parse Verif.Spec Finset Matrix

variable {I K R : ℕ} {J : Fin I → ℕ}

/-- C136 for a call `cmf_aoadmm(matrices, rank, init="svd", ...)` that asks for no penalties, if the SVD function returns the leading right singular vectors of the stacked matrices: it
stops after at most two iterations and returns the truncated SVD. -/
theorem C136_call (W : World I K R J) (hW : GoodWorld W) (c : Call I K R J) (h h' : Heap String) (res : Result I K R J) (hregs : c.regs = none)
    (hf : AllForms c.args fun _ => noMode) {l2 : Fin 3 → Leaf} (hl2 : Forms c.l2 l2) (hz : ∀ m, (l2 m).real = 0) (hX : c.X ≠ 0) (hN : 0 < c.nInner) (hi : c.init = .svd)
    (hu : c.updB = true) {U : Matrix (Fin K) (Fin K) ℝ} {lam : Fin K → ℝ} (hs : Spectral (gram c.X) U lam) (hR : R ≤ K) (hV : W.init.rightT = lead U hR)
    (pC : c.updC = true → ∀ r, 0 < lam (Fin.castLE hR r)) (pA : c.updA = true → ∀ i r, ∃ j, (c.X i * lead U hR) j r ≠ 0)
    (tol abs ft : ℝ) (h0 : 0 < tol) (h1 : 0 < abs) (h3 : ft ≠ 0) (ht : c.loop.tol = some tol) (hab : c.loop.absTol = some abs)
    (hft : c.loop.feasTol = some ft) (hr : c.loop.returnErrors = true) (hm : 2 ≤ c.loop.nIterMax) (e : call W c h = (h', .ok res)) :
    res.out.st.weights = none ∧ res.out.st.F = svdFit c.X U hR ∧ ∃ d, res.out.diag = some d ∧ d.stopping = some true ∧ d.nIter ≤ 2 ∧
      ∀ t, 1 ≤ t → t ≤ d.nIter → d.recErrors[t]? = some (.fin √(rest lam R / ∑ k, lam k)) := by
  obtain ⟨S, out, hout, rfl⟩ := call_free hregs hf hl2 (start := ⟨none, fun _ _ => 1, W.init.left, W.init.rightT⟩) (by rw [hi]; rfl) e
  have hl : (S.problem ((l2 0).real, (l2 1).real, (l2 2).real)).l2 = (0, 0, 0) := by
    show ((l2 0).real, (l2 1).real, (l2 2).real) = _
    rw [hz, hz, hz]
  exact C136_stops (S.problem ((l2 0).real, (l2 1).real, (l2 2).real)) hX (hW.svd R) hN hl hu hs hR pC pA (S.state ⟨none, fun _ _ => 1, W.init.left, W.init.rightT⟩) rfl hV c.loop tol abs ft ht hab ⟨hft, h3⟩ h0 h1 hr hm out hout

/-! ### A call that meets the hypotheses -/

/-- The world of `exWorldTV` with 1 as the singular vector. -/
noncomputable def exWorldSvd : World 1 1 1 (fun _ => 1) := { exWorldTV with init := { exWorldTV.init with rightT := sc 1 } }

/-- `cmf_aoadmm([[[3]]], 1, init="svd", return_errors=True)`. -/
noncomputable def exCallSvd : Call 1 1 1 (fun _ => 1) := { exCall4 with X := scX 3, init := .svd, l2 := .one .none, loop := ⟨1000, some (1 / 10 ^ 8), some (1 / 10 ^ 10), some (1 / 10 ^ 4), true, 0⟩ }

theorem scX_spectral : Spectral (gram (scX 3)) (1 : Matrix (Fin 1) (Fin 1) ℝ) fun _ => 9 := by
  refine ⟨by simp, ?_, fun _ _ _ => le_rfl⟩
  ext i j
  fin_cases i; fin_cases j
  simp [gram, scX, sc, Matrix.mul_apply]
  norm_num

theorem C136_call_example : ∃ h' res d, call exWorldSvd exCallSvd [] = (h', .ok res) ∧ res.out.diag = some d ∧ d.stopping = some true ∧ d.nIter ≤ 2 ∧
    res.out.st.F.A 0 0 = 1 ∧ res.out.st.F.B 0 0 0 = 3 ∧ res.out.st.F.C 0 0 = 1 := by
  obtain ⟨h', res, e⟩ : ∃ h' res, call exWorldSvd exCallSvd [] = (h', .ok res) := by
    refine C67 exWorldSvd exCallSvd [] one_pos rfl (by rfl) (by intro e; cases e) (.inl rfl) (.inl rfl) (fun _ => .none) (.one _) (fun _ => noMode) exForms4
      (fun m => ⟨noMode_scalar, ?_, ?_, ?_, ?_, ?_⟩) ?_ ?_ ?_ (.inr (.inl rfl)) ?_ fun _ => rfl
    all_goals simp [noMode, MatrixWise, Leaf.real]
  have hl : lead (1 : Matrix (Fin 1) (Fin 1) ℝ) le_rfl = sc 1 := by
    ext i j
    fin_cases i; fin_cases j
    simp [lead, sc]
  obtain ⟨-, hF, d, h1, h2, h3, -⟩ := C136_call exWorldSvd ⟨exWorldTV_good.svd, exWorldTV_good.tv⟩ exCallSvd [] h' res rfl exForms4 (l2 := fun _ => .none) (.one _) (fun _ => rfl)
    (fun hz => by have := congrFun (congrFun (congrFun hz 0) 0) 0; simp [exCallSvd, scX, sc] at this) two_pos rfl rfl scX_spectral le_rfl hl.symm (fun _ _ => by norm_num)
    (fun _ i r => ⟨0, by rw [hl]; simp [exCallSvd, scX, sc, Matrix.mul_apply]⟩) (1 / 10 ^ 8) (1 / 10 ^ 10) (1 / 10 ^ 4) (by norm_num) (by norm_num) (by norm_num) rfl rfl rfl rfl (by norm_num [exCallSvd]) e
  refine ⟨h', res, d, e, h1, h2, h3, ?_⟩
  rw [hF]
  refine ⟨rfl, ?_, ?_⟩
  · simp [svdFit, hl, exCallSvd, scX, sc, Matrix.mul_apply]
  · simp [svdFit, hl, sc]

end Verif.Props
