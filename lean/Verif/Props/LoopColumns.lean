import Verif.Props.LoopLocal

/-!
# C135: with fixed A and B, the columns of the data are fitted independently of each other
-/

set_option linter.unusedSectionVars false

namespace Verif.Props

open Verif.Loop Verif.ADMM Verif.Penalties Verif.Spec Finset Matrix

variable {I K K' R nA nB nC : ℕ} {J : Fin I → ℕ}

/-- The columns `e 0, e 1, …` of all matrices. -/
def colX (e : Fin K' → Fin K) (X : Ragged I K J) : Ragged I K' J := fun i => (X i).submatrix id e

/-- The factors for these columns. -/
def colF (e : Fin K' → Fin K) (F : Factors I K R J) : Factors I K' R J := ⟨F.A, F.B, fun k => F.C (e k)⟩

/-- All variables for these columns. -/
def colS (e : Fin K' → Fin K) (s : AOState I K R nA nB nC J) : AOState I K' R nA nB nC J where
  weights := s.weights
  F := colF e s.F
  auxA := s.auxA
  dualA := s.dualA
  auxB := s.auxB
  dualB := s.dualB
  auxC := fun p k => s.auxC p (e k)
  dualC := fun p k => s.dualC p (e k)

/-- The problem for these columns, with the penalties for them. -/
def colP (e : Fin K' → Fin K) (P : Problem I K R nA nB nC J) (pensC : Fin nC → PenC K' R) : Problem I K' R nA nB nC J where
  X := colX e P.X
  pensA := P.pensA
  pensB := P.pensB
  pensC := pensC
  l2 := P.l2
  params := P.params
  constA := P.constA
  constB := P.constB
  updA := P.updA
  updB := P.updB
  updC := P.updC

/-- `q` treats the selected rows as `p` treats them among the others. -/
def LocalC (e : Fin K' → Fin K) (p : PenC K R) (q : PenC K' R) : Prop :=
  ∀ (X : Matrix (Fin K) (Fin R) ℝ) (ρ : ℝ) (aux : Matrix (Fin K) (Fin R) ℝ), q.mat (X.submatrix e id) ρ (aux.submatrix e id) = (p.mat X ρ aux).submatrix e id

theorem rhsC_col (e : Fin K' → Fin K) (X : Ragged I K J) (F : Factors I K R J) : rhsC (colX e X) (colF e F) = (rhsC X F).submatrix e id := by
  ext k r
  simp only [rhsC, Matrix.sum_apply, Matrix.submatrix_apply, id_eq]
  rfl

theorem admmUpdateC_col (e : Fin K' → Fin K) {n : ℕ} (prm : Params R) (ht : NoInnerTol prm.innerTol) (X : Ragged I K J) (pens : Fin n → PenC K R)
    (pens' : Fin n → PenC K' R) (l2 : ℝ) (hp : ∀ p, LocalC e (pens p) (pens' p)) (F : Factors I K R J) (aux dual : Fin n → Matrix (Fin K) (Fin R) ℝ) :
    admmUpdateC prm (colX e X) pens' l2 (colF e F) (fun p k => aux p (e k)) (fun p k => dual p (e k)) = selM e (admmUpdateC prm X pens l2 F aux dual) := by
  unfold admmUpdateC
  refine innerLoop_map (f := selM e) (s := ⟨F.C, aux, dual⟩) (fun s => ?_) (fun s s' => by rw [matStop, matStop, innerConverged_off ht, innerConverged_off ht]) _
  have hc : crossC (colF e F) = crossC F := rfl
  rw [hc, rhsC_col]
  set ρ := feasPenalty prm.scale (crossC F)
  set t := stepC pens ρ (prm.svd (addRidge (crossC F) ρ n l2)) (rhsC X F) s
  set t' := stepC pens' ρ (prm.svd (addRidge (crossC F) ρ n l2)) ((rhsC X F).submatrix e id) (selM e s)
  have hx : t'.x = fun k => t.x (e k) := by
    have : ρ • (∑ p, ((selM e s).aux p - (selM e s).dual p)) + (rhsC X F).submatrix e id = (ρ • (∑ p, (s.aux p - s.dual p)) + rhsC X F).submatrix e id := by
      ext k r
      simp only [Matrix.add_apply, Matrix.smul_apply, Matrix.sum_apply, Matrix.submatrix_apply, id_eq]
      rfl
    show svdSolve _ _ = _
    rw [this]
    rfl
  have haux : ∀ p, t'.aux p = fun k => t.aux p (e k) := by
    intro p
    show (pens' p).mat (t'.x + (selM e s).dual p) ρ ((selM e s).aux p) = _
    rw [hx]
    exact hp p (t.x + s.dual p) ρ (s.aux p)
  have hdual : ∀ p, t'.dual p = fun k => t.dual p (e k) := by
    intro p
    show t'.x - (t'.aux p - (selM e s).dual p) = _
    rw [haux p, hx]
    rfl
  exact matState_ext hx (funext haux) (funext hdual)

theorem sweep_col (e : Fin K' → Fin K) (P : Problem I K R nA nB nC J) (hA : P.updA = false) (hB : P.updB = false) (ht : NoInnerTol P.params.innerTol)
    (pensC : Fin nC → PenC K' R) (hp : ∀ p, LocalC e (P.pensC p) (pensC p)) (s : AOState I K R nA nB nC J) :
    sweep P s = .ok (sweepC P s, none) ∧ sweep (colP e P pensC) (colS e s) = .ok (colS e (sweepC P s), none) := by
  have hA' : (colP e P pensC).updA = false := hA
  have hB' : (colP e P pensC).updB = false := hB
  have key : sweepC (colP e P pensC) (colS e s) = colS e (sweepC P s) := by
    unfold sweepC
    rw [show (colP e P pensC).updC = P.updC from rfl]
    cases P.updC
    · rfl
    · rw [if_pos rfl, if_pos rfl]
      have h : admmUpdateC (colP e P pensC).params (colP e P pensC).X (colP e P pensC).pensC (colP e P pensC).l2.2.2 (colS e s).F (colS e s).auxC (colS e s).dualC =
          selM e (admmUpdateC P.params P.X P.pensC P.l2.2.2 s.F s.auxC s.dualC) := admmUpdateC_col e P.params ht P.X P.pensC pensC P.l2.2.2 hp s.F s.auxC s.dualC
      rw [h]
      rfl
  constructor
  · unfold sweep sweepB sweepA
    simp only [hA, hB, Bool.false_eq_true, if_false, Except.bind]
  · unfold sweep sweepB sweepA
    simp only [hA', hB', Bool.false_eq_true, if_false, Except.bind]
    rw [key]

theorem sweeps_col (e : Fin K' → Fin K) (P : Problem I K R nA nB nC J) (hA : P.updA = false) (hB : P.updB = false) (ht : NoInnerTol P.params.innerTol)
    (pensC : Fin nC → PenC K' R) (hp : ∀ p, LocalC e (P.pensC p) (pensC p)) (s : AOState I K R nA nB nC J) :
    ∀ n, ∃ t, sweeps (aoOps P) n s = .ok t ∧ sweeps (aoOps (colP e P pensC)) n (colS e s) = .ok (colS e t)
  | 0 => ⟨s, rfl, rfl⟩
  | n + 1 => by
    obtain ⟨t, h1, h2⟩ := sweeps_col e P hA hB ht pensC hp s n
    obtain ⟨h3, h4⟩ := sweep_col e P hA hB ht pensC hp t
    refine ⟨sweepC P t, ?_, ?_⟩
    · rw [sweeps, h1]; simp only [Except.bind, aoOps, h3, Except.map]
    · rw [sweeps, h2]; simp only [Except.bind, aoOps, h4, Except.map]

/-- C135: a call that only updates C, without tolerances, returns, for any choice of the columns of the data (in any order, also repeated), the variables that a call with only
these columns and their initial values returns. Neither call raises. -/
theorem C135 (e : Fin K' → Fin K) (P : Problem I K R nA nB nC J) (hA : P.updA = false) (hB : P.updB = false) (hi : NoInnerTol P.params.innerTol)
    (pensC : Fin nC → PenC K' R) (hp : ∀ p, LocalC e (P.pensC p) (pensC p)) (a : Args) (ht : a.tol = none ∨ a.tol = some 0) (init : AOState I K R nA nB nC J) :
    ∃ o o', cmfAoadmm P a init = .ok o ∧ cmfAoadmm (colP e P pensC) a (colS e init) = .ok o' ∧ o'.st = colS e o.st := by
  have ht' : truthy a.tol = false := by rcases ht with h | h <;> simp [h, truthy]
  obtain ⟨t, h1, h2⟩ := sweeps_col e P hA hB hi pensC hp init a.nIterMax.toNat
  obtain ⟨o, ho, hs⟩ := fit_exists P a ht' init t h1
  obtain ⟨o', ho', hs'⟩ := fit_exists (colP e P pensC) a ht' (colS e init) _ h2
  exact ⟨o, o', ho, ho', by rw [hs, hs']⟩

/-- Two problems that only differ in other columns of the data than `k`, from initial values that only differ there: row `k` of C is the same. -/
theorem C135_others (k : Fin K) (P Q : Problem I K R nA nB nC J) (hA : P.updA = false) (hB : P.updB = false) (hi : NoInnerTol P.params.innerTol) (h : Q = { P with X := Q.X })
    (hX : ∀ i j, Q.X i j k = P.X i j k) (hp : ∀ p, ∃ q, LocalC (fun _ : Fin 1 => k) (P.pensC p) q) (a : Args) (ht : a.tol = none ∨ a.tol = some 0)
    (init init' : AOState I K R nA nB nC J) (hs : colS (fun _ : Fin 1 => k) init' = colS (fun _ : Fin 1 => k) init) :
    ∃ o o', cmfAoadmm P a init = .ok o ∧ cmfAoadmm Q a init' = .ok o' ∧ o'.st.F.C k = o.st.F.C k := by
  choose q hq using hp
  have hpC : Q.pensC = P.pensC := by rw [h]
  obtain ⟨o, u, ho, hu, hou⟩ := C135 (fun _ : Fin 1 => k) P hA hB hi q hq a ht init
  obtain ⟨o', u', ho', hu', hou'⟩ := C135 (fun _ : Fin 1 => k) Q (by rw [h]; exact hA) (by rw [h]; exact hB) (by rw [h]; exact hi) q (fun p => by rw [hpC]; exact hq p) a ht init'
  have hsel : colP (fun _ : Fin 1 => k) Q q = colP (fun _ : Fin 1 => k) P q := by
    have : colX (fun _ : Fin 1 => k) Q.X = colX (fun _ : Fin 1 => k) P.X := by
      funext i j _
      exact hX i j
    rw [h]
    unfold colP
    simp only [this]
  rw [hsel, hs] at hu'
  have huu : u = u' := Except.ok.inj (hu.symm.trans hu')
  have he : colS (fun _ : Fin 1 => k) o'.st = colS (fun _ : Fin 1 => k) o.st := by rw [← hou, ← hou', huu]
  exact ⟨o, o', ho, ho', congrFun (congrArg (fun s => s.F.C) he) 0⟩

/-- C135 for the penalties of the package that act on every row: non-negativity, bounds, L1. -/
theorem C135_package (e : Fin K' → Fin K) (X : Ragged I K J) (pA : Fin nA → PenA I R) (pB : Fin nB → PenB I R J) (pC : Fin nC → PkgRow) (l2 : ℝ × ℝ × ℝ)
    (prm : Params R) (hin : prm.innerTol = none) (constA constB : Bool) (a : Args) (ht : a.tol = none) (init : AOState I K R nA nB nC J) :
    ∃ o o', cmfAoadmm ⟨X, pA, pB, fun p => ((pC p).std K R).toC, l2, prm, constA, constB, false, false, true⟩ a init = .ok o ∧
      cmfAoadmm ⟨colX e X, pA, pB, fun p => ((pC p).std K' R).toC, l2, prm, constA, constB, false, false, true⟩ a (colS e init) = .ok o' ∧ o'.st = colS e o.st := by
  refine C135 e ⟨X, pA, pB, fun p => ((pC p).std K R).toC, l2, prm, constA, constB, false, false, true⟩ rfl rfl (fun t h => (by rw [hin] at h; cases h)) _ (fun p => ?_) a (.inl ht) init
  intro Y ρ aux
  cases hq : pC p <;> simp only [hq] <;> rfl

/-- Three columns, of which the last one is fitted alone. -/
theorem C135_example (X : Ragged 2 3 ![2, 4]) (prm : Params 2) (hin : prm.innerTol = none) (init : AOState 2 3 2 0 0 1 ![2, 4]) :
    ∃ o o', cmfAoadmm ⟨X, Fin.elim0, Fin.elim0, fun _ => (StdPen.l1 1 true).toC, (0, 0, 0), prm, false, false, false, false, true⟩ ⟨100, none, none, none, false, 0⟩ init = .ok o ∧
      cmfAoadmm ⟨colX (fun _ : Fin 1 => 2) X, Fin.elim0, Fin.elim0, fun _ => (StdPen.l1 1 true).toC, (0, 0, 0), prm, false, false, false, false, true⟩
        ⟨100, none, none, none, false, 0⟩ (colS (fun _ => 2) init) = .ok o' ∧ o'.st.F.C 0 = o.st.F.C 2 := by
  obtain ⟨o, o', h1, h2, h3⟩ := C135_package (fun _ : Fin 1 => (2 : Fin 3)) X Fin.elim0 Fin.elim0 (fun _ : Fin 1 => .l1 1 true) (0, 0, 0) prm hin false false
    ⟨100, none, none, none, false, 0⟩ rfl init
  exact ⟨o, o', h1, h2, by rw [h3]; rfl⟩

/-! ### An L2 ball couples the rows -/

/-- One matrix with one row `x`, an L2 ball of radius 1 for C. -/
noncomputable def ballP (prm : Params 1) (x : Fin K → ℝ) : Problem 1 K 1 0 0 1 (fun _ => 1) :=
  ⟨fun _ => Matrix.of fun _ => x, Fin.elim0, Fin.elim0, fun _ => (StdPen.l2Ball 1 false).toC, (0, 0, 0), prm, false, false, false, false, true⟩

/-- The initial values: A and B are 1, everything else is 0. -/
def ballS (K : ℕ) : AOState 1 K 1 0 0 1 (fun _ => 1) := ⟨none, ⟨fun _ _ => 1, fun _ => sc 1, 0⟩, Fin.elim0, Fin.elim0, Fin.elim0, Fin.elim0, fun _ => 0, fun _ => 0⟩

theorem svdSolve_col {d : SVD 1 1 1} {G : Matrix (Fin 1) (Fin 1) ℝ} (hd : d.Valid G) (hG : G 0 0 ≠ 0) (r : Matrix (Fin K) (Fin 1) ℝ) (k : Fin K) :
    svdSolve d r k 0 = r k 0 / G 0 0 := by
  have h := congrFun (congrFun (svdSolve_one hd hG (r.submatrix (fun _ => k) id)) 0) 0
  exact h

theorem ballP_run {prm : Params 1} (hP : ValidSVD prm) (hN : prm.nInner = 1) (hs : prm.scale = 2) (x : Fin K → ℝ) : ∃ o,
    cmfAoadmm (ballP prm x) ⟨1, none, none, none, false, 0⟩ (ballS K) = .ok o ∧ ∀ k, o.st.auxC 0 k 0 = x k / 2 / max 1 (√(∑ k, (x k / 2) ^ 2)) := by
  have hc : crossC (ballS K).F = sc 1 := by
    funext i j
    simp [crossC, ballS, scaledB, sc, Matrix.mul_apply]
  have hρ : feasPenalty prm.scale (crossC (ballS K).F) = 1 := by
    rw [hc, hs]
    simp [feasPenalty, sc, Matrix.trace]
  have hg : addRidge (crossC (ballS K).F) 1 1 0 0 0 = 2 := by
    rw [hc]
    simp [addRidge, sc]
    norm_num
  have hw : sweeps (aoOps (ballP prm x)) 1 (ballS K) = .ok (sweepC (ballP prm x) (ballS K)) := by
    refine sweeps_one (i := none) ?_
    unfold sweep sweepB sweepA
    simp only [show (ballP prm x).updB = false from rfl, show (ballP prm x).updA = false from rfl, Bool.false_eq_true, if_false, Except.bind]
  obtain ⟨o, ho, hos⟩ := fit_exists (ballP prm x) ⟨1, none, none, none, false, 0⟩ rfl (ballS K) _ hw
  refine ⟨o, ho, fun k => ?_⟩
  rw [hos]
  have hx : ∀ k, svdSolve (prm.svd (addRidge (crossC (ballS K).F) 1 1 0))
      ((1 : ℝ) • (∑ p : Fin 1, ((ballS K).auxC p - (ballS K).dualC p)) + rhsC (ballP prm x).X (ballS K).F) k 0 = x k / 2 := by
    intro k
    rw [svdSolve_col (hP _) (by rw [hg]; norm_num), hg]
    congr 1
    simp [rhsC, ballS, ballP, scaledB, sc, Matrix.mul_apply]
  have e : (sweepC (ballP prm x) (ballS K)).auxC 0 k 0 = l2BallMat 1 false K 1 (svdSolve (prm.svd (addRidge (crossC (ballS K).F) 1 1 0))
      ((1 : ℝ) • (∑ p : Fin 1, ((ballS K).auxC p - (ballS K).dualC p)) + rhsC (ballP prm x).X (ballS K).F) + (ballS K).dualC 0) 1 ((ballS K).auxC 0) k 0 := by
    unfold sweepC admmUpdateC
    simp only [show (ballP prm x).updC = true from rfl, if_true, show (ballP prm x).params = prm from rfl, hN, innerLoop, ite_self, stepC, hρ]
    rfl
  rw [e]
  unfold l2BallMat
  simp only [show (ballS K).dualC 0 = 0 from rfl, add_zero, hx, Bool.false_eq_true, if_false, clip, mul_one]
  rw [max_comm]

/-- With an L2 ball, which bounds the columns of C, C135 is false: the fit of a column of the data depends on the others. -/
theorem C135_ball_false : ∃ (P : Problem 1 2 1 0 0 1 fun _ => 1) (init : AOState 1 2 1 0 0 1 fun _ => 1) (a : Args) (o : Output _) (o' : Output _), ValidSVD P.params ∧
    P.updA = false ∧ P.updB = false ∧ P.params.innerTol = none ∧ a.tol = none ∧ P.pensC = (fun _ => (StdPen.l2Ball 1 false).toC) ∧ cmfAoadmm P a init = .ok o ∧
    cmfAoadmm (colP (fun _ : Fin 1 => 0) P fun _ => (StdPen.l2Ball 1 false).toC) a (colS (fun _ => 0) init) = .ok o' ∧ o.st.auxC 0 0 0 = 3 / 5 ∧ o'.st.auxC 0 0 0 = 1 := by
  obtain ⟨prm, hP, hN, hT, hs⟩ := exists_params 1 1 none 2
  obtain ⟨o, ho, h⟩ := ballP_run hP hN hs ![6, 8]
  obtain ⟨o', ho', h'⟩ := ballP_run (K := 1) hP hN hs fun _ => 6
  refine ⟨ballP prm ![6, 8], ballS 2, ⟨1, none, none, none, false, 0⟩, o, o', hP, rfl, rfl, hT, rfl, rfl, ho, ?_, ?_, ?_⟩
  · exact ho'
  · rw [h 0]
    have : √(∑ k : Fin 2, ((![6, 8] : Fin 2 → ℝ) k / 2) ^ 2) = 5 := by
      rw [Real.sqrt_eq_iff_mul_self_eq_of_pos (by norm_num)]
      simp [Fin.sum_univ_two]
      norm_num
    rw [this]
    norm_num
  · rw [h' 0]
    have : √(∑ _k : Fin 1, ((6 : ℝ) / 2) ^ 2) = 3 := by
      rw [Real.sqrt_eq_iff_mul_self_eq_of_pos (by norm_num)]
      simp
      norm_num
    rw [this]
    norm_num

end Verif.Props
