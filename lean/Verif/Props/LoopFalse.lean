import Verif.Loop.Scalar
import Verif.Props.LoopStop
import Verif.Props.LoopObjective

/-!
# C30, C38, C39, C40, C41: executions in which the property fails
-/

namespace Verif.Props

open Verif.Loop Verif.ADMM Verif.Penalties Verif.Spec Finset Matrix

/-! ### One 1 × 1 matrix, only A is updated -/

/-- State with a 1 × 1 factor A, auxiliary variables `z` and dual variables `w`; the other factors are 1. -/
def scS {n : ℕ} (a : ℝ) (z w : Fin n → ℝ) : AOState 1 1 1 n 0 0 (fun _ => 1) :=
  ⟨none, scF a 1 1, fun p => sc (z p), fun p => sc (w p), Fin.elim0, Fin.elim0, Fin.elim0, Fin.elim0⟩

/-- Data `x`; only A is updated. -/
def scP {n : ℕ} (prm : Params 1) (x l2 : ℝ) (pens : Fin n → PenA 1 1) : Problem 1 1 1 n 0 0 (fun _ => 1) :=
  ⟨scX x, pens, Fin.elim0, Fin.elim0, (l2, 0, 0), prm, false, false, true, false, false⟩

/-- The new value of A. -/
noncomputable def scY {n : ℕ} (x l2 : ℝ) (z w : Fin n → ℝ) : ℝ := (1 / 2 * (∑ p, (z p - w p)) + x) / (1 + (1 / 2 * n + l2))

theorem sweep_scP {n : ℕ} {prm : Params 1} (hP : ValidSVD prm) (hN : prm.nInner = 1) (hs : prm.scale = 1) {x l2 : ℝ} (hl : 0 ≤ l2)
    {pens : Fin n → PenA 1 1} {u : Fin n → RowUpdate 1} {v : Fin n → ℝ → ℝ} (hu : ∀ p, (pens p).row = some (u p))
    (hv : ∀ p y ρ aux, u p y ρ aux = fun _ => v p (y 0)) (a : ℝ) (z w : Fin n → ℝ) : ∃ i,
    sweep (scP prm x l2 pens) (scS a z w) =
      .ok (scS (scY x l2 z w) (fun p => v p (scY x l2 z w + w p)) (fun p => scY x l2 z w - (v p (scY x l2 z w + w p) - w p)), i) := by
  refine ⟨some ⟨rhsA (scX x) (scF a 1 1), crossA (scF a 1 1)⟩, ?_⟩
  have h := updateA_sc prm hP hN hs x l2 a hl pens u hu z w
  simp only [hv] at h
  unfold sweep sweepB
  simp only [scP, Bool.false_eq_true, if_false, Except.bind, sweepC, sweepA, if_true]
  rw [show (scS a z w).F = scF a 1 1 from rfl, show (scS a z w).auxA = fun p => sc (z p) from rfl,
    show (scS a z w).dualA = fun p => sc (w p) from rfl, h]
  rfl

theorem sse_sc (x a b c : ℝ) : sse (scX x) (scF a b c) = (x - a * b * c) ^ 2 := by
  simp [sse, scX, scF, sc, Factors.entry, mul_comm, mul_left_comm]

theorem raggedSq_sc (x : ℝ) : raggedSq (scX x) = x ^ 2 := by simp [raggedSq, sqNorm, scX, sc]

theorem sqNorm_sc (x : ℝ) : sqNorm (sc x) = x ^ 2 := by simp [sqNorm, sc]

theorem relErr_scS {n : ℕ} (x a : ℝ) (z w : Fin n → ℝ) : relErr (scX x) (scS a z w) = |x - a| / |x| := by
  unfold relErr
  rw [show absorb (scS a z w).weights (scS a z w).F = scF a 1 1 from by simp [absorb, scS], sse_sc, raggedSq_sc, Real.sqrt_sq_eq_abs,
    Real.sqrt_sq_eq_abs, mul_one, mul_one]

theorem gaps_scS {n : ℕ} (a : ℝ) (z w : Fin n → ℝ) : feasibilityGaps (scS a z w).F (scS a z w).auxA (scS a z w).auxB (scS a z w).auxC
    = ⟨List.ofFn fun p => .div |z p - a| |a|, [], []⟩ := by
  have : ∀ p, matGap (sc a) (sc (z p)) = .div |z p - a| |a| := by
    intro p
    simp [matGap, matNorm, sc, Real.sqrt_sq_eq_abs]
  simp only [feasibilityGaps, scS, scF, this, List.ofFn_zero]

/-- A call with as many iterations as states. -/
theorem fit_exists {I K R nA nB nC : ℕ} {J : Fin I → ℕ} (P : Problem I K R nA nB nC J) (a : Args) (ht : truthy a.tol = false)
    (init s : AOState I K R nA nB nC J) (h : sweeps (aoOps P) a.nIterMax.toNat init = .ok s) : ∃ out, cmfAoadmm P a init = .ok out ∧ out.st = s := by
  have e1 := run_sweeps (O := aoOps P) (a := a) ht a.nIterMax.toNat (initAcc (aoOps P) a none init)
  rw [show (initAcc (aoOps P) a none init).st = init from rfl, h] at e1
  unfold cmfAoadmm fit
  cases h1 : run (aoOps P) a a.nIterMax.toNat (initAcc (aoOps P) a none init) with
  | error e' => rw [h1] at e1; cases e1
  | ok s =>
    rw [h1] at e1
    simp only [Except.map, Except.ok.injEq, Prod.mk.injEq] at e1
    exact ⟨_, rfl, e1.1⟩

theorem plain_sweeps {I K R nA nB nC : ℕ} {J : Fin I → ℕ} {P : Problem I K R nA nB nC J} {init : AOState I K R nA nB nC J} {k : ℕ} {o}
    (ho : cmfAoadmm P (plain k) init = .ok o) : sweeps (aoOps P) k init = .ok o.st := by
  obtain ⟨s, hs, hst, -⟩ := fit_ok ho
  have := run_sweeps (O := aoOps P) (a := plain k) rfl k (initAcc (aoOps P) (plain k) none init)
  rw [show (plain (k : ℤ)).nIterMax.toNat = k from Int.toNat_natCast k] at hs
  rw [hs] at this
  cases hsw : sweeps (aoOps P) k init with
  | error e => rw [show (initAcc (aoOps P) (plain k) none init).st = init from rfl, hsw] at this; cases this
  | ok x =>
    rw [show (initAcc (aoOps P) (plain k) none init).st = init from rfl, hsw] at this
    simp only [Except.map, Except.ok.injEq, Prod.mk.injEq] at this
    rw [hst, this.1]

theorem sweeps_one {I K R nA nB nC : ℕ} {J : Fin I → ℕ} {P : Problem I K R nA nB nC J} {s s' : AOState I K R nA nB nC J} {i}
    (h : sweep P s = .ok (s', i)) : sweeps (aoOps P) 1 s = .ok s' := by
  rw [sweeps, sweeps]; simp only [Except.bind, aoOps, h, Except.map]

/-! ### C30 -/

/-- C30 is false with an L2 penalty: the data term of the reported loss is divided by the squared norm of the data, that of the updates is not. -/
theorem C30_false : ∃ (P : Problem 1 1 1 0 0 0 (fun _ => 1)) (a : Args) (init : AOState 1 1 1 0 0 0 fun _ => 1) (out : Output _) (d : Diagnostics),
    P.X ≠ 0 ∧ ValidSVD P.params ∧ 0 < P.params.nInner ∧ 0 ≤ P.l2.1 ∧ 0 ≤ P.l2.2.1 ∧ 0 ≤ P.l2.2.2 ∧ init.weights = none ∧
    (∀ t : ℕ, t < a.nIterMax → ∀ o, cmfAoadmm P (plain t) init = .ok o → Invertible P o.st) ∧
    cmfAoadmm P a init = .ok out ∧ out.diag = some d ∧ ∃ p q, d.losses = [.fin p, .fin q] ∧ p < q := by
  obtain ⟨prm, hP, hN, -, hs⟩ := exists_params 1 1 none 1
  obtain ⟨i, hsw⟩ := sweep_scP (n := 0) (x := 10) (l2 := 1) (pens := Fin.elim0) (u := Fin.elim0) (v := Fin.elim0) hP hN hs zero_le_one
    (fun p => p.elim0) (fun p => p.elim0) 0 Fin.elim0 Fin.elim0
  have hX : (scP prm 10 1 (n := 0) Fin.elim0).X ≠ 0 := fun h => by
    have := congrFun (congrFun (congrFun h 0) 0) 0
    simp [scP, scX, sc] at this
  obtain ⟨out, hout, hst⟩ := fit_exists (scP prm 10 1 (n := 0) Fin.elim0) ⟨1, none, none, none, true, 0⟩ rfl (scS 0 Fin.elim0 Fin.elim0) _
    (sweeps_one hsw)
  obtain ⟨d, hd, -, -, hlen, hent⟩ := C37 _ hX _ rfl _ out hout
  obtain ⟨d', hd', -, -, hno, -⟩ := report _ _ rfl _ out hout
  obtain rfl : d = d' := Option.some.inj (hd.symm.trans hd')
  have hn : d.nIter = 1 := by
    have := (C41_absolute (scP prm 10 1 (n := 0) Fin.elim0) ⟨1, none, none, none, true, 0⟩ (by simp [IsSet]) (scS 0 Fin.elim0 Fin.elim0)).2 out d hout hd
    have := this.1
    simpa using this
  obtain ⟨o0, ho0, -, -, hl0, -⟩ := hent 0 (by omega)
  obtain ⟨o1, ho1, -, -, hl1, -⟩ := hent 1 (by omega)
  have e0 := plain_sweeps ho0
  have e1 := plain_sweeps ho1
  rw [sweeps, Except.ok.injEq] at e0
  rw [sweeps_one hsw, Except.ok.injEq] at e1
  rw [hn] at hlen
  refine ⟨scP prm 10 1 (n := 0) Fin.elim0, ⟨1, none, none, none, true, 0⟩, scS 0 Fin.elim0 Fin.elim0, out, d, hX, hP, ?_, zero_le_one, le_rfl, le_rfl,
    rfl, ?_, hout, hd,
    1 / 2 * relErr (scX 10) o0.st ^ 2 + regValue (scP prm 10 1 (n := 0) Fin.elim0) o0.st.F,
    1 / 2 * relErr (scX 10) o1.st ^ 2 + regValue (scP prm 10 1 (n := 0) Fin.elim0) o1.st.F, ?_, ?_⟩
  · show 0 < prm.nInner; omega
  · intro t _ o _
    exact invertible_of_l2 _ (fun _ => zero_lt_one) (by simp [scP]) (by simp [scP]) _
  · match hl : d.losses, hlen with
    | [x, y], _ =>
      rw [hl] at hl0 hl1
      simp only [List.getElem?_cons_zero, List.getElem?_cons_succ, Option.some.injEq] at hl0 hl1
      rw [hl0, hl1]; rfl
  · rw [← e0, ← e1, relErr_scS, relErr_scS]
    simp only [regValue, scP, scS, scF, sqNorm_sc, univ_eq_empty, sum_empty, scY]
    norm_num

/-! ### Evaluating iterations -/

theorem relError_none {I K R nA nB nC : ℕ} {J : Fin I → ℕ} {P : Problem I K R nA nB nC J} (hX : P.X ≠ 0) (s : AOState I K R nA nB nC J) :
    (aoOps P).relError s none = .fin (relErr P.X s) :=
  hist_entry hX (.zero (O := aoOps P) (none := none) (init := s)) (t := 0) (x := (s, none)) rfl

theorem relError_sweep {I K R nA nB nC : ℕ} {J : Fin I → ℕ} {P : Problem I K R nA nB nC J} (hX : P.X ≠ 0) {s t : AOState I K R nA nB nC J} {i}
    (h : sweep P s = .ok (t, i)) : (aoOps P).relError t i = .fin (relErr P.X t) :=
  hist_entry hX (.snoc (.zero (O := aoOps P) (none := none) (init := s)) h) (t := 1) (x := (t, i)) rfl

theorem penalty_eq {I K R nA nB nC : ℕ} {J : Fin I → ℕ} (P : Problem I K R nA nB nC J) (s : AOState I K R nA nB nC J) :
    (aoOps P).penalty s = regValue P s.F := by
  simp only [aoOps, regValue, l2Penalty_eq]

theorem body_eval {I K R nA nB nC : ℕ} {J : Fin I → ℕ} {P : Problem I K R nA nB nC J} (hX : P.X ≠ 0) {a : Args} {tol abs ft : ℝ} (ht : IsSet a.tol tol)
    (hab : a.absTol = some abs) (hft : IsSet a.feasTol ft) {s : Acc (AOState I K R nA nB nC J)} {st : AOState I K R nA nB nC J} {i}
    (h : sweep P s.st = .ok (st, i))
    (hf : a.returnErrors = true ∨ checkFeasibility (feasibilityGaps st.F st.auxA st.auxB st.auxC) ft = true) {p : PyF}
    (hp : s.losses.getLastD .nan = p) :
    ∃ s', body (aoOps P) a s = .ok (s', checkFeasibility (feasibilityGaps st.F st.auxA st.auxB st.auxC) ft &&
        (relCriterion p (.fin (lossValue P st)) tol || decide (lossValue P st < abs))) ∧
      s'.st = st ∧ s'.losses = s.losses ++ [.fin (lossValue P st)] ∧
      ((checkFeasibility (feasibilityGaps st.F st.auxA st.auxB st.auxC) ft &&
        (relCriterion p (.fin (lossValue P st)) tol || decide (lossValue P st < abs))) = true → s'.stop.isSome = true) := by
  unfold body
  rw [show (aoOps P).sweep s.st = .ok (st, i) from h]
  dsimp only
  have h1 : truthy a.tol = true := truthy_iff.2 ⟨tol, ht⟩
  have h2 : truthy a.feasTol = true := truthy_iff.2 ⟨ft, hft⟩
  have hg : (aoOps P).gaps st = feasibilityGaps st.F st.auxA st.auxB st.auxC := rfl
  rw [if_pos (by simp [h1]), hft.getD, hg, if_neg (by rcases hf with hf | hf <;> simp [hf, h2])]
  rw [relError_sweep hX h, lossOf, penalty_eq, hp, h2, Bool.true_and]
  unfold checkStop
  rw [if_pos h1, hab]
  dsimp only
  rw [ht.getD]
  have hlt : (PyF.fin (1 / 2 * relErr P.X st ^ 2 + regValue P st.F)).lt abs = decide (lossValue P st < abs) := rfl
  rw [hlt]
  have hv : lossValue P st = 1 / 2 * relErr P.X st ^ 2 + regValue P st.F := rfl
  rw [← hv]
  cases checkFeasibility (feasibilityGaps st.F st.auxA st.auxB st.auxC) ft <;> cases relCriterion p (.fin (lossValue P st)) tol <;>
    cases decide (lossValue P st < abs) <;> exact ⟨_, rfl, rfl, rfl, by simp⟩

/-- An iteration that is skipped. -/
theorem body_skip {I K R nA nB nC : ℕ} {J : Fin I → ℕ} {P : Problem I K R nA nB nC J} {a : Args} {tol ft : ℝ} (ht : IsSet a.tol tol)
    (hft : IsSet a.feasTol ft) (hr : a.returnErrors = false) {s : Acc (AOState I K R nA nB nC J)} {st : AOState I K R nA nB nC J} {i}
    (h : sweep P s.st = .ok (st, i)) (hf : checkFeasibility (feasibilityGaps st.F st.auxA st.auxB st.auxC) ft = false) :
    ∃ s', body (aoOps P) a s = .ok (s', false) ∧ s'.st = st ∧ s'.losses = s.losses := by
  unfold body
  rw [show (aoOps P).sweep s.st = .ok (st, i) from h]
  dsimp only
  have h1 : truthy a.tol = true := truthy_iff.2 ⟨tol, ht⟩
  have hg : (aoOps P).gaps st = feasibilityGaps st.F st.auxA st.auxB st.auxC := rfl
  rw [if_pos (by simp [h1]), hft.getD, hg, if_pos (by simp [hf, hr, h1])]
  exact ⟨_, rfl, rfl, rfl⟩

/-! ### C38, C39 -/

/-- State of a factorization with one 1 × 1 matrix, two penalties on A and one on B. -/
def zS (a b : ℝ) (z w : Fin 2 → ℝ) (zb wb : Fin 1 → ℝ) : AOState 1 1 1 2 1 0 (fun _ => 1) :=
  ⟨none, scF a b 1, fun p => sc (z p), fun p => sc (w p), fun p => .mats fun _ => sc (zb p), fun p _ => sc (wb p), Fin.elim0, Fin.elim0⟩

/-- Non-negativity and the bounds 1, 3 on A, non-negativity on B; C is not updated. -/
noncomputable def zP (prm : Params 1) : Problem 1 1 1 2 1 0 (fun _ => 1) :=
  ⟨scX 1, ![StdPen.nonNeg.toA, (StdPen.box (some 1) (some 3)).toA], fun _ => StdPen.toB fun _ => .nonNeg, Fin.elim0, (0, 0, 0), prm, false, false,
    true, true, false⟩

theorem sweep_zP {prm : Params 1} (hP : ValidSVD prm) (hN : prm.nInner = 1) (hs : prm.scale = 1) : ∃ i,
    sweep (zP prm) (zS 1 1 (fun _ => 0) ![0, 2] (fun _ => 1) fun _ => 0) = .ok (zS 0 1 ![0, 2] (fun _ => 0) (fun _ => 1) (fun _ => 0), i) := by
  have hB : sweepB (zP prm) (zS 1 1 (fun _ => 0) ![0, 2] (fun _ => 1) fun _ => 0) = .ok (zS 1 1 (fun _ => 0) ![0, 2] (fun _ => 1) fun _ => 0) := by
    have h := updateB_sc (n := 1) prm hP hN hs 1 0 1 le_rfl (fun _ => nonNegMat 1 1) (fun _ Z => ∑ i, hardPenalty (Z i)) (fun _ => 1) (fun _ => 0)
    have e : admmUpdateB (zP prm).params (zP prm).X (zP prm).pensB (zP prm).l2.2.1 (zP prm).constB
        (zS 1 1 (fun _ => 0) ![0, 2] (fun _ => 1) fun _ => 0).F (zS 1 1 (fun _ => 0) ![0, 2] (fun _ => 1) fun _ => 0).auxB
        (zS 1 1 (fun _ => 0) ![0, 2] (fun _ => 1) fun _ => 0).dualB = _ := h
    unfold sweepB
    rw [if_pos (show (zP prm).updB = true from rfl), e]
    simp only [Except.map]
    have hy : (1 / 2 * (∑ _p : Fin 1, ((1 : ℝ) - 0)) + 1) / (1 + (1 / 2 * ((1 : ℕ) : ℝ) + 0)) = 1 := by norm_num
    rw [hy]
    have hz : nonNegMat 1 1 (sc (1 + 0)) (1 / 2) (sc 1) = sc 1 := by
      funext i r; simp [nonNegMat, clip, sc]
    simp only [hz]
    simp [zS, scF, sc]
  refine ⟨some ⟨rhsA (scX 1) (scF 1 1 1), crossA (scF 1 1 1)⟩, ?_⟩
  unfold sweep
  rw [hB]
  simp only [Except.bind]
  rw [show sweepC (zP prm) (zS 1 1 (fun _ => 0) ![0, 2] (fun _ => 1) fun _ => 0) = zS 1 1 (fun _ => 0) ![0, 2] (fun _ => 1) fun _ => 0 from rfl]
  have h := updateA_sc (n := 2) prm hP hN hs 1 0 1 le_rfl ![StdPen.nonNeg.toA, (StdPen.box (some 1) (some 3)).toA]
    ![nonNegRow 1, boxRow (some 1) (some 3) 1] (by intro p; fin_cases p <;> rfl) (fun _ => 0) ![0, 2]
  have e : admmUpdateA (zP prm).params (zP prm).X (zP prm).pensA (zP prm).l2.1 (zP prm).constA
        (zS 1 1 (fun _ => 0) ![0, 2] (fun _ => 1) fun _ => 0).F (zS 1 1 (fun _ => 0) ![0, 2] (fun _ => 1) fun _ => 0).auxA
        (zS 1 1 (fun _ => 0) ![0, 2] (fun _ => 1) fun _ => 0).dualA = _ := h
  unfold sweepA
  rw [if_pos (show (zP prm).updA = true from rfl), e]
  have hy : (1 / 2 * (∑ p : Fin 2, ((0 : ℝ) - ![0, 2] p)) + 1) / (1 + (1 / 2 * ((2 : ℕ) : ℝ) + 0)) = 0 := by
    simp [Fin.sum_univ_two]
  rw [hy]
  have h1 : ∀ p : Fin 2, (fun _ : Fin 1 => ![nonNegRow 1, boxRow (some 1) (some 3) 1] p (fun _ => 0 + ![0, 2] p) (1 / 2) fun _ => 0)
      = sc (![0, 2] p) := by
    intro p
    funext i r
    fin_cases p
    · simp [nonNegRow, clip, sc]
    · simp [boxRow, clip, sc]; norm_num
  have h2 : ∀ p : Fin 2, ![nonNegRow 1, boxRow (some 1) (some 3) 1] p (fun _ => 0 + ![0, 2] p) (1 / 2) (fun _ => 0) 0 = ![0, 2] p :=
    fun p => congrFun (congrFun (h1 p) 0) 0
  have haux : (fun (p : Fin 2) (_ : Fin 1) => ![nonNegRow 1, boxRow (some 1) (some 3) 1] p (fun _ => 0 + ![0, 2] p) (1 / 2) fun _ => 0)
      = fun p => sc (![0, 2] p) := funext h1
  simp only [h2, sub_self]
  rw [haux]
  rfl

/-- The gaps of this state are `nan`, `inf` and 0, and pass the check. -/
theorem check_zS {t : ℝ} (ht : 0 < t) : checkFeasibility (feasibilityGaps (zS 0 1 ![0, 2] (fun _ => 0) (fun _ => 1) (fun _ => 0)).F
    (zS 0 1 ![0, 2] (fun _ => 0) (fun _ => 1) (fun _ => 0)).auxA (zS 0 1 ![0, 2] (fun _ => 0) (fun _ => 1) (fun _ => 0)).auxB
    (zS 0 1 ![0, 2] (fun _ => 0) (fun _ => 1) (fun _ => 0)).auxC) t = true := by
  have h1 : matGap (sc 0) (sc 0) = .nan := by simp [matGap, matNorm, sc, PyF.div]
  have h2 : matGap (sc 0) (sc 2) = .inf := by simp [matGap, matNorm, sc, PyF.div]
  have h3 : raggedGap (J := fun _ : Fin 1 => 1) (fun _ => sc 1) (.mats fun _ => sc 1) = .fin 0 := by
    simp [raggedGap, rootSumSq, AuxB.subtract, sc, PyF.div]
  have hg : feasibilityGaps (zS 0 1 ![0, 2] (fun _ => 0) (fun _ => 1) (fun _ => 0)).F
      (zS 0 1 ![0, 2] (fun _ => 0) (fun _ => 1) (fun _ => 0)).auxA (zS 0 1 ![0, 2] (fun _ => 0) (fun _ => 1) (fun _ => 0)).auxB
      (zS 0 1 ![0, 2] (fun _ => 0) (fun _ => 1) (fun _ => 0)).auxC = ⟨[.nan, .inf], [.fin 0], []⟩ := by
    simp only [feasibilityGaps, zS, scF, List.ofFn_succ, List.ofFn_zero, Matrix.cons_val_zero, h1, h3]
    rw [show matGap (sc 0) (sc (![(0 : ℝ), 2] (Fin.succ 0))) = .inf from h2]
  rw [hg]
  simp [checkFeasibility, maxGap, pyMax, PyF.gt, PyF.lt, ht]

theorem lossValue_zS (prm : Params 1) (a : ℝ) (z w zb wb) : lossValue (zP prm) (zS a 1 z w zb wb) = 1 / 2 * |1 - a| ^ 2 := by
  have h : relErr (zP prm).X (zS a 1 z w zb wb) = |1 - a| := by
    unfold relErr
    rw [show absorb (zS a 1 z w zb wb).weights (zS a 1 z w zb wb).F = scF a 1 1 from by simp [absorb, zS], show (zP prm).X = scX 1 from rfl, sse_sc,
      raggedSq_sc, Real.sqrt_sq_eq_abs, Real.sqrt_sq_eq_abs, mul_one, mul_one, abs_one, div_one]
  rw [lossValue, h]
  simp [regValue, zP, StdPen.toA, StdPen.toB, PenB.ofMat, StdPen.value, hardPenalty]

theorem run_zP_of {prm : Params 1} (hP : ValidSVD prm) (hN : prm.nInner = 1) (hs : prm.scale = 1) : ∃ (out : Output _) (d : Diagnostics),
    cmfAoadmm (zP prm) ⟨1, some 1, some 1, some (1 / 10000), true, 0⟩ (zS 1 1 (fun _ => 0) ![0, 2] (fun _ => 1) fun _ => 0) = .ok out ∧
    out.diag = some d ∧ out.st = zS 0 1 ![0, 2] (fun _ => 0) (fun _ => 1) (fun _ => 0) ∧ d.stopping = some true ∧ d.feasible = some true ∧ d.nIter = 1 := by
  obtain ⟨i, hsw⟩ := sweep_zP hP hN hs
  have hX : (zP prm).X ≠ 0 := fun h => by
    have := congrFun (congrFun (congrFun h 0) 0) 0
    simp [zP, scX, sc] at this
  have hf := check_zS (t := 1 / 10000) (by norm_num)
  obtain ⟨s', hb, hst, -, hstop⟩ := body_eval hX (a := ⟨1, some 1, some 1, some (1 / 10000), true, 0⟩) (tol := 1) (abs := 1) (ft := 1 / 10000)
    ⟨rfl, one_ne_zero⟩ rfl ⟨rfl, by norm_num⟩ (s := initAcc (aoOps (zP prm)) ⟨1, some 1, some 1, some (1 / 10000), true, 0⟩ none (zS 1 1 (fun _ => 0) ![0, 2] (fun _ => 1) fun _ => 0)) hsw (.inl rfl) rfl
  have hc : decide (lossValue (zP prm) (zS 0 1 ![0, 2] (fun _ => 0) (fun _ => 1) fun _ => 0) < 1) = true := by
    rw [lossValue_zS]; norm_num
  rw [hf, hc, Bool.or_true, Bool.and_true] at hb hstop
  have hstop := hstop rfl
  obtain ⟨_, -, hn, -⟩ := body_ok hb
  have hrun : run (aoOps (zP prm)) ⟨1, some 1, some 1, some (1 / 10000), true, 0⟩ 1
      (initAcc (aoOps (zP prm)) ⟨1, some 1, some 1, some (1 / 10000), true, 0⟩ none (zS 1 1 (fun _ => 0) ![0, 2] (fun _ => 1) fun _ => 0)) = .ok s' := by
    rw [run, hb]
  refine ⟨⟨s'.st, some (diagnostics (aoOps (zP prm)) ⟨1, some 1, some 1, some (1 / 10000), true, 0⟩ s'), s'.log⟩, _, ?_, rfl, hst, ?_, ?_, ?_⟩
  · unfold cmfAoadmm fit
    rw [show (Args.mk 1 (some 1) (some 1) (some (1 / 10000)) true 0).nIterMax.toNat = 1 from rfl, hrun]
    rfl
  · simp [diagnostics, hstop]
  · simp only [diagnostics]
    rw [if_pos (by simp [truthy])]
    rw [hst]
    exact congrArg some hf
  · exact hn

theorem run_zP : ∃ (prm : Params 1) (out : Output _) (d : Diagnostics), ValidSVD prm ∧ 0 < prm.nInner ∧
    cmfAoadmm (zP prm) ⟨1, some 1, some 1, some (1 / 10000), true, 0⟩ (zS 1 1 (fun _ => 0) ![0, 2] (fun _ => 1) fun _ => 0) = .ok out ∧
    out.diag = some d ∧ out.st = zS 0 1 ![0, 2] (fun _ => 0) (fun _ => 1) (fun _ => 0) ∧ d.stopping = some true ∧ d.feasible = some true ∧ d.nIter = 1 := by
  obtain ⟨prm, hP, hN, -, hs⟩ := exists_params 1 1 none 1
  obtain ⟨out, d, h⟩ := run_zP_of hP hN hs
  exact ⟨prm, out, d, hP, by omega, h⟩

/-- C38 is false when a factor becomes zero: its gaps are `nan` or `inf` and the check ignores them if a later mode has penalties. Here the report says
that the stopping condition is satisfied, but the distance of A to the auxiliary variable of its bounds is 2, and A is 0. -/
theorem C38_false : ∃ (P : Problem 1 1 1 2 1 0 (fun _ => 1)) (a : Args) (t : ℝ) (init : AOState 1 1 1 2 1 0 fun _ => 1) (out : Output _) (d : Diagnostics),
    ValidSVD P.params ∧ 0 < P.params.nInner ∧ a.returnErrors = true ∧ cmfAoadmm P a init = .ok out ∧ out.diag = some d ∧
    d.stopping = some true ∧ IsSet a.feasTol t ∧ 0 < t ∧
    ∃ p, t * √(sqNorm out.st.F.A) < √(sqNorm (out.st.F.A - out.st.auxA p)) := by
  obtain ⟨prm, out, d, hP, hN, h, hd, hst, h1, -⟩ := run_zP
  refine ⟨_, _, 1 / 10000, _, out, d, hP, hN, rfl, h, hd, h1, ⟨rfl, by norm_num⟩, by norm_num, 1, ?_⟩
  rw [hst]
  have h2 : sc 0 - sc (![0, 2] (1 : Fin 2)) = sc (-2) := by
    funext i r; simp [sc]
  simp only [zS, scF, h2, sqNorm_sc]
  norm_num

/-- C39 is false in the same execution: the feasibility condition is reported as satisfied, but no matrix within the bounds [1, 3] imposed on A is within
`feasibility_tol` times the norm of A from A. -/
theorem C39_false : ∃ (P : Problem 1 1 1 2 1 0 (fun _ => 1)) (a : Args) (t : ℝ) (init : AOState 1 1 1 2 1 0 fun _ => 1) (out : Output _) (d : Diagnostics),
    ValidSVD P.params ∧ 0 < P.params.nInner ∧ P.updA = true ∧ P.pensA 1 = (StdPen.box (some 1) (some 3)).toA ∧
    cmfAoadmm P a init = .ok out ∧ out.diag = some d ∧ 0 < d.nIter ∧ IsSet a.feasTol t ∧ 0 < t ∧ d.feasible = some true ∧
    ∀ Z : Matrix (Fin 1) (Fin 1) ℝ, (∀ i r, 1 ≤ Z i r ∧ Z i r ≤ 3) → t * √(sqNorm out.st.F.A) < √(sqNorm (out.st.F.A - Z)) := by
  obtain ⟨prm, out, d, hP, hN, h, hd, hst, -, h2, hn⟩ := run_zP
  refine ⟨_, _, 1 / 10000, _, out, d, hP, hN, rfl, rfl, h, hd, by omega, ⟨rfl, by norm_num⟩, by norm_num, h2, fun Z hZ => ?_⟩
  rw [hst]
  have h1 := (hZ 0 0).1
  simp only [zS, scF, sqNorm_sc]
  simp only [sqNorm, sc, Matrix.sub_apply, univ_unique, Fin.default_eq_zero, sum_singleton]
  simp
  positivity

/-! ### C40 -/

theorem lossValue_scS {n : ℕ} (prm : Params 1) (a : ℝ) (z w : Fin n → ℝ) :
    lossValue (scP prm 1 0 fun _ : Fin n => StdPen.nonNeg.toA) (scS a z w) = 1 / 2 * |1 - a| ^ 2 := by
  rw [lossValue, show (scP prm 1 0 fun _ : Fin n => StdPen.nonNeg.toA).X = scX 1 from rfl, relErr_scS]
  simp [regValue, scP, StdPen.toA, StdPen.value, hardPenalty]

theorem sweep_nonNeg {prm : Params 1} (hP : ValidSVD prm) (hN : prm.nInner = 1) (hs : prm.scale = 1) (a z w y : ℝ) (hy : (1 / 2 * (z - w) + 1) / (3 / 2) = y)
    (h0 : 0 ≤ y + w) : ∃ i, sweep (scP prm 1 0 fun _ : Fin 1 => StdPen.nonNeg.toA) (scS a (fun _ => z) fun _ => w) =
      .ok (scS y (fun _ => y + w) (fun _ => 0), i) := by
  obtain ⟨i, h⟩ := sweep_scP (n := 1) (x := 1) (l2 := 0) (pens := fun _ => StdPen.nonNeg.toA) (u := fun _ => nonNegRow 1) (v := fun _ y => clip (some 0) none y)
    hP hN hs le_rfl (fun _ => rfl) (fun _ y _ _ => by funext r; rw [nonNegRow, Subsingleton.elim r 0]) a (fun _ => z) fun _ => w
  have e : scY 1 0 (fun _ : Fin 1 => z) (fun _ => w) = y := by
    rw [← hy, scY]; norm_num
  refine ⟨i, ?_⟩
  rw [h, e]
  have hc : clip (some 0) none (y + w) = y + w := by simp [clip, h0]
  rw [hc]
  congr 3
  funext _; ring

theorem check_scS (a z w t : ℝ) (ha : a ≠ 0) : checkFeasibility (feasibilityGaps (scS (n := 1) a (fun _ => z) fun _ => w).F
    (scS (n := 1) a (fun _ => z) fun _ => w).auxA (scS (n := 1) a (fun _ => z) fun _ => w).auxB (scS (n := 1) a (fun _ => z) fun _ => w).auxC) t =
    decide (|z - a| / |a| < t) := by
  rw [gaps_scS]
  simp [checkFeasibility, maxGap, pyMax, PyF.div, ha, PyF.lt]

/-- C40 is false: with the same tolerances, data and initial values, the call with `return_errors=True` returns another factorization than the one with
`return_errors=False`, because the latter leaves out the losses of infeasible iterations and so compares with an older loss. -/
theorem C40_false : ∃ (P : Problem 1 1 1 1 0 0 (fun _ => 1)) (a : Args) (init : AOState 1 1 1 1 0 0 fun _ => 1) (o o' : Output _),
    ValidSVD P.params ∧ 0 < P.params.nInner ∧ cmfAoadmm P { a with returnErrors := true } init = .ok o ∧
    cmfAoadmm P { a with returnErrors := false } init = .ok o' ∧ o.st.F.A 0 0 = 10 / 9 ∧ o'.st.F.A 0 0 = 28 / 27 := by
  obtain ⟨prm, hP, hN, -, hs⟩ := exists_params 1 1 none 1
  obtain ⟨i1, h1⟩ := sweep_nonNeg hP hN hs 1 0 1 (1 / 3) (by norm_num) (by norm_num)
  obtain ⟨i2, h2⟩ := sweep_nonNeg hP hN hs (1 / 3) (1 / 3 + 1) 0 (10 / 9) (by norm_num) (by norm_num)
  obtain ⟨i3, h3⟩ := sweep_nonNeg hP hN hs (10 / 9) (10 / 9 + 0) 0 (28 / 27) (by norm_num) (by norm_num)
  have hX : (scP prm 1 0 fun _ : Fin 1 => StdPen.nonNeg.toA).X ≠ 0 := fun h => by
    have := congrFun (congrFun (congrFun h 0) 0) 0
    simp [scP, scX, sc] at this
  set P := scP prm 1 0 fun _ : Fin 1 => StdPen.nonNeg.toA with hPdef
  have c1 := check_scS (1 / 3) (1 / 3 + 1) 0 (1 / 2) (by norm_num)
  have c2 := check_scS (10 / 9) (10 / 9 + 0) 0 (1 / 2) (by norm_num)
  have c3 := check_scS (28 / 27) (28 / 27 + 0) 0 (1 / 2) (by norm_num)
  rw [show decide (|1 / 3 + 1 - (1 / 3 : ℝ)| / |(1 / 3 : ℝ)| < 1 / 2) = false from by norm_num [abs_of_pos]] at c1
  rw [show decide (|10 / 9 + 0 - (10 / 9 : ℝ)| / |(10 / 9 : ℝ)| < 1 / 2) = true from by norm_num] at c2
  rw [show decide (|28 / 27 + 0 - (28 / 27 : ℝ)| / |(28 / 27 : ℝ)| < 1 / 2) = true from by norm_num] at c3
  let a : Args := ⟨3, some 1, some (1 / 1000), some (1 / 2), false, 0⟩
  let init := scS (n := 1) 1 (fun _ => 0) fun _ => 1
  have l0 : (initAcc (aoOps P) a none init).losses.getLastD .nan = .fin 0 := by
    simp only [initAcc, List.getLastD_cons, List.getLastD_nil, relError_none hX, lossOf, penalty_eq]
    rw [show 1 / 2 * relErr P.X init ^ 2 + regValue P init.F = lossValue P init from rfl, hPdef, lossValue_scS]
    norm_num
  have v1 : lossValue P (scS (n := 1) (1 / 3) (fun _ => 1 / 3 + 1) fun _ => 0) = 2 / 9 := by
    rw [hPdef, lossValue_scS, sq_abs]; norm_num
  have v2 : lossValue P (scS (n := 1) (10 / 9) (fun _ => 10 / 9 + 0) fun _ => 0) = 1 / 162 := by
    rw [hPdef, lossValue_scS, sq_abs]; norm_num
  have v3 : lossValue P (scS (n := 1) (28 / 27) (fun _ => 28 / 27 + 0) fun _ => 0) = 1 / 1458 := by
    rw [hPdef, lossValue_scS, sq_abs]; norm_num
  -- with diagnostics
  obtain ⟨s1, b1, st1, ls1, -⟩ := body_eval hX (a := { a with returnErrors := true }) (tol := 1) (abs := 1 / 1000) (ft := 1 / 2)
    ⟨rfl, one_ne_zero⟩ rfl ⟨rfl, by norm_num⟩ (s := initAcc (aoOps P) { a with returnErrors := true } none init) h1 (.inl rfl) l0
  obtain ⟨s2, b2, st2, -, -⟩ := body_eval hX (a := { a with returnErrors := true }) (tol := 1) (abs := 1 / 1000) (ft := 1 / 2)
    ⟨rfl, one_ne_zero⟩ rfl ⟨rfl, by norm_num⟩ (s := s1) (by rw [st1]; exact h2) (.inl rfl) (p := .fin (2 / 9)) (by rw [ls1, v1]; simp)
  rw [c1, Bool.false_and] at b1
  have k2 : relCriterion (.fin (2 / 9)) (.fin (1 / 162)) 1 = true := by
    simp only [relCriterion]; norm_num [abs_of_pos]
  rw [c2, v2, k2, Bool.true_or, Bool.true_and] at b2
  have r1 : run (aoOps P) { a with returnErrors := true } 3 (initAcc (aoOps P) { a with returnErrors := true } none init) = .ok s2 := by
    rw [run, b1]; simp only; rw [run, b2]
  -- without
  obtain ⟨t1, d1, tt1, tl1⟩ := body_skip (a := a) (tol := 1) (ft := 1 / 2) ⟨rfl, one_ne_zero⟩ ⟨rfl, by norm_num⟩ rfl
    (s := initAcc (aoOps P) a none init) h1 c1
  obtain ⟨t2, d2, tt2, tl2, -⟩ := body_eval hX (a := a) (tol := 1) (abs := 1 / 1000) (ft := 1 / 2)
    ⟨rfl, one_ne_zero⟩ rfl ⟨rfl, by norm_num⟩ (s := t1) (by rw [tt1]; exact h2) (.inr c2) (p := .fin 0) (by rw [tl1]; exact l0)
  obtain ⟨t3, d3, tt3, -, -⟩ := body_eval hX (a := a) (tol := 1) (abs := 1 / 1000) (ft := 1 / 2)
    ⟨rfl, one_ne_zero⟩ rfl ⟨rfl, by norm_num⟩ (s := t2) (by rw [tt2]; exact h3) (.inr c3) (p := .fin (1 / 162)) (by rw [tl2, v2]; simp)
  have k2' : (relCriterion (.fin 0) (.fin (1 / 162)) 1 || decide ((1 / 162 : ℝ) < 1 / 1000)) = false := by
    simp only [relCriterion]; norm_num
  rw [c2, v2, k2', Bool.and_false] at d2
  have k3 : (relCriterion (.fin (1 / 162)) (.fin (1 / 1458)) 1 || decide ((1 / 1458 : ℝ) < 1 / 1000)) = true := by
    simp only [relCriterion]; norm_num [abs_of_pos]
  rw [c3, v3, k3, Bool.and_true] at d3
  have r2 : run (aoOps P) a 3 (initAcc (aoOps P) a none init) = .ok t3 := by
    rw [run, d1]; simp only; rw [run, d2]; simp only; rw [run, d3]
  refine ⟨P, a, init, ⟨s2.st, some (diagnostics (aoOps P) { a with returnErrors := true } s2), s2.log⟩, ⟨t3.st, none, t3.log⟩, hP, by show 0 < prm.nInner; omega,
    ?_, ?_, ?_, ?_⟩
  · unfold cmfAoadmm fit
    rw [show ({ a with returnErrors := true } : Args).nIterMax.toNat = 3 from rfl, r1]
    rfl
  · unfold cmfAoadmm fit
    rw [show ({ a with returnErrors := false } : Args) = a from rfl, show a.nIterMax.toNat = 3 from rfl, r2]
    rfl
  · show s2.st.F.A 0 0 = _
    rw [st2]; rfl
  · show t3.st.F.A 0 0 = _
    rw [tt3]; rfl

/-! ### C41 -/

theorem sweeps_fixed {I K R nA nB nC : ℕ} {J : Fin I → ℕ} {P : Problem I K R nA nB nC J} {s : AOState I K R nA nB nC J} {i}
    (h : sweep P s = .ok (s, i)) (n : ℕ) : sweeps (aoOps P) n s = .ok s := by
  induction n with
  | zero => rfl
  | succ n ih => rw [sweeps, ih]; simp only [Except.bind, aoOps, h, Except.map]

/-- C41 is false: in this execution `absolute_tol` and `feasibility_tol` are given, every factorization has loss 0 and gap 0, but all 1000 iterations are performed;
with `tol` alone the same call raises TypeError. -/
theorem C41_false : ∃ (P : Problem 1 1 1 1 0 0 (fun _ => 1)) (init : AOState 1 1 1 1 0 0 fun _ => 1) (out : Output _) (d : Diagnostics),
    ValidSVD P.params ∧ 0 < P.params.nInner ∧
    (∀ k : ℕ, ∃ o, cmfAoadmm P (plain k) init = .ok o ∧ lossValue P o.st = 0 ∧ NonzeroFactors o.st ∧ GapsBelow (1 / 10000) o.st) ∧
    cmfAoadmm P ⟨1000, none, some (1 / 10), some (1 / 10000), true, 0⟩ init = .ok out ∧ out.diag = some d ∧ d.nIter = 1000 ∧ d.stopping = some false ∧
    cmfAoadmm P ⟨1000, some (1 / 10), none, some (1 / 10000), true, 0⟩ init = .error .typeError := by
  obtain ⟨prm, hP, hN, -, hs⟩ := exists_params 1 1 none 1
  obtain ⟨i, h⟩ := sweep_nonNeg hP hN hs 1 1 0 1 (by norm_num) (by norm_num)
  rw [add_zero] at h
  have hnz : NonzeroFactors (scS (n := 1) 1 (fun _ => 1) fun _ => 0) := by
    refine ⟨fun _ h => ?_, by simp, by simp⟩
    have := congrFun (congrFun h 0) 0
    simp [scS, scF, sc] at this
  obtain ⟨out, hout, -⟩ := fit_exists _ ⟨1000, none, some (1 / 10), some (1 / 10000), true, 0⟩ rfl _ _ (sweeps_fixed h _)
  obtain ⟨s, -, -, hd⟩ := fit_ok hout
  rw [if_pos rfl] at hd
  have h41 := (C41_absolute _ ⟨1000, none, some (1 / 10), some (1 / 10000), true, 0⟩ (by simp [IsSet]) _).2 out _ hout hd
  refine ⟨_, _, out, _, hP, by show 0 < prm.nInner; omega, fun k => ?_, hout, hd, ?_, ?_, ?_⟩
  · obtain ⟨o, ho, hos⟩ := fit_plain (aoOps _) none _ _ k (sweeps_fixed h k)
    refine ⟨o, ho, ?_, by rw [hos]; exact hnz, ?_⟩
    · rw [hos, lossValue_scS]; norm_num
    · rw [hos, ← checkFeasibility_iff hnz, check_scS _ _ _ _ one_ne_zero]
      norm_num
  · have := h41.1
    norm_num at this
    exact_mod_cast this
  · have h1 := h41.2
    simp only [diagnostics] at h1 ⊢
    split
    · rename_i hc; rw [if_pos hc] at h1; exact absurd rfl h1
    · rw [if_pos (by simp [truthy])]
  · exact C41_relative _ _ (1 / 10) ⟨rfl, by norm_num⟩ rfl (by norm_num) _ _ h (.inl rfl)

end Verif.Props
