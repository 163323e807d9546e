import Verif.Props.LoopPerm

/-!
# C131: with a fixed C, the matrices are fitted independently of each other
-/

set_option linter.unusedSectionVars false

namespace Verif.Props

open Verif.Loop Verif.ADMM Verif.Penalties Verif.Spec Finset Matrix

variable {I I' K R nA nB nC : ℕ} {J : Fin I → ℕ}

/-! ### Some of the matrices -/

/-- The factors of the matrices `e 0, e 1, …`. -/
def selF (e : Fin I' → Fin I) (F : Factors I K R J) : Factors I' K R fun i => J (e i) := ⟨fun i => F.A (e i), fun i => F.B (e i), F.C⟩

/-- Auxiliary variables of mode 1 of these matrices. -/
def selAux (e : Fin I' → Fin I) : AuxB I R J → AuxB I' R fun i => J (e i)
  | .mats X => .mats fun i => X (e i)
  | .p2 a => .p2 ⟨fun i => a.bases (e i), a.coord⟩

/-- All variables of these matrices. -/
def selS (e : Fin I' → Fin I) (s : AOState I K R nA nB nC J) : AOState I' K R nA nB nC fun i => J (e i) where
  weights := s.weights
  F := selF e s.F
  auxA := fun p i => s.auxA p (e i)
  dualA := fun p i => s.dualA p (e i)
  auxB := fun p => selAux e (s.auxB p)
  dualB := fun p i => s.dualB p (e i)
  auxC := s.auxC
  dualC := s.dualC

/-- The problem for these matrices, with the penalties for them. -/
def selP (e : Fin I' → Fin I) (P : Problem I K R nA nB nC J) (pensA : Fin nA → PenA I' R) (pensB : Fin nB → PenB I' R fun i => J (e i)) :
    Problem I' K R nA nB nC fun i => J (e i) where
  X := fun i => P.X (e i)
  pensA := pensA
  pensB := pensB
  pensC := P.pensC
  l2 := P.l2
  params := P.params
  constA := P.constA
  constB := P.constB
  updA := P.updA
  updB := P.updB
  updC := P.updC

/-- `q` treats the selected matrices as `p` treats them among the others. -/
def LocalB (e : Fin I' → Fin I) (p : PenB I R J) (q : PenB I' R fun i => J (e i)) : Prop :=
  ∀ (X : Ragged I R J) (ρ : Fin I → ℝ) (aux : AuxB I R J), q.update (fun i => X (e i)) (fun i => ρ (e i)) (selAux e aux) = selAux e (p.update X ρ aux)

theorem localB_ofMat (e : Fin I' → Fin I) (u : (i : Fin I) → MatUpdate (J i) R) (v) (w) : LocalB e (.ofMat u v) (.ofMat (fun i => u (e i)) w) := by
  intro X ρ aux
  cases aux <;> rfl

/-- `Parafac2` with a fixed coordinate matrix. -/
theorem localB_parafac2 (e : Fin I' → Fin I) (svd : (i : Fin I) → Matrix (Fin (J i)) (Fin R) ℝ → SVD (J i) R R) (n : ℕ) (ub : Bool) :
    LocalB e (.parafac2 svd n ub false) (.parafac2 (fun i => svd (e i)) n ub false) := by
  intro X ρ aux
  cases aux with
  | mats Y => rfl
  | p2 a =>
    cases n with
    | zero => rfl
    | succ n => cases ub <;> rfl

/-! ### The updates -/

/-- Variables of the A-update of the selected matrices. -/
def selM (e : Fin I' → Fin I) {n : ℕ} (s : MatState I R n) : MatState I' R n :=
  ⟨fun i => s.x (e i), fun p i => s.aux p (e i), fun p i => s.dual p (e i)⟩

/-- Variables of the B-update of the selected matrices. -/
def selR (e : Fin I' → Fin I) {n : ℕ} (s : RagState I R n J) : RagState I' R n fun i => J (e i) :=
  ⟨fun i => s.x (e i), fun p => selAux e (s.aux p), fun p i => s.dual p (e i)⟩

theorem subtract_sel (e : Fin I' → Fin I) (x : AuxB I R J) (d : Ragged I R J) :
    (selAux e x).subtract (fun i => d (e i)) = fun i => x.subtract d (e i) := by
  cases x <;> rfl

/-- The inner tolerance is off (`None`, zero or negative). -/
def NoInnerTol (tol : Option ℝ) : Prop := ∀ t, tol = some t → t ≤ 0

theorem innerConverged_off {tol : Option ℝ} (h : NoInnerTol tol) (a b : ℝ) (g : List PyF) : innerConverged tol a b g = false := by
  unfold innerConverged
  cases tol with
  | none => rfl
  | some t =>
    have := h t rfl
    have : t = 0 ∨ t < 0 := this.eq_or_lt
    simp [this]

theorem admmUpdateA_sel (e : Fin I' → Fin I) {n : ℕ} (prm : Params R) (ht : NoInnerTol prm.innerTol) (X : Ragged I K J) (pens : Fin n → PenA I R)
    (pens' : Fin n → PenA I' R) (l2 : ℝ) (hp : ∀ p, (pens p).row.isSome = true ∧ (pens' p).row = (pens p).row) (F : Factors I K R J)
    (aux dual : Fin n → Matrix (Fin I) (Fin R) ℝ) : ∃ s, admmUpdateA prm X pens l2 false F aux dual = .ok s ∧
    admmUpdateA prm (fun i => X (e i)) pens' l2 false (selF e F) (fun p i => aux p (e i)) (fun p i => dual p (e i)) = .ok (selM e s) := by
  have hrow : (List.ofFn pens).any (fun p => p.row.isNone) = false := by
    rw [List.any_eq_false]
    intro q hq
    obtain ⟨p, rfl⟩ := List.mem_ofFn.1 hq
    simp [Option.isNone_iff_eq_none, Option.isSome_iff_ne_none.1 (hp p).1]
  have hrow' : (List.ofFn pens').any (fun p => p.row.isNone) = false := by
    rw [List.any_eq_false]
    intro q hq
    obtain ⟨p, rfl⟩ := List.mem_ofFn.1 hq
    simp [(hp p).2, Option.isNone_iff_eq_none, Option.isSome_iff_ne_none.1 (hp p).1]
  unfold admmUpdateA
  rw [hrow, hrow']
  simp only [feasPenalties, Bool.false_eq_true, if_false, Except.bind, Bool.and_false]
  refine ⟨_, rfl, ?_⟩
  refine congrArg Except.ok (innerLoop_map (f := selM e) (s := ⟨F.A, aux, dual⟩) (fun s => ?_)
    (fun s s' => by rw [matStop, matStop, innerConverged_off ht, innerConverged_off ht]) _)
  set ρ := fun i => feasPenalty prm.scale (crossA F i) with hρ
  set t := stepA pens none ρ (fun i => prm.svd (addRidge (crossA F i) (ρ i) n l2)) (rhsA X F) s with ht'
  set t' := stepA pens' none (fun i => ρ (e i)) (fun i => prm.svd (addRidge (crossA F (e i)) (ρ (e i)) n l2)) (rhsA (fun i => X (e i)) (selF e F))
    (selM e s) with ht''
  have hx : t'.x = fun i => t.x (e i) := rfl
  have haux : ∀ p, t'.aux p = fun i => t.aux p (e i) := by
    intro p
    obtain ⟨u, hu⟩ := Option.isSome_iff_exists.1 (hp p).1
    have hu' := (hp p).2.trans hu
    show auxA (pens' p) none (fun i => ρ (e i)) (t'.x + (selM e s).dual p) ((selM e s).aux p) = fun i => auxA (pens p) none ρ (t.x + s.dual p) (s.aux p) (e i)
    unfold auxA
    rw [hu, hu', hx]
    rfl
  have hdual : ∀ p, t'.dual p = fun i => t.dual p (e i) := by
    intro p
    show t'.x - (t'.aux p - (selM e s).dual p) = _
    rw [haux p, hx]
    rfl
  exact matState_ext hx (funext haux) (funext hdual)

theorem admmUpdateB_sel (e : Fin I' → Fin I) {n : ℕ} (prm : Params R) (ht : NoInnerTol prm.innerTol) (X : Ragged I K J) (pens : Fin n → PenB I R J)
    (pens' : Fin n → PenB I' R fun i => J (e i)) (l2 : ℝ) (hp : ∀ p, LocalB e (pens p) (pens' p)) (F : Factors I K R J)
    (aux : Fin n → AuxB I R J) (dual : Fin n → Ragged I R J) : ∃ s, admmUpdateB prm X pens l2 false F aux dual = .ok s ∧
    admmUpdateB prm (fun i => X (e i)) pens' l2 false (selF e F) (fun p => selAux e (aux p)) (fun p i => dual p (e i)) = .ok (selR e s) := by
  unfold admmUpdateB
  simp only [feasPenalties, Bool.false_eq_true, if_false, Except.bind]
  refine ⟨_, rfl, ?_⟩
  refine congrArg Except.ok (innerLoop_map (f := selR e) (s := ⟨F.B, aux, dual⟩) (fun s => ?_)
    (fun s s' => by rw [ragStop, ragStop, innerConverged_off ht, innerConverged_off ht]) _)
  have hρ : ∀ i, feasPenalty prm.scale (crossB (selF e F) i) = feasPenalty prm.scale (crossB F (e i)) := fun i => rfl
  have hx : ∀ i, svdSolve (prm.svd (addRidge (crossB (selF e F) i) (feasPenalty prm.scale (crossB (selF e F) i)) n l2))
      (feasPenalty prm.scale (crossB (selF e F) i) • (∑ p, ((selR e s).aux p).subtract ((selR e s).dual p) i) + rhsB (fun i => X (e i)) (selF e F) i) =
      svdSolve (prm.svd (addRidge (crossB F (e i)) (feasPenalty prm.scale (crossB F (e i))) n l2))
        (feasPenalty prm.scale (crossB F (e i)) • (∑ p, (s.aux p).subtract (s.dual p) (e i)) + rhsB X F (e i)) := by
    intro i
    have : ∀ p, ((selR e s).aux p).subtract ((selR e s).dual p) i = (s.aux p).subtract (s.dual p) (e i) :=
      fun p => congrFun (subtract_sel e (s.aux p) (s.dual p)) i
    simp only [this]
    rfl
  unfold stepB
  simp only [hx]
  have h : ∀ p, (pens' p).update (fun i => svdSolve (prm.svd (addRidge (crossB F (e i)) (feasPenalty prm.scale (crossB F (e i))) n l2))
      (feasPenalty prm.scale (crossB F (e i)) • (∑ p, (s.aux p).subtract (s.dual p) (e i)) + rhsB X F (e i)) + (selR e s).dual p i)
      (fun i => feasPenalty prm.scale (crossB (selF e F) i)) ((selR e s).aux p) = _ :=
    fun p => hp p (fun i => svdSolve (prm.svd (addRidge (crossB F i) (feasPenalty prm.scale (crossB F i)) n l2))
      (feasPenalty prm.scale (crossB F i) • (∑ p, (s.aux p).subtract (s.dual p) i) + rhsB X F i) + s.dual p i)
      (fun i => feasPenalty prm.scale (crossB F i)) (s.aux p)
  simp only [h]
  unfold selR
  congr 1
  funext p i
  simp only
  rw [show (selAux e _).subtract (fun i => s.dual p (e i)) i = _ from congrFun (subtract_sel e _ (s.dual p)) i]

/-! ### The loop -/

/-- The options under which the matrices do not influence each other: C is not updated, every matrix has its own feasibility penalty, no tolerance
stops the inner loop, and penalties on A act on rows. -/
structure Separate (P : Problem I K R nA nB nC J) : Prop where
  updC : P.updC = false
  constA : P.updA = true → P.constA = false
  constB : P.updB = true → P.constB = false
  innerTol : NoInnerTol P.params.innerTol
  rows : P.updA = true → ∀ p, (P.pensA p).row.isSome = true

theorem sweep_sel (e : Fin I' → Fin I) (P : Problem I K R nA nB nC J) (hP : Separate P) (pensA : Fin nA → PenA I' R)
    (pensB : Fin nB → PenB I' R fun i => J (e i)) (hA : ∀ p, (pensA p).row = (P.pensA p).row) (hB : ∀ p, LocalB e (P.pensB p) (pensB p))
    (s : AOState I K R nA nB nC J) : ∃ t j j', sweep P s = .ok (t, j) ∧ sweep (selP e P pensA pensB) (selS e s) = .ok (selS e t, j') := by
  have eB : ∃ t, sweepB P s = .ok t ∧ sweepB (selP e P pensA pensB) (selS e s) = .ok (selS e t) := by
    unfold sweepB
    rw [show (selP e P pensA pensB).updB = P.updB from rfl]
    cases hu : P.updB
    · exact ⟨s, rfl, rfl⟩
    · simp only [if_true]
      obtain ⟨t, h1, h2⟩ := admmUpdateB_sel e P.params hP.innerTol P.X P.pensB pensB P.l2.2.1 hB s.F s.auxB s.dualB
      have hc := hP.constB hu
      rw [hc, h1, show (selP e P pensA pensB).constB = false from hc]
      refine ⟨_, rfl, ?_⟩
      rw [show admmUpdateB (selP e P pensA pensB).params (selP e P pensA pensB).X (selP e P pensA pensB).pensB (selP e P pensA pensB).l2.2.1 false
        (selS e s).F (selS e s).auxB (selS e s).dualB = _ from h2]
      rfl
  have eC : ∀ u, sweepC P u = u := by intro u; unfold sweepC; rw [hP.updC]; rfl
  have eC' : ∀ u, sweepC (selP e P pensA pensB) u = u := by
    intro u; unfold sweepC; rw [show (selP e P pensA pensB).updC = false from hP.updC]; rfl
  have eA : ∀ u, ∃ t j j', sweepA P u = .ok (t, j) ∧ sweepA (selP e P pensA pensB) (selS e u) = .ok (selS e t, j') := by
    intro u
    unfold sweepA
    rw [show (selP e P pensA pensB).updA = P.updA from rfl]
    cases hu : P.updA
    · exact ⟨u, none, none, rfl, rfl⟩
    · simp only [if_true]
      obtain ⟨t, h1, h2⟩ := admmUpdateA_sel e P.params hP.innerTol P.X P.pensA pensA P.l2.1 (fun p => ⟨hP.rows hu p, hA p⟩) u.F u.auxA u.dualA
      have hc := hP.constA hu
      rw [hc, h1, show (selP e P pensA pensB).constA = false from hc]
      refine ⟨_, _, some ⟨rhsA (selP e P pensA pensB).X (selS e u).F, crossA (selS e u).F⟩, rfl, ?_⟩
      rw [show admmUpdateA (selP e P pensA pensB).params (selP e P pensA pensB).X (selP e P pensA pensB).pensA (selP e P pensA pensB).l2.1 false
        (selS e u).F (selS e u).auxA (selS e u).dualA = _ from h2]
      rfl
  obtain ⟨t, h1, h2⟩ := eB
  obtain ⟨t', j, j', h3, h4⟩ := eA t
  refine ⟨t', j, j', ?_, ?_⟩
  · unfold sweep; rw [h1]; simp only [Except.bind]; rw [eC]; exact h3
  · unfold sweep; rw [h2]; simp only [Except.bind]; rw [eC']; exact h4

theorem sweeps_sel (e : Fin I' → Fin I) (P : Problem I K R nA nB nC J) (hP : Separate P) (pensA : Fin nA → PenA I' R)
    (pensB : Fin nB → PenB I' R fun i => J (e i)) (hA : ∀ p, (pensA p).row = (P.pensA p).row) (hB : ∀ p, LocalB e (P.pensB p) (pensB p))
    (s : AOState I K R nA nB nC J) : ∀ n, ∃ t, sweeps (aoOps P) n s = .ok t ∧ sweeps (aoOps (selP e P pensA pensB)) n (selS e s) = .ok (selS e t)
  | 0 => ⟨s, rfl, rfl⟩
  | n + 1 => by
    obtain ⟨t, h1, h2⟩ := sweeps_sel e P hP pensA pensB hA hB s n
    obtain ⟨t', j, j', h3, h4⟩ := sweep_sel e P hP pensA pensB hA hB t
    refine ⟨t', ?_, ?_⟩
    · rw [sweeps, h1]; simp only [Except.bind, aoOps, h3, Except.map]
    · rw [sweeps, h2]; simp only [Except.bind, aoOps, h4, Except.map]

/-- C131: a call that does not update C, with a feasibility penalty for every matrix and without tolerances, returns, for any choice of the matrices (in any order, also repeated),
the variables that a call with only these matrices and their initial values returns. Neither call raises. -/
theorem C131 (e : Fin I' → Fin I) (P : Problem I K R nA nB nC J) (hP : Separate P) (pensA : Fin nA → PenA I' R)
    (pensB : Fin nB → PenB I' R fun i => J (e i)) (hA : ∀ p, (pensA p).row = (P.pensA p).row) (hB : ∀ p, LocalB e (P.pensB p) (pensB p))
    (a : Args) (ht : a.tol = none ∨ a.tol = some 0) (init : AOState I K R nA nB nC J) :
    ∃ o o', cmfAoadmm P a init = .ok o ∧ cmfAoadmm (selP e P pensA pensB) a (selS e init) = .ok o' ∧ o'.st = selS e o.st := by
  have ht' : truthy a.tol = false := by rcases ht with h | h <;> simp [h, truthy]
  obtain ⟨t, h1, h2⟩ := sweeps_sel e P hP pensA pensB hA hB init a.nIterMax.toNat
  obtain ⟨o, ho, hs⟩ := fit_exists P a ht' init t h1
  obtain ⟨o', ho', hs'⟩ := fit_exists (selP e P pensA pensB) a ht' (selS e init) _ h2
  exact ⟨o, o', ho, ho', by rw [hs, hs']⟩

/-- Two problems that only differ in the data of other matrices than `i`, from initial values that only differ there: row `i` of A and the `i`-th B factor matrix are the same. -/
theorem C131_others (i : Fin I) (P Q : Problem I K R nA nB nC J) (hP : Separate P) (h : Q = { P with X := Q.X }) (hi : Q.X i = P.X i)
    (hB : ∀ p, ∃ q, LocalB (fun _ : Fin 1 => i) (P.pensB p) q) (a : Args) (ht : a.tol = none ∨ a.tol = some 0)
    (init init' : AOState I K R nA nB nC J) (hs : selS (fun _ : Fin 1 => i) init' = selS (fun _ : Fin 1 => i) init) :
    ∃ o o', cmfAoadmm P a init = .ok o ∧ cmfAoadmm Q a init' = .ok o' ∧ o'.st.F.A i = o.st.F.A i ∧ o'.st.F.B i = o.st.F.B i := by
  choose q hq using hB
  have hQ : Separate Q := by rw [h]; exact ⟨hP.updC, hP.constA, hP.constB, hP.innerTol, hP.rows⟩
  have hpB : Q.pensB = P.pensB := by rw [h]
  have hpA : Q.pensA = P.pensA := by rw [h]
  let rA : Fin nA → PenA 1 R := fun p => ⟨fun X _ _ => X, (P.pensA p).row, fun _ => 0⟩
  obtain ⟨o, u, ho, hu, hou⟩ := C131 (fun _ : Fin 1 => i) P hP rA q (fun p => rfl) hq a ht init
  obtain ⟨o', u', ho', hu', hou'⟩ := C131 (fun _ : Fin 1 => i) Q hQ rA q (fun p => by rw [hpA]) (fun p => by rw [hpB]; exact hq p) a ht init'
  have hsel : selP (fun _ : Fin 1 => i) Q rA q = selP (fun _ : Fin 1 => i) P rA q := by
    rw [h]
    unfold selP
    simp only [hi]
  rw [hsel, hs] at hu'
  have huu : u = u' := Except.ok.inj (hu.symm.trans hu')
  have he : selS (fun _ : Fin 1 => i) o'.st = selS (fun _ : Fin 1 => i) o.st := by rw [← hou, ← hou', huu]
  have hF := congrArg AOState.F he
  refine ⟨o, o', ho, ho', ?_, ?_⟩
  · exact congrFun (congrArg Factors.A hF) 0
  · exact congrFun (congrArg Factors.B hF) 0

/-- Penalties of the package on the rows of A. -/
inductive PkgRow
  | nonNeg
  | box (lo hi : Option ℝ)
  | l1 (γ : ℝ) (nn : Bool)

/-- For a factor with any number of rows. -/
def PkgRow.std (m R : ℕ) : PkgRow → StdPen m R
  | .nonNeg => .nonNeg
  | .box lo hi => .box lo hi
  | .l1 γ nn => .l1 γ nn

/-- Penalties of the package on the B factor matrices that treat every matrix on its own. -/
inductive PkgMat (I R : ℕ) (J : Fin I → ℕ)
  | std (p : (i : Fin I) → StdPen (J i) R)
  | bases (svd : (i : Fin I) → Matrix (Fin (J i)) (Fin R) ℝ → SVD (J i) R R) (n : ℕ) (ub : Bool)

/-- As penalty on mode 1; `bases` is `Parafac2` with `update_coordinate_matrix=False`. -/
noncomputable def PkgMat.pen : PkgMat I R J → PenB I R J
  | .std p => StdPen.toB p
  | .bases svd n ub => .parafac2 svd n ub false

/-- The same penalty for the selected matrices. -/
def PkgMat.sel (e : Fin I' → Fin I) : PkgMat I R J → PkgMat I' R fun i => J (e i)
  | .std p => .std fun i => p (e i)
  | .bases svd n ub => .bases (fun i => svd (e i)) n ub

/-- C131 for the penalties of the package. -/
theorem C131_package (e : Fin I' → Fin I) (X : Ragged I K J) (pA : Fin nA → PkgRow) (pB : Fin nB → PkgMat I R J) (pC : Fin nC → PenC K R) (l2 : ℝ × ℝ × ℝ)
    (prm : Params R) (hin : prm.innerTol = none) (updA updB : Bool) (a : Args) (ht : a.tol = none) (init : AOState I K R nA nB nC J) :
    ∃ o o', cmfAoadmm ⟨X, fun p => ((pA p).std I R).toA, fun p => (pB p).pen, pC, l2, prm, false, false, updA, updB, false⟩ a init = .ok o ∧
      cmfAoadmm (J := fun i => J (e i)) ⟨fun i => X (e i), fun p => ((pA p).std I' R).toA, fun p => ((pB p).sel e).pen, pC, l2, prm, false, false, updA, updB, false⟩ a
        (selS e init) = .ok o' ∧ o'.st = selS e o.st := by
  refine C131 e ⟨X, fun p => ((pA p).std I R).toA, fun p => (pB p).pen, pC, l2, prm, false, false, updA, updB, false⟩
    ⟨rfl, fun _ => rfl, fun _ => rfl, fun t h => (by rw [hin] at h; cases h), fun _ p => ?_⟩ _ _ (fun p => ?_) (fun p => ?_) a (.inl ht) init
  · cases hp : pA p <;> simp [hp, PkgRow.std, StdPen.toA, StdPen.row]
  · show ((pA p).std I' R).toA.row = ((pA p).std I R).toA.row
    cases pA p <;> rfl
  · show LocalB e (pB p).pen ((pB p).sel e).pen
    cases pB p with
    | std q => exact localB_ofMat e (fun i => (q i).mat) _ _
    | bases svd n ub => exact localB_parafac2 e svd n ub

/-- Three matrices with 2, 3 and 4 rows, rank 2; A is non-negative, the columns of the B factor matrices are in the unit ball: the last matrix alone gets the same factors. -/
theorem C131_example (X : Ragged 3 5 ![2, 3, 4]) (prm : Params 2) (hin : prm.innerTol = none) (init : AOState 3 5 2 1 1 0 ![2, 3, 4]) :
    ∃ o o', cmfAoadmm ⟨X, fun _ => (StdPen.nonNeg (m := 3)).toA, fun _ => StdPen.toB fun _ => .l2Ball 1 false, Fin.elim0, (0, 0, 0), prm, false, false, true, true, false⟩
        ⟨100, none, none, none, false, 0⟩ init = .ok o ∧
      cmfAoadmm (I := 1) (J := fun _ => 4) ⟨fun _ => X 2, fun _ => (StdPen.nonNeg (m := 1)).toA, fun _ => StdPen.toB fun _ => .l2Ball 1 false, Fin.elim0, (0, 0, 0), prm, false,
        false, true, true, false⟩ ⟨100, none, none, none, false, 0⟩ (selS (fun _ : Fin 1 => (2 : Fin 3)) init) = .ok o' ∧
      o'.st.F.A 0 = o.st.F.A 2 ∧ o'.st.F.B 0 = o.st.F.B 2 := by
  obtain ⟨o, o', h1, h2, h3⟩ := C131_package (fun _ : Fin 1 => (2 : Fin 3)) X (fun _ : Fin 1 => .nonNeg) (fun _ : Fin 1 => .std fun _ => .l2Ball 1 false) Fin.elim0 (0, 0, 0) prm hin
    true true ⟨100, none, none, none, false, 0⟩ rfl init
  exact ⟨o, o', h1, h2, by rw [h3]; rfl, by rw [h3]; rfl⟩

/-! ### The options matter -/

theorem rowA_one {n : ℕ} {prm : Params 1} (hP : ValidSVD prm) (hN : prm.nInner = 1) {X : Ragged I 1 fun _ => 1} {pens : Fin n → PenA I 1} {l2 : ℝ} {c : Bool}
    {F : Factors I 1 1 fun _ => 1} {aux dual : Fin n → Matrix (Fin I) (Fin 1) ℝ} {m : Option ℝ} {ρ : Fin I → ℝ}
    (hρ : feasPenalties prm.scale c (crossA F) = .ok (m, ρ)) {s} (hs : admmUpdateA prm X pens l2 c F aux dual = .ok s) (i : Fin I) {g : ℝ}
    (hg : addRidge (crossA F i) (ρ i) n l2 0 0 = g) (h0 : g ≠ 0) :
    s.x i 0 = (ρ i * (∑ p, (aux p i 0 - dual p i 0)) + F.B i 0 0 * (X i 0 0 * F.C 0 0)) / g := by
  unfold admmUpdateA at hs
  rw [hρ] at hs
  simp only [Except.bind] at hs
  split at hs
  · cases hs
  · cases hs
    rw [hN]
    simp only [innerLoop, ite_self, stepA]
    rw [svdSolveRow_one (hP _) (by rw [hg]; exact h0), hg]
    simp [rhsA, Finset.sum_apply, Matrix.mul_apply]

/-- Two 1 × 1 matrices, of which B and C are 1 and 2, and 1. -/
def pairF : Factors 2 1 1 (fun _ => 1) := ⟨fun _ _ => 0, fun i => sc (![1, 2] i), sc 1⟩

/-- The initial values: everything else is 0. -/
def pairS : AOState 2 1 1 1 0 0 (fun _ => 1) := ⟨none, pairF, fun _ _ _ => 0, fun _ _ _ => 0, Fin.elim0, Fin.elim0, Fin.elim0, Fin.elim0⟩

/-- Only A is updated, with non-negativity and a constant feasibility penalty. -/
noncomputable def pairP (prm : Params 1) : Problem 2 1 1 1 0 0 (fun _ => 1) :=
  ⟨fun _ => sc 1, fun _ => (StdPen.nonNeg (m := 2)).toA, Fin.elim0, Fin.elim0, (0, 0, 0), prm, true, false, true, false, false⟩

/-- With a constant feasibility penalty, C131 is false: the other matrix determines it. -/
theorem C131_constant_false : ∃ (P : Problem 2 1 1 1 0 0 fun _ => 1) (init : AOState 2 1 1 1 0 0 fun _ => 1) (a : Args) (o : Output _) (o' : Output _), ValidSVD P.params ∧
    P.constA = true ∧ P.updC = false ∧ P.params.innerTol = none ∧ a.tol = none ∧ P.pensA = (fun _ => (StdPen.nonNeg (m := 2)).toA) ∧
    cmfAoadmm P a init = .ok o ∧ cmfAoadmm (selP (fun _ : Fin 1 => 0) P (fun _ => (StdPen.nonNeg (m := 1)).toA) Fin.elim0) a (selS (fun _ => 0) init) = .ok o' ∧
    o.st.F.A 0 0 = 1 / 3 ∧ o'.st.F.A 0 0 = 2 / 3 := by
  obtain ⟨prm, hP, hN, hT, hs⟩ := exists_params 1 1 none 1
  have hc : ∀ i, crossA pairF i = sc (![1, 2] i * ![1, 2] i) := by
    intro i; funext j k; simp [crossA, pairF, sc, Matrix.mul_apply]
  have hf : feasPenalties prm.scale true (crossA pairF) = .ok (some 2, fun _ => 2) := by
    have : vecMax (List.ofFn fun i => feasPenalty prm.scale (crossA pairF i)) = .ok 2 := by
      rw [vecMax_ok]
      simp only [hc, feasPenalty_sc, hs, List.mem_ofFn]
      constructor
      · exact ⟨1, by norm_num⟩
      · rintro _ ⟨i, rfl⟩
        fin_cases i <;> norm_num
    simp only [feasPenalties, if_true, this]
    rfl
  have hf' : feasPenalties prm.scale true (crossA (selF (fun _ : Fin 1 => 0) pairF)) = .ok (some (1 / 2), fun _ => 1 / 2) := by
    have : vecMax (List.ofFn fun i => feasPenalty prm.scale (crossA (selF (fun _ : Fin 1 => 0) pairF) i)) = .ok (1 / 2) := by
      rw [vecMax_ok]
      have : ∀ i, crossA (selF (fun _ : Fin 1 => 0) pairF) i = crossA pairF 0 := fun i => rfl
      simp only [this, hc, feasPenalty_sc, hs, List.mem_ofFn]
      constructor
      · exact ⟨0, by norm_num⟩
      · rintro _ ⟨i, rfl⟩
        norm_num
    simp only [feasPenalties, if_true, this]
    rfl
  have ok : ∃ s, admmUpdateA prm (pairP prm).X (pairP prm).pensA 0 true pairF pairS.auxA pairS.dualA = .ok s := by
    unfold admmUpdateA; rw [hf]; exact ⟨_, rfl⟩
  have ok' : ∃ s, admmUpdateA prm (fun _ => sc 1) (fun _ : Fin 1 => (StdPen.nonNeg (m := 1)).toA) 0 true (selF (fun _ : Fin 1 => 0) pairF)
      (fun p i => pairS.auxA p 0) (fun p i => pairS.dualA p 0) = .ok s := by
    unfold admmUpdateA; rw [hf']; exact ⟨_, rfl⟩
  obtain ⟨s, h1⟩ := ok
  obtain ⟨s', h1'⟩ := ok'
  have x1 := rowA_one hP hN hf h1 0 (g := 3) (by rw [hc, addRidge_sc]; norm_num) (by norm_num)
  have x1' := rowA_one hP hN hf' h1' 0 (g := 3 / 2)
    (by rw [show crossA (selF (fun _ : Fin 1 => 0) pairF) 0 = crossA pairF 0 from rfl, hc, addRidge_sc]; norm_num) (by norm_num)
  have w1 : sweeps (aoOps (pairP prm)) 1 pairS = .ok { pairS with weights := none, F := ⟨s.x, pairF.B, pairF.C⟩, auxA := s.aux, dualA := s.dual } := by
    refine sweeps_one (i := some ⟨rhsA (pairP prm).X pairF, crossA pairF⟩) ?_
    unfold sweep sweepB sweepC sweepA
    simp only [show (pairP prm).updB = false from rfl, show (pairP prm).updC = false from rfl, show (pairP prm).updA = true from rfl, if_true, Bool.false_eq_true,
      if_false, Except.bind]
    rw [show admmUpdateA (pairP prm).params (pairP prm).X (pairP prm).pensA (pairP prm).l2.1 (pairP prm).constA pairS.F pairS.auxA pairS.dualA = .ok s from h1]
    rfl
  let Q := selP (fun _ : Fin 1 => 0) (pairP prm) (fun _ => (StdPen.nonNeg (m := 1)).toA) Fin.elim0
  let t : AOState 1 1 1 1 0 0 fun _ => 1 := selS (fun _ => 0) pairS
  have w2 : sweeps (aoOps Q) 1 t = .ok { t with weights := none, F := ⟨s'.x, t.F.B, t.F.C⟩, auxA := s'.aux, dualA := s'.dual } := by
    refine sweeps_one (i := some ⟨rhsA Q.X t.F, crossA t.F⟩) ?_
    unfold sweep sweepB sweepC sweepA
    simp only [show Q.updB = false from rfl, show Q.updC = false from rfl, show Q.updA = true from rfl, if_true, Bool.false_eq_true, if_false, Except.bind]
    rw [show admmUpdateA Q.params Q.X Q.pensA Q.l2.1 Q.constA t.F t.auxA t.dualA = .ok s' from h1']
    rfl
  obtain ⟨o, ho, hos⟩ := fit_exists (pairP prm) ⟨1, none, none, none, false, 0⟩ rfl pairS _ w1
  obtain ⟨o', ho', hos'⟩ := fit_exists Q ⟨1, none, none, none, false, 0⟩ rfl t _ w2
  refine ⟨pairP prm, pairS, ⟨1, none, none, none, false, 0⟩, o, o', hP, rfl, rfl, hT, rfl, rfl, ho, ho', ?_, ?_⟩
  · rw [hos]
    show s.x 0 0 = _
    rw [x1]
    simp [pairS, pairF, sc, pairP]
  · rw [hos']
    show s'.x 0 0 = _
    rw [x1']
    simp [pairS, pairF, sc, selF]

/-- `I` matrices that are `x i`, all factors 1, no penalties; C and A are updated. -/
def onesP (prm : Params 1) (x : Fin I → ℝ) : Problem I 1 1 0 0 0 (fun _ => 1) :=
  ⟨fun i => sc (x i), Fin.elim0, Fin.elim0, Fin.elim0, (0, 0, 0), prm, false, false, true, false, true⟩

/-- The initial values. -/
def onesS (I : ℕ) : AOState I 1 1 0 0 0 (fun _ => 1) := ⟨none, ⟨fun _ _ => 1, fun _ => sc 1, sc 1⟩, Fin.elim0, Fin.elim0, Fin.elim0, Fin.elim0, Fin.elim0, Fin.elim0⟩

theorem onesP_run {prm : Params 1} (hP : ValidSVD prm) (hN : prm.nInner = 1) (x : Fin I → ℝ) (hI : 0 < I) (hx : ∑ i, x i ≠ 0) : ∃ o,
    cmfAoadmm (onesP prm x) ⟨1, none, none, none, false, 0⟩ (onesS I) = .ok o ∧ ∀ i, o.st.F.A i 0 = x i * I / ∑ i, x i := by
  have hI' : (I : ℝ) ≠ 0 := by exact_mod_cast hI.ne'
  have hC : (admmUpdateC prm (onesP prm x).X (n := 0) Fin.elim0 0 (onesS I).F Fin.elim0 Fin.elim0).x = sc ((∑ i, x i) / I) := by
    unfold admmUpdateC
    rw [hN]
    simp only [innerLoop, ite_self, stepC]
    have hg : addRidge (crossC (onesS I).F) (feasPenalty prm.scale (crossC (onesS I).F)) 0 0 0 0 = I := by
      simp only [addRidge, crossC, Matrix.add_apply, Matrix.sum_apply]
      simp [onesS, scaledB, sc, Matrix.mul_apply]
    rw [svdSolve_one (hP _) (by rw [hg]; exact hI'), hg]
    congr 2
    simp [rhsC, onesS, scaledB, sc, onesP, Matrix.sum_apply, Matrix.mul_apply]
  let F : Factors I 1 1 fun _ => 1 := ⟨fun _ _ => 1, fun _ => sc 1, sc ((∑ i, x i) / I)⟩
  have hf : feasPenalties prm.scale false (crossA F) = .ok (none, fun i => feasPenalty prm.scale (crossA F i)) := rfl
  obtain ⟨s, hs⟩ : ∃ s, admmUpdateA prm (onesP prm x).X (n := 0) Fin.elim0 0 false F Fin.elim0 Fin.elim0 = .ok s := by
    unfold admmUpdateA; rw [hf]; simp [Except.bind]
  have hrow := fun i => rowA_one hP hN hf hs i (g := ((∑ i, x i) / I) * ((∑ i, x i) / I))
    (by simp [addRidge, crossA, F, sc, Matrix.mul_apply]) (by positivity)
  have hw : sweeps (aoOps (onesP prm x)) 1 (onesS I) = .ok { onesS I with weights := none, F := ⟨s.x, F.B, F.C⟩, auxA := s.aux, dualA := s.dual, auxC := Fin.elim0, dualC := Fin.elim0 } := by
    refine sweeps_one (i := some ⟨rhsA (onesP prm x).X F, crossA F⟩) ?_
    have e : sweepC (onesP prm x) (onesS I) = { onesS I with F := F } := by
      unfold sweepC
      simp only [show (onesP prm x).updC = true from rfl, if_true]
      have h2 : ∀ t : MatState 1 1 0, t.aux = Fin.elim0 := fun t => funext fun p => p.elim0
      have h3 : ∀ t : MatState 1 1 0, t.dual = Fin.elim0 := fun t => funext fun p => p.elim0
      rw [h2, h3]
      rw [show (admmUpdateC (onesP prm x).params (onesP prm x).X (onesP prm x).pensC (onesP prm x).l2.2.2 (onesS I).F (onesS I).auxC (onesS I).dualC).x = _ from hC]
      rfl
    unfold sweep sweepB
    simp only [show (onesP prm x).updB = false from rfl, Bool.false_eq_true, if_false, Except.bind]
    rw [e]
    unfold sweepA
    simp only [show (onesP prm x).updA = true from rfl, if_true]
    rw [show admmUpdateA (onesP prm x).params (onesP prm x).X (onesP prm x).pensA (onesP prm x).l2.1 (onesP prm x).constA F (onesS I).auxA (onesS I).dualA = .ok s from hs]
    rfl
  obtain ⟨o, ho, hos⟩ := fit_exists (onesP prm x) ⟨1, none, none, none, false, 0⟩ rfl (onesS I) _ hw
  refine ⟨o, ho, fun i => ?_⟩
  rw [hos]
  show s.x i 0 = _
  rw [hrow]
  simp only [univ_eq_empty, sum_empty, mul_zero, zero_add, F, onesP, sc, one_mul]
  field_simp

/-- If C is updated, C131 is false: the other matrix changes C, and thereby the row of A. -/
theorem C131_updateC_false : ∃ (P : Problem 2 1 1 0 0 0 fun _ => 1) (init : AOState 2 1 1 0 0 0 fun _ => 1) (a : Args) (o : Output _) (o' : Output _), ValidSVD P.params ∧
    P.constA = false ∧ P.constB = false ∧ P.updC = true ∧ P.params.innerTol = none ∧ a.tol = none ∧ cmfAoadmm P a init = .ok o ∧
    cmfAoadmm (selP (fun _ : Fin 1 => 0) P Fin.elim0 Fin.elim0) a (selS (fun _ => 0) init) = .ok o' ∧ o.st.F.A 0 0 = 2 ∧ o'.st.F.A 0 0 = 1 := by
  obtain ⟨prm, hP, hN, hT, -⟩ := exists_params 1 1 none 1
  obtain ⟨o, ho, h⟩ := onesP_run (I := 2) hP hN ![1, 0] (by norm_num) (by simp)
  obtain ⟨o', ho', h'⟩ := onesP_run (I := 1) hP hN (fun _ => 1) (by norm_num) (by simp)
  have hS : selS (fun _ : Fin 1 => 0) (onesS 2) = onesS 1 := by
    unfold selS onesS selF
    congr 1 <;> exact funext fun p => p.elim0
  refine ⟨onesP prm ![1, 0], onesS 2, ⟨1, none, none, none, false, 0⟩, o, o', hP, rfl, rfl, rfl, hT, rfl, ho, ?_, ?_, ?_⟩
  · rw [hS]
    have : selP (fun _ : Fin 1 => 0) (onesP prm ![1, 0]) Fin.elim0 Fin.elim0 = onesP prm fun _ => 1 := rfl
    rw [this]
    exact ho'
  · rw [h 0]; simp
  · rw [h' 0]; simp

end Verif.Props
