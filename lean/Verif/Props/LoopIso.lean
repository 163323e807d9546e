import Verif.Props.LoopPerm

/-!
# C94: the coordinates of the rows and columns
-/

namespace Verif.Props

open Verif.Loop Verif.ADMM Verif.Penalties Verif.Spec Finset Matrix

variable {I K K' R nA nB nC n m m' : ℕ} {J J' : Fin I → ℕ}

/-! ### The same data in other coordinates -/

/-- Multiplication with `Q` preserves inner products of vectors: a permutation of the coordinates, a rotation, or the insertion of zeros. -/
def IsIso (Q : Matrix (Fin m') (Fin m) ℝ) : Prop := Q.transpose * Q = 1

/-- The coordinates that change: of the rows of the matrices and of their columns. -/
structure Coords (I K K' : ℕ) (J J' : Fin I → ℕ) where
  Q : (i : Fin I) → Matrix (Fin (J' i)) (Fin (J i)) ℝ
  W : Matrix (Fin K') (Fin K) ℝ
  isoQ : ∀ i, IsIso (Q i)
  isoW : IsIso W

/-- The data in the new coordinates. -/
def isoX (c : Coords I K K' J J') (X : Ragged I K J) : Ragged I K' J' := fun i => c.Q i * X i * c.W.transpose

/-- The factorization in the new coordinates. -/
def isoF (c : Coords I K K' J J') (F : Factors I K R J) : Factors I K' R J' := ⟨F.A, fun i => c.Q i * F.B i, c.W * F.C⟩

/-- Auxiliary variables of mode 1 in the new coordinates. -/
def isoAux (c : Coords I K K' J J') : AuxB I R J → AuxB I R J'
  | .mats X => .mats fun i => c.Q i * X i
  | .p2 a => .p2 ⟨fun i => c.Q i * a.bases i, a.coord⟩

/-- All variables in the new coordinates. -/
def isoS (c : Coords I K K' J J') (s : AOState I K R nA nB nC J) : AOState I K' R nA nB nC J' where
  weights := s.weights
  F := isoF c s.F
  auxA := s.auxA
  dualA := s.dualA
  auxB := fun p => isoAux c (s.auxB p)
  dualB := fun p i => c.Q i * s.dualB p i
  auxC := fun p => c.W * s.auxC p
  dualC := fun p => c.W * s.dualC p

/-- `q` is the penalty `p` on mode 1 in the new coordinates. The feasibility penalties are not negative unless the scale is. -/
def SameB (c : Coords I K K' J J') (scale : ℝ) (p : PenB I R J) (q : PenB I R J') : Prop :=
  (∀ X : Ragged I R J, q.value (fun i => c.Q i * X i) = p.value X) ∧
    ∀ (X : Ragged I R J) (ρ : Fin I → ℝ) (aux : AuxB I R J), (0 ≤ scale → ∀ i, 0 ≤ ρ i) →
      q.update (fun i => c.Q i * X i) ρ (isoAux c aux) = isoAux c (p.update X ρ aux)

/-- `q` is the penalty `p` on mode 2 in the new coordinates. -/
def SameC (W : Matrix (Fin K') (Fin K) ℝ) (scale : ℝ) (p : PenC K R) (q : PenC K' R) : Prop :=
  (∀ X : Matrix (Fin K) (Fin R) ℝ, q.value (W * X) = p.value X) ∧
    ∀ (X : Matrix (Fin K) (Fin R) ℝ) (ρ : ℝ) (aux : Matrix (Fin K) (Fin R) ℝ), (0 ≤ scale → 0 ≤ ρ) → q.mat (W * X) ρ (W * aux) = W * p.mat X ρ aux

/-- The problem in the new coordinates. -/
def isoP (c : Coords I K K' J J') (P : Problem I K R nA nB nC J) (pensB : Fin nB → PenB I R J') (pensC : Fin nC → PenC K' R) : Problem I K' R nA nB nC J' where
  X := isoX c P.X
  pensA := P.pensA
  pensB := pensB
  pensC := pensC
  l2 := P.l2
  params := P.params
  constA := P.constA
  constB := P.constB
  updA := P.updA
  updB := P.updB
  updC := P.updC

/-! ### Norms and systems -/

theorem IsIso.cancel {Q : Matrix (Fin m') (Fin m) ℝ} (h : IsIso Q) {k : ℕ} (M : Matrix (Fin m) (Fin k) ℝ) : Q.transpose * (Q * M) = M := by
  rw [← Matrix.mul_assoc, h, Matrix.one_mul]

theorem IsIso.gram {Q : Matrix (Fin m') (Fin m) ℝ} (h : IsIso Q) {k l : ℕ} (M : Matrix (Fin m) (Fin k) ℝ) (N : Matrix (Fin m) (Fin l) ℝ) :
    (Q * M).transpose * (Q * N) = M.transpose * N := by
  rw [transpose_mul, Matrix.mul_assoc, h.cancel]

theorem colSq_gram {k : ℕ} (M : Matrix (Fin m) (Fin k) ℝ) (r : Fin k) : ∑ i, M i r ^ 2 = (M.transpose * M) r r := by
  rw [Matrix.mul_apply]
  exact sum_congr rfl fun i _ => by rw [transpose_apply, sq]

theorem IsIso.col {Q : Matrix (Fin m') (Fin m) ℝ} (h : IsIso Q) {k : ℕ} (M : Matrix (Fin m) (Fin k) ℝ) (r : Fin k) :
    ∑ i, (Q * M) i r ^ 2 = ∑ i, M i r ^ 2 := by
  rw [colSq_gram, colSq_gram, h.gram]

theorem IsIso.sumSq {Q : Matrix (Fin m') (Fin m) ℝ} (h : IsIso Q) {k : ℕ} (M : Matrix (Fin m) (Fin k) ℝ) :
    ∑ i, ∑ r, (Q * M) i r ^ 2 = ∑ i, ∑ r, M i r ^ 2 := by
  rw [sum_comm, sum_comm (f := fun i r => M i r ^ 2)]
  exact sum_congr rfl fun r _ => h.col M r

theorem IsIso.sumSqT {W : Matrix (Fin m') (Fin m) ℝ} (h : IsIso W) {k : ℕ} (M : Matrix (Fin k) (Fin m) ℝ) :
    ∑ i, ∑ r, (M * W.transpose) i r ^ 2 = ∑ i, ∑ r, M i r ^ 2 := by
  have e : M * W.transpose = (W * M.transpose).transpose := by rw [transpose_mul, transpose_transpose]
  rw [e, sum_comm]
  simp only [transpose_apply]
  rw [h.sumSq, sum_comm]
  rfl

theorem IsIso.norm {Q : Matrix (Fin m') (Fin m) ℝ} (h : IsIso Q) {k : ℕ} (M : Matrix (Fin m) (Fin k) ℝ) : matNorm (Q * M) = matNorm M := by
  unfold matNorm
  rw [h.sumSq]

theorem IsIso.gap {Q : Matrix (Fin m') (Fin m) ℝ} (h : IsIso Q) (X Z : Matrix (Fin m) (Fin R) ℝ) : matGap (Q * X) (Q * Z) = matGap X Z := by
  unfold matGap
  rw [← Matrix.mul_sub, h.norm, h.norm]

theorem rootSumSq_iso (c : Coords I K K' J J') (X : Ragged I n J) : rootSumSq (fun i => c.Q i * X i) = rootSumSq X := by
  unfold rootSumSq
  exact congrArg Real.sqrt (sum_congr rfl fun i _ => (c.isoQ i).sumSq (X i))

theorem rootSumSq_isoX (c : Coords I K K' J J') (X : Ragged I K J) : rootSumSq (isoX c X) = rootSumSq X := by
  unfold rootSumSq isoX
  exact congrArg Real.sqrt (sum_congr rfl fun i _ => by rw [c.isoW.sumSqT, (c.isoQ i).sumSq])

theorem subtract_iso (c : Coords I K K' J J') (x : AuxB I R J) (d : Ragged I R J) :
    (isoAux c x).subtract (fun i => c.Q i * d i) = fun i => c.Q i * x.subtract d i := by
  cases x with
  | mats X => funext i; exact (Matrix.mul_sub _ _ _).symm
  | p2 a =>
    funext i
    show c.Q i * a.bases i * a.coord - c.Q i * d i = c.Q i * (a.bases i * a.coord - d i)
    rw [Matrix.mul_sub, Matrix.mul_assoc]

theorem raggedGap_iso (c : Coords I K K' J J') (X : Ragged I R J) (Z : AuxB I R J) : raggedGap (fun i => c.Q i * X i) (isoAux c Z) = raggedGap X Z := by
  unfold raggedGap
  rw [subtract_iso, rootSumSq_iso, rootSumSq_iso]

theorem svdSolve_left (d : SVD R R R) (Q : Matrix (Fin m') (Fin m) ℝ) (M : Matrix (Fin m) (Fin R) ℝ) : svdSolve d (Q * M) = Q * svdSolve d M := by
  simp only [svdSolve, Matrix.mul_assoc]

theorem mulCols (M : Matrix (Fin m) (Fin R) ℝ) (a : Fin R → ℝ) : (Matrix.of fun j r => M j r * a r) = M * Matrix.diagonal a := by
  ext j r
  rw [Matrix.mul_diagonal]
  rfl

theorem crossA_iso (c : Coords I K K' J J') (F : Factors I K R J) : crossA (isoF c F) = crossA F := by
  funext i
  simp only [crossA, isoF, (c.isoQ i).gram, c.isoW.gram]

theorem crossB_iso (c : Coords I K K' J J') (F : Factors I K R J) : crossB (isoF c F) = crossB F := by
  funext i
  simp only [crossB, isoF, c.isoW.gram]

theorem scaledB_iso (c : Coords I K K' J J') (F : Factors I K R J) (i : Fin I) : scaledB (isoF c F) i = c.Q i * scaledB F i := by
  simp only [scaledB, isoF, mulCols, Matrix.mul_assoc]

theorem crossC_iso (c : Coords I K K' J J') (F : Factors I K R J) : crossC (isoF c F) = crossC F := by
  simp only [crossC, scaledB_iso, (c.isoQ _).gram]

theorem rhsA_iso (c : Coords I K K' J J') (X : Ragged I K J) (F : Factors I K R J) : rhsA (isoX c X) (isoF c F) = rhsA X F := by
  have e : ∀ i, (c.Q i * F.B i).transpose * (c.Q i * X i * c.W.transpose) * (c.W * F.C) = (F.B i).transpose * X i * F.C := by
    intro i
    rw [Matrix.mul_assoc (c.Q i), (c.isoQ i).gram, Matrix.mul_assoc, Matrix.mul_assoc (X i), c.isoW.cancel, Matrix.mul_assoc]
  funext i
  simp only [rhsA, isoX, isoF, ← Matrix.mul_assoc, ite_self]
  simp only [Matrix.mul_assoc]
  have := e i
  simp only [Matrix.mul_assoc] at this
  rw [this]

theorem rhsB_iso (c : Coords I K K' J J') (X : Ragged I K J) (F : Factors I K R J) (i : Fin I) : rhsB (isoX c X) (isoF c F) i = c.Q i * rhsB X F i := by
  simp only [rhsB, isoX, isoF, mulCols, Matrix.mul_assoc]
  rw [c.isoW.cancel]

theorem rhsC_iso (c : Coords I K K' J J') (X : Ragged I K J) (F : Factors I K R J) : rhsC (isoX c X) (isoF c F) = c.W * rhsC X F := by
  simp only [rhsC, Matrix.mul_sum, scaledB_iso, isoX]
  refine sum_congr rfl fun i _ => ?_
  rw [transpose_mul, transpose_transpose, Matrix.mul_assoc, (c.isoQ i).gram]

/-! ### The updates -/

/-- Variables of the B-update in the new coordinates. -/
def isoR (c : Coords I K K' J J') (s : RagState I R n J) : RagState I R n J' :=
  ⟨fun i => c.Q i * s.x i, fun p => isoAux c (s.aux p), fun p i => c.Q i * s.dual p i⟩

/-- Variables of the C-update in the new coordinates. -/
def isoM (W : Matrix (Fin K') (Fin K) ℝ) (s : MatState K R n) : MatState K' R n := ⟨W * s.x, fun p => W * s.aux p, fun p => W * s.dual p⟩

theorem ragState_ext {a b : RagState I R n J} (h1 : a.x = b.x) (h2 : a.aux = b.aux) (h3 : a.dual = b.dual) : a = b := by
  cases a; cases b; cases h1; cases h2; cases h3; rfl

theorem ragStop_iso (c : Coords I K K' J J') (tol : Option ℝ) (s s' : RagState I R n J) : ragStop tol (isoR c s) (isoR c s') = ragStop tol s s' := by
  unfold ragStop
  have e : (fun i => (isoR c s').x i - (isoR c s).x i) = fun i => c.Q i * (s'.x i - s.x i) := funext fun i => (Matrix.mul_sub _ _ _).symm
  rw [e, rootSumSq_iso c (fun i => s'.x i - s.x i), show (isoR c s').x = fun i => c.Q i * s'.x i from rfl, rootSumSq_iso c s'.x]
  congr 2
  funext p
  exact raggedGap_iso c _ _

theorem matStop_iso {W : Matrix (Fin K') (Fin K) ℝ} (h : IsIso W) (tol : Option ℝ) (s s' : MatState K R n) :
    matStop tol (isoM W s) (isoM W s') = matStop tol s s' := by
  unfold matStop
  simp only [isoM]
  rw [← Matrix.mul_sub, h.norm, h.norm]
  congr 2
  funext p
  exact h.gap _ _

theorem admmUpdateA_iso (c : Coords I K K' J J') (prm : Params R) (X : Ragged I K J) (pens : Fin n → PenA I R) (l2 : ℝ) (co : Bool) (F : Factors I K R J)
    (aux dual : Fin n → Matrix (Fin I) (Fin R) ℝ) :
    admmUpdateA prm (isoX c X) pens l2 co (isoF c F) aux dual = admmUpdateA prm X pens l2 co F aux dual := by
  unfold admmUpdateA
  rw [crossA_iso, rhsA_iso]
  rfl

theorem admmUpdateB_iso (c : Coords I K K' J J') (prm : Params R) (X : Ragged I K J) (pens : Fin n → PenB I R J) (pens' : Fin n → PenB I R J') (l2 : ℝ)
    (co : Bool) (hp : ∀ p, SameB c prm.scale (pens p) (pens' p)) (F : Factors I K R J) (aux : Fin n → AuxB I R J) (dual : Fin n → Ragged I R J) :
    admmUpdateB prm (isoX c X) pens' l2 co (isoF c F) (fun p => isoAux c (aux p)) (fun p i => c.Q i * dual p i) =
      (admmUpdateB prm X pens l2 co F aux dual).map (isoR c) := by
  unfold admmUpdateB
  rw [crossB_iso]
  cases hf : feasPenalties prm.scale co (crossB F) with
  | error e => rfl
  | ok ρ =>
    have hρ : 0 ≤ prm.scale → ∀ i, 0 ≤ ρ.2 i := by
      intro hs
      have := feasPenalties_ok (o := ρ.1) (ρ := ρ.2) hf
      simp only [feasPenalty_B] at this
      exact this.1.nonneg (weightB_nonneg hs F)
    simp only [Except.map, Except.bind]
    refine congrArg Except.ok (innerLoop_map (f := isoR c) (s := ⟨F.B, aux, dual⟩) (fun s => ?_) (ragStop_iso c _) _)
    set t := stepB pens ρ.2 (fun i => prm.svd (addRidge (crossB F i) (ρ.2 i) n l2)) (rhsB X F) s with ht
    set t' := stepB pens' ρ.2 (fun i => prm.svd (addRidge (crossB F i) (ρ.2 i) n l2)) (rhsB (isoX c X) (isoF c F)) (isoR c s) with ht'
    have hx : t'.x = fun i => c.Q i * t.x i := by
      funext i
      show svdSolve _ (ρ.2 i • (∑ p, ((isoR c s).aux p).subtract ((isoR c s).dual p) i) + rhsB (isoX c X) (isoF c F) i) = c.Q i * svdSolve _ _
      have : ∀ p, ((isoR c s).aux p).subtract ((isoR c s).dual p) i = c.Q i * (s.aux p).subtract (s.dual p) i :=
        fun p => congrFun (subtract_iso c (s.aux p) (s.dual p)) i
      simp only [this]
      rw [rhsB_iso, ← Matrix.mul_sum, ← Matrix.mul_smul, ← Matrix.mul_add, svdSolve_left]
    have haux : ∀ p, t'.aux p = isoAux c (t.aux p) := by
      intro p
      show (pens' p).update (fun i => t'.x i + (isoR c s).dual p i) ρ.2 ((isoR c s).aux p) = _
      have e : (fun i => t'.x i + (isoR c s).dual p i) = fun i => c.Q i * (t.x i + s.dual p i) := by
        funext i
        rw [hx, Matrix.mul_add]
        rfl
      rw [e]
      exact (hp p).2 _ _ _ hρ
    have hdual : ∀ p, t'.dual p = fun i => c.Q i * t.dual p i := by
      intro p
      funext i
      show t'.x i - (t'.aux p).subtract ((isoR c s).dual p) i = c.Q i * (t.x i - (t.aux p).subtract (s.dual p) i)
      rw [haux p, hx, Matrix.mul_sub, show (isoAux c (t.aux p)).subtract ((isoR c s).dual p) i = _ from congrFun (subtract_iso c _ (s.dual p)) i]
    exact ragState_ext hx (funext haux) (funext hdual)

theorem admmUpdateC_iso (c : Coords I K K' J J') (prm : Params R) (X : Ragged I K J) (pens : Fin n → PenC K R) (pens' : Fin n → PenC K' R) (l2 : ℝ)
    (hp : ∀ p, SameC c.W prm.scale (pens p) (pens' p)) (F : Factors I K R J) (aux dual : Fin n → Matrix (Fin K) (Fin R) ℝ) :
    admmUpdateC prm (isoX c X) pens' l2 (isoF c F) (fun p => c.W * aux p) (fun p => c.W * dual p) = isoM c.W (admmUpdateC prm X pens l2 F aux dual) := by
  unfold admmUpdateC
  rw [crossC_iso, rhsC_iso]
  refine innerLoop_map (f := isoM c.W) (s := ⟨F.C, aux, dual⟩) (fun s => ?_) (matStop_iso c.isoW _) _
  have hρ : 0 ≤ prm.scale → 0 ≤ feasPenalty prm.scale (crossC F) := fun hs => by rw [feasPenalty_C]; exact weightC_nonneg hs F
  set ρ := feasPenalty prm.scale (crossC F)
  set t := stepC pens ρ (prm.svd (addRidge (crossC F) ρ n l2)) (rhsC X F) s with ht
  set t' := stepC pens' ρ (prm.svd (addRidge (crossC F) ρ n l2)) (c.W * rhsC X F) (isoM c.W s) with ht'
  have hx : t'.x = c.W * t.x := by
    show svdSolve _ (ρ • (∑ p, (c.W * s.aux p - c.W * s.dual p)) + c.W * rhsC X F) = c.W * svdSolve _ _
    simp only [← Matrix.mul_sub]
    rw [← Matrix.mul_sum, ← Matrix.mul_smul, ← Matrix.mul_add, svdSolve_left]
  have haux : ∀ p, t'.aux p = c.W * t.aux p := by
    intro p
    show (pens' p).mat (t'.x + c.W * s.dual p) ρ (c.W * s.aux p) = _
    rw [hx, ← Matrix.mul_add]
    exact (hp p).2 _ _ _ hρ
  have hdual : ∀ p, t'.dual p = c.W * t.dual p := by
    intro p
    show t'.x - (t'.aux p - c.W * s.dual p) = c.W * (t.x - (t.aux p - s.dual p))
    rw [haux p, hx, Matrix.mul_sub, Matrix.mul_sub]
  exact matState_ext hx (funext haux) (funext hdual)

/-! ### The loop -/

theorem sweep_iso (c : Coords I K K' J J') (P : Problem I K R nA nB nC J) (pensB : Fin nB → PenB I R J') (pensC : Fin nC → PenC K' R)
    (hB : ∀ p, SameB c P.params.scale (P.pensB p) (pensB p)) (hC : ∀ p, SameC c.W P.params.scale (P.pensC p) (pensC p)) (s : AOState I K R nA nB nC J) :
    (sweep (isoP c P pensB pensC) (isoS c s)).map Prod.fst = (sweep P s).map fun x => isoS c x.1 := by
  have eB : sweepB (isoP c P pensB pensC) (isoS c s) = (sweepB P s).map (isoS c) := by
    unfold sweepB
    rw [show (isoP c P pensB pensC).updB = P.updB from rfl]
    cases P.updB
    · rfl
    · simp only [if_true]
      have := admmUpdateB_iso c P.params P.X P.pensB pensB P.l2.2.1 P.constB hB s.F s.auxB s.dualB
      rw [show admmUpdateB (isoP c P pensB pensC).params (isoP c P pensB pensC).X (isoP c P pensB pensC).pensB (isoP c P pensB pensC).l2.2.1
        (isoP c P pensB pensC).constB (isoS c s).F (isoS c s).auxB (isoS c s).dualB = _ from this]
      cases admmUpdateB P.params P.X P.pensB P.l2.2.1 P.constB s.F s.auxB s.dualB <;> rfl
  have eC : ∀ u, sweepC (isoP c P pensB pensC) (isoS c u) = isoS c (sweepC P u) := by
    intro u
    unfold sweepC
    rw [show (isoP c P pensB pensC).updC = P.updC from rfl]
    cases P.updC
    · rfl
    · simp only [if_true]
      have := admmUpdateC_iso c P.params P.X P.pensC pensC P.l2.2.2 hC u.F u.auxC u.dualC
      rw [show admmUpdateC (isoP c P pensB pensC).params (isoP c P pensB pensC).X (isoP c P pensB pensC).pensC (isoP c P pensB pensC).l2.2.2
        (isoS c u).F (isoS c u).auxC (isoS c u).dualC = _ from this]
      rfl
  have eA : ∀ u, (sweepA (isoP c P pensB pensC) (isoS c u)).map Prod.fst = (sweepA P u).map fun x => isoS c x.1 := by
    intro u
    unfold sweepA
    rw [show (isoP c P pensB pensC).updA = P.updA from rfl]
    cases P.updA
    · rfl
    · simp only [if_true]
      have := admmUpdateA_iso c P.params P.X P.pensA P.l2.1 P.constA u.F u.auxA u.dualA
      rw [show admmUpdateA (isoP c P pensB pensC).params (isoP c P pensB pensC).X (isoP c P pensB pensC).pensA (isoP c P pensB pensC).l2.1
        (isoP c P pensB pensC).constA (isoS c u).F (isoS c u).auxA (isoS c u).dualA = _ from this]
      cases admmUpdateA P.params P.X P.pensA P.l2.1 P.constA u.F u.auxA u.dualA <;> rfl
  unfold sweep
  rw [eB]
  cases sweepB P s with
  | error e => rfl
  | ok u =>
    simp only [Except.map, Except.bind]
    rw [eC]
    exact eA _

theorem recon_iso (c : Coords I K K' J J') (F : Factors I K R J) (i : Fin I) : (isoF c F).recon i = c.Q i * F.recon i * c.W.transpose := by
  have e : ∀ {K : ℕ} {J : Fin I → ℕ} (F : Factors I K R J), F.recon i = F.B i * Matrix.diagonal (F.A i) * F.C.transpose := by
    intro K J F
    ext j k
    rw [Matrix.mul_apply]
    show ∑ r, F.A i r * F.B i j r * F.C k r = _
    refine sum_congr rfl fun r _ => ?_
    rw [Matrix.mul_diagonal, transpose_apply, mul_comm (F.A i r)]
  rw [e, e]
  simp only [isoF, transpose_mul, Matrix.mul_assoc]

theorem sse_iso (c : Coords I K K' J J') (X : Ragged I K J) (F : Factors I K R J) : sse (isoX c X) (isoF c F) = sse X F := by
  refine sum_congr rfl fun i _ => ?_
  have e : isoX c X i - (isoF c F).recon i = c.Q i * (X i - F.recon i) * c.W.transpose := by
    rw [recon_iso, Matrix.mul_sub, Matrix.sub_mul]
    rfl
  have h := c.isoW.sumSqT (c.Q i * (X i - F.recon i))
  rw [(c.isoQ i).sumSq, ← e] at h
  exact h

theorem ops_iso (c : Coords I K K' J J') (P : Problem I K R nA nB nC J) (pensB : Fin nB → PenB I R J') (pensC : Fin nC → PenC K' R)
    (hB : ∀ p, SameB c P.params.scale (P.pensB p) (pensB p)) (hC : ∀ p, SameC c.W P.params.scale (P.pensC p) (pensC p)) :
    OpsMap (aoOps P) (aoOps (isoP c P pensB pensC)) none none (isoS c) id fun _ _ => True := by
  have hrel : ∀ s, (aoOps (isoP c P pensB pensC)).relError (isoS c s) none = (aoOps P).relError s none := by
    intro s
    rw [relError_direct, relError_direct, ← sse_iso c P.X, ← rootSumSq_isoX c P.X]
    rfl
  have hsw := fun s => sweep_iso c P pensB pensC hB hC s
  refine ⟨fun _ s _ x i hx => ⟨trivial, ?_⟩, fun _ s _ e he => ?_, fun _ s _ => ?_, fun _ s _ tol => rfl, fun _ s _ => hrel s, fun _ s _ => ?_⟩
  · have := hsw s
    rw [show sweep P s = .ok (x, i) from hx] at this
    cases h : sweep (isoP c P pensB pensC) (isoS c s) with
    | error e => rw [h] at this; cases this
    | ok y =>
      obtain ⟨y, j⟩ := y
      rw [h] at this
      simp only [Except.map, Except.ok.injEq] at this
      subst this
      exact ⟨j, h, by rw [relError_round h, hrel, relError_round hx]⟩
  · have := hsw s
    rw [show sweep P s = .error e from he] at this
    cases h : sweep (isoP c P pensB pensC) (isoS c s) with
    | error e' => rw [h] at this; simp only [Except.map, Except.error.injEq] at this; rw [← this]; exact h
    | ok y => rw [h] at this; cases this
  · simp only [aoOps, feasibilityGaps, id]
    congr 2
    · funext p; exact raggedGap_iso c _ _
    · funext p; exact c.isoW.gap _ _
  · simp only [aoOps, l2Penalty_eq]
    have e1 : sqNorm (isoS c s).F.C = sqNorm s.F.C := c.isoW.sumSq s.F.C
    have e2 : raggedSq (isoS c s).F.B = raggedSq s.F.B := sum_congr rfl fun i _ => (c.isoQ i).sumSq (s.F.B i)
    have e3 : ∀ p, (pensC p).value (isoS c s).F.C = (P.pensC p).value s.F.C := fun p => (hC p).1 _
    have e4 : ∀ p, (pensB p).value (isoS c s).F.B = (P.pensB p).value s.F.B := fun p => (hB p).1 _
    simp only [isoP, e1, e2, e3, e4]
    rfl

/-- C94: fitting the data in other coordinates of the rows and columns, from the initial values in these coordinates, gives the same factorization, auxiliary and dual
variables in these coordinates, with the same diagnostics and the same output, or raises the same exception. -/
theorem C94 (c : Coords I K K' J J') (P : Problem I K R nA nB nC J) (pensB : Fin nB → PenB I R J') (pensC : Fin nC → PenC K' R)
    (hB : ∀ p, SameB c P.params.scale (P.pensB p) (pensB p)) (hC : ∀ p, SameC c.W P.params.scale (P.pensC p) (pensC p)) (a : Args) (init : AOState I K R nA nB nC J) :
    cmfAoadmm (isoP c P pensB pensC) a (isoS c init) = (cmfAoadmm P a init).map fun o => ⟨isoS c o.st, o.diag, o.log⟩ := by
  have := (fit_map (ops_iso c P pensB pensC hB hC) a init trivial)
  rw [show (Output.map (isoS c) id : Output (AOState I K R nA nB nC J) → _) = fun o => ⟨isoS c o.st, o.diag, o.log⟩ from
    funext (Output.map_id (isoS c))] at this
  exact this

/-! ### Insertion of zeros and reordering -/

/-- The matrix that moves row `i` to row `f i`; the other rows of the result are zero. -/
def placeMat (f : Fin m → Fin m') : Matrix (Fin m') (Fin m) ℝ := Matrix.of fun i' i => if f i = i' then 1 else 0

theorem placeMat_mul (f : Fin m ↪ Fin m') {k : ℕ} (M : Matrix (Fin m) (Fin k) ℝ) (i : Fin m) (r : Fin k) : (placeMat f * M) (f i) r = M i r := by
  rw [Matrix.mul_apply, sum_eq_single i]
  · simp [placeMat]
  · intro j _ hj
    simp [placeMat, hj]
  · simp

theorem placeMat_mul_zero (f : Fin m → Fin m') {k : ℕ} (M : Matrix (Fin m) (Fin k) ℝ) {i' : Fin m'} (h : ∀ i, f i ≠ i') (r : Fin k) : (placeMat f * M) i' r = 0 := by
  rw [Matrix.mul_apply]
  exact sum_eq_zero fun j _ => by simp [placeMat, h j]

theorem placeMat_iso (f : Fin m ↪ Fin m') : IsIso (placeMat f) := by
  ext i j
  have h := placeMat_mul f (1 : Matrix (Fin m) (Fin m) ℝ)
  rw [Matrix.mul_one] at h
  rw [Matrix.mul_apply]
  simp only [transpose_apply]
  rw [sum_eq_single (f i)]
  · rw [h, h, one_apply_eq, one_mul]
  · intro i' _ hi
    have : placeMat f i' i = 0 := by simp [placeMat, hi.symm]
    rw [this, zero_mul]
  · simp

/-- Entry-wise functions that map 0 to 0 (if zeros are inserted) commute with the insertion of zeros and with reordering. -/
theorem placeMat_entry (f : Fin m ↪ Fin m') {k : ℕ} (φ : ℝ → ℝ) (h : φ 0 = 0 ∨ Function.Surjective f) (M : Matrix (Fin m) (Fin k) ℝ) :
    (Matrix.of fun i r => φ ((placeMat f * M) i r)) = placeMat f * Matrix.of fun i r => φ (M i r) := by
  ext i' r
  by_cases hi : ∃ i, f i = i'
  · obtain ⟨i, rfl⟩ := hi
    rw [Matrix.of_apply, placeMat_mul, placeMat_mul]
    rfl
  · have hz : φ 0 = 0 := h.resolve_right fun hs => hi (hs i')
    rw [Matrix.of_apply, placeMat_mul_zero _ _ fun i e => hi ⟨i, e⟩, placeMat_mul_zero _ _ fun i e => hi ⟨i, e⟩, hz]

theorem placeMat_sum (f : Fin m ↪ Fin m') {k : ℕ} (φ : ℝ → ℝ) (h : φ 0 = 0) (M : Matrix (Fin m) (Fin k) ℝ) :
    ∑ i, ∑ r, φ ((placeMat f * M) i r) = ∑ i, ∑ r, φ (M i r) := by
  rw [← sum_subset (subset_univ (univ.map f))]
  · rw [sum_map]
    exact sum_congr rfl fun i _ => sum_congr rfl fun r _ => by rw [placeMat_mul]
  · intro i' _ hi
    refine sum_eq_zero fun r _ => ?_
    rw [placeMat_mul_zero _ _ fun i e => hi (mem_map.2 ⟨i, mem_univ i, e⟩), h]

/-- A matrix penalty in the new coordinates. -/
def SameStd (Q : Matrix (Fin m') (Fin m) ℝ) (scale : ℝ) (p : StdPen m R) (q : StdPen m' R) : Prop :=
  (∀ X : Matrix (Fin m) (Fin R) ℝ, q.value (Q * X) = p.value X) ∧
    ∀ (X : Matrix (Fin m) (Fin R) ℝ) (ρ : ℝ) (aux : Matrix (Fin m) (Fin R) ℝ), (0 ≤ scale → 0 ≤ ρ) → q.mat (Q * X) ρ (Q * aux) = Q * p.mat X ρ aux

theorem sameStd_nonNeg (f : Fin m ↪ Fin m') (scale : ℝ) : SameStd (R := R) (placeMat f) scale .nonNeg .nonNeg :=
  ⟨fun _ => rfl, fun X _ _ _ => placeMat_entry f (clip (some 0) none) (.inl (by simp [clip])) X⟩

/-- Bounds have to allow 0 if zeros are inserted. -/
theorem sameStd_box (f : Fin m ↪ Fin m') (scale : ℝ) (lo hi : Option ℝ)
    (h : ((∀ l, lo = some l → l ≤ 0) ∧ ∀ u, hi = some u → 0 ≤ u) ∨ Function.Surjective f) :
    SameStd (R := R) (placeMat f) scale (.box lo hi) (.box lo hi) := by
  refine ⟨fun _ => rfl, fun X _ _ _ => placeMat_entry f (clip lo hi) (h.imp_left fun h => ?_) X⟩
  cases lo with
  | none =>
    cases hi with
    | none => rfl
    | some u => simp [clip, h.2 u rfl]
  | some l =>
    cases hi with
    | none => simp [clip, h.1 l rfl]
    | some u => simp [clip, h.1 l rfl, h.2 u rfl]

theorem sameStd_l1 (f : Fin m ↪ Fin m') {scale γ : ℝ} (nn : Bool) (hs : nn = true → 0 ≤ scale) (hγ : 0 ≤ γ) :
    SameStd (R := R) (placeMat f) scale (.l1 γ nn) (.l1 γ nn) := by
  refine ⟨fun X => ?_, fun X ρ aux hρ => ?_⟩
  · show l1Penalty γ _ = l1Penalty γ X
    rw [l1Penalty, l1Penalty, placeMat_sum f (fun x => |x|) abs_zero]
  · cases nn with
    | false => exact placeMat_entry f (fun x => sgn x * clip (some 0) none (|x| - γ / ρ)) (.inl (by simp [sgn])) X
    | true =>
      refine placeMat_entry f (fun x => clip (some 0) none (x - γ / ρ)) (.inl ?_) X
      simp only [clip, zero_sub]
      exact max_eq_right (neg_nonpos.2 (div_nonneg hγ (hρ (hs rfl))))

/-- The L2 ball does not depend on the coordinates. -/
theorem sameStd_l2Ball {Q : Matrix (Fin m') (Fin m) ℝ} (h : IsIso Q) (scale b : ℝ) : SameStd (R := R) Q scale (.l2Ball b false) (.l2Ball b false) := by
  refine ⟨fun _ => rfl, fun X ρ aux _ => ?_⟩
  have e : ∀ {m : ℕ} (X aux : Matrix (Fin m) (Fin R) ℝ), l2BallMat b false m R X ρ aux = X * Matrix.diagonal fun r => b / clip (some b) none √(∑ i, X i r ^ 2) := by
    intro m X aux
    ext i r
    rw [Matrix.mul_diagonal]
    simp only [l2BallMat, Bool.false_eq_true, if_false]
    ring
  show l2BallMat b false m' R (Q * X) ρ (Q * aux) = Q * l2BallMat b false m R X ρ aux
  rw [e, e, ← Matrix.mul_assoc]
  simp only [h.col]

theorem sameStd_l2Ball_nonNeg (f : Fin m ↪ Fin m') (scale b : ℝ) : SameStd (R := R) (placeMat f) scale (.l2Ball b true) (.l2Ball b true) := by
  refine ⟨fun _ => rfl, fun X ρ aux hρ => ?_⟩
  have e : ∀ {m : ℕ} (X aux : Matrix (Fin m) (Fin R) ℝ), l2BallMat b true m R X ρ aux =
      l2BallMat b false m R (Matrix.of fun i r => clip (some 0) none (X i r)) ρ aux := fun _ _ => rfl
  show l2BallMat b true m' R (placeMat f * X) ρ (placeMat f * aux) = placeMat f * l2BallMat b true m R X ρ aux
  rw [e, e, placeMat_entry f (clip (some 0) none) (.inl (by simp [clip]))]
  exact (sameStd_l2Ball (placeMat_iso f) scale b).2 _ ρ aux hρ

/-- A generalized L2 penalty, whose matrix has to be given in the new coordinates. -/
theorem sameStd_genL2 {Q : Matrix (Fin m') (Fin m) ℝ} (h : IsIso Q) (scale : ℝ) (M : Matrix (Fin m) (Fin m) ℝ) (d : SVD m m m) (hm : m' = m) :
    ∃ d' : SVD m' m' m', SameStd (R := R) Q scale (.genL2 M d) (.genL2 (Q * M * Q.transpose) d') ∧ (d.Valid M → d'.Valid (Q * M * Q.transpose)) := by
  subst hm
  refine ⟨⟨Q * d.U, d.s, d.Vh * Q.transpose⟩, ⟨fun X => ?_, fun X ρ aux _ => ?_⟩, fun hd => ⟨?_, ?_, ?_, hd.nonneg⟩⟩
  · show ((Q * X).transpose * (Q * M * Q.transpose) * (Q * X)).trace = (X.transpose * M * X).trace
    rw [transpose_mul]
    simp only [Matrix.mul_assoc]
    rw [h.cancel, h.cancel]
  · have e : ∀ (d : SVD m' m' m') (X aux : Matrix (Fin m') (Fin R) ℝ), genL2Mat d R X ρ aux =
        d.U * Matrix.diagonal (fun j => 1 / (d.s j + 1 / 2 * ρ)) * (d.U.transpose * ((1 / 2 * ρ) • X)) := by
      intro d X aux
      have : (Matrix.of fun i j => d.U i j * (1 / (d.s j + 1 / 2 * ρ))) = d.U * Matrix.diagonal fun j => 1 / (d.s j + 1 / 2 * ρ) := mulCols d.U _
      rw [← this]
      rfl
    show genL2Mat _ R (Q * X) ρ (Q * aux) = Q * genL2Mat d R X ρ aux
    rw [e, e, ← Matrix.mul_smul, h.gram]
    simp only [Matrix.mul_assoc]
  · rw [← hd.eq]; simp only [Matrix.mul_assoc]
  · rw [h.gram, hd.left]
  · rw [transpose_mul, transpose_transpose, Matrix.mul_assoc, h.cancel, hd.right]

theorem sameB_std (c : Coords I K K' J J') (scale : ℝ) (p : (i : Fin I) → StdPen (J i) R) (q : (i : Fin I) → StdPen (J' i) R)
    (h : ∀ i, SameStd (c.Q i) scale (p i) (q i)) : SameB c scale (StdPen.toB p) (StdPen.toB q) := by
  refine ⟨fun X => ?_, fun X ρ aux hρ => congrArg AuxB.mats (funext fun i => ?_)⟩
  · show ∑ i, (q i).value (c.Q i * X i) = ∑ i, (p i).value (X i)
    exact sum_congr rfl fun i _ => (h i).1 _
  have e : (isoAux c aux).toMats i = c.Q i * aux.toMats i := by
    cases aux with
    | mats Y => rfl
    | p2 a => exact Matrix.mul_assoc _ _ _
  show (q i).mat (c.Q i * X i) (ρ i) ((isoAux c aux).toMats i) = c.Q i * (p i).mat (X i) (ρ i) (aux.toMats i)
  rw [e]
  exact (h i).2 _ _ _ fun hs => hρ hs i

theorem sameC_std {W : Matrix (Fin K') (Fin K) ℝ} {scale : ℝ} {p : StdPen K R} {q : StdPen K' R} (h : SameStd W scale p q) : SameC W scale p.toC q.toC := h

/-- The PARAFAC2 constraint, if the SVDs in the new coordinates are those in the old ones up to the choice of signs and bases. -/
theorem sameB_parafac2 (c : Coords I K K' J J') (scale : ℝ) (svd : (i : Fin I) → Matrix (Fin (J i)) (Fin R) ℝ → SVD (J i) R R)
    (svd' : (i : Fin I) → Matrix (Fin (J' i)) (Fin R) ℝ → SVD (J' i) R R)
    (h : ∀ i M, (svd' i (c.Q i * M)).U * (svd' i (c.Q i * M)).Vh = c.Q i * ((svd i M).U * (svd i M).Vh)) (n : ℕ) (ub uc : Bool) :
    SameB c scale (.parafac2 svd n ub uc) (.parafac2 svd' n ub uc) := by
  refine ⟨fun X => rfl, fun X ρ aux _ => ?_⟩
  have hb : ∀ D, p2Bases svd' (fun i => c.Q i * X i) D = fun i => c.Q i * p2Bases svd X D i := by
    intro D
    funext i
    show (svd' i (c.Q i * X i * D.transpose)).U * (svd' i (c.Q i * X i * D.transpose)).Vh = c.Q i * ((svd i (X i * D.transpose)).U * (svd i (X i * D.transpose)).Vh)
    rw [Matrix.mul_assoc, h]
  have hc : ∀ P : Ragged I R J, p2Coord (fun i => c.Q i * X i) ρ (fun i => c.Q i * P i) = p2Coord X ρ P := by
    intro P
    unfold p2Coord
    congr 1
    refine sum_congr rfl fun i _ => ?_
    rw [Matrix.smul_mul, Matrix.smul_mul, (c.isoQ i).gram]
  have hu : ∀ (n : ℕ) (a : P2Aux I J R), p2Update svd' ub uc (fun i => c.Q i * X i) ρ n ⟨fun i => c.Q i * a.bases i, a.coord⟩ =
      ⟨fun i => c.Q i * (p2Update svd ub uc X ρ n a).bases i, (p2Update svd ub uc X ρ n a).coord⟩ := by
    intro n
    induction n with
    | zero => exact fun a => rfl
    | succ n ih =>
      intro a
      cases ub <;> cases uc <;> simp only [p2Update, hb, hc, if_true, if_false, Bool.not_true, Bool.not_false, Bool.or_true, Bool.or_false, Bool.or_self,
        Bool.false_eq_true]
      exact ih ⟨p2Bases svd X a.coord, p2Coord X ρ (p2Bases svd X a.coord)⟩
  cases aux with
  | mats Y => rfl
  | p2 a => exact congrArg AuxB.p2 (hu n a)

/-- Row `j` of matrix `i` moves to row `f i j`, column `k` to column `g k`. -/
def placeCoords (f : (i : Fin I) → Fin (J i) ↪ Fin (J' i)) (g : Fin K ↪ Fin K') : Coords I K K' J J' :=
  ⟨fun i => placeMat (f i), placeMat g, fun i => placeMat_iso (f i), placeMat_iso g⟩

/-- What this means for the data: the entries move, all other entries are zero. -/
theorem C94_entries (f : (i : Fin I) → Fin (J i) ↪ Fin (J' i)) (g : Fin K ↪ Fin K') (X : Ragged I K J) (i : Fin I) :
    (∀ j k, isoX (placeCoords f g) X i (f i j) (g k) = X i j k) ∧ (∀ j' k', (∀ j, f i j ≠ j') ∨ (∀ k, g k ≠ k') → isoX (placeCoords f g) X i j' k' = 0) := by
  have e : ∀ j' k', isoX (placeCoords f g) X i j' k' = (placeMat g * (placeMat (f i) * X i).transpose) k' j' := by
    intro j' k'
    rw [← transpose_apply (placeMat g * (placeMat (f i) * X i).transpose) j' k', transpose_mul, transpose_transpose]
    rfl
  refine ⟨fun j k => ?_, fun j' k' h => ?_⟩
  · rw [e, placeMat_mul, transpose_apply, placeMat_mul]
  · rw [e]
    rcases h with h | h
    · by_cases hk : ∃ k, g k = k'
      · obtain ⟨k, rfl⟩ := hk
        rw [placeMat_mul, transpose_apply, placeMat_mul_zero _ _ h]
      · rw [placeMat_mul_zero _ _ fun k hk' => hk ⟨k, hk'⟩]
    · rw [placeMat_mul_zero _ _ h]

/-- Penalties of the package that do not depend on the order of the rows. The same object is used for all matrices. -/
inductive EntryPen
  | nonNeg
  | box (lo hi : Option ℝ)
  | l1 (γ : ℝ) (nonNeg : Bool)
  | l2Ball (b : ℝ) (nonNeg : Bool)

/-- For matrices with `m` rows. -/
def EntryPen.std (m R : ℕ) : EntryPen → StdPen m R
  | .nonNeg => .nonNeg
  | .box lo hi => .box lo hi
  | .l1 γ nn => .l1 γ nn
  | .l2Ball b nn => .l2Ball b nn

/-- Valid parameters. If zeros are inserted, bounds have to allow 0, and the feasibility penalties of a non-negative L1 penalty must not be negative. -/
def EntryPen.OK (scale : ℝ) : EntryPen → Prop
  | .box lo hi => (∀ l, lo = some l → l ≤ 0) ∧ ∀ u, hi = some u → 0 ≤ u
  | .l1 γ nn => 0 ≤ γ ∧ (nn = true → 0 ≤ scale)
  | _ => True

theorem EntryPen.same (f : Fin m ↪ Fin m') {scale : ℝ} (p : EntryPen) (h : p.OK scale) : SameStd (R := R) (placeMat f) scale (p.std m R) (p.std m' R) := by
  cases p with
  | nonNeg => exact sameStd_nonNeg f scale
  | box lo hi => exact sameStd_box f scale lo hi (.inl h)
  | l1 γ nn => exact sameStd_l1 f nn h.2 h.1
  | l2Ball b nn =>
    cases nn
    · exact sameStd_l2Ball (placeMat_iso f) scale b
    · exact sameStd_l2Ball_nonNeg f scale b

/-- A case of C94: reordering the rows of each matrix and the columns, and inserting zero rows and columns, with the same penalty objects. -/
theorem C94_zeros (f : (i : Fin I) → Fin (J i) ↪ Fin (J' i)) (g : Fin K ↪ Fin K') (P : Problem I K R nA nB nC J) (pB : Fin nB → EntryPen) (pC : Fin nC → EntryPen)
    (hB : P.pensB = fun p => StdPen.toB fun i => (pB p).std (J i) R) (hC : P.pensC = fun p => ((pC p).std K R).toC)
    (okB : ∀ p, (pB p).OK P.params.scale) (okC : ∀ p, (pC p).OK P.params.scale) (a : Args) (init : AOState I K R nA nB nC J) :
    cmfAoadmm (isoP (placeCoords f g) P (fun p => StdPen.toB fun i => (pB p).std (J' i) R) fun p => ((pC p).std K' R).toC) a (isoS (placeCoords f g) init) =
      (cmfAoadmm P a init).map fun o => ⟨isoS (placeCoords f g) o.st, o.diag, o.log⟩ :=
  C94 (placeCoords f g) P _ _ (fun p => by rw [hB]; exact sameB_std _ _ _ _ fun i => (pB p).same (f i) (okB p))
    (fun p => by rw [hC]; exact sameC_std ((pC p).same g (okC p))) a init

/-! ### Rotations -/

/-- The singular value decomposition in rotated coordinates. -/
def rotSvd (Q : Matrix (Fin m) (Fin m) ℝ) (svd : Matrix (Fin m) (Fin R) ℝ → SVD m R R) (M : Matrix (Fin m) (Fin R) ℝ) : SVD m R R :=
  ⟨Q * (svd (Q.transpose * M)).U, (svd (Q.transpose * M)).s, (svd (Q.transpose * M)).Vh⟩

theorem rotSvd_valid {Q : Matrix (Fin m) (Fin m) ℝ} (h : IsIso Q) {svd : Matrix (Fin m) (Fin R) ℝ → SVD m R R} (hv : ∀ M, (svd M).Valid M)
    (M : Matrix (Fin m) (Fin R) ℝ) : (rotSvd Q svd M).Valid M := by
  have h' : Q * Q.transpose = 1 := mul_eq_one_comm.1 h
  refine ⟨?_, ?_, (hv _).right, (hv _).nonneg⟩
  · show Q * (svd (Q.transpose * M)).U * Matrix.diagonal (svd (Q.transpose * M)).s * (svd (Q.transpose * M)).Vh = M
    rw [Matrix.mul_assoc Q, Matrix.mul_assoc Q, (hv _).eq, ← Matrix.mul_assoc, h', Matrix.one_mul]
  · show (Q * (svd (Q.transpose * M)).U).transpose * (Q * (svd (Q.transpose * M)).U) = 1
    rw [h.gram, (hv _).left]

/-- Penalties that do not depend on the coordinates: the L2 ball and the PARAFAC2 constraint. -/
inductive RotPen (I R : ℕ) (J : Fin I → ℕ)
  | l2Ball (b : ℝ)
  | parafac2 (svd : (i : Fin I) → Matrix (Fin (J i)) (Fin R) ℝ → SVD (J i) R R) (n : ℕ) (ub uc : Bool)

/-- As penalty on mode 1. -/
noncomputable def RotPen.pen : RotPen I R J → PenB I R J
  | .l2Ball b => StdPen.toB fun _ => .l2Ball b false
  | .parafac2 svd n ub uc => .parafac2 svd n ub uc

/-- In the rotated coordinates: only the SVD function is another one. -/
def RotPen.rot (Q : (i : Fin I) → Matrix (Fin (J i)) (Fin (J i)) ℝ) : RotPen I R J → RotPen I R J
  | .l2Ball b => .l2Ball b
  | .parafac2 svd n ub uc => .parafac2 (fun i => rotSvd (Q i) (svd i)) n ub uc

/-- A case of C94: rotations of the rows of each matrix and of the columns, for L2 balls and PARAFAC2. The SVD function of PARAFAC2 is the rotated one
(`rotSvd_valid`: also an exact SVD); by C92_bases any other exact SVD function gives the same bases for matrices with full column rank. -/
theorem C94_rotation (c : Coords I K K J J) (P : Problem I K R nA nB nC J) (pB : Fin nB → RotPen I R J) (bC : Fin nC → ℝ)
    (hB : P.pensB = fun p => (pB p).pen) (hC : P.pensC = fun p => (StdPen.l2Ball (bC p) false).toC) (a : Args) (init : AOState I K R nA nB nC J) :
    cmfAoadmm (isoP c P (fun p => ((pB p).rot c.Q).pen) P.pensC) a (isoS c init) = (cmfAoadmm P a init).map fun o => ⟨isoS c o.st, o.diag, o.log⟩ := by
  refine C94 c P _ _ (fun p => ?_) (fun p => ?_) a init
  · rw [hB]
    cases h : pB p with
    | l2Ball b => simp only [h]; exact sameB_std _ _ _ _ fun i => sameStd_l2Ball (c.isoQ i) _ b
    | parafac2 svd n ub uc =>
      simp only [h]
      refine sameB_parafac2 c _ svd _ (fun i M => ?_) n ub uc
      show c.Q i * (svd i ((c.Q i).transpose * (c.Q i * M))).U * (svd i ((c.Q i).transpose * (c.Q i * M))).Vh = _
      rw [(c.isoQ i).cancel, Matrix.mul_assoc]
  · rw [hC]
    exact sameC_std (sameStd_l2Ball c.isoW _ _)

/-- A rotation that is not a reordering. -/
theorem rotation_example : ∃ Q : Matrix (Fin 2) (Fin 2) ℝ, IsIso Q ∧ Q 0 0 = 3 / 5 ∧ Q 0 1 = -4 / 5 := by
  refine ⟨!![3 / 5, -4 / 5; 4 / 5, 3 / 5], ?_, rfl, rfl⟩
  ext i j
  fin_cases i <;> fin_cases j <;> simp [Matrix.mul_apply, Fin.sum_univ_two] <;> norm_num

end Verif.Props
