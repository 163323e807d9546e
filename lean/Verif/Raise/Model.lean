import Verif.Loop.Model

/-!
# Model of AO-ADMM with penalties that may raise

`src/matcouply/decomposition.py` lines 120-344, 906-1095. `Verif/ADMM/Model` and `Verif/Loop/Model` take penalties whose methods always return. Here the methods return
a value or an exception, and the calls are made in the order of the code: the first exception ends the call. Everything else is shared with these two files.
-/

namespace Verif.Raise

open Verif.ADMM Verif.Penalties Verif.Loop Verif.Spec Finset

/-- `[f(x) for x in l]` with `l` given by its entries: the first exception ends it. -/
def seqPi : (n : ℕ) → {β : Fin n → Type} → ((i : Fin n) → Except PyErr (β i)) → Except PyErr ((i : Fin n) → β i)
  | 0, _, _ => .ok fun i => i.elim0
  | n + 1, _, f =>
    match f 0 with
    | .error e => .error e
    | .ok x =>
      match seqPi n fun i => f i.succ with
      | .error e => .error e
      | .ok xs => .ok (Fin.cons x xs)

/-! ### Penalty objects -/

/-- A penalty on mode 0, as `PenA`. -/
structure RPenA (I R : ℕ) where
  mat : Matrix (Fin I) (Fin R) ℝ → ℝ → Matrix (Fin I) (Fin R) ℝ → Except PyErr (Matrix (Fin I) (Fin R) ℝ)
  row : Option ((Fin R → ℝ) → ℝ → (Fin R → ℝ) → Except PyErr (Fin R → ℝ))
  value : Matrix (Fin I) (Fin R) ℝ → Except PyErr ℝ

/-- A penalty on mode 1, as `PenB`. -/
structure RPenB (I R : ℕ) (J : Fin I → ℕ) where
  update : Ragged I R J → (Fin I → ℝ) → AuxB I R J → Except PyErr (AuxB I R J)
  value : Ragged I R J → Except PyErr ℝ

/-- A penalty on mode 2, as `PenC`. -/
structure RPenC (K R : ℕ) where
  mat : Matrix (Fin K) (Fin R) ℝ → ℝ → Matrix (Fin K) (Fin R) ℝ → Except PyErr (Matrix (Fin K) (Fin R) ℝ)
  value : Matrix (Fin K) (Fin R) ℝ → Except PyErr ℝ

/-- `MatrixPenalty.factor_matrices_update` (`penalties.py` lines 405-408): one matrix after the other. -/
def RPenB.ofMat {I R : ℕ} {J : Fin I → ℕ}
    (u : (i : Fin I) → Matrix (Fin (J i)) (Fin R) ℝ → ℝ → Matrix (Fin (J i)) (Fin R) ℝ → Except PyErr (Matrix (Fin (J i)) (Fin R) ℝ))
    (v : Ragged I R J → Except PyErr ℝ) : RPenB I R J where
  update X ρ aux :=
    match seqPi I fun i => u i (X i) (ρ i) (aux.toMats i) with
    | .error e => .error e
    | .ok Z => .ok (.mats Z)
  value := v

/-! ### The updates -/

section
variable {I K R n : ℕ} {J : Fin I → ℕ}

/-- The inner loop (lines 176-217, 259-290, 325-342) with a step that may raise. -/
def innerLoopR {σ : Type} (step : σ → Except PyErr σ) (stop : σ → σ → Bool) : ℕ → σ → Except PyErr σ
  | 0, s => .ok s
  | n + 1, s =>
    match step s with
    | .error e => .error e
    | .ok s' => if stop s s' then .ok s' else innerLoopR step stop n s'

/-- Update of the auxiliary variable of one penalty in mode 0 (lines 197-211), row by row without constant feasibility penalty. A missing row update raises AttributeError
at the first row. -/
def auxAR (pen : RPenA I R) (ρmax : Option ℝ) (ρ : Fin I → ℝ) (Y aux : Matrix (Fin I) (Fin R) ℝ) : Except PyErr (Matrix (Fin I) (Fin R) ℝ) :=
  match ρmax, pen.row with
  | some m, _ => pen.mat Y m aux
  | none, some u => seqPi I fun i => u (Y i) (ρ i) (aux i)
  | none, none => seqPi I fun _ => .error .attributeError

/-- One inner iteration of `admm_update_A` (lines 177-213). The dual variable of a penalty is updated before the next penalty is asked; it does not influence it. -/
noncomputable def stepAR (pens : Fin n → RPenA I R) (ρmax : Option ℝ) (ρ : Fin I → ℝ) (svds : Fin I → SVD R R R)
    (rhs : Fin I → Fin R → ℝ) (s : MatState I R n) : Except PyErr (MatState I R n) :=
  let x : Matrix (Fin I) (Fin R) ℝ := fun i => svdSolveRow (svds i) (ρ i • (∑ p, (s.aux p - s.dual p) i) + rhs i)
  match seqPi n fun p => auxAR (pens p) ρmax ρ (x + s.dual p) (s.aux p) with
  | .error e => .error e
  | .ok aux => .ok ⟨x, aux, fun p => x - (aux p - s.dual p)⟩

/-- One inner iteration of `admm_update_B` (lines 260-285). -/
noncomputable def stepBR (pens : Fin n → RPenB I R J) (ρ : Fin I → ℝ) (svds : Fin I → SVD R R R)
    (rhs : Ragged I R J) (s : RagState I R n J) : Except PyErr (RagState I R n J) :=
  let x : Ragged I R J := fun i => svdSolve (svds i) (ρ i • (∑ p, (s.aux p).subtract (s.dual p) i) + rhs i)
  match seqPi n fun p => (pens p).update (fun i => x i + s.dual p i) ρ (s.aux p) with
  | .error e => .error e
  | .ok aux => .ok ⟨x, aux, fun p i => x i - (aux p).subtract (s.dual p) i⟩

/-- One inner iteration of `admm_update_C` (lines 326-338). -/
noncomputable def stepCR (pens : Fin n → RPenC K R) (ρ : ℝ) (svd : SVD R R R)
    (rhs : Matrix (Fin K) (Fin R) ℝ) (s : MatState K R n) : Except PyErr (MatState K R n) :=
  let x := svdSolve svd (ρ • (∑ p, (s.aux p - s.dual p)) + rhs)
  match seqPi n fun p => (pens p).mat (x + s.dual p) ρ (s.aux p) with
  | .error e => .error e
  | .ok aux => .ok ⟨x, aux, fun p => x - (aux p - s.dual p)⟩

/-- `admm_update_A` (lines 120-219). -/
noncomputable def admmUpdateAR (P : Params R) (X : Ragged I K J) (pens : Fin n → RPenA I R) (l2 : ℝ) (constant : Bool)
    (F : Factors I K R J) (aux dual : Fin n → Matrix (Fin I) (Fin R) ℝ) : Except PyErr (MatState I R n) :=
  match feasPenalties P.scale constant (crossA F) with
  | .error e => .error e
  | .ok ρ => innerLoopR (stepAR pens ρ.1 ρ.2 (fun i => P.svd (addRidge (crossA F i) (ρ.2 i) n l2)) (rhsA X F)) (matStop P.innerTol) P.nInner ⟨F.A, aux, dual⟩

/-- `admm_update_B` (lines 222-292). -/
noncomputable def admmUpdateBR (P : Params R) (X : Ragged I K J) (pens : Fin n → RPenB I R J) (l2 : ℝ) (constant : Bool)
    (F : Factors I K R J) (aux : Fin n → AuxB I R J) (dual : Fin n → Ragged I R J) : Except PyErr (RagState I R n J) :=
  match feasPenalties P.scale constant (crossB F) with
  | .error e => .error e
  | .ok ρ => innerLoopR (stepBR pens ρ.2 (fun i => P.svd (addRidge (crossB F i) (ρ.2 i) n l2)) (rhsB X F)) (ragStop P.innerTol) P.nInner ⟨F.B, aux, dual⟩

/-- `admm_update_C` (lines 295-344). -/
noncomputable def admmUpdateCR (P : Params R) (X : Ragged I K J) (pens : Fin n → RPenC K R) (l2 : ℝ)
    (F : Factors I K R J) (aux dual : Fin n → Matrix (Fin K) (Fin R) ℝ) : Except PyErr (MatState K R n) :=
  let ρ := feasPenalty P.scale (crossC F)
  innerLoopR (stepCR pens ρ (P.svd (addRidge (crossC F) ρ n l2)) (rhsC X F)) (matStop P.innerTol) P.nInner ⟨F.C, aux, dual⟩

end

/-! ### The loop -/

/-- What the loop calls, as `Ops`; the penalty values may raise. -/
structure ROps (σ ι : Type) where
  sweep : σ → Except PyErr (σ × ι)
  gaps : σ → Gaps
  relError : σ → ι → PyF
  penalty : σ → Except PyErr ℝ

section
variable {σ ι : Type}

/-- The operations without the penalty values, for the parts of the loop that do not use them. -/
def ROps.base (O : ROps σ ι) : Ops σ ι := ⟨O.sweep, O.gaps, O.relError, fun _ => 0⟩

/-- One iteration (lines 946-1056); the penalty values are needed where the loss is computed (lines 1016-1020). -/
noncomputable def bodyR (O : ROps σ ι) (a : Args) (s : Acc σ) : Except PyErr (Acc σ × Bool) :=
  match O.sweep s.st with
  | .error e => .error e
  | .ok (st, inter) =>
    if truthy a.tol || truthy a.absTol || a.returnErrors then
      let g := O.gaps st
      let feasible := truthy a.feasTol && checkFeasibility g (a.feasTol.getD 0)
      if (truthy a.tol || truthy a.absTol) && !feasible && !a.returnErrors then
        .ok ({ s with
          st := st, nIter := s.nIter + 1, gaps := s.gaps ++ [g]
          log := s.log ++ if prints a.verbose s.nIter then [.notComputed s.nIter g] else [] }, false)
      else
        let r := O.relError st inter
        match O.penalty st with
        | .error e => .error e
        | .ok v =>
          let loss := lossOf r v
          checkStop a feasible (s.losses.getLastD .nan) loss { s with
            st := st, nIter := s.nIter + 1, gaps := s.gaps ++ [g], recErrors := s.recErrors ++ [r], losses := s.losses ++ [loss]
            log := s.log ++ if prints a.verbose s.nIter then [.computed s.nIter r (s.losses.getLastD .nan) loss g] else [] }
    else
      .ok ({ s with
        st := st, nIter := s.nIter + 1
        log := s.log ++ if prints a.verbose s.nIter then [.iteration s.nIter] else [] }, false)

/-- The `for` loop with `n` iterations left (lines 945, 1057-1059). -/
noncomputable def runR (O : ROps σ ι) (a : Args) : ℕ → Acc σ → Except PyErr (Acc σ)
  | 0, s => .ok { s with log := s.log ++ if a.verbose ≠ 0 then [.reachedMax] else [] }
  | n + 1, s =>
    match bodyR O a s with
    | .error e => .error e
    | .ok (s', true) => .ok s'
    | .ok (s', false) => runR O a n s'

/-- The loop with everything before and after it (lines 906-1095). The first loss is always computed (lines 916-921). -/
noncomputable def fitR (O : ROps σ ι) (a : Args) (none : ι) (st : σ) : Except PyErr (Output σ) :=
  match O.penalty st with
  | .error e => .error e
  | .ok v =>
    match runR O a a.nIterMax.toNat { initAcc O.base a none st with losses := [lossOf (O.relError st none) v] } with
    | .error e => .error e
    | .ok s => .ok ⟨s.st, if a.returnErrors then some (diagnostics O.base a s) else .none, s.log⟩

end

/-! ### The instance -/

section
variable {I K R nA nB nC : ℕ} {J : Fin I → ℕ}

/-- The problem, as `Problem`. -/
structure RProblem (I K R nA nB nC : ℕ) (J : Fin I → ℕ) where
  X : Ragged I K J
  pensA : Fin nA → RPenA I R
  pensB : Fin nB → RPenB I R J
  pensC : Fin nC → RPenC K R
  l2 : ℝ × ℝ × ℝ
  params : Params R
  constA : Bool
  constB : Bool
  updA : Bool
  updB : Bool
  updC : Bool

/-- The B-update of an iteration (lines 948-961). -/
noncomputable def sweepBR (P : RProblem I K R nA nB nC J) (s : AOState I K R nA nB nC J) : Except PyErr (AOState I K R nA nB nC J) :=
  if P.updB then
    (admmUpdateBR P.params P.X P.pensB P.l2.2.1 P.constB s.F s.auxB s.dualB).map fun t =>
      { s with weights := none, F := ⟨s.F.A, t.x, s.F.C⟩, auxB := t.aux, dualB := t.dual }
  else .ok s

/-- The C-update of an iteration (lines 962-974). -/
noncomputable def sweepCR (P : RProblem I K R nA nB nC J) (s : AOState I K R nA nB nC J) : Except PyErr (AOState I K R nA nB nC J) :=
  if P.updC then
    (admmUpdateCR P.params P.X P.pensC P.l2.2.2 s.F s.auxC s.dualC).map fun t =>
      { s with weights := none, F := ⟨s.F.A, s.F.B, t.x⟩, auxC := t.aux, dualC := t.dual }
  else .ok s

/-- The A-update of an iteration (lines 946, 975-988). -/
noncomputable def sweepAR (P : RProblem I K R nA nB nC J) (s : AOState I K R nA nB nC J) :
    Except PyErr (AOState I K R nA nB nC J × Option (Inter I R)) :=
  if P.updA then
    (admmUpdateAR P.params P.X P.pensA P.l2.1 P.constA s.F s.auxA s.dualA).map fun t =>
      ({ s with weights := none, F := ⟨t.x, s.F.B, s.F.C⟩, auxA := t.aux, dualA := t.dual }, some ⟨rhsA P.X s.F, crossA s.F⟩)
  else .ok (s, none)

/-- One round of updates: first B, then C, then A (lines 946-988). -/
noncomputable def sweepR (P : RProblem I K R nA nB nC J) (s : AOState I K R nA nB nC J) :
    Except PyErr (AOState I K R nA nB nC J × Option (Inter I R)) :=
  match sweepBR P s with
  | .error e => .error e
  | .ok t =>
    match sweepCR P t with
    | .error e => .error e
    | .ok u => sweepAR P u

/-- The penalty values of the factors: mode 0, mode 1, mode 2 (lines 916-920, 1016-1020). -/
noncomputable def valuesR (P : RProblem I K R nA nB nC J) (F : Factors I K R J) : Except PyErr ℝ :=
  match seqPi nA fun p => (P.pensA p).value F.A with
  | .error e => .error e
  | .ok a =>
    match seqPi nB fun p => (P.pensB p).value F.B with
    | .error e => .error e
    | .ok b =>
      match seqPi nC fun p => (P.pensC p).value F.C with
      | .error e => .error e
      | .ok c => .ok (∑ p, a p + ∑ p, b p + ∑ p, c p)

/-- The operations of the loop, see `aoOps`. -/
noncomputable def aoOpsR (P : RProblem I K R nA nB nC J) : ROps (AOState I K R nA nB nC J) (Option (Inter I R)) where
  sweep := sweepR P
  gaps s := feasibilityGaps s.F s.auxA s.auxB s.auxC
  relError s inter := .div (recError P.X s.weights s.F (rootSumSq P.X) inter) (rootSumSq P.X)
  penalty s := (valuesR P s.F).map fun v => l2Penalty P.l2 s.F + v

/-- `cmf_aoadmm` after initialisation and parsing (lines 906-1095), with penalties that may raise. -/
noncomputable def cmfAoadmmR (P : RProblem I K R nA nB nC J) (a : Args) (init : AOState I K R nA nB nC J) :
    Except PyErr (Output (AOState I K R nA nB nC J)) :=
  fitR (aoOpsR P) a none init

end

/-! ### UnitSimplex -/

/-- `UnitSimplex` on mode 0 (`penalties.py` lines 928-980): no row update; a hard constraint has value 0 (line 485). -/
noncomputable def simplexRA (I R : ℕ) : RPenA I R := ⟨fun Y _ _ => simplexMat Y, none, fun _ => .ok 0⟩

/-- `UnitSimplex` on mode 1. -/
noncomputable def simplexRB (I R : ℕ) (J : Fin I → ℕ) : RPenB I R J := .ofMat (fun _ Y _ _ => simplexMat Y) fun _ => .ok 0

/-- `UnitSimplex` on mode 2. -/
noncomputable def simplexRC (K R : ℕ) : RPenC K R := ⟨fun Y _ _ => simplexMat Y, fun _ => .ok 0⟩

end Verif.Raise
