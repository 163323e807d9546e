import Mathlib.Analysis.Real.Sqrt
import Mathlib.LinearAlgebra.Matrix.Trace
import Mathlib.Data.List.OfFn
import Verif.Penalties.Model
import Verif.Spec.Objective

/-!
# Model of the AO-ADMM updates

`src/matcouply/decomposition.py` lines 92-452, 617-640. The data are typed (`Matrix (Fin m) (Fin n) ℝ`), arithmetic is exact,
and updates are pure (see `Verif/Alias` for the in-place writes). Penalty objects are given by their operations. A penalty
update that raises ends the call with that exception; the model covers the executions in which none does, except for the
missing row update of matrix-wise penalties, which is modelled. `Verif/Raise` is the same code with updates that may raise.
-/

namespace Verif.ADMM

open Verif.Penalties Verif.Spec Finset

/-! ### Floating point results of divisions -/

/-- Result of dividing a norm by a norm in numpy: `0 / 0` is `nan`, `x / 0` is `inf`. -/
inductive PyF
  | nan
  | inf
  | fin (x : ℝ)

/-- Division of a non-negative number by a non-negative number. -/
noncomputable def PyF.div (a b : ℝ) : PyF := if b = 0 then (if a = 0 then .nan else .inf) else .fin (a / b)

/-- `a > b`: comparisons with `nan` are False. -/
noncomputable def PyF.gt : PyF → PyF → Bool
  | .fin x, .fin y => decide (y < x)
  | .inf, .fin _ => true
  | _, _ => false

/-- `a < t` for a finite `t`. -/
noncomputable def PyF.lt : PyF → ℝ → Bool
  | .fin x, t => decide (x < t)
  | _, _ => false

/-- Python's `max` of a non-empty sequence: an element replaces the current maximum if it is greater. -/
noncomputable def pyMax (a : PyF) (l : List PyF) : PyF := l.foldl (fun m x => if x.gt m then x else m) a

/-! ### Penalty objects -/

/-- A penalty on mode 0: matrix update, row update (absent for `MatrixPenalty`), penalty value (`penalties.py` lines 389-463). -/
structure PenA (I R : ℕ) where
  mat : MatUpdate I R
  row : Option (RowUpdate R)
  value : Matrix (Fin I) (Fin R) ℝ → ℝ

/-- A penalty on mode 2. -/
structure PenC (K R : ℕ) where
  mat : MatUpdate K R
  value : Matrix (Fin K) (Fin R) ℝ → ℝ

/-- Auxiliary variable of mode 1: a list of matrices, or basis and coordinate matrices for `Parafac2`. -/
inductive AuxB (I R : ℕ) (J : Fin I → ℕ)
  | mats (X : Ragged I R J)
  | p2 (a : P2Aux I J R)

/-- `auxes_as_matrices` (`penalties.py` lines 343, 1303-1304). -/
def AuxB.toMats {I R : ℕ} {J : Fin I → ℕ} : AuxB I R J → Ragged I R J
  | .mats X => X
  | .p2 a => p2Matrices a

/-- `subtract_from_auxes` (`penalties.py` lines 288, 1280-1281). -/
def AuxB.subtract {I R : ℕ} {J : Fin I → ℕ} : AuxB I R J → Ragged I R J → Ragged I R J
  | .mats X, dual => fun i => X i - dual i
  | .p2 a, dual => p2Subtract a dual

/-- A penalty on mode 1: `factor_matrices_update` and the penalty value. -/
structure PenB (I R : ℕ) (J : Fin I → ℕ) where
  update : Ragged I R J → (Fin I → ℝ) → AuxB I R J → AuxB I R J
  value : Ragged I R J → ℝ

/-- A matrix-wise or row-wise penalty on mode 1 (`MatrixPenalty.factor_matrices_update`, `penalties.py` lines 405-408): the matrix update
for every matrix with its own feasibility penalty. -/
def PenB.ofMat {I R : ℕ} {J : Fin I → ℕ} (u : (i : Fin I) → MatUpdate (J i) R) (v : Ragged I R J → ℝ) : PenB I R J where
  update X ρ aux := .mats fun i => u i (X i) (ρ i) (aux.toMats i)
  value := v

/-- `Parafac2` (`penalties.py` lines 1226-1250); its auxiliary variable always is a `p2` value (`init_aux`). -/
noncomputable def PenB.parafac2 {I R : ℕ} {J : Fin I → ℕ} (svd : (i : Fin I) → Matrix (Fin (J i)) (Fin R) ℝ → SVD (J i) R R)
    (nIter : ℕ) (updBases updCoord : Bool) : PenB I R J where
  update X ρ aux := match aux with
    | .p2 a => .p2 (p2Update svd updBases updCoord X ρ nIter a)
    | .mats Y => .mats Y
  value _ := 0

/-! ### Linear systems -/

section
variable {I K R : ℕ} {J : Fin I → ℕ}

/-- `U / s` (lines 194, 273, 331): divides the columns. -/
noncomputable def colDiv {m n : ℕ} (U : Matrix (Fin m) (Fin n) ℝ) (s : Fin n → ℝ) : Matrix (Fin m) (Fin n) ℝ :=
  Matrix.of fun i j => U i j / s j

/-- `tl.dot(tl.dot(rhs, U / s), Uh)` for a matrix right-hand side (lines 273, 331). -/
noncomputable def svdSolve {m n : ℕ} (d : SVD n n n) (rhs : Matrix (Fin m) (Fin n) ℝ) : Matrix (Fin m) (Fin n) ℝ :=
  rhs * colDiv d.U d.s * d.Vh

/-- `tl.dot(tl.dot(rhs, U / s), Uh)` for a row (line 194). -/
noncomputable def svdSolveRow {n : ℕ} (d : SVD n n n) (rhs : Fin n → ℝ) : Fin n → ℝ :=
  Matrix.vecMul (Matrix.vecMul rhs (colDiv d.U d.s)) d.Vh

/-- Feasibility penalty `0.5 * trace(lhs) * scale` (lines 162, 247, 319). -/
noncomputable def feasPenalty (scale : ℝ) (G : Matrix (Fin R) (Fin R) ℝ) : ℝ := 1 / 2 * G.trace * scale

/-- The feasibility penalties of all blocks; all equal to the largest one, also returned, if requested (lines 162-165, 247-250).
`max` of an empty list raises ValueError. -/
noncomputable def feasPenalties (scale : ℝ) (constant : Bool) (G : Fin I → Matrix (Fin R) (Fin R) ℝ) :
    Except PyErr (Option ℝ × (Fin I → ℝ)) :=
  let ρ := fun i => feasPenalty scale (G i)
  if constant then (vecMax (List.ofFn ρ)).map fun m => (some m, fun _ => m) else .ok (none, ρ)

/-- `lhs + eye(R) * (feasibility_penalty * len(reg) + l2_penalty)` (lines 169, 253, 320). -/
noncomputable def addRidge (G : Matrix (Fin R) (Fin R) ℝ) (ρ : ℝ) (n : ℕ) (l2 : ℝ) : Matrix (Fin R) (Fin R) ℝ :=
  G + (ρ * n + l2) • (1 : Matrix (Fin R) (Fin R) ℝ)

/-- Cross products for mode 0 (lines 138, 155). -/
def crossA (F : Factors I K R J) (i : Fin I) : Matrix (Fin R) (Fin R) ℝ :=
  Matrix.of fun r s => ((F.B i).transpose * F.B i) r s * (F.C.transpose * F.C) r s

/-- Right-hand sides for mode 0 (lines 140-158): the product is computed in the cheaper order, its diagonal is kept. -/
def rhsA (X : Ragged I K J) (F : Factors I K R J) (i : Fin I) : Fin R → ℝ :=
  if J i > K then fun r => ((F.B i).transpose * X i * F.C) r r
  else fun r => ((F.B i).transpose * (X i * F.C)) r r

/-- Left-hand sides for mode 1 (lines 240, 243). -/
def crossB (F : Factors I K R J) (i : Fin I) : Matrix (Fin R) (Fin R) ℝ :=
  Matrix.of fun r s => (F.C.transpose * F.C) r s * F.A i s * F.A i r

/-- Right-hand sides for mode 1 (line 242). -/
def rhsB (X : Ragged I K J) (F : Factors I K R J) (i : Fin I) : Matrix (Fin (J i)) (Fin R) ℝ :=
  X i * Matrix.of fun k r => F.C k r * F.A i r

/-- `B_i * A_i` (line 313). -/
def scaledB (F : Factors I K R J) (i : Fin I) : Matrix (Fin (J i)) (Fin R) ℝ := Matrix.of fun j r => F.B i j r * F.A i r

/-- Left-hand side for mode 2 (lines 310, 314). -/
def crossC (F : Factors I K R J) : Matrix (Fin R) (Fin R) ℝ := ∑ i, (scaledB F i).transpose * scaledB F i

/-- Right-hand side for mode 2 (lines 311, 315). -/
def rhsC (X : Ragged I K J) (F : Factors I K R J) : Matrix (Fin K) (Fin R) ℝ := ∑ i, (X i).transpose * scaledB F i

end

/-! ### Feasibility gaps and the inner stopping test -/

/-- `tl.norm` (Frobenius). -/
noncomputable def matNorm {m n : ℕ} (X : Matrix (Fin m) (Fin n) ℝ) : ℝ := √(∑ i, ∑ j, X i j ^ 2)

/-- `_root_sum_squared_list` (lines 347-348). -/
noncomputable def rootSumSq {I n : ℕ} {J : Fin I → ℕ} (X : Ragged I n J) : ℝ := √(∑ i, ∑ j, ∑ k, X i j k ^ 2)

/-- Gap of one penalty on mode 0 or 2 (lines 410, 415). -/
noncomputable def matGap {m n : ℕ} (X aux : Matrix (Fin m) (Fin n) ℝ) : PyF := .div (matNorm (aux - X)) (matNorm X)

/-- Gap of one penalty on mode 1 (line 412). -/
noncomputable def raggedGap {I R : ℕ} {J : Fin I → ℕ} (B : Ragged I R J) (aux : AuxB I R J) : PyF :=
  .div (rootSumSq (aux.subtract B)) (rootSumSq B)

/-- `max(gaps) < tol` for a list of gaps; only evaluated for non-empty lists. -/
noncomputable def gapsBelow : List PyF → ℝ → Bool
  | [], _ => true
  | g :: gs, tol => (pyMax g gs).lt tol

/-- `_check_inner_convergence` (lines 92-116). `norm`, `change`: of the factor; `gaps`: of its penalties. -/
noncomputable def innerConverged (tol : Option ℝ) (norm change : ℝ) (gaps : List PyF) : Bool :=
  match tol with
  | none => false
  | some t => if t = 0 ∨ t < 0 then false else if change > t * norm then false else gapsBelow gaps t

/-- The inner loop shared by the three updates (lines 176-217, 259-290, 325-342): `n` iterations remain. -/
def innerLoop {σ : Type} (step : σ → σ) (stop : σ → σ → Bool) : ℕ → σ → σ
  | 0, s => s
  | n + 1, s => if stop s (step s) then step s else innerLoop step stop n (step s)

/-! ### The updates -/

/-- Factor, auxiliary and dual variables of mode 0 or 2 with `n` penalties. -/
structure MatState (m R n : ℕ) where
  x : Matrix (Fin m) (Fin R) ℝ
  aux : Fin n → Matrix (Fin m) (Fin R) ℝ
  dual : Fin n → Matrix (Fin m) (Fin R) ℝ

/-- Factor, auxiliary and dual variables of mode 1 with `n` penalties. -/
structure RagState (I R n : ℕ) (J : Fin I → ℕ) where
  x : Ragged I R J
  aux : Fin n → AuxB I R J
  dual : Fin n → Ragged I R J

section
variable {I K R n : ℕ} {J : Fin I → ℕ}

/-- The stopping test for modes 0 and 2. -/
noncomputable def matStop (tol : Option ℝ) (s s' : MatState I R n) : Bool :=
  innerConverged tol (matNorm s'.x) (matNorm (s'.x - s.x)) (List.ofFn fun p => matGap s'.x (s'.aux p))

/-- The stopping test for mode 1. -/
noncomputable def ragStop (tol : Option ℝ) (s s' : RagState I R n J) : Bool :=
  innerConverged tol (rootSumSq s'.x) (rootSumSq fun i => s'.x i - s.x i) (List.ofFn fun p => raggedGap s'.x (s'.aux p))

/-- Update of the auxiliary variable of one penalty in mode 0 (lines 197-211). With a constant feasibility penalty the whole
matrix is updated, otherwise every row with its own penalty. (A missing row update is rejected in `admmUpdateA`.) -/
def auxA (pen : PenA I R) (ρmax : Option ℝ) (ρ : Fin I → ℝ) (Y aux : Matrix (Fin I) (Fin R) ℝ) :
    Matrix (Fin I) (Fin R) ℝ :=
  match ρmax, pen.row with
  | some m, _ => pen.mat Y m aux
  | none, some u => fun i => u (Y i) (ρ i) (aux i)
  | none, none => aux

/-- One inner iteration of `admm_update_A` (lines 177-213). -/
noncomputable def stepA (pens : Fin n → PenA I R) (ρmax : Option ℝ) (ρ : Fin I → ℝ) (svds : Fin I → SVD R R R)
    (rhs : Fin I → Fin R → ℝ) (s : MatState I R n) : MatState I R n :=
  let x : Matrix (Fin I) (Fin R) ℝ := fun i => svdSolveRow (svds i) (ρ i • (∑ p, (s.aux p - s.dual p) i) + rhs i)
  let aux := fun p => auxA (pens p) ρmax ρ (x + s.dual p) (s.aux p)
  ⟨x, aux, fun p => x - (aux p - s.dual p)⟩

/-- One inner iteration of `admm_update_B` (lines 260-285). -/
noncomputable def stepB (pens : Fin n → PenB I R J) (ρ : Fin I → ℝ) (svds : Fin I → SVD R R R)
    (rhs : Ragged I R J) (s : RagState I R n J) : RagState I R n J :=
  let x : Ragged I R J := fun i => svdSolve (svds i) (ρ i • (∑ p, (s.aux p).subtract (s.dual p) i) + rhs i)
  let aux := fun p => (pens p).update (fun i => x i + s.dual p i) ρ (s.aux p)
  ⟨x, aux, fun p i => x i - (aux p).subtract (s.dual p) i⟩

/-- One inner iteration of `admm_update_C` (lines 326-338). -/
noncomputable def stepC (pens : Fin n → PenC K R) (ρ : ℝ) (svd : SVD R R R)
    (rhs : Matrix (Fin K) (Fin R) ℝ) (s : MatState K R n) : MatState K R n :=
  let x := svdSolve svd (ρ • (∑ p, (s.aux p - s.dual p)) + rhs)
  let aux := fun p => (pens p).mat (x + s.dual p) ρ (s.aux p)
  ⟨x, aux, fun p => x - (aux p - s.dual p)⟩

/-- Parameters common to the updates: SVD function, number of inner iterations, inner tolerance, scale of the feasibility penalties. -/
structure Params (R : ℕ) where
  svd : Matrix (Fin R) (Fin R) ℝ → SVD R R R
  nInner : ℕ
  innerTol : Option ℝ
  scale : ℝ

/-- `admm_update_A` (lines 120-219), returning the new factors, auxiliary and dual variables. Raises AttributeError when a
penalty has no row update and the feasibility penalty is not constant. -/
noncomputable def admmUpdateA (P : Params R) (X : Ragged I K J) (pens : Fin n → PenA I R) (l2 : ℝ) (constant : Bool)
    (F : Factors I K R J) (aux dual : Fin n → Matrix (Fin I) (Fin R) ℝ) : Except PyErr (MatState I R n) :=
  (feasPenalties P.scale constant (crossA F)).bind fun ρ =>
    if !constant && decide (0 < P.nInner) && decide (0 < I) && (List.ofFn pens).any (fun p => p.row.isNone) then
      .error .attributeError
    else
      .ok (innerLoop (stepA pens ρ.1 ρ.2 (fun i => P.svd (addRidge (crossA F i) (ρ.2 i) n l2)) (rhsA X F))
        (matStop P.innerTol) P.nInner ⟨F.A, aux, dual⟩)

/-- `admm_update_B` (lines 222-292). -/
noncomputable def admmUpdateB (P : Params R) (X : Ragged I K J) (pens : Fin n → PenB I R J) (l2 : ℝ) (constant : Bool)
    (F : Factors I K R J) (aux : Fin n → AuxB I R J) (dual : Fin n → Ragged I R J) : Except PyErr (RagState I R n J) :=
  (feasPenalties P.scale constant (crossB F)).bind fun ρ =>
    .ok (innerLoop (stepB pens ρ.2 (fun i => P.svd (addRidge (crossB F i) (ρ.2 i) n l2)) (rhsB X F))
      (ragStop P.innerTol) P.nInner ⟨F.B, aux, dual⟩)

/-- `admm_update_C` (lines 295-344). -/
noncomputable def admmUpdateC (P : Params R) (X : Ragged I K J) (pens : Fin n → PenC K R) (l2 : ℝ)
    (F : Factors I K R J) (aux dual : Fin n → Matrix (Fin K) (Fin R) ℝ) : MatState K R n :=
  let ρ := feasPenalty P.scale (crossC F)
  innerLoop (stepC pens ρ (P.svd (addRidge (crossC F) ρ n l2)) (rhsC X F)) (matStop P.innerTol) P.nInner ⟨F.C, aux, dual⟩

end

end Verif.ADMM
