import Verif.Shapes.Model

/-!
# The shapes of all arrays in `cmf_aoadmm`, with all penalty classes

As `Shapes/Model`, but every penalty has a class: `GeneralizedL2Penalty` multiplies with its norm matrix, `Parafac2` has a tuple of basis matrices and a coordinate matrix as auxiliary variable, and
penalties without `factor_matrix_row_update` cannot update single rows. The values of the penalties are computed too. The penalties' variables are kept with the penalty, in one list per mode.
-/

namespace Verif.Shapes

/-- What the shapes depend on: subclasses of `RowVectorPenalty`, other subclasses of `MatrixPenalty` without a matrix, `GeneralizedL2Penalty` with a norm matrix of `n` rows and columns, and `Parafac2` (`full`: the SVD function
returns all singular vectors on one side if more are requested than exist, as TensorLy's `truncated_svd` does). -/
inductive Kind
  | row
  | mat
  | gen (n : ℕ)
  | p2 (full : Bool) (nIter : ℕ) (basis coord : Bool)
deriving DecidableEq

/-- A penalty on A or C with its variables. -/
structure PenM where
  kind : Kind
  aux : Sh
  dual : Sh
deriving DecidableEq

/-- Auxiliary variables of a penalty on the B matrices: a list of matrices, or basis matrices and a coordinate matrix. -/
inductive Aux
  | mats (l : List Sh)
  | p2 (basis : List Sh) (coord : Sh)
deriving DecidableEq

/-- A penalty on the B matrices with its variables. -/
structure PenBs where
  kind : Kind
  aux : Aux
  dual : List Sh
deriving DecidableEq

structure PenVars where
  a : List PenM
  b : List PenBs
  c : List PenM
deriving DecidableEq

/-! ### Operations of the penalties -/

/-- `factor_matrix_update`: of the package's penalties, only that of `GeneralizedL2Penalty` (`penalties.py` lines 732-737) depends on the shape. `Parafac2` has none. -/
def updMat : Kind → Sh → Except PyErr Sh
  | .row, s => .ok s
  | .mat, s => .ok s
  | .gen n, s => do dot (n, n) (← dot (n, n).swap s)
  | .p2 .., _ => .error .attributeError

/-- `factor_matrix_row_update`, which only subclasses of `RowVectorPenalty` have. -/
def updRow : Kind → ℕ → Except PyErr ℕ
  | .row, n => .ok n
  | _, _ => .error .attributeError

/-- `penalty` for one matrix (lines 739-740 for `GeneralizedL2Penalty`, line 1317 for `Parafac2`). -/
def value : Kind → Sh → Except PyErr Unit
  | .gen n, s => do
    let _ ← dot (← dot s.swap (n, n)) s
    return ()
  | .p2 .., _ => .error .typeError
  | _, _ => .ok ()

/-- `penalty` for a list of matrices. -/
def valueB : Kind → List Sh → Except PyErr Unit
  | .p2 .., _ => .ok ()
  | k, l => do
    let _ ← l.mapM (value k)
    return ()

/-- The SVD with `n_eigenvecs=R`: the shapes of `U` and `Vh`. -/
def svdR (full : Bool) (s : Sh) (R : ℕ) : Sh × Sh :=
  let k := min s.1 s.2
  if full && k < R then ((s.1, min s.1 R), (min s.2 R, s.2)) else ((s.1, min k R), (min k R, s.2))

/-- One iteration of `Parafac2.factor_matrices_update` (lines 1230-1247) with `n` feasibility penalties. Without any matrix it raises ZeroDivisionError, which is not distinguished. -/
def p2Iter (full ub uc : Bool) (R n : ℕ) (fms : List Sh) (s : List Sh × Sh) : Except PyErr (List Sh × Sh) := do
  let bs ← (if ub then fms.mapM fun fm => do
    let u := svdR full (← dot fm s.2.swap) R
    dot u.1 u.2 else pure s.1)
  let c ← (if uc then do
    match ← ((fms.zip bs).take n).foldlM (fun t p => do addTo t (← dot p.2.swap p.1)) none with
    | some c => pure c
    | none => throw .valueError else pure s.2)
  return (bs, c)

/-- `factor_matrices_update`: lines 392-408 for a `MatrixPenalty`, lines 1225-1252 for `Parafac2`, whose loop ends after the first iteration unless both parts are updated. -/
def updAuxes (n : ℕ) (fms : List Sh) : Kind → Aux → Except PyErr Aux
  | .p2 full it ub uc, .p2 bs c => do
    let r ← times (p2Iter full ub uc c.1 n fms) (if ub && uc then it else min it 1) (bs, c)
    return .p2 r.1 r.2
  | .p2 .., .mats _ => .error .valueError
  | k, .mats l => do return .mats (← ((fms.take n).take l.length).mapM (updMat k))
  | _, .p2 .. => .error .attributeError

/-- `auxes_as_matrices` (lines 327-343 and 1295-1313). -/
def Aux.asMats : Aux → Except PyErr (List Sh)
  | .mats l => .ok l
  | .p2 bs c => bs.mapM fun s => dot s c

/-- `subtract_from_auxes` (lines 271-289 and 1258-1288). -/
def Aux.minus (a : Aux) (dual : List Sh) : Except PyErr (List Sh) :=
  match a with
  | .mats l => each l dual
  | .p2 bs c => (bs.zip dual).mapM fun p => do both (← dot p.1 c) p.2

/-- `init_aux` for mode 0 or 2 (lines 85-171, 1128-1142): `Parafac2` raises ValueError. -/
def startM (k : Kind) (s : Sh) : Except PyErr PenM :=
  match k with
  | .p2 .. => .error .valueError
  | _ => .ok ⟨k, s, s⟩

/-- `init_aux` and `init_dual` for mode 1, with a named scheme. -/
def startB (X : List Sh) (rank : ℕ) (k : Kind) : PenBs :=
  let l := X.map fun s => (s.1, rank)
  match k with
  | .p2 .. => ⟨k, .p2 l (rank, rank), l⟩
  | _ => ⟨k, .mats l, l⟩

/-! ### Diagnostics -/

/-- `compute_feasibility_gaps` (`decomposition.py` lines 398-414). -/
def gapsK (F : Fac) (v : PenVars) : Except PyErr Unit := do
  let _ ← v.a.mapM fun p => both p.aux F.A
  let _ ← v.b.mapM fun p => do each (← p.aux.asMats) F.Bs
  let _ ← v.c.mapM fun p => both p.aux F.C
  return ()

/-- The values of the penalties (lines 917-921). -/
def values (F : Fac) (v : PenVars) : Except PyErr Unit := do
  let _ ← v.a.mapM fun p => value p.kind F.A
  let _ ← v.b.mapM fun p => valueB p.kind F.Bs
  let _ ← v.c.mapM fun p => value p.kind F.C
  return ()

/-! ### Updates -/

/-- Lines 278-289 for one penalty. -/
def stepB (n : ℕ) (Bs : List Sh) (p : PenBs) : Except PyErr PenBs := do
  let shifted ← each Bs p.dual
  let aux ← updAuxes n shifted p.kind p.aux
  let dual ← each Bs (← aux.minus p.dual)
  return ⟨p.kind, aux, dual⟩

/-- One inner iteration of the B-update (lines 260-293). -/
def innerBK (check : Bool) (X : List Sh) (lin : List (Sh × Sh)) (s : List Sh × List PenBs) : Except PyErr (List Sh × List PenBs) := do
  let shifted ← s.2.mapM fun p => p.aux.minus p.dual
  let Bs ← (List.range X.length).foldlM (fun Bs i => do setItem Bs i (← entryB lin shifted i)) s.1
  let vars ← s.2.mapM (stepB lin.length Bs)
  if check then
    let _ ← each Bs s.1
    let _ ← vars.mapM fun p => do each (← p.aux.asMats) Bs
  return (Bs, vars)

/-- `admm_update_B` (lines 220-296). -/
def updateBK (const check : Bool) (n : ℕ) (X : List Sh) (s : Fac × PenVars) : Except PyErr (Fac × PenVars) := do
  let lin ← linB X s.1
  if const && lin.isEmpty then throw .valueError
  let r ← times (innerBK check X lin) n (s.1.Bs, s.2.b)
  return ({ s.1 with Bs := r.1 }, { s.2 with b := r.2 })

/-- Lines 339-345 for one penalty. -/
def stepC (C : Sh) (p : PenM) : Except PyErr PenM := do
  let aux ← updMat p.kind (← both C p.dual)
  let dual ← both C (← both aux p.dual)
  return ⟨p.kind, aux, dual⟩

/-- One inner iteration of the C-update (lines 333-349). -/
def innerCK (check : Bool) (lin : Sh × Sh) (s : Sh × List PenM) : Except PyErr (Sh × List PenM) := do
  let total ← s.2.foldlM (fun t p => do addTo t (← both p.aux p.dual)) none
  let C ← dot (← dot (← plus total lin.1) (svd lin.2).1) (svd lin.2).2
  let vars ← s.2.mapM (stepC C)
  if check then
    let _ ← both C s.1
    let _ ← vars.mapM fun p => both p.aux C
  return (C, vars)

/-- `admm_update_C` (lines 299-351). -/
def updateCK (check : Bool) (n : ℕ) (X : List Sh) (s : Fac × PenVars) : Except PyErr (Fac × PenVars) := do
  let lin ← linC X s.1
  let r ← times (innerCK check lin) n (s.1.C, s.2.c)
  return ({ s.1 with C := r.1 }, { s.2 with c := r.2 })

/-- Lines 195-211 for one penalty. -/
def stepA (const : Bool) (n : ℕ) (A : Sh) (p : PenM) : Except PyErr PenM := do
  let shifted ← both A p.dual
  let aux ← (if const then updMat p.kind shifted else (List.range n).foldlM (fun aux i => do
    let l ← item (rowsOf shifted) i
    let _ ← item (rowsOf aux) i
    setRow aux i (← updRow p.kind l)) p.aux)
  let dual ← both A (← both aux p.dual)
  return ⟨p.kind, aux, dual⟩

/-- One inner iteration of the A-update (lines 174-215). -/
def innerAK (const check : Bool) (X : List Sh) (lin : List (ℕ × Sh)) (eye : ℕ) (s : Sh × List PenM) : Except PyErr (Sh × List PenM) := do
  let shifted ← s.2.mapM fun p => both p.aux p.dual
  let A ← (List.range X.length).foldlM (fun A i => do setRow A i (← entryA lin eye shifted i)) s.1
  let vars ← s.2.mapM (stepA const lin.length A)
  if check then
    let _ ← both A s.1
    let _ ← vars.mapM fun p => both p.aux A
  return (A, vars)

/-- `admm_update_A` (lines 118-217). -/
def updateAK (const check : Bool) (n : ℕ) (X : List Sh) (s : Fac × PenVars) : Except PyErr ((Fac × PenVars) × (List ℕ × List Sh)) := do
  let lin ← linA X s.1
  if const && lin.isEmpty then throw .valueError
  let _ ← lin.mapM fun q => both q.2 (s.1.A.2, s.1.A.2)
  let r ← times (innerAK const check X lin s.1.A.2) n (s.1.A, s.2.a)
  return (({ s.1 with A := r.1 }, { s.2 with a := r.2 }), (lin.map (·.1), lin.map (·.2)))

/-! ### The call -/

/-- Penalties on modes that are not updated are dropped (lines 901-906); initial variables (lines 76-89). -/
def startK (X : List Sh) (rank : ℕ) (o : Opts) (ka kb kc : List Kind) : Except PyErr PenVars := do
  let a ← (if o.updA then ka else []).mapM fun k => startM k (X.length, rank)
  let b := (if o.updB then kb else []).map (startB X rank)
  let c ← (if o.updC then kc else []).mapM fun k => do startM k ((← item X 0).2, rank)
  return ⟨a, b, c⟩

/-- One iteration (lines 946-1020). -/
def sweepK (o : Opts) (X : List Sh) (s : Fac × PenVars) : Except PyErr (Fac × PenVars) := do
  let s ← (if o.updB then updateBK o.constB o.check o.nB X s else pure s)
  let s ← (if o.updC then updateCK o.check o.nC X s else pure s)
  let t ← (if o.updA then do
    let t ← updateAK o.constA o.check o.nA X s
    return (t.1, some t.2) else pure (s, none))
  if o.diag then gapsK t.1.1 t.1.2
  if o.errs then
    recError X t.1.1 t.2
    values t.1.1 t.1.2
  return t.1

/-- `cmf_aoadmm` from line 893 to line 1098 with `N` iterations: the shapes of the returned factors. -/
def fit_kinds (o : Opts) (X : List Sh) (rank : ℕ) (ka kb kc : List Kind) (N : ℕ) (F : Fac) : Except PyErr Fac := do
  let v ← startK X rank o ka kb kc
  recError X F none
  values F v
  gapsK F v
  let s ← times (sweepK o X) N (F, v)
  validate s.1
  return s.1

end Verif.Shapes
