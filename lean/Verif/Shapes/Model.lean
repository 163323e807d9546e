import Mathlib.Data.Nat.Notation
import Verif.Py

/-!
# The shapes of all arrays in `cmf_aoadmm`

`src/matcouply/decomposition.py` lines 85-452 and 863-1098, with every matrix replaced by its shape and every vector by its length. Operations raise where numpy does: ValueError for products
and sums that do not fit (two shapes fit if each pair of lengths is equal or contains a 1), IndexError for missing entries. The updates of the penalties return an array of
the shape of the first argument (`Parafac2` and `GeneralizedL2Penalty` are not covered); their initial variables have the shapes of `penalties.py` lines 85-253. How many iterations are done, and
whether the diagnostics are computed, is an argument.
-/

namespace Verif.Shapes

/-- Numbers of rows and columns. -/
abbrev Sh := ℕ × ℕ

/-- `tl.dot` of two matrices. -/
def dot (s t : Sh) : Except PyErr Sh := if s.2 = t.1 then .ok (s.1, t.2) else .error .valueError

/-- One pair of lengths in an element-wise operation. -/
def fit (a b : ℕ) : Except PyErr ℕ := if a = b then .ok a else if a = 1 then .ok b else if b = 1 then .ok a else .error .valueError

/-- An element-wise operation on two matrices. -/
def both (s t : Sh) : Except PyErr Sh := (fit s.1 t.1).bind fun a => (fit s.2 t.2).bind fun b => .ok (a, b)

/-- An element-wise operation on a matrix and a vector, which is a row. -/
def withRow (s : Sh) (n : ℕ) : Except PyErr Sh := (fit s.2 n).bind fun b => .ok (s.1, b)

/-- `x[i]` for a list, or for the rows of a matrix. -/
def item {α : Type} (l : List α) (i : ℕ) : Except PyErr α := match l[i]? with | some x => .ok x | none => .error .indexError

/-- The rows of a matrix, as an iterable of vectors. -/
def rowsOf (s : Sh) : List ℕ := List.replicate s.1 s.2

/-- `l[i] = x` for a list. -/
def setItem {α : Type} (l : List α) (i : ℕ) (x : α) : Except PyErr (List α) := if i < l.length then .ok (l.set i x) else .error .indexError

/-- `index_update(M, index[i, :], v)` for a vector of length `n`: the shape stays the same. -/
def setRow (s : Sh) (i n : ℕ) : Except PyErr Sh :=
  if i < s.1 then (if n = s.2 ∨ n = 1 then .ok s else .error .valueError) else .error .indexError

/-- `total += x`, where `total` starts as the number 0 (`none`): later additions are in place, so they must not change the shape. -/
def addTo (total : Option Sh) (s : Sh) : Except PyErr (Option Sh) :=
  match total with
  | none => .ok (some s)
  | some t => (both t s).bind fun u => if u = t then .ok (some t) else .error .valueError

/-- `total + x`. -/
def plus (total : Option Sh) (s : Sh) : Except PyErr Sh :=
  match total with
  | none => .ok s
  | some t => both t s

/-- `[f(x, y) for x, y in zip(l, l')]` for an element-wise `f`, as in `subtract_from_auxes` (`penalties.py` line 288). -/
def each (l l' : List Sh) : Except PyErr (List Sh) := (l.zip l').mapM fun p => both p.1 p.2

/-- `svd_fun(lhs)`: the shapes of `U / s` and `Uh`. -/
def svd (s : Sh) : Sh × Sh := ((s.1, min s.1 s.2), (min s.1 s.2, s.2))

/-- The factor matrices. -/
structure Fac where
  A : Sh
  Bs : List Sh
  C : Sh
deriving DecidableEq

/-- Auxiliary and dual variables, one per penalty. -/
structure Vars where
  auxA : List Sh
  dualA : List Sh
  auxB : List (List Sh)
  dualB : List (List Sh)
  auxC : List Sh
  dualC : List Sh
deriving DecidableEq

/-! ### Diagnostics -/

/-- One term of lines 431-443: `BᵀX C` in the cheaper order, and the cross product. -/
def term (M B C CtC : Sh) : Except PyErr Sh := do
  let t ← (if C.1 < B.1 then do dot (← dot B.swap M) C else do dot B.swap (← dot M C))
  let _ ← both (← dot B.swap B) CtC
  return t

/-- `_cmf_reconstruction_error` (lines 417-452) without weights. `mid`: right-hand sides and cross products of the A-update. -/
def recError (X : List Sh) (F : Fac) : Option (List ℕ × List Sh) → Except PyErr Unit
  | none => do
    let CtC ← dot F.C.swap F.C
    let _ ← F.Bs.zipIdx.mapM fun p => do
      let B ← withRow p.1 (← item (rowsOf F.A) p.2)
      term (← item X p.2) B F.C CtC
    return ()
  | some (rhs, cross) => do
    let _ ← (rhs.zip (rowsOf F.A)).mapM fun p => fit p.1 p.2
    let _ ← (rowsOf F.A).zipIdx.mapM fun p => do dot (← dot (p.1, p.1) (← item cross p.2)) (p.1, p.1)
    return ()

/-- `compute_feasibility_gaps` (lines 398-414). -/
def gaps (F : Fac) (v : Vars) : Except PyErr Unit := do
  let _ ← v.auxA.mapM fun s => both s F.A
  let _ ← v.auxB.mapM fun l => each l F.Bs
  let _ ← v.auxC.mapM fun s => both s F.C
  return ()

/-! ### B-update -/

/-- Right-hand sides and systems (lines 236-257), for matrices with an entry in `A`. -/
def linB (X : List Sh) (F : Fac) : Except PyErr (List (Sh × Sh)) := do
  let CtC ← dot F.C.swap F.C
  (X.zip (rowsOf F.A)).mapM fun p => do
    let rhs ← dot p.1 (← withRow F.C p.2)
    let lhs ← withRow (← withRow CtC p.2).swap p.2
    let lhs ← both lhs.swap (F.A.2, F.A.2)
    return (rhs, lhs)

/-- The penalties' part of an inner iteration (lines 278-289) for one penalty; `n` feasibility penalties. -/
def penaltyB (n : ℕ) (Bs : List Sh) (p : List Sh × List Sh) : Except PyErr (List Sh × List Sh) := do
  let shifted ← each Bs p.2
  let aux := (shifted.take n).take p.1.length
  let dual ← each Bs (← each aux p.2)
  return (aux, dual)

/-- The new `B_is[i]` (lines 269-276). -/
def entryB (lin : List (Sh × Sh)) (shifted : List (List Sh)) (i : ℕ) : Except PyErr Sh := do
  let q ← item lin i
  let total ← shifted.foldlM (fun t l => do addTo t (← item l i)) none
  dot (← dot (← plus total q.1) (svd q.2).1) (svd q.2).2

/-- One inner iteration (lines 260-293); `check`: the change and the gaps are computed. -/
def innerB (check : Bool) (X : List Sh) (lin : List (Sh × Sh)) (s : List Sh × List (List Sh × List Sh)) : Except PyErr (List Sh × List (List Sh × List Sh)) := do
  let shifted ← s.2.mapM fun p => each p.1 p.2
  let Bs ← (List.range X.length).foldlM (fun Bs i => do setItem Bs i (← entryB lin shifted i)) s.1
  let vars ← s.2.mapM (penaltyB lin.length Bs)
  if check then
    let _ ← each Bs s.1
    let _ ← vars.mapM fun p => each p.1 Bs
  return (Bs, vars)

/-- `n` times. -/
def times {σ : Type} (f : σ → Except PyErr σ) : ℕ → σ → Except PyErr σ
  | 0, s => .ok s
  | n + 1, s => do times f n (← f s)

/-- `admm_update_B` (lines 220-296). `max` of no numbers raises ValueError. The arrays of the other entries of the list are swapped with their copies: shapes stay the same. -/
def updateB (const check : Bool) (n : ℕ) (X : List Sh) (s : Fac × Vars) : Except PyErr (Fac × Vars) := do
  let lin ← linB X s.1
  if const && lin.isEmpty then throw .valueError
  let r ← times (innerB check X lin) n (s.1.Bs, s.2.auxB.zip s.2.dualB)
  return ({ s.1 with Bs := r.1 }, { s.2 with auxB := r.2.map (·.1), dualB := r.2.map (·.2) })

/-! ### C-update -/

/-- The system and the right-hand side (lines 315-326). -/
def linC (X : List Sh) (F : Fac) : Except PyErr (Sh × Sh) := do
  let r ← (X.zip (F.Bs.zip (rowsOf F.A))).foldlM (fun (t : Option Sh × Option Sh) p => do
    let BA ← withRow p.2.1 p.2.2
    let lhs ← addTo t.1 (← dot BA.swap BA)
    let rhs ← addTo t.2 (← dot p.1.swap BA)
    return (lhs, rhs)) (none, none)
  match r with
  | (some lhs, some rhs) => do
    let u ← both lhs (F.C.2, F.C.2)
    if u = lhs then return (rhs, lhs) else throw .valueError
  | _ => throw .valueError

/-- The penalties' part for one penalty (lines 339-345). -/
def penaltyC (C : Sh) (p : Sh × Sh) : Except PyErr (Sh × Sh) := do
  let aux ← both C p.2
  let dual ← both C (← both aux p.2)
  return (aux, dual)

/-- One inner iteration (lines 333-349). -/
def innerC (check : Bool) (lin : Sh × Sh) (s : Sh × List (Sh × Sh)) : Except PyErr (Sh × List (Sh × Sh)) := do
  let total ← s.2.foldlM (fun t p => do addTo t (← both p.1 p.2)) none
  let C ← dot (← dot (← plus total lin.1) (svd lin.2).1) (svd lin.2).2
  let vars ← s.2.mapM (penaltyC C)
  if check then
    let _ ← both C s.1
    let _ ← vars.mapM fun p => both p.1 C
  return (C, vars)

/-- `admm_update_C` (lines 299-351). -/
def updateC (check : Bool) (n : ℕ) (X : List Sh) (s : Fac × Vars) : Except PyErr (Fac × Vars) := do
  let lin ← linC X s.1
  let r ← times (innerC check lin) n (s.1.C, s.2.auxC.zip s.2.dualC)
  return ({ s.1 with C := r.1 }, { s.2 with auxC := r.2.map (·.1), dualC := r.2.map (·.2) })

/-! ### A-update -/

/-- Right-hand sides (vectors) and cross products (lines 134-156). -/
def linA (X : List Sh) (F : Fac) : Except PyErr (List (ℕ × Sh)) := do
  let CtC ← dot F.C.swap F.C
  (X.zip F.Bs).mapM fun p => do
    let t ← term p.1 p.2 F.C CtC
    let cross ← both (← dot p.2.swap p.2) CtC
    return (min t.1 t.2, cross)

/-- The new row `A[i]` (lines 182-193): its length. A vector of length `n` is a matrix with one row. -/
def entryA (lin : List (ℕ × Sh)) (eye : ℕ) (shifted : List Sh) (i : ℕ) : Except PyErr ℕ := do
  let q ← item lin i
  let lhs ← both q.2 (eye, eye)
  let total ← shifted.foldlM (fun t s => do addTo t (1, ← item (rowsOf s) i)) none
  let v ← plus total (1, q.1)
  return (← dot (← dot v (svd lhs).1) (svd lhs).2).2

/-- The penalties' part for one penalty (lines 195-211); `n` feasibility penalties. -/
def penaltyA (const : Bool) (n : ℕ) (A : Sh) (p : Sh × Sh) : Except PyErr (Sh × Sh) := do
  let shifted ← both A p.2
  let aux ← (if const then pure shifted else (List.range n).foldlM (fun aux i => do
    let l ← item (rowsOf shifted) i
    let _ ← item (rowsOf aux) i
    setRow aux i l) p.1)
  let dual ← both A (← both aux p.2)
  return (aux, dual)

/-- One inner iteration (lines 174-215). -/
def innerA (const check : Bool) (X : List Sh) (lin : List (ℕ × Sh)) (eye : ℕ) (s : Sh × List (Sh × Sh)) : Except PyErr (Sh × List (Sh × Sh)) := do
  let shifted ← s.2.mapM fun p => both p.1 p.2
  let A ← (List.range X.length).foldlM (fun A i => do setRow A i (← entryA lin eye shifted i)) s.1
  let vars ← s.2.mapM (penaltyA const lin.length A)
  if check then
    let _ ← both A s.1
    let _ ← vars.mapM fun p => both p.1 A
  return (A, vars)

/-- `admm_update_A` (lines 118-217), with the right-hand sides and cross products for the reconstruction error. The systems are set up before the loop (lines 165-169). -/
def updateA (const check : Bool) (n : ℕ) (X : List Sh) (s : Fac × Vars) : Except PyErr ((Fac × Vars) × (List ℕ × List Sh)) := do
  let lin ← linA X s.1
  if const && lin.isEmpty then throw .valueError
  let _ ← lin.mapM fun q => both q.2 (s.1.A.2, s.1.A.2)
  let r ← times (innerA const check X lin s.1.A.2) n (s.1.A, s.2.auxA.zip s.2.dualA)
  return (({ s.1 with A := r.1 }, { s.2 with auxA := r.2.map (·.1), dualA := r.2.map (·.2) }), (lin.map (·.1), lin.map (·.2)))

/-! ### The call -/

/-- Arguments: the modes to update, constant feasibility penalties, `check` the inner tolerance is set, `nB`, `nC`, `nA` inner iterations are done, `diag` gaps and `errs` reconstruction errors are computed in
the loop. -/
structure Opts where
  updA : Bool
  updB : Bool
  updC : Bool
  constA : Bool
  constB : Bool
  check : Bool
  nA : ℕ
  nB : ℕ
  nC : ℕ
  diag : Bool
  errs : Bool

/-- Initial auxiliary and dual variables (lines 76-89, `penalties.py` lines 85-253), for `pA`, `pB`, `pC` penalties. -/
def startVars (X : List Sh) (rank : ℕ) (o : Opts) (pA pB pC : ℕ) : Except PyErr Vars := do
  let a := List.replicate (if o.updA then pA else 0) (X.length, rank)
  let b := List.replicate (if o.updB then pB else 0) (X.map fun s => (s.1, rank))
  let c ← (List.replicate (if o.updC then pC else 0) ()).mapM fun _ => do return ((← item X 0).2, rank)
  return ⟨a, a, b, b, c, c⟩

/-- One iteration (lines 946-1020). -/
def sweep (o : Opts) (X : List Sh) (s : Fac × Vars) : Except PyErr (Fac × Vars) := do
  let s ← (if o.updB then updateB o.constB o.check o.nB X s else pure s)
  let s ← (if o.updC then updateC o.check o.nC X s else pure s)
  let t ← (if o.updA then do
    let t ← updateA o.constA o.check o.nA X s
    return (t.1, some t.2) else pure (s, none))
  if o.diag then gaps t.1.1 t.1.2
  if o.errs then recError X t.1.1 t.2
  return t.1

/-- `CoupledMatrixFactorization(cmf)` (line 1098) for factors that are matrices. -/
def validate (F : Fac) : Except PyErr Unit :=
  if F.C.2 = F.A.2 ∧ (∀ B ∈ F.Bs, B.2 = F.A.2) ∧ F.Bs.length = F.A.1 then .ok () else .error .valueError

/-- `cmf_aoadmm` from line 893 to line 1098 with `N` iterations: the shapes of the returned factors. -/
def fit_cmf (o : Opts) (X : List Sh) (rank pA pB pC N : ℕ) (F : Fac) : Except PyErr Fac := do
  let v ← startVars X rank o pA pB pC
  recError X F none
  gaps F v
  let s ← times (sweep o X) N (F, v)
  validate s.1
  return s.1

end Verif.Shapes
