import Verif.CMF.Object
import Mathlib.Algebra.Order.Field.Basic

/-!
# Model of `initialize_cmf` on arrays with run-time shapes

`src/matcouply/decomposition.py` lines 18-75, with the checks of the constructor, the conversions of CP and PARAFAC2 tensors and the caller's dictionary `init_params`.
Random draws, the SVD function and TensorLy's decompositions are parameters. Not modelled: given weights or first factors that are neither `None` nor tensors raise
TypeError here (numpy would convert a list), and `random_state` itself.
-/

namespace Verif.CMF

variable {K : Type}

/-- A value in `init_params`. -/
inductive Param where
  | int (n : ℤ)
  | other (id : ℕ)
  deriving DecidableEq

/-- A dictionary with string keys, in insertion order. -/
abbrev Params := List (String × Param)

/-- The argument `init`: a tuple, list or object, or a name. -/
inductive InitVal (K : Type) where
  | fact (v : Input K)
  | name (s : String)

/-- What the function gets from outside. `draw n` are the entries of the `n`-th array drawn by `random_state.uniform`; `svd M n` is `svd_fun(M, n_eigenvecs=n)`. -/
structure InitWorld (K : Type) where
  draw : ℕ → List ℕ → K
  svd : NDArray K → ℕ → NDArray K × NDArray K × NDArray K
  parafac2 : List (NDArray K) → ℕ → Params → Except PyErr (P2T K)
  parafac : NDArray K → ℕ → Params → Except PyErr (CPT K)
  hals : NDArray K → ℕ → Params → Except PyErr (CPT K)

/-- `tl.shape(M)[d]`. -/
def dim (M : NDArray K) (d : ℕ) : Except PyErr ℕ :=
  match M.shape[d]? with
  | some n => .ok n
  | none => .error .indexError

/-- `matrices[0]`. -/
def firstOf {α : Type} : List α → Except PyErr α
  | [] => .error .indexError
  | a :: _ => .ok a

/-- The shape of a product by numpy's broadcasting rules; shapes are given from the last axis to the first. -/
def bcastShape : List ℕ → List ℕ → Except PyErr (List ℕ)
  | [], l => .ok l
  | l, [] => .ok l
  | a :: as, b :: bs =>
    if a = b then do return a :: (← bcastShape as bs)
    else if a = 1 then do return b :: (← bcastShape as bs)
    else if b = 1 then do return a :: (← bcastShape as bs)
    else .error .valueError

/-- The index into an array of the given shape that an index of the result stands for; both from the last axis to the first. -/
def bcastIdx : List ℕ → List ℕ → List ℕ
  | [], _ => []
  | _ :: _, [] => []
  | n :: sh, i :: idx => (if n = 1 then 0 else i) :: bcastIdx sh idx

/-- `v * w` for two arrays (numpy broadcasting). -/
def mulArr [Mul K] (v w : NDArray K) : Except PyErr (NDArray K) := do
  let sh ← bcastShape v.shape.reverse w.shape.reverse
  return ⟨sh.reverse, fun idx => v.get (bcastIdx v.shape.reverse idx.reverse).reverse * w.get (bcastIdx w.shape.reverse idx.reverse).reverse⟩

/-- `tl.clip(M, 0, inf)`. -/
def clip0 [Zero K] [Max K] (M : NDArray K) : NDArray K := ⟨M.shape, fun idx => max (M.get idx) 0⟩

/-- `tl.ones((m, n))`. -/
def ones2 [Zero K] [One K] (m n : ℕ) : NDArray K := .mk2 m n fun _ _ => 1

/-- `tl.shape(matrix)` unpacked into two numbers (`get_shapes`, `_utils.py` lines 29-30; unpacked in `coupled_matrices.py` line 135). -/
def shapePair (M : NDArray K) : Except PyErr (ℕ × ℕ) :=
  match M.shape with
  | [m, n] => .ok (m, n)
  | _ => .error .valueError

/-- Lines 55-58: `init_params` after the default for `n_iter_max` is set. -/
def defaultParams (p : Option Params) : Params :=
  let p := p.getD []
  if "n_iter_max" ∈ p.map (·.1) then p else p ++ [("n_iter_max", .int 50)]

/-- `f(..., **init_params, random_state=random_state)` raises TypeError if the keyword is given twice. -/
def passParams (p : Params) : Except PyErr Params :=
  if "random_state" ∈ p.map (·.1) then .error .typeError else .ok p

section
variable [Field K]

/-- Lines 22-28. -/
def initGiven (v : Input K) : Except PyErr (Fact K) := do
  let x ← v.unpack
  match x.weights with
  | .none => construct x
  | .tensor w =>
    match x.A with
    | .tensor A => do construct ⟨.none, .tensor (← mulArr w A), x.Bs, x.C⟩
    | _ => .error .typeError
  | .other => .error .typeError

/-- Lines 31-40: A is drawn first, then C, then the B matrices. -/
def initRandom (E : InitWorld K) (Xs : List (NDArray K)) (R : ℕ) : Except PyErr (Fact K) := do
  let k ← dim (← firstOf Xs) 1
  let Bs ← Xs.zipIdx.mapM fun p => do return (⟨[← dim p.1 0, R], E.draw (p.2 + 2)⟩ : NDArray K)
  construct ⟨.none, .tensor ⟨[Xs.length, R], E.draw 0⟩, .list (Bs.map .tensor), .tensor ⟨[k, R], E.draw 1⟩⟩

/-- Lines 43-47: the left singular vectors of every matrix and the right singular vectors of the stacked matrices. -/
def singularVectors (E : InitWorld K) (Xs : List (NDArray K)) (R : ℕ) : Except PyErr (List (NDArray K) × NDArray K) := do
  let Bs := Xs.map fun M => (E.svd M R).1
  let C ← transpose (E.svd (← concatRows Xs) R).2.2
  return (Bs, C)

/-- `from_CPTensor(cp, shapes=shapes)` for the shapes of the matrices (lines 65-73). -/
def initCP (Xs : List (NDArray K)) (t : CPT K) : Except PyErr (Fact K) := do
  let sh ← Xs.mapM shapePair
  fromCP t (some sh)
end

variable [Field K] [LinearOrder K]

/-- Lines 60-75, with the parameters `p` of TensorLy's functions. -/
def initTensorly (E : InitWorld K) (Xs : List (NDArray K)) (R : ℕ) (p : Params) (s : String) : Except PyErr (Fact K) :=
  if s = "parafac2_als" then do fromP2 (← E.parafac2 Xs R (← passParams p))
  else do
    let T ← createPaddedTensor Xs
    if s = "cp_als" ∨ s = "parafac_als" then initCP Xs (← E.parafac T R (← passParams p))
    else if s = "cp_hals" ∨ s = "parafac_hals" then initCP Xs (← E.hals T R (← passParams p))
    else .error .valueError

/-- Lines 43-53. -/
def initSvd (E : InitWorld K) (Xs : List (NDArray K)) (R : ℕ) (s : String) : Except PyErr (Fact K) := do
  let (Bs, C) ← singularVectors E Xs R
  if s = "svd" then construct ⟨.none, .tensor (ones2 Xs.length R), .list (Bs.map .tensor), .tensor C⟩
  else construct ⟨.none, .tensor (ones2 Xs.length R), .list ((Bs.map clip0).map .tensor), .tensor (clip0 C)⟩

/-- `initialize_cmf` (lines 18-75): the caller's dictionary after the call, which lines 55-58 change in place, and the result. -/
def initCmf (E : InitWorld K) (Xs : List (NDArray K)) (R : ℕ) (params : Option Params) : InitVal K → Option Params × Except PyErr (Fact K)
  | .fact v => (params, initGiven v)
  | .name s =>
    if s = "random" then (params, initRandom E Xs R)
    else if s = "svd" ∨ s = "threshold_svd" then (params, initSvd E Xs R s)
    else (params.map fun _ => defaultParams params, initTensorly E Xs R (defaultParams params) s)

end Verif.CMF
