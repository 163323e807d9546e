import Verif.CMF.Model
import Mathlib.Data.Rat.Defs

/-!
# Model of the sequence protocol and the methods of `CoupledMatrixFactorization`

`src/matcouply/coupled_matrices.py` lines 92-102 and 174-240, and the handling of `validate` in lines 419-799. The object keeps what it was given; the checks and the
computations are those of `Verif/CMF/Model.lean`. With `validate=False` a factor that is not a tensor raises TypeError when it is used (in the code: TypeError or
AttributeError, depending on the value).
-/

namespace Verif.CMF

variable {K : Type}

/-- A `CoupledMatrixFactorization` object: attributes `weights`, `factors`, `shape`, `rank`. -/
structure Obj (K : Type) where
  weights : PyVal K
  factors : PyVal K × BArg K × PyVal K
  shape : List (ℕ × ℕ)
  rank : ℕ

/-- `CoupledMatrixFactorization(cmf)` (lines 92-102). -/
def Obj.new (x : CMFArg K) : Except PyErr (Obj K) := do
  let c ← construct x
  return ⟨x.weights, (x.A, x.Bs, x.C), c.shape, c.rank⟩

/-- What indexing and iteration give: the weights or the factors. -/
inductive Part (K : Type) where
  | weights (w : PyVal K)
  | factors (f : PyVal K × BArg K × PyVal K)

/-- A Python value used as an index. -/
inductive Item where
  | int (n : ℤ)
  | bool (b : Bool)
  | float (q : ℚ)
  | other

/-- `item == n` in Python: `True` and `False` are 1 and 0, a float may equal an integer. -/
def Item.eq (n : ℤ) : Item → Bool
  | .int m => m = n
  | .bool b => (if b then 1 else 0) = n
  | .float q => q = n
  | .other => false

/-- `__getitem__` (lines 174-184). -/
def Obj.getItem (o : Obj K) (item : Item) : Except PyErr (Part K) :=
  if item.eq 0 then .ok (.weights o.weights)
  else if item.eq 1 then .ok (.factors o.factors)
  else .error .indexError

/-- `__iter__` (lines 186-188). -/
def Obj.iter (o : Obj K) : List (Part K) := [.weights o.weights, .factors o.factors]

/-- `__len__` (lines 190-191). -/
def Obj.len (_ : Obj K) : ℕ := 2

/-- The argument `cmf` of the functions: a pair or an object. -/
inductive Input (K : Type) where
  | pair (x : CMFArg K)
  | obj (o : Obj K)

/-- `weights, (A, B_is, C) = cmf`, by iteration. -/
def Input.unpack : Input K → Except PyErr (CMFArg K)
  | .pair x => .ok x
  | .obj o =>
    match o.iter with
    | [.weights w, .factors (A, Bs, C)] => .ok ⟨w, A, Bs, C⟩
    | _ => .error .valueError

/-- A value used as a tensor. -/
def PyVal.asTensor : PyVal K → Except PyErr (NDArray K)
  | .tensor t => .ok t
  | _ => .error .typeError

/-- The unpacked components without validation. The attributes `shape` and `rank` are not used by the conversions. -/
def CMFArg.read (x : CMFArg K) : Except PyErr (Fact K) := do
  let weights ← match x.weights with
    | .none => pure none
    | .tensor w => pure (some w)
    | .other => .error .typeError
  let A ← x.A.asTensor
  let C ← x.C.asTensor
  let bs ← x.Bs.iter
  let Bs ← bs.mapM PyVal.asTensor
  return { weights, A, Bs, C, shape := [], rank := 0 }

/-- `if validate: cmf = CoupledMatrixFactorization(cmf)`. -/
def Input.check (v : Input K) (validate : Bool) : Except PyErr (Input K) :=
  if validate then do
    let o ← Obj.new (← v.unpack)
    return .obj o
  else .ok v

/-- The components that the conversions work on: validation, then unpacking. -/
def Input.prepare (v : Input K) (validate : Bool) : Except PyErr (Fact K) := do
  let v ← v.check validate
  (← v.unpack).read

variable [Field K]

/-- `cmf_to_matrix` (lines 419-428). -/
def cmfToMatrix (v : Input K) (i : ℤ) (validate : Bool := true) : Except PyErr (NDArray K) := do
  toMatrix (← v.prepare validate) i

/-- `cmf_to_slice` (lines 431-438). -/
def cmfToSlice (v : Input K) (i : ℤ) (validate : Bool := true) : Except PyErr (NDArray K) := cmfToMatrix v i validate

/-- `cmf_to_matrices` (lines 494-504). -/
def cmfToMatrices (v : Input K) (validate : Bool := true) : Except PyErr (List (NDArray K)) := do
  toMatrices (← v.prepare validate)

/-- `cmf_to_slices` (lines 507-514). -/
def cmfToSlices (v : Input K) (validate : Bool := true) : Except PyErr (List (NDArray K)) := cmfToMatrices v validate

/-- `cmf_to_tensor` (lines 587-596): lengths, and sizes are taken from the argument, the matrices from `cmf_to_matrices`. -/
def cmfToTensor (v : Input K) (validate : Bool := true) : Except PyErr (NDArray K) := do
  let x ← v.unpack
  let ms ← cmfToMatrices v validate
  let c ← x.read
  let lengths := c.Bs.map fun B => B.shape.getD 0 0
  let J ← pyMax lengths
  fillTensor 0 (zeros3 (c.A.shape.getD 0 0) J (c.C.shape.getD 0 0)) (ms.zip lengths)

/-- `cmf_to_unfolded` (lines 708-714). -/
def cmfToUnfolded (v : Input K) (mode : ℤ) (pad : Bool := true) (validate : Bool := true) : Except PyErr (NDArray K) :=
  if pad then do unfold (← cmfToTensor v validate) mode
  else if mode = 2 then do transpose (← concatRows (← cmfToMatrices v validate))
  else .error .valueError

/-- `cmf_to_vec` (lines 795-799). -/
def cmfToVec (v : Input K) (pad : Bool := true) (validate : Bool := true) : Except PyErr (NDArray K) :=
  if pad then do tensorToVec (← cmfToTensor v validate)
  else do concatVec (← (← cmfToMatrices v validate).mapM ravel)

/-! Methods (lines 197-240); `validate` keeps its default. -/

/-- `to_tensor` (lines 197-204). -/
def Obj.toTensor (o : Obj K) : Except PyErr (NDArray K) := cmfToTensor (.obj o)

/-- `to_vec` (lines 206-213). -/
def Obj.toVec (o : Obj K) (pad : Bool := true) : Except PyErr (NDArray K) := cmfToVec (.obj o) pad

/-- `to_unfolded` (lines 215-222). -/
def Obj.toUnfolded (o : Obj K) (mode : ℤ) (pad : Bool := true) : Except PyErr (NDArray K) := cmfToUnfolded (.obj o) mode pad

/-- `to_matrices` (lines 224-231). -/
def Obj.toMatrices (o : Obj K) : Except PyErr (List (NDArray K)) := cmfToMatrices (.obj o)

/-- `to_matrix` (lines 233-240). -/
def Obj.toMatrix (o : Obj K) (i : ℤ) : Except PyErr (NDArray K) := cmfToMatrix (.obj o) i

end Verif.CMF
