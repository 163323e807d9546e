import Mathlib.Algebra.Order.Floor.Ring
import Mathlib.Algebra.Order.Field.Basic
import Verif.CMF.Model

/-!
# Model of integer and floating-point arrays

`Verif/CMF` and `Verif/Loop` compute with exact numbers, as if every array were of type float. Here an array has one of
the two types int64 and float64 as well. It matters where the code writes into an existing array: numpy converts what
is written to the type of the array (`_utils.py` lines 50-53, `coupled_matrices.py` lines 592-594, `decomposition.py`
lines 191-195 and 207-211). Overflow and rounding of floats are not modelled.
-/

namespace Verif.NumType

open Verif.CMF

/-- int64 or float64. -/
inductive Dtype
  | int
  | float
  deriving DecidableEq

/-- The type of the result of `+`, `*` and `tl.dot` (numpy's promotion). -/
def Dtype.join : Dtype → Dtype → Dtype
  | .int, .int => .int
  | _, _ => .float

section
variable {K : Type} [Field K] [LinearOrder K] [FloorRing K]

/-- What is in an array after `x` was written into it: integer arrays truncate towards zero. -/
def Dtype.store : Dtype → K → K
  | .float, x => x
  | .int, x => if 0 ≤ x then (⌊x⌋ : K) else (⌈x⌉ : K)

/-- An array with its type. -/
structure DArray (K : Type) where
  dtype : Dtype
  arr : NDArray K

/-- `M.astype(d)`, the conversion that an assignment makes. -/
def castTo (d : Dtype) (M : NDArray K) : NDArray K := ⟨M.shape, fun idx => d.store (M.get idx)⟩

/-- The loops of `cmf_to_tensor` (`coupled_matrices.py` lines 593-594) and `create_padded_tensor` (`_utils.py` lines 51-53)
with a tensor of type `d`. -/
def fillTensorD (d : Dtype) (i : ℕ) (T : NDArray K) : List (NDArray K × ℕ) → Except PyErr (NDArray K)
  | [] => .ok T
  | (M, len) :: l => do
    let T' ← indexUpdate T i len (castTo d M)
    fillTensorD d (i + 1) T' l

/-- `tl.context(matrices[0])`: the type of the first matrix. -/
def context : List (DArray K) → Except PyErr Dtype
  | [] => .error .indexError
  | M :: _ => .ok M.dtype

/-- `create_padded_tensor` (`_utils.py` lines 49-54). -/
def createPaddedTensorD (ms : List (DArray K)) : Except PyErr (DArray K) := do
  let (I, J, k) ← paddedShape (ms.map DArray.arr)
  let d ← context ms
  let T ← fillTensorD d 0 (zeros3 I J k) (ms.map fun M => (M.arr, M.arr.shape.getD 0 0))
  return ⟨d, T⟩

/-- A `CoupledMatrixFactorization` object and the types of its arrays. `dtW` is not used without weights. -/
structure DFact (K : Type) where
  fact : Fact K
  dtW : Dtype
  dtA : Dtype
  dtBs : List Dtype
  dtC : Dtype

/-- The type of `A * weights` or `A` (`coupled_matrices.py` lines 496-499). -/
def DFact.scaledA (f : DFact K) : Dtype := match f.fact.weights with | some _ => f.dtA.join f.dtW | none => f.dtA

/-- `cmf_to_matrices` (`coupled_matrices.py` lines 494-504). Matrix `i` is `tl.dot(B_i * a, C^T)` (line 428). Products and
sums of integers are integers, so the entries are those of `toMatrices`. -/
def toMatricesD (f : DFact K) : Except PyErr (List (DArray K)) := do
  let ms ← toMatrices f.fact
  return List.zipWith (fun dB M => ⟨(dB.join f.scaledA).join f.dtC, M⟩) f.dtBs ms

/-- `cmf_to_tensor` (`coupled_matrices.py` lines 587-596). -/
def toTensorD (f : DFact K) : Except PyErr (DArray K) := do
  let ms ← toMatricesD f
  let lengths := f.fact.Bs.map fun B => B.shape.getD 0 0
  let J ← pyMax lengths
  let d ← context ms
  let T ← fillTensorD d 0 (zeros3 (f.fact.A.shape.getD 0 0) J (f.fact.C.shape.getD 0 0)) ((ms.map DArray.arr).zip lengths)
  return ⟨d, T⟩

end

end Verif.NumType
