import Verif.CMF.NP

/-!
# Model of `src/matcouply/coupled_matrices.py` and of the padded tensor in `src/matcouply/_utils.py`
-/

namespace Verif.CMF

/-- A Python value given as a factor: `None`, a tensor (`tl.is_tensor`), or something else. -/
inductive PyVal (K : Type) where
  | none
  | tensor (t : NDArray K)
  | other

/-- A Python value given as `B_is`: a list (or tuple) of values, a tensor, or something that cannot be iterated.
(Iterables without a length, such as generators, are not modelled.) -/
inductive BArg (K : Type) where
  | list (l : List (PyVal K))
  | tensor (t : NDArray K)
  | notIterable

/-- The argument `(weights, (A, B_is, C))` of the constructor. -/
structure CMFArg (K : Type) where
  weights : PyVal K
  A : PyVal K
  Bs : BArg K
  C : PyVal K

/-- A `CoupledMatrixFactorization` object: `weights`, `factors`, `shape`, `rank`
(`coupled_matrices.py` lines 92-102). -/
structure Fact (K : Type) where
  weights : Option (NDArray K)
  A : NDArray K
  Bs : List (NDArray K)
  C : NDArray K
  shape : List (ℕ × ℕ)
  rank : ℕ

variable {K : Type}

/-- Iterating over `B_is`: a list yields its elements, a tensor its slices along the first axis; a 0-d tensor and
other objects raise TypeError (`enumerate(B_is)`, `coupled_matrices.py` line 324). -/
def BArg.iter : BArg K → Except PyErr (List (PyVal K))
  | .list l => .ok l
  | .tensor t =>
    match t.shape with
    | [] => .error .typeError
    | n :: sh => .ok ((List.range n).map fun i => .tensor ⟨sh, fun idx => t.get (i :: idx)⟩)
  | .notIterable => .error .typeError

/-- The checks for one `B_i` (`coupled_matrices.py` lines 325-343). -/
def checkB (rank : ℕ) : PyVal K → Except PyErr (NDArray K)
  | .tensor t =>
    if t.shape.length ≠ 2 then .error .valueError
    else if t.shape[1]? ≠ some rank then .error .valueError
    else .ok t
  | _ => .error .typeError

/-- The checks of the weights (`coupled_matrices.py` lines 295-300). -/
def checkWeights : PyVal K → Except PyErr (Option (NDArray K))
  | .none => .ok none
  | .tensor w => if w.shape.length ≠ 1 then .error .valueError else .ok (some w)
  | .other => .error .typeError

/-- The checks of A (lines 301-308) and of C (lines 309-316). -/
def checkMat : PyVal K → Except PyErr (NDArray K)
  | .tensor t => if t.shape.length ≠ 2 then .error .valueError else .ok t
  | _ => .error .typeError

/-- `if condition: raise ValueError`. -/
def raiseIf (b : Prop) [Decidable b] : Except PyErr Unit := if b then .error .valueError else .ok ()

/-- `CoupledMatrixFactorization.__init__` with `_validate_cmf` (`coupled_matrices.py` lines 92-102 and 294-362), in the
order of the code: weights (295-300), A (301-308), C (309-316), rank and columns of C (317-322), every B_i (324-344),
length of weights (346-351), number of B_i (353-357). -/
def construct (x : CMFArg K) : Except PyErr (Fact K) := do
  let weights ← checkWeights x.weights
  let A ← checkMat x.A
  let C ← checkMat x.C
  let rank := A.shape.getD 1 0
  raiseIf (C.shape.getD 1 0 ≠ rank)
  let bs ← x.Bs.iter
  let Bs ← bs.mapM (checkB rank)
  raiseIf (∃ w ∈ weights, w.shape.getD 0 0 ≠ rank)
  raiseIf (A.shape.getD 0 0 ≠ bs.length)
  return { weights, A, Bs, C, shape := Bs.map fun B => (B.shape.getD 0 0, C.shape.getD 0 0), rank }

variable [Field K] 

/-- `cmf_to_matrix` (`coupled_matrices.py` lines 419-428) after validation. -/
def toMatrix (c : Fact K) (i : ℤ) : Except PyErr (NDArray K) := do
  let a ← rowAt c.A i
  let a ← match c.weights with
    | some w => mulVec a w
    | none => pure a
  let Ct ← transpose c.C
  let B ← listAt c.Bs i
  dot (← mulRow B a) Ct

/-- `cmf_to_slice` (lines 431-438). -/
def toSlice (c : Fact K) (i : ℤ) : Except PyErr (NDArray K) := toMatrix c i

/-- `cmf_to_matrices` (lines 494-504) after validation. -/
def toMatrices (c : Fact K) : Except PyErr (List (NDArray K)) := do
  let A ← match c.weights with
    | some w => mulRow c.A w
    | none => pure c.A
  match A.shape with
  | [I, _] => (List.range I).mapM fun (i : ℕ) => toMatrix { c with weights := none, A := A } (i : ℤ)
  | _ => .error .valueError

/-- `cmf_to_slices` (lines 507-514). -/
def toSlices (c : Fact K) : Except PyErr (List (NDArray K)) := toMatrices c

/-- The loop of `cmf_to_tensor` (lines 593-594): write the remaining matrices, starting with number `i`. -/
def fillTensor (i : ℕ) (T : NDArray K) : List (NDArray K × ℕ) → Except PyErr (NDArray K)
  | [] => .ok T
  | (M, len) :: l => do
    let T' ← indexUpdate T i len M
    fillTensor (i + 1) T' l

/-- `cmf_to_tensor` (lines 587-596). -/
def toTensor (c : Fact K) : Except PyErr (NDArray K) := do
  let ms ← toMatrices c
  let lengths := c.Bs.map fun B => B.shape.getD 0 0
  let J ← pyMax lengths
  fillTensor 0 (zeros3 (c.A.shape.getD 0 0) J (c.C.shape.getD 0 0)) (ms.zip lengths)

/-- `cmf_to_unfolded` (lines 708-714). -/
def toUnfolded (c : Fact K) (mode : ℤ) (pad : Bool) : Except PyErr (NDArray K) :=
  if pad then do unfold (← toTensor c) mode
  else if mode = 2 then do transpose (← concatRows (← toMatrices c))
  else .error .valueError

/-- `cmf_to_vec` (lines 795-799). -/
def toVec (c : Fact K) (pad : Bool) : Except PyErr (NDArray K) :=
  if pad then do tensorToVec (← toTensor c)
  else do concatVec (← (← toMatrices c).mapM ravel)

/-- One pass of the loop in `get_padded_tensor_shape` (`_utils.py` lines 43-48): unpacking the shape of something that
is not a matrix raises ValueError. -/
def padStep (k J : ℕ) (N : NDArray K) : Except PyErr ℕ :=
  match N.shape with
  | [J', k'] => if k' ≠ k then .error .valueError else .ok (max J' J)
  | _ => .error .valueError

/-- `get_padded_tensor_shape` (`_utils.py` lines 36-50): the number of rows is the running maximum, starting from
minus infinity (so the list must be non-empty; `matrices[0]` raises IndexError otherwise). -/
def paddedShape (ms : List (NDArray K)) : Except PyErr (ℕ × ℕ × ℕ) :=
  match ms with
  | [] => .error .indexError
  | M :: _ =>
    match M.shape[1]? with
    | none => .error .indexError
    | some k => do
      let J ← ms.foldlM (padStep k) 0
      return (ms.length, J, k)

/-- `create_padded_tensor` (`_utils.py` lines 53-58). -/
def createPaddedTensor (ms : List (NDArray K)) : Except PyErr (NDArray K) := do
  let (I, J, k) ← paddedShape ms
  fillTensor 0 (zeros3 I J k) (ms.map fun M => (M, M.shape.getD 0 0))

/-- A valid TensorLy `CPTensor`: weights and factor matrices (its constructor replaces missing weights by ones). -/
structure CPT (K : Type) where
  weights : NDArray K
  factors : List (NDArray K)

/-- A valid TensorLy `Parafac2Tensor`. -/
structure P2T (K : Type) where
  weights : NDArray K
  A : NDArray K
  B : NDArray K
  C : NDArray K
  projections : List (NDArray K)

/-- `tl.copy(B)[:J, :]`. -/
def firstRows (B : NDArray K) (J : ℕ) : NDArray K :=
  match B.shape with
  | [m, n] => .mk2 (min J m) n fun i j => B.get [i, j]
  | _ => B

/-- The loop over `shapes` in `from_CPTensor` (lines 134-147). -/
def cutB (B C : NDArray K) : List (ℕ × ℕ) → Except PyErr (List (NDArray K))
  | [] => .ok []
  | (J, k) :: l =>
    if k ≠ C.shape.getD 0 0 then .error .valueError
    else if J > B.shape.getD 0 0 then .error .valueError
    else do
      let rest ← cutB B C l
      return firstRows B J :: rest

/-- `from_CPTensor` (lines 121-151); `shapes` holds non-negative numbers. -/
def fromCP (t : CPT K) (shapes : Option (List (ℕ × ℕ))) : Except PyErr (Fact K) :=
  match t.factors with
  | [A, B, C] => do
    let Bs ← match shapes with
      | some sh =>
        if sh.length ≠ A.shape.getD 0 0 then .error PyErr.valueError
        else cutB B C sh
      | none => pure ((List.range (A.shape.getD 0 0)).map fun _ => B)
    construct ⟨.tensor t.weights, .tensor A, .list (Bs.map .tensor), .tensor C⟩
  | _ => .error .valueError

/-- `from_Parafac2Tensor` (lines 168-172). -/
def fromP2 (t : P2T K) : Except PyErr (Fact K) := do
  let Bs ← t.projections.mapM fun P => dot P t.B
  construct ⟨.tensor t.weights, .tensor t.A, .list (Bs.map .tensor), .tensor t.C⟩

end Verif.CMF
