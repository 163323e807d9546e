import Mathlib.Algebra.BigOperators.Group.Finset.Basic
import Mathlib.Algebra.Field.Defs
import Mathlib.Algebra.BigOperators.Intervals
import Verif.Py

/-!
# Arrays with a run-time shape, and the numpy/TensorLy operations the conversion code uses

An array is a shape and a function giving the entry at an index list. Only entries inside the shape are meaningful;
no statement mentions others. Shape mismatches raise the exception numpy raises.
-/

namespace Verif.CMF

/-- A numpy array. -/
structure NDArray (K : Type) where
  shape : List ℕ
  get : List ℕ → K

/-- A two-dimensional array. -/
def NDArray.mk2 {K : Type} (m n : ℕ) (f : ℕ → ℕ → K) [Zero K] : NDArray K :=
  ⟨[m, n], fun idx => match idx with | [i, j] => f i j | _ => 0⟩

/-- A one-dimensional array. -/
def NDArray.mk1 {K : Type} (n : ℕ) (f : ℕ → K) [Zero K] : NDArray K :=
  ⟨[n], fun idx => match idx with | [i] => f i | _ => 0⟩

/-- A three-dimensional array. -/
def NDArray.mk3 {K : Type} (l m n : ℕ) (f : ℕ → ℕ → ℕ → K) [Zero K] : NDArray K :=
  ⟨[l, m, n], fun idx => match idx with | [i, j, k] => f i j k | _ => 0⟩

/-- Python indexing of a sequence of length `n` with an integer: negative indices count from the end. -/
def pyIndex (n : ℕ) (i : ℤ) : Except PyErr ℕ :=
  if 0 ≤ i ∧ i < n then .ok i.toNat
  else if i < 0 ∧ -(n : ℤ) ≤ i then .ok (n + i).toNat
  else .error .indexError

section
variable {K : Type} [Zero K]

@[simp] theorem mk1_shape (n : ℕ) (f : ℕ → K) : (NDArray.mk1 n f).shape = [n] := rfl
@[simp] theorem mk1_get (n : ℕ) (f : ℕ → K) (i : ℕ) : (NDArray.mk1 n f).get [i] = f i := rfl
@[simp] theorem mk2_shape (m n : ℕ) (f : ℕ → ℕ → K) : (NDArray.mk2 m n f).shape = [m, n] := rfl
@[simp] theorem mk2_get (m n : ℕ) (f : ℕ → ℕ → K) (i j : ℕ) : (NDArray.mk2 m n f).get [i, j] = f i j := rfl
@[simp] theorem mk3_shape (l m n : ℕ) (f : ℕ → ℕ → ℕ → K) : (NDArray.mk3 l m n f).shape = [l, m, n] := rfl
@[simp] theorem mk3_get (l m n : ℕ) (f : ℕ → ℕ → ℕ → K) (i j k : ℕ) :
    (NDArray.mk3 l m n f).get [i, j, k] = f i j k := rfl
end

variable {K : Type} [Field K]

/-- `M * v` for a matrix and a vector (numpy broadcasting along the rows). -/
def mulRow (M v : NDArray K) : Except PyErr (NDArray K) :=
  match M.shape, v.shape with
  | [m, n], [l] =>
    if n = l then .ok (.mk2 m n fun i j => M.get [i, j] * v.get [j])
    else if l = 1 then .ok (.mk2 m n fun i j => M.get [i, j] * v.get [0])
    else if n = 1 then .ok (.mk2 m l fun i j => M.get [i, 0] * v.get [j])
    else .error .valueError
  | _, _ => .error .valueError

/-- `v * w` for two vectors (numpy broadcasting). -/
def mulVec (v w : NDArray K) : Except PyErr (NDArray K) :=
  match v.shape, w.shape with
  | [n], [l] =>
    if n = l then .ok (.mk1 n fun j => v.get [j] * w.get [j])
    else if l = 1 then .ok (.mk1 n fun j => v.get [j] * w.get [0])
    else if n = 1 then .ok (.mk1 l fun j => v.get [0] * w.get [j])
    else .error .valueError
  | _, _ => .error .valueError

/-- `tl.dot(M, N)` for two matrices. -/
def dot (M N : NDArray K) : Except PyErr (NDArray K) :=
  match M.shape, N.shape with
  | [m, n], [n', p] =>
    if n = n' then .ok (.mk2 m p fun i k => ∑ r ∈ Finset.range n, M.get [i, r] * N.get [r, k])
    else .error .valueError
  | _, _ => .error .valueError

/-- `tl.transpose(M)` for a matrix. -/
def transpose (M : NDArray K) : Except PyErr (NDArray K) :=
  match M.shape with
  | [m, n] => .ok (.mk2 n m fun i j => M.get [j, i])
  | _ => .error .valueError

/-- `M[i]` for a matrix and a Python integer. -/
def rowAt (M : NDArray K) (i : ℤ) : Except PyErr (NDArray K) :=
  match M.shape with
  | [m, n] => do
    let i' ← pyIndex m i
    return .mk1 n fun j => M.get [i', j]
  | _ => .error .indexError

/-- `l[i]` for a list and a Python integer. -/
def listAt {α : Type} (l : List α) (i : ℤ) : Except PyErr α := do
  let i' ← pyIndex l.length i
  match l[i']? with
  | some a => return a
  | none => .error .indexError

/-- `max(l)` of a list of numbers of rows. Raises ValueError for an empty list. -/
def pyMax : List ℕ → Except PyErr ℕ
  | [] => .error .valueError
  | a :: l => .ok (l.foldl max a)

/-- `tl.zeros(shape)`. -/
def zeros3 (l m n : ℕ) : NDArray K := .mk3 l m n fun _ _ _ => 0

/-- `tl.index_update(tensor, tl.index[i, :length], M)`: numpy assigns in place. Broadcasting of `M` is not modelled:
the shapes must agree (they always do in the callers). -/
def indexUpdate (T : NDArray K) (i length : ℕ) (M : NDArray K) : Except PyErr (NDArray K) :=
  match T.shape, M.shape with
  | [a, b, c], [m, n] =>
    if i < a then
      if m = min length b ∧ n = c then
        .ok (.mk3 a b c fun i' j k => if i' = i ∧ j < length then M.get [j, k] else T.get [i', j, k])
      else .error .valueError
    else .error .indexError
  | _, _ => .error .valueError

/-- `tl.unfold(tensor, mode)` for a third-order tensor: `reshape(moveaxis(tensor, mode, 0), (shape[mode], -1))`.
`moveaxis` raises AxisError (a ValueError) for an unknown axis, negative axes count from the end;
`reshape((0, -1))` raises ValueError. -/
def unfold (T : NDArray K) (mode : ℤ) : Except PyErr (NDArray K) :=
  match T.shape with
  | [a, b, c] =>
    if mode = 0 ∨ mode = -3 then
      if a = 0 then .error .valueError
      else .ok (.mk2 a (b * c) fun i p => T.get [i, p / c, p % c])
    else if mode = 1 ∨ mode = -2 then
      if b = 0 then .error .valueError
      else .ok (.mk2 b (a * c) fun j p => T.get [p / c, j, p % c])
    else if mode = 2 ∨ mode = -1 then
      if c = 0 then .error .valueError
      else .ok (.mk2 c (a * b) fun k p => T.get [p / b, p % b, k])
    else .error .valueError
  | _ => .error .valueError

/-- `tl.tensor_to_vec(tensor)` for a third-order tensor: row-major order. -/
def tensorToVec (T : NDArray K) : Except PyErr (NDArray K) :=
  match T.shape with
  | [a, b, c] => .ok (.mk1 (a * b * c) fun p => T.get [p / (b * c), p % (b * c) / c, p % (b * c) % c])
  | _ => .error .valueError

/-- `tl.reshape(M, (-1,))` for a matrix: row-major order. -/
def ravel (M : NDArray K) : Except PyErr (NDArray K) :=
  match M.shape with
  | [m, n] => .ok (.mk1 (m * n) fun p => M.get [p / n, p % n])
  | _ => .error .valueError

/-- Concatenation of two matrices along the rows. -/
def concatRows2 (M N : NDArray K) : Except PyErr (NDArray K) :=
  match M.shape, N.shape with
  | [m, n], [m', n'] =>
    if n = n' then .ok (.mk2 (m + m') n fun i k => if i < m then M.get [i, k] else N.get [i - m, k])
    else .error .valueError
  | _, _ => .error .valueError

/-- `tl.concatenate(matrices, axis=0)`. Raises ValueError for an empty list. -/
def concatRows : List (NDArray K) → Except PyErr (NDArray K)
  | [] => .error .valueError
  | M :: l => l.foldlM concatRows2 M

/-- Concatenation of two vectors. -/
def concatVec2 (v w : NDArray K) : Except PyErr (NDArray K) :=
  match v.shape, w.shape with
  | [m], [n] => .ok (.mk1 (m + n) fun i => if i < m then v.get [i] else w.get [i - m])
  | _, _ => .error .valueError

/-- `tl.concatenate(vectors)`. Raises ValueError for an empty list. -/
def concatVec : List (NDArray K) → Except PyErr (NDArray K)
  | [] => .error .valueError
  | v :: l => l.foldlM concatVec2 v

end Verif.CMF
