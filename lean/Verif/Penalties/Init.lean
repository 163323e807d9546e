import Mathlib.Algebra.Order.Field.Basic
import Verif.CMF.Model

/-!
# Model of `init_aux` and `init_dual`

`src/matcouply/penalties.py` lines 37-253 (base class) and 1111-1217 (`Parafac2`), on dynamic values. The data matrices enter through their
shapes only, given as a list of pairs (rows, columns). `tl.check_random_state` accepts the random state; its draws are arbitrary functions.
-/

namespace Verif.Penalties

open Verif.CMF

/-- A value passed where an int is expected (`True` and `False` are ints). -/
inductive PyInt where
  | int (z : ℤ)
  | notInt

/-- `aux_init` or `dual_init` of a penalty: a string, a tensor, a list, or something else. -/
inductive InitVal (K : Type) where
  | str (s : String)
  | tensor (t : NDArray K)
  | list (l : List (PyVal K))
  | other

/-- What is returned: a tensor or a list. -/
inductive InitRes (K : Type) where
  | tensor (t : NDArray K)
  | list (l : List (PyVal K))

/-- The entries of the `n`-th array drawn from the uniform and the standard normal distribution. -/
structure Draws (K : Type) where
  uniform : ℕ → ℕ → ℕ → K
  normal : ℕ → ℕ → ℕ → K

variable {K : Type}

/-- `random_state.uniform(size=(m, rank))`, `tl.zeros((m, rank))`, ...: numpy raises ValueError for a negative dimension. -/
def sized [Zero K] (m : ℕ) (rank : ℤ) (f : ℕ → ℕ → K) : Except PyErr (NDArray K) :=
  if rank < 0 then .error .valueError else .ok (.mk2 m rank.toNat f)

/-- `tl.shape(x)`: the attribute `shape`, which other objects lack. -/
def shapeOf : PyVal K → Except PyErr (List ℕ)
  | .tensor t => .ok t.shape
  | _ => .error .attributeError

/-- `any(tl.shape(aux) != shape for aux, shape in zip(self.aux_init, shapes))` (lines 113-115), stopping at the first difference. -/
def anyShapeDiffers (rank : ℤ) : List (PyVal K) → List (ℕ × ℕ) → Except PyErr Bool
  | x :: xs, m :: ms =>
    match shapeOf x with
    | .error e => .error e
    | .ok sh => if sh.map Int.ofNat ≠ [(m.1 : ℤ), rank] then .ok true else anyShapeDiffers rank xs ms
  | _, _ => .ok false

/-- The branch for a tensor in mode 0 or 2 (lines 88-104). `length_, rank_ = tl.shape(...)` raises ValueError unless there are two dimensions; then
`matrices[0]` raises IndexError if there are no matrices. -/
def givenTensor (t : NDArray K) (mats : List (ℕ × ℕ)) (rank : ℤ) (mode : ℤ) : Except PyErr (InitRes K) :=
  match t.shape with
  | [len, rank'] =>
    match mats with
    | [] => .error .indexError
    | m :: _ =>
      if rank ≠ rank' ∨ (mode = 0 ∧ len ≠ mats.length) then .error .valueError
      else if rank ≠ rank' ∨ (mode = 2 ∧ len ≠ m.2) then .error .valueError
      else .ok (.tensor t)
  | _ => .error .valueError

/-- The branch for a list in mode 1 (lines 107-122). -/
def givenList (l : List (PyVal K)) (mats : List (ℕ × ℕ)) (rank : ℤ) : Except PyErr (InitRes K) :=
  match anyShapeDiffers rank l mats with
  | .error e => .error e
  | .ok true => .error .valueError
  | .ok false => if l.length ≠ mats.length then .error .valueError else .ok (.list l)

/-- A named scheme (lines 129-151): `f n` are the entries of the `n`-th array. -/
def generate [Zero K] (f : ℕ → ℕ → ℕ → K) (mats : List (ℕ × ℕ)) (rank : ℤ) (mode : ℤ) : Except PyErr (InitRes K) :=
  if mode = 0 then (sized mats.length rank (f 0)).map .tensor
  else if mode = 1 then ((mats.zipIdx).mapM fun x => sized x.1.1 rank (f x.2)).map fun l => .list (l.map .tensor)
  else
    match mats with
    | [] => .error .indexError
    | m :: _ => (sized m.2 rank (f 0)).map .tensor

/-- `init_aux` (lines 37-151) and `init_dual` (lines 153-253) of the base class, which differ only in the attribute they read. -/
def initVar [Zero K] (v : InitVal K) (d : Draws K) (mats : List (ℕ × ℕ)) (rank mode : PyInt) : Except PyErr (InitRes K) :=
  match rank with
  | .notInt => .error .typeError
  | .int rank =>
    match mode with
    | .notInt => .error .typeError
    | .int mode =>
      if mode ≠ 0 ∧ mode ≠ 1 ∧ mode ≠ 2 then .error .valueError
      else
        match v with
        | .other => .error .typeError
        | .tensor t => if mode = 0 ∨ mode = 2 then givenTensor t mats rank mode else .error .typeError
        | .list l => if mode = 0 ∨ mode = 2 then .error .typeError else givenList l mats rank
        | .str s =>
          if s = "random_uniform" then generate d.uniform mats rank mode
          else if s = "random_standard_normal" then generate d.normal mats rank mode
          else if s = "zeros" then generate (fun _ _ _ => 0) mats rank mode
          else .error .valueError

/-- The attributes `aux_init` and `dual_init` (lines 33-35). -/
structure InitAttrs (K : Type) where
  auxInit : InitVal K
  dualInit : InitVal K

/-- `init_aux` (lines 37-151). -/
def initAux [Zero K] (p : InitAttrs K) (d : Draws K) (mats : List (ℕ × ℕ)) (rank mode : PyInt) : Except PyErr (InitRes K) :=
  initVar p.auxInit d mats rank mode

/-- `init_dual` (lines 153-253). -/
def initDual [Zero K] (p : InitAttrs K) (d : Draws K) (mats : List (ℕ × ℕ)) (rank mode : PyInt) : Except PyErr (InitRes K) :=
  initVar p.dualInit d mats rank mode

/-! ### PARAFAC2 -/

/-- An element of the tuple given as `aux_init`. -/
inductive P2Elem (K : Type) where
  | list (l : List (PyVal K))
  | tensor (t : NDArray K)
  | other

/-- `aux_init` of the PARAFAC2 penalty. -/
inductive P2Init (K : Type) where
  | str (s : String)
  | tuple (l : List (P2Elem K))
  | other

/-- The returned pair: basis matrices and coordinate matrix. -/
structure P2Res (K : Type) where
  bases : List (PyVal K)
  coord : NDArray K

/-- `tl.eye(m, rank)`. -/
def eye (m n : ℕ) [Zero K] [One K] : NDArray K := .mk2 m n fun i j => if i = j then 1 else 0

section
variable [Field K] [LinearOrder K]

/-- `tl.sum((cross_product - tl.eye(rank)) ** 2)` with `cross_product = tl.dot(tl.transpose(P), P)` (lines 1208-1209), for a `m × rank` matrix. -/
def crossError (P : NDArray K) (m rank : ℕ) : K :=
  ∑ r ∈ Finset.range rank, ∑ s ∈ Finset.range rank, ((∑ j ∈ Finset.range m, P.get [j, r] * P.get [j, s]) - if r = s then 1 else 0) ^ 2

/-- The loop over the given basis matrices (lines 1195-1210). -/
def checkBases (rank : ℤ) : List (ℕ × ℕ) → List (PyVal K) → Except PyErr Unit
  | m :: ms, x :: xs =>
    match x with
    | .tensor t =>
      match t.shape with
      | [r, c] =>
        if m.1 ≠ r ∨ (c : ℤ) ≠ rank then .error .valueError
        else if ¬ crossError t r c < 1 / 10 ^ 8 then .error .valueError
        else checkBases rank ms xs
      | _ => .error .valueError
    | _ => .error .typeError
  | _, _ => .ok ()

/-- A given tuple (lines 1174-1215). Unpacking a tuple that is not a pair raises ValueError. -/
def givenPair (l : List (P2Elem K)) (mats : List (ℕ × ℕ)) (rank : ℤ) : Except PyErr (P2Res K) :=
  match l with
  | [.list bases, .tensor coord] =>
    match coord.shape with
    | [r, c] =>
      if r ≠ c ∨ (r : ℤ) ≠ rank then .error .valueError
      else
        match checkBases rank mats bases with
        | .error e => .error e
        | .ok () => if bases.length ≠ mats.length then .error .valueError else .ok ⟨bases, coord⟩
    | _ => .error .valueError
  | [_, _] => .error .typeError
  | _ => .error .valueError

/-- A named scheme (lines 1161-1173): the entries of the coordinate matrix, or AttributeError if they are drawn from `None`. -/
def generatePair (f : Option (ℕ → ℕ → K)) (mats : List (ℕ × ℕ)) (rank : ℤ) : Except PyErr (P2Res K) :=
  match f with
  | none => .error .attributeError
  | some f => (sized rank.toNat rank f).map fun c => ⟨mats.map fun m => .tensor (eye m.1 rank.toNat), c⟩

/-- `Parafac2.init_aux` (lines 1111-1217). The random state is used without `tl.check_random_state`; `none` is `None`. -/
def p2InitAux (v : P2Init K) (d : Option (Draws K)) (mats : List (ℕ × ℕ)) (rank mode : PyInt) : Except PyErr (P2Res K) :=
  match v with
  | .other => .error .typeError
  | _ =>
    match rank with
    | .notInt => .error .typeError
    | .int rank =>
      match mode with
      | .notInt => .error .typeError
      | .int mode =>
        if mode ≠ 1 then .error .valueError
        else
          match v with
          | .str s =>
            if s = "random_uniform" then generatePair (d.map fun d => d.uniform 0) mats rank
            else if s = "random_standard_normal" then generatePair (d.map fun d => d.normal 0) mats rank
            else if s = "zeros" then generatePair (some fun _ _ => 0) mats rank
            else .error .valueError
          | .tuple l => givenPair l mats rank
          | .other => .error .typeError

end

end Verif.Penalties
