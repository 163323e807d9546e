import Verif.Penalties.UnimodalPen
import Mathlib.Data.Matrix.Basic

/-!
# Model of the parsing of penalty arguments

`src/matcouply/decomposition.py` lines 455-614 and the constructors in `src/matcouply/penalties.py`, for the numpy backend.

Values that reach the parser are `Leaf`s. Numbers are real numbers or an infinity; NaN is not modelled. Arrays with one or two dimensions are `vec` and `mat`;
`other` is any object that is true, has no order, no shape and no iterator.
-/

namespace Verif.Parse

open Verif.Penalties

/-- A value for one mode. -/
inductive Leaf
  | none
  | bool (b : Bool)
  | num (x : ℝ)
  | inf (negative : Bool)
  | vec (n : ℕ) (v : Fin n → ℝ)
  | mat (m n : ℕ) (M : Matrix (Fin m) (Fin n) ℝ)
  | other

/-- `bool(x)`. An array with one entry has the truth value of the entry, one without entries is false (numpy before 2.2,
with a warning), any other raises ValueError. -/
noncomputable def Leaf.truth : Leaf → Except PyErr Bool
  | .none => .ok false
  | .bool b => .ok b
  | .num x => .ok (decide (x ≠ 0))
  | .inf _ => .ok true
  | .vec n v => if h : n = 1 then .ok (decide (v ⟨0, by omega⟩ ≠ 0)) else if n = 0 then .ok false else .error .valueError
  | .mat m n M => if h : m = 1 ∧ n = 1 then .ok (decide (M ⟨0, by omega⟩ ⟨0, by omega⟩ ≠ 0)) else if m * n = 0 then .ok false else .error .valueError
  | .other => .ok true

/-- `bool(x < 0)`. Booleans are the numbers 0 and 1. -/
noncomputable def Leaf.ltZero : Leaf → Except PyErr Bool
  | .none => .error .typeError
  | .bool _ => .ok false
  | .num x => .ok (decide (x < 0))
  | .inf neg => .ok neg
  | .vec n v => if h : n = 1 then .ok (decide (v ⟨0, by omega⟩ < 0)) else if n = 0 then .ok false else .error .valueError
  | .mat m n M => if h : m = 1 ∧ n = 1 then .ok (decide (M ⟨0, by omega⟩ ⟨0, by omega⟩ < 0)) else if m * n = 0 then .ok false else .error .valueError
  | .other => .error .typeError

/-- `bool(x <= 0)`. -/
noncomputable def Leaf.leZero : Leaf → Except PyErr Bool
  | .none => .error .typeError
  | .bool b => .ok !b
  | .num x => .ok (decide (x ≤ 0))
  | .inf neg => .ok neg
  | .vec n v => if h : n = 1 then .ok (decide (v ⟨0, by omega⟩ ≤ 0)) else if n = 0 then .ok false else .error .valueError
  | .mat m n M => if h : m = 1 ∧ n = 1 then .ok (decide (M ⟨0, by omega⟩ ⟨0, by omega⟩ ≤ 0)) else if m * n = 0 then .ok false else .error .valueError
  | .other => .error .typeError

/-- Python's `max(x, 0)`: the first argument unless the second one is greater. -/
noncomputable def Leaf.max0 (l : Leaf) : Except PyErr Leaf := l.ltZero.map fun b => if b then .num 0 else l

/-- A value given to a keyword argument: one value, something with a method `get`, or another iterable. An array with two dimensions is the iterable of its rows. -/
inductive Arg
  | one (l : Leaf)
  | dict (get : ℕ → Option Leaf)
  | iter (l : List Leaf)

/-- `_listify` (lines 455-467). -/
def listify : Arg → Except PyErr (List Leaf)
  | .dict get => .ok ((List.range 3).map fun i => (get i).getD .none)
  | .one l => .ok (List.replicate 3 l)
  | .iter l => if l.length = 3 then .ok l else .error .valueError

/-- What a penalty object is, with the attributes that matter. -/
inductive Kind
  | parafac2
  | unimodality (nonNeg : Leaf)
  | genL2 (m : ℕ) (M : Matrix (Fin m) (Fin m) ℝ)
  | l2Ball (bound nonNeg : Leaf)
  | tv (reg l1 : Leaf)
  | l1 (reg nonNeg : Leaf)
  | box (lo hi : Leaf)
  | nonNegativity

/-- Settings passed to the penalties; `α` is the type of `aux_init` and `dual_init`. `hasTV`: `condat_tv` is installed. -/
structure Settings (α : Type) where
  svd : String
  aux : α
  dual : α
  hasTV : Bool

/-- A penalty object: one that the parser built, or one of the caller's (with its identity). -/
inductive Pen (α : Type)
  | built (k : Kind) (aux dual : α) (svd : Option String)
  | user (id : ℕ)

variable {α : Type}

/-- `GeneralizedL2Penalty.__init__` (`penalties.py` lines 705-725) for the numpy backend, without the SVD. A value without shape raises AttributeError, an array that is not
square ValueError (from broadcasting, or `LinAlgError`, which is a ValueError since numpy 1.25). `negEig M`: `np.linalg.eigvals` finds an eigenvalue below -1e-14. -/
noncomputable def genL2Init (negEig : (m : ℕ) → Matrix (Fin m) (Fin m) ℝ → Bool) : Leaf → Except PyErr Kind
  | .mat m n M =>
    if h : n = m then
      let M' : Matrix (Fin m) (Fin m) ℝ := fun i j => M i (Fin.cast h.symm j)
      if ∃ i j, M' i j ≠ M' j i then .error .valueError
      else if negEig m M' then .error .valueError
      else .ok (.genL2 m M')
    else .error .valueError
  | .vec _ _ => .error .valueError
  | _ => .error .attributeError

/-- `L2Ball.__init__` (`penalties.py` lines 911-917). -/
noncomputable def l2BallNew (bound nonNeg : Leaf) : Except PyErr Kind := do
  if ← bound.leZero then throw .valueError
  return .l2Ball bound nonNeg

/-- `TotalVariationPenalty.__init__` (`penalties.py` lines 804-818). -/
noncomputable def tvNew (hasTV : Bool) (reg l1 : Leaf) : Except PyErr Kind := do
  if !hasTV then throw .moduleNotFoundError
  if ← reg.leZero then throw .valueError
  if ← l1.ltZero then throw .valueError
  return .tv reg l1

/-- `L1Penalty.__init__` (`penalties.py` lines 565-570). -/
noncomputable def l1New (reg nonNeg : Leaf) : Except PyErr Kind := do
  if ← reg.ltZero then throw .valueError
  return .l1 reg nonNeg

/-- Arguments of `_parse_mode_penalties`. -/
structure ModeArgs where
  nonNeg : Leaf
  lower : Leaf
  upper : Leaf
  normBound : Leaf
  unimodal : Leaf
  parafac2 : Bool
  l1 : Leaf
  tv : Leaf
  genL2 : Leaf

/-- `x is not None and x is not False` (lines 578-580). -/
def Leaf.given : Leaf → Bool
  | .none => false
  | .bool false => false
  | _ => true

/-- `x is None`. -/
def Leaf.isNone : Leaf → Bool
  | .none => true
  | _ => false

/-- A penalty built without `svd`. -/
def Settings.mk1 (s : Settings α) (k : Kind) : List (Pen α) := [.built k s.aux s.dual none]

/-- A penalty built with `svd`. -/
def Settings.mkSvd (s : Settings α) (k : Kind) : List (Pen α) := [.built k s.aux s.dual (some s.svd)]

/-- Lines 578-583. -/
noncomputable def genL2Regs (negEig : (m : ℕ) → Matrix (Fin m) (Fin m) ℝ → Bool) (s : Settings α) (g : Leaf) : Except PyErr (List (Pen α)) :=
  if g.given then (genL2Init negEig g).map s.mkSvd else .ok []

/-- Lines 585-589; `ball` is the truth value of the bound. -/
noncomputable def ballRegs (s : Settings α) (ball : Bool) (bound nonNeg : Leaf) : Except PyErr (List (Pen α)) :=
  if ball then (l2BallNew bound nonNeg).map s.mk1 else .ok []

/-- Lines 591-594; `on` is the truth value of `tv_penalty`. -/
noncomputable def tvRegs (s : Settings α) (on : Bool) (tv l1 : Leaf) : Except PyErr (List (Pen α)) :=
  if on then (tvNew s.hasTV tv l1).map s.mk1 else .ok []

/-- Lines 597-600; `on` is the truth value of `l1_penalty`. -/
noncomputable def l1Regs (s : Settings α) (on : Bool) (l1 nonNeg : Leaf) : Except PyErr (List (Pen α)) :=
  if on then (l1New l1 nonNeg).map s.mk1 else .ok []

/-- Lines 604-608, with a bound given. -/
noncomputable def boxRegs (s : Settings α) (lower upper nonNeg : Leaf) : Except PyErr (List (Pen α)) := do
  let lower : Leaf := if lower.isNone then .inf true else lower
  let nn ← nonNeg.truth
  let lo ← (if nn then lower.max0 else .ok lower : Except PyErr Leaf)
  return s.mk1 (.box lo upper)

/-- `_parse_mode_penalties` (lines 549-614). -/
noncomputable def parseMode (negEig : (m : ℕ) → Matrix (Fin m) (Fin m) ℝ → Bool) (s : Settings α) (a : ModeArgs) : Except PyErr (List (Pen α)) := do
  -- lines 564-565
  let l1On ← a.l1.truth
  let l1₀ : Leaf := if l1On then a.l1 else .num 0
  -- lines 571-576
  let r₁ : List (Pen α) := if a.parafac2 then s.mkSvd .parafac2 else []
  let uni ← a.unimodal.truth
  let r₂ : List (Pen α) := if uni then s.mk1 (.unimodality a.nonNeg) else []
  -- lines 578-583
  let r₃ ← genL2Regs negEig s a.genL2
  -- lines 585-589
  let ball ← a.normBound.truth
  let r₄ ← ballRegs s ball a.normBound a.nonNeg
  -- lines 591-595
  let tvOn ← a.tv.truth
  let r₅ ← tvRegs s tvOn a.tv l1₀
  let l1₁ : Leaf := if tvOn then .num 0 else l1₀
  -- lines 597-601
  let l1On ← l1₁.truth
  let r₆ ← l1Regs s l1On l1₁ a.nonNeg
  -- lines 603-609
  let bounded := !a.lower.isNone || !a.upper.isNone
  let r₇ ← (if bounded then boxRegs s a.lower a.upper a.nonNeg else .ok [] : Except PyErr (List (Pen α)))
  -- lines 611-612
  let nn ← a.nonNeg.truth
  let r₈ : List (Pen α) := if nn && !(uni || ball || l1On || bounded) then s.mk1 .nonNegativity else []
  return r₁ ++ r₂ ++ r₃ ++ r₄ ++ r₅ ++ r₆ ++ r₇ ++ r₈

/-! ### What the built penalties do -/

/-- The number a value stands for in arithmetic. -/
def Leaf.real : Leaf → ℝ
  | .num x => x
  | .bool true => 1
  | _ => 0

/-- A bound as it is given to `clip`: `None` and infinities have no effect (for an infinity in the right direction). -/
def Leaf.bound : Leaf → Option ℝ
  | .num x => some x
  | _ => Option.none

/-- A flag (`None` or a boolean) as truth value. -/
def Leaf.flag : Leaf → Bool
  | .bool b => b
  | _ => false

/-- `factor_matrix_update` of the constraint penalties and of L1 (see `Penalties/Model.lean`); `none` for the penalties that are not modelled by a function of the
arguments alone. -/
noncomputable def Kind.update (m n : ℕ) : Kind → Option (MatUpdate m n)
  | .unimodality nn => some (unimodalMat nn.flag m n)
  | .l2Ball b nn => some (l2BallMat b.real nn.flag m n)
  | .l1 g nn => some (l1Mat g.real nn.flag m n)
  | .box lo hi => some (boxMat lo.bound hi.bound m n)
  | .nonNegativity => some (nonNegMat m n)
  | _ => none

/-- `penalty(x)` for a matrix (`penalties.py` lines 485, 588-592, 739-747, 830-841). A norm matrix of another size, for which the code raises, gives 0. -/
noncomputable def Kind.value {m n : ℕ} (X : Matrix (Fin m) (Fin n) ℝ) : Kind → ℝ
  | .l1 g _ => l1Penalty g.real X
  | .tv a b => tvPenalty a.real b.real X
  | .genL2 k M => if h : k = m then genL2Penalty (M.submatrix (Fin.cast h.symm) (Fin.cast h.symm)) X else 0
  | _ => hardPenalty X

/-- `penalty(x)` for a list of matrices (the same lines, and 1306-1324 for `Parafac2`): the sum over the matrices. -/
noncomputable def Kind.valueList {I n : ℕ} {J : Fin I → ℕ} (X : (i : Fin I) → Matrix (Fin (J i)) (Fin n) ℝ) : Kind → ℝ
  | .l1 g _ => l1PenaltyList g.real X
  | k => ∑ i, k.value (X i)

/-- The keyword arguments of `_parse_all_penalties`; `parafac2` by its truth value. -/
structure AllArgs where
  nonNeg : Arg
  lower : Arg
  upper : Arg
  normBound : Arg
  unimodal : Arg
  parafac2 : Bool
  l1 : Arg
  tv : Arg
  genL2 : Arg

/-- The `_listify` calls (lines 507-518), with the values of the modes collected. -/
def listifyAll (a : AllArgs) : Except PyErr (ℕ → ModeArgs) := do
  let nonNeg ← listify a.nonNeg
  let upper ← listify a.upper
  let lower ← listify a.lower
  let normBound ← listify a.normBound
  let unimodal ← listify a.unimodal
  let p2 := if a.parafac2 then [false, true, false] else [false, false, false]
  let l1 ← listify a.l1
  let genL2 ← listify a.genL2
  let tv ← listify a.tv
  return fun mode => {
    nonNeg := nonNeg.getD mode .none, lower := lower.getD mode .none, upper := upper.getD mode .none, normBound := normBound.getD mode .none,
    unimodal := unimodal.getD mode .none, parafac2 := p2.getD mode false, l1 := l1.getD mode .none, tv := tv.getD mode .none, genL2 := genL2.getD mode .none }

/-! ### The caller's lists -/

/-- Python values inside `regs`. -/
inductive Val (α : Type)
  | ref (addr : ℕ)
  | pen (p : Pen α)
  | other

/-- Heap objects: lists, tuples, and generators with the values still to come. -/
inductive Cell (α : Type)
  | list (l : List (Val α))
  | tuple (l : List (Val α))
  | gen (l : List (Val α))

/-- Objects by address. -/
abbrev Heap (α : Type) := List (Cell α)

/-- Computations that change the heap and may raise; the heap survives an exception. -/
abbrev M (α β : Type) := Heap α → Heap α × Except PyErr β

namespace M

/-- A value. -/
def ret {β : Type} (x : β) : M α β := fun h => (h, .ok x)

/-- An exception. -/
def raise {β : Type} (e : PyErr) : M α β := fun h => (h, .error e)

/-- One computation after another. -/
def andThen {β γ : Type} (m : M α β) (f : β → M α γ) : M α γ := fun h =>
  match m h with
  | (h', .ok x) => f x h'
  | (h', .error e) => (h', .error e)

/-- A pure computation. -/
def lift {β : Type} (x : Except PyErr β) : M α β := fun h => (h, x)

/-- A new list object. -/
def alloc (l : List (Val α)) : M α ℕ := fun h => (h ++ [.list l], .ok h.length)

/-- `lst[i] = v` for a list object. -/
def setItem (addr i : ℕ) (v : Val α) : M α Unit := fun h =>
  match h[addr]? with
  | some (.list l) => if i < l.length then (h.set addr (.list (l.set i v)), .ok ()) else (h, .error .indexError)
  | _ => (h, .error .typeError)

/-- `lst[i]` for a list object. -/
def getItem (addr i : ℕ) : M α (Val α) := fun h =>
  match h[addr]? with
  | some (.list l) => (h, match l[i]? with | some v => .ok v | none => .error .indexError)
  | _ => (h, .error .typeError)

/-- `list(x)`: all values of an iterable; a generator is exhausted. Anything else raises TypeError. -/
def values (v : Val α) : M α (List (Val α)) := fun h =>
  match v with
  | .ref a =>
    match h[a]? with
    | some (.list l) => (h, .ok l)
    | some (.tuple l) => (h, .ok l)
    | some (.gen l) => (h.set a (.gen []), .ok l)
    | none => (h, .error .typeError)
  | _ => (h, .error .typeError)

/-- `copy(x)`: a new list, the same tuple; a generator cannot be copied. -/
def copy (v : Val α) : M α (Val α) := fun h =>
  match v with
  | .ref a =>
    match h[a]? with
    | some (.list l) => (h ++ [.list l], .ok (.ref h.length))
    | some (.tuple _) => (h, .ok v)
    | _ => (h, .error .typeError)
  | _ => (h, .ok v)

/-- `[f(x) for x in l]`. -/
def mapList {β γ : Type} (f : β → M α γ) : List β → M α (List γ)
  | [] => ret []
  | x :: l => andThen (f x) fun y => andThen (mapList f l) fun ys => ret (y :: ys)

/-- `for x in l: f(x)`. -/
def each {β : Type} (f : β → M α Unit) : List β → M α Unit
  | [] => ret ()
  | x :: l => andThen (f x) fun _ => each f l

end M

open M

/-- The check of one penalty (lines 497-503). -/
def checkPen (v : Val α) : M α Unit := match v with
  | .pen _ => ret ()
  | _ => raise .typeError

/-- The check of the penalties of one mode (lines 489-503). Going through the values raises TypeError for something that is not iterable, like line 491.
Simplification: a generator is exhausted before the check, also if the check stops early. -/
def checkMode (v : Val α) : M α Unit := andThen (values v) (each checkPen)

/-- `is_iterable(regs)` (line 488): true for the heap objects. -/
def checkRegs (regs : Val α) : M α Unit := match regs with
  | .ref _ => andThen (values regs) (each checkMode)
  | _ => ret ()

/-- `parsed_regs + regs[mode]` (line 536): a new list, TypeError unless `regs[mode]` is a list. -/
def addLists (parsed : List (Pen α)) (v : Val α) : M α ℕ := fun h =>
  match v with
  | .ref a =>
    match h[a]? with
    | some (.list l) => alloc (parsed.map .pen ++ l) h
    | _ => (h, .error .typeError)
  | _ => (h, .error .typeError)

/-- The loop over the modes (lines 520-536). -/
noncomputable def modeLoop (negEig : (m : ℕ) → Matrix (Fin m) (Fin m) ℝ → Bool) (s : Settings α) (a : ℕ → ModeArgs) (out : ℕ) : List ℕ → M α Unit :=
  each fun mode =>
    andThen (lift (parseMode negEig s (a mode))) fun parsed =>
    andThen (getItem out mode) fun v =>
    andThen (addLists parsed v) fun r =>
    setItem out mode (.ref r)

/-- `_parse_all_penalties` (lines 470-546): the address of the list of lists. `regs = none` is the default `None`. Printing is not modelled. -/
noncomputable def parseAll (negEig : (m : ℕ) → Matrix (Fin m) (Fin m) ℝ → Bool) (s : Settings α) (a : AllArgs) (regs : Option (Val α)) : M α ℕ :=
  -- lines 486-503
  andThen (match regs with
    | none => andThen (mapList alloc [[], [], []]) fun l => andThen (alloc (l.map .ref)) fun r => ret (.ref r)
    | some v => andThen (checkRegs v) fun _ => ret v) fun regs =>
  -- line 505
  andThen (values regs) fun l =>
  andThen (mapList copy l) fun l' =>
  andThen (alloc l') fun out =>
  -- lines 507-518
  andThen (lift (listifyAll a)) fun args =>
  -- lines 520-546
  andThen (modeLoop negEig s args out [0, 1, 2]) fun _ =>
  ret out

end Verif.Parse
