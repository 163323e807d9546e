import Verif.Py

/-!
# Printed representation of penalties

`src/matcouply/penalties.py` lines 345-366, and the attributes that the constructors of the penalty classes set. A string is a list of characters.
-/

namespace Verif.Repr

abbrev Str := List Char

/-- What is used of Python values: `repr(value)`, and the string itself for instances of `str`. -/
structure Values (V : Type) where
  repr : V → Str
  asStr : V → Option Str

/-- An instance: `self.__module__`, `type(self).__name__` and the items of `self.__dict__` in the order of the assignments. Class attributes and properties with the names `aux_init` and `dual_init` are
not modelled. -/
structure Obj (V : Type) where
  module : Str
  name : Str
  dict : List (Str × V)

variable {V : Type}

/-- `self.x`. -/
def Obj.attr (o : Obj V) (x : Str) : Except PyErr V :=
  match o.dict.lookup x with
  | some v => .ok v
  | none => .error .attributeError

/-- `_auto_add_param_to_repr` (lines 345-350). -/
def autoAdd (param : Str) : Bool :=
  if param.head? = some '_' then false
  else if param = "aux_init".toList ∨ param = "dual_init".toList then false
  else true

/-- `f"{key}={repr(value)}"` (line 354). -/
def item (v : Values V) (p : Str × V) : Str := p.1 ++ '=' :: v.repr p.2

/-- Lines 356-363 for the attribute `key`. -/
def initItem (v : Values V) (key : Str) (x : V) : Str :=
  match v.asStr x with
  | some s => key ++ "='".toList ++ s ++ "'".toList
  | none => key ++ "=given_init".toList

/-- `__repr__` (lines 352-366). -/
def reprOf (v : Values V) (o : Obj V) : Except PyErr Str := do
  let strings := (o.dict.filter fun p => autoAdd p.1).map (item v)
  let aux ← o.attr "aux_init".toList
  let strings := strings ++ [initItem v "aux_init".toList aux]
  let dual ← o.attr "dual_init".toList
  let strings := strings ++ [initItem v "dual_init".toList dual]
  return "<'".toList ++ o.module ++ ".".toList ++ o.name ++ "' with ".toList ++ ", ".toList.intercalate strings ++ ")>".toList

/-- A penalty of the package with the arguments of its constructor, except `aux_init` and `dual_init`. -/
inductive Pen (V : Type)
  | nonNeg
  | box (minVal maxVal : V)
  | l1 (strength nonNeg : V)
  | genL2 (normMatrix svd validate : V)
  | tv (strength l1 : V)
  | l2Ball (bound nonNeg : V)
  | simplex
  | unimodal (nonNeg : V)
  | parafac2 (svd nIter updateBasis updateCoordinate : V)

/-- `type(self).__name__`. -/
def Pen.name : Pen V → Str
  | nonNeg => "NonNegativity".toList
  | box .. => "Box".toList
  | l1 .. => "L1Penalty".toList
  | genL2 .. => "GeneralizedL2Penalty".toList
  | tv .. => "TotalVariationPenalty".toList
  | l2Ball .. => "L2Ball".toList
  | simplex => "UnitSimplex".toList
  | unimodal .. => "Unimodality".toList
  | parafac2 .. => "Parafac2".toList

/-- The attributes set by `ADMMPenalty.__init__` (lines 32-34). -/
def baseDict (aux dual : V) : List (Str × V) := [("aux_init".toList, aux), ("dual_init".toList, dual)]

/-- The attributes set by the constructors (lines 32-34, 531-534, 565-570, 705-725, 803-818, 911-914, 1009-1011, 1091-1105). `factors` are `_U` and `_s` of `GeneralizedL2Penalty`. The arguments are valid: none of the
constructors raises. -/
def Pen.dict (factors : V → V → V × V) (aux dual : V) : Pen V → List (Str × V)
  | nonNeg => baseDict aux dual
  | box a b => baseDict aux dual ++ [("min_val".toList, a), ("max_val".toList, b)]
  | l1 a b => baseDict aux dual ++ [("reg_strength".toList, a), ("non_negativity".toList, b)]
  | genL2 m s c => baseDict aux dual ++ [("norm_matrix".toList, m), ("svd".toList, s), ("validate".toList, c), ("_U".toList, (factors m s).1), ("_s".toList, (factors m s).2)]
  | tv a b => baseDict aux dual ++ [("reg_strength".toList, a), ("l1_strength".toList, b)]
  | l2Ball a b => baseDict aux dual ++ [("norm_bound".toList, a), ("non_negativity".toList, b)]
  | simplex => baseDict aux dual
  | unimodal b => baseDict aux dual ++ [("non_negativity".toList, b)]
  | parafac2 s n ub uc => [("svd".toList, s), ("aux_init".toList, aux), ("dual_init".toList, dual), ("update_basis_matrices".toList, ub), ("update_coordinate_matrix".toList, uc), ("n_iter".toList, n)]

/-- The instance. -/
def Pen.obj (factors : V → V → V × V) (p : Pen V) (aux dual : V) : Obj V := ⟨"matcouply.penalties".toList, p.name, p.dict factors aux dual⟩

end Verif.Repr
