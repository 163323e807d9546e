import Verif.Mro.Model

/-!
# Model of class statements with the metaclass `InheritableDocstrings`

`src/matcouply/_doc_utils.py` lines 43-102, and the classes of `src/matcouply/penalties.py`. A class has a name, a linearization, a namespace, and the set of
its abstract names. Values in namespaces are functions, decorators or other objects. Names are elements of a type `ν`; `dec` is
`copy_ancestor_docstring`, `object` the class `object`. Name resolution in class bodies: first the namespace, then the module, where `copy_ancestor_docstring` is the
function of lines 47-53.
-/

namespace Verif.Mro

variable {ν : Type} [DecidableEq ν]

/-- A value of a namespace: `None`, a function with its docstring and whether it is abstract, `partial(_copy_ancestor_docstring, order)`, another object with its docstring. -/
inductive Val (ν : Type)
  | none
  | fn (doc : Option String) (abstract : Bool)
  | copy (order : List ν)
  | obj (doc : Option String)

/-- `value.__doc__` (line 68). A `partial` object has the docstring of its class. -/
def Val.doc : Val ν → Option String
  | .none => Option.none
  | .fn d _ => d
  | .copy _ => some "partial"
  | .obj d => d

/-- `getattr(value, "__isabstractmethod__", False)`. -/
def Val.abstract : Val ν → Bool
  | .fn _ b => b
  | _ => false

/-- A namespace: a dictionary in order of insertion. -/
abbrev Ns (ν : Type) := List (ν × Val ν)

/-- `ns[name] = v`: keeps the position of an existing key. -/
def Ns.set (ns : Ns ν) (name : ν) (v : Val ν) : Ns ν :=
  if ns.any (fun p => p.1 == name) then ns.map fun p => if p.1 == name then (name, v) else p else ns ++ [(name, v)]

/-- `del ns[name]` for an existing key. -/
def Ns.del (ns : Ns ν) (name : ν) : Ns ν := ns.filter fun p => !(p.1 == name)

/-- `ns.get(name)`. -/
def Ns.get (ns : Ns ν) (name : ν) : Option (Val ν) := (ns.find? fun p => p.1 == name).map Prod.snd

/-- A class. -/
structure ClassRec (ν : Type) where
  name : ν
  mro : List ν
  ns : Ns ν
  abstracts : List ν

/-- The classes that exist. -/
abbrev Table (ν : Type) := List (ClassRec ν)

/-- The class with a name. -/
def Table.cls (t : Table ν) (name : ν) : Option (ClassRec ν) := t.find? fun c => c.name == name

/-- `C.__mro__`. -/
def Table.mroOf (t : Table ν) (name : ν) : List ν := ((t.cls name).map ClassRec.mro).getD []

/-- The value of an attribute: the first namespace along the linearization that has it. -/
def Table.lookup (t : Table ν) (name : ν) : List ν → Option (Val ν)
  | [] => none
  | c :: l => match (t.cls c).bind fun k => k.ns.get name with
    | some v => some v
    | none => lookup t name l

/-- `getattr(cls, fn.__name__, None)`, as a function attribute or `None` (lines 63-65). -/
def Table.attrFn (t : Table ν) (name cls : ν) : Option Fn :=
  match t.lookup name (t.mroOf cls) with
  | some .none => none
  | some v => some ⟨v.doc⟩
  | none => none

/-- A statement of a class body: a function definition, possibly under `@abstractmethod`; a definition under `@copy_ancestor_docstring`; an assignment; `del`. -/
inductive Stmt (ν : Type)
  | define (name : ν) (doc : Option String) (abstract : Bool)
  | decorated (name : ν) (doc : Option String)
  | bind (name : ν) (v : Val ν)
  | delete (name : ν)

/-- Application of `@copy_ancestor_docstring` to a function: the injected decorator if the name is bound to it (lines 55-71); the module's function, which raises
(lines 47-53), if it is unbound; another value is not callable (or calls something else, not modelled). -/
def applyDecorator (dec : ν) (t : Table ν) (ns : Ns ν) (name : ν) (doc : Option String) : Except PyErr (Val ν) :=
  match ns.get dec with
  | some (.copy order) => (copyDoc (t.attrFn name) order ⟨doc⟩).map fun f => .fn f.doc false
  | some _ => .error .typeError
  | none => .error .runtimeError

/-- Execution of a statement of a class body. Deleting a name that is not bound raises NameError. -/
def Stmt.exec (dec : ν) (t : Table ν) (ns : Ns ν) : Stmt ν → Except PyErr (Ns ν)
  | .define name doc abstract => .ok (ns.set name (.fn doc abstract))
  | .decorated name doc => (applyDecorator dec t ns name doc).map fun v => ns.set name v
  | .bind name v => .ok (ns.set name v)
  | .delete name => if ns.any (fun p => p.1 == name) then .ok (ns.del name) else .error .nameError

/-- Execution of a class body. -/
def execBody (dec : ν) (t : Table ν) : Ns ν → List (Stmt ν) → Except PyErr (Ns ν)
  | ns, [] => .ok ns
  | ns, s :: l => (s.exec dec t ns).bind fun ns' => execBody dec t ns' l

/-- A class statement with the metaclass `InheritableDocstrings`; `keywords` are the further keyword arguments. -/
structure ClassStmt (ν : Type) where
  name : ν
  bases : List ν
  keywords : List ν
  body : List (Stmt ν)

/-- `InheritableDocstrings.__prepare__` (lines 75-82): the namespace holds the decorator. -/
def prepareNs (dec : ν) (t : Table ν) (bases : List ν) : Except PyErr (Ns ν) :=
  (mro (fun _ => true) t.mroOf bases).map fun order => [(dec, .copy order)]

/-- `InheritableDocstrings.__new__` without the call of `ABCMeta.__new__` (lines 84-101): it accepts no keyword arguments; the decorator is removed, another value of that
name is rejected. -/
def cleanNs (dec : ν) (keywords : List ν) (ns : Ns ν) : Except PyErr (Ns ν) :=
  if keywords ≠ [] then .error .typeError
  else match ns.get dec with
    | none => .ok ns
    | some (.copy _) => .ok (ns.del dec)
    | some _ => .error .runtimeError

/-- `ABCMeta.__new__` (standard library): the linearization of the class is the class followed by the merge of its bases (`object` if there are none); abstract names are the abstract functions of the
namespace and the abstract names of the bases that still resolve to an abstract function. -/
def newClass (t : Table ν) (object name : ν) (bases : List ν) (ns : Ns ν) : Except PyErr (ClassRec ν) :=
  (mro (fun _ => true) t.mroOf (if bases = [] then [object] else bases)).map fun order =>
    let c : ClassRec ν := ⟨name, name :: order, ns, []⟩
    let own := (ns.filter fun p => p.2.abstract).map Prod.fst
    let inherited := (bases.flatMap fun b => ((t.cls b).map ClassRec.abstracts).getD []).filter fun n =>
      match Table.lookup (c :: t : Table ν) n (name :: order) with
      | some v => v.abstract
      | none => false
    { c with abstracts := (own ++ inherited).dedup }

/-- A class statement (lines 74-102): prepare the namespace, execute the body, create the class. -/
def ClassStmt.exec (dec object : ν) (t : Table ν) (s : ClassStmt ν) : Except PyErr (Table ν) :=
  (prepareNs dec t s.bases).bind fun ns => (execBody dec t ns s.body).bind fun ns => (cleanNs dec s.keywords ns).bind fun ns =>
    (newClass t object s.name s.bases ns).map fun c => c :: t

/-- A module of class statements. -/
def execModule (dec object : ν) : Table ν → List (ClassStmt ν) → Except PyErr (Table ν)
  | t, [] => .ok t
  | t, s :: l => (s.exec dec object t).bind fun t' => execModule dec object t' l

/-- `C()` for a class without required arguments raises TypeError if the class has abstract names. -/
def instantiable (t : Table ν) (cls : ν) : Bool := match t.cls cls with
  | some c => c.abstracts.isEmpty
  | none => false

/-- The names of classes and attributes in `penalties.py`, and further names. -/
inductive Id
  | copyAncestorDocstring
  | ABC
  | object
  | init
  | repr
  | ADMMPenalty
  | initAux
  | initDual
  | penalty
  | subtractFromAuxes
  | subtractFromAux
  | auxAsMatrix
  | auxesAsMatrices
  | autoAddParamToRepr
  | matricesPenalty
  | factorMatricesUpdate
  | matrixPenalty
  | factorMatrixUpdate
  | rowVectorPenalty
  | factorMatrixRowUpdate
  | hardConstraintMixin
  | nonNegativity
  | box
  | L1Penalty
  | generalizedL2Penalty
  | svdFun
  | penaltyOne
  | totalVariationPenalty
  | L2Ball
  | unitSimplex
  | computeLagrangeMultiplier
  | unimodality
  | parafac2
  | user (n : ℕ)
  deriving DecidableEq

/-- `object` and `abc.ABC`, with the attributes of `object` that the classes below define as well. -/
def builtins : Table Id :=
  [⟨.ABC, [.ABC, .object], [], []⟩,
   ⟨.object, [.object], [(.init, .obj (some "init")), (.repr, .obj (some "repr"))], []⟩]

/-- The classes of `penalties.py` (lines 21-1324): bases, methods, docstrings (their first words), decorators. `__init__` and properties have no docstring. -/
def penaltyClasses : List (ClassStmt Id) :=
  [⟨.ADMMPenalty, [.ABC], [],
      [.define .init none false, .define .initAux (some "Initialize the auxiliary variables") false,
       .define .initDual (some "Initialize the dual variables") false, .define .penalty (some "Compute the penalty") true,
       .define .subtractFromAuxes (some "Compute (aux - dual) for each") false, .define .subtractFromAux (some "Compute (aux - dual)") false,
       .define .auxAsMatrix (some "Convert an auxiliary variable") false, .define .auxesAsMatrices (some "Convert a list of auxiliary variables") false,
       .define .autoAddParamToRepr none false, .define .repr none false]⟩,
   ⟨.matricesPenalty, [.ADMMPenalty], [], [.define .factorMatricesUpdate (some "Update all factor matrices") true]⟩,
   ⟨.matrixPenalty, [.matricesPenalty], [],
      [.define .factorMatricesUpdate (some "Update all factor matrices") false, .define .factorMatrixUpdate (some "Update a factor matrix") true]⟩,
   ⟨.rowVectorPenalty, [.matrixPenalty], [],
      [.define .factorMatrixUpdate (some "Update a factor matrix") false, .define .factorMatrixRowUpdate (some "Update a single row") true]⟩,
   ⟨.hardConstraintMixin, [], [], [.define .penalty (some "Returns 0") false]⟩,
   ⟨.nonNegativity, [.hardConstraintMixin, .rowVectorPenalty], [],
      [.decorated .factorMatrixRowUpdate none, .decorated .factorMatrixUpdate none]⟩,
   ⟨.box, [.hardConstraintMixin, .rowVectorPenalty], [],
      [.define .init none false, .decorated .factorMatrixRowUpdate none, .decorated .factorMatrixUpdate none]⟩,
   ⟨.L1Penalty, [.rowVectorPenalty], [],
      [.define .init none false, .decorated .factorMatrixRowUpdate none, .decorated .factorMatrixUpdate none, .decorated .penalty none]⟩,
   ⟨.generalizedL2Penalty, [.matrixPenalty], [],
      [.define .init none false, .bind .svdFun (.obj none), .decorated .factorMatrixUpdate none, .define .penaltyOne none false,
       .decorated .penalty none]⟩,
   ⟨.totalVariationPenalty, [.matrixPenalty], [],
      [.define .init none false, .decorated .factorMatrixUpdate none, .define .penaltyOne none false, .decorated .penalty none]⟩,
   ⟨.L2Ball, [.hardConstraintMixin, .matrixPenalty], [], [.define .init none false, .decorated .factorMatrixUpdate none]⟩,
   ⟨.unitSimplex, [.hardConstraintMixin, .matrixPenalty], [],
      [.define .computeLagrangeMultiplier (some "Compute lagrange multipliers") false, .decorated .factorMatrixUpdate none]⟩,
   ⟨.unimodality, [.hardConstraintMixin, .matrixPenalty], [], [.define .init none false, .decorated .factorMatrixUpdate none]⟩,
   ⟨.parafac2, [.matricesPenalty], [],
      [.define .init none false, .bind .svdFun (.obj none), .define .initAux (some "Initialize the auxiliary variables") false,
       .decorated .factorMatricesUpdate none, .define .subtractFromAux (some "Raises TypeError") false,
       .define .subtractFromAuxes (some "Compute (aux - dual) for each") false, .define .auxAsMatrix (some "Raises TypeError") false,
       .define .auxesAsMatrices (some "Convert a the auxiliary variables") false, .define .penalty (some "Returns 0") false]⟩]

end Verif.Mro
