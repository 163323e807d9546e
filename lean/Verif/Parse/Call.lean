import Verif.Parse.Model

/-!
# Model of the signatures of `cmf_aoadmm` and `parafac2_aoadmm`

`src/matcouply/decomposition.py` lines 662-696 and 1103-1179: parameters, defaults, Python's binding of arguments to parameters, and the call in the body of
`parafac2_aoadmm`. The body of `cmf_aoadmm` is a function of the bound parameters; of it only lines 876-877 (`l2_penalty`) are modelled here.
-/

namespace Verif.Parse

/-- Names of keyword arguments. -/
inductive Name
  | matrices | rank | init | nIterMax | l2Penalty | tvPenalty | l1Penalty | nonNegative | unimodal | generalizedL2Penalty | l2NormBound | lowerBound | upperBound
  | parafac2 | regs | feasibilityPenaltyScale | constantFeasibilityPenalty | auxInit | dualInit | svd | initParams | randomState | tol | absoluteTol | feasibilityTol
  | innerTol | innerNIterMax | updateA | updateBIs | updateC | returnAdmmVars | returnErrors | verbose
  | other (s : String)
  deriving DecidableEq

/-- The constants that occur as defaults; `float` is `mant * 10 ** exp`. -/
inductive Const
  | none
  | bool (b : Bool)
  | int (n : ℤ)
  | float (mant exp : ℤ)
  | str (s : String)
  deriving DecidableEq

/-- Values of parameters: a constant, or an object of the caller. -/
inductive PVal (γ : Type)
  | const (c : Const)
  | user (x : γ)

variable {γ ρ : Type}

/-- A signature: names in order, with defaults. -/
abbrev Signature := List (Name × Option Const)

/-- The signature of `cmf_aoadmm` (lines 662-696). -/
def cmfSignature : Signature :=
  [(.matrices, none), (.rank, none), (.init, some (.str "random")), (.nIterMax, some (.int 1000)), (.l2Penalty, some .none), (.tvPenalty, some .none),
    (.l1Penalty, some .none), (.nonNegative, some .none), (.unimodal, some .none), (.generalizedL2Penalty, some .none), (.l2NormBound, some .none),
    (.lowerBound, some .none), (.upperBound, some .none), (.parafac2, some .none), (.regs, some .none), (.feasibilityPenaltyScale, some (.int 1)),
    (.constantFeasibilityPenalty, some (.bool false)), (.auxInit, some (.str "random_uniform")), (.dualInit, some (.str "random_uniform")),
    (.svd, some (.str "truncated_svd")), (.initParams, some .none), (.randomState, some .none), (.tol, some (.float 1 (-8))), (.absoluteTol, some (.float 1 (-10))),
    (.feasibilityTol, some (.float 1 (-4))), (.innerTol, some .none), (.innerNIterMax, some (.int 5)), (.updateA, some (.bool true)), (.updateBIs, some (.bool true)),
    (.updateC, some (.bool true)), (.returnAdmmVars, some (.bool false)), (.returnErrors, some (.bool false)), (.verbose, some (.bool false))]

/-- The signature of `parafac2_aoadmm` (lines 1103-1136). -/
def parafac2Signature : Signature :=
  [(.matrices, none), (.rank, none), (.init, some (.str "random")), (.nIterMax, some (.int 1000)), (.l2Penalty, some (.int 0)), (.tvPenalty, some .none),
    (.l1Penalty, some .none), (.nonNegative, some .none), (.unimodal, some .none), (.generalizedL2Penalty, some .none), (.l2NormBound, some .none),
    (.lowerBound, some .none), (.upperBound, some .none), (.regs, some .none), (.feasibilityPenaltyScale, some (.int 1)),
    (.constantFeasibilityPenalty, some (.bool false)), (.auxInit, some (.str "random_uniform")), (.dualInit, some (.str "random_uniform")),
    (.svd, some (.str "truncated_svd")), (.initParams, some .none), (.randomState, some .none), (.tol, some (.float 1 (-8))), (.absoluteTol, some (.float 1 (-10))),
    (.feasibilityTol, some (.float 1 (-4))), (.innerTol, some .none), (.innerNIterMax, some (.int 5)), (.updateA, some (.bool true)), (.updateBIs, some (.bool true)),
    (.updateC, some (.bool true)), (.returnErrors, some (.bool false)), (.returnAdmmVars, some (.bool false)), (.verbose, some (.bool false))]

/-- The value bound to the parameter at position `i`, if any: positional argument, else keyword argument, else default. -/
def boundValue (pos : List (PVal γ)) (kw : List (Name × PVal γ)) (i : ℕ) (name : Name) (dflt : Option Const) : Option (PVal γ) :=
  match pos[i]? with
  | some v => some v
  | none =>
    match kw.lookup name with
    | some v => some v
    | none => dflt.map .const

/-- TypeError in a call (Python language reference, 6.3.4): too many positional arguments, an unknown or repeated keyword, a parameter given twice or not at all. -/
def badCall (sig : Signature) (pos : List (PVal γ)) (kw : List (Name × PVal γ)) : Bool :=
  decide (sig.length < pos.length) || kw.any (fun p => !(sig.map Prod.fst).contains p.1) || !decide ((kw.map Prod.fst).Nodup) ||
    sig.zipIdx.any fun p => ((pos[p.2]?).isSome && (kw.lookup p.1.1).isSome) || (boundValue pos kw p.2 p.1.1 p.1.2).isNone

/-- Binding of arguments: the value of each parameter. -/
def bindArgs (sig : Signature) (pos : List (PVal γ)) (kw : List (Name × PVal γ)) : Except PyErr (Name → PVal γ) :=
  if badCall sig pos kw then .error .typeError
  else .ok fun name =>
    ((sig.zipIdx.find? fun p => p.1.1 == name).bind fun p => boundValue pos kw p.2 p.1.1 p.1.2).getD (.const .none)

/-- `_listify` reads these. -/
noncomputable def PVal.toArg (user : γ → Arg) : PVal γ → Arg
  | .const .none => .one .none
  | .const (.bool b) => .one (.bool b)
  | .const (.int n) => .one (.num n)
  | .const (.float m e) => .one (.num (m * 10 ^ e))
  | .const (.str s) => .iter (s.toList.map fun _ => .other)
  | .user x => user x

/-- Lines 876-877: `l2 if l2 is not None else 0`. -/
noncomputable def l2List (user : γ → Arg) (v : PVal γ) : Except PyErr (List Leaf) :=
  (listify (v.toArg user)).map fun l => l.map fun x => if x.isNone then .num 0 else x

/-- `cmf_aoadmm(*pos, **kw)`: `rest` is the body after lines 876-877; it does not use the argument `l2_penalty` again, only the list. (The order of the exceptions of
lines 871-877 is that of `rest`.) -/
noncomputable def cmfCall (user : γ → Arg) (rest : Except PyErr (List Leaf) → (Name → PVal γ) → ρ) (raised : PyErr → ρ) (pos : List (PVal γ)) (kw : List (Name × PVal γ)) : ρ :=
  match bindArgs cmfSignature pos kw with
  | .error e => raised e
  | .ok env => rest (l2List user (env .l2Penalty)) fun name => if name = .l2Penalty then .const .none else env name

/-- The keyword arguments of the call in lines 1145-1179. -/
def forwarded (env : Name → PVal γ) : List (Name × PVal γ) :=
  [(.matrices, env .matrices), (.rank, env .rank), (.init, env .init), (.nIterMax, env .nIterMax), (.l2Penalty, env .l2Penalty), (.tvPenalty, env .tvPenalty),
    (.l1Penalty, env .l1Penalty), (.nonNegative, env .nonNegative), (.unimodal, env .unimodal), (.generalizedL2Penalty, env .generalizedL2Penalty),
    (.l2NormBound, env .l2NormBound), (.lowerBound, env .lowerBound), (.upperBound, env .upperBound), (.parafac2, .const (.bool true)), (.regs, env .regs),
    (.feasibilityPenaltyScale, env .feasibilityPenaltyScale), (.constantFeasibilityPenalty, env .constantFeasibilityPenalty), (.auxInit, env .auxInit),
    (.dualInit, env .dualInit), (.svd, env .svd), (.initParams, env .initParams), (.randomState, env .randomState), (.tol, env .tol), (.absoluteTol, env .absoluteTol),
    (.feasibilityTol, env .feasibilityTol), (.innerTol, env .innerTol), (.innerNIterMax, env .innerNIterMax), (.updateA, env .updateA), (.updateBIs, env .updateBIs),
    (.updateC, env .updateC), (.returnErrors, env .returnErrors), (.returnAdmmVars, env .returnAdmmVars), (.verbose, env .verbose)]

/-- `parafac2_aoadmm(*pos, **kw)` (lines 1103-1179). -/
noncomputable def parafac2Call (user : γ → Arg) (rest : Except PyErr (List Leaf) → (Name → PVal γ) → ρ) (raised : PyErr → ρ) (pos : List (PVal γ))
    (kw : List (Name × PVal γ)) : ρ :=
  match bindArgs parafac2Signature pos kw with
  | .error e => raised e
  | .ok env => cmfCall user rest raised [] (forwarded env)

end Verif.Parse
