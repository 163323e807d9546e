import Verif.Parse.Model

/-!
# Model of `cmf_aoadmm` from its start to the first update

`src/matcouply/decomposition.py` lines 871-945: the order of the steps, which of them raise, and `constant_feasibility_penalty`. The steps modelled elsewhere are
parameters here. Every step leaves an event, so that what happened before an exception can be stated.
-/

namespace Verif.Parse

variable {α σ : Type}

/-- `constant_feasibility_penalty`: a string, or another value by its truth value (a value that is no string is equal to no string). -/
inductive ConstFeas
  | str (s : String)
  | truth (b : Bool)

/-- `isinstance(constant_feasibility_penalty, str)`. -/
def ConstFeas.isStr : ConstFeas → Bool
  | .str _ => true
  | .truth _ => false

/-- The truth value. -/
def ConstFeas.truthy : ConstFeas → Bool
  | .str s => s != ""
  | .truth b => b

/-- `constant_feasibility_penalty == t`. -/
def ConstFeas.eqStr : ConstFeas → String → Bool
  | .str s, t => s == t
  | .truth _, _ => false

/-- Lines 933-942: the flags for A and B. -/
def constFlags (c : ConstFeas) : Except PyErr (Bool × Bool) :=
  if c.isStr && !(c.eqStr "A" || c.eqStr "B") then .error .valueError
  else .ok ((c.truthy && !c.isStr) || c.eqStr "A", (c.truthy && !c.isStr) || c.eqStr "B")

/-- What a call does, in order. The updates of the factors are `update`. -/
inductive Event
  | randomState
  | getSvd
  | initCmf
  | l2
  | parse
  | initAux
  | initDual
  | diagnostics
  | flags
  | update (mode : ℕ)
  deriving DecidableEq

/-- The steps before the loop that are modelled elsewhere or are external: lines 871, 872, 873, 904, 905, 906-928. -/
structure Steps where
  randomState : Except PyErr Unit
  getSvd : Except PyErr Unit
  initCmf : Except PyErr Unit
  initAux : Except PyErr Unit
  initDual : Except PyErr Unit
  diagnostics : Except PyErr Unit

/-- A call: the events, the heap of lists, and the result. -/
structure Trace (α σ : Type) where
  events : List Event
  heap : Heap α
  result : Except PyErr σ

/-- A step without effect on the lists. -/
def Trace.step (e : Event) (x : Except PyErr Unit) (h : Heap α) (next : Heap α → Trace α σ) : Trace α σ := match x with
  | .error err => ⟨[e], h, .error err⟩
  | .ok _ => let t := next h; ⟨e :: t.events, t.heap, t.result⟩

/-- Lines 871-945 and the loop. `upd` are `update_A`, `update_B_is`, `update_C`; `loop` gives the events and the result of the loop (lines 945-1100) for the parsed
penalties and the two flags. -/
noncomputable def cmfFront (S : Steps) (negEig : (m : ℕ) → Matrix (Fin m) (Fin m) ℝ → Bool) (s : Settings α) (l2 : Arg) (a : AllArgs) (regs : Option (Val α)) (c : ConstFeas)
    (loop : ℕ → Bool × Bool → Heap α → Trace α σ) (h : Heap α) : Trace α σ :=
  .step .randomState S.randomState h fun h =>
  .step .getSvd S.getSvd h fun h =>
  .step .initCmf S.initCmf h fun h =>
  .step .l2 ((listify l2).map fun _ => ()) h fun h =>
  match parseAll negEig s a regs h with
  | (h', .error err) => ⟨[.parse], h', .error err⟩
  | (h', .ok out) =>
    .step .parse (.ok ()) h' fun h =>
    .step .initAux S.initAux h fun h =>
    .step .initDual S.initDual h fun h =>
    .step .diagnostics S.diagnostics h fun h =>
    match constFlags c with
    | .error err => ⟨[.flags], h, .error err⟩
    | .ok f => .step .flags (.ok ()) h fun h => loop out f h

end Verif.Parse
