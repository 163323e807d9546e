import Verif.Loop.Model

/-!
# Selecting among several fits, as in the examples
-/

namespace Verif.Examples

open Verif.ADMM Verif.Loop

variable {μ : Type}

/-- `xs[-1]`: IndexError for an empty list. -/
def pyLast {α : Type} (l : List α) : Except PyErr α :=
  match l.getLast? with
  | some x => .ok x
  | none => .error .indexError

/-- Use of a variable that may be unbound. -/
def bound {α : Type} : Option α → Except PyErr α
  | some x => .ok x
  | none => .error .nameError

/-- `all_models`, `selected_init` and `lowest_error` (`examples/plot_bikesharing.py` lines 37-39). -/
structure BikeState (μ : Type) where
  models : List μ
  selected : Option ℕ
  lowest : PyF

/-- One pass of the loop (`examples/plot_bikesharing.py` lines 40-60). `fit init` is the call with `random_state=init`, which returns the factorization and the diagnostics. -/
noncomputable def bikeStep (fit : ℕ → Except PyErr (μ × Diagnostics)) (s : BikeState μ) (init : ℕ) : Except PyErr (BikeState μ) := do
  let out ← fit init
  let loss ← pyLast out.2.losses
  if s.lowest.gt loss then return ⟨s.models ++ [out.1], some init, ← pyLast out.2.losses⟩
  else return ⟨s.models ++ [out.1], s.selected, s.lowest⟩

/-- The selection of `examples/plot_bikesharing.py` lines 37-60 and 89, with `n` starts: the selected start and its factorization. -/
noncomputable def selectBike (fit : ℕ → Except PyErr (μ × Diagnostics)) (n : ℕ) : Except PyErr (ℕ × μ) := do
  let s ← (List.range n).foldlM (bikeStep fit) ⟨[], none, .inf⟩
  let k ← bound s.selected
  match s.models[k]? with
  | some m => return (k, m)
  | none => .error .indexError

/-- The variables `selected_cmf`, `selected_diagnostics` and `lowest_error` (`examples/plot_examining_different_number_of_components.py` lines 65-78) or `out_cmf`, `diagnostics` and
`lowest_error` (`examples/plot_simulated_nonnegative.py` lines 86-94). -/
structure SelState (μ : Type) where
  selected : Option (μ × Diagnostics)
  lowest : PyF

/-- One pass of the inner loop (`examples/plot_examining_different_number_of_components.py` lines 66-78). -/
noncomputable def examineStep (fit : ℕ → Except PyErr (μ × Diagnostics)) (s : SelState μ) (init : ℕ) : Except PyErr (SelState μ) := do
  let out ← fit init
  let loss ← pyLast out.2.losses
  if s.lowest.gt loss then return ⟨some out, ← pyLast out.2.losses⟩
  else return s

/-- One number of components (lines 65-83), from the variables left by the previous one: `lowest_error` is reset, the selected fit is not. Returned are the variables and what is appended
to the lists: `lowest_error`, from which the fit score is computed, and the last feasibility gaps. -/
noncomputable def examineRank (n : ℕ) (fit : ℕ → Except PyErr (μ × Diagnostics)) (carry : Option (μ × Diagnostics)) :
    Except PyErr (Option (μ × Diagnostics) × PyF × Gaps) := do
  let s ← (List.range n).foldlM (examineStep fit) ⟨carry, .inf⟩
  let d ← bound s.selected
  let g ← pyLast d.2.gaps
  return (s.selected, s.lowest, g)

/-- `fit_score = 1 - lowest_error` (line 80); `none` stands for minus infinity. -/
noncomputable def fitScore : PyF → Option ℝ
  | .fin x => some (1 - x)
  | _ => none

/-- One pass of the loop (`examples/plot_simulated_nonnegative.py` lines 87-94, `examples/plot_custom_penalty.py` lines 122-135 and 240-253): the loss is compared with the variable
`lowest_error`, in which the reconstruction error is stored. `satisfied_stopping_condition` may be None, which is false. -/
noncomputable def simStep (fit : ℕ → Except PyErr (μ × Diagnostics)) (s : SelState μ) (init : ℕ) : Except PyErr (SelState μ) := do
  let out ← fit init
  let loss ← pyLast out.2.losses
  if s.lowest.gt loss && out.2.stopping == some true then return ⟨some out, ← pyLast out.2.recErrors⟩
  else return s

/-- The selection of `examples/plot_simulated_nonnegative.py` lines 86-98: the selected fit, and the error that is printed. -/
noncomputable def selectSim (fit : ℕ → Except PyErr (μ × Diagnostics)) (n : ℕ) : Except PyErr ((μ × Diagnostics) × PyF) := do
  let s ← (List.range n).foldlM (simStep fit) ⟨none, .inf⟩
  return (← bound s.selected, s.lowest)

/-- The calls of the examples for one problem: `cmf, diagnostics = parafac2_aoadmm(…, return_errors=True, random_state=k)`, where the random state only determines the initial values. Without
diagnostics the result is a factorization, which is not unpacked in this way; the examples always request them. -/
noncomputable def startsFrom {I K R nA nB nC : ℕ} {J : Fin I → ℕ} (P : Problem I K R nA nB nC J) (a : Args) (init : ℕ → AOState I K R nA nB nC J) (k : ℕ) :
    Except PyErr (AOState I K R nA nB nC J × Diagnostics) := do
  let out ← cmfAoadmm P a (init k)
  match out.diag with
  | some d => return (out.st, d)
  | none => .error .typeError

end Verif.Examples
