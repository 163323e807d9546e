import Verif.ADMM.ErrorModel

/-!
# Model of the outer loop of `cmf_aoadmm`

`src/matcouply/decomposition.py` lines 643-659, 871-1100. The loop (`Verif.Loop.body`, `Verif.Loop.run`) is written over a record of operations
(`Ops`), which `aoOps` instantiates with the updates and diagnostics of `Verif/ADMM`. Tolerances are `None` or a real number.
`print` is modelled as appending to a log.
-/

namespace Verif.Loop

open Verif.ADMM Verif.Spec Finset

/-! ### The loop -/

/-- `if x:` for `None` or a number. -/
noncomputable def truthy : Option ℝ → Bool
  | none => false
  | some t => decide (t ≠ 0)

/-- The three stopping messages (lines 932, 1044, 1050). -/
inductive Message
  | maxIter
  | relative
  | absolute
  deriving DecidableEq

/-- What is printed, with the values shown (lines 925-928, 1000-1009, 1025-1035, 1045-1052, 1055-1056, 1058-1059). `computed` shows the iteration, the
reconstruction error, the loss and the loss variation, which is a function of the previous loss and the loss; the gaps of the three modes follow on lines of their own. -/
inductive Log
  | initial (gaps : Gaps)
  | notComputed (it : ℕ) (gaps : Gaps)
  | computed (it : ℕ) (recError prevLoss loss : PyF) (gaps : Gaps)
  | converged (it : ℕ) (message : Message)
  | iteration (it : ℕ)
  | reachedMax

/-- What the loop calls: one round of updates (also returning the intermediate results of the A-update), the feasibility gaps, the relative
reconstruction error, and the L2 terms plus penalty values. -/
structure Ops (σ ι : Type) where
  sweep : σ → Except PyErr (σ × ι)
  gaps : σ → Gaps
  relError : σ → ι → PyF
  penalty : σ → ℝ

/-- Arguments of the loop. `verbose` is a bool or an int. -/
structure Args where
  nIterMax : ℤ
  tol : Option ℝ
  absTol : Option ℝ
  feasTol : Option ℝ
  returnErrors : Bool
  verbose : ℤ

/-- Variables of the loop: state, the three lists, number of completed iterations (`it + 1`), satisfied stopping condition with its message, output. -/
structure Acc (σ : Type) where
  st : σ
  recErrors : List PyF
  gaps : List Gaps
  losses : List PyF
  nIter : ℕ
  stop : Option Message
  log : List Log

/-- `0.5 * rec_error ** 2 + l2_reg + reg_penalty` (lines 921, 1023). -/
noncomputable def lossOf : PyF → ℝ → PyF
  | .nan, _ => .nan
  | .inf, _ => .inf
  | .fin r, p => .fin (1 / 2 * r ^ 2 + p)

/-- `abs(losses[-2] - losses[-1]) < (tol * losses[-2])` (line 1039). False if one of them is not finite: the difference then is `inf` or
`nan`, and the right-hand side is finite, `nan`, or infinite with an infinite left-hand side. -/
noncomputable def relCriterion (prev new : PyF) (tol : ℝ) : Bool :=
  match prev, new with
  | .fin p, .fin q => decide (|p - q| < tol * p)
  | _, _ => false

/-- `verbose and it % verbose == 0 and verbose > 0`. -/
def prints (verbose : ℤ) (it : ℕ) : Bool := decide (verbose ≠ 0) && decide ((it : ℤ) % verbose = 0) && decide (verbose > 0)

section
variable {σ ι : Type}

/-- Lines 1037-1053 (the loss has just been appended; `prev` is `losses[-2]`). `losses[-1] < None` raises TypeError. The Boolean says whether the loop is left. -/
noncomputable def checkStop (a : Args) (feasible : Bool) (prev new : PyF) (s : Acc σ) : Except PyErr (Acc σ × Bool) :=
  if truthy a.tol then
    match a.absTol with
    | none => .error .typeError
    | some abs =>
      if feasible && relCriterion prev new (a.tol.getD 0) then
        .ok ({ s with stop := some .relative, log := s.log ++ if a.verbose ≠ 0 then [.converged (s.nIter - 1) .relative] else [] }, true)
      else if feasible && new.lt abs then
        .ok ({ s with stop := some .absolute, log := s.log ++ if a.verbose ≠ 0 then [.converged (s.nIter - 1) .absolute] else [] }, true)
      else .ok (s, false)
  else .ok (s, false)

/-- One iteration (lines 946-1056). -/
noncomputable def body (O : Ops σ ι) (a : Args) (s : Acc σ) : Except PyErr (Acc σ × Bool) :=
  match O.sweep s.st with
  | .error e => .error e
  | .ok (st, inter) =>
    if truthy a.tol || truthy a.absTol || a.returnErrors then
      let g := O.gaps st
      let feasible := truthy a.feasTol && checkFeasibility g (a.feasTol.getD 0)
      if (truthy a.tol || truthy a.absTol) && !feasible && !a.returnErrors then
        .ok ({ s with
          st := st, nIter := s.nIter + 1, gaps := s.gaps ++ [g]
          log := s.log ++ if prints a.verbose s.nIter then [.notComputed s.nIter g] else [] }, false)
      else
        let r := O.relError st inter
        let loss := lossOf r (O.penalty st)
        checkStop a feasible (s.losses.getLastD .nan) loss { s with
          st := st, nIter := s.nIter + 1, gaps := s.gaps ++ [g], recErrors := s.recErrors ++ [r], losses := s.losses ++ [loss]
          log := s.log ++ if prints a.verbose s.nIter then [.computed s.nIter r (s.losses.getLastD .nan) loss g] else [] }
    else
      .ok ({ s with
        st := st, nIter := s.nIter + 1
        log := s.log ++ if prints a.verbose s.nIter then [.iteration s.nIter] else [] }, false)

/-- The `for` loop with `n` iterations left; the `else` clause prints (lines 945, 1057-1059). -/
noncomputable def run (O : Ops σ ι) (a : Args) : ℕ → Acc σ → Except PyErr (Acc σ)
  | 0, s => .ok { s with log := s.log ++ if a.verbose ≠ 0 then [.reachedMax] else [] }
  | n + 1, s =>
    match body O a s with
    | .error e => .error e
    | .ok (s', true) => .ok s'
    | .ok (s', false) => run O a n s'

/-- The values before the loop (lines 907-932). The initial reconstruction error is computed without intermediate results. -/
noncomputable def initAcc (O : Ops σ ι) (a : Args) (none : ι) (st : σ) : Acc σ where
  st := st
  recErrors := [O.relError st none]
  gaps := [O.gaps st]
  losses := [lossOf (O.relError st none) (O.penalty st)]
  nIter := 0
  stop := .none
  log := if a.verbose > 0 then [.initial (O.gaps st)] else []

/-- `DiagnosticMetrics` (lines 648-659). -/
structure Diagnostics where
  recErrors : List PyF
  gaps : List Gaps
  losses : List PyF
  stopping : Option Bool
  feasible : Option Bool
  message : Message
  nIter : ℕ

/-- The diagnostics (lines 1066-1094), computed if `return_errors`. -/
noncomputable def diagnostics (O : Ops σ ι) (a : Args) (s : Acc σ) : Diagnostics where
  recErrors := s.recErrors
  gaps := s.gaps
  losses := s.losses
  stopping := if s.stop.isSome then some true else if truthy a.tol || truthy a.absTol then some false else none
  feasible := if truthy a.feasTol then some (checkFeasibility (O.gaps s.st) (a.feasTol.getD 0)) else none
  message := s.stop.getD .maxIter
  nIter := s.nIter

/-- What a call returns: final state (factorization, auxiliary and dual variables), diagnostics if requested, and what was printed. -/
structure Output (σ : Type) where
  st : σ
  diag : Option Diagnostics
  log : List Log

/-- The loop with everything before and after it (lines 906-1095). `range(n)` is empty for a negative `n`. -/
noncomputable def fit (O : Ops σ ι) (a : Args) (none : ι) (st : σ) : Except PyErr (Output σ) :=
  match run O a a.nIterMax.toNat (initAcc O a none st) with
  | .error e => .error e
  | .ok s => .ok ⟨s.st, if a.returnErrors then some (diagnostics O a s) else .none, s.log⟩

end

/-! ### The instance -/

section
variable {I K R nA nB nC : ℕ} {J : Fin I → ℕ}

/-- Factorization, auxiliary and dual variables. -/
structure AOState (I K R nA nB nC : ℕ) (J : Fin I → ℕ) where
  weights : Option (Fin R → ℝ)
  F : Factors I K R J
  auxA : Fin nA → Matrix (Fin I) (Fin R) ℝ
  dualA : Fin nA → Matrix (Fin I) (Fin R) ℝ
  auxB : Fin nB → AuxB I R J
  dualB : Fin nB → Ragged I R J
  auxC : Fin nC → Matrix (Fin K) (Fin R) ℝ
  dualC : Fin nC → Matrix (Fin K) (Fin R) ℝ

/-- The problem: data, penalties of the modes, L2 parameters, parameters of the updates, where the feasibility penalty is constant, which modes are updated.
A mode that is not updated has no penalties, see `Problem.ofRegs`. -/
structure Problem (I K R nA nB nC : ℕ) (J : Fin I → ℕ) where
  X : Ragged I K J
  pensA : Fin nA → PenA I R
  pensB : Fin nB → PenB I R J
  pensC : Fin nC → PenC K R
  l2 : ℝ × ℝ × ℝ
  params : Params R
  constA : Bool
  constB : Bool
  updA : Bool
  updB : Bool
  updC : Bool

/-- The B-update of an iteration (lines 948-961). The updates return `None` as weights (lines 219, 292, 344). -/
noncomputable def sweepB (P : Problem I K R nA nB nC J) (s : AOState I K R nA nB nC J) : Except PyErr (AOState I K R nA nB nC J) :=
  if P.updB then
    (admmUpdateB P.params P.X P.pensB P.l2.2.1 P.constB s.F s.auxB s.dualB).map fun t =>
      { s with weights := none, F := ⟨s.F.A, t.x, s.F.C⟩, auxB := t.aux, dualB := t.dual }
  else .ok s

/-- The C-update of an iteration (lines 962-974). -/
noncomputable def sweepC (P : Problem I K R nA nB nC J) (s : AOState I K R nA nB nC J) : AOState I K R nA nB nC J :=
  if P.updC then
    let t := admmUpdateC P.params P.X P.pensC P.l2.2.2 s.F s.auxC s.dualC
    { s with weights := none, F := ⟨s.F.A, s.F.B, t.x⟩, auxC := t.aux, dualC := t.dual }
  else s

/-- The A-update of an iteration (lines 946, 975-988). -/
noncomputable def sweepA (P : Problem I K R nA nB nC J) (s : AOState I K R nA nB nC J) :
    Except PyErr (AOState I K R nA nB nC J × Option (Inter I R)) :=
  if P.updA then
    (admmUpdateA P.params P.X P.pensA P.l2.1 P.constA s.F s.auxA s.dualA).map fun t =>
      ({ s with weights := none, F := ⟨t.x, s.F.B, s.F.C⟩, auxA := t.aux, dualA := t.dual }, some ⟨rhsA P.X s.F, crossA s.F⟩)
  else .ok (s, none)

/-- One round of updates: first B, then C, then A (lines 946-988). -/
noncomputable def sweep (P : Problem I K R nA nB nC J) (s : AOState I K R nA nB nC J) :
    Except PyErr (AOState I K R nA nB nC J × Option (Inter I R)) :=
  (sweepB P s).bind fun t => sweepA P (sweepC P t)

/-- The operations of the loop: `compute_feasibility_gaps` (line 991), `_cmf_reconstruction_error` divided by the norm of the data (lines 1013-1014),
L2 terms and penalty values (lines 1016-1023). The penalty values are those of the factors, without weights. -/
noncomputable def aoOps (P : Problem I K R nA nB nC J) : Ops (AOState I K R nA nB nC J) (Option (Inter I R)) where
  sweep := sweep P
  gaps s := feasibilityGaps s.F s.auxA s.auxB s.auxC
  relError s inter := .div (recError P.X s.weights s.F (rootSumSq P.X) inter) (rootSumSq P.X)
  penalty s := l2Penalty P.l2 s.F + (∑ p, (P.pensA p).value s.F.A + ∑ p, (P.pensB p).value s.F.B + ∑ p, (P.pensC p).value s.F.C)

/-- `cmf_aoadmm` after initialisation and parsing (lines 906-1095). -/
noncomputable def cmfAoadmm (P : Problem I K R nA nB nC J) (a : Args) (init : AOState I K R nA nB nC J) :
    Except PyErr (Output (AOState I K R nA nB nC J)) :=
  fit (aoOps P) a none init

end

/-- `regs[mode] = []` if the mode is not updated (lines 896-901). -/
def dropRegs {α : Type} (upd : Bool) (regs : List α) : List α := if upd then regs else []

/-- The problem solved for the parsed lists of penalties (lines 896-988). -/
def Problem.ofRegs {I K R : ℕ} {J : Fin I → ℕ} (X : Ragged I K J) (regsA : List (PenA I R)) (regsB : List (PenB I R J)) (regsC : List (PenC K R))
    (l2 : ℝ × ℝ × ℝ) (params : Params R) (constA constB updA updB updC : Bool) :
    Problem I K R (dropRegs updA regsA).length (dropRegs updB regsB).length (dropRegs updC regsC).length J where
  X := X
  pensA := (dropRegs updA regsA).get
  pensB := (dropRegs updB regsB).get
  pensC := (dropRegs updC regsC).get
  l2 := l2
  params := params
  constA := constA
  constB := constB
  updA := updA
  updB := updB
  updC := updC

end Verif.Loop
