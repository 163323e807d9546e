import Verif.Loop.Transform

/-!
# The container of the B factor matrices

`admm_update_B` keeps two containers of the B factor matrices, the given one and a list of copies (`decomposition.py` line 261), swaps them at the start of every inner iteration (line 263) and
assigns the entries of one of them (line 276). The given one is that of the caller in the first iteration of `cmf_aoadmm`: `initialize_cmf` (lines 22-28) does not copy it, and
`_validate_cmf` only iterates over it. The numbers are those of `Verif/ADMM` and `Verif/Loop`.
-/

namespace Verif.Loop

open Verif.ADMM Verif.Spec

/-- A Python list, a tuple, or an array with three axes (of floats; writing to an entry copies the new matrix into the array, of which no views are kept). -/
inductive Kind
  | list
  | tuple
  | array
deriving DecidableEq

section
variable {I K R nA nB nC : ℕ} {J : Fin I → ℕ}

/-- The loop of lines 262-293: `cur` and `old` are the kinds of `B_is` and `old_B_is`. The assignment `B_is[i] = …` to a tuple raises TypeError, if there is a matrix. -/
def innerKinds {σ : Type} (I : ℕ) (step : σ → σ) (stop : σ → σ → Bool) : ℕ → Kind → Kind → σ → Except PyErr (σ × Kind)
  | 0, cur, _, s => .ok (s, cur)
  | n + 1, cur, old, s =>
    if I ≠ 0 ∧ old = .tuple then .error .typeError
    else if stop s (step s) then .ok (step s, old) else innerKinds I step stop n old cur (step s)

/-- `admm_update_B` (lines 220-296) for B factor matrices in a container of a kind. -/
noncomputable def updateKindB (P : Params R) (X : Ragged I K J) (pens : Fin nB → PenB I R J) (l2 : ℝ) (constant : Bool) (F : Factors I K R J) (aux : Fin nB → AuxB I R J)
    (dual : Fin nB → Ragged I R J) (kind : Kind) : Except PyErr (RagState I R nB J × Kind) :=
  (feasPenalties P.scale constant (crossB F)).bind fun ρ =>
    innerKinds I (stepB pens ρ.2 (fun i => P.svd (addRidge (crossB F i) (ρ.2 i) nB l2)) (rhsB X F)) (ragStop P.innerTol) P.nInner kind .list ⟨F.B, aux, dual⟩

/-- One round of updates (lines 946-1000); the updates of A and C pass the container of the B factor matrices on. -/
noncomputable def sweepKind (P : Problem I K R nA nB nC J) (s : AOState I K R nA nB nC J × Kind) : Except PyErr ((AOState I K R nA nB nC J × Kind) × Option (Inter I R)) :=
  (if P.updB then (updateKindB P.params P.X P.pensB P.l2.2.1 P.constB s.1.F s.1.auxB s.1.dualB s.2).map fun t =>
      ({ s.1 with weights := none, F := ⟨s.1.F.A, t.1.x, s.1.F.C⟩, auxB := t.1.aux, dualB := t.1.dual }, t.2)
    else .ok s).bind fun t => (sweepA P (sweepC P t.1)).map fun u => ((u.1, t.2), u.2)

/-- The operations of the loop: all but the updates only iterate over the container. -/
noncomputable def kindOps (P : Problem I K R nA nB nC J) : Ops (AOState I K R nA nB nC J × Kind) (Option (Inter I R)) where
  sweep := sweepKind P
  gaps s := (aoOps P).gaps s.1
  relError s := (aoOps P).relError s.1
  penalty s := (aoOps P).penalty s.1

/-- `cmf_aoadmm` after parsing, for an initial factorization with its B factor matrices in a container of a kind. -/
noncomputable def cmfKind (P : Problem I K R nA nB nC J) (a : Args) (init : AOState I K R nA nB nC J) (kind : Kind) : Except PyErr (Output (AOState I K R nA nB nC J × Kind)) :=
  fit (kindOps P) a none (init, kind)

end

end Verif.Loop
