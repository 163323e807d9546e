import Mathlib.Algebra.Order.Floor.Ring
import Mathlib.Algebra.Order.Archimedean.Real.Basic
import Verif.Dtype.Model
import Verif.Loop.Model

/-!
# Model of AO-ADMM with an integer array for A

`admm_update_A` writes the rows of A into the array that it was given, and without a constant feasibility penalty the
rows of the auxiliary variables as well (`src/matcouply/decomposition.py` lines 191-195, 207-211, `tl.copy` in line 175
keeps the type). Both come from the caller (`init`, line 26; `aux_init`, `penalties.py` lines 87-103), and numpy converts what is
written to the type of the array. The B-update and the C-update assign new arrays (lines 271, 331). Everything else is
shared with `Verif/ADMM/Model` and `Verif/Loop/Model`.
-/

namespace Verif.NumType

open Verif.ADMM Verif.Loop Verif.Penalties Verif.Spec Finset

section
variable {I K R n nA nB nC : ℕ} {J : Fin I → ℕ}

/-- Update of the auxiliary variable of one penalty in mode 0 (lines 197-211); `d` is the type of its array. -/
noncomputable def auxAD (d : Dtype) (pen : PenA I R) (ρmax : Option ℝ) (ρ : Fin I → ℝ) (Y aux : Matrix (Fin I) (Fin R) ℝ) :
    Matrix (Fin I) (Fin R) ℝ :=
  match ρmax, pen.row with
  | some m, _ => pen.mat Y m aux
  | none, some u => fun i r => d.store (u (Y i) (ρ i) (aux i) r)
  | none, none => aux

/-- One inner iteration of `admm_update_A` (lines 177-213) with A of type `dA` and auxiliary variables of types `dP`. -/
noncomputable def stepAD (dA : Dtype) (dP : Fin n → Dtype) (pens : Fin n → PenA I R) (ρmax : Option ℝ) (ρ : Fin I → ℝ) (svds : Fin I → SVD R R R)
    (rhs : Fin I → Fin R → ℝ) (s : MatState I R n) : MatState I R n :=
  let x : Matrix (Fin I) (Fin R) ℝ := fun i r => dA.store (svdSolveRow (svds i) (ρ i • (∑ p, (s.aux p - s.dual p) i) + rhs i) r)
  let aux := fun p => auxAD (dP p) (pens p) ρmax ρ (x + s.dual p) (s.aux p)
  ⟨x, aux, fun p => x - (aux p - s.dual p)⟩

/-- `admm_update_A` (lines 120-219). -/
noncomputable def admmUpdateAD (dA : Dtype) (dP : Fin n → Dtype) (P : Params R) (X : Ragged I K J) (pens : Fin n → PenA I R) (l2 : ℝ) (constant : Bool)
    (F : Factors I K R J) (aux dual : Fin n → Matrix (Fin I) (Fin R) ℝ) : Except PyErr (MatState I R n) :=
  (feasPenalties P.scale constant (crossA F)).bind fun ρ =>
    if !constant && decide (0 < P.nInner) && decide (0 < I) && (List.ofFn pens).any (fun p => p.row.isNone) then
      .error .attributeError
    else
      .ok (innerLoop (stepAD dA dP pens ρ.1 ρ.2 (fun i => P.svd (addRidge (crossA F i) (ρ.2 i) n l2)) (rhsA X F))
        (matStop P.innerTol) P.nInner ⟨F.A, aux, dual⟩)

/-- The A-update of an iteration (lines 946, 975-988). -/
noncomputable def sweepAD (dA : Dtype) (dP : Fin nA → Dtype) (P : Problem I K R nA nB nC J) (s : AOState I K R nA nB nC J) :
    Except PyErr (AOState I K R nA nB nC J × Option (Inter I R)) :=
  if P.updA then
    (admmUpdateAD dA dP P.params P.X P.pensA P.l2.1 P.constA s.F s.auxA s.dualA).map fun t =>
      ({ s with weights := none, F := ⟨t.x, s.F.B, s.F.C⟩, auxA := t.aux, dualA := t.dual }, some ⟨rhsA P.X s.F, crossA s.F⟩)
  else .ok (s, none)

/-- The operations of the loop (`aoOps`), with the A-update above. -/
noncomputable def aoOpsD (dA : Dtype) (dP : Fin nA → Dtype) (P : Problem I K R nA nB nC J) : Ops (AOState I K R nA nB nC J) (Option (Inter I R)) :=
  { aoOps P with sweep := fun s => (sweepB P s).bind fun t => sweepAD dA dP P (sweepC P t) }

/-- `cmf_aoadmm` after initialisation and parsing (lines 906-1095). `dA` is the type of the initial A (of `weights * A` if there are weights, line 25), `dP` are the
types of the initial auxiliary variables of mode 0. -/
noncomputable def cmfAoadmmD (dA : Dtype) (dP : Fin nA → Dtype) (P : Problem I K R nA nB nC J) (a : Args) (init : AOState I K R nA nB nC J) :
    Except PyErr (Output (AOState I K R nA nB nC J)) :=
  fit (aoOpsD dA dP P) a none init

end

end Verif.NumType
