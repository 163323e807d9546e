import Verif.Loop.Model

/-!
# Model of the value returned by `cmf_aoadmm`

`src/matcouply/decomposition.py` lines 643-659, 1071-1100.
-/

namespace Verif.Loop

open Verif.ADMM Verif.Spec

variable {I K R nA nB nC : ℕ} {J : Fin I → ℕ}

/-- `ADMMVars` (lines 643-645): auxiliary variables and duals of the three modes. -/
structure ADMMVars (I K R nA nB nC : ℕ) (J : Fin I → ℕ) where
  auxes : (Fin nA → Matrix (Fin I) (Fin R) ℝ) × (Fin nB → AuxB I R J) × (Fin nC → Matrix (Fin K) (Fin R) ℝ)
  duals : (Fin nA → Matrix (Fin I) (Fin R) ℝ) × (Fin nB → Ragged I R J) × (Fin nC → Matrix (Fin K) (Fin R) ℝ)

/-- An entry of the list `out`. -/
inductive Entry (I K R nA nB nC : ℕ) (J : Fin I → ℕ)
  | cmf (weights : Option (Fin R → ℝ)) (F : Factors I K R J)
  | vars (v : ADMMVars I K R nA nB nC J)
  | diag (d : Diagnostics)

/-- The returned value: a single object or a tuple. -/
inductive Returned (I K R nA nB nC : ℕ) (J : Fin I → ℕ)
  | single (x : Entry I K R nA nB nC J)
  | tuple (l : List (Entry I K R nA nB nC J))

/-- Lines 1071-1100: the list `out` is built from the factorization, the variables if `return_admm_vars`, the diagnostics if `return_errors`. The factorization is
validated by `CoupledMatrixFactorization(cmf)`, which accepts it because its factors have matching shapes (typed here; `Verif/CMF/Object`, C71). -/
def pack (returnVars : Bool) (o : Output (AOState I K R nA nB nC J)) : Returned I K R nA nB nC J :=
  let out := [.cmf o.st.weights o.st.F]
  let out := if returnVars then out ++ [.vars ⟨(o.st.auxA, o.st.auxB, o.st.auxC), (o.st.dualA, o.st.dualB, o.st.dualC)⟩] else out
  let out := match o.diag with
    | some d => out ++ [.diag d]
    | none => out
  match out with
  | [x] => .single x
  | out => .tuple out

/-- The returned value of a call (lines 906-1100). -/
noncomputable def cmfReturn (P : Problem I K R nA nB nC J) (a : Args) (returnVars : Bool) (init : AOState I K R nA nB nC J) :
    Except PyErr (Returned I K R nA nB nC J) :=
  (cmfAoadmm P a init).map (pack returnVars)

end Verif.Loop
