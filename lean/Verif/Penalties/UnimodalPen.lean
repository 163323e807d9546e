import Verif.Props.Unimodal
import Verif.Penalties.Model

/-!
# Unimodality as a penalty
-/

namespace Verif.Penalties

open Verif.Unimodal

/-- `Unimodality.factor_matrix_update` (`penalties.py` lines 1014-1015) on a matrix of floats: `unimodal_regression` of the columns. It raises
ValueError for a matrix without rows or columns (`unimodalRegressionN`), where this definition returns its input; theorems assume
that there are rows and columns. NaN entries, which never occur (C03), are 0. -/
noncomputable def unimodalMat (nonNeg : Bool) (m n : ℕ) : MatUpdate m n := fun X _ _ =>
  match unimodalRegressionN id (Equiv.refl (Fin n)) X nonNeg with
  | .ok u => fun i r => (u i r).getD 0
  | .error _ => X

end Verif.Penalties
