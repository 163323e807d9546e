import Verif.Penalties.UnimodalPen
import Verif.ADMM.Model

/-!
# The custom penalty of the documentation (`examples/plot_custom_penalty.py`)
-/

namespace Verif.Examples

open Verif.Unimodal Verif.Penalties Verif.ADMM

/-- `UnimodalAllExceptLast.factor_matrix_update` (`examples/plot_custom_penalty.py` lines 225-231) in exact arithmetic: a copy of the matrix, whose columns but
the last are replaced by their unimodal regression (which raises ValueError without rows or columns), clipped from below by 0 if `non_negativity` is set. -/
noncomputable def exceptLast (nonNeg : Bool) (m n : ℕ) (X : Matrix (Fin m) (Fin n) ℝ) : Except PyErr (Matrix (Fin m) (Fin n) ℝ) := do
  let u ← unimodalRegressionN id (Equiv.refl (Fin (n - 1))) (fun i r => X i ⟨r, by omega⟩) nonNeg
  let new : Matrix (Fin m) (Fin n) ℝ := fun i r => if h : r.val < n - 1 then (u i ⟨r, h⟩).getD 0 else X i r
  return if nonNeg then fun i r => max (new i r) 0 else new

/-- As a matrix update; where the code raises this returns its input. -/
noncomputable def exceptLastMat (nonNeg : Bool) (m n : ℕ) : MatUpdate m n := fun X _ _ =>
  match exceptLast nonNeg m n X with
  | .ok Z => Z
  | .error _ => X

/-- As a penalty on mode 1: `MatrixPenalty.factor_matrices_update` (`penalties.py` lines 336-363) applies it to every matrix, and
`HardConstraintMixin.penalty` (lines 500-508) is 0. -/
noncomputable def exceptLastB {I R : ℕ} {J : Fin I → ℕ} (nonNeg : Bool) : PenB I R J := .ofMat (fun i => exceptLastMat nonNeg (J i) R) fun _ => 0

end Verif.Examples
