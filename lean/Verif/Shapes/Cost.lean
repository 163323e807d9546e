import Verif.Shapes.Model

/-!
# Multiplications in `BᵀXC`

Lines 141-152 and 431-440 of `decomposition.py` with the number of scalar multiplications.
-/

namespace Verif.Shapes

/-- `tl.dot` of two matrices with the number of scalar multiplications of the schoolbook product. -/
def dotC (s t : Sh × ℕ) : Except PyErr (Sh × ℕ) := do
  let r ← dot s.1 t.1
  return (r, s.2 + t.2 + s.1.1 * s.1.2 * t.1.2)

/-- `BtXC_i` (`admm_update_A` lines 145-152, `_cmf_reconstruction_error` lines 434-440). -/
def tripleC (M B C : Sh) : Except PyErr (Sh × ℕ) :=
  if C.1 < B.1 then do dotC (← dotC (B.swap, 0) (M, 0)) (C, 0) else do dotC (B.swap, 0) (← dotC (M, 0) (C, 0))

end Verif.Shapes
