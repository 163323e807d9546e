import Mathlib.Order.Fin.Basic
import Mathlib.Order.Defs.LinearOrder

/-!
# Specification: comparisons of floating-point numbers, unimodal vectors of floating-point numbers

IEEE 754 comparisons: NaN is neither below nor above anything, itself included; all other numbers, the infinities
included, are ordered (`-0.0` and `0.0` are different numbers each of which is `≤` the other, so `≤` is not
antisymmetric). Nothing is said about arithmetic. These definitions do not mention the model of the code.
-/

namespace Verif.Spec

/-- `x` is NaN: it does not even compare with itself. -/
def IsNaN {K : Type} [LE K] (x : K) : Prop := ¬ x ≤ x

/-- The laws of `<=` and `<` of IEEE 754. -/
class FloatOrder (K : Type) [Zero K] [LE K] [LT K] : Prop where
  /-- A NaN is below nothing. -/
  left : ∀ {x y : K}, x ≤ y → ¬ IsNaN x
  /-- A NaN is above nothing. -/
  right : ∀ {x y : K}, x ≤ y → ¬ IsNaN y
  trans : ∀ {x y z : K}, x ≤ y → y ≤ z → x ≤ z
  total : ∀ {x y : K}, ¬ IsNaN x → ¬ IsNaN y → x ≤ y ∨ y ≤ x
  lt_iff : ∀ {x y : K}, x < y ↔ x ≤ y ∧ ¬ y ≤ x
  zero : ¬ IsNaN (0 : K)

/-- `u_1 ≤ ... ≤ u_t ≥ ... ≥ u_n` for some index `t` (docstring of `unimodal_regression`), for numbers with any
relation `≤`. -/
def IsUnimodalLE {K : Type} [LE K] {n : ℕ} (u : Fin n → K) : Prop :=
  ∃ t : Fin n, (∀ i j : Fin n, i ≤ j → j ≤ t → u i ≤ u j) ∧ (∀ i j : Fin n, t ≤ i → i ≤ j → u j ≤ u i)

/-- A linear order is a case without NaN. -/
instance {K : Type} [Zero K] [LinearOrder K] : FloatOrder K where
  left _ h := h le_rfl
  right _ h := h le_rfl
  trans := le_trans
  total _ _ := le_total _ _
  lt_iff := lt_iff_le_not_ge
  zero h := h le_rfl

end Verif.Spec
