import Mathlib.Algebra.Order.Field.Basic
import Mathlib.Algebra.BigOperators.Fin
import Mathlib.Data.Fintype.Basic

/-!
# Specification: unimodal and monotone vectors, nearest points

These definitions do not mention the model of the code.
-/

namespace Verif.Spec

variable {K : Type} [Field K] [LinearOrder K]

/-- `u_1 ≤ ... ≤ u_t ≥ ... ≥ u_n` for some index `t` (docstring of `unimodal_regression`). -/
def IsUnimodal {n : ℕ} (u : Fin n → K) : Prop :=
  ∃ t : Fin n, (∀ i j : Fin n, i ≤ j → j ≤ t → u i ≤ u j) ∧ (∀ i j : Fin n, t ≤ i → i ≤ j → u j ≤ u i)

/-- No negative entry. -/
def IsNonneg {ι : Type} (u : ι → K) : Prop := ∀ i, 0 ≤ u i

/-- Squared Euclidean distance. -/
def sqDist {ι : Type} [Fintype ι] (u v : ι → K) : K := ∑ i, (u i - v i) ^ 2

/-- `u` is a point of `S` nearest to `y`. -/
def IsNearest {ι : Type} [Fintype ι] (S : (ι → K) → Prop) (y u : ι → K) : Prop :=
  S u ∧ ∀ v, S v → sqDist y u ≤ sqDist y v

/-- Weighted squared error of a fit `u` on the first `k` samples of `y`. -/
def wsqErr (w y u : ℕ → K) (k : ℕ) : K := ∑ j ∈ Finset.range k, w j * (y j - u j) ^ 2

/-- `u` is non-decreasing on the first `k` samples. -/
def MonoUpTo (u : ℕ → K) (k : ℕ) : Prop := ∀ i j, i ≤ j → j < k → u i ≤ u j

end Verif.Spec
