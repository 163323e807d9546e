import Mathlib.Data.Real.Basic
import Mathlib.LinearAlgebra.Matrix.Notation
import Mathlib.Algebra.BigOperators.Ring.Finset

/-!
# Specification: nearest points and proximal operators

Euclidean (Frobenius) geometry of matrices, written out as sums. A vector is a matrix with one row.
-/

namespace Verif.Spec

open Finset

variable {ι κ : Type} [Fintype ι] [Fintype κ]

/-- Frobenius inner product. -/
def inner (X Y : Matrix ι κ ℝ) : ℝ := ∑ i, ∑ r, X i r * Y i r

/-- Squared Frobenius distance. -/
def frobSq (X Y : Matrix ι κ ℝ) : ℝ := ∑ i, ∑ r, (X i r - Y i r) ^ 2

/-- Squared Frobenius norm. -/
def sqNorm (X : Matrix ι κ ℝ) : ℝ := ∑ i, ∑ r, X i r ^ 2

/-- `X` is the unique minimiser of `g(X) + ρ/2 ‖X - Y‖²` over the set `C`. -/
def IsProx (C : Set (Matrix ι κ ℝ)) (g : Matrix ι κ ℝ → ℝ) (ρ : ℝ) (Y X : Matrix ι κ ℝ) : Prop :=
  X ∈ C ∧ ∀ Z ∈ C, Z ≠ X → g X + ρ / 2 * frobSq X Y < g Z + ρ / 2 * frobSq Z Y

/-- `X` is the unique point of `C` nearest to `Y`. -/
def IsProj (C : Set (Matrix ι κ ℝ)) (Y X : Matrix ι κ ℝ) : Prop :=
  X ∈ C ∧ ∀ Z ∈ C, Z ≠ X → frobSq X Y < frobSq Z Y

/-- `x` is the unique point of the set `C` of vectors nearest to `y`. -/
def IsProjVec (C : Set (ι → ℝ)) (y x : ι → ℝ) : Prop :=
  x ∈ C ∧ ∀ z ∈ C, z ≠ x → ∑ i, (x i - y i) ^ 2 < ∑ i, (z i - y i) ^ 2

/-- Euclidean norm of a column. -/
def colSq (X : Matrix ι κ ℝ) (r : κ) : ℝ := ∑ i, X i r ^ 2

/-- Sum of absolute values. -/
def absSum (X : Matrix ι κ ℝ) : ℝ := ∑ i, ∑ r, |X i r|

/-- Total variation of the columns. -/
def totalVar {m : ℕ} (X : Matrix (Fin m) κ ℝ) : ℝ :=
  ∑ r, ∑ i : Fin (m - 1), |X ⟨i + 1, by omega⟩ r - X ⟨i, by omega⟩ r|

end Verif.Spec
