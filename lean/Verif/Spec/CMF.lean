import Verif.CMF.Model

/-!
# Specification: coupled matrix factorizations

Uses only the data types (`NDArray`, `PyVal`, `BArg`, `CMFArg`), not the modelled functions.
-/

namespace Verif.Spec

open Verif.CMF

variable {K : Type}

/-- Slice `i` along the first axis. -/
def slice (t : NDArray K) (sh : List ℕ) (i : ℕ) : NDArray K := ⟨sh, fun idx => t.get (i :: idx)⟩

/-- The objects one gets when iterating over `B_is`. -/
inductive Yields : BArg K → List (PyVal K) → Prop
  | list (l) : Yields (.list l) l
  | tensor (t : NDArray K) (n sh) : t.shape = n :: sh →
      Yields (.tensor t) ((List.range n).map fun i => .tensor (slice t sh i))

/-- The candidate is a rank-`R` factorization with the given components. -/
structure IsFactorization (x : CMFArg K) (w : Option (NDArray K)) (A : NDArray K) (Bs : List (NDArray K))
    (C : NDArray K) (R : ℕ) : Prop where
  weights : (x.weights = .none ∧ w = none) ∨ ∃ t, x.weights = .tensor t ∧ w = some t ∧ t.shape = [R]
  A_eq : x.A = .tensor A
  A_shape : A.shape = [Bs.length, R]
  C_eq : x.C = .tensor C
  C_shape : ∃ k, C.shape = [k, R]
  B_eq : Yields x.Bs (Bs.map .tensor)
  B_shape : ∀ B ∈ Bs, ∃ J, B.shape = [J, R]

/-- Some component is of the wrong kind. -/
def WrongKind (x : CMFArg K) : Prop :=
  x.weights = .other ∨ (∀ t, x.A ≠ .tensor t) ∨ (∀ t, x.C ≠ .tensor t) ∨ (∀ l, ¬ Yields x.Bs l) ∨
    ∃ l, Yields x.Bs l ∧ ∃ b ∈ l, ∀ t, b ≠ .tensor t

/-- Some tensor has the wrong number of modes, or two tensors do not fit together. -/
def WrongShape (x : CMFArg K) : Prop :=
  (∃ t, x.weights = .tensor t ∧ t.shape.length ≠ 1) ∨
  (∃ t, x.A = .tensor t ∧ t.shape.length ≠ 2) ∨
  (∃ t, x.C = .tensor t ∧ t.shape.length ≠ 2) ∨
  (∃ l t, Yields x.Bs l ∧ .tensor t ∈ l ∧ t.shape.length ≠ 2) ∨
  (∃ a I R c k R', x.A = .tensor a ∧ a.shape = [I, R] ∧ x.C = .tensor c ∧ c.shape = [k, R'] ∧ R' ≠ R) ∨
  (∃ a I R l b J R', x.A = .tensor a ∧ a.shape = [I, R] ∧ Yields x.Bs l ∧ .tensor b ∈ l ∧ b.shape = [J, R'] ∧
    R' ≠ R) ∨
  (∃ a I R w L, x.A = .tensor a ∧ a.shape = [I, R] ∧ x.weights = .tensor w ∧ w.shape = [L] ∧ L ≠ R) ∨
  (∃ a I R l, x.A = .tensor a ∧ a.shape = [I, R] ∧ Yields x.Bs l ∧ l.length ≠ I)

variable [Field K]

/-- Weight of component `r`; 1 when there are no weights. -/
def weightAt (w : Option (NDArray K)) (r : ℕ) : K := match w with | some t => t.get [r] | none => 1

/-- Entry `(j, k)` of the matrix represented by `B diag(a_i * w) C^T`. -/
def reprEntry (R : ℕ) (w : Option (NDArray K)) (A B C : NDArray K) (i j k : ℕ) : K :=
  ∑ r ∈ Finset.range R, weightAt w r * A.get [i, r] * B.get [j, r] * C.get [k, r]

/-- `M` is an `m × n` matrix with entries `f`. -/
def IsMat (M : NDArray K) (m n : ℕ) (f : ℕ → ℕ → K) : Prop :=
  M.shape = [m, n] ∧ ∀ j < m, ∀ k < n, M.get [j, k] = f j k

/-- Number of rows of a matrix. -/
def rows (M : NDArray K) : ℕ := M.shape.headD 0

/-- Largest number in a list (0 for an empty list). -/
def maxOf (l : List ℕ) : ℕ := l.foldr max 0

end Verif.Spec
