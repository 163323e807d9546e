import Verif.Spec.Prox

/-!
# Specification: coupled matrix factorization as an optimization problem

The represented matrices, the sum of squared errors and the (ridge-)regularized objective, written out as sums.
-/

namespace Verif.Spec

open Finset

/-- Three factors of a coupled matrix factorization: `A` (I × R), `B i` (J i × R), `C` (K × R). -/
structure Factors (I K R : ℕ) (J : Fin I → ℕ) where
  A : Matrix (Fin I) (Fin R) ℝ
  B : (i : Fin I) → Matrix (Fin (J i)) (Fin R) ℝ
  C : Matrix (Fin K) (Fin R) ℝ

/-- Lists of matrices with the same number of columns. -/
abbrev Ragged (I n : ℕ) (J : Fin I → ℕ) := (i : Fin I) → Matrix (Fin (J i)) (Fin n) ℝ

variable {I K R : ℕ} {J : Fin I → ℕ}

/-- Entry of the matrix represented by the factors. -/
def Factors.entry (F : Factors I K R J) (i : Fin I) (j : Fin (J i)) (k : Fin K) : ℝ :=
  ∑ r, F.A i r * F.B i j r * F.C k r

/-- The represented matrices. -/
def Factors.recon (F : Factors I K R J) : Ragged I K J := fun i => Matrix.of fun j k => F.entry i j k

/-- Sum of squared errors. -/
def sse (X : Ragged I K J) (F : Factors I K R J) : ℝ := ∑ i, ∑ j, ∑ k, (X i j k - F.entry i j k) ^ 2

/-- Squared norm of a list of matrices. -/
def raggedSq {n : ℕ} (X : Ragged I n J) : ℝ := ∑ i, sqNorm (X i)

/-- The least-squares objective with ridge penalties `l.1`, `l.2.1`, `l.2.2` on the three factors. -/
noncomputable def ridgeObj (X : Ragged I K J) (l : ℝ × ℝ × ℝ) (F : Factors I K R J) : ℝ :=
  1 / 2 * sse X F + 1 / 2 * (l.1 * sqNorm F.A + l.2.1 * raggedSq F.B + l.2.2 * sqNorm F.C)

/-- The fit with ridge `l2` determines the rows of `A` uniquely. -/
def SolvableA (F : Factors I K R J) (l2 : ℝ) : Prop :=
  ∀ i (v : Fin R → ℝ), v ≠ 0 → 0 < ∑ j, ∑ k, (∑ r, v r * F.B i j r * F.C k r) ^ 2 + l2 * ∑ r, v r ^ 2

/-- The fit with ridge `l2` determines the rows of all `B i` uniquely. -/
def SolvableB (F : Factors I K R J) (l2 : ℝ) : Prop :=
  ∀ i (v : Fin R → ℝ), v ≠ 0 → 0 < ∑ k, (∑ r, F.A i r * v r * F.C k r) ^ 2 + l2 * ∑ r, v r ^ 2

/-- The fit with ridge `l2` determines the rows of `C` uniquely. -/
def SolvableC (F : Factors I K R J) (l2 : ℝ) : Prop :=
  ∀ (v : Fin R → ℝ), v ≠ 0 → 0 < ∑ i, ∑ j, (∑ r, F.A i r * F.B i j r * v r) ^ 2 + l2 * ∑ r, v r ^ 2

/-! ### Feasibility penalties -/

/-- The default feasibility penalty for row `i` of `A`: half the squared norm of the design. -/
noncomputable def weightA (scale : ℝ) (F : Factors I K R J) (i : Fin I) : ℝ :=
  scale / 2 * ∑ r, ∑ j, ∑ k, (F.B i j r * F.C k r) ^ 2

/-- The default feasibility penalty for `B i`. -/
noncomputable def weightB (scale : ℝ) (F : Factors I K R J) (i : Fin I) : ℝ := scale / 2 * ∑ r, ∑ k, (F.C k r * F.A i r) ^ 2

/-- The default feasibility penalty for `C`. -/
noncomputable def weightC (scale : ℝ) (F : Factors I K R J) : ℝ := scale / 2 * ∑ r, ∑ i, ∑ j, (F.B i j r * F.A i r) ^ 2

/-- `ρ` are the feasibility penalties in use: the default ones `w`, or all equal to the largest default one. -/
def IsWeights (constant : Bool) (w ρ : Fin I → ℝ) : Prop :=
  (constant = false → ρ = w) ∧ (constant = true → ∃ i₀, (∀ i, w i ≤ w i₀) ∧ ∀ i, ρ i = w i₀)

/-! ### Proximal operators with one weight per row or per matrix -/

/-- `X` is the unique minimiser of `g(X) + Σ_i w_i/2 ‖X_i - Y_i‖²` over `C`; `X_i` are the rows. -/
def IsProxRows {m : ℕ} (C : Set (Matrix (Fin m) (Fin R) ℝ)) (g : Matrix (Fin m) (Fin R) ℝ → ℝ) (w : Fin m → ℝ)
    (Y X : Matrix (Fin m) (Fin R) ℝ) : Prop :=
  X ∈ C ∧ ∀ Z ∈ C, Z ≠ X →
    g X + ∑ i, w i / 2 * ∑ r, (X i r - Y i r) ^ 2 < g Z + ∑ i, w i / 2 * ∑ r, (Z i r - Y i r) ^ 2

/-- The same for lists of matrices. -/
def IsProxRag (C : Set (Ragged I R J)) (g : Ragged I R J → ℝ) (w : Fin I → ℝ) (Y X : Ragged I R J) : Prop :=
  X ∈ C ∧ ∀ Z ∈ C, Z ≠ X →
    g X + ∑ i, w i / 2 * frobSq (X i) (Y i) < g Z + ∑ i, w i / 2 * frobSq (Z i) (Y i)

/-! ### Augmented Lagrangians -/

/-- Augmented Lagrangian of the subproblem for `A`, up to terms not depending on `A`: `Z` auxiliary, `U` scaled dual variables. -/
noncomputable def augA {n : ℕ} (X : Ragged I K J) (l2 : ℝ) (F : Factors I K R J) (ρ : Fin I → ℝ)
    (Z U : Fin n → Matrix (Fin I) (Fin R) ℝ) (Y : Matrix (Fin I) (Fin R) ℝ) : ℝ :=
  1 / 2 * sse X ⟨Y, F.B, F.C⟩ + l2 / 2 * sqNorm Y + ∑ p, ∑ i, ρ i / 2 * ∑ r, (Y i r - (Z p i r - U p i r)) ^ 2

/-- Augmented Lagrangian of the subproblem for all `B i`. -/
noncomputable def augB {n : ℕ} (X : Ragged I K J) (l2 : ℝ) (F : Factors I K R J) (ρ : Fin I → ℝ)
    (Z U : Fin n → Ragged I R J) (Y : Ragged I R J) : ℝ :=
  1 / 2 * sse X ⟨F.A, Y, F.C⟩ + l2 / 2 * raggedSq Y + ∑ p, ∑ i, ρ i / 2 * frobSq (Y i) (Z p i - U p i)

/-- Augmented Lagrangian of the subproblem for `C`. -/
noncomputable def augC {n : ℕ} (X : Ragged I K J) (l2 : ℝ) (F : Factors I K R J) (ρ : ℝ)
    (Z U : Fin n → Matrix (Fin K) (Fin R) ℝ) (Y : Matrix (Fin K) (Fin R) ℝ) : ℝ :=
  1 / 2 * sse X ⟨F.A, F.B, Y⟩ + l2 / 2 * sqNorm Y + ∑ p, ρ / 2 * frobSq Y (Z p - U p)

/-! ### Regularized subproblems -/

/-- Fit of `A` with the other factors fixed. -/
noncomputable def fitA (X : Ragged I K J) (l2 : ℝ) (F : Factors I K R J) (Y : Matrix (Fin I) (Fin R) ℝ) : ℝ :=
  1 / 2 * sse X ⟨Y, F.B, F.C⟩ + l2 / 2 * sqNorm Y

/-- Fit of all `B i` with the other factors fixed. -/
noncomputable def fitB (X : Ragged I K J) (l2 : ℝ) (F : Factors I K R J) (Y : Ragged I R J) : ℝ :=
  1 / 2 * sse X ⟨F.A, Y, F.C⟩ + l2 / 2 * raggedSq Y

/-- Fit of `C` with the other factors fixed. -/
noncomputable def fitC (X : Ragged I K J) (l2 : ℝ) (F : Factors I K R J) (Y : Matrix (Fin K) (Fin R) ℝ) : ℝ :=
  1 / 2 * sse X ⟨F.A, F.B, Y⟩ + l2 / 2 * sqNorm Y

/-- Inner product of lists of matrices. -/
def ragInner (X Y : Ragged I R J) : ℝ := ∑ i, inner (X i) (Y i)

/-- `xs` minimises `f + Σ_p g_p` over the intersection of the sets `C p`. -/
def IsMinOver {V : Type} {n : ℕ} (f : V → ℝ) (C : Fin n → Set V) (g : Fin n → V → ℝ) (xs : V) : Prop :=
  (∀ p, xs ∈ C p) ∧ ∀ y, (∀ p, y ∈ C p) → f xs + ∑ p, g p xs ≤ f y + ∑ p, g p y

/-- `xs` with multipliers `Λ` is a saddle point of the Lagrangian `f(x) + Σ_p g_p(z_p) + ⟨Λ_p, x - z_p⟩`. -/
structure IsSaddlePoint {V : Type} [AddCommGroup V] {n : ℕ} (ip : V → V → ℝ) (f : V → ℝ) (C : Fin n → Set V) (g : Fin n → V → ℝ)
    (xs : V) (Λ : Fin n → V) : Prop where
  mem : ∀ p, xs ∈ C p
  fopt : ∀ y, f xs ≤ f y + ∑ p, ip (Λ p) (y - xs)
  gopt : ∀ p, ∀ y ∈ C p, g p xs ≤ g p y - ip (Λ p) (y - xs)

/-- All matrices near `x` are in `C`. -/
def InsideMat {m : ℕ} (C : Set (Matrix (Fin m) (Fin R) ℝ)) (x : Matrix (Fin m) (Fin R) ℝ) : Prop :=
  ∃ ε : ℝ, 0 < ε ∧ ∀ Y, (∀ i r, |Y i r - x i r| < ε) → Y ∈ C

/-- All lists of matrices near `x` are in `C`. -/
def InsideRag (C : Set (Ragged I R J)) (x : Ragged I R J) : Prop :=
  ∃ ε : ℝ, 0 < ε ∧ ∀ Y : Ragged I R J, (∀ i j r, |Y i j r - x i j r| < ε) → Y ∈ C

/-- The inner stopping criterion: positive tolerance, relative change at most the tolerance, every relative gap below it. The criterion is written
without division. -/
def InnerDone {n : ℕ} (tol : Option ℝ) (norm change : ℝ) (gaps : Fin n → ℝ) : Prop :=
  ∃ t, tol = some t ∧ 0 < t ∧ change ≤ t * norm ∧ ∀ p, gaps p < t * norm

end Verif.Spec
