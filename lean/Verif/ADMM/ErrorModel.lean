import Verif.ADMM.Model

/-!
# Model of the diagnostics: reconstruction error, feasibility gaps, L2 penalty

`src/matcouply/decomposition.py` lines 351-452, 617-640.
-/

namespace Verif.ADMM

open Verif.Penalties Verif.Spec Finset

variable {I K R : ℕ} {J : Fin I → ℕ}

/-- `A * weights` if there are weights (lines 427-428). -/
def scaleA (weights : Option (Fin R → ℝ)) (A : Matrix (Fin I) (Fin R) ℝ) : Matrix (Fin I) (Fin R) ℝ :=
  match weights with
  | none => A
  | some w => Matrix.of fun i r => A i r * w r

/-- `tl.sum` of a matrix. -/
def matSum {m n : ℕ} (X : Matrix (Fin m) (Fin n) ℝ) : ℝ := ∑ i, ∑ j, X i j

/-- The inner product computed from scratch, for one matrix (lines 436-442); `B` already multiplied with the row of `A`. -/
def innerTerm {j : ℕ} (X : Matrix (Fin j) (Fin K) ℝ) (B : Matrix (Fin j) (Fin R) ℝ) (C : Matrix (Fin K) (Fin R) ℝ) : ℝ :=
  if j > K then (B.transpose * X * C).trace else (B.transpose * (X * C)).trace

/-- `tl.sum((B_i.T @ B_i) * CtC)` (line 444). -/
def normTerm {j : ℕ} (B : Matrix (Fin j) (Fin R) ℝ) (C : Matrix (Fin K) (Fin R) ℝ) : ℝ :=
  matSum (Matrix.of fun r s => (B.transpose * B) r s * (C.transpose * C) r s)

/-- Intermediate results of the A-update: `rhses`, `cross_products` (line 219). -/
structure Inter (I R : ℕ) where
  rhs : Fin I → Fin R → ℝ
  cross : Fin I → Matrix (Fin R) (Fin R) ℝ

/-- `_cmf_reconstruction_error` (lines 420-452), not yet divided by the norm of the data. `norm_matrices` is always given by the caller. -/
noncomputable def recError (X : Ragged I K J) (weights : Option (Fin R → ℝ)) (F : Factors I K R J) (normX : ℝ) (inter : Option (Inter I R)) : ℝ :=
  let normXsq := normX ^ 2
  let A := scaleA weights F.A
  let p := match inter with
    | none =>
      let B : (i : Fin I) → Matrix (Fin (J i)) (Fin R) ℝ := fun i => Matrix.of fun j r => F.B i j r * A i r
      (∑ i, innerTerm (X i) (B i) F.C, ∑ i, normTerm (B i) F.C)
    | some it =>
      (∑ i, ∑ r, it.rhs i r * A i r, ∑ i, matSum (Matrix.diagonal (A i) * it.cross i * Matrix.diagonal (A i)))
  √(max 0 (normXsq - 2 * p.1 + p.2))

/-- `_compute_l2_penalty` (lines 617-627): `if l2_parameters[m]:` skips a zero parameter. The weights are ignored. -/
noncomputable def l2Penalty (l : ℝ × ℝ × ℝ) (F : Factors I K R J) : ℝ :=
  let a := if l.1 ≠ 0 then 1 / 2 * l.1 * ∑ i, ∑ r, F.A i r ^ 2 else 0
  let b := if l.2.1 ≠ 0 then 1 / 2 * l.2.1 * ∑ i, ∑ j, ∑ r, F.B i j r ^ 2 else 0
  let c := if l.2.2 ≠ 0 then 1 / 2 * l.2.2 * ∑ i, ∑ r, F.C i r ^ 2 else 0
  a + b + c

/-- Result of `compute_feasibility_gaps`: one list for each mode. -/
structure Gaps where
  A : List PyF
  B : List PyF
  C : List PyF

/-- `compute_feasibility_gaps` (lines 404-417). -/
noncomputable def feasibilityGaps {nA nB nC : ℕ} (F : Factors I K R J) (auxA : Fin nA → Matrix (Fin I) (Fin R) ℝ) (auxB : Fin nB → AuxB I R J)
    (auxC : Fin nC → Matrix (Fin K) (Fin R) ℝ) : Gaps where
  A := List.ofFn fun p => matGap F.A (auxA p)
  B := List.ofFn fun p => raggedGap F.B (auxB p)
  C := List.ofFn fun p => matGap F.C (auxC p)

/-- `max((max(gaps), m))` if there are gaps (lines 633-638); `none` is `-inf`. Python's `max` keeps the first value unless the second one
is greater. -/
noncomputable def maxGap (gaps : List PyF) (m : Option PyF) : Option PyF :=
  match gaps with
  | [] => m
  | g :: gs =>
    let x := pyMax g gs
    match m with
    | none => some x
    | some y => if y.gt x then some y else some x

/-- `_check_feasibility` (lines 630-640); `-inf < tol` is True. -/
noncomputable def checkFeasibility (g : Gaps) (tol : ℝ) : Bool :=
  match maxGap g.C (maxGap g.B (maxGap g.A none)) with
  | none => true
  | some x => x.lt tol

end Verif.ADMM
