import Mathlib.Analysis.Real.Sqrt
import Mathlib.Data.Matrix.Mul
import Mathlib.LinearAlgebra.Matrix.Trace
import Verif.Py

/-!
# Model of `penalties.py`: updates and penalty values

Typed matrices over the real numbers. `feasibility_penalty` is `ρ`; every update also gets the previous auxiliary variable
`aux`, as in the code, although most ignore it.
-/

namespace Verif.Penalties

open Finset

/-- `np.clip(x, lo, hi)` for numbers: `minimum(maximum(x, lo), hi)`; `None` and infinite bounds are `none`. -/
def clip (lo hi : Option ℝ) (x : ℝ) : ℝ :=
  let y := match lo with | some l => max x l | none => x
  match hi with | some h => min y h | none => y

/-- `np.sign`. -/
noncomputable def sgn (x : ℝ) : ℝ := if x < 0 then -1 else if x = 0 then 0 else 1

/-- A row-wise penalty: its row update, with feasibility penalty and auxiliary row. -/
abbrev RowUpdate (n : ℕ) := (Fin n → ℝ) → ℝ → (Fin n → ℝ) → Fin n → ℝ

/-- A matrix-wise penalty: its matrix update. -/
abbrev MatUpdate (m n : ℕ) := Matrix (Fin m) (Fin n) ℝ → ℝ → Matrix (Fin m) (Fin n) ℝ → Matrix (Fin m) (Fin n) ℝ

/-- `RowVectorPenalty.factor_matrix_update` (lines 441-446): the row update for each row. -/
def matrixFromRows {n : ℕ} (f : RowUpdate n) {m : ℕ} : MatUpdate m n := fun X ρ aux i => f (X i) ρ (aux i)

/-- `MatrixPenalty.factor_matrices_update` (lines 405-408): Python's `zip` stops at the shortest list. -/
def matricesUpdate {α β γ δ : Type} (f : α → β → γ → δ) (fms : List α) (ρs : List β) (auxes : List γ) : List δ :=
  ((fms.zip ρs).zip auxes).map fun x => f x.1.1 x.1.2 x.2

/-! ### Non-negativity (lines 488-508) -/

/-- `NonNegativity.factor_matrix_row_update` (line 504). -/
def nonNegRow (n : ℕ) : RowUpdate n := fun x _ _ r => clip (some 0) none (x r)

/-- `NonNegativity.factor_matrix_update` (line 508). -/
def nonNegMat (m n : ℕ) : MatUpdate m n := fun X _ _ i r => clip (some 0) none (X i r)

/-- `HardConstraintMixin.penalty` (line 485). -/
def hardPenalty {α : Type} (_ : α) : ℝ := 0

/-! ### Box (lines 511-542) -/

/-- `Box.factor_matrix_row_update` (line 538). -/
def boxRow (lo hi : Option ℝ) (n : ℕ) : RowUpdate n := fun x _ _ r => clip lo hi (x r)

/-- `Box.factor_matrix_update` (line 542). -/
def boxMat (lo hi : Option ℝ) (m n : ℕ) : MatUpdate m n := fun X _ _ i r => clip lo hi (X i r)

/-! ### L1 (lines 545-592) -/

/-- The check in `L1Penalty.__init__` (lines 567-568). -/
noncomputable def l1Init (regStrength : ℝ) : Except PyErr ℝ :=
  if regStrength < 0 then .error .valueError else .ok regStrength

/-- `L1Penalty.factor_matrix_row_update` (lines 574-578). -/
noncomputable def l1Row (γ : ℝ) (nonNeg : Bool) (n : ℕ) : RowUpdate n := fun x ρ _ r =>
  if nonNeg then clip (some 0) none (x r - γ / ρ)
  else sgn (x r) * clip (some 0) none (|x r| - γ / ρ)

/-- `L1Penalty.factor_matrix_update` (lines 582-586). -/
noncomputable def l1Mat (γ : ℝ) (nonNeg : Bool) (m n : ℕ) : MatUpdate m n := fun X ρ _ i r =>
  if nonNeg then clip (some 0) none (X i r - γ / ρ)
  else sgn (X i r) * clip (some 0) none (|X i r| - γ / ρ)

/-- `L1Penalty.penalty` for a matrix (line 591). -/
def l1Penalty (γ : ℝ) {m n : ℕ} (X : Matrix (Fin m) (Fin n) ℝ) : ℝ := (∑ i, ∑ r, |X i r|) * γ

/-- `L1Penalty.penalty` for a list (line 592). -/
def l1PenaltyList (γ : ℝ) {I : ℕ} {J : Fin I → ℕ} {n : ℕ} (X : (i : Fin I) → Matrix (Fin (J i)) (Fin n) ℝ) : ℝ :=
  (∑ i, ∑ j, ∑ r, |X i j r|) * γ

/-! ### L2 ball (lines 844-925) -/

/-- The check in `L2Ball.__init__` (lines 916-917). -/
noncomputable def l2BallInit (bound : ℝ) : Except PyErr ℝ := if bound ≤ 0 then .error .valueError else .ok bound

/-- `L2Ball.factor_matrix_update` (lines 921-925). -/
noncomputable def l2BallMat (bound : ℝ) (nonNeg : Bool) (m n : ℕ) : MatUpdate m n := fun X _ _ =>
  let X : Matrix (Fin m) (Fin n) ℝ := fun i r => if nonNeg then clip (some 0) none (X i r) else X i r
  let norms : Fin n → ℝ := fun r => √(∑ i, X i r ^ 2)
  let norms : Fin n → ℝ := fun r => clip (some bound) none (norms r)
  fun i r => X i r * bound / norms r

/-! ### Unit simplex (lines 928-980) -/

/-- `tl.min` of a vector: ValueError when empty. -/
noncomputable def vecMin : List ℝ → Except PyErr ℝ
  | [] => .error .valueError
  | a :: l => .ok (l.foldl min a)

/-- `tl.max` of a vector. -/
noncomputable def vecMax : List ℝ → Except PyErr ℝ
  | [] => .error .valueError
  | a :: l => .ok (l.foldl max a)

/-- The loop of scipy's `bisect` (`scipy/optimize/Zeros/bisect.c`), with `fa`'s sign kept: `iter` iterations remain.
`f == 0` or a small step returns; otherwise RuntimeError when the iterations are used up. -/
noncomputable def bisectLoop (f : ℝ → ℝ) (xtol rtol : ℝ) (faNeg : Bool) : ℕ → ℝ → ℝ → Except PyErr ℝ
  | 0, _, _ => .error .runtimeError
  | iter + 1, xa, dm =>
    let dm := dm * (1 / 2)
    let xm := xa + dm
    let fm := f xm
    let xa := if decide (fm < 0) = faNeg then xm else xa
    if fm = 0 ∨ |dm| < xtol + rtol * |xm| then .ok xm
    else bisectLoop f xtol rtol faNeg iter xa dm

/-- `scipy.optimize.bisect(f, xa, xb)` with its default tolerances `xtol = 2e-12`, `rtol = 4 * 2⁻⁵²` and 100 iterations. -/
noncomputable def bisect (f : ℝ → ℝ) (xa xb : ℝ) : Except PyErr ℝ :=
  if f xa = 0 then .ok xa
  else if f xb = 0 then .ok xb
  else if decide (f xa < 0) = decide (f xb < 0) then .error .valueError
  else bisectLoop f (2 / 10 ^ 12) (4 / 2 ^ 52) (decide (f xa < 0)) 100 xa (xb - xa)

/-- The function `f` (lines 968-969) for one column. -/
noncomputable def simplexF {m : ℕ} (y : Fin m → ℝ) (μ : ℝ) : ℝ := (∑ i, clip (some 0) none (y i - μ)) - 1

/-- `_compute_lagrange_multiplier` (lines 958-971). -/
noncomputable def lagrange {m : ℕ} (y : Fin m → ℝ) : Except PyErr ℝ := do
  let minVal := (← vecMin (List.ofFn y)) - 1
  let maxVal ← vecMax (List.ofFn y)
  let minVal := minVal - 1 / 10 ^ 5
  let minVal := min (9 / 10 * minVal) (11 / 10 * minVal)
  let maxVal := maxVal + 1 / 10 ^ 5
  let maxVal := max (9 / 10 * maxVal) (11 / 10 * maxVal)
  bisect (simplexF y) minVal maxVal

/-- The loop of `UnitSimplex.factor_matrix_update` (lines 976-978) over the given columns. -/
noncomputable def simplexLoop {m n : ℕ} (X : Matrix (Fin m) (Fin n) ℝ) :
    List (Fin n) → Matrix (Fin m) (Fin n) ℝ → Except PyErr (Matrix (Fin m) (Fin n) ℝ)
  | [], out => .ok out
  | r :: rs, out => do
    let μ ← lagrange fun i => X i r
    simplexLoop X rs fun i r' => if r' = r then clip (some 0) none (X i r - μ) else out i r'

/-- `UnitSimplex.factor_matrix_update` (lines 975-980). -/
noncomputable def simplexMat {m n : ℕ} (X : Matrix (Fin m) (Fin n) ℝ) : Except PyErr (Matrix (Fin m) (Fin n) ℝ) :=
  simplexLoop X (List.finRange n) fun _ _ => 0

/-! ### Generalized L2 (lines 595-747) -/

/-- Output of an SVD function: `U` (m × k), `s` (k), `Vh` (k × n). -/
structure SVD (m k n : ℕ) where
  U : Matrix (Fin m) (Fin k) ℝ
  s : Fin k → ℝ
  Vh : Matrix (Fin k) (Fin n) ℝ

/-- Contract of the SVD functions. -/
structure SVD.Valid {m k n : ℕ} (d : SVD m k n) (M : Matrix (Fin m) (Fin n) ℝ) : Prop where
  eq : d.U * Matrix.diagonal d.s * d.Vh = M
  left : d.U.transpose * d.U = 1
  right : d.Vh * d.Vh.transpose = 1
  nonneg : ∀ i, 0 ≤ d.s i

/-- `GeneralizedL2Penalty.factor_matrix_update` (lines 733-737); `U`, `s` are those computed by `__init__` (line 725). -/
noncomputable def genL2Mat {m k : ℕ} (d : SVD m k m) (n : ℕ) : MatUpdate m n := fun X ρ _ =>
  let sAug : Fin k → ℝ := fun i => d.s i + 1 / 2 * ρ
  let tmp : Matrix (Fin m) (Fin n) ℝ := fun i r => 1 / 2 * ρ * X i r
  let tmp := d.U.transpose * tmp
  Matrix.of (fun i j => d.U i j * (1 / sAug j)) * tmp

/-- `GeneralizedL2Penalty._penalty` (line 740). -/
def genL2Penalty {m n : ℕ} (M : Matrix (Fin m) (Fin m) ℝ) (X : Matrix (Fin m) (Fin n) ℝ) : ℝ :=
  (X.transpose * M * X).trace

/-! ### Total variation (lines 750-841) -/

/-- The checks in `TotalVariationPenalty.__init__` (lines 807-815); `hasTV` says whether `condat_tv` is installed. -/
noncomputable def tvInit (hasTV : Bool) (α β : ℝ) : Except PyErr (ℝ × ℝ) :=
  if !hasTV then .error .moduleNotFoundError
  else if α ≤ 0 then .error .valueError
  else if β < 0 then .error .valueError
  else .ok (α, β)

/-- `TotalVariationPenalty.factor_matrix_update` (lines 822-828); `solver` is `condat_tv.tv_denoise_matrix`, which
treats every row of its argument separately. -/
noncomputable def tvMat {m n : ℕ} (solver : Matrix (Fin n) (Fin m) ℝ → ℝ → Matrix (Fin n) (Fin m) ℝ) (α β : ℝ) :
    MatUpdate m n := fun Y ρ _ =>
  let X := (solver Y.transpose (α * 2 / ρ)).transpose
  fun i r => if β ≠ 0 then sgn (X i r) * clip (some 0) none (|X i r| - β / ρ) else X i r

/-- `TotalVariationPenalty._penalty` (lines 831-834); `np.diff(x, axis=0)`. -/
noncomputable def tvPenalty {m n : ℕ} (α β : ℝ) (X : Matrix (Fin m) (Fin n) ℝ) : ℝ :=
  let p := α * ∑ i : Fin (m - 1), ∑ r, |X ⟨i + 1, by omega⟩ r - X ⟨i, by omega⟩ r|
  if β ≠ 0 then p + β * ∑ i, ∑ r, |X i r| else p

/-! ### PARAFAC2 (lines 1018-1324) -/

/-- Auxiliary variable of `Parafac2`: basis matrices and coordinate matrix. -/
structure P2Aux (I : ℕ) (J : Fin I → ℕ) (R : ℕ) where
  bases : (i : Fin I) → Matrix (Fin (J i)) (Fin R) ℝ
  coord : Matrix (Fin R) (Fin R) ℝ

/-- Update of the basis matrices (lines 1232-1235); `svd i M` is the result of `svd_fun(M, n_eigenvecs=R)`. -/
def p2Bases {I : ℕ} {J : Fin I → ℕ} {R : ℕ} (svd : (i : Fin I) → Matrix (Fin (J i)) (Fin R) ℝ → SVD (J i) R R)
    (X : (i : Fin I) → Matrix (Fin (J i)) (Fin R) ℝ) (coord : Matrix (Fin R) (Fin R) ℝ) :
    (i : Fin I) → Matrix (Fin (J i)) (Fin R) ℝ := fun i =>
  let d := svd i (X i * coord.transpose)
  d.U * d.Vh

/-- Update of the coordinate matrix (lines 1240-1245). -/
noncomputable def p2Coord {I : ℕ} {J : Fin I → ℕ} {R : ℕ} (X : (i : Fin I) → Matrix (Fin (J i)) (Fin R) ℝ) (ρ : Fin I → ℝ)
    (P : (i : Fin I) → Matrix (Fin (J i)) (Fin R) ℝ) : Matrix (Fin R) (Fin R) ℝ :=
  (1 / ∑ i, ρ i) • ∑ i, (ρ i • (P i).transpose) * X i

/-- `Parafac2.factor_matrices_update` (lines 1226-1250): `n` iterations remain. -/
noncomputable def p2Update {I : ℕ} {J : Fin I → ℕ} {R : ℕ}
    (svd : (i : Fin I) → Matrix (Fin (J i)) (Fin R) ℝ → SVD (J i) R R) (updBases updCoord : Bool)
    (X : (i : Fin I) → Matrix (Fin (J i)) (Fin R) ℝ) (ρ : Fin I → ℝ) : ℕ → P2Aux I J R → P2Aux I J R
  | 0, aux => aux
  | n + 1, aux =>
    let P := if updBases then p2Bases svd X aux.coord else aux.bases
    let D := if updCoord then p2Coord X ρ P else aux.coord
    if !updCoord || !updBases then ⟨P, D⟩ else p2Update svd updBases updCoord X ρ n ⟨P, D⟩

/-- `Parafac2.auxes_as_matrices` (lines 1303-1304). -/
def p2Matrices {I : ℕ} {J : Fin I → ℕ} {R : ℕ} (aux : P2Aux I J R) : (i : Fin I) → Matrix (Fin (J i)) (Fin R) ℝ :=
  fun i => aux.bases i * aux.coord

/-- `Parafac2.subtract_from_auxes` (lines 1280-1281). -/
def p2Subtract {I : ℕ} {J : Fin I → ℕ} {R : ℕ} (aux : P2Aux I J R)
    (dual : (i : Fin I) → Matrix (Fin (J i)) (Fin R) ℝ) : (i : Fin I) → Matrix (Fin (J i)) (Fin R) ℝ :=
  fun i => aux.bases i * aux.coord - dual i

end Verif.Penalties
