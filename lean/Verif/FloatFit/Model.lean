import Verif.Raise.Model
import Verif.Spec.FloatOrder
import Verif.Unimodal.Model

/-!
# Model of AO-ADMM with floating-point numbers

`src/matcouply/decomposition.py` lines 120-344, 906-1095. The numbers are of any type `K` with operations `+`, `-`, `*`, `/` about which nothing is assumed, so that rounding,
overflow and NaN are covered. Element-wise operations are those of the code. What is computed from many numbers — the feasibility penalties, the linear systems and their
solutions, norms, the multiplier of the simplex projection, the decisions to stop — is left open: any function, which may raise. What is fixed is the order of the updates, what they
read and write, and the element-wise parts of the penalties.
-/

namespace Verif.FloatFit

open Verif.Raise Verif.Spec Verif.Unimodal

/-- Arrays with two modes. -/
abbrev Mat (K : Type) (m n : ℕ) := Fin m → Fin n → K

/-- Lists of matrices with `R` columns. -/
abbrev Rag (K : Type) (I R : ℕ) (J : Fin I → ℕ) := (i : Fin I) → Mat K (J i) R

/-- `float("inf")` and `np.nan`. -/
class FloatConst (K : Type) [LE K] where
  inf : K
  nan : K
  le_inf : ∀ {x : K}, ¬ IsNaN x → x ≤ inf
  nan_isNaN : IsNaN nan

section
variable {K : Type} [Zero K] [LE K] [LT K] [DecidableLE K] [DecidableLT K]

/-- The larger number in `np.clip` with two bounds, `npy_isnan(x) ? x : (x > lo ? x : lo)`. -/
def clipMax (x lo : K) : K := if ¬ x ≤ x then x else if lo < x then x else lo

/-- The smaller number in `np.clip` with two bounds. -/
def clipMin (x hi : K) : K := if ¬ x ≤ x then x else if x < hi then x else hi

/-- `tl.clip`, that is `np.clip`, for one entry: with one bound it is `np.maximum` or `np.minimum`, which are `(x >= lo || npy_isnan(x)) ? x : lo` and
`(x <= hi || npy_isnan(x)) ? x : hi`. -/
def clipF : Option K → Option K → K → K
  | none, none, x => x
  | some lo, none, x => if lo ≤ x ∨ ¬ x ≤ x then x else lo
  | none, some hi, x => if x ≤ hi ∨ ¬ x ≤ x then x else hi
  | some lo, some hi, x => clipMin (clipMax x lo) hi

end

/-! ### Penalties -/

/-- The penalties of `penalties.py` with an element-wise constraint: `NonNegativity` (488-508), `Box` (511-542), `L1Penalty` (545-592), `L2Ball` (844-925),
`UnitSimplex` (928-980), `Unimodality` (983-1032). `sgn` and `abs` are `tl.sign` and `tl.abs`, `norm` is the norm of a column (line 923), `mult` is
`_compute_lagrange_multiplier` (943-972) of a column. -/
inductive ElemPen (K : Type)
  | nonNeg
  | box (lo hi : Option K)
  | l1 (γ : K) (nonNeg : Bool) (sgn abs : K → K)
  | l2Ball (b : K) (nonNeg : Bool) (norm : (m : ℕ) → (Fin m → K) → K)
  | simplex (mult : (m : ℕ) → (Fin m → K) → Except PyErr K)
  | unimodal (nonNeg : Bool)

section
variable {K : Type} [Zero K] [One K] [Add K] [Sub K] [Mul K] [Div K] [Pow K ℕ] [LE K] [LT K] [DecidableLE K] [DecidableLT K] [FloatConst K]

/-- One entry of the update of the L1 penalty (lines 573-586). -/
def l1F (γ : K) (nn : Bool) (sgn abs : K → K) (ρ x : K) : K :=
  if nn then clipF (some 0) (some FloatConst.inf) (x - γ / ρ)
  else sgn x * clipF (some 0) (some FloatConst.inf) (abs x - γ / ρ)

/-- `factor_matrix_update`. -/
def ElemPen.mat {m n : ℕ} : ElemPen K → Mat K m n → K → Mat K m n → Except PyErr (Mat K m n)
  | .nonNeg, X, _, _ => .ok fun i r => clipF (some 0) (some FloatConst.inf) (X i r)
  | .box lo hi, X, _, _ => .ok fun i r => clipF lo hi (X i r)
  | .l1 γ nn sgn abs, X, ρ, _ => .ok fun i r => l1F γ nn sgn abs ρ (X i r)
  | .l2Ball b nn norm, X, _, _ =>
    let Y : Mat K m n := if nn then fun i r => clipF (some 0) (some FloatConst.inf) (X i r) else X
    .ok fun i r => Y i r * b / clipF (some b) (some FloatConst.inf) (norm m fun k => Y k r)
  | .simplex mult, X, _, _ =>
    match seqPi n fun r => mult m fun i => X i r with
    | .error e => .error e
    | .ok μ => .ok fun i r => clipF (some 0) none (X i r - μ r)
  | .unimodal nn, X, _, _ => (unimodalRegressionN id (Equiv.refl (Fin n)) X nn).map fun Z i r => (Z i r).getD FloatConst.nan

/-- `factor_matrix_row_update`, for the subclasses of `RowVectorPenalty`. -/
def ElemPen.row {n : ℕ} : ElemPen K → Option ((Fin n → K) → K → (Fin n → K) → Except PyErr (Fin n → K))
  | .nonNeg => some fun x _ _ => .ok fun r => clipF (some 0) (some FloatConst.inf) (x r)
  | .box lo hi => some fun x _ _ => .ok fun r => clipF lo hi (x r)
  | .l1 γ nn sgn abs => some fun x ρ _ => .ok fun r => l1F γ nn sgn abs ρ (x r)
  | _ => none

end

/-- A penalty on mode 0. -/
structure FPenA (K : Type) (I R : ℕ) where
  mat : Mat K I R → K → Mat K I R → Except PyErr (Mat K I R)
  row : Option ((Fin R → K) → K → (Fin R → K) → Except PyErr (Fin R → K))

/-- Auxiliary variables on mode 1: a list of matrices, or something else (bases and coordinate matrix for PARAFAC2). -/
inductive FAuxB (K α : Type) (I R : ℕ) (J : Fin I → ℕ)
  | mats (X : Rag K I R J)
  | other (a : α)

/-- A penalty on mode 1: `factor_matrices_update` and `subtract_from_auxes`. -/
structure FPenB (K α : Type) (I R : ℕ) (J : Fin I → ℕ) where
  update : Rag K I R J → (Fin I → K) → FAuxB K α I R J → Except PyErr (FAuxB K α I R J)
  subtract : FAuxB K α I R J → Rag K I R J → Rag K I R J

/-- A penalty on mode 2. -/
structure FPenC (K : Type) (L R : ℕ) where
  mat : Mat K L R → K → Mat K L R → Except PyErr (Mat K L R)

/-- `MatrixPenalty.factor_matrices_update` (`penalties.py` lines 405-408). -/
def FPenB.ofMat {K α : Type} [Sub K] {I R : ℕ} {J : Fin I → ℕ} (toMats : α → Rag K I R J)
    (u : (i : Fin I) → Mat K (J i) R → K → Mat K (J i) R → Except PyErr (Mat K (J i) R)) : FPenB K α I R J where
  update X ρ aux :=
    let Z := match aux with
      | .mats Z => Z
      | .other a => toMats a
    match seqPi I fun i => u i (X i) (ρ i) (Z i) with
    | .error e => .error e
    | .ok Z => .ok (.mats Z)
  subtract aux dual :=
    let Z := match aux with
      | .mats Z => Z
      | .other a => toMats a
    fun i j r => Z i j r - dual i j r

section
variable {K : Type} [Zero K] [One K] [Add K] [Sub K] [Mul K] [Div K] [Pow K ℕ] [LE K] [LT K] [DecidableLE K] [DecidableLT K] [FloatConst K]

/-- The penalty `q` on mode 0. -/
def ElemPen.onA (q : ElemPen K) (I R : ℕ) : FPenA K I R := ⟨q.mat, q.row⟩

/-- The penalty `q` on mode 1 (one object for all matrices). -/
def ElemPen.onB {α : Type} {I R : ℕ} {J : Fin I → ℕ} (q : ElemPen K) (toMats : α → Rag K I R J) : FPenB K α I R J := .ofMat toMats fun _ => q.mat

/-- The penalty `q` on mode 2. -/
def ElemPen.onC (q : ElemPen K) (L R : ℕ) : FPenC K L R := ⟨q.mat⟩

end

/-! ### State and environment -/

/-- The factors. -/
structure FFact (K : Type) (I L R : ℕ) (J : Fin I → ℕ) where
  weights : Option (Fin R → K)
  A : Mat K I R
  B : Rag K I R J
  C : Mat K L R

/-- Factor, auxiliary and dual variables of mode 0 or 2 in an inner loop. -/
structure FMatState (K : Type) (m R n : ℕ) where
  x : Mat K m R
  aux : Fin n → Mat K m R
  dual : Fin n → Mat K m R

/-- The same for mode 1. -/
structure FRagState (K α : Type) (I R n : ℕ) (J : Fin I → ℕ) where
  x : Rag K I R J
  aux : Fin n → FAuxB K α I R J
  dual : Fin n → Rag K I R J

/-- The state of the outer loop. -/
structure FState (K α : Type) (I L R nA nB nC : ℕ) (J : Fin I → ℕ) where
  F : FFact K I L R J
  auxA : Fin nA → Mat K I R
  dualA : Fin nA → Mat K I R
  auxB : Fin nB → FAuxB K α I R J
  dualB : Fin nB → Rag K I R J
  auxC : Fin nC → Mat K L R
  dualC : Fin nC → Mat K L R

/-- What is left open. `prepA` is everything before the inner loop of `admm_update_A` (lines 137-172): the feasibility penalties, their maximum if they are constant, and
the function that solves the linear systems for the differences of auxiliary and dual variables (lines 183-195); similarly `prepB` (lines 238-255) and `prepC` (lines 309-322).
`stopA`, `stopB`, `stopC` are `_check_inner_convergence` (lines 64-117). `observe` is everything after the updates of an iteration (lines 989-1056): it remembers what it
wants, gets the state before the A-update and the one after it, and decides whether to stop. -/
structure Env (K α μ : Type) (I L R nA nB nC : ℕ) (J : Fin I → ℕ) where
  pensA : Fin nA → FPenA K I R
  pensB : Fin nB → FPenB K α I R J
  pensC : Fin nC → FPenC K L R
  prepA : FFact K I L R J → Except PyErr ((Option K × (Fin I → K)) × ((Fin nA → Mat K I R) → Except PyErr (Mat K I R)))
  prepB : FFact K I L R J → Except PyErr ((Fin I → K) × ((Fin nB → Rag K I R J) → Except PyErr (Rag K I R J)))
  prepC : FFact K I L R J → Except PyErr (K × ((Fin nC → Mat K L R) → Except PyErr (Mat K L R)))
  stopA : FMatState K I R nA → FMatState K I R nA → Bool
  stopB : FRagState K α I R nB J → FRagState K α I R nB J → Bool
  stopC : FMatState K L R nC → FMatState K L R nC → Bool
  observe : μ → FState K α I L R nA nB nC J → FState K α I L R nA nB nC J → Except PyErr (μ × Bool)
  nInner : ℕ
  updA : Bool
  updB : Bool
  updC : Bool

/-! ### The updates -/

section
variable {K α μ : Type} [Add K] [Sub K] {I L R n nA nB nC : ℕ} {J : Fin I → ℕ}

/-- Update of the auxiliary variable of one penalty in mode 0 (lines 197-211). -/
def auxAF (pen : FPenA K I R) (ρmax : Option K) (ρ : Fin I → K) (Y aux : Mat K I R) : Except PyErr (Mat K I R) :=
  match ρmax, pen.row with
  | some m, _ => pen.mat Y m aux
  | none, some u => seqPi I fun i => u (Y i) (ρ i) (aux i)
  | none, none => seqPi I fun _ => .error .attributeError

/-- One inner iteration of `admm_update_A` (lines 177-213). -/
def stepAF (pens : Fin n → FPenA K I R) (ρmax : Option K) (ρ : Fin I → K) (solve : (Fin n → Mat K I R) → Except PyErr (Mat K I R))
    (s : FMatState K I R n) : Except PyErr (FMatState K I R n) :=
  match solve fun p i r => s.aux p i r - s.dual p i r with
  | .error e => .error e
  | .ok x =>
    match seqPi n fun p => auxAF (pens p) ρmax ρ (fun i r => x i r + s.dual p i r) (s.aux p) with
    | .error e => .error e
    | .ok aux => .ok ⟨x, aux, fun p i r => x i r - (aux p i r - s.dual p i r)⟩

/-- One inner iteration of `admm_update_B` (lines 260-285). -/
def stepBF (pens : Fin n → FPenB K α I R J) (ρ : Fin I → K) (solve : (Fin n → Rag K I R J) → Except PyErr (Rag K I R J))
    (s : FRagState K α I R n J) : Except PyErr (FRagState K α I R n J) :=
  match solve fun p => (pens p).subtract (s.aux p) (s.dual p) with
  | .error e => .error e
  | .ok x =>
    match seqPi n fun p => (pens p).update (fun i j r => x i j r + s.dual p i j r) ρ (s.aux p) with
    | .error e => .error e
    | .ok aux => .ok ⟨x, aux, fun p i j r => x i j r - (pens p).subtract (aux p) (s.dual p) i j r⟩

/-- One inner iteration of `admm_update_C` (lines 326-338). -/
def stepCF (pens : Fin n → FPenC K L R) (ρ : K) (solve : (Fin n → Mat K L R) → Except PyErr (Mat K L R))
    (s : FMatState K L R n) : Except PyErr (FMatState K L R n) :=
  match solve fun p i r => s.aux p i r - s.dual p i r with
  | .error e => .error e
  | .ok x =>
    match seqPi n fun p => (pens p).mat (fun i r => x i r + s.dual p i r) ρ (s.aux p) with
    | .error e => .error e
    | .ok aux => .ok ⟨x, aux, fun p i r => x i r - (aux p i r - s.dual p i r)⟩

/-- The B-update of an iteration (lines 222-292, 948-961). -/
def sweepBF (E : Env K α μ I L R nA nB nC J) (s : FState K α I L R nA nB nC J) : Except PyErr (FState K α I L R nA nB nC J) :=
  if E.updB then
    match E.prepB s.F with
    | .error e => .error e
    | .ok (ρ, solve) =>
      (innerLoopR (stepBF E.pensB ρ solve) E.stopB E.nInner ⟨s.F.B, s.auxB, s.dualB⟩).map fun t =>
        { s with F := ⟨none, s.F.A, t.x, s.F.C⟩, auxB := t.aux, dualB := t.dual }
  else .ok s

/-- The C-update of an iteration (lines 295-344, 962-974). -/
def sweepCF (E : Env K α μ I L R nA nB nC J) (s : FState K α I L R nA nB nC J) : Except PyErr (FState K α I L R nA nB nC J) :=
  if E.updC then
    match E.prepC s.F with
    | .error e => .error e
    | .ok (ρ, solve) =>
      (innerLoopR (stepCF E.pensC ρ solve) E.stopC E.nInner ⟨s.F.C, s.auxC, s.dualC⟩).map fun t =>
        { s with F := ⟨none, s.F.A, s.F.B, t.x⟩, auxC := t.aux, dualC := t.dual }
  else .ok s

/-- The A-update of an iteration (lines 120-219, 975-988). -/
def sweepAF (E : Env K α μ I L R nA nB nC J) (s : FState K α I L R nA nB nC J) : Except PyErr (FState K α I L R nA nB nC J) :=
  if E.updA then
    match E.prepA s.F with
    | .error e => .error e
    | .ok (ρ, solve) =>
      (innerLoopR (stepAF E.pensA ρ.1 ρ.2 solve) E.stopA E.nInner ⟨s.F.A, s.auxA, s.dualA⟩).map fun t =>
        { s with F := ⟨none, t.x, s.F.B, s.F.C⟩, auxA := t.aux, dualA := t.dual }
  else .ok s

/-- The updates of one iteration: the state before the A-update and the one after it (lines 946-988). -/
def sweepF (E : Env K α μ I L R nA nB nC J) (s : FState K α I L R nA nB nC J) :
    Except PyErr (FState K α I L R nA nB nC J × FState K α I L R nA nB nC J) :=
  match sweepBF E s with
  | .error e => .error e
  | .ok t =>
    match sweepCF E t with
    | .error e => .error e
    | .ok u => (sweepAF E u).map fun v => (u, v)

/-- The outer loop (lines 945-1059). -/
def runF (E : Env K α μ I L R nA nB nC J) : ℕ → μ → FState K α I L R nA nB nC J → Except PyErr (μ × FState K α I L R nA nB nC J)
  | 0, m, s => .ok (m, s)
  | n + 1, m, s =>
    match sweepF E s with
    | .error e => .error e
    | .ok (u, v) =>
      match E.observe m u v with
      | .error e => .error e
      | .ok (m', true) => .ok (m', v)
      | .ok (m', false) => runF E n m' v

end

end Verif.FloatFit
