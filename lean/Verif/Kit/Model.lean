import Verif.Penalties.Init
import Mathlib.Data.Real.Basic
import Mathlib.LinearAlgebra.Matrix.Defs

/-!
# Model of the test classes for penalties

`src/matcouply/testing/admm_penalty.py`. A test is the proposition that the method returns without an exception; the values drawn by the fixtures
and the generators of a subclass are arguments. Every test makes its own penalty object with the keyword arguments of the class, so a class under test
is given by the functions of that object. The random state is shared by the calls of one test: call `k` of a test has its own draws, so the functions
that draw depend on `k`. Not modelled: the parametrisation over names that a test does not use, the single-precision tolerance (`rtol`, lines 30-34, is an
argument), and the shape of stacked rows (`get_invariant_matrix` lines 515-516 stacks arrays of shape 1 × n in `tests/test_penalties.py`, here rows of length n).
-/

namespace Verif.Kit

open Verif.CMF Verif.Penalties

/-! ### Initialisation -/

section
variable {K : Type}

/-- `penalty.init_aux(matrices, rank, mode, random_state)` or `penalty.init_dual(...)` of a penalty constructed with `aux_init` or `dual_init` equal to the
first argument. The data matrices enter through their shapes. -/
abbrev InitFn (K : Type) := InitVal K → List (ℕ × ℕ) → PyInt → PyInt → Except PyErr (InitRes K)

/-- `assert init_matrix.shape[0] == m`, `assert init_matrix.shape[1] == rank` and the assertion about all entries. -/
def CheckMatrix (P : K → Prop) (t : NDArray K) (m R : ℕ) : Prop :=
  t.shape[0]? = some m ∧ t.shape[1]? = some R ∧ ∀ idx, List.Forall₂ (· < ·) idx t.shape → P (t.get idx)

/-- `test_uniform_init_aux` (lines 54-77), `test_standard_normal_init_aux` (79-98), `test_zeros_init_aux` (100-120) and those for `init_dual` (218-286):
`s` is the scheme and `P` what is asserted about the entries. In mode 1 the loop is over `zip(init_matrices, shapes)`. -/
def TestNamed (f : ℕ → InitFn K) (s : String) (P : K → Prop) (shapes : List (ℕ × ℕ)) (R : ℕ) : Prop :=
  (∃ t, f 0 (.str s) shapes (.int R) (.int 0) = .ok (.tensor t) ∧ CheckMatrix P t shapes.length R) ∧
  (∃ l, f 1 (.str s) shapes (.int R) (.int 1) = .ok (.list l) ∧ ∀ x ∈ l.zip shapes, ∃ t, x.1 = .tensor t ∧ CheckMatrix P t x.2.1 R) ∧
  ∃ t, f 2 (.str s) shapes (.int R) (.int 2) = .ok (.tensor t) ∧ ∃ m, shapes.head? = some m ∧ CheckMatrix P t m.2 R

/-- `test_given_init_aux` (lines 122-138), `test_given_init_dual` (288-303): `assert_array_equal` of what was given and what is returned. In mode 1 the loop is
over `zip(B_is, dual_B_is)`. -/
def TestGiven (f : ℕ → InitFn K) (A : NDArray K) (Bs : List (NDArray K)) (C : NDArray K) (shapes : List (ℕ × ℕ)) (R : ℕ) : Prop :=
  f 0 (.tensor A) shapes (.int R) (.int 0) = .ok (.tensor A) ∧
  f 1 (.tensor C) shapes (.int R) (.int 2) = .ok (.tensor C) ∧
  ∃ l, f 2 (.list (Bs.map .tensor)) shapes (.int R) (.int 1) = .ok (.list l) ∧ ∀ x ∈ Bs.zip l, x.2 = .tensor x.1

/-- `test_rank_and_mode_validation_for_init_aux` (lines 140-156, always with zeros), `..._init_dual` (347-367): `pytest.raises`. -/
def TestRankMode (f : ℕ → InitFn K) (s : String) (shapes : List (ℕ × ℕ)) (R : ℕ) : Prop :=
  f 0 (.str s) shapes (.int R) .notInt = .error .typeError ∧
  f 1 (.str s) shapes .notInt (.int 0) = .error .typeError ∧
  f 2 (.str s) shapes (.int R) (.int (-1)) = .error .valueError ∧
  f 3 (.str s) shapes (.int R) (.int 3) = .error .valueError

/-- `test_validating_given_init_aux` (lines 158-198), `test_validating_given_init_dual` (305-345). `A'`, `C'` have one row too many, `Bs'` has one row too many in
its first matrix. -/
def TestValidating (f : ℕ → InitFn K) (A A' : NDArray K) (Bs Bs' : List (NDArray K)) (C' : NDArray K) (shapes : List (ℕ × ℕ)) (R : ℕ) : Prop :=
  f 0 (.tensor A') shapes (.int R) (.int 0) = .error .valueError ∧
  f 1 (.tensor C') shapes (.int R) (.int 2) = .error .valueError ∧
  f 2 (.list (Bs'.map .tensor)) shapes (.int R) (.int 1) = .error .valueError ∧
  f 3 (.list ((Bs ++ Bs).map .tensor)) shapes (.int R) (.int 1) = .error .valueError ∧
  f 4 (.list (Bs.map .tensor)) shapes (.int R) (.int 0) = .error .typeError ∧
  f 5 (.list (Bs.map .tensor)) shapes (.int R) (.int 2) = .error .typeError ∧
  f 6 (.tensor A) shapes (.int R) (.int 1) = .error .typeError

/-- `test_input_validation_for_init_aux` (lines 200-216), `test_input_validation_init_dual` (369-385): `for mode in range(2)`. The three invalid values are all
`other`. -/
def TestInput (f : ℕ → InitFn K) (shapes : List (ℕ × ℕ)) (R : ℕ) : Prop :=
  (∀ i < 3, ∀ mode < 2, f (2 * i + mode) .other shapes (.int R) (.int (mode : ℕ)) = .error .typeError) ∧
  ∀ mode < 2, f (6 + mode) (.str "invalid init name") shapes (.int R) (.int (mode : ℕ)) = .error .valueError

end

/-! ### Updates -/

/-- A matrix with `n` columns. -/
structure Mat (n : ℕ) where
  rows : ℕ
  val : Matrix (Fin rows) (Fin n) ℝ

variable {n : ℕ}

/-- The functions of a penalty object that the tests call, on matrices with `n` columns. `None` stands for the current auxiliary variables. -/
structure Tested (n : ℕ) where
  mats : List (Mat n) → List ℝ → List (Option (Mat n)) → Except PyErr (List (Mat n))
  mat : Mat n → ℝ → Option (Mat n) → Except PyErr (Mat n)
  row : (Fin n → ℝ) → ℝ → Option (Fin n → ℝ) → Except PyErr (Fin n → ℝ)
  valueMats : List (Mat n) → ℝ
  valueMat : Mat n → ℝ
  valueRow : (Fin n → ℝ) → ℝ
  sub : Mat n → Mat n → Except PyErr (Mat n)
  subs : List (Mat n) → List (Mat n) → Except PyErr (List (Mat n))
  asMat : Mat n → Except PyErr (Mat n)
  asMats : List (Mat n) → Except PyErr (List (Mat n))

/-- The class attributes (lines 18-34). -/
structure Cfg where
  minRows : ℕ := 1
  maxRows : ℕ := 10
  minColumns : ℕ := 1
  maxColumns : ℕ := 10
  minMatrices : ℕ := 1
  maxMatrices : ℕ := 10
  atol : ℝ := 1 / 10 ^ 10
  rtol : ℝ := 1 / 10 ^ 6

/-- The shape of a matrix drawn by the fixtures (lines 41-45, 423-435, 477-489). -/
def Cfg.Draws (c : Cfg) (X : Mat n) : Prop := (c.minRows ≤ X.rows ∧ X.rows ≤ c.maxRows) ∧ c.minColumns ≤ n ∧ n ≤ c.maxColumns

/-- A list of matrices drawn by `invariant_matrices` and `non_invariant_matrices` (lines 423-435); `random_matrices` (lines 47-52) draws the number of rows
once. -/
def Cfg.DrawsList (c : Cfg) (Xs : List (Mat n)) : Prop := (c.minMatrices ≤ Xs.length ∧ Xs.length ≤ c.maxMatrices) ∧ ∀ X ∈ Xs, c.Draws X

/-- `numpy.testing.assert_allclose(actual, desired, rtol, atol)` (lines 12-13): the same shape and `|actual - desired| ≤ atol + rtol * |desired|`. -/
def AssertClose (c : Cfg) (actual desired : Mat n) : Prop :=
  ∃ h : actual.rows = desired.rows, ∀ i r, |actual.val i r - desired.val (Fin.cast h i) r| ≤ c.atol + c.rtol * |desired.val (Fin.cast h i) r|

/-- `np.allclose(a, b, rtol, atol)` for arrays of the same shape. -/
def AllClose (c : Cfg) (a b : Mat n) (h : a.rows = b.rows) : Prop :=
  ∀ i r, |a.val i r - b.val (Fin.cast h i) r| ≤ c.atol + c.rtol * |b.val (Fin.cast h i) r|

/-- `assert not np.allclose(out, non_invariant, rtol, atol)`. Arrays with different numbers of rows are compared if one of them has a single row; that case is taken as
a failure of the test, as is the ValueError in the other cases. -/
def AssertNotClose (c : Cfg) (out X : Mat n) : Prop := ∃ h : out.rows = X.rows, ¬ AllClose c out X h

/-- The same for rows, which have the same length. -/
def CloseRow (c : Cfg) (a b : Fin n → ℝ) : Prop := ∀ r, |a r - b r| ≤ c.atol + c.rtol * |b r|

/-- `[10] * len(matrices)` and `[None] * len(matrices)`. -/
def tens (Xs : List (Mat n)) : List ℝ := List.replicate Xs.length 10

def nones (Xs : List (Mat n)) : List (Option (Mat n)) := List.replicate Xs.length none

/-- `test_factor_matrices_update_invariant_point` (lines 437-444): the loop is over `zip(invariant_matrices, out)`. -/
def TestMatsInvariant (c : Cfg) (p : Tested n) (Xs : List (Mat n)) : Prop :=
  ∃ out, p.mats Xs (tens Xs) (nones Xs) = .ok out ∧ ∀ x ∈ Xs.zip out, AssertClose c x.1 x.2

/-- `test_factor_matrices_update_changes_input` (lines 446-453). -/
def TestMatsChanges (c : Cfg) (p : Tested n) (Xs : List (Mat n)) : Prop :=
  ∃ out, p.mats Xs (tens Xs) (nones Xs) = .ok out ∧ ∀ x ∈ Xs.zip out, AssertNotClose c x.2 x.1

/-- `test_factor_matrices_update_reduces_penalty` (lines 455-461). -/
def TestMatsReduces (p : Tested n) (Xs : List (Mat n)) : Prop :=
  ∃ out, p.mats Xs (tens Xs) (nones Xs) = .ok out ∧ p.valueMats out ≤ p.valueMats Xs

/-- `test_factor_matrix_update_invariant_point` (lines 491-495). -/
def TestMatInvariant (c : Cfg) (p : Tested n) (X : Mat n) : Prop := ∃ out, p.mat X 10 none = .ok out ∧ AssertClose c X out

/-- `test_factor_matrix_update_changes_input` (lines 497-501). -/
def TestMatChanges (c : Cfg) (p : Tested n) (X : Mat n) : Prop := ∃ out, p.mat X 10 none = .ok out ∧ AssertNotClose c out X

/-- `test_factor_matrix_update_reduces_penalty` (lines 503-508). -/
def TestMatReduces (p : Tested n) (X : Mat n) : Prop := ∃ out, p.mat X 10 none = .ok out ∧ p.valueMat out ≤ p.valueMat X

/-- `test_row_update_invariant_point` (lines 534-538). -/
def TestRowInvariant (c : Cfg) (p : Tested n) (x : Fin n → ℝ) : Prop := ∃ out, p.row x 10 none = .ok out ∧ CloseRow c x out

/-- `test_row_update_changes_input` (lines 540-544). -/
def TestRowChanges (c : Cfg) (p : Tested n) (x : Fin n → ℝ) : Prop := ∃ out, p.row x 10 none = .ok out ∧ ¬ CloseRow c out x

/-- `test_row_update_reduces_penalty` (lines 546-551). -/
def TestRowReduces (p : Tested n) (x : Fin n → ℝ) : Prop := ∃ out, p.row x 10 none = .ok out ∧ p.valueRow out ≤ p.valueRow x

/-- `MixinTestHardConstraint.test_penalty` (lines 554-561). -/
def TestHard (p : Tested n) (A : Mat n) (Bs : List (Mat n)) (C : Mat n) : Prop := p.valueMat A = 0 ∧ p.valueMats Bs = 0 ∧ p.valueMat C = 0

/-- `test_subtract_from_aux` and `test_subtract_from_auxes` (lines 390-399). -/
def TestSub (p : Tested n) (Xs : List (Mat n)) : Prop :=
  (∀ X ∈ Xs, ∃ Z, p.sub X X = .ok Z ∧ ∀ i r, Z.val i r = 0) ∧ ∃ Zs, p.subs Xs Xs = .ok Zs ∧ ∀ Z ∈ Zs, ∀ i r, Z.val i r = 0

/-- `test_aux_as_matrix` and `test_auxes_as_matrices` (lines 401-413). -/
def TestAs (p : Tested n) (X : Mat n) (Xs : List (Mat n)) : Prop :=
  p.asMat X = .ok X ∧ ∃ Zs, p.asMats Xs = .ok Zs ∧ Xs.length = Zs.length ∧ ∀ x ∈ Xs.zip Zs, x.1 = x.2

end Verif.Kit
