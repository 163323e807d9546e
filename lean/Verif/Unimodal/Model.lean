import Mathlib.Algebra.Order.Field.Basic
import Mathlib.Data.Fintype.Basic
import Verif.Py

/-!
# Model of `src/matcouply/_unimodal_regression.py`

Arrays of length `n` are functions `ℕ → K` of which only the entries below `n` are used; array assignments are
`Function.update`. All reads in the code are at indices below `n` (below `n + 1` for `error`).
The Python index `-1` (read, but never used, at line 53 when `index_range[i] = 0`) is the last entry.
-/

namespace Verif.Unimodal

/- `K` is any type of numbers with the operations that the code uses; nothing is assumed about them here. The real numbers give the exact model. Floating-point
numbers are a case as well: operations that round and overflow, and comparisons that fail for NaN (`Props/UnimodalFloat`). -/
variable {K : Type} [Zero K] [One K] [Add K] [Sub K] [Mul K] [Div K] [Pow K ℕ] [LE K] [LT K] [DecidableLE K] [DecidableLT K]

/-- The arrays that `prefix_isotonic_regression` mutates (`_unimodal_regression.py` lines 31-37, 45).
`sumwy`, `sumwy2`, `sumw`, `level_set`, `index_range`, `error`, `threshold`. -/
structure PState (K : Type) where
  sumwy : ℕ → K
  sumwy2 : ℕ → K
  sumw : ℕ → K
  level : ℕ → K
  idx : ℕ → ℕ
  error : ℕ → K
  thr : ℕ → Bool

/-- `_merge_intervals_inplace` (`_unimodal_regression.py` lines 15-21). `rnd` is the conversion applied when a
number is stored in `level_set`: the identity for a floating-point array, truncation towards zero for an integer
array (`level_set = np.zeros_like(y)`, line 35, has the dtype of `y`). -/
def mergeInto (rnd : K → K) (t m : ℕ) (s : PState K) : PState K :=
  { s with
    sumwy := Function.update s.sumwy t (s.sumwy t + s.sumwy m)
    sumwy2 := Function.update s.sumwy2 t (s.sumwy2 t + s.sumwy2 m)
    sumw := Function.update s.sumw t (s.sumw t + s.sumw m)
    level := Function.update s.level t (rnd ((s.sumwy t + s.sumwy m) / (s.sumw t + s.sumw m))) }

/-- The Python index `k - 1` into an array of length `n` (with `-1` meaning the last entry). -/
def predIdx (n k : ℕ) : ℕ := if k = 0 then n - 1 else k - 1

/-- The `while` loop, lines 53-55. The first argument is fuel; `mergeLoop_spec` in `Lemmas` shows that fuel `i` is
enough for the loop condition to be false at the end. -/
def mergeLoop (rnd : K → K) (n : ℕ) : ℕ → ℕ → PState K → PState K
  | 0, _, s => s
  | f + 1, i, s =>
    if s.level i ≤ s.level (predIdx n (s.idx i)) ∧ s.idx i ≠ 0 then
      let s' := mergeInto rnd i (s.idx i - 1) s
      mergeLoop rnd n f i { s' with idx := Function.update s'.idx i (s'.idx (s'.idx i - 1)) }
    else s

/-- `np.cumsum` (line 44). -/
def cumsum (x : ℕ → K) : ℕ → K
  | 0 => x 0
  | k + 1 => cumsum x k + x (k + 1)

/-- One pass of the `for` loop body, lines 51-62. `cs` is `cumsumwy2` (line 44), computed before the loop. -/
def body (rnd : K → K) (n : ℕ) (nn : Bool) (y cs : ℕ → K) (i : ℕ) (s0 : PState K) : PState K :=
  let s := mergeLoop rnd n i i
    { s0 with level := Function.update s0.level i (y i), idx := Function.update s0.idx i i }
  let levelerror := s.sumwy2 i - s.sumwy i ^ 2 / s.sumw i
  if nn ∧ s.level i < 0 then
    { s with thr := Function.update s.thr i true, error := Function.update s.error (i + 1) (cs i) }
  else
    { s with error := Function.update s.error (i + 1) (levelerror + s.error (s.idx i)) }

/-- The state before the loop, lines 28-48. -/
def initState (nn : Bool) (w y : ℕ → K) : PState K :=
  { sumwy := fun j => w j * y j
    sumwy2 := fun j => w j * y j * y j
    sumw := w
    level := Function.update (fun _ => 0) 0 (y 0)
    idx := fun _ => 0
    error := fun j => if nn ∧ y 0 < 0 ∧ j = 1 then cumsum (fun j => w j * y j * y j) 0 else 0
    thr := fun j => if nn ∧ y 0 < 0 ∧ j = 0 then true else false }

/-- The state after the loop has handled samples `1, ..., k` (lines 50-62). -/
def runLoop (rnd : K → K) (n : ℕ) (nn : Bool) (w y : ℕ → K) : ℕ → PState K
  | 0 => initState nn w y
  | k + 1 => body rnd n nn y (cumsum fun j => w j * y j * y j) (k + 1) (runLoop rnd n nn w y k)

/-- What `prefix_isotonic_regression` returns (line 69). -/
structure PrefixFit (K : Type) where
  level : ℕ → K
  idx : ℕ → ℕ
  error : ℕ → K

/-- `prefix_isotonic_regression` (lines 27-69). `y[0]` raises IndexError for an empty array. The final `for` loop
(lines 64-67) sets the thresholded levels to zero. -/
def prefixIsotonic (rnd : K → K) (n : ℕ) (y : ℕ → K) (weights : Option (ℕ → K)) (nn : Bool) :
    Except PyErr (PrefixFit K) :=
  if n = 0 then .error .indexError
  else
    let w := weights.getD fun _ => 1
    let s := runLoop rnd n nn w y (n - 1)
    .ok { level := fun j => if nn ∧ s.thr j then 0 else s.level j, idx := s.idx, error := s.error }

/-- `_compute_isotonic_from_index` (lines 73-81). `e` is `idx + 1`; NaN entries are `none`. The first argument is
fuel, `end_index` is enough because `index_range[k] ≤ k`. -/
def isoLoop (level : ℕ → K) (idx : ℕ → ℕ) : ℕ → ℕ → (ℕ → Option K) → (ℕ → Option K)
  | 0, _, out => out
  | f + 1, e, out =>
    if e = 0 then out
    else isoLoop level idx f (idx (e - 1))
      (fun j => if idx (e - 1) ≤ j ∧ j ≤ e - 1 then some (level (e - 1)) else out j)

/-- `_compute_isotonic_from_index` (lines 73-81): an array of length `end_index`. -/
def isoFromIndex (endIndex : ℕ) (level : ℕ → K) (idx : ℕ → ℕ) : ℕ → Option K :=
  isoLoop level idx endIndex endIndex fun _ => none

/-- `_get_best_unimodality_index` (lines 84-92) after the first `k` candidates; both arrays have length `n + 1`. -/
def bestIndex (errL errR : ℕ → K) (n : ℕ) : ℕ → ℕ × K
  | 0 => (0, errR n)
  | k + 1 =>
    let b := bestIndex errL errR n k
    let e := errL k + errR (n + 1 - k - 1)
    if e < b.2 then (k, e) else b

/-- `_unimodal_regression` (lines 95-104) on a vector of length `n`. Entries of the result are `none` for NaN. -/
def unimodalFibre (rnd : K → K) (n : ℕ) (y : ℕ → K) (nn : Bool) : Except PyErr ((ℕ → Option K) × K) := do
  let left ← prefixIsotonic rnd n y none nn
  let right ← prefixIsotonic rnd n (fun j => y (n - 1 - j)) none nn
  let b := bestIndex left.error right.error n (n + 1)
  let yl := isoFromIndex b.1 left.level left.idx
  let yr := isoFromIndex (n - b.1) right.level right.idx
  -- `np.concatenate([y_iso_left, y_iso_right[::-1]])`
  return (fun j => if j < b.1 then yl j else yr (n - b.1 - 1 - (j - b.1)), b.2)

/-- Extend a vector of length `n` to a function on `ℕ` (only entries below `n` are read). -/
def ext {n : ℕ} (y : Fin n → K) : ℕ → K := fun j => if h : j < n then y ⟨j, h⟩ else 0

/-- `unimodal_regression` for one-dimensional input (lines 132-134). -/
def unimodalRegression1 (rnd : K → K) {n : ℕ} (y : Fin n → K) (nn : Bool) : Except PyErr (Fin n → Option K) := do
  let r ← unimodalFibre rnd n (ext y) nn
  return fun j => r.1 j

/-- `unimodal_regression` for input with more than one mode (lines 136-141). `ι` indexes all modes but the first
and `flat` is the row-major numbering used by `reshape(y.shape[0], -1)`. `reshape(0, -1)` and `np.stack([])` raise
ValueError. -/
def unimodalRegressionN (rnd : K → K) {n m : ℕ} {ι : Type} (flat : ι ≃ Fin m) (y : Fin n → ι → K) (nn : Bool) :
    Except PyErr (Fin n → ι → Option K) :=
  if n = 0 ∨ m = 0 then .error .valueError
  else do
    let cols ← (List.finRange m).mapM fun r => unimodalRegression1 rnd (fun j => y j (flat.symm r)) nn
    return fun j i => (cols[(flat i : ℕ)]?).bind fun c => c j

end Verif.Unimodal
