import Verif.Unimodal.Model

/-!
# Step counts of `src/matcouply/_unimodal_regression.py`

The functions of `Verif/Unimodal/Model.lean` with a counter. Every pass of a loop counts 1, and every entry written by the slice assignment of line 78 counts 1.
Operations on whole arrays of length `n` outside loops (lines 28-37, 44-45, 96, 104) are not counted: their number does not depend on the input.
-/

namespace Verif.Unimodal

variable {K : Type} [Zero K] [One K] [Add K] [Sub K] [Mul K] [Div K] [Pow K ℕ] [LE K] [LT K] [DecidableLE K] [DecidableLT K]

/-- The `while` loop, lines 53-55, with the number of passes. -/
def mergeLoopC (rnd : K → K) (n : ℕ) : ℕ → ℕ → PState K × ℕ → PState K × ℕ
  | 0, _, s => s
  | f + 1, i, (s, c) =>
    if s.level i ≤ s.level (predIdx n (s.idx i)) ∧ s.idx i ≠ 0 then
      let s' := mergeInto rnd i (s.idx i - 1) s
      mergeLoopC rnd n f i ({ s' with idx := Function.update s'.idx i (s'.idx (s'.idx i - 1)) }, c + 1)
    else (s, c)

/-- One pass of the `for` loop, lines 51-62, counted with the passes of its `while` loop. -/
def bodyC (rnd : K → K) (n : ℕ) (nn : Bool) (y cs : ℕ → K) (i : ℕ) (s0 : PState K × ℕ) : PState K × ℕ :=
  let r := mergeLoopC rnd n i i ({ s0.1 with level := Function.update s0.1.level i (y i), idx := Function.update s0.1.idx i i }, s0.2 + 1)
  let s := r.1
  let levelerror := s.sumwy2 i - s.sumwy i ^ 2 / s.sumw i
  if nn ∧ s.level i < 0 then
    ({ s with thr := Function.update s.thr i true, error := Function.update s.error (i + 1) (cs i) }, r.2)
  else
    ({ s with error := Function.update s.error (i + 1) (levelerror + s.error (s.idx i)) }, r.2)

/-- The loop over the samples, lines 50-62. -/
def runLoopC (rnd : K → K) (n : ℕ) (nn : Bool) (w y : ℕ → K) : ℕ → PState K × ℕ
  | 0 => (initState nn w y, 0)
  | k + 1 => bodyC rnd n nn y (cumsum fun j => w j * y j * y j) (k + 1) (runLoopC rnd n nn w y k)

/-- `prefix_isotonic_regression` (lines 27-69); the loop of lines 64-67 has `n` passes. -/
def prefixIsotonicC (rnd : K → K) (n : ℕ) (y : ℕ → K) (weights : Option (ℕ → K)) (nn : Bool) : Except PyErr (PrefixFit K × ℕ) :=
  if n = 0 then .error .indexError
  else
    let w := weights.getD fun _ => 1
    let r := runLoopC rnd n nn w y (n - 1)
    .ok ({ level := fun j => if nn ∧ r.1.thr j then 0 else r.1.level j, idx := r.1.idx, error := r.1.error }, r.2 + if nn then n else 0)

/-- `_compute_isotonic_from_index` (lines 73-81). -/
def isoLoopC (level : ℕ → K) (idx : ℕ → ℕ) : ℕ → ℕ → (ℕ → Option K) × ℕ → (ℕ → Option K) × ℕ
  | 0, _, out => out
  | f + 1, e, (out, c) =>
    if e = 0 then (out, c)
    else isoLoopC level idx f (idx (e - 1))
      (fun j => if idx (e - 1) ≤ j ∧ j ≤ e - 1 then some (level (e - 1)) else out j, c + 1 + (e - idx (e - 1)))

/-- `_get_best_unimodality_index` (lines 84-92). -/
def bestIndexC (errL errR : ℕ → K) (n : ℕ) : ℕ → (ℕ × K) × ℕ
  | 0 => ((0, errR n), 0)
  | k + 1 =>
    let b := bestIndexC errL errR n k
    let e := errL k + errR (n + 1 - k - 1)
    if e < b.1.2 then ((k, e), b.2 + 1) else (b.1, b.2 + 1)

/-- `_unimodal_regression` (lines 95-104). -/
def unimodalFibreC (rnd : K → K) (n : ℕ) (y : ℕ → K) (nn : Bool) : Except PyErr (((ℕ → Option K) × K) × ℕ) := do
  let left ← prefixIsotonicC rnd n y none nn
  let right ← prefixIsotonicC rnd n (fun j => y (n - 1 - j)) none nn
  let b := bestIndexC left.1.error right.1.error n (n + 1)
  let yl := isoLoopC left.1.level left.1.idx b.1.1 b.1.1 (fun _ => none, 0)
  let yr := isoLoopC right.1.level right.1.idx (n - b.1.1) (n - b.1.1) (fun _ => none, 0)
  return ((fun j => if j < b.1.1 then yl.1 j else yr.1 (n - b.1.1 - 1 - (j - b.1.1)), b.1.2), left.2 + right.2 + b.2 + yl.2 + yr.2)

/-- `unimodal_regression` for one-dimensional input (lines 132-134). -/
def unimodalRegression1C (rnd : K → K) {n : ℕ} (y : Fin n → K) (nn : Bool) : Except PyErr ((Fin n → Option K) × ℕ) := do
  let r ← unimodalFibreC rnd n (ext y) nn
  return (fun j => r.1.1 j, r.2)

/-- `unimodal_regression` for input with more than one mode (lines 136-141); every pass of the loop over the columns counts 1. -/
def unimodalRegressionNC (rnd : K → K) {n m : ℕ} {ι : Type} (flat : ι ≃ Fin m) (y : Fin n → ι → K) (nn : Bool) :
    Except PyErr ((Fin n → ι → Option K) × ℕ) :=
  if n = 0 ∨ m = 0 then .error .valueError
  else do
    let cols ← (List.finRange m).mapM fun r => unimodalRegression1C rnd (fun j => y j (flat.symm r)) nn
    return (fun j i => (cols[(flat i : ℕ)]?).bind fun c => c.1 j, (cols.map fun c => c.2 + 1).sum)

end Verif.Unimodal
