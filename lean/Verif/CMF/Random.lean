import Mathlib.Analysis.Real.Sqrt
import Verif.CMF.Model

/-!
# Model of `random.py`

The random state is an abstract state machine: `sample s m n` returns the entries of `random_sample((m, n))` drawn in
state `s`, and the next state (external contract: entries are in `[0, 1)`).
-/

namespace Verif.CMF

/-- A source of random matrices. -/
structure Sampler (S : Type) where
  sample : S → ℕ → ℕ → NDArray ℝ × S
  shape : ∀ s m n, (sample s m n).1.shape = [m, n]

variable {S : Type}

/-- `[random_sample((j_i, rank)) for j_i, k in shapes]` (line 42). -/
noncomputable def drawBs (g : Sampler S) (rank : ℕ) : S → List (ℕ × ℕ) → List (NDArray ℝ) × S
  | s, [] => ([], s)
  | s, (j, _) :: shapes =>
    let (B, s) := g.sample s j rank
    let (Bs, s) := drawBs g rank s shapes
    (B :: Bs, s)

/-- `tl.norm(M, axis=0)`: Euclidean norm of every column. -/
noncomputable def colNorms (M : NDArray ℝ) : NDArray ℝ :=
  .mk1 (M.shape.getD 1 0) fun r => √(∑ j ∈ Finset.range (M.shape.getD 0 0), M.get [j, r] ^ 2)

/-- `M / v`, a matrix divided by a vector along the rows. numpy gives nan/inf for a zero divisor, the model 0: every
theorem about the quotient assumes nonzero divisors. -/
noncomputable def divRow (M v : NDArray ℝ) : NDArray ℝ :=
  .mk2 (M.shape.getD 0 0) (M.shape.getD 1 0) fun i r => M.get [i, r] / v.get [r]

/-- `tl.stack(vectors)`. ValueError for an empty list; the lengths always agree here. -/
noncomputable def stack : List (NDArray ℝ) → Except PyErr (NDArray ℝ)
  | [] => .error .valueError
  | v :: l => .ok (.mk2 (l.length + 1) (v.shape.getD 0 0) fun i r => ((v :: l).getD i v).get [r])

/-- `M * N` for two matrices of the same shape. -/
noncomputable def mulMat (M N : NDArray ℝ) : Except PyErr (NDArray ℝ) :=
  if M.shape = N.shape then .ok ⟨M.shape, fun idx => M.get idx * N.get idx⟩ else .error .valueError

/-- `shapes[0][1]` (line 43). -/
def numColumns : List (ℕ × ℕ) → Except PyErr ℕ
  | [] => .error .indexError
  | sh :: _ => .ok sh.2

/-- Lines 48-53: move the column norms of the B_i to A. -/
noncomputable def normaliseBs (A : NDArray ℝ) (Bs : List (NDArray ℝ)) : Except PyErr (NDArray ℝ × List (NDArray ℝ)) := do
  let norms := Bs.map colNorms
  let Bs := List.zipWith divRow Bs norms
  let A ← mulMat A (← stack norms)
  return (A, Bs)

/-- Lines 55-60: move the column norms of A and C to the weights. -/
noncomputable def normaliseAC (A C : NDArray ℝ) : Except PyErr (NDArray ℝ × NDArray ℝ × NDArray ℝ) := do
  let weights ← mulVec (colNorms A) (colNorms C)
  return (divRow A (colNorms A), divRow C (colNorms C), weights)

/-- `random_coupled_matrices` (`random.py` lines 37-66) with `full=False`. -/
noncomputable def randomCMF (g : Sampler S) (s : S) (shapes : List (ℕ × ℕ)) (rank : ℕ)
    (normaliseFactors normaliseB : Bool) : Except PyErr (Fact ℝ) := do
  -- lines 38-39; `all` of an empty sequence is true
  raiseIf (¬ ∀ sh ∈ shapes, sh.2 = (shapes.headD (0, 0)).2)
  let A := g.sample s shapes.length rank
  let Bs := drawBs g rank A.2 shapes
  let k ← numColumns shapes
  let C := g.sample Bs.2 k rank
  let AB ← (if normaliseFactors || normaliseB then normaliseBs A.1 Bs.1 else .ok (A.1, Bs.1) : Except PyErr _)
  let ACw ← (if normaliseFactors then normaliseAC AB.1 C.1 else .ok (AB.1, C.1, .mk1 rank fun _ => 1) : Except PyErr _)
  construct ⟨.tensor ACw.2.2, .tensor ACw.1, .list (AB.2.map .tensor), .tensor ACw.2.1⟩

/-- `random_coupled_matrices` with `full=True` (lines 63-64). -/
noncomputable def randomMatrices (g : Sampler S) (s : S) (shapes : List (ℕ × ℕ)) (rank : ℕ)
    (normaliseFactors normaliseB : Bool) : Except PyErr (List (NDArray ℝ)) := do
  toMatrices (← randomCMF g s shapes rank normaliseFactors normaliseB)

end Verif.CMF
