import Verif.CMF.Random

/-!
# Model of `get_svd` (`_utils.py`), `testing/utils.py` and the factorization fixtures of `testing/fixtures.py`

`is_iterable` (`_utils.py` lines 6-12) is a case distinction on values and is modelled where it is used.
-/

namespace Verif.Utils

open Verif.CMF

/-! ### `get_svd` -/

/-- What TensorLy offers. `SVD_FUNS` is a dictionary from names to functions in old versions. In new versions it is a list of names, and the functions are attributes of the
module `tl.tenalg.svd`, beside all other attributes of this module. -/
inductive SvdFuns (F : Type) where
  | dict (d : List (String × F))
  | names (l : List String) (attr : String → Option F)

/-- `get_svd` (`_utils.py` lines 15-26) for a string. -/
def getSvd {F : Type} (t : SvdFuns F) (svd : String) : Except PyErr F :=
  match t with
  | .names _ attr =>
    match attr svd with
    | some f => .ok f
    | none => .error .valueError
  | .dict d =>
    match d.find? fun p => p.1 = svd with
    | some p => .ok p.2
    | none => .error .valueError

/-! ### Fixtures -/

/-- A random state: matrices of uniform numbers, Poisson numbers with a given mean, and integers from `lo` (included) to `hi` (excluded). -/
structure Rng (S : Type) where
  mats : Sampler S
  poisson : S → ℝ → ℕ × S
  randint : S → ℤ → ℤ → ℤ × S
  randint_mem : ∀ s lo hi, lo < hi → lo ≤ (randint s lo hi).1 ∧ (randint s lo hi).1 < hi

variable {S : Type}

/-- `random_length` (`testing/utils.py` lines 5-12). `round` of an integer is the integer. -/
noncomputable def randomLength (g : Rng S) (s : S) (min : ℤ) (mean : ℝ) : Except PyErr (ℤ × S) :=
  if mean ≤ min then .error .valueError else .ok (min + (g.poisson s (mean - min)).1, (g.poisson s (mean - min)).2)

/-- `tuple((random_length(rng, min, mean), K) for i in range(I))` (`testing/fixtures.py` lines 28 and 59). -/
noncomputable def lengths (g : Rng S) (min : ℤ) (mean : ℝ) (K : ℤ) : ℕ → S → Except PyErr (List (ℤ × ℤ) × S)
  | 0, s => .ok ([], s)
  | n + 1, s =>
    (randomLength g s min mean).bind fun (j, s) =>
    (lengths g min mean K n s).bind fun (l, s) => .ok ((j, K) :: l, s)

/-- `random_ragged_shapes` (lines 24-29), with the parameters of the row numbers (2 and 5 by default). -/
noncomputable def raggedShapes (g : Rng S) (s : S) (min : ℤ) (mean : ℝ) : Except PyErr (List (ℤ × ℤ) × S) :=
  (randomLength g s 2 5).bind fun (I, s) =>
  (randomLength g s 2 5).bind fun (K, s) => lengths g min mean K I.toNat s

/-- `random_regular_shapes` (lines 33-38). -/
noncomputable def regularShapes (g : Rng S) (s : S) : Except PyErr (List (ℤ × ℤ) × S) :=
  (randomLength g s 2 5).bind fun (I, s) =>
  (randomLength g s 2 5).bind fun (J, s) =>
  (randomLength g s 2 5).bind fun (K, s) => .ok (List.replicate I.toNat (J, K), s)

/-- `random_coupled_matrices(shapes, rank, random_state=rng)`: negative sizes raise ValueError in numpy, they do not occur here. -/
noncomputable def drawCMF (g : Rng S) (s : S) (shapes : List (ℤ × ℤ)) (rank : ℤ) : Except PyErr (Fact ℝ) :=
  if rank < 0 ∨ ∃ p ∈ shapes, p.1 < 0 ∨ p.2 < 0 then .error .valueError
  else randomCMF g.mats s (shapes.map fun p => (p.1.toNat, p.2.toNat)) rank.toNat true false

/-- `random_ragged_cmf` (lines 42-50). `min` of an empty sequence raises ValueError. -/
noncomputable def raggedCMF (g : Rng S) (s : S) : Except PyErr (Fact ℝ × List (ℤ × ℤ) × ℤ) :=
  (raggedShapes g s 2 5).bind fun (shapes, s) =>
  match (shapes.map Prod.fst).min? with
  | none => .error .valueError
  | some m =>
    if m + 1 ≤ 1 then .error .valueError
    else (drawCMF g (g.randint s 1 (m + 1)).2 shapes (g.randint s 1 (m + 1)).1).map fun c => (c, shapes, (g.randint s 1 (m + 1)).1)

/-- `random_rank5_ragged_cmf` (lines 54-62). -/
noncomputable def rank5CMF (g : Rng S) (s : S) : Except PyErr (Fact ℝ × List (ℤ × ℤ) × ℤ) :=
  (raggedShapes g s 5 7).bind fun (shapes, s) => (drawCMF g s shapes 5).map fun c => (c, shapes, 5)

/-- `random_regular_cmf` (lines 66-73). Indexing an empty tuple raises IndexError. -/
noncomputable def regularCMF (g : Rng S) (s : S) : Except PyErr (Fact ℝ × List (ℤ × ℤ) × ℤ) :=
  (regularShapes g s).bind fun (shapes, s) =>
  match shapes with
  | [] => .error .indexError
  | p :: _ =>
    if p.1 + 1 ≤ 1 then .error .valueError
    else (drawCMF g (g.randint s 1 (p.1 + 1)).2 shapes (g.randint s 1 (p.1 + 1)).1).map fun c => (c, shapes, (g.randint s 1 (p.1 + 1)).1)

end Verif.Utils
