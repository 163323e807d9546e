import Verif.Loop.Model

/-!
# Model of `initialize_cmf`

`src/matcouply/decomposition.py` lines 18-75, for data matrices, ranks and initial factors that fit together (the typed layer). The checks of the
constructor (C07) and the conversions (C10, C11) are modelled on dynamic values in `Verif/CMF`.
-/

namespace Verif.Loop

open Verif.ADMM Verif.Spec Finset

variable {I K R : ℕ} {J : Fin I → ℕ}

/-- A factorization with or without weights. -/
structure Start (I K R : ℕ) (J : Fin I → ℕ) where
  weights : Option (Fin R → ℝ)
  F : Factors I K R J

/-- The argument `init`: a given factorization (tuple, list or object), a known name, or another value. -/
inductive InitArg (I K R : ℕ) (J : Fin I → ℕ) where
  | given (s : Start I K R J)
  | random
  | svd
  | thresholdSvd
  | parafac2Als
  | cpAls
  | cpHals
  | other

/-- A CP tensor with factors for the padded tensor (`n` rows in the second mode). -/
structure CPTensor (I n K R : ℕ) where
  weights : Fin R → ℝ
  A : Matrix (Fin I) (Fin R) ℝ
  B : Matrix (Fin n) (Fin R) ℝ
  C : Matrix (Fin K) (Fin R) ℝ

/-- A PARAFAC2 tensor. -/
structure P2Tensor (I K R : ℕ) (J : Fin I → ℕ) where
  weights : Fin R → ℝ
  A : Matrix (Fin I) (Fin R) ℝ
  B : Matrix (Fin R) (Fin R) ℝ
  C : Matrix (Fin K) (Fin R) ℝ
  proj : (i : Fin I) → Matrix (Fin (J i)) (Fin R) ℝ

/-- What the code gets from outside: uniform draws, left singular vectors of the matrices, right singular vectors of the stacked matrices, and
the results of TensorLy's decompositions (`init_params` only enters there). The padded tensor has `n` rows. -/
structure InitExt (I K R : ℕ) (J : Fin I → ℕ) where
  n : ℕ
  fits : ∀ i, J i ≤ n
  draw : Factors I K R J
  left : (i : Fin I) → Matrix (Fin (J i)) (Fin R) ℝ
  rightT : Matrix (Fin K) (Fin R) ℝ
  parafac2 : P2Tensor I K R J
  cp : CPTensor I n K R
  hals : CPTensor I n K R

/-- `weights * A`. -/
def scaleCols (w : Fin R → ℝ) (A : Matrix (Fin I) (Fin R) ℝ) : Matrix (Fin I) (Fin R) ℝ := fun i r => w r * A i r

/-- `from_CPTensor` with the shapes of the matrices (`coupled_matrices.py` lines 101-151). -/
def CPTensor.toStart {n : ℕ} (c : CPTensor I n K R) (h : ∀ i, J i ≤ n) : Start I K R J :=
  ⟨some c.weights, c.A, fun i j => c.B (Fin.castLE (h i) j), c.C⟩

/-- `from_Parafac2Tensor` (`coupled_matrices.py` lines 153-172). -/
def P2Tensor.toStart (p : P2Tensor I K R J) : Start I K R J := ⟨some p.weights, p.A, fun i => p.proj i * p.B, p.C⟩

/-- `initialize_cmf` (lines 18-75). -/
noncomputable def initializeCmf (E : InitExt I K R J) : InitArg I K R J → Except PyErr (Start I K R J)
  | .given ⟨some w, F⟩ => .ok ⟨none, scaleCols w F.A, F.B, F.C⟩
  | .given ⟨none, F⟩ => .ok ⟨none, F⟩
  | .random => .ok ⟨none, E.draw⟩
  | .svd => .ok ⟨none, fun _ _ => 1, E.left, E.rightT⟩
  | .thresholdSvd => .ok ⟨none, fun _ _ => 1, fun i j r => max (E.left i j r) 0, fun k r => max (E.rightT k r) 0⟩
  | .parafac2Als => .ok E.parafac2.toStart
  | .cpAls => .ok (E.cp.toStart E.fits)
  | .cpHals => .ok (E.hals.toStart E.fits)
  | .other => .error .valueError

end Verif.Loop
