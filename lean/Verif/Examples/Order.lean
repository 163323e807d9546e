import Verif.Spec.Objective
import Mathlib.Analysis.SpecialFunctions.Pow.NNReal

/-!
# Normalising and ordering components, as in the examples
-/

namespace Verif.Examples

open Verif.Spec Finset

variable {I K R m : ℕ} {J : Fin I → ℕ}

/-- `np.linalg.norm(X, axis=0)`. -/
noncomputable def colNorm (X : Matrix (Fin m) (Fin R) ℝ) (r : Fin R) : ℝ := √(∑ i, X i r ^ 2)

/-- `normalize` (`examples/plot_simulated_nonnegative.py` lines 30-31). Division by a zero norm gives NaN in numpy and 0 here. -/
noncomputable def normalizeCols (X : Matrix (Fin m) (Fin R) ℝ) : Matrix (Fin m) (Fin R) ℝ := fun i r => X i r / √(∑ i, X i r ^ 2)

/-- `examples/plot_semiconductor_etch_analysis.py` lines 101-105: the columns of A and C are divided by their norms, those of the B_i multiplied by both. Division by a zero norm gives NaN
in numpy and 0 here. -/
noncomputable def etchNormalise (F : Factors I K R J) : Factors I K R J :=
  ⟨fun i r => F.A i r / colNorm F.A r, fun i j r => F.B i j r * colNorm F.A r * colNorm F.C r, fun k r => F.C k r / colNorm F.C r⟩

/-- `np.argsort` is a parameter; `etchOrder` is line 109, with the norms of lines 101, 102 and 108 (`B` is the common coordinate matrix of the PARAFAC2 decomposition). -/
noncomputable def etchOrder (argsort : (Fin R → ℝ) → Fin R → Fin R) (w : Fin R → ℝ) (A : Matrix (Fin I) (Fin R) ℝ) (B : Matrix (Fin m) (Fin R) ℝ) (C : Matrix (Fin K) (Fin R) ℝ) :
    Fin R → Fin R := argsort fun r => w r * colNorm A r * colNorm B r * colNorm C r

/-- Lines 209-210: the order for the regularised model, by the norms of the columns of the first B_i. -/
noncomputable def tvOrder (argsort : (Fin R → ℝ) → Fin R → Fin R) (B₀ : Matrix (Fin m) (Fin R) ℝ) : Fin R → Fin R := argsort (colNorm B₀)

/-- `examples/plot_bikesharing.py` lines 98-102: the order for the bike sharing example; weights that are None become 1. -/
noncomputable def bikeOrder (argsort : (Fin R → ℝ) → Fin R → Fin R) (w : Option (Fin R → ℝ)) (A : Matrix (Fin I) (Fin R) ℝ) (B₀ : Matrix (Fin m) (Fin R) ℝ) (C : Matrix (Fin K) (Fin R) ℝ) :
    Fin R → Fin R := argsort fun r => -(w.getD fun _ => 1) r * (colNorm A r * colNorm B₀ r * colNorm C r)

/-- Lines 104-110: the components in this order, with negative entries replaced by 0. -/
noncomputable def bikeFrames (order : Fin R → Fin R) (F : Factors I K R J) : Factors I K R J :=
  ⟨fun i r => max 0 (F.A i (order r)), fun i j r => max 0 (F.B i j (order r)), fun k r => max 0 (F.C k (order r))⟩

/-- Number of rows of all matrices together (`np.concatenate(matrices, axis=0)`, `examples/plot_semiconductor_etch_analysis.py` line 50). -/
def rowsOf (J : Fin I → ℕ) : ℕ := ∑ i, J i

/-- `stacked.mean(0)` (line 51). -/
noncomputable def stackedMean (X : Ragged I K J) (k : Fin K) : ℝ := (∑ i, ∑ j, X i j k) / rowsOf J

/-- `stacked.std(0)` (line 52): numpy divides by the number of rows. -/
noncomputable def stackedStd (X : Ragged I K J) (k : Fin K) : ℝ := √((∑ i, ∑ j, (X i j k - stackedMean X k) ^ 2) / rowsOf J)

/-- `standardised` (line 53). Division by a zero standard deviation gives NaN in numpy and 0 here. -/
noncomputable def standardised (X : Ragged I K J) : Ragged I K J := fun i j k => (X i j k - stackedMean X k) / stackedStd X k

end Verif.Examples
