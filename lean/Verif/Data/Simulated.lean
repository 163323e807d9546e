import Verif.Spec.Objective
import Mathlib.Analysis.SpecialFunctions.Exp
import Mathlib.Analysis.SpecialFunctions.Sqrt
import Mathlib.Analysis.Real.Pi.Bounds

/-!
# Model of `get_simple_simulated_data`

`src/matcouply/data.py` lines 28-95, in exact arithmetic. The draws of the random state are arguments.
-/

namespace Verif.Data

open Verif.Spec Finset

/-- `stats.norm.pdf(t, loc=m)`. -/
noncomputable def normPdf (m t : ℝ) : ℝ := Real.exp (-(t - m) ^ 2 / 2) / √(2 * Real.pi)

/-- `np.linspace(-10, 10, J)` with `J = 50` (lines 68, 77). -/
noncomputable def grid (j : Fin 50) : ℝ := -10 + j * (20 / 49)

/-- The three locations (line 78). -/
noncomputable def locs : Fin 3 → ℝ := ![-5, 0, 2]

/-- `B_blueprint` (line 78). -/
noncomputable def blueprint : Matrix (Fin 50) (Fin 3) ℝ := fun j r => normPdf (locs r) (grid j)

/-- `np.roll(X, i, axis=0)`: row `j` is row `j - i` of `X`, modulo the number of rows (line 79). -/
def roll {m n : ℕ} [NeZero m] (X : Matrix (Fin m) (Fin n) ℝ) (i : ℕ) : Matrix (Fin m) (Fin n) ℝ := fun j r => X (j - Fin.ofNat m i) r

/-- The factors (lines 72-88): `u` are the uniform draws, `z` the normal draws for `C`. -/
noncomputable def simFactors (u : Matrix (Fin 15) (Fin 3) ℝ) (z : Matrix (Fin 20) (Fin 3) ℝ) : Factors 15 20 3 (fun _ => 50) where
  A := fun i r => u i r + 1 / 10
  B := fun i => roll blueprint i
  C := fun k r => if z k r < 0 then 0 else z k r

/-- `cmf.to_matrices()` (line 89). -/
def simClean (F : Factors 15 20 3 (fun _ => 50)) : Ragged 15 20 (fun _ => 50) := fun i j k => F.entry i j k

/-- `tl.norm(tl.stack(X))` (line 93): all matrices have the same shape. -/
noncomputable def stackNorm (X : Ragged 15 20 (fun _ => 50)) : ℝ := √(∑ i, ∑ j, ∑ k, X i j k ^ 2)

/-- The noisy matrices (lines 91-95). `noise` has a positive norm, otherwise the code returns `nan`. -/
noncomputable def simNoisy (level : ℝ) (M noise : Ragged 15 20 (fun _ => 50)) : Ragged 15 20 (fun _ => 50) :=
  fun i j k => M i j k + level * (stackNorm M / stackNorm noise) * noise i j k

/-- `get_simple_simulated_data` (lines 28-95). -/
noncomputable def simulated (level : ℝ) (u : Matrix (Fin 15) (Fin 3) ℝ) (z : Matrix (Fin 20) (Fin 3) ℝ) (noise : Ragged 15 20 (fun _ => 50)) :
    Ragged 15 20 (fun _ => 50) × Factors 15 20 3 (fun _ => 50) :=
  (simNoisy level (simClean (simFactors u z)) noise, simFactors u z)

end Verif.Data
