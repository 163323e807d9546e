import Verif.Props.LoopFeasible
import Verif.Props.Simplex

/-!
# C39 for UnitSimplex

UnitSimplex has a root finder with a tolerance and can raise, so its updates have the contract `Into` only for a set around the simplex and for executions whose inputs are bounded.
-/

namespace Verif.Props

open Verif.Loop Verif.ADMM Verif.Penalties Verif.Spec Finset

variable {I K R nA nB nC m n : ℕ} {J : Fin I → ℕ}

/-- The tolerance of the root finder (`C19_accuracy`) for entries up to `b`. -/
noncomputable def simplexTol (b : ℝ) : ℝ := 2 / 10 ^ 12 + 4 / 2 ^ 52 * (11 / 10 * (b + 1 + 1 / 10 ^ 5))

/-- Non-negative matrices that are entrywise close to a matrix with columns in the simplex. -/
def NearSimplex (b : ℝ) (m n : ℕ) : Set (Matrix (Fin m) (Fin n) ℝ) :=
  {Z | (∀ i r, 0 ≤ Z i r) ∧ ∃ P ∈ SimplexSet m n, ∀ i r, |Z i r - P i r| ≤ simplexTol b}

/-- The centre of the simplex in each column. -/
noncomputable def centre (m n : ℕ) : Matrix (Fin m) (Fin n) ℝ := Matrix.of fun _ _ => 1 / (m : ℝ)

open Classical in
/-- `UnitSimplex.factor_matrix_update` (`penalties.py` lines 974-980) for inputs with entries up to `b`, where it is what the code returns (`simplexUpd_eq`). Elsewhere, and where
the code raises, the value is the centre of the simplex: what is proved with this update says something about the code only for executions whose inputs are bounded by `b`. -/
noncomputable def simplexUpd (b : ℝ) (m n : ℕ) : MatUpdate m n := fun Y _ _ =>
  if ∀ i r, |(Y : Matrix (Fin m) (Fin n) ℝ) i r| ≤ b then (simplexMat Y).toOption.getD (centre m n) else centre m n

/-- For bounded inputs the code returns, and returns this. -/
theorem simplexUpd_eq {b : ℝ} (hb : b ≤ 10 ^ 18) (hm : 0 < m) (Y : Matrix (Fin m) (Fin n) ℝ) (hY : ∀ i r, |Y i r| ≤ b) (ρ : ℝ) (aux : Matrix (Fin m) (Fin n) ℝ) :
    simplexMat Y = .ok (simplexUpd b m n Y ρ aux) := by
  obtain ⟨Z, hZ⟩ := C19_never_fails_partial hm Y fun i r => (hY i r).trans hb
  have e : simplexUpd b m n Y ρ aux = (simplexMat Y).toOption.getD (centre m n) := if_pos hY
  rw [e, hZ]
  rfl

theorem centre_mem {b : ℝ} (hb : 0 ≤ b) (hm : 0 < m) : centre m n ∈ NearSimplex b m n := by
  have ht : 0 ≤ simplexTol b := by unfold simplexTol; positivity
  have hm' : (m : ℝ) ≠ 0 := by positivity
  have h0 : ∀ i r, 0 ≤ centre m n i r := fun i r => by simp [centre]
  refine ⟨h0, centre m n, ⟨h0, fun r => ?_⟩, fun i r => by simpa using ht⟩
  simp [centre, hm']

theorem simplexUpd_mem {b : ℝ} (hb : 0 ≤ b) (hm : 0 < m) (Y : Matrix (Fin m) (Fin n) ℝ) (ρ : ℝ) (aux : Matrix (Fin m) (Fin n) ℝ) :
    simplexUpd b m n Y ρ aux ∈ NearSimplex b m n := by
  by_cases hY : ∀ i r, |Y i r| ≤ b
  · have e : simplexUpd b m n Y ρ aux = (simplexMat Y).toOption.getD (centre m n) := if_pos hY
    rw [e]
    cases hZ : simplexMat Y with
    | ok Z =>
      obtain ⟨h1, -, P, hP, h2⟩ := C19_accuracy hm Y Z hZ b hY
      exact ⟨h1, P, hP.1, h2⟩
    | error e => exact centre_mem hb hm
  · have e : simplexUpd b m n Y ρ aux = centre m n := if_neg hY
    rw [e]
    exact centre_mem hb hm

/-- UnitSimplex on mode 0, which has no row update. -/
noncomputable def simplexA (b : ℝ) : PenA I R := ⟨simplexUpd b I R, none, fun _ => 0⟩

/-- UnitSimplex on mode 1. -/
noncomputable def simplexB (b : ℝ) : PenB I R J := .ofMat (fun i => simplexUpd b (J i) R) fun _ => 0

/-- UnitSimplex on mode 2. -/
noncomputable def simplexC (b : ℝ) : PenC K R := ⟨simplexUpd b K R, fun _ => 0⟩

/-- C39, the contract for UnitSimplex on each mode. -/
theorem C39_simplex {b : ℝ} (hb : 0 ≤ b) :
    (0 < I → (simplexA b : PenA I R).Into (NearSimplex b I R)) ∧
    ((∀ i, 0 < J i) → (simplexB b : PenB I R J).Into (fun _ => True) {Z | ∀ i, Z i ∈ NearSimplex b (J i) R}) ∧
    (0 < K → (simplexC b : PenC K R).Into (NearSimplex b K R)) :=
  ⟨fun hI => ⟨fun Y ρ aux => simplexUpd_mem hb hI Y ρ aux, fun _ h => by cases h⟩,
    fun hJ Y _ _ _ => ⟨trivial, fun i => simplexUpd_mem hb (hJ i) (Y i) 0 0⟩, fun hK Y ρ aux => simplexUpd_mem hb hK Y ρ aux⟩

/-- Members of the set have column sums close to one. -/
theorem nearSimplex_sum {b : ℝ} {Z : Matrix (Fin m) (Fin n) ℝ} (h : Z ∈ NearSimplex b m n) (r : Fin n) : |∑ i, Z i r - 1| ≤ m * simplexTol b := by
  obtain ⟨-, P, hP, hZ⟩ := h
  rw [← hP.2 r, ← sum_sub_distrib]
  refine (abs_sum_le_sum_abs _ _).trans ((sum_le_sum fun i _ => hZ i r).trans ?_)
  simp

/-- The set is not everything: with entries up to 1000 the zero column is not in it. -/
example : (0 : Matrix (Fin 2) (Fin 1) ℝ) ∉ NearSimplex 1000 2 1 := by
  intro h
  have := nearSimplex_sum h 0
  norm_num [simplexTol] at this

/-- An input meeting the hypotheses: the code returns for it, and the result is near the simplex. -/
example : ∃ Z, simplexMat (!![-3, 1/2; 7, 1/2] : Matrix (Fin 2) (Fin 2) ℝ) = .ok Z ∧ Z ∈ NearSimplex 10 2 2 :=
  ⟨_, simplexUpd_eq (b := 10) (by norm_num) (by norm_num) _ (fun i r => by fin_cases i <;> fin_cases r <;> simp <;> norm_num) 1 0,
    simplexUpd_mem (by norm_num) (by norm_num) _ 1 0⟩

end Verif.Props
