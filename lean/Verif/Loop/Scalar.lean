import Verif.Props.Loop
import Verif.Props.ADMMStep
import Verif.Props.ADMMExamples

/-!
# Executions with one 1 × 1 matrix and rank 1

Explicit formulas for the updates with one inner iteration, for any valid SVD function. Used to exhibit concrete executions.
-/

namespace Verif.Props

open Verif.Loop Verif.ADMM Verif.Penalties Verif.Spec Finset Matrix

/-- A 1 × 1 matrix. -/
def sc (x : ℝ) : Matrix (Fin 1) (Fin 1) ℝ := fun _ _ => x

/-- Factors that are 1 × 1 matrices. -/
def scF (a b c : ℝ) : Factors 1 1 1 (fun _ => 1) := ⟨sc a, fun _ => sc b, sc c⟩

/-- One 1 × 1 data matrix. -/
def scX (x : ℝ) : Ragged 1 1 (fun _ => 1) := fun _ => sc x

theorem svd_one {d : SVD 1 1 1} {G : Matrix (Fin 1) (Fin 1) ℝ} (hd : d.Valid G) (hG : G 0 0 ≠ 0) (r : ℝ) :
    r * (d.U 0 0 / d.s 0) * d.Vh 0 0 = r / G 0 0 := by
  have h1 : d.U 0 0 * d.s 0 * d.Vh 0 0 = G 0 0 := by
    have := congrFun (congrFun hd.eq 0) 0
    simpa [Matrix.mul_apply] using this
  have h2 : d.U 0 0 * d.U 0 0 = 1 := by
    have := congrFun (congrFun hd.left 0) 0
    simpa [Matrix.mul_apply] using this
  have h3 : d.Vh 0 0 * d.Vh 0 0 = 1 := by
    have := congrFun (congrFun hd.right 0) 0
    simpa [Matrix.mul_apply] using this
  have hs : d.s 0 ≠ 0 := fun h => hG (by rw [← h1, h]; ring)
  rw [eq_div_iff hG, ← h1]
  field_simp
  linear_combination (r * d.Vh 0 0 ^ 2) * h2 + r * h3

theorem svdSolveRow_one {d : SVD 1 1 1} {G : Matrix (Fin 1) (Fin 1) ℝ} (hd : d.Valid G) (hG : G 0 0 ≠ 0) (r : Fin 1 → ℝ) :
    svdSolveRow d r = fun _ => r 0 / G 0 0 := by
  funext i
  obtain rfl : i = 0 := Subsingleton.elim _ _
  rw [← svd_one hd hG]
  simp [svdSolveRow, Matrix.vecMul, dotProduct, colDiv]

theorem svdSolve_one {d : SVD 1 1 1} {G : Matrix (Fin 1) (Fin 1) ℝ} (hd : d.Valid G) (hG : G 0 0 ≠ 0) (r : Matrix (Fin 1) (Fin 1) ℝ) :
    svdSolve d r = sc (r 0 0 / G 0 0) := by
  funext i j
  obtain rfl : i = 0 := Subsingleton.elim _ _
  obtain rfl : j = 0 := Subsingleton.elim _ _
  rw [sc, ← svd_one hd hG]
  simp [svdSolve, Matrix.mul_apply, colDiv]

theorem crossA_sc (a b c : ℝ) (i : Fin 1) : crossA (scF a b c) i = sc (b * b * (c * c)) := by
  funext j k
  simp [crossA, scF, sc, Matrix.mul_apply]

theorem crossB_sc (a b c : ℝ) (i : Fin 1) : crossB (scF a b c) i = sc (c * c * a * a) := by
  funext j k
  simp [crossB, scF, sc, Matrix.mul_apply]

theorem rhsA_sc (x a b c : ℝ) (i : Fin 1) : rhsA (scX x) (scF a b c) i = fun _ => b * (x * c) := by
  funext r
  simp [rhsA, scF, scX, sc, Matrix.mul_apply]

theorem rhsB_sc (x a b c : ℝ) (i : Fin 1) : rhsB (scX x) (scF a b c) i = sc (x * (c * a)) := by
  funext r s
  simp [rhsB, scF, scX, sc, Matrix.mul_apply]

theorem feasPenalty_sc (scale g : ℝ) : feasPenalty scale (sc g) = 1 / 2 * g * scale := by
  simp [feasPenalty, sc, Matrix.trace]

theorem addRidge_sc (g ρ : ℝ) (n : ℕ) (l2 : ℝ) : addRidge (sc g) ρ n l2 0 0 = g + (ρ * n + l2) := by
  simp [addRidge, sc]

/-- The A-update with one inner iteration; scale 1, other factors 1. -/
theorem updateA_sc {n : ℕ} (P : Params 1) (hP : ValidSVD P) (hN : P.nInner = 1) (hs : P.scale = 1) (x l2 a : ℝ) (hl : 0 ≤ l2)
    (pens : Fin n → PenA 1 1) (u : Fin n → RowUpdate 1) (hu : ∀ p, (pens p).row = some (u p)) (z w : Fin n → ℝ) :
    admmUpdateA P (scX x) pens l2 false (scF a 1 1) (fun p => sc (z p)) (fun p => sc (w p)) =
      let y := (1 / 2 * (∑ p, (z p - w p)) + x) / (1 + (1 / 2 * n + l2))
      .ok ⟨sc y, fun p => fun _ => u p (fun _ => y + w p) (1 / 2) (fun _ => z p),
        fun p => sc (y - (u p (fun _ => y + w p) (1 / 2) (fun _ => z p) 0 - w p))⟩ := by
  have hrow : (List.ofFn pens).any (fun p => p.row.isNone) = false := by
    rw [List.any_eq_false]
    intro q hq
    obtain ⟨p, rfl⟩ := List.mem_ofFn.1 hq
    simp [hu p]
  unfold admmUpdateA
  have hf : feasPenalties P.scale false (crossA (scF a 1 1)) = .ok (none, fun _ => 1 / 2) := by
    simp only [feasPenalties, crossA_sc, feasPenalty_sc, hs]
    norm_num
  rw [hf]
  simp only [Except.bind]
  rw [hrow]
  simp only [Bool.and_false, Bool.false_eq_true, if_false]
  rw [hN]
  simp only [innerLoop, ite_self]
  have hG : ∀ i : Fin 1, addRidge (crossA (scF a 1 1) i) (1 / 2) n l2 0 0 = 1 + (1 / 2 * n + l2) := by
    intro i; rw [crossA_sc, addRidge_sc]; norm_num
  have hpos : (0 : ℝ) < 1 + (1 / 2 * n + l2) := by positivity
  have hx : (fun i => svdSolveRow (P.svd (addRidge (crossA (scF a 1 1) i) (1 / 2) n l2))
      ((1 / 2 : ℝ) • (∑ p, (sc (z p) - sc (w p)) i) + rhsA (scX x) (scF a 1 1) i) : Matrix (Fin 1) (Fin 1) ℝ)
      = sc ((1 / 2 * (∑ p, (z p - w p)) + x) / (1 + (1 / 2 * n + l2))) := by
    funext i r
    rw [svdSolveRow_one (hP _) (by rw [hG]; exact hpos.ne'), hG, rhsA_sc]
    simp [sc, Finset.sum_apply]
  unfold stepA
  simp only [hx]
  congr 1
  have haux : ∀ p, auxA (pens p) none (fun _ => 1 / 2) (sc ((1 / 2 * (∑ p, (z p - w p)) + x) / (1 + (1 / 2 * n + l2))) + sc (w p)) (sc (z p))
      = fun _ => u p (fun _ => (1 / 2 * (∑ p, (z p - w p)) + x) / (1 + (1 / 2 * n + l2)) + w p) (1 / 2) (fun _ => z p) := by
    intro p
    simp only [auxA, hu p]
    rfl
  simp only [haux]
  congr 1
  funext p i r
  obtain rfl : r = 0 := Subsingleton.elim _ _
  rfl

/-- The B-update with one inner iteration; scale 1, other factors 1; matrix-wise penalties. -/
theorem updateB_sc {n : ℕ} (P : Params 1) (hP : ValidSVD P) (hN : P.nInner = 1) (hs : P.scale = 1) (x l2 b : ℝ) (hl : 0 ≤ l2)
    (u : Fin n → MatUpdate 1 1) (v : Fin n → Ragged 1 1 (fun _ => 1) → ℝ) (z w : Fin n → ℝ) :
    admmUpdateB P (scX x) (fun p => PenB.ofMat (fun _ => u p) (v p)) l2 false (scF 1 b 1) (fun p => .mats fun _ => sc (z p)) (fun p _ => sc (w p)) =
      let y := (1 / 2 * (∑ p, (z p - w p)) + x) / (1 + (1 / 2 * n + l2))
      .ok ⟨fun _ => sc y, fun p => .mats fun _ => u p (sc (y + w p)) (1 / 2) (sc (z p)),
        fun p _ => sc (y - (u p (sc (y + w p)) (1 / 2) (sc (z p)) 0 0 - w p))⟩ := by
  unfold admmUpdateB
  have hf : feasPenalties P.scale false (crossB (scF 1 b 1)) = .ok (none, fun _ => 1 / 2) := by
    simp only [feasPenalties, crossB_sc, feasPenalty_sc, hs]
    norm_num
  rw [hf]
  simp only [Except.bind]
  rw [hN]
  simp only [innerLoop, ite_self]
  have hG : ∀ i : Fin 1, addRidge (crossB (scF 1 b 1) i) (1 / 2) n l2 0 0 = 1 + (1 / 2 * n + l2) := by
    intro i; rw [crossB_sc, addRidge_sc]; norm_num
  have hpos : (0 : ℝ) < 1 + (1 / 2 * n + l2) := by positivity
  have hx : ∀ i : Fin 1, svdSolve (P.svd (addRidge (crossB (scF 1 b 1) i) (1 / 2) n l2))
      ((1 / 2 : ℝ) • (∑ p, (AuxB.mats (J := fun _ : Fin 1 => 1) fun _ => sc (z p)).subtract (fun _ => sc (w p)) i) + rhsB (scX x) (scF 1 b 1) i)
      = sc ((1 / 2 * (∑ p, (z p - w p)) + x) / (1 + (1 / 2 * n + l2))) := by
    intro i
    rw [svdSolve_one (hP _) (by rw [hG]; exact hpos.ne'), hG, rhsB_sc]
    congr 2
    simp [sc, AuxB.subtract, Matrix.sum_apply]
  unfold stepB
  simp only [hx]
  congr 2
  funext p i
  funext r s
  obtain rfl : r = 0 := Subsingleton.elim _ _
  obtain rfl : s = 0 := Subsingleton.elim _ _
  rfl

end Verif.Props
