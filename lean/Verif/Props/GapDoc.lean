import Verif.Props.Diagnostics
import Verif.Props.DocStop
import Verif.Props.LoopFeasible

/-!
# C126: documented and reported feasibility gaps

The docstring of `compute_feasibility_gaps` (`decomposition.py` lines 354-367) divides the distance of the factor and the auxiliary variable by the norm of the auxiliary variable; the code
(lines 404-417) divides by the norm of the factor.
-/

set_option linter.unusedSectionVars false

namespace Verif.Props

open Verif.ADMM Verif.Spec Verif.Loop Finset

variable {I K R n : ℕ} {J : Fin I → ℕ}

/-- `gap`: distance of factor and auxiliary variable, `x`, `z`: their norms. If the reported gap is below one, the documented one is defined and near it. -/
theorem doc_near {gap x z g : ℝ} (hx : 0 < x) (hgap : 0 ≤ gap) (hg : g = gap / x) (h1 : z ≤ x + gap) (h2 : x ≤ z + gap) (hlt : g < 1) :
    0 < z ∧ g / (1 + g) ≤ gap / z ∧ gap / z ≤ g / (1 - g) := by
  have e : gap = g * x := by rw [hg, div_mul_cancel₀ _ hx.ne']
  have g0 : 0 ≤ g := by rw [hg]; exact div_nonneg hgap hx.le
  subst e
  have hz : 0 < z := by nlinarith
  refine ⟨hz, ?_, ?_⟩
  · rw [div_le_div_iff₀ (by linarith) hz]
    nlinarith
  · rw [div_le_div_iff₀ hz (by linarith)]
    nlinarith

/-- C126, A and C: a reported gap below one bounds the documented one from both sides. -/
theorem C126_matrix_partial {m : ℕ} {X Z : Matrix (Fin m) (Fin R) ℝ} {g : ℝ} (h : matGap X Z = .fin g) (hg : g < 1) :
    0 < √(sqNorm Z) ∧ g / (1 + g) ≤ √(sqNorm (X - Z)) / √(sqNorm Z) ∧ √(sqNorm (X - Z)) / √(sqNorm Z) ≤ g / (1 - g) := by
  by_cases hX : X = 0
  · exfalso
    have : matNorm X = 0 := by rw [matNorm_eq, hX]; simp [sqNorm]
    rw [matGap, PyF.div, if_pos this] at h
    split_ifs at h
  · obtain ⟨h1, h2⟩ := matGap_eq hX Z
    rw [h1] at h
    have t1 := matTriangle Z X 0
    have t2 := matTriangle X Z 0
    rw [sqNorm_sub_zero, sqNorm_sub_zero] at t1 t2
    rw [sqNorm_sub_comm] at t1
    exact doc_near h2 (Real.sqrt_nonneg _) (PyF.fin.inj h).symm (by linarith) (by linarith) hg

/-- C126, B: the same for all B matrices together. -/
theorem C126_B_partial {X : Ragged I R J} {Z : AuxB I R J} {g : ℝ} (h : raggedGap X Z = .fin g) (hg : g < 1) :
    0 < √(raggedSq Z.toMats) ∧ g / (1 + g) ≤ √(raggedSq (X - Z.toMats)) / √(raggedSq Z.toMats) ∧ √(raggedSq (X - Z.toMats)) / √(raggedSq Z.toMats) ≤ g / (1 - g) := by
  by_cases hX : X = 0
  · exfalso
    have : rootSumSq X = 0 := by rw [rootSumSq_eq, hX]; simp [raggedSq, sqNorm]
    rw [raggedGap, PyF.div, if_pos this] at h
    split_ifs at h
  · obtain ⟨h1, h2⟩ := raggedGap_eq hX Z
    rw [h1] at h
    have t1 := ragTriangle Z.toMats X 0
    have t2 := ragTriangle X Z.toMats 0
    rw [raggedSq_sub_zero, raggedSq_sub_zero] at t1 t2
    rw [raggedSq_sub_comm] at t1
    exact doc_near h2 (Real.sqrt_nonneg _) (PyF.fin.inj h).symm (by linarith) (by linarith) hg

/-- C126, whole runs: if the feasibility condition is reported as satisfied with a tolerance below one, all documented gaps of factors that are not zero are below
`tol / (1 - tol)`. -/
theorem C126_run_partial {nA nB nC : ℕ} (P : Problem I K R nA nB nC J) (a : Args) (init : AOState I K R nA nB nC J) (out : Output (AOState I K R nA nB nC J))
    (h : cmfAoadmm P a init = .ok out) (d : Diagnostics) (hd : out.diag = some d) (hf : d.feasible = some true) {t : ℝ} (ht : IsSet a.feasTol t) (h1 : t < 1)
    (hnz : NonzeroFactors out.st) :
    (∀ p, √(sqNorm (out.st.F.A - out.st.auxA p)) / √(sqNorm (out.st.auxA p)) < t / (1 - t)) ∧
      (∀ p, √(raggedSq (out.st.F.B - (out.st.auxB p).toMats)) / √(raggedSq (out.st.auxB p).toMats) < t / (1 - t)) ∧
      ∀ p, √(sqNorm (out.st.F.C - out.st.auxC p)) / √(sqNorm (out.st.auxC p)) < t / (1 - t) := by
  obtain ⟨s, -, hst, hdiag⟩ := fit_ok h
  have hg : GapsBelow t out.st := by
    rw [hd] at hdiag
    split at hdiag
    · obtain rfl := Option.some.inj hdiag
      simp only [diagnostics] at hf
      rw [if_pos (truthy_iff.2 ⟨t, ht⟩), ht.getD] at hf
      rw [← checkFeasibility_iff hnz, hst]
      exact Option.some.inj hf
    · cases hdiag
  have mono : ∀ g : ℝ, g < t → g / (1 - g) < t / (1 - t) := fun g hg => by
    rw [div_lt_div_iff₀ (by linarith) (by linarith)]
    nlinarith
  refine ⟨fun p => ?_, fun p => ?_, fun p => ?_⟩
  · obtain ⟨e, pos⟩ := matGap_eq (hnz.1 p.pos) (out.st.auxA p)
    have lt := (div_lt_iff₀ pos).2 (hg.1 p)
    exact (C126_matrix_partial e (lt.trans h1)).2.2.trans_lt (mono _ lt)
  · obtain ⟨e, pos⟩ := raggedGap_eq (hnz.2.1 p.pos) (out.st.auxB p)
    have lt := (div_lt_iff₀ pos).2 (hg.2.1 p)
    exact (C126_B_partial e (lt.trans h1)).2.2.trans_lt (mono _ lt)
  · obtain ⟨e, pos⟩ := matGap_eq (hnz.2.2 p.pos) (out.st.auxC p)
    have lt := (div_lt_iff₀ pos).2 (hg.2.2 p)
    exact (C126_matrix_partial e (lt.trans h1)).2.2.trans_lt (mono _ lt)

theorem sqNorm_unit (x : ℝ) : sqNorm (!![x] : Matrix (Fin 1) (Fin 1) ℝ) = x ^ 2 := by simp [sqNorm]

/-- C126 is false: for the factor 2 and the auxiliary variable 1 the reported gap is 1/2, the documented one is 1. For the auxiliary variable 0 the documented gap is infinite, the
reported one is 1, so that no tolerance above 1 excludes it. -/
theorem C126_false : matGap (!![2] : Matrix (Fin 1) (Fin 1) ℝ) !![1] = .fin (1 / 2) ∧
    √(sqNorm ((!![2] : Matrix (Fin 1) (Fin 1) ℝ) - !![1])) / √(sqNorm (!![1] : Matrix (Fin 1) (Fin 1) ℝ)) = 1 ∧
    ∀ x : ℝ, x ≠ 0 → matGap (!![x] : Matrix (Fin 1) (Fin 1) ℝ) 0 = .fin 1 := by
  have s : (!![2] : Matrix (Fin 1) (Fin 1) ℝ) - !![1] = !![1] := by ext i j; fin_cases i; fin_cases j; norm_num
  refine ⟨?_, ?_, fun x hx => ?_⟩
  · rw [(matGap_eq (fun h => by simpa using congrFun (congrFun h 0) 0) _).1, s, sqNorm_unit, sqNorm_unit, Real.sqrt_sq (by norm_num), Real.sqrt_sq (by norm_num)]
  · rw [s, sqNorm_unit, Real.sqrt_sq (by norm_num), div_one]
  · rw [(matGap_eq (fun h => hx (by simpa using congrFun (congrFun h 0) 0)) _).1, sub_zero, sqNorm_unit, Real.sqrt_sq_eq_abs, div_self (abs_pos.2 hx).ne']

/-- C126, gaps equal to the tolerance: a gap of exactly the tolerance does not pass. -/
theorem C126_equal (t : ℝ) (ht : 0 < t) : ∃ X Z : Matrix (Fin 1) (Fin 1) ℝ, matGap X Z = .fin t ∧ checkFeasibility ⟨[matGap X Z], [], []⟩ t = false := by
  have hg : matGap (!![1] : Matrix (Fin 1) (Fin 1) ℝ) !![1 - t] = .fin t := by
    have s : (!![1] : Matrix (Fin 1) (Fin 1) ℝ) - !![1 - t] = !![t] := by ext i j; fin_cases i; fin_cases j; simp
    rw [(matGap_eq (fun h => by simpa using congrFun (congrFun h 0) 0) _).1, s, sqNorm_unit, sqNorm_unit, Real.sqrt_sq ht.le, Real.sqrt_sq (by norm_num), div_one]
  exact ⟨_, _, hg, by rw [hg]; simp [checkFeasibility, maxGap, pyMax, PyF.lt]⟩

/-- The hypotheses of the theorems hold for the factor 2 and the auxiliary variable 1: the documented gap 1 is at most 1/2 / (1 - 1/2). -/
example : matGap (!![2] : Matrix (Fin 1) (Fin 1) ℝ) !![1] = .fin (1 / 2) ∧ (1 / 2 : ℝ) < 1 := ⟨C126_false.1, by norm_num⟩

end Verif.Props
