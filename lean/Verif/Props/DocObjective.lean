import Verif.Props.LoopFalse

/-!
# C106: the objective of the documentation

`docs/optimization.rst` divides the squared error of each matrix by the squared norm of that matrix. The code (`decomposition.py` lines 906-1014) never does: the updates minimise the sum of
squared errors, and the reported error is divided by the norm of all matrices together.
-/

namespace Verif.Props

open Verif.Loop Verif.ADMM Verif.Penalties Verif.Spec Finset Matrix

variable {I K R : ℕ} {J : Fin I → ℕ}

/-- Squared error of matrix `i`. -/
def sseAt (X : Ragged I K J) (F : Factors I K R J) (i : Fin I) : ℝ := ∑ j, ∑ k, (X i j k - F.entry i j k) ^ 2

/-- The data term of the objective in `docs/optimization.rst`. -/
noncomputable def docFit (X : Ragged I K J) (F : Factors I K R J) : ℝ := 1 / 2 * ∑ i, sseAt X F i / sqNorm (X i)

theorem sse_eq_sum (X : Ragged I K J) (F : Factors I K R J) : sse X F = ∑ i, sseAt X F i := rfl

theorem sqNorm_pos {m n : ℕ} {X : Matrix (Fin m) (Fin n) ℝ} (h : X ≠ 0) : 0 < sqNorm X := by
  refine lt_of_le_of_ne (sum_nonneg fun i _ => sum_nonneg fun j _ => sq_nonneg _) fun h0 => h ?_
  funext i j
  have h1 := (sum_eq_zero_iff_of_nonneg fun i _ => sum_nonneg fun j _ => sq_nonneg (X i j)).1 h0.symm i (mem_univ i)
  have h2 := (sum_eq_zero_iff_of_nonneg fun j _ => sq_nonneg (X i j)).1 h1 j (mem_univ j)
  exact pow_eq_zero_iff (two_ne_zero) |>.1 h2

/-- If every matrix is fitted at least as well, and one of them better, the documented objective is smaller. -/
theorem docFit_lt {X : Ragged I K J} (hX : ∀ i, X i ≠ 0) {F G : Factors I K R J} (hle : ∀ i, sseAt X F i ≤ sseAt X G i) (i : Fin I) (hlt : sseAt X F i < sseAt X G i) :
    docFit X F < docFit X G := by
  unfold docFit
  refine mul_lt_mul_of_pos_left (sum_lt_sum (fun i _ => ?_) ⟨i, mem_univ i, ?_⟩) (by norm_num)
  · exact div_le_div_of_nonneg_right (hle i) (sqNorm_pos (hX i)).le
  · exact div_lt_div_of_pos_right hlt (sqNorm_pos (hX i))

theorem sseAt_A (X : Ragged I K J) (A A' : Matrix (Fin I) (Fin R) ℝ) (B : Ragged I R J) (C : Matrix (Fin K) (Fin R) ℝ) (i : Fin I) (h : A i = A' i) :
    sseAt X ⟨A, B, C⟩ i = sseAt X ⟨A', B, C⟩ i := by
  simp only [sseAt, Factors.entry, h]

theorem sseAt_B (X : Ragged I K J) (A : Matrix (Fin I) (Fin R) ℝ) (B B' : Ragged I R J) (C : Matrix (Fin K) (Fin R) ℝ) (i : Fin I) (h : B i = B' i) :
    sseAt X ⟨A, B, C⟩ i = sseAt X ⟨A, B', C⟩ i := by
  simp only [sseAt, Factors.entry, h]

theorem ridgeObj_zero (X : Ragged I K J) (F : Factors I K R J) : ridgeObj X (0, 0, 0) F = 1 / 2 * sse X F := by simp [ridgeObj]

/-- C106, A-update: without penalties, the new A is the only minimiser of the documented objective, whatever the norms of the matrices. -/
theorem C106_A (P : Params R) (hsvd : ValidSVD P) (hN : 0 < P.nInner) (X : Ragged I K J) (hX : ∀ i, X i ≠ 0) (constant : Bool) (F : Factors I K R J) (pens : Fin 0 → PenA I R)
    (aux dual : Fin 0 → Matrix (Fin I) (Fin R) ℝ) (hsol : SolvableA F 0) (s : MatState I R 0) (h : admmUpdateA P X pens 0 constant F aux dual = .ok s)
    (Y : Matrix (Fin I) (Fin R) ℝ) (hY : Y ≠ s.x) : docFit X ⟨s.x, F.B, F.C⟩ < docFit X ⟨Y, F.B, F.C⟩ := by
  have key : ∀ i, Y i ≠ s.x i → sseAt X ⟨s.x, F.B, F.C⟩ i < sseAt X ⟨Y, F.B, F.C⟩ i := by
    intro i hi
    have hne : s.x.updateRow i (Y i) ≠ s.x := fun e => hi (by rw [← congrFun e i, Matrix.updateRow_self])
    have hm := C27_A P hsvd hN X (0, 0, 0) constant F pens aux dual hsol s h _ hne
    rw [ridgeObj_zero, ridgeObj_zero, sse_eq_sum, sse_eq_sum] at hm
    have hm : ∑ i, sseAt X ⟨s.x, F.B, F.C⟩ i < ∑ k, sseAt X ⟨s.x.updateRow i (Y i), F.B, F.C⟩ k := by linarith
    rw [← add_sum_erase _ _ (mem_univ i), ← add_sum_erase _ (fun k => sseAt X ⟨s.x.updateRow i (Y i), F.B, F.C⟩ k) (mem_univ i),
      sum_congr rfl fun k hk => sseAt_A X s.x (s.x.updateRow i (Y i)) F.B F.C k (Matrix.updateRow_ne (ne_of_mem_erase hk)).symm,
      sseAt_A X (s.x.updateRow i (Y i)) Y F.B F.C i (Matrix.updateRow_self ..)] at hm
    exact lt_of_add_lt_add_right hm
  obtain ⟨i, hi⟩ := Function.ne_iff.1 hY
  refine docFit_lt hX (fun k => ?_) i (key i hi)
  by_cases hk : Y k = s.x k
  · exact (sseAt_A X s.x Y F.B F.C k hk.symm).le
  · exact (key k hk).le

/-- C106, B-update: without penalties, the new B matrices are the only minimisers of the documented objective, whatever the norms of the matrices. -/
theorem C106_B (P : Params R) (hsvd : ValidSVD P) (hN : 0 < P.nInner) (X : Ragged I K J) (hX : ∀ i, X i ≠ 0) (constant : Bool) (F : Factors I K R J) (pens : Fin 0 → PenB I R J)
    (aux : Fin 0 → AuxB I R J) (dual : Fin 0 → Ragged I R J) (hsol : SolvableB F 0) (s : RagState I R 0 J) (h : admmUpdateB P X pens 0 constant F aux dual = .ok s)
    (Y : Ragged I R J) (hY : Y ≠ s.x) : docFit X ⟨F.A, s.x, F.C⟩ < docFit X ⟨F.A, Y, F.C⟩ := by
  have key : ∀ i, Y i ≠ s.x i → sseAt X ⟨F.A, s.x, F.C⟩ i < sseAt X ⟨F.A, Y, F.C⟩ i := by
    intro i hi
    have hne : Function.update s.x i (Y i) ≠ s.x := fun e => hi (by rw [← congrFun e i, Function.update_self])
    have hm := C27_B P hsvd hN X (0, 0, 0) constant F pens aux dual hsol s h _ hne
    rw [ridgeObj_zero, ridgeObj_zero, sse_eq_sum, sse_eq_sum] at hm
    have hm : ∑ i, sseAt X ⟨F.A, s.x, F.C⟩ i < ∑ k, sseAt X ⟨F.A, Function.update s.x i (Y i), F.C⟩ k := by linarith
    rw [← add_sum_erase _ _ (mem_univ i), ← add_sum_erase _ (fun k => sseAt X ⟨F.A, Function.update s.x i (Y i), F.C⟩ k) (mem_univ i),
      sum_congr rfl fun k hk => sseAt_B X F.A s.x (Function.update s.x i (Y i)) F.C k (Function.update_of_ne (ne_of_mem_erase hk) _ _).symm,
      sseAt_B X F.A (Function.update s.x i (Y i)) Y F.C i (Function.update_self ..)] at hm
    exact lt_of_add_lt_add_right hm
  obtain ⟨i, hi⟩ := Function.ne_iff.1 hY
  refine docFit_lt hX (fun k => ?_) i (key i hi)
  by_cases hk : Y k = s.x k
  · exact (sseAt_B X F.A s.x Y F.C k hk.symm).le
  · exact (key k hk).le

/-- Matrices of the same norm: the documented data term is half the sum of squared errors divided by the square of that norm. -/
theorem docFit_same {X : Ragged I K J} {ν : ℝ} (hX : ∀ i, sqNorm (X i) = ν) (F : Factors I K R J) : docFit X F = 1 / 2 * sse X F / ν := by
  simp only [docFit, hX, ← sum_div, sse_eq_sum]
  ring

/-- C106, C-update, if all matrices have the same norm. Missing: other norms, for which it is false (`C106_false`); L2 penalties, unless the norm is one, see `C106_ridge`. -/
theorem C106_partial (P : Params R) (hsvd : ValidSVD P) (hN : 0 < P.nInner) (X : Ragged I K J) {ν : ℝ} (hX : ∀ i, sqNorm (X i) = ν) (hν : 0 < ν) (F : Factors I K R J)
    (pens : Fin 0 → PenC K R) (aux dual : Fin 0 → Matrix (Fin K) (Fin R) ℝ) (hsol : SolvableC F 0) (Y : Matrix (Fin K) (Fin R) ℝ)
    (hY : Y ≠ (admmUpdateC P X pens 0 F aux dual).x) : docFit X ⟨F.A, F.B, (admmUpdateC P X pens 0 F aux dual).x⟩ < docFit X ⟨F.A, F.B, Y⟩ := by
  rw [docFit_same hX, docFit_same hX, ← ridgeObj_zero, ← ridgeObj_zero]
  exact div_lt_div_of_pos_right (C27_C P hsvd hN X (0, 0, 0) F pens aux dual hsol Y hY) hν

/-- C106, whole calls without penalties other than L2: if all matrices have norm one, the documented objective does not increase. -/
theorem C106_ridge (P : Problem I K R 0 0 0 J) (hX : ∀ i, sqNorm (P.X i) = 1) (hsvd : ValidSVD P.params) (hN : 0 < P.params.nInner) (a : Args) (init : AOState I K R 0 0 0 J)
    (hinv : ∀ t : ℕ, t < a.nIterMax → ∀ o, cmfAoadmm P (plain t) init = .ok o → Invertible P o.st)
    (out : Output (AOState I K R 0 0 0 J)) (h : cmfAoadmm P a init = .ok out) :
    docFit P.X out.st.F + 1 / 2 * (P.l2.1 * sqNorm out.st.F.A + P.l2.2.1 * raggedSq out.st.F.B + P.l2.2.2 * sqNorm out.st.F.C)
      ≤ docFit P.X init.F + 1 / 2 * (P.l2.1 * sqNorm init.F.A + P.l2.2.1 * raggedSq init.F.B + P.l2.2.2 * sqNorm init.F.C) := by
  have := C29 P hsvd hN a init hinv out h
  rw [docFit_same hX, docFit_same hX, div_one, div_one]
  exact this

/-- C106, reported values: if all matrices have the same norm, the data term of the reported loss is the documented one divided by the number of matrices. -/
theorem C106_reported {nA nB nC : ℕ} (X : Ragged I K J) {ν : ℝ} (hX : ∀ i, sqNorm (X i) = ν) (hν : 0 < ν) (s : AOState I K R nA nB nC J) :
    1 / 2 * relErr X s ^ 2 = docFit X (absorb s.weights s.F) / I := by
  rcases Nat.eq_zero_or_pos I with rfl | hI
  · simp [relErr, raggedSq, docFit]
  · have h0 : 0 ≤ sse X (absorb s.weights s.F) := sum_nonneg fun i _ => sum_nonneg fun j _ => sum_nonneg fun k _ => sq_nonneg _
    have h1 : raggedSq X = I * ν := by simp [raggedSq, hX]
    have h2 : (0 : ℝ) < I := Nat.cast_pos.2 hI
    rw [docFit_same hX, relErr, div_pow, Real.sq_sqrt h0, h1, Real.sq_sqrt (by positivity)]
    field_simp

/-! ### Two matrices of different norm -/

/-- 1 × 1 matrices 1 and 2. -/
def twoX : Ragged 2 1 (fun _ => 1) := fun i => sc (if i = 0 then 1 else 2)

/-- All factors but C are one. -/
def twoF (c : ℝ) : Factors 2 1 1 (fun _ => 1) := ⟨fun _ _ => 1, fun _ => sc 1, sc c⟩

theorem sse_two (c : ℝ) : sse twoX (twoF c) = (1 - c) ^ 2 + (2 - c) ^ 2 := by
  simp [sse, twoX, twoF, sc, Factors.entry, Fin.sum_univ_two]

theorem docFit_two (c : ℝ) : docFit twoX (twoF c) = 1 / 2 * ((1 - c) ^ 2 + (2 - c) ^ 2 / 4) := by
  simp only [docFit, sseAt, twoX, twoF, sc, sqNorm, Factors.entry, Fin.sum_univ_two, univ_unique, sum_singleton]
  norm_num

/-- Only C is updated; no penalties. -/
def twoP (prm : Params 1) : Problem 2 1 1 0 0 0 (fun _ => 1) := ⟨twoX, Fin.elim0, Fin.elim0, Fin.elim0, (0, 0, 0), prm, false, false, false, false, true⟩

def twoS (c : ℝ) : AOState 2 1 1 0 0 0 (fun _ => 1) := ⟨none, twoF c, Fin.elim0, Fin.elim0, Fin.elim0, Fin.elim0, Fin.elim0, Fin.elim0⟩

theorem sweep_two {prm : Params 1} (hP : ValidSVD prm) (hN : 0 < prm.nInner) (c : ℝ) : sweep (twoP prm) (twoS c) = .ok (twoS (3 / 2), none) := by
  have hsol : SolvableC (twoF c) 0 := by
    intro v hv
    have h0 : v 0 ≠ 0 := fun h => hv (by funext i; obtain rfl : i = 0 := Subsingleton.elim _ _; exact h)
    simp [twoF, sc]
    positivity
  have hx : (admmUpdateC prm twoX Fin.elim0 0 (twoF c) Fin.elim0 Fin.elim0).x = sc (3 / 2) := by
    by_contra hne
    have := C27_C prm hP hN twoX (0, 0, 0) (twoF c) Fin.elim0 Fin.elim0 Fin.elim0 hsol (sc (3 / 2)) (Ne.symm hne)
    rw [ridgeObj_zero, ridgeObj_zero] at this
    generalize hy : (admmUpdateC prm twoX Fin.elim0 0 (twoF c) Fin.elim0 Fin.elim0).x = y at this
    have e : y = sc (y 0 0) := by
      funext i j
      obtain rfl : i = 0 := Subsingleton.elim _ _
      obtain rfl : j = 0 := Subsingleton.elim _ _
      rfl
    rw [e] at this
    rw [show (⟨(twoF c).A, (twoF c).B, sc (y 0 0)⟩ : Factors 2 1 1 fun _ => 1) = twoF (y 0 0) from rfl,
      show (⟨(twoF c).A, (twoF c).B, sc (3 / 2)⟩ : Factors 2 1 1 fun _ => 1) = twoF (3 / 2) from rfl, sse_two, sse_two] at this
    nlinarith [sq_nonneg (y 0 0 - 3 / 2)]
  unfold sweep sweepB
  simp only [twoP, Bool.false_eq_true, if_false, Except.bind, sweepC, sweepA, if_true]
  have e : (admmUpdateC prm twoX Fin.elim0 0 (twoS c).F (twoS c).auxC (twoS c).dualC).x = sc (3 / 2) := hx
  simp only [e]
  congr 2
  simp only [twoS, AOState.mk.injEq, true_and]
  exact ⟨rfl, funext fun p => p.elim0, funext fun p => p.elim0⟩

/-- C106 is false for matrices of different norms: the data are the numbers 1 and 2, only C is updated, and there are no penalties. After every number of iterations C is 3/2, although the
documented objective is smaller at 6/5. -/
theorem C106_false : ∃ (P : Problem 2 1 1 0 0 0 (fun _ => 1)) (init : AOState 2 1 1 0 0 0 fun _ => 1), ValidSVD P.params ∧ 0 < P.params.nInner ∧ (∀ i, P.X i ≠ 0) ∧ P.l2 = (0, 0, 0) ∧
    P.updA = false ∧ P.updB = false ∧ P.updC = true ∧ ∀ t : ℕ, ∃ out, cmfAoadmm P (plain (t + 1 : ℕ)) init = .ok out ∧
      ∃ Y, docFit P.X ⟨out.st.F.A, out.st.F.B, Y⟩ < docFit P.X out.st.F := by
  obtain ⟨prm, hP, hN, -, -⟩ := exists_params 1 1 none 1
  refine ⟨twoP prm, twoS 0, hP, by simp [twoP, hN], fun i h => ?_, rfl, rfl, rfl, rfl, fun t => ?_⟩
  · have := congrFun (congrFun h 0) 0
    fin_cases i <;> simp [twoP, twoX, sc] at this
  · have hs : ∀ t, sweeps (aoOps (twoP prm)) (t + 1) (twoS 0) = .ok (twoS (3 / 2)) := by
      intro t
      induction t with
      | zero => exact sweeps_one (sweep_two hP (by omega) 0)
      | succ t ih =>
        rw [sweeps, ih]
        simp only [Except.bind, aoOps, sweep_two hP (show 0 < prm.nInner by omega), Except.map]
    obtain ⟨out, hout, hst⟩ := fit_exists (twoP prm) (plain (t + 1 : ℕ)) rfl (twoS 0) _ (hs t)
    refine ⟨out, hout, sc (6 / 5), ?_⟩
    rw [hst]
    change docFit twoX (twoF (6 / 5)) < docFit twoX (twoF (3 / 2))
    rw [docFit_two, docFit_two]
    norm_num

/-- C106_A, C106_B and C106_reported have instances: two 1 × 1 matrices. -/
example : (∀ i, twoX i ≠ 0) ∧ SolvableA (twoF 1) 0 ∧ SolvableB (twoF 1) 0 ∧ SolvableC (twoF 1) 0 := by
  refine ⟨fun i h => ?_, fun i v hv => ?_, fun i v hv => ?_, fun v hv => ?_⟩
  · have := congrFun (congrFun h 0) 0
    fin_cases i <;> simp [twoX, sc] at this
  all_goals
    have h0 : v 0 ≠ 0 := fun h => hv (by funext i; obtain rfl : i = 0 := Subsingleton.elim _ _; exact h)
    simp [twoF, sc]
    positivity

/-- C106_partial applies to data with matrices 1 and -1. -/
example (P : Params 1) (hsvd : ValidSVD P) (hN : 0 < P.nInner) (Y : Matrix (Fin 1) (Fin 1) ℝ)
    (hY : Y ≠ (admmUpdateC P (fun i : Fin 2 => sc (if i = 0 then 1 else -1)) Fin.elim0 0 (twoF 1) Fin.elim0 Fin.elim0).x) :
    docFit (fun i : Fin 2 => sc (if i = 0 then 1 else -1)) ⟨(twoF 1).A, (twoF 1).B, (admmUpdateC P (fun i : Fin 2 => sc (if i = 0 then 1 else -1)) Fin.elim0 0 (twoF 1) Fin.elim0 Fin.elim0).x⟩
      < docFit (fun i : Fin 2 => sc (if i = 0 then 1 else -1)) ⟨(twoF 1).A, (twoF 1).B, Y⟩ := by
  refine C106_partial P hsvd hN _ (ν := 1) (fun i => ?_) one_pos (twoF 1) _ _ _ (fun v hv => ?_) Y hY
  · rw [sqNorm_sc]
    fin_cases i <;> norm_num
  · have h0 : v 0 ≠ 0 := fun h => hv (by funext i; obtain rfl : i = 0 := Subsingleton.elim _ _; exact h)
    simp [twoF, sc]
    positivity

end Verif.Props
