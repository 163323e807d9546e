import Verif.ADMM.Concrete
import Verif.Penalties.SVDExists
import Verif.Props.InnerLoop

/-!
# The hypotheses of C27-C33 are met

When the updates succeed, existence of valid SVD functions, and the concrete convex penalties as instances.
-/

namespace Verif.Props

open Verif.ADMM Verif.Penalties Verif.Spec Finset Matrix Filter

variable {I K R n : ℕ} {J : Fin I → ℕ}

/-- There are parameters with a valid SVD function for every rank. -/
theorem exists_params (R nInner : ℕ) (tol : Option ℝ) (scale : ℝ) : ∃ P : Params R, ValidSVD P ∧ P.nInner = nInner ∧ P.innerTol = tol ∧ P.scale = scale := by
  obtain ⟨f, hf⟩ := exists_svd_fun R
  exact ⟨⟨f, nInner, tol, scale⟩, hf, rfl, rfl, rfl⟩

/-- The mode-0 update succeeds exactly when `max` is not taken of an empty list and no needed row update is missing. -/
theorem admmUpdateA_succeeds (P : Params R) (X : Ragged I K J) (pens : Fin n → PenA I R) (l2 : ℝ) (constant : Bool) (F : Factors I K R J)
    (aux dual : Fin n → Matrix (Fin I) (Fin R) ℝ) :
    (∃ s, admmUpdateA P X pens l2 constant F aux dual = .ok s) ↔
      (constant = true → 0 < I) ∧ (constant = false → 0 < P.nInner → 0 < I → ∀ p, (pens p).row.isSome) := by
  constructor
  · rintro ⟨s, h⟩
    obtain ⟨o, ρ, hρ, -, -, hrow, -⟩ := admmUpdateA_ok h
    refine ⟨fun hc => ?_, hrow⟩
    obtain ⟨i, -⟩ := hρ.2 hc
    exact Nat.pos_of_ne_zero fun h0 => by subst h0; exact i.elim0
  · rintro ⟨h1, h2⟩
    obtain ⟨ρ, hρ⟩ : ∃ ρ, feasPenalties P.scale constant (crossA F) = .ok ρ := by
      cases constant with
      | false => exact ⟨_, rfl⟩
      | true =>
        obtain ⟨a, ha, -⟩ := vecMax_ok (fun i => feasPenalty P.scale (crossA F i)) (h1 rfl)
        exact ⟨_, by simp only [feasPenalties, if_true, ha, Except.map]; rfl⟩
    unfold admmUpdateA
    rw [hρ]
    simp only [Except.bind]
    rw [if_neg]
    · exact ⟨_, rfl⟩
    · simp only [Bool.and_eq_true, Bool.not_eq_true', decide_eq_true_eq, List.any_eq_true, not_and, not_exists]
      rintro ⟨⟨hc, hN⟩, hI⟩ q hq
      obtain ⟨p, rfl⟩ := List.mem_ofFn.1 hq
      have := h2 hc hN hI p
      cases hp : (pens p).row <;> simp_all

theorem admmUpdateB_succeeds (P : Params R) (X : Ragged I K J) (pens : Fin n → PenB I R J) (l2 : ℝ) (constant : Bool) (F : Factors I K R J)
    (aux : Fin n → AuxB I R J) (dual : Fin n → Ragged I R J) :
    (∃ s, admmUpdateB P X pens l2 constant F aux dual = .ok s) ↔ (constant = true → 0 < I) := by
  constructor
  · rintro ⟨s, h⟩ hc
    obtain ⟨ρ, hρ, -⟩ := admmUpdateB_ok h
    obtain ⟨i, -⟩ := hρ.2 hc
    exact Nat.pos_of_ne_zero fun h0 => by subst h0; exact i.elim0
  · intro h1
    obtain ⟨ρ, hρ⟩ : ∃ ρ, feasPenalties P.scale constant (crossB F) = .ok ρ := by
      cases constant with
      | false => exact ⟨_, rfl⟩
      | true =>
        obtain ⟨a, ha, -⟩ := vecMax_ok (fun i => feasPenalty P.scale (crossB F i)) (h1 rfl)
        exact ⟨_, by simp only [feasPenalties, if_true, ha, Except.map]; rfl⟩
    unfold admmUpdateB
    rw [hρ]
    exact ⟨_, rfl⟩

/-- Sequences of inner iterations exist. -/
theorem exists_seqA (P : Params R) (X : Ragged I K J) (pens : Fin n → PenA I R) (l2 : ℝ) (constant : Bool) (F : Factors I K R J)
    (h1 : constant = true → 0 < I) (h2 : constant = false → ∀ p, (pens p).row.isSome) (s₀ : MatState I R n) :
    ∃ seq : ℕ → MatState I R n, seq 0 = s₀ ∧
      ∀ k, admmUpdateA (once P) X pens l2 constant ⟨(seq k).x, F.B, F.C⟩ (seq k).aux (seq k).dual = .ok (seq (k + 1)) := by
  have h : ∀ s : MatState I R n, ∃ s', admmUpdateA (once P) X pens l2 constant ⟨s.x, F.B, F.C⟩ s.aux s.dual = .ok s' := fun s =>
    (admmUpdateA_succeeds _ _ _ _ _ _ _ _).2 ⟨h1, fun hc _ _ => h2 hc⟩
  choose f hf using h
  exact ⟨fun k => f^[k] s₀, rfl, fun k => by simp only [Function.iterate_succ_apply']; exact hf _⟩

theorem exists_seqB (P : Params R) (X : Ragged I K J) (pens : Fin n → PenB I R J) (l2 : ℝ) (constant : Bool) (F : Factors I K R J)
    (h1 : constant = true → 0 < I) (s₀ : RagState I R n J) :
    ∃ seq : ℕ → RagState I R n J, seq 0 = s₀ ∧
      ∀ k, admmUpdateB (once P) X pens l2 constant ⟨F.A, (seq k).x, F.C⟩ (seq k).aux (seq k).dual = .ok (seq (k + 1)) := by
  have h : ∀ s : RagState I R n J, ∃ s', admmUpdateB (once P) X pens l2 constant ⟨F.A, s.x, F.C⟩ s.aux s.dual = .ok s' := fun s =>
    (admmUpdateB_succeeds _ _ _ _ _ _ _ _).2 h1
  choose f hf using h
  exact ⟨fun k => f^[k] s₀, rfl, fun k => by simp only [Function.iterate_succ_apply']; exact hf _⟩

/-! ### A case: data `-1`, factors 1, non-negativity (and an L1 penalty) on `A`; the update is driven to 0 -/

/-- One 1 × 1 matrix. -/
def dataNeg : Ragged 1 1 (fun _ => 1) := fun _ => !![-1]

/-- All factors equal to 1. -/
def ones : Factors 1 1 1 (fun _ => 1) := ⟨!![1], fun _ => !![1], !![1]⟩

theorem weightA_ones : ∀ i, 0 < weightA 2 ones i := by
  intro i
  simp [weightA, ones]

theorem solvable_ones : SolvableA ones 0 ∧ SolvableB ones 0 ∧ SolvableC ones 0 := by
  have h : ∀ v : Fin 1 → ℝ, v ≠ 0 → 0 < v 0 ^ 2 := fun v hv => by
    have : v 0 ≠ 0 := fun h0 => hv (by funext i; obtain rfl : i = 0 := Subsingleton.elim _ _; exact h0)
    positivity
  refine ⟨fun i v hv => ?_, fun i v hv => ?_, fun v hv => ?_⟩ <;>
  · have := h v hv
    simpa [ones] using this

/-- C27 applies. -/
example : ∃ P : Params 1, ValidSVD P ∧ ∃ s, admmUpdateA (n := 0) P dataNeg Fin.elim0 0 false ones Fin.elim0 Fin.elim0 = .ok s ∧
    ∀ Y, Y ≠ s.x → ridgeObj dataNeg (0, 0, 0) ⟨s.x, ones.B, ones.C⟩ < ridgeObj dataNeg (0, 0, 0) ⟨Y, ones.B, ones.C⟩ := by
  obtain ⟨P, hP, hN, -⟩ := exists_params 1 1 none 2
  obtain ⟨s, hs⟩ := (admmUpdateA_succeeds P dataNeg (n := 0) Fin.elim0 0 false ones Fin.elim0 Fin.elim0).2
    ⟨by simp, fun _ _ _ p => p.elim0⟩
  exact ⟨P, hP, s, hs, fun Y hY => C27_A P hP (by omega) dataNeg (0, 0, 0) false ones _ _ _ solvable_ones.1 s hs Y hY⟩

/-- C28, C32 apply: non-negativity and an L1 penalty, solution 0 with multipliers -1 and 0. -/
example : ∃ (P : Params 1) (pens : Fin 2 → PenA 1 1) (seq : ℕ → MatState 1 1 2), ValidSVD P ∧
    (∀ k, admmUpdateA (once P) dataNeg pens 0 false ⟨(seq k).x, ones.B, ones.C⟩ (seq k).aux (seq k).dual = .ok (seq (k + 1))) ∧
    (seq 0).x = !![7] ∧ Tendsto (fun k => (seq k).x 0 0) atTop (nhds 0) := by
  obtain ⟨P, hP, hN, -, hscale⟩ := exists_params 1 1 none 2
  let std : Fin 2 → StdPen 1 1 := ![.nonNeg, .l1 3 false]
  have hv : ∀ p, (std p).Valid := by
    intro p; fin_cases p
    · exact trivial
    · show (0 : ℝ) ≤ 3; norm_num
  obtain ⟨seq, h0, hseq⟩ := exists_seqA P dataNeg (fun p => (std p).toA) 0 false ones (by simp)
    (fun _ p => by fin_cases p <;> rfl) ⟨!![7], fun _ => !![5], fun _ => !![4]⟩
  refine ⟨P, fun p => (std p).toA, seq, hP, hseq, by rw [h0], ?_⟩
  have hs : IsSaddlePoint Spec.inner (fitA dataNeg 0 ones) (fun p => (std p).feasible) (fun p => (std p).fn) 0 ![!![-1], 0] := by
    refine ⟨fun p => ?_, fun y => ?_, fun p y hy => ?_⟩
    · fin_cases p
      · intro i r; exact le_rfl
      · intro h; cases h
    · simp [fitA, sse, Factors.entry, dataNeg, ones, sqNorm, Spec.inner, Fin.sum_univ_two]
      nlinarith [sq_nonneg (y 0 0)]
    · fin_cases p
      · have : 0 ≤ y 0 0 := hy 0 0
        simpa [std, StdPen.fn, Spec.inner] using this
      · simp [std, StdPen.fn, Spec.inner, absSum]
  have := (C32_A P hP dataNeg le_rfl false ones (fun p => (std p).toA) (by omega) (by rw [hscale]; exact weightA_ones)
    _ _ (fun p => (std p).proxA (hv p)) (fun p => (std p).convexOn (hv p)) seq hseq 0 _ hs).2.2.2.2 solvable_ones.1 0 0
  exact this

/-- C31 applies: with the multipliers -1 and 0 as dual variables, the solution 0 is a fixed point, and C31 says that it solves the subproblem. -/
theorem fixed_example : ∃ (P : Params 1) (std : Fin 2 → StdPen 1 1), ValidSVD P ∧ std = ![.nonNeg, .l1 3 false] ∧
    admmUpdateA (once P) dataNeg (fun p => (std p).toA) 0 false ⟨!![7], ones.B, ones.C⟩ (fun _ => 0) ![!![-1], 0] = .ok ⟨0, fun _ => 0, ![!![-1], 0]⟩ ∧
    IsMinOver (fitA dataNeg 0 ⟨!![7], ones.B, ones.C⟩) (fun p => (std p).feasible) (fun p => (std p).fn) 0 := by
  obtain ⟨P, hP, hN, -, hscale⟩ := exists_params 1 1 none 2
  let std : Fin 2 → StdPen 1 1 := ![.nonNeg, .l1 3 false]
  have hv : ∀ p, (std p).Valid := by
    intro p; fin_cases p
    · exact trivial
    · show (0 : ℝ) ≤ 3; norm_num
  have hw : ∀ i, weightA (once P).scale ⟨!![7], ones.B, ones.C⟩ i = 1 := by
    intro i
    show weightA P.scale _ i = 1
    rw [hscale]; simp [weightA, ones]
  obtain ⟨s, hs⟩ := (admmUpdateA_succeeds (once P) dataNeg (fun p => (std p).toA) 0 false ⟨!![7], ones.B, ones.C⟩ (fun _ => 0) ![!![-1], 0]).2
    ⟨by simp, fun _ _ _ p => by fin_cases p <;> rfl⟩
  obtain ⟨ρ, hρ, hx, hz, hu⟩ := C28_A (once P) hP rfl dataNeg le_rfl false ⟨!![7], ones.B, ones.C⟩ (fun p => (std p).toA) (fun _ => 0) ![!![-1], 0] (by omega)
    (fun i => by rw [hw]; norm_num) s hs
  have hρ1 : ∀ i, ρ i = 1 := fun i => by rw [hρ.1 rfl]; exact hw i
  have hx0 : s.x = 0 := by
    by_contra hne
    have := hx 0 (Ne.symm hne)
    simp [augA, sse, Factors.entry, dataNeg, ones, sqNorm, Fin.sum_univ_two, hρ1] at this
    nlinarith [sq_nonneg (s.x 0 0)]
  have h0 : s.aux 0 = 0 := by
    by_contra hne
    have h1 := hz 0 _ _ ((std 0).proxA (hv 0))
    have hm : 0 ≤ s.aux 0 0 0 := h1.1 0 0
    have := h1.2 0 (fun i r => le_rfl) (Ne.symm hne)
    simp [std, StdPen.fn, hx0, hρ1] at this
    have := (abs_lt.1 this).2
    linarith
  have h1 : s.aux 1 = 0 := by
    by_contra hne
    have h1 := hz 1 _ _ ((std 1).proxA (hv 1))
    have := h1.2 0 (fun h => by cases h) (Ne.symm hne)
    simp [std, StdPen.fn, hx0, hρ1, absSum] at this
    nlinarith [sq_nonneg (s.aux 1 0 0), abs_nonneg (s.aux 1 0 0)]
  have haux : s.aux = fun _ => 0 := by
    funext p; fin_cases p
    · exact h0
    · exact h1
  have hdual : s.dual = ![!![-1], 0] := by
    funext p
    rw [hu p, hx0, haux]
    simp
  have hs' : s = ⟨0, fun _ => 0, ![!![-1], 0]⟩ := by
    cases s; simp only at hx0 haux hdual; rw [hx0, haux, hdual]
  rw [hs'] at hs
  exact ⟨P, std, hP, rfl, hs, (C31_A P hP dataNeg le_rfl false ⟨!![7], ones.B, ones.C⟩ (fun p => (std p).toA) _ _ (by omega)
    (fun i => by rw [show P.scale = (once P).scale from rfl, hw]; norm_num) _ _ (fun p => (std p).proxA (hv p)) (fun p => (std p).convexOn (hv p)) 0 hs).2⟩

/-- C33 applies: without penalties the first inner iteration moves `A` from 1 to -1, the second does not change it any more, and the loop is left after two of
five iterations. -/
theorem inner_stop_example : ∃ (P : Params 1) (s : MatState 1 1 0) (seq : ℕ → MatState 1 1 0), ValidSVD P ∧ P.nInner = 5 ∧ P.innerTol = some (1 / 2) ∧
    admmUpdateA P dataNeg Fin.elim0 0 false ones Fin.elim0 Fin.elim0 = .ok s ∧ (seq 0).x = !![1] ∧ s = seq 2 ∧ s.x = !![-1] ∧
    ∀ k < 2, admmUpdateA (once P) dataNeg Fin.elim0 0 false ⟨(seq k).x, ones.B, ones.C⟩ (seq k).aux (seq k).dual = .ok (seq (k + 1)) := by
  obtain ⟨P, hP, hN, ht, hscale⟩ := exists_params 1 5 (some (1 / 2)) 2
  obtain ⟨s, hs⟩ := (admmUpdateA_succeeds P dataNeg (n := 0) Fin.elim0 0 false ones Fin.elim0 Fin.elim0).2
    ⟨by simp, fun _ _ _ p => p.elim0⟩
  obtain ⟨M, hM, seq, h0, hsM, hstep, -, hdone, hnot⟩ := C33_A P dataNeg Fin.elim0 0 false ones Fin.elim0 Fin.elim0 s hs
  have hx : ∀ k < M, (seq (k + 1)).x = !![-1] := by
    intro k hk
    by_contra hne
    have := C27_A (once P) hP Nat.one_pos dataNeg (0, 0, 0) false ⟨(seq k).x, ones.B, ones.C⟩ Fin.elim0 _ _ solvable_ones.1 _ (hstep k hk) !![-1] (Ne.symm hne)
    simp [ridgeObj, sse, Factors.entry, dataNeg, ones] at this
    nlinarith [sq_nonneg ((seq (k + 1)).x 0 0 + 1)]
  have hM5 : M ≤ 5 := hN ▸ hM
  have hstop : 1 < M → MatDone P.innerTol (seq 1).x (seq 2).x (seq 2).aux := by
    intro h1
    rw [hx 0 (by omega), hx 1 h1, ht]
    simp [MatDone, InnerDone, sqNorm]
  have hgo : ¬ (0 < M ∧ MatDone P.innerTol (seq 0).x (seq 1).x (seq 1).aux) := by
    rintro ⟨h1, h2⟩
    rw [hx 0 h1, h0, ht] at h2
    simp [MatDone, InnerDone, sqNorm, ones] at h2
    rw [show ((-1 : ℝ) - 1) ^ 2 = 2 ^ 2 by norm_num, Real.sqrt_sq (by norm_num)] at h2
    norm_num at h2
  have hM2 : M = 2 := by
    rcases Nat.lt_or_ge M 5 with h | h
    · obtain ⟨k, hk, hd⟩ := hdone (by omega)
      have h3 : ¬ 2 < M := fun h3 => hnot 1 h3 (hstop (by omega))
      rcases k with _ | k
      · exact absurd ⟨by omega, hd⟩ hgo
      · omega
    · exact absurd (hstop (by omega)) (hnot 1 (by omega))
  subst hM2
  exact ⟨P, s, seq, hP, hN, ht, hs, by rw [h0]; rfl, hsM, by rw [hsM]; exact hx 1 (by omega), hstep⟩

end Verif.Props
