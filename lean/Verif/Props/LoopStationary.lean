import Verif.Props.LoopLimit
import Verif.Props.LoopLasso
import Mathlib.Analysis.Calculus.Deriv.Pow
import Mathlib.Analysis.Calculus.Deriv.Add
import Mathlib.Analysis.Calculus.Deriv.Mul

/-!
# C142: limits are stationary points of the joint objective
-/

set_option linter.unusedSectionVars false

namespace Verif.Props

open Verif.Loop Verif.ADMM Verif.Penalties Verif.Spec Finset Matrix Filter

variable {I K R n nA nB nC : ℕ} {J : Fin I → ℕ}

/-- The factors on the segment from `F` to `G`. -/
def between (F G : Factors I K R J) (s : ℝ) : Factors I K R J :=
  ⟨Matrix.of fun i r => F.A i r + s * (G.A i r - F.A i r), fun i => Matrix.of fun j r => F.B i j r + s * (G.B i j r - F.B i j r), Matrix.of fun k r => F.C k r + s * (G.C k r - F.C k r)⟩

/-- The derivative of the joint objective at `F` in direction `G - F`. -/
def jointSlope (X : Ragged I K J) (l : ℝ × ℝ × ℝ) (F G : Factors I K R J) : ℝ :=
  ∑ i, ∑ r, gradA X l.1 F F.A i r * (G.A i r - F.A i r) + ∑ i, ∑ j, ∑ r, gradB X l.2.1 F F.B i j r * (G.B i j r - F.B i j r) +
    ∑ k, ∑ r, gradC X l.2.2 F F.C k r * (G.C k r - F.C k r)

theorem deriv_line (a d : ℝ) : HasDerivAt (fun s : ℝ => a + s * d) d 0 := by
  simpa using ((hasDerivAt_id (0 : ℝ)).mul_const d).const_add a

theorem deriv_line_sq (a d : ℝ) : HasDerivAt (fun s : ℝ => (a + s * d) ^ 2) (2 * (a * d)) 0 := by
  refine ((deriv_line a d).fun_pow 2).congr_deriv ?_
  simp
  ring

theorem deriv_entry (F G : Factors I K R J) (i : Fin I) (j : Fin (J i)) (k : Fin K) : HasDerivAt (fun s => (between F G s).entry i j k)
    (∑ r, ((G.A i r - F.A i r) * F.B i j r * F.C k r + F.A i r * (G.B i j r - F.B i j r) * F.C k r + F.A i r * F.B i j r * (G.C k r - F.C k r))) 0 := by
  refine HasDerivAt.fun_sum fun r _ => ?_
  have := ((deriv_line (F.A i r) (G.A i r - F.A i r)).fun_mul (deriv_line (F.B i j r) (G.B i j r - F.B i j r))).fun_mul (deriv_line (F.C k r) (G.C k r - F.C k r))
  simp only [zero_mul, add_zero] at this
  refine (this.congr_deriv ?_)
  ring

theorem between_zero (F G : Factors I K R J) : between F G 0 = F := by
  obtain ⟨A, B, C⟩ := F
  simp only [between, zero_mul, add_zero]
  rfl

theorem deriv_ridgeObj (X : Ragged I K J) (l : ℝ × ℝ × ℝ) (F G : Factors I K R J) : HasDerivAt (fun s => ridgeObj X l (between F G s)) (jointSlope X l F G) 0 := by
  have h1 : HasDerivAt (fun s => sse X (between F G s)) (∑ i, ∑ j, ∑ k, 2 * ((F.entry i j k - X i j k) *
      ∑ r, ((G.A i r - F.A i r) * F.B i j r * F.C k r + F.A i r * (G.B i j r - F.B i j r) * F.C k r + F.A i r * F.B i j r * (G.C k r - F.C k r)))) 0 := by
    refine HasDerivAt.fun_sum fun i _ => HasDerivAt.fun_sum fun j _ => HasDerivAt.fun_sum fun k _ => ?_
    have := ((deriv_entry F G i j k).const_sub (X i j k)).fun_pow 2
    rw [between_zero] at this
    refine this.congr_deriv ?_
    simp
    ring
  have h2 : HasDerivAt (fun s => sqNorm (between F G s).A) (∑ i, ∑ r, 2 * (F.A i r * (G.A i r - F.A i r))) 0 :=
    HasDerivAt.fun_sum fun i _ => HasDerivAt.fun_sum fun r _ => deriv_line_sq _ _
  have h3 : HasDerivAt (fun s => raggedSq (between F G s).B) (∑ i, ∑ j, ∑ r, 2 * (F.B i j r * (G.B i j r - F.B i j r))) 0 :=
    HasDerivAt.fun_sum fun i _ => HasDerivAt.fun_sum fun j _ => HasDerivAt.fun_sum fun r _ => deriv_line_sq _ _
  have h4 : HasDerivAt (fun s => sqNorm (between F G s).C) (∑ k, ∑ r, 2 * (F.C k r * (G.C k r - F.C k r))) 0 :=
    HasDerivAt.fun_sum fun i _ => HasDerivAt.fun_sum fun r _ => deriv_line_sq _ _
  refine ((h1.const_mul (1 / 2)).fun_add ((((h2.const_mul l.1).fun_add (h3.const_mul l.2.1)).fun_add (h4.const_mul l.2.2)).const_mul (1 / 2))).congr_deriv ?_
  have eA : ∑ i, ∑ r, gradA X l.1 F F.A i r * (G.A i r - F.A i r) = ∑ i, ∑ j, ∑ k, (F.entry i j k - X i j k) * ∑ r, (G.A i r - F.A i r) * F.B i j r * F.C k r +
      l.1 * ∑ i, ∑ r, F.A i r * (G.A i r - F.A i r) := by
    rw [mul_sum, ← sum_add_distrib]
    refine sum_congr rfl fun i _ => ?_
    simp only [gradA, add_mul, sum_add_distrib, sum_mul, mul_sum]
    congr 1
    · rw [sum_comm]
      refine sum_congr rfl fun j _ => ?_
      rw [sum_comm]
      exact sum_congr rfl fun k _ => sum_congr rfl fun r _ => by ring
    · exact sum_congr rfl fun r _ => by ring
  have eB : ∑ i, ∑ j, ∑ r, gradB X l.2.1 F F.B i j r * (G.B i j r - F.B i j r) = ∑ i, ∑ j, ∑ k, (F.entry i j k - X i j k) * ∑ r, F.A i r * (G.B i j r - F.B i j r) * F.C k r +
      l.2.1 * ∑ i, ∑ j, ∑ r, F.B i j r * (G.B i j r - F.B i j r) := by
    rw [mul_sum, ← sum_add_distrib]
    refine sum_congr rfl fun i _ => ?_
    rw [mul_sum, ← sum_add_distrib]
    refine sum_congr rfl fun j _ => ?_
    simp only [gradB, add_mul, sum_add_distrib, sum_mul, mul_sum]
    congr 1
    · rw [sum_comm]
      exact sum_congr rfl fun k _ => sum_congr rfl fun r _ => by ring
    · exact sum_congr rfl fun r _ => by ring
  have eC : ∑ k, ∑ r, gradC X l.2.2 F F.C k r * (G.C k r - F.C k r) = ∑ i, ∑ j, ∑ k, (F.entry i j k - X i j k) * ∑ r, F.A i r * F.B i j r * (G.C k r - F.C k r) +
      l.2.2 * ∑ k, ∑ r, F.C k r * (G.C k r - F.C k r) := by
    have : ∑ i, ∑ j, ∑ k, (F.entry i j k - X i j k) * ∑ r, F.A i r * F.B i j r * (G.C k r - F.C k r) =
        ∑ k, ∑ i, ∑ j, (F.entry i j k - X i j k) * ∑ r, F.A i r * F.B i j r * (G.C k r - F.C k r) := by
      rw [sum_comm]
      refine sum_congr rfl fun i _ => ?_
      rw [sum_comm]
    rw [this, mul_sum, ← sum_add_distrib]
    refine sum_congr rfl fun k _ => ?_
    simp only [gradC, add_mul, sum_add_distrib, sum_mul, mul_sum]
    congr 1
    · rw [sum_comm]
      refine sum_congr rfl fun i _ => ?_
      rw [sum_comm]
      exact sum_congr rfl fun j _ => sum_congr rfl fun r _ => by ring
    · exact sum_congr rfl fun r _ => by ring
  rw [jointSlope, eA, eB, eC]
  simp only [sum_add_distrib, mul_add, ← mul_sum]
  ring

/-- The condition for minimisers of a convex quadratic function plus convex penalties. -/
theorem vi_of_min {V : Type} [AddCommGroup V] [Module ℝ V] {m : ℕ} {f : V → ℝ} {S : Fin m → Set V} {g : Fin m → V → ℝ} (hc : ∀ p, ConvexOn ℝ (S p) (g p)) {y z : V} (h : IsMinOver f S g y)
    (hz : ∀ p, z ∈ S p) {d q : ℝ} (hf : ∀ t : ℝ, f ((1 - t) • y + t • z) = f y + t * d + t ^ 2 * q) : ∑ p, g p y ≤ d + ∑ p, g p z := by
  have : 0 ≤ d + ∑ p, g p z - ∑ p, g p y := nonneg_of_small (b := q) fun t t0 t1 => by
    have h1 := h.2 ((1 - t) • y + t • z) fun p => (hc p).1 (h.1 p) (hz p) (by linarith) t0.le (by ring)
    have h2 : ∑ p, g p ((1 - t) • y + t • z) ≤ ∑ p, ((1 - t) * g p y + t * g p z) := sum_le_sum fun p _ => (hc p).2 (h.1 p) (hz p) (by linarith) t0.le (by ring)
    rw [sum_add_distrib, ← mul_sum, ← mul_sum] at h2
    rw [hf] at h1
    linarith
  linarith

/-- C142: let the state after `n` and after `n + 1` iterations converge to `t` along some iteration counts, with convex penalties. For all feasible factors `G`, equal to the limit in modes
that are not updated, the joint objective along the segment from the limit to `G` has a derivative at the limit, and the derivative plus the change of the penalties is not negative. -/
theorem C142 (P : Problem I K R nA nB nC J) (hsvd : ValidSVD P.params) (hN : 0 < P.params.nInner) (init : AOState I K R nA nB nC J)
    (outs : ℕ → Output (AOState I K R nA nB nC J)) (h : ∀ n : ℕ, cmfAoadmm P (plain n) init = .ok (outs n)) (t : AOState I K R nA nB nC J) (φ : ℕ → ℕ)
    (ht : StateTo (fun n => (outs (φ n)).st) t) (ht' : StateTo (fun n => (outs (φ n + 1)).st) t)
    (SA : Fin nA → Set (Matrix (Fin I) (Fin R) ℝ)) (gA : Fin nA → Matrix (Fin I) (Fin R) ℝ → ℝ) (ρA : Fin I → ℝ) (hA : P.updA = true → ConvexA P t.F SA gA ρA)
    (SB : Fin nB → Set (Ragged I R J)) (gB : Fin nB → Ragged I R J → ℝ) (ρB : Fin I → ℝ) (hB : P.updB = true → ConvexB P t.F SB gB ρB)
    (SC : Fin nC → Set (Matrix (Fin K) (Fin R) ℝ)) (gC : Fin nC → Matrix (Fin K) (Fin R) ℝ → ℝ) (hC : P.updC = true → ConvexC P t.F SC gC)
    (G : Factors I K R J) (hGA : if P.updA then ∀ p, G.A ∈ SA p else G.A = t.F.A) (hGB : if P.updB then ∀ p, G.B ∈ SB p else G.B = t.F.B)
    (hGC : if P.updC then ∀ p, G.C ∈ SC p else G.C = t.F.C) :
    ∃ d, HasDerivAt (fun s => ridgeObj P.X P.l2 (between t.F G s)) d 0 ∧
      ∑ p, gA p t.F.A + ∑ p, gB p t.F.B + ∑ p, gC p t.F.C ≤ d + (∑ p, gA p G.A + ∑ p, gB p G.B + ∑ p, gC p G.C) := by
  refine ⟨_, deriv_ridgeObj P.X P.l2 t.F G, ?_⟩
  obtain ⟨o1, o2, o3⟩ := C115 P hsvd hN init outs h t φ ht ht' SA gA ρA hA SB gB ρB hB SC gC hC
  have vA : ∑ p, gA p t.F.A ≤ ∑ i, ∑ r, gradA P.X P.l2.1 t.F t.F.A i r * (G.A i r - t.F.A i r) + ∑ p, gA p G.A := by
    by_cases u : P.updA = true
    · rw [if_pos u] at hGA
      refine vi_of_min (hA u).convex (o1 u).2 hGA (q := quadA P.l2.1 t.F (G.A - t.F.A)) fun s => ?_
      rw [fitA_expand P.X P.l2.1 t.F t.F.A, ← quadA_smul]
      congr 2
      · simp only [mul_sum]
        refine sum_congr rfl fun i _ => sum_congr rfl fun r _ => ?_
        simp
        ring
      · ext i r
        simp
        ring
    · rw [if_neg u] at hGA
      simp [hGA]
  have vB : ∑ p, gB p t.F.B ≤ ∑ i, ∑ j, ∑ r, gradB P.X P.l2.2.1 t.F t.F.B i j r * (G.B i j r - t.F.B i j r) + ∑ p, gB p G.B := by
    by_cases u : P.updB = true
    · rw [if_pos u] at hGB
      refine vi_of_min (hB u).convex (o2 u).2 hGB (q := quadB P.l2.2.1 t.F (G.B - t.F.B)) fun s => ?_
      rw [fitB_expand P.X P.l2.2.1 t.F t.F.B, ← quadB_smul]
      congr 2
      · simp only [mul_sum]
        refine sum_congr rfl fun i _ => sum_congr rfl fun j _ => sum_congr rfl fun r _ => ?_
        simp
        ring
      · funext i
        ext j r
        simp
        ring
    · rw [if_neg u] at hGB
      simp [hGB]
  have vC : ∑ p, gC p t.F.C ≤ ∑ k, ∑ r, gradC P.X P.l2.2.2 t.F t.F.C k r * (G.C k r - t.F.C k r) + ∑ p, gC p G.C := by
    by_cases u : P.updC = true
    · rw [if_pos u] at hGC
      refine vi_of_min (hC u).convex (o3 u).2 hGC (q := quadC P.l2.2.2 t.F (G.C - t.F.C)) fun s => ?_
      rw [fitC_expand P.X P.l2.2.2 t.F t.F.C, ← quadC_smul]
      congr 2
      · simp only [mul_sum]
        refine sum_congr rfl fun i _ => sum_congr rfl fun r _ => ?_
        simp
        ring
      · ext i r
        simp
        ring
    · rw [if_neg u] at hGC
      simp [hGC]
  rw [jointSlope]
  linarith

/-- C142 applies to the run of `halving_run`, whose factor A tends to 0: no non-negative choice of A decreases the joint objective to first order. -/
example : ∃ (prm : Params 1) (outs : ℕ → Output (AOState 1 1 1 1 0 0 (fun _ => 1))), (∀ n : ℕ, cmfAoadmm (halvingProblem prm) (plain n) (halvingState 1) = .ok (outs n)) ∧
    (∀ n, (outs n).st.F.A 0 0 = -(1 / 2) ^ n) ∧ ∀ a : ℝ, 0 ≤ a → ∃ d, HasDerivAt (fun s => ridgeObj dataNeg (halvingProblem prm).l2
      (between (halvingState 0).F ⟨Matrix.of fun _ _ => a, (halvingState 0).F.B, (halvingState 0).F.C⟩ s)) d 0 ∧ 0 ≤ d := by
  obtain ⟨prm, outs, hP, hN, ho, hA, hto, hto', cA⟩ := halving_run
  refine ⟨prm, outs, ho, hA, fun a ha => ?_⟩
  obtain ⟨d, h1, h2⟩ := C142 (halvingProblem prm) hP hN _ outs ho (halvingState 0) id hto hto' _ _ _ (fun _ => cA) Fin.elim0 Fin.elim0 (fun _ => 1) (fun h => by cases h)
    Fin.elim0 Fin.elim0 (fun h => by cases h) ⟨Matrix.of fun _ _ => a, (halvingState 0).F.B, (halvingState 0).F.C⟩ (by
      rw [if_pos (show (halvingProblem prm).updA = true from rfl)]
      intro _ i r
      exact ha) (by rw [if_neg (fun h => by cases h)]) (by rw [if_neg (fun h => by cases h)])
  refine ⟨d, h1, ?_⟩
  simpa [StdPen.fn] using h2

end Verif.Props
