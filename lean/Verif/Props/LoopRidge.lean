import Verif.Props.LoopObjective
import Verif.Props.LoopStops
import Verif.Props.LoopBound
import Mathlib.Analysis.Calculus.LocalExtr.Basic
import Mathlib.Analysis.Calculus.Deriv.Pow
import Mathlib.Analysis.Calculus.Deriv.Mul
import Mathlib.Topology.MetricSpace.Sequences

/-!
# C88: alternating ridge regression approaches stationary points

Without penalties and with a positive ridge on every updated factor the iterates stay bounded, their changes are square summable, there are accumulation points, and every
accumulation point is optimal in each updated factor and, if all factors are updated, a stationary point of the objective.
-/

namespace Verif.Props

open Verif.Loop Verif.ADMM Verif.Penalties Verif.Spec Finset Matrix Filter Topology

variable {I K R : ℕ} {J : Fin I → ℕ}

/-- The squared change of the factors, each weighted with its ridge parameter. -/
def moved (l : ℝ × ℝ × ℝ) (F G : Factors I K R J) : ℝ :=
  l.1 * sqNorm (G.A - F.A) + l.2.1 * raggedSq (G.B - F.B) + l.2.2 * sqNorm (G.C - F.C)

/-- A sequence of factors tends to `G`, entry by entry. -/
structure FactorsTo (F : ℕ → Factors I K R J) (G : Factors I K R J) : Prop where
  A : ∀ i r, Tendsto (fun n => (F n).A i r) atTop (𝓝 (G.A i r))
  B : ∀ i j r, Tendsto (fun n => (F n).B i j r) atTop (𝓝 (G.B i j r))
  C : ∀ k r, Tendsto (fun n => (F n).C k r) atTop (𝓝 (G.C k r))

/-! ### A minimiser of a quadratic function -/

theorem gain_of_min {V : Type} [AddCommGroup V] [Module ℝ V] {f : V → ℝ} {x y : V} {q : ℝ} (hmin : ∀ z, f x ≤ f z)
    (hid : ∀ t : ℝ, f ((1 - t) • x + t • y) = (1 - t) * f x + t * f y - t * (1 - t) * q) : f x + q ≤ f y := by
  have h1 : ∀ᶠ t in 𝓝[>] (0 : ℝ), (1 - t) * q ≤ f y - f x := by
    filter_upwards [self_mem_nhdsWithin] with t (ht : 0 < t)
    have := (hmin ((1 - t) • x + t • y)).trans_eq (hid t)
    nlinarith
  have h2 : Tendsto (fun t : ℝ => (1 - t) * q) (𝓝[>] 0) (𝓝 ((1 - 0) * q)) :=
    ((tendsto_const_nhds.sub tendsto_id).mul_const q).mono_left nhdsWithin_le_nhds
  have := le_of_tendsto h2 h1
  linarith

theorem sqNorm_mix {m n : ℕ} (x y : Matrix (Fin m) (Fin n) ℝ) (t : ℝ) :
    sqNorm ((1 - t) • x + t • y) = (1 - t) * sqNorm x + t * sqNorm y - t * (1 - t) * sqNorm (y - x) := by
  simp only [sqNorm, mul_sum, ← sum_add_distrib, ← sum_sub_distrib]
  refine sum_congr rfl fun i _ => sum_congr rfl fun r _ => ?_
  simp only [Matrix.add_apply, Matrix.smul_apply, Matrix.sub_apply, smul_eq_mul]
  ring

theorem raggedSq_mix {n : ℕ} (x y : Ragged I n J) (t : ℝ) :
    raggedSq ((1 - t) • x + t • y) = (1 - t) * raggedSq x + t * raggedSq y - t * (1 - t) * raggedSq (y - x) := by
  simp only [raggedSq, mul_sum, ← sum_add_distrib, ← sum_sub_distrib]
  exact sum_congr rfl fun i _ => sqNorm_mix (x i) (y i) t

theorem sse_mix (X : Ragged I K J) {F G H : Factors I K R J} {t : ℝ} (h : ∀ i j k, H.entry i j k = (1 - t) * F.entry i j k + t * G.entry i j k) :
    sse X H = (1 - t) * sse X F + t * sse X G - t * (1 - t) * raggedSq (G.recon - F.recon) := by
  simp only [sse, raggedSq, sqNorm, mul_sum, ← sum_add_distrib, ← sum_sub_distrib]
  refine sum_congr rfl fun i _ => sum_congr rfl fun j _ => sum_congr rfl fun k _ => ?_
  rw [h, show (G.recon - F.recon) i j k = G.entry i j k - F.entry i j k from rfl]
  ring

theorem raggedSq_nn {n : ℕ} (x : Ragged I n J) : 0 ≤ raggedSq x := sum_nonneg fun _ _ => sum_nonneg fun _ _ => sum_nonneg fun _ _ => sq_nonneg _

theorem sqNorm_nn {m n : ℕ} (x : Matrix (Fin m) (Fin n) ℝ) : 0 ≤ sqNorm x := sum_nonneg fun _ _ => sum_nonneg fun _ _ => sq_nonneg _

theorem gain_A {X : Ragged I K J} {l : ℝ × ℝ × ℝ} {F : Factors I K R J} {x : Matrix (Fin I) (Fin R) ℝ}
    (hmin : ∀ Y, ridgeObj X l ⟨x, F.B, F.C⟩ ≤ ridgeObj X l ⟨Y, F.B, F.C⟩) (y : Matrix (Fin I) (Fin R) ℝ) :
    ridgeObj X l ⟨x, F.B, F.C⟩ + l.1 / 2 * sqNorm (y - x) ≤ ridgeObj X l ⟨y, F.B, F.C⟩ := by
  have := gain_of_min (f := fun Y => ridgeObj X l ⟨Y, F.B, F.C⟩) (y := y)
    (q := 1 / 2 * raggedSq ((⟨y, F.B, F.C⟩ : Factors I K R J).recon - (⟨x, F.B, F.C⟩ : Factors I K R J).recon) + l.1 / 2 * sqNorm (y - x)) hmin fun t => by
    simp only [ridgeObj]
    rw [sse_mix X (F := ⟨x, F.B, F.C⟩) (G := ⟨y, F.B, F.C⟩) (t := t) fun i j k => ?_, sqNorm_mix]
    · ring
    · simp only [Factors.entry, mul_sum, ← sum_add_distrib]
      refine sum_congr rfl fun r _ => ?_
      simp only [Matrix.add_apply, Matrix.smul_apply, smul_eq_mul]
      ring
  have := raggedSq_nn ((⟨y, F.B, F.C⟩ : Factors I K R J).recon - (⟨x, F.B, F.C⟩ : Factors I K R J).recon)
  linarith

theorem gain_B {X : Ragged I K J} {l : ℝ × ℝ × ℝ} {F : Factors I K R J} {x : Ragged I R J}
    (hmin : ∀ Y, ridgeObj X l ⟨F.A, x, F.C⟩ ≤ ridgeObj X l ⟨F.A, Y, F.C⟩) (y : Ragged I R J) :
    ridgeObj X l ⟨F.A, x, F.C⟩ + l.2.1 / 2 * raggedSq (y - x) ≤ ridgeObj X l ⟨F.A, y, F.C⟩ := by
  have := gain_of_min (f := fun Y => ridgeObj X l ⟨F.A, Y, F.C⟩) (y := y)
    (q := 1 / 2 * raggedSq ((⟨F.A, y, F.C⟩ : Factors I K R J).recon - (⟨F.A, x, F.C⟩ : Factors I K R J).recon) + l.2.1 / 2 * raggedSq (y - x)) hmin fun t => by
    simp only [ridgeObj]
    rw [sse_mix X (F := ⟨F.A, x, F.C⟩) (G := ⟨F.A, y, F.C⟩) (t := t) fun i j k => ?_, raggedSq_mix]
    · ring
    · simp only [Factors.entry, mul_sum, ← sum_add_distrib]
      refine sum_congr rfl fun r _ => ?_
      simp only [Pi.add_apply, Pi.smul_apply, Matrix.add_apply, Matrix.smul_apply, smul_eq_mul]
      ring
  have := raggedSq_nn ((⟨F.A, y, F.C⟩ : Factors I K R J).recon - (⟨F.A, x, F.C⟩ : Factors I K R J).recon)
  linarith

theorem gain_C {X : Ragged I K J} {l : ℝ × ℝ × ℝ} {F : Factors I K R J} {x : Matrix (Fin K) (Fin R) ℝ}
    (hmin : ∀ Y, ridgeObj X l ⟨F.A, F.B, x⟩ ≤ ridgeObj X l ⟨F.A, F.B, Y⟩) (y : Matrix (Fin K) (Fin R) ℝ) :
    ridgeObj X l ⟨F.A, F.B, x⟩ + l.2.2 / 2 * sqNorm (y - x) ≤ ridgeObj X l ⟨F.A, F.B, y⟩ := by
  have := gain_of_min (f := fun Y => ridgeObj X l ⟨F.A, F.B, Y⟩) (y := y)
    (q := 1 / 2 * raggedSq ((⟨F.A, F.B, y⟩ : Factors I K R J).recon - (⟨F.A, F.B, x⟩ : Factors I K R J).recon) + l.2.2 / 2 * sqNorm (y - x)) hmin fun t => by
    simp only [ridgeObj]
    rw [sse_mix X (F := ⟨F.A, F.B, x⟩) (G := ⟨F.A, F.B, y⟩) (t := t) fun i j k => ?_, sqNorm_mix]
    · ring
    · simp only [Factors.entry, mul_sum, ← sum_add_distrib]
      refine sum_congr rfl fun r _ => ?_
      simp only [Matrix.add_apply, Matrix.smul_apply, smul_eq_mul]
      ring
  have := raggedSq_nn ((⟨F.A, F.B, y⟩ : Factors I K R J).recon - (⟨F.A, F.B, x⟩ : Factors I K R J).recon)
  linarith

/-! ### One round of updates -/

/-- The ridge parameters of the updated factors are positive. -/
structure RidgeOn (P : Problem I K R 0 0 0 J) : Prop where
  A : P.updA = true → 0 < P.l2.1
  B : P.updB = true → 0 < P.l2.2.1
  C : P.updC = true → 0 < P.l2.2.2

theorem sqNorm_sub_comm' {m n : ℕ} (x y : Matrix (Fin m) (Fin n) ℝ) : sqNorm (x - y) = sqNorm (y - x) :=
  sum_congr rfl fun _ _ => sum_congr rfl fun _ _ => by simp only [Matrix.sub_apply]; ring

theorem raggedSq_sub_comm' {n : ℕ} (x y : Ragged I n J) : raggedSq (x - y) = raggedSq (y - x) :=
  sum_congr rfl fun i _ => sqNorm_sub_comm' (x i) (y i)

theorem raggedSq_self {n : ℕ} (x : Ragged I n J) : raggedSq (x - x) = 0 := by simp [raggedSq, sqNorm]

theorem sqNorm_self {m n : ℕ} (x : Matrix (Fin m) (Fin n) ℝ) : sqNorm (x - x) = 0 := by simp [sqNorm]

/-- One round: each updated factor minimises the objective given the factors in use at that moment, and the objective decreases by half the squared change. -/
theorem ridge_round {P : Problem I K R 0 0 0 J} (hl : RidgeOn P) (hsvd : ValidSVD P.params) (hN : 0 < P.params.nInner) {s t : AOState I K R 0 0 0 J}
    {i : Option (Inter I R)} (h : sweep P s = .ok (t, i)) :
    (P.updB = true → ∀ Y, ridgeObj P.X P.l2 ⟨s.F.A, t.F.B, s.F.C⟩ ≤ ridgeObj P.X P.l2 ⟨s.F.A, Y, s.F.C⟩) ∧
    (P.updC = true → ∀ Y, ridgeObj P.X P.l2 ⟨s.F.A, t.F.B, t.F.C⟩ ≤ ridgeObj P.X P.l2 ⟨s.F.A, t.F.B, Y⟩) ∧
    (P.updA = true → ∀ Y, ridgeObj P.X P.l2 t.F ≤ ridgeObj P.X P.l2 ⟨Y, t.F.B, t.F.C⟩) ∧
    (P.updA = false → t.F.A = s.F.A) ∧ (P.updB = false → t.F.B = s.F.B) ∧ (P.updC = false → t.F.C = s.F.C) ∧
    ridgeObj P.X P.l2 t.F + 1 / 2 * moved P.l2 s.F t.F ≤ ridgeObj P.X P.l2 s.F := by
  have hinv := invertible_of_l2 P hl.A hl.B hl.C s
  obtain ⟨u, hB, hA⟩ := sweep_ok h
  obtain ⟨uA, uC, ub, -⟩ := sweepB_frame hB
  obtain ⟨vA, vB, vc, -⟩ := sweepC_frame P u
  obtain ⟨tB, tC, ta, -⟩ := sweepA_frame hA
  have e1 : t.F.B = u.F.B := tB.trans vB
  have m1 : P.updB = true → ∀ Y, ridgeObj P.X P.l2 ⟨s.F.A, t.F.B, s.F.C⟩ ≤ ridgeObj P.X P.l2 ⟨s.F.A, Y, s.F.C⟩ := by
    intro hb Y
    rw [e1]
    unfold sweepB at hB
    rw [if_pos hb] at hB
    cases hu : admmUpdateB P.params P.X P.pensB P.l2.2.1 P.constB s.F s.auxB s.dualB with
    | error e => rw [hu] at hB; cases hB
    | ok w =>
      rw [hu] at hB; cases hB
      by_cases hne : Y = w.x
      · rw [hne]
      · exact (C27_B P.params hsvd hN P.X P.l2 P.constB s.F P.pensB s.auxB s.dualB (hinv.1 hb) w hu Y hne).le
  have m2 : P.updC = true → ∀ Y, ridgeObj P.X P.l2 ⟨s.F.A, t.F.B, t.F.C⟩ ≤ ridgeObj P.X P.l2 ⟨s.F.A, t.F.B, Y⟩ := by
    intro hc Y
    rw [e1, tC, ← uA]
    unfold sweepC
    rw [if_pos hc]
    by_cases hne : Y = (admmUpdateC P.params P.X P.pensC P.l2.2.2 u.F u.auxC u.dualC).x
    · rw [hne]
    · exact (C27_C P.params hsvd hN P.X P.l2 u.F P.pensC u.auxC u.dualC ((hinv.2 u hB).1 hc) Y hne).le
  have m3 : P.updA = true → ∀ Y, ridgeObj P.X P.l2 t.F ≤ ridgeObj P.X P.l2 ⟨Y, t.F.B, t.F.C⟩ := by
    intro ha Y
    rw [tB, tC]
    unfold sweepA at hA
    rw [if_pos ha] at hA
    cases hu : admmUpdateA P.params P.X P.pensA P.l2.1 P.constA (sweepC P u).F (sweepC P u).auxA (sweepC P u).dualA with
    | error e => rw [hu] at hA; cases hA
    | ok w =>
      rw [hu] at hA; cases hA
      by_cases hne : Y = w.x
      · rw [hne]
      · exact (C27_A P.params hsvd hN P.X P.l2 P.constA (sweepC P u).F P.pensA _ _ ((hinv.2 u hB).2 ha) w hu _ hne).le
  have f1 : P.updA = false → t.F.A = s.F.A := fun ha => by rw [(ta ha).1, vA, uA]
  have f2 : P.updB = false → t.F.B = s.F.B := fun hb => by rw [e1, ub hb]
  have f3 : P.updC = false → t.F.C = s.F.C := fun hc => by rw [tC, vc hc, uC]
  refine ⟨m1, m2, m3, f1, f2, f3, ?_⟩
  have g1 : ridgeObj P.X P.l2 ⟨s.F.A, t.F.B, s.F.C⟩ + P.l2.2.1 / 2 * raggedSq (t.F.B - s.F.B) ≤ ridgeObj P.X P.l2 s.F := by
    cases hb : P.updB with
    | true => rw [raggedSq_sub_comm']; exact gain_B (F := s.F) (m1 hb) s.F.B
    | false => rw [f2 hb, raggedSq_self, mul_zero, add_zero]
  have g2 : ridgeObj P.X P.l2 ⟨s.F.A, t.F.B, t.F.C⟩ + P.l2.2.2 / 2 * sqNorm (t.F.C - s.F.C) ≤ ridgeObj P.X P.l2 ⟨s.F.A, t.F.B, s.F.C⟩ := by
    cases hc : P.updC with
    | true => rw [sqNorm_sub_comm']; exact gain_C (F := ⟨s.F.A, t.F.B, s.F.C⟩) (m2 hc) s.F.C
    | false => rw [f3 hc, sqNorm_self, mul_zero, add_zero]
  have g3 : ridgeObj P.X P.l2 t.F + P.l2.1 / 2 * sqNorm (t.F.A - s.F.A) ≤ ridgeObj P.X P.l2 ⟨s.F.A, t.F.B, t.F.C⟩ := by
    cases ha : P.updA with
    | true => rw [sqNorm_sub_comm']; exact gain_A (F := t.F) (m3 ha) s.F.A
    | false => rw [← f1 ha, sqNorm_self, mul_zero, add_zero]
  unfold moved
  linarith

/-! ### Limits -/

theorem tendsto_ridge {X : Ragged I K J} {l : ℝ × ℝ × ℝ} {F : ℕ → Factors I K R J} {G : Factors I K R J} (h : FactorsTo F G) :
    Tendsto (fun n => ridgeObj X l (F n)) atTop (𝓝 (ridgeObj X l G)) := by
  have hF : ∀ i j k, Tendsto (fun n => (F n).entry i j k) atTop (𝓝 (G.entry i j k)) :=
    fun i j k => tendsto_finsetSum _ fun r _ => ((h.A i r).mul (h.B i j r)).mul (h.C k r)
  have hsse : Tendsto (fun n => sse X (F n)) atTop (𝓝 (sse X G)) :=
    tendsto_finsetSum _ fun i _ => tendsto_finsetSum _ fun j _ => tendsto_finsetSum _ fun k _ => (tendsto_const_nhds.sub (hF i j k)).pow 2
  exact (hsse.const_mul _).add ((((tendsto_sqNorm h.A).const_mul _).add ((tendsto_raggedSq h.B).const_mul _)).add ((tendsto_sqNorm h.C).const_mul _) |>.const_mul _)

theorem entry_le_sqNorm {m n : ℕ} (x : Matrix (Fin m) (Fin n) ℝ) (i : Fin m) (r : Fin n) : x i r ^ 2 ≤ sqNorm x :=
  (single_le_sum (f := fun r => x i r ^ 2) (fun _ _ => sq_nonneg _) (mem_univ r)).trans
    (single_le_sum (f := fun i => ∑ r, x i r ^ 2) (fun _ _ => sum_nonneg fun _ _ => sq_nonneg _) (mem_univ i))

theorem entry_le_raggedSq {n : ℕ} (x : Ragged I n J) (i : Fin I) (j : Fin (J i)) (r : Fin n) : x i j r ^ 2 ≤ raggedSq x :=
  (entry_le_sqNorm (x i) j r).trans (single_le_sum (f := fun i => sqNorm (x i)) (fun _ _ => sqNorm_nn _) (mem_univ i))

/-- A number whose square is bounded by a multiple of something that tends to zero tends to zero. -/
theorem tendsto_of_sq_le {u v : ℕ → ℝ} {c : ℝ} (hc : 0 < c) (h : ∀ n, c * u n ^ 2 ≤ v n) (hv : Tendsto v atTop (𝓝 0)) : Tendsto u atTop (𝓝 0) := by
  have h1 : Tendsto (fun n => √(v n / c)) atTop (𝓝 0) := by
    have := (hv.div_const c).sqrt
    rwa [zero_div, Real.sqrt_zero] at this
  refine squeeze_zero_norm (fun n => ?_) h1
  rw [Real.norm_eq_abs]
  refine Real.abs_le_sqrt ?_
  rw [le_div_iff₀ hc, mul_comm]
  exact h n

/-- A sequence of factors with bounded entries has a convergent subsequence. -/
theorem exists_factorsTo (F : ℕ → Factors I K R J) (M : ℝ) (hA : ∀ n i r, |(F n).A i r| ≤ M) (hB : ∀ n i j r, |(F n).B i j r| ≤ M) (hC : ∀ n k r, |(F n).C k r| ≤ M) :
    ∃ (G : Factors I K R J) (φ : ℕ → ℕ), StrictMono φ ∧ FactorsTo (fun n => F (φ n)) G := by
  let u : ℕ → ((Fin I × Fin R) ⊕ ((i : Fin I) × Fin (J i) × Fin R) ⊕ (Fin K × Fin R)) → ℝ := fun n =>
    Sum.elim (fun p => (F n).A p.1 p.2) (Sum.elim (fun p => (F n).B p.1 p.2.1 p.2.2) fun p => (F n).C p.1 p.2)
  have hu : ∀ n, u n ∈ Set.Icc (fun _ => -M) (fun _ => M) := by
    intro n
    constructor
    · rintro (p | p | p)
      exacts [(abs_le.1 (hA n _ _)).1, (abs_le.1 (hB n _ _ _)).1, (abs_le.1 (hC n _ _)).1]
    · rintro (p | p | p)
      exacts [(abs_le.1 (hA n _ _)).2, (abs_le.1 (hB n _ _ _)).2, (abs_le.1 (hC n _ _)).2]
  obtain ⟨g, -, φ, hφ, hg⟩ := (isCompact_Icc (a := fun _ => -M) (b := fun _ => M)).tendsto_subseq hu
  have hg' := tendsto_pi_nhds.1 hg
  refine ⟨⟨Matrix.of fun i r => g (.inl (i, r)), fun i => Matrix.of fun j r => g (.inr (.inl ⟨i, j, r⟩)), Matrix.of fun k r => g (.inr (.inr (k, r)))⟩, φ, hφ, ⟨?_, ?_, ?_⟩⟩
  · exact fun i r => hg' (.inl (i, r))
  · exact fun i j r => hg' (.inr (.inl ⟨i, j, r⟩))
  · exact fun k r => hg' (.inr (.inr (k, r)))

/-- `G` is the only optimum in each of the factors that are updated, given the other two. -/
structure BlockOptimal (X : Ragged I K J) (l : ℝ × ℝ × ℝ) (updA updB updC : Bool) (G : Factors I K R J) : Prop where
  A : updA = true → ∀ Y, Y ≠ G.A → ridgeObj X l G < ridgeObj X l ⟨Y, G.B, G.C⟩
  B : updB = true → ∀ Y, Y ≠ G.B → ridgeObj X l G < ridgeObj X l ⟨G.A, Y, G.C⟩
  C : updC = true → ∀ Y, Y ≠ G.C → ridgeObj X l G < ridgeObj X l ⟨G.A, G.B, Y⟩

/-- What is known of a run: descent, boundedness and vanishing changes. -/
theorem ridge_facts {P : Problem I K R 0 0 0 J} (hl : RidgeOn P) (hsvd : ValidSVD P.params) (hN : 0 < P.params.nInner) {init : AOState I K R 0 0 0 J}
    {outs : ℕ → Output (AOState I K R 0 0 0 J)} (h : ∀ n : ℕ, cmfAoadmm P (plain n) init = .ok (outs n)) :
    (∀ n, P.l2.1 * sqNorm (outs n).st.F.A + P.l2.2.1 * raggedSq (outs n).st.F.B + P.l2.2.2 * sqNorm (outs n).st.F.C ≤ 2 * ridgeObj P.X P.l2 init.F) ∧
    (∀ n, ∑ k ∈ range n, moved P.l2 (outs k).st.F (outs (k + 1)).st.F ≤ 2 * (ridgeObj P.X P.l2 init.F - ridgeObj P.X P.l2 (outs n).st.F)) ∧
    (Antitone fun n => ridgeObj P.X P.l2 (outs n).st.F) ∧
    (∃ M, (∀ n i r, |(outs n).st.F.A i r| ≤ M) ∧ (∀ n i j r, |(outs n).st.F.B i j r| ≤ M) ∧ ∀ n k r, |(outs n).st.F.C k r| ≤ M) ∧
    (∀ i r, Tendsto (fun n => (outs (n + 1)).st.F.A i r - (outs n).st.F.A i r) atTop (𝓝 0)) ∧
    (∀ i j r, Tendsto (fun n => (outs (n + 1)).st.F.B i j r - (outs n).st.F.B i j r) atTop (𝓝 0)) ∧
    ∀ k r, Tendsto (fun n => (outs (n + 1)).st.F.C k r - (outs n).st.F.C k r) atTop (𝓝 0) := by
  obtain ⟨h0, hs⟩ := outs_succ h
  set F : ℕ → Factors I K R J := fun n => (outs n).st.F with hF
  have round : ∀ n, _ := fun n => ridge_round hl hsvd hN (hs n).choose_spec
  have hF0 : F 0 = init.F := by rw [hF]; simp only [h0]
  have hsum : ∀ n, ∑ k ∈ range n, moved P.l2 (F k) (F (k + 1)) ≤ 2 * (ridgeObj P.X P.l2 init.F - ridgeObj P.X P.l2 (F n)) := by
    intro n
    induction n with
    | zero => rw [hF0]; simp
    | succ n ih => rw [sum_range_succ]; have := (round n).2.2.2.2.2.2; linarith
  have fixA : P.updA = false → ∀ n, (F n).A = init.F.A := fun ha n => by
    induction n with
    | zero => rw [hF0]
    | succ n ih => exact ((round n).2.2.2.1 ha).trans ih
  have fixB : P.updB = false → ∀ n, (F n).B = init.F.B := fun ha n => by
    induction n with
    | zero => rw [hF0]
    | succ n ih => exact ((round n).2.2.2.2.1 ha).trans ih
  have fixC : P.updC = false → ∀ n, (F n).C = init.F.C := fun ha n => by
    induction n with
    | zero => rw [hF0]
    | succ n ih => exact ((round n).2.2.2.2.2.1 ha).trans ih
  -- the parts of the squared change
  have nA : ∀ n, 0 ≤ P.l2.1 * sqNorm ((F (n + 1)).A - (F n).A) := fun n => by
    cases ha : P.updA with
    | true => exact mul_nonneg (hl.A ha).le (sqNorm_nn _)
    | false => rw [fixA ha, fixA ha, sqNorm_self, mul_zero]
  have nB : ∀ n, 0 ≤ P.l2.2.1 * raggedSq ((F (n + 1)).B - (F n).B) := fun n => by
    cases ha : P.updB with
    | true => exact mul_nonneg (hl.B ha).le (raggedSq_nn _)
    | false => rw [fixB ha, fixB ha, raggedSq_self, mul_zero]
  have nC : ∀ n, 0 ≤ P.l2.2.2 * sqNorm ((F (n + 1)).C - (F n).C) := fun n => by
    cases ha : P.updC with
    | true => exact mul_nonneg (hl.C ha).le (sqNorm_nn _)
    | false => rw [fixC ha, fixC ha, sqNorm_self, mul_zero]
  have hm0 : ∀ n, 0 ≤ moved P.l2 (F n) (F (n + 1)) := fun n => by
    have := nA n; have := nB n; have := nC n
    unfold moved; linarith
  have hdec : ∀ n, ridgeObj P.X P.l2 (F (n + 1)) ≤ ridgeObj P.X P.l2 (F n) := fun n => by
    have := (round n).2.2.2.2.2.2
    have := hm0 n
    linarith
  have hanti : Antitone fun n => ridgeObj P.X P.l2 (F n) := antitone_nat_of_succ_le hdec
  have hbound : ∀ n, P.l2.1 * sqNorm (F n).A + P.l2.2.1 * raggedSq (F n).B + P.l2.2.2 * sqNorm (F n).C ≤ 2 * ridgeObj P.X P.l2 init.F := fun n => by
    have h1 := hanti (Nat.zero_le n)
    simp only [hF0] at h1
    have h2 := sse_nonneg P.X (F n)
    have h3 : ridgeObj P.X P.l2 (F n) = 1 / 2 * sse P.X (F n) + 1 / 2 * (P.l2.1 * sqNorm (F n).A + P.l2.2.1 * raggedSq (F n).B + P.l2.2.2 * sqNorm (F n).C) := rfl
    linarith
  -- boundedness of the entries
  set tA := |P.l2.1| * sqNorm init.F.A
  set tB := |P.l2.2.1| * raggedSq init.F.B
  set tC := |P.l2.2.2| * sqNorm init.F.C
  have pA : 0 ≤ tA := mul_nonneg (abs_nonneg _) (sqNorm_nn _)
  have pB : 0 ≤ tB := mul_nonneg (abs_nonneg _) (raggedSq_nn _)
  have pC : 0 ≤ tC := mul_nonneg (abs_nonneg _) (sqNorm_nn _)
  have lA : ∀ n, -tA ≤ P.l2.1 * sqNorm (F n).A := fun n => by
    cases ha : P.updA with
    | true => have := mul_nonneg (hl.A ha).le (sqNorm_nn (F n).A); linarith
    | false => rw [fixA ha]; have := mul_le_mul_of_nonneg_right (neg_abs_le P.l2.1) (sqNorm_nn init.F.A); linarith
  have lB : ∀ n, -tB ≤ P.l2.2.1 * raggedSq (F n).B := fun n => by
    cases ha : P.updB with
    | true => have := mul_nonneg (hl.B ha).le (raggedSq_nn (F n).B); linarith
    | false => rw [fixB ha]; have := mul_le_mul_of_nonneg_right (neg_abs_le P.l2.2.1) (raggedSq_nn init.F.B); linarith
  have lC : ∀ n, -tC ≤ P.l2.2.2 * sqNorm (F n).C := fun n => by
    cases ha : P.updC with
    | true => have := mul_nonneg (hl.C ha).le (sqNorm_nn (F n).C); linarith
    | false => rw [fixC ha]; have := mul_le_mul_of_nonneg_right (neg_abs_le P.l2.2.2) (sqNorm_nn init.F.C); linarith
  set T := 2 * ridgeObj P.X P.l2 init.F + tA + tB + tC
  have bA : ∃ M, ∀ n, sqNorm (F n).A ≤ M := by
    cases ha : P.updA with
    | true =>
      refine ⟨T / P.l2.1, fun n => ?_⟩
      rw [le_div_iff₀ (hl.A ha), mul_comm]
      have := hbound n; have := lB n; have := lC n
      linarith
    | false => exact ⟨_, fun n => by rw [fixA ha]⟩
  have bB : ∃ M, ∀ n, raggedSq (F n).B ≤ M := by
    cases ha : P.updB with
    | true =>
      refine ⟨T / P.l2.2.1, fun n => ?_⟩
      rw [le_div_iff₀ (hl.B ha), mul_comm]
      have := hbound n; have := lA n; have := lC n
      linarith
    | false => exact ⟨_, fun n => by rw [fixB ha]⟩
  have bC : ∃ M, ∀ n, sqNorm (F n).C ≤ M := by
    cases ha : P.updC with
    | true =>
      refine ⟨T / P.l2.2.2, fun n => ?_⟩
      rw [le_div_iff₀ (hl.C ha), mul_comm]
      have := hbound n; have := lA n; have := lB n
      linarith
    | false => exact ⟨_, fun n => by rw [fixC ha]⟩
  obtain ⟨MA, hMA⟩ := bA
  obtain ⟨MB, hMB⟩ := bB
  obtain ⟨MC, hMC⟩ := bC
  have hex : ∃ M, (∀ n i r, |(F n).A i r| ≤ M) ∧ (∀ n i j r, |(F n).B i j r| ≤ M) ∧ ∀ n k r, |(F n).C k r| ≤ M :=
    ⟨√MA + √MB + √MC,
      fun n i r => (Real.abs_le_sqrt ((entry_le_sqNorm _ i r).trans (hMA n))).trans (by have := Real.sqrt_nonneg MB; have := Real.sqrt_nonneg MC; linarith),
      fun n i j r => (Real.abs_le_sqrt ((entry_le_raggedSq _ i j r).trans (hMB n))).trans (by have := Real.sqrt_nonneg MA; have := Real.sqrt_nonneg MC; linarith),
      fun n k r => (Real.abs_le_sqrt ((entry_le_sqNorm _ k r).trans (hMC n))).trans (by have := Real.sqrt_nonneg MA; have := Real.sqrt_nonneg MB; linarith)⟩
  -- the changes tend to zero
  have hT : ∀ n, ∑ k ∈ range n, moved P.l2 (F k) (F (k + 1)) ≤ T := fun n => by
    refine (hsum n).trans ?_
    have := hbound n; have := lA n; have := lB n; have := lC n
    have h2 := sse_nonneg P.X (F n)
    have h3 : ridgeObj P.X P.l2 (F n) = 1 / 2 * sse P.X (F n) + 1 / 2 * (P.l2.1 * sqNorm (F n).A + P.l2.2.1 * raggedSq (F n).B + P.l2.2.2 * sqNorm (F n).C) := rfl
    linarith
  have hmv : Tendsto (fun n => moved P.l2 (F n) (F (n + 1))) atTop (𝓝 0) := (summable_of_sum_range_le hm0 hT).tendsto_atTop_zero
  have cA : ∀ i r, Tendsto (fun n => (F (n + 1)).A i r - (F n).A i r) atTop (𝓝 0) := fun i r => by
    cases ha : P.updA with
    | true =>
      refine tendsto_of_sq_le (hl.A ha) (fun n => ?_) hmv
      refine (mul_le_mul_of_nonneg_left (entry_le_sqNorm ((F (n + 1)).A - (F n).A) i r) (hl.A ha).le).trans ?_
      have := nB n; have := nC n
      unfold moved; linarith
    | false => simp only [fixA ha, sub_self]; exact tendsto_const_nhds
  have cB : ∀ i j r, Tendsto (fun n => (F (n + 1)).B i j r - (F n).B i j r) atTop (𝓝 0) := fun i j r => by
    cases ha : P.updB with
    | true =>
      refine tendsto_of_sq_le (hl.B ha) (fun n => ?_) hmv
      refine (mul_le_mul_of_nonneg_left (entry_le_raggedSq ((F (n + 1)).B - (F n).B) i j r) (hl.B ha).le).trans ?_
      have := nA n; have := nC n
      unfold moved; linarith
    | false => simp only [fixB ha, sub_self]; exact tendsto_const_nhds
  have cC : ∀ k r, Tendsto (fun n => (F (n + 1)).C k r - (F n).C k r) atTop (𝓝 0) := fun k r => by
    cases ha : P.updC with
    | true =>
      refine tendsto_of_sq_le (hl.C ha) (fun n => ?_) hmv
      refine (mul_le_mul_of_nonneg_left (entry_le_sqNorm ((F (n + 1)).C - (F n).C) k r) (hl.C ha).le).trans ?_
      have := nA n; have := nB n
      unfold moved; linarith
    | false => simp only [fixC ha, sub_self]; exact tendsto_const_nhds
  exact ⟨hbound, hsum, hanti, hex, cA, cB, cC⟩

/-- Where the iterates of a subsequence tend to `G`, the next iterates do so too. -/
theorem next_to {P : Problem I K R 0 0 0 J} (hl : RidgeOn P) (hsvd : ValidSVD P.params) (hN : 0 < P.params.nInner) {init : AOState I K R 0 0 0 J}
    {outs : ℕ → Output (AOState I K R 0 0 0 J)} (h : ∀ n : ℕ, cmfAoadmm P (plain n) init = .ok (outs n)) {G : Factors I K R J} {φ : ℕ → ℕ}
    (hφ : Tendsto φ atTop atTop) (hG : FactorsTo (fun n => (outs (φ n)).st.F) G) : FactorsTo (fun n => (outs (φ n + 1)).st.F) G := by
  obtain ⟨-, -, -, -, cA, cB, cC⟩ := ridge_facts hl hsvd hN h
  refine ⟨fun i r => ?_, fun i j r => ?_, fun k r => ?_⟩
  · have := (hG.A i r).add ((cA i r).comp hφ)
    simpa only [Function.comp_def, add_sub_cancel, add_zero] using this
  · have := (hG.B i j r).add ((cB i j r).comp hφ)
    simpa only [Function.comp_def, add_sub_cancel, add_zero] using this
  · have := (hG.C k r).add ((cC k r).comp hφ)
    simpa only [Function.comp_def, add_sub_cancel, add_zero] using this

/-- C88: without penalties and with a positive ridge on every updated factor,
* the factors stay bounded,
* the squared changes of `n` iterations sum up to at most twice the decrease of the objective,
* some subsequence of the iterates converges, and
* every limit of a subsequence is optimal in each updated factor, and the objective tends to its objective. -/
theorem C88 (P : Problem I K R 0 0 0 J) (hl : RidgeOn P) (hsvd : ValidSVD P.params) (hN : 0 < P.params.nInner) (init : AOState I K R 0 0 0 J)
    (outs : ℕ → Output (AOState I K R 0 0 0 J)) (h : ∀ n : ℕ, cmfAoadmm P (plain n) init = .ok (outs n)) :
    (∀ n, P.l2.1 * sqNorm (outs n).st.F.A + P.l2.2.1 * raggedSq (outs n).st.F.B + P.l2.2.2 * sqNorm (outs n).st.F.C ≤ 2 * ridgeObj P.X P.l2 init.F) ∧
    (∀ n, ∑ k ∈ range n, moved P.l2 (outs k).st.F (outs (k + 1)).st.F ≤ 2 * (ridgeObj P.X P.l2 init.F - ridgeObj P.X P.l2 (outs n).st.F)) ∧
    (∃ (G : Factors I K R J) (φ : ℕ → ℕ), StrictMono φ ∧ FactorsTo (fun n => (outs (φ n)).st.F) G) ∧
    ∀ (G : Factors I K R J) (φ : ℕ → ℕ), StrictMono φ → FactorsTo (fun n => (outs (φ n)).st.F) G →
      BlockOptimal P.X P.l2 P.updA P.updB P.updC G ∧ Tendsto (fun n => ridgeObj P.X P.l2 (outs n).st.F) atTop (𝓝 (ridgeObj P.X P.l2 G)) := by
  obtain ⟨hbound, hsum, hanti, ⟨M, hA, hB, hC⟩, -⟩ := ridge_facts hl hsvd hN h
  refine ⟨hbound, hsum, exists_factorsTo (fun n => (outs n).st.F) M hA hB hC, fun G φ hφ hG => ?_⟩
  obtain ⟨-, hs⟩ := outs_succ h
  set F : ℕ → Factors I K R J := fun n => (outs n).st.F
  have round : ∀ n, _ := fun n => ridge_round hl hsvd hN (hs n).choose_spec
  have hφ' := hφ.tendsto_atTop
  obtain ⟨gA, gB, gC⟩ := next_to hl hsvd hN h hφ' hG
  have oA : P.updA = true → ∀ Y, ridgeObj P.X P.l2 ⟨G.A, G.B, G.C⟩ ≤ ridgeObj P.X P.l2 ⟨Y, G.B, G.C⟩ := fun ha Y =>
    le_of_tendsto_of_tendsto' (tendsto_ridge (F := fun n => F (φ n + 1)) ⟨gA, gB, gC⟩)
      (tendsto_ridge (F := fun n => ⟨Y, (F (φ n + 1)).B, (F (φ n + 1)).C⟩) ⟨fun _ _ => tendsto_const_nhds, gB, gC⟩) fun n => (round (φ n)).2.2.1 ha Y
  have oB : P.updB = true → ∀ Y, ridgeObj P.X P.l2 ⟨G.A, G.B, G.C⟩ ≤ ridgeObj P.X P.l2 ⟨G.A, Y, G.C⟩ := fun hb Y =>
    le_of_tendsto_of_tendsto' (tendsto_ridge (F := fun n => ⟨(F (φ n)).A, (F (φ n + 1)).B, (F (φ n)).C⟩) ⟨hG.A, gB, hG.C⟩)
      (tendsto_ridge (F := fun n => ⟨(F (φ n)).A, Y, (F (φ n)).C⟩) ⟨hG.A, fun _ _ _ => tendsto_const_nhds, hG.C⟩) fun n => (round (φ n)).1 hb Y
  have oC : P.updC = true → ∀ Y, ridgeObj P.X P.l2 ⟨G.A, G.B, G.C⟩ ≤ ridgeObj P.X P.l2 ⟨G.A, G.B, Y⟩ := fun hc Y =>
    le_of_tendsto_of_tendsto' (tendsto_ridge (F := fun n => ⟨(F (φ n)).A, (F (φ n + 1)).B, (F (φ n + 1)).C⟩) ⟨hG.A, gB, gC⟩)
      (tendsto_ridge (F := fun n => ⟨(F (φ n)).A, (F (φ n + 1)).B, Y⟩) ⟨hG.A, gB, fun _ _ => tendsto_const_nhds⟩) fun n => (round (φ n)).2.1 hc Y
  refine ⟨⟨fun ha Y hY => ?_, fun hb Y hY => ?_, fun hc Y hY => ?_⟩, ?_⟩
  · exact (lt_add_of_pos_right _ (mul_pos (half_pos (hl.A ha)) (sqNorm_pos (sub_ne_zero.2 hY)))).trans_le (gain_A (F := G) (oA ha) Y)
  · exact (lt_add_of_pos_right _ (mul_pos (half_pos (hl.B hb)) (raggedSq_pos (sub_ne_zero.2 hY)))).trans_le (gain_B (F := G) (oB hb) Y)
  · exact (lt_add_of_pos_right _ (mul_pos (half_pos (hl.C hc)) (sqNorm_pos (sub_ne_zero.2 hY)))).trans_le (gain_C (F := G) (oC hc) Y)
  · exact (tendsto_iff_tendsto_subseq_of_antitone hanti hφ').2 (tendsto_ridge hG)

/-! ### Stationary points -/

/-- The objective has derivative zero at `G` in every direction. -/
def IsStationary (X : Ragged I K J) (l : ℝ × ℝ × ℝ) (G : Factors I K R J) : Prop :=
  ∀ D : Factors I K R J, HasDerivAt (fun t : ℝ => ridgeObj X l ⟨G.A + t • D.A, G.B + t • D.B, G.C + t • D.C⟩) 0 0

/-- The derivative of the objective at `G` in the direction `D`. -/
noncomputable def slope (X : Ragged I K J) (l : ℝ × ℝ × ℝ) (G D : Factors I K R J) : ℝ :=
  (∑ i, ∑ j, ∑ k, (G.entry i j k - X i j k) * ∑ r, (D.A i r * G.B i j r * G.C k r + G.A i r * D.B i j r * G.C k r + G.A i r * G.B i j r * D.C k r)) +
    (l.1 * ∑ i, ∑ r, G.A i r * D.A i r + l.2.1 * ∑ i, ∑ j, ∑ r, G.B i j r * D.B i j r + l.2.2 * ∑ k, ∑ r, G.C k r * D.C k r)

theorem hasDerivAt_line (a d : ℝ) : HasDerivAt (fun t : ℝ => a + t * d) d 0 := by
  simpa using ((hasDerivAt_id (0 : ℝ)).mul_const d).const_add a

theorem hasDerivAt_sq_line (a d : ℝ) : HasDerivAt (fun t : ℝ => (a + t * d) ^ 2) (2 * (a * d)) 0 := by
  have := (hasDerivAt_line a d).fun_pow 2
  refine this.congr_deriv ?_
  simp
  ring

theorem hasDerivAt_ridge (X : Ragged I K J) (l : ℝ × ℝ × ℝ) (G D : Factors I K R J) :
    HasDerivAt (fun t : ℝ => ridgeObj X l ⟨G.A + t • D.A, G.B + t • D.B, G.C + t • D.C⟩) (slope X l G D) 0 := by
  have he : ∀ i j k, HasDerivAt (fun t : ℝ => (⟨G.A + t • D.A, G.B + t • D.B, G.C + t • D.C⟩ : Factors I K R J).entry i j k)
      (∑ r, (D.A i r * G.B i j r * G.C k r + G.A i r * D.B i j r * G.C k r + G.A i r * G.B i j r * D.C k r)) 0 := by
    intro i j k
    refine HasDerivAt.fun_sum fun r _ => ?_
    have := ((hasDerivAt_line (G.A i r) (D.A i r)).mul (hasDerivAt_line (G.B i j r) (D.B i j r))).mul (hasDerivAt_line (G.C k r) (D.C k r))
    refine HasDerivAt.congr_deriv (this.congr_of_eventuallyEq (.of_forall fun t => rfl)) ?_
    simp only [Pi.mul_apply, zero_mul, add_zero]
    ring
  have h1 : HasDerivAt (fun t : ℝ => sse X ⟨G.A + t • D.A, G.B + t • D.B, G.C + t • D.C⟩)
      (2 * ∑ i, ∑ j, ∑ k, (G.entry i j k - X i j k) * ∑ r, (D.A i r * G.B i j r * G.C k r + G.A i r * D.B i j r * G.C k r + G.A i r * G.B i j r * D.C k r)) 0 := by
    simp only [mul_sum (a := (2 : ℝ))]
    refine HasDerivAt.fun_sum fun i _ => HasDerivAt.fun_sum fun j _ => HasDerivAt.fun_sum fun k _ => ?_
    refine (((he i j k).const_sub (X i j k)).fun_pow 2).congr_deriv ?_
    have e0 : (⟨G.A + (0 : ℝ) • D.A, G.B + (0 : ℝ) • D.B, G.C + (0 : ℝ) • D.C⟩ : Factors I K R J) = G := by simp
    rw [e0]
    push_cast
    ring
  have h2 : ∀ {m n : ℕ} (x d : Matrix (Fin m) (Fin n) ℝ), HasDerivAt (fun t : ℝ => sqNorm (x + t • d)) (2 * ∑ i, ∑ r, x i r * d i r) 0 := by
    intro m n x d
    simp only [mul_sum (a := (2 : ℝ))]
    exact HasDerivAt.fun_sum fun i _ => HasDerivAt.fun_sum fun r _ => hasDerivAt_sq_line (x i r) (d i r)
  have h3 : HasDerivAt (fun t : ℝ => raggedSq (G.B + t • D.B)) (2 * ∑ i, ∑ j, ∑ r, G.B i j r * D.B i j r) 0 := by
    rw [mul_sum]
    exact HasDerivAt.fun_sum fun i _ => h2 (G.B i) (D.B i)
  refine ((h1.const_mul (1 / 2)).add ((((h2 G.A D.A).const_mul l.1).add (h3.const_mul l.2.1)).add ((h2 G.C D.C).const_mul l.2.2) |>.const_mul (1 / 2))).congr_deriv ?_
  unfold slope
  ring

theorem slope_split (X : Ragged I K J) (l : ℝ × ℝ × ℝ) (G D : Factors I K R J) :
    slope X l G D = slope X l G ⟨D.A, 0, 0⟩ + slope X l G ⟨0, D.B, 0⟩ + slope X l G ⟨0, 0, D.C⟩ := by
  simp only [slope, Matrix.zero_apply, Pi.zero_apply, mul_zero, zero_mul, sum_const_zero, add_zero, zero_add, sum_add_distrib, mul_add]
  ring

/-- A point that is optimal in each factor is a stationary point. -/
theorem stationary_of_blocks {X : Ragged I K J} {l : ℝ × ℝ × ℝ} {G : Factors I K R J} (hA : ∀ Y, ridgeObj X l G ≤ ridgeObj X l ⟨Y, G.B, G.C⟩)
    (hB : ∀ Y, ridgeObj X l G ≤ ridgeObj X l ⟨G.A, Y, G.C⟩) (hC : ∀ Y, ridgeObj X l G ≤ ridgeObj X l ⟨G.A, G.B, Y⟩) : IsStationary X l G := by
  intro D
  have z : ∀ D : Factors I K R J, (∀ t : ℝ, ridgeObj X l G ≤ ridgeObj X l ⟨G.A + t • D.A, G.B + t • D.B, G.C + t • D.C⟩) → slope X l G D = 0 := by
    intro D hD
    refine IsLocalMin.hasDerivAt_eq_zero (f := fun t : ℝ => ridgeObj X l ⟨G.A + t • D.A, G.B + t • D.B, G.C + t • D.C⟩) (.of_forall fun t => ?_) (hasDerivAt_ridge X l G D)
    have e0 : (⟨G.A + (0 : ℝ) • D.A, G.B + (0 : ℝ) • D.B, G.C + (0 : ℝ) • D.C⟩ : Factors I K R J) = G := by simp
    exact (congrArg (ridgeObj X l) e0).trans_le (hD t)
  have := hasDerivAt_ridge X l G D
  rw [slope_split, z ⟨D.A, 0, 0⟩ fun t => by simpa using hA _, z ⟨0, D.B, 0⟩ fun t => by simpa using hB _, z ⟨0, 0, D.C⟩ fun t => by simpa using hC _] at this
  simpa using this

/-- C88, if all three factors are updated: every limit of a subsequence of the iterates is a stationary point of the objective. -/
theorem C88_stationary (P : Problem I K R 0 0 0 J) (hA : P.updA = true) (hB : P.updB = true) (hC : P.updC = true) (hl : 0 < P.l2.1 ∧ 0 < P.l2.2.1 ∧ 0 < P.l2.2.2)
    (hsvd : ValidSVD P.params) (hN : 0 < P.params.nInner) (init : AOState I K R 0 0 0 J) (outs : ℕ → Output (AOState I K R 0 0 0 J))
    (h : ∀ n : ℕ, cmfAoadmm P (plain n) init = .ok (outs n)) (G : Factors I K R J) (φ : ℕ → ℕ) (hφ : StrictMono φ) (hG : FactorsTo (fun n => (outs (φ n)).st.F) G) :
    IsStationary P.X P.l2 G := by
  obtain ⟨hb, -⟩ := (C88 P ⟨fun _ => hl.1, fun _ => hl.2.1, fun _ => hl.2.2⟩ hsvd hN init outs h).2.2.2 G φ hφ hG
  refine stationary_of_blocks (fun Y => ?_) (fun Y => ?_) fun Y => ?_
  · by_cases e : Y = G.A
    · rw [e]
    · exact (hb.A hA Y e).le
  · by_cases e : Y = G.B
    · rw [e]
    · exact (hb.B hB Y e).le
  · by_cases e : Y = G.C
    · rw [e]
    · exact (hb.C hC Y e).le

/-! ### Stopping -/

/-- The reported losses of consecutive iterations approach each other. -/
theorem loss_diff {P : Problem I K R 0 0 0 J} (hl : RidgeOn P) (hsvd : ValidSVD P.params) (hN : 0 < P.params.nInner) {init : AOState I K R 0 0 0 J}
    {outs : ℕ → Output (AOState I K R 0 0 0 J)} (h : ∀ n : ℕ, cmfAoadmm P (plain n) init = .ok (outs n)) :
    Tendsto (fun n => lossValue P (outs n).st - lossValue P (outs (n + 1)).st) atTop (𝓝 0) := by
  obtain ⟨-, -, -, ⟨M, hA, hB, hC⟩, -⟩ := ridge_facts hl hsvd hN h
  have hval : ∀ {F : ℕ → Factors I K R J} {G : Factors I K R J}, FactorsTo F G →
      Tendsto (fun n => 1 / 2 * (√(sse P.X (absorb (outs 1).st.weights (F n))) / √(raggedSq P.X)) ^ 2 + regValue P (F n)) atTop
        (𝓝 (1 / 2 * (√(sse P.X (absorb (outs 1).st.weights G)) / √(raggedSq P.X)) ^ 2 + regValue P G)) := by
    intro F G hG
    have hF : ∀ i j k, Tendsto (fun n => (absorb (outs 1).st.weights (F n)).entry i j k) atTop (𝓝 ((absorb (outs 1).st.weights G).entry i j k)) :=
      fun i j k => tendsto_finsetSum _ fun r _ => (((hG.A i r).mul_const _).mul (hG.B i j r)).mul (hG.C k r)
    have hsse : Tendsto (fun n => sse P.X (absorb (outs 1).st.weights (F n))) atTop (𝓝 (sse P.X (absorb (outs 1).st.weights G))) :=
      tendsto_finsetSum _ fun i _ => tendsto_finsetSum _ fun j _ => tendsto_finsetSum _ fun k _ => (tendsto_const_nhds.sub (hF i j k)).pow 2
    have hreg : Tendsto (fun n => regValue P (F n)) atTop (𝓝 (regValue P G)) :=
      (((((tendsto_sqNorm hG.A).const_mul _).add ((tendsto_raggedSq hG.B).const_mul _)).add ((tendsto_sqNorm hG.C).const_mul _)).const_mul _).add
        (((tendsto_finsetSum _ fun p _ => p.elim0).add (tendsto_finsetSum _ fun p _ => p.elim0)).add (tendsto_finsetSum _ fun p _ => p.elim0))
    exact (((hsse.sqrt.div_const _).pow 2).const_mul _).add hreg
  have hw : ∀ n, 1 ≤ n → lossValue P (outs n).st =
      1 / 2 * (√(sse P.X (absorb (outs 1).st.weights (outs n).st.F)) / √(raggedSq P.X)) ^ 2 + regValue P (outs n).st.F := by
    intro n hn
    obtain ⟨k, rfl⟩ := Nat.exists_eq_succ_of_ne_zero (by omega : n ≠ 0)
    unfold lossValue relErr
    rw [weights_const h k]
  refine tendsto_of_subseq_tendsto fun ns hns => ?_
  obtain ⟨G, φ, hφ, hG⟩ := exists_factorsTo (fun n => (outs (ns n)).st.F) M (fun n => hA _) (fun n => hB _) fun n => hC _
  refine ⟨φ, ?_⟩
  have hcomp := hns.comp hφ.tendsto_atTop
  have hG' := next_to (φ := fun n => ns (φ n)) hl hsvd hN h hcomp hG
  have := (hval hG).sub (hval hG')
  rw [sub_self] at this
  refine this.congr' ?_
  filter_upwards [hcomp.eventually (eventually_ge_atTop 1)] with n hn
  have hn' : 1 ≤ ns (φ n) := hn
  rw [hw _ hn', hw _ (by omega)]

/-- C83 for runs without penalties and with a positive ridge on every updated factor, for any data: for all positive tolerances there is a number of iterations within which every
call with these tolerances reports that the stopping conditions are satisfied. Convergence of the factors is not assumed. -/
theorem C83_ridge (P : Problem I K R 0 0 0 J) (hX : P.X ≠ 0) (hl : RidgeOn P) (hsvd : ValidSVD P.params) (hN : 0 < P.params.nInner) (init : AOState I K R 0 0 0 J)
    (outs : ℕ → Output (AOState I K R 0 0 0 J)) (h : ∀ n : ℕ, cmfAoadmm P (plain n) init = .ok (outs n))
    (tol abs ft : ℝ) (h1 : 0 < tol) (h2 : 0 < abs) (h3 : ft ≠ 0) :
    ∃ N : ℕ, ∀ a out, a.tol = some tol → a.absTol = some abs → a.feasTol = some ft → a.returnErrors = true → (N : ℤ) ≤ a.nIterMax →
      cmfAoadmm P a init = .ok out → ∃ d, out.diag = some d ∧ d.stopping = some true ∧ d.nIter ≤ N := by
  have hdiff := loss_diff hl hsvd hN h
  have hcrit : ∀ᶠ k in atTop, |lossValue P (outs k).st - lossValue P (outs (k + 1)).st| < tol * lossValue P (outs k).st ∨ lossValue P (outs (k + 1)).st < abs := by
    have e1 : Tendsto (fun k => |lossValue P (outs k).st - lossValue P (outs (k + 1)).st|) atTop (𝓝 |0|) := hdiff.abs
    rw [abs_zero] at e1
    have hmin : 0 < min (tol * (abs / 2)) (abs / 2) := lt_min (mul_pos h1 (half_pos h2)) (half_pos h2)
    filter_upwards [e1.eventually (gt_mem_nhds hmin)] with k hk
    rcases lt_or_ge (lossValue P (outs (k + 1)).st) abs with hlt | hge
    · exact .inr hlt
    · refine .inl ?_
      have h4 := (lt_min_iff.1 hk).1
      have h5 := (abs_lt.1 (lt_min_iff.1 hk).2).1
      exact h4.trans_le (mul_le_mul_of_nonneg_left (by linarith) h1.le)
  obtain ⟨k, hk⟩ := hcrit.exists
  refine ⟨k + 1, fun a out ht hab hft hr hN hout => ?_⟩
  obtain ⟨d, hd, hall⟩ := C41_partial P hX a tol abs ft ⟨ht, h1.ne'⟩ hab ⟨hft, h3⟩ hr init out hout
  obtain ⟨d', hd', -, -, hmax, -⟩ := report P a hr init out hout
  obtain rfl : d' = d := Option.some.inj (hd'.symm.trans hd)
  refine ⟨d', hd, ?_⟩
  rcases Nat.lt_or_ge k d'.nIter with hlt | hge
  · obtain ⟨o, o', ho, ho', hiff⟩ := hall k hlt
    obtain rfl : o = outs k := Except.ok.inj (ho.symm.trans (h k))
    obtain rfl : o' = outs (k + 1) := Except.ok.inj (ho'.symm.trans (by exact_mod_cast h (k + 1)))
    obtain ⟨e1, e2⟩ := (hiff (no_gaps ft _).1).1 ⟨(no_gaps ft _).2, hk⟩
    exact ⟨e2, e1.ge⟩
  · refine ⟨by_contra fun hs => ?_, by omega⟩
    have := (hmax hs).1
    omega

end Verif.Props
