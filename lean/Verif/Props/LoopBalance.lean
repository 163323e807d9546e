import Verif.Props.LoopRidge
import Verif.Props.LoopFalse

/-!
# C108: L2 penalties on some of the modes only

The documentation (`docs/coupled_matrix_factorization.rst`, last note) says that norm-based regularisation should be imposed on all modes. For the parameter `l2_penalty` of `cmf_aoadmm`
(`decomposition.py` lines 906-1014) this is a theorem about the loop: at a fixed point the penalties of the modes are equal, so they cannot be zero for some modes only.
-/

namespace Verif.Props

open Verif.Loop Verif.ADMM Verif.Penalties Verif.Spec Finset Filter Topology

variable {I K R : ℕ} {J : Fin I → ℕ}

/-- The L2 penalties of the modes agree: for every component of every matrix those of A and of the B matrix, for every component those of A and C. -/
def Balanced (l : ℝ × ℝ × ℝ) (F : Factors I K R J) : Prop :=
  (∀ i r, l.1 * F.A i r ^ 2 = l.2.1 * ∑ j, F.B i j r ^ 2) ∧ ∀ r, l.1 * ∑ i, F.A i r ^ 2 = l.2.2 * ∑ k, F.C k r ^ 2

/-- Derivative of the data term when component `r` of matrix `i` is scaled at rate `m i r`. -/
noncomputable def scaleSlope (X : Ragged I K J) (G : Factors I K R J) (m : Fin I → Fin R → ℝ) : ℝ :=
  ∑ i, ∑ j, ∑ k, (G.entry i j k - X i j k) * ∑ r, m i r * (G.A i r * G.B i j r * G.C k r)

theorem slope_scaleA (X : Ragged I K J) (l : ℝ × ℝ × ℝ) (G : Factors I K R J) (m : Fin I → Fin R → ℝ) :
    slope X l G ⟨fun i r => m i r * G.A i r, 0, 0⟩ = scaleSlope X G m + l.1 * ∑ i, ∑ r, m i r * G.A i r ^ 2 := by
  simp only [slope, scaleSlope, Matrix.zero_apply, Pi.zero_apply, mul_zero, zero_mul, sum_const_zero, add_zero]
  congr 1
  · refine sum_congr rfl fun i _ => sum_congr rfl fun j _ => sum_congr rfl fun k _ => ?_
    congr 1
    exact sum_congr rfl fun r _ => by ring
  · congr 1
    exact sum_congr rfl fun i _ => sum_congr rfl fun r _ => by ring

theorem slope_scaleB (X : Ragged I K J) (l : ℝ × ℝ × ℝ) (G : Factors I K R J) (m : Fin I → Fin R → ℝ) :
    slope X l G ⟨0, fun i j r => m i r * G.B i j r, 0⟩ = scaleSlope X G m + l.2.1 * ∑ i, ∑ j, ∑ r, m i r * G.B i j r ^ 2 := by
  simp only [slope, scaleSlope, Matrix.zero_apply, mul_zero, zero_mul, sum_const_zero, add_zero, zero_add]
  congr 1
  · refine sum_congr rfl fun i _ => sum_congr rfl fun j _ => sum_congr rfl fun k _ => ?_
    congr 1
    exact sum_congr rfl fun r _ => by ring
  · congr 1
    exact sum_congr rfl fun i _ => sum_congr rfl fun j _ => sum_congr rfl fun r _ => by ring

theorem slope_scaleC (X : Ragged I K J) (l : ℝ × ℝ × ℝ) (G : Factors I K R J) (m : Fin R → ℝ) :
    slope X l G ⟨0, 0, fun k r => m r * G.C k r⟩ = scaleSlope X G (fun _ => m) + l.2.2 * ∑ k, ∑ r, m r * G.C k r ^ 2 := by
  simp only [slope, scaleSlope, Matrix.zero_apply, Pi.zero_apply, mul_zero, zero_mul, sum_const_zero, zero_add]
  congr 1
  · refine sum_congr rfl fun i _ => sum_congr rfl fun j _ => sum_congr rfl fun k _ => ?_
    congr 1
    exact sum_congr rfl fun r _ => by ring
  · congr 1
    exact sum_congr rfl fun k _ => sum_congr rfl fun r _ => by ring

/-- Stationary points are balanced. -/
theorem balanced_of_stationary {X : Ragged I K J} {l : ℝ × ℝ × ℝ} {G : Factors I K R J} (h : IsStationary X l G) : Balanced l G := by
  have z : ∀ D, slope X l G D = 0 := fun D => (hasDerivAt_ridge X l G D).unique (h D)
  constructor
  · intro i r
    have hA := (slope_scaleA X l G fun i' r' => if i' = i ∧ r' = r then 1 else 0).symm.trans (z _)
    have hB := (slope_scaleB X l G fun i' r' => if i' = i ∧ r' = r then 1 else 0).symm.trans (z _)
    have eA : ∑ i', ∑ r', (if i' = i ∧ r' = r then (1 : ℝ) else 0) * G.A i' r' ^ 2 = G.A i r ^ 2 := by
      rw [sum_eq_single i (fun i' _ hi => sum_eq_zero fun r' _ => by rw [if_neg fun h => hi h.1, zero_mul]) (by simp),
        sum_eq_single r (fun r' _ hr => by rw [if_neg fun h => hr h.2, zero_mul]) (by simp), if_pos ⟨rfl, rfl⟩, one_mul]
    have eB : ∑ i', ∑ j, ∑ r', (if i' = i ∧ r' = r then (1 : ℝ) else 0) * G.B i' j r' ^ 2 = ∑ j, G.B i j r ^ 2 := by
      rw [sum_eq_single i (fun i' _ hi => sum_eq_zero fun j _ => sum_eq_zero fun r' _ => by rw [if_neg fun h => hi h.1, zero_mul]) (by simp)]
      refine sum_congr rfl fun j _ => ?_
      rw [sum_eq_single r (fun r' _ hr => by rw [if_neg fun h => hr h.2, zero_mul]) (by simp), if_pos ⟨rfl, rfl⟩, one_mul]
    rw [eA] at hA
    rw [eB] at hB
    linarith
  · intro r
    have hA := (slope_scaleA X l G fun _ r' => if r' = r then 1 else 0).symm.trans (z _)
    have hC := (slope_scaleC X l G fun r' => if r' = r then 1 else 0).symm.trans (z _)
    have eA : ∑ i, ∑ r', (if r' = r then (1 : ℝ) else 0) * G.A i r' ^ 2 = ∑ i, G.A i r ^ 2 := sum_congr rfl fun i _ => by simp
    have eC : ∑ k, ∑ r', (if r' = r then (1 : ℝ) else 0) * G.C k r' ^ 2 = ∑ k, G.C k r ^ 2 := sum_congr rfl fun i _ => by simp
    rw [eA] at hA
    rw [eC] at hC
    linarith

/-- If the penalties of the modes agree, and one mode is penalised and another one is not, the factorization represents zero matrices. -/
theorem zero_of_balanced {l : ℝ × ℝ × ℝ} (hl : 0 < l.1 ∨ 0 < l.2.1 ∨ 0 < l.2.2) (h0 : l.1 = 0 ∨ l.2.1 = 0 ∨ l.2.2 = 0) {G : Factors I K R J}
    (h : Balanced l G) (i : Fin I) (j : Fin (J i)) (k : Fin K) : G.entry i j k = 0 := by
  refine sum_eq_zero fun r _ => ?_
  obtain ⟨hAB, hAC⟩ := h
  have aux : ∀ {n : ℕ} {c : ℝ} (f : Fin n → ℝ) (k : Fin n), 0 < c → c * ∑ k, f k ^ 2 = 0 → f k = 0 := by
    intro n c f k hc h
    have h1 := (mul_eq_zero.1 h).resolve_left hc.ne'
    exact pow_eq_zero_iff two_ne_zero |>.1 ((sum_eq_zero_iff_of_nonneg fun k _ => sq_nonneg (f k)).1 h1 k (mem_univ k))
  suffices H : G.A i r = 0 ∨ G.B i j r = 0 ∨ G.C k r = 0 by
    rcases H with H | H | H <;> simp [H]
  have hA := fun h0 : l.1 * ∑ i, G.A i r ^ 2 = 0 => fun hp => aux (fun i => G.A i r) i hp h0
  have hB := fun h0 : l.2.1 * ∑ j, G.B i j r ^ 2 = 0 => fun hp => aux (fun j => G.B i j r) j hp h0
  have hC := fun h0 : l.2.2 * ∑ k, G.C k r ^ 2 = 0 => fun hp => aux (fun k => G.C k r) k hp h0
  have h1 := hAB i r
  have h2 := hAC r
  by_cases a0 : l.1 = 0
  · rw [a0, zero_mul] at h1 h2
    rcases hl with hp | hp | hp
    · exact absurd a0 hp.ne'
    · exact .inr (.inl (hB h1.symm hp))
    · exact .inr (.inr (hC h2.symm hp))
  · rcases h0 with h0 | h0 | h0
    · exact absurd h0 a0
    · rw [h0, zero_mul] at h1
      exact .inl (pow_eq_zero_iff two_ne_zero |>.1 ((mul_eq_zero.1 h1).resolve_left a0))
    · rw [h0, zero_mul] at h2
      have h3 := (mul_eq_zero.1 h2).resolve_left a0
      exact .inl (pow_eq_zero_iff two_ne_zero |>.1 ((sum_eq_zero_iff_of_nonneg fun i _ => sq_nonneg (G.A i r)).1 h3 i (mem_univ i)))

/-- One round of updates with solvable linear systems: each factor minimises the objective given the others in use at that moment. -/
theorem round_min {P : Problem I K R 0 0 0 J} (hA : P.updA = true) (hB : P.updB = true) (hC : P.updC = true) (hsvd : ValidSVD P.params) (hN : 0 < P.params.nInner)
    {s t : AOState I K R 0 0 0 J} {i : Option (Inter I R)} (hinv : Invertible P s) (h : sweep P s = .ok (t, i)) :
    (∀ Y, ridgeObj P.X P.l2 ⟨s.F.A, t.F.B, s.F.C⟩ ≤ ridgeObj P.X P.l2 ⟨s.F.A, Y, s.F.C⟩) ∧
    (∀ Y, ridgeObj P.X P.l2 ⟨s.F.A, t.F.B, t.F.C⟩ ≤ ridgeObj P.X P.l2 ⟨s.F.A, t.F.B, Y⟩) ∧
    ∀ Y, ridgeObj P.X P.l2 t.F ≤ ridgeObj P.X P.l2 ⟨Y, t.F.B, t.F.C⟩ := by
  obtain ⟨u, hu, hv⟩ := sweep_ok h
  obtain ⟨uA, uC, -⟩ := sweepB_frame hu
  obtain ⟨vA, vB, -⟩ := sweepC_frame P u
  obtain ⟨tB, tC, -⟩ := sweepA_frame hv
  have e1 : t.F.B = u.F.B := tB.trans vB
  have hu' := hu
  refine ⟨fun Y => ?_, fun Y => ?_, fun Y => ?_⟩
  · rw [e1]
    unfold sweepB at hu'
    rw [if_pos hB] at hu'
    cases hw : admmUpdateB P.params P.X P.pensB P.l2.2.1 P.constB s.F s.auxB s.dualB with
    | error e => rw [hw] at hu'; cases hu'
    | ok w =>
      rw [hw] at hu'; cases hu'
      by_cases hne : Y = w.x
      · rw [hne]
      · exact (C27_B P.params hsvd hN P.X P.l2 P.constB s.F P.pensB s.auxB s.dualB (hinv.1 hB) w hw Y hne).le
  · rw [e1, tC, ← uA]
    unfold sweepC
    rw [if_pos hC]
    by_cases hne : Y = (admmUpdateC P.params P.X P.pensC P.l2.2.2 u.F u.auxC u.dualC).x
    · rw [hne]
    · exact (C27_C P.params hsvd hN P.X P.l2 u.F P.pensC u.auxC u.dualC ((hinv.2 u hu).1 hC) Y hne).le
  · rw [tB, tC]
    unfold sweepA at hv
    rw [if_pos hA] at hv
    cases hw : admmUpdateA P.params P.X P.pensA P.l2.1 P.constA (sweepC P u).F (sweepC P u).auxA (sweepC P u).dualA with
    | error e => rw [hw] at hv; cases hv
    | ok w =>
      rw [hw] at hv; cases hv
      by_cases hne : Y = w.x
      · rw [hne]
      · exact (C27_A P.params hsvd hN P.X P.l2 P.constA (sweepC P u).F P.pensA _ _ ((hinv.2 u hu).2 hA) w hw _ hne).le

/-- C108: if the iterates of a call that updates all factors, without other penalties than L2 and with solvable linear systems, converge, then the L2 penalties of the modes agree in the limit. -/
theorem C108 (P : Problem I K R 0 0 0 J) (hA : P.updA = true) (hB : P.updB = true) (hC : P.updC = true) (hsvd : ValidSVD P.params) (hN : 0 < P.params.nInner)
    (init : AOState I K R 0 0 0 J) (outs : ℕ → Output (AOState I K R 0 0 0 J)) (h : ∀ n : ℕ, cmfAoadmm P (plain n) init = .ok (outs n))
    (hinv : ∀ n, Invertible P (outs n).st) (G : Factors I K R J) (hG : FactorsTo (fun n => (outs n).st.F) G) : Balanced P.l2 G := by
  obtain ⟨-, hs⟩ := outs_succ h
  set F : ℕ → Factors I K R J := fun n => (outs n).st.F with hF
  have round : ∀ n, _ := fun n => round_min hA hB hC hsvd hN (hinv n) (hs n).choose_spec
  have hG' : FactorsTo (fun n => F (n + 1)) G :=
    ⟨fun i r => (hG.A i r).comp (tendsto_add_atTop_nat 1), fun i j r => (hG.B i j r).comp (tendsto_add_atTop_nat 1), fun k r => (hG.C k r).comp (tendsto_add_atTop_nat 1)⟩
  obtain ⟨gA, gB, gC⟩ := hG'
  refine balanced_of_stationary (X := P.X) (stationary_of_blocks (fun Y => ?_) (fun Y => ?_) fun Y => ?_)
  · exact le_of_tendsto_of_tendsto' (tendsto_ridge (F := fun n => F (n + 1)) ⟨gA, gB, gC⟩)
      (tendsto_ridge (F := fun n => ⟨Y, (F (n + 1)).B, (F (n + 1)).C⟩) ⟨fun _ _ => tendsto_const_nhds, gB, gC⟩) fun n => (round n).2.2 Y
  · exact le_of_tendsto_of_tendsto' (tendsto_ridge (F := fun n => ⟨(F n).A, (F (n + 1)).B, (F n).C⟩) ⟨hG.A, gB, hG.C⟩)
      (tendsto_ridge (F := fun n => ⟨(F n).A, Y, (F n).C⟩) ⟨hG.A, fun _ _ _ => tendsto_const_nhds, hG.C⟩) fun n => (round n).1 Y
  · exact le_of_tendsto_of_tendsto' (tendsto_ridge (F := fun n => ⟨(F n).A, (F (n + 1)).B, (F (n + 1)).C⟩) ⟨hG.A, gB, gC⟩)
      (tendsto_ridge (F := fun n => ⟨(F n).A, (F (n + 1)).B, Y⟩) ⟨hG.A, gB, fun _ _ => tendsto_const_nhds⟩) fun n => (round n).2.1 Y

/-- C108, positive L2 penalties on all modes: the penalties of the modes agree in every limit of a subsequence of the iterates; there is such a limit. -/
theorem C108_all (P : Problem I K R 0 0 0 J) (hA : P.updA = true) (hB : P.updB = true) (hC : P.updC = true) (hl : 0 < P.l2.1 ∧ 0 < P.l2.2.1 ∧ 0 < P.l2.2.2)
    (hsvd : ValidSVD P.params) (hN : 0 < P.params.nInner) (init : AOState I K R 0 0 0 J) (outs : ℕ → Output (AOState I K R 0 0 0 J))
    (h : ∀ n : ℕ, cmfAoadmm P (plain n) init = .ok (outs n)) :
    (∃ (G : Factors I K R J) (φ : ℕ → ℕ), StrictMono φ ∧ FactorsTo (fun n => (outs (φ n)).st.F) G) ∧
    ∀ (G : Factors I K R J) (φ : ℕ → ℕ), StrictMono φ → FactorsTo (fun n => (outs (φ n)).st.F) G → Balanced P.l2 G :=
  ⟨(C88 P ⟨fun _ => hl.1, fun _ => hl.2.1, fun _ => hl.2.2⟩ hsvd hN init outs h).2.2.1,
    fun G φ hφ hG => balanced_of_stationary (C88_stationary P hA hB hC hl hsvd hN init outs h G φ hφ hG)⟩

/-- C108, L2 penalties on some but not all modes: if the iterates converge, their limit represents zero matrices. -/
theorem C108_zero (P : Problem I K R 0 0 0 J) (hA : P.updA = true) (hB : P.updB = true) (hC : P.updC = true) (hsvd : ValidSVD P.params) (hN : 0 < P.params.nInner)
    (hl : 0 < P.l2.1 ∨ 0 < P.l2.2.1 ∨ 0 < P.l2.2.2) (h0 : P.l2.1 = 0 ∨ P.l2.2.1 = 0 ∨ P.l2.2.2 = 0)
    (init : AOState I K R 0 0 0 J) (outs : ℕ → Output (AOState I K R 0 0 0 J)) (h : ∀ n : ℕ, cmfAoadmm P (plain n) init = .ok (outs n))
    (hinv : ∀ n, Invertible P (outs n).st) (G : Factors I K R J) (hG : FactorsTo (fun n => (outs n).st.F) G) (i : Fin I) (j : Fin (J i)) (k : Fin K) : G.entry i j k = 0 :=
  zero_of_balanced hl h0 (C108 P hA hB hC hsvd hN init outs h hinv G hG) i j k

/-- C108, L2 penalties on some but not all modes: if the objective is smaller at the start than for the zero model, the iterates do not converge. -/
theorem C108_diverges (P : Problem I K R 0 0 0 J) (hA : P.updA = true) (hB : P.updB = true) (hC : P.updC = true) (hsvd : ValidSVD P.params) (hN : 0 < P.params.nInner)
    (hl : 0 < P.l2.1 ∨ 0 < P.l2.2.1 ∨ 0 < P.l2.2.2) (h0 : P.l2.1 = 0 ∨ P.l2.2.1 = 0 ∨ P.l2.2.2 = 0) (hnn : 0 ≤ P.l2.1 ∧ 0 ≤ P.l2.2.1 ∧ 0 ≤ P.l2.2.2)
    (init : AOState I K R 0 0 0 J) (hstart : ridgeObj P.X P.l2 init.F < 1 / 2 * raggedSq P.X)
    (outs : ℕ → Output (AOState I K R 0 0 0 J)) (h : ∀ n : ℕ, cmfAoadmm P (plain n) init = .ok (outs n))
    (hinv : ∀ n, Invertible P (outs n).st) : ¬ ∃ G : Factors I K R J, FactorsTo (fun n => (outs n).st.F) G := by
  rintro ⟨G, hG⟩
  have hz := C108_zero P hA hB hC hsvd hN hl h0 init outs h hinv G hG
  have hle : ridgeObj P.X P.l2 G ≤ ridgeObj P.X P.l2 init.F := by
    refine le_of_tendsto' (tendsto_ridge hG) fun n => ?_
    refine C29 P hsvd hN (plain n) init (fun t _ o ho => ?_) (outs n) (h n)
    rw [h t] at ho
    obtain rfl := Except.ok.inj ho
    exact hinv t
  have hge : 1 / 2 * raggedSq P.X ≤ ridgeObj P.X P.l2 G := by
    have e : sse P.X G = raggedSq P.X := by
      simp only [sse, raggedSq, sqNorm]
      exact sum_congr rfl fun i _ => sum_congr rfl fun j _ => sum_congr rfl fun k _ => by rw [hz, sub_zero]
    have p1 := mul_nonneg hnn.1 (sqNorm_nn G.A)
    have p2 := mul_nonneg hnn.2.1 (raggedSq_nn G.B)
    have p3 := mul_nonneg hnn.2.2 (sqNorm_nn G.C)
    simp only [ridgeObj, e]
    linarith
  linarith

/-! ### An example -/

/-- Data 1, rank 1, L2 penalty on A only. -/
def lonP (prm : Params 1) (l : ℝ) : Problem 1 1 1 0 0 0 (fun _ => 1) := ⟨scX 1, Fin.elim0, Fin.elim0, Fin.elim0, (l, 0, 0), prm, false, false, true, true, true⟩

theorem ridge_lon (l a b c : ℝ) : ridgeObj (scX 1) (l, 0, 0) (scF a b c) = 1 / 2 * (1 - a * b * c) ^ 2 + 1 / 2 * (l * a ^ 2) := by
  rw [ridgeObj, sse_sc]
  simp [scF, sqNorm_sc]

theorem sc_eta (M : Matrix (Fin 1) (Fin 1) ℝ) : M = sc (M 0 0) := by
  funext i j
  obtain rfl : i = 0 := Subsingleton.elim _ _
  obtain rfl : j = 0 := Subsingleton.elim _ _
  rfl

theorem lon_B {l a b' : ℝ} (ha : 0 < a) (h : ridgeObj (scX 1) (l, 0, 0) (scF a b' 1) ≤ ridgeObj (scX 1) (l, 0, 0) (scF a (1 / a) 1)) : a * b' = 1 := by
  rw [ridge_lon, ridge_lon, mul_one_div_cancel ha.ne'] at h
  have : (1 - a * b') ^ 2 ≤ 0 := by linarith
  have := pow_eq_zero_iff two_ne_zero |>.1 (le_antisymm this (sq_nonneg _))
  linarith

theorem rag_eta (B : Ragged 1 1 fun _ => 1) : B = fun _ => sc (B 0 0 0) := by
  funext i
  obtain rfl : i = 0 := Subsingleton.elim _ _
  exact sc_eta _

theorem lon_step {prm : Params 1} (hP : ValidSVD prm) (hN : 0 < prm.nInner) {l : ℝ} (hl : 0 < l) {s : AOState 1 1 1 0 0 0 fun _ => 1} {a b : ℝ} (ha : 0 < a)
    (hs : s.F = scF a b 1) : Invertible (lonP prm l) s ∧ ∀ t i, sweep (lonP prm l) s = .ok (t, i) → ∃ a' b', 0 < a' ∧ t.F = scF a' b' 1 := by
  have hvb : SolvableB s.F 0 := by
    intro i v hv
    have h0 : v 0 ≠ 0 := fun h => hv (by funext i; obtain rfl : i = 0 := Subsingleton.elim _ _; exact h)
    rw [hs]
    simp [scF, sc]
    positivity
  have hinv : Invertible (lonP prm l) s := by
    refine ⟨fun _ => hvb, fun u hu => ⟨fun _ v hv => ?_, fun _ i v hv => ?_⟩⟩
    · have h0 : v 0 ≠ 0 := fun h => hv (by funext i; obtain rfl : i = 0 := Subsingleton.elim _ _; exact h)
      have hA := (sweepB_frame hu).1
      have hb : a * u.F.B 0 0 0 = 1 := by
        unfold sweepB at hu
        rw [if_pos (show (lonP prm l).updB = true from rfl)] at hu
        cases hw : admmUpdateB (lonP prm l).params (lonP prm l).X (lonP prm l).pensB (lonP prm l).l2.2.1 (lonP prm l).constB s.F s.auxB s.dualB with
        | error e => rw [hw] at hu; cases hu
        | ok w =>
          rw [hw] at hu; cases hu
          refine lon_B (l := l) ha ?_
          have e1 : scF a (w.x 0 0 0) 1 = ⟨s.F.A, w.x, s.F.C⟩ := by rw [hs, rag_eta w.x]; rfl
          have e2 : scF a (1 / a) 1 = ⟨s.F.A, fun _ => sc (1 / a), s.F.C⟩ := by rw [hs]; rfl
          show ridgeObj (scX 1) (l, 0, 0) (scF a (w.x 0 0 0) 1) ≤ _
          rw [e1, e2]
          by_cases hne : (fun _ => sc (1 / a) : Ragged 1 1 fun _ => 1) = w.x
          · rw [hne]
          · exact (C27_B prm hP hN (scX 1) (l, 0, 0) false s.F Fin.elim0 s.auxB s.dualB hvb w hw _ hne).le
      have : u.F.A 0 0 = a := by rw [hA, hs]; rfl
      simp only [univ_unique, sum_singleton, Fin.default_eq_zero, lonP, this, zero_mul, add_zero]
      rw [hb, one_mul]
      positivity
    · exact add_pos_of_nonneg_of_pos (sum_nonneg fun _ _ => sum_nonneg fun _ _ => sq_nonneg _) (mul_pos hl (pos_sq hv))
  refine ⟨hinv, fun t i ht => ?_⟩
  obtain ⟨mB, mC, mA⟩ := round_min (P := lonP prm l) rfl rfl rfl hP hN hinv ht
  have eF : t.F = scF (t.F.A 0 0) (t.F.B 0 0 0) (t.F.C 0 0) := by
    have h1 := sc_eta t.F.A
    have h2 := rag_eta t.F.B
    have h3 := sc_eta t.F.C
    show (⟨t.F.A, t.F.B, t.F.C⟩ : Factors 1 1 1 fun _ => 1) = ⟨sc (t.F.A 0 0), fun _ => sc (t.F.B 0 0 0), sc (t.F.C 0 0)⟩
    rw [← h1, ← h2, ← h3]
  set a' := t.F.A 0 0
  set b' := t.F.B 0 0 0
  set c' := t.F.C 0 0
  have hb : a * b' = 1 := by
    refine lon_B (l := l) ha ?_
    have := mB fun _ => sc (1 / a)
    rw [hs, eF] at this
    exact this
  have hb0 : 0 < b' := by
    by_contra hc
    have := mul_nonpos_of_nonneg_of_nonpos ha.le (not_lt.1 hc)
    linarith
  have hc : c' = 1 := by
    have := mC (sc 1)
    rw [hs, eF] at this
    have h2 : ridgeObj (scX 1) (l, 0, 0) (scF a b' c') ≤ ridgeObj (scX 1) (l, 0, 0) (scF a b' 1) := this
    rw [ridge_lon, ridge_lon, hb] at h2
    have : (1 - 1 * c') ^ 2 ≤ 0 := by linarith
    have := pow_eq_zero_iff two_ne_zero |>.1 (le_antisymm this (sq_nonneg _))
    linarith
  refine ⟨a', b', ?_, by rw [eF, hc]⟩
  by_contra hneg
  have hpos : 0 < b' ^ 2 + l := by positivity
  have h3 := mA (sc (b' / (b' ^ 2 + l)))
  rw [eF, hc] at h3
  have h4 : ridgeObj (scX 1) (l, 0, 0) (scF a' b' 1) ≤ ridgeObj (scX 1) (l, 0, 0) (scF (b' / (b' ^ 2 + l)) b' 1) := h3
  rw [ridge_lon, ridge_lon] at h4
  have e : 1 / 2 * (1 - b' / (b' ^ 2 + l) * b' * 1) ^ 2 + 1 / 2 * (l * (b' / (b' ^ 2 + l)) ^ 2) = 1 / 2 * (l / (b' ^ 2 + l)) := by
    field_simp
    ring
  rw [e] at h4
  have h5 : l / (b' ^ 2 + l) < 1 := by
    rw [div_lt_one hpos]
    linarith [pow_pos hb0 2]
  have h6 : a' * b' ≤ 0 := mul_nonpos_of_nonpos_of_nonneg (not_lt.1 hneg) hb0.le
  have h7 : 0 ≤ l * a' ^ 2 := by positivity
  nlinarith [sq_nonneg (a' * b')]

/-- `C108_diverges` has instances: data 1, all factors 1 at the start, L2 penalty 1/10 on A only. -/
theorem C108_example : ∃ (P : Problem 1 1 1 0 0 0 fun _ => 1) (init : AOState 1 1 1 0 0 0 fun _ => 1) (outs : ℕ → Output _), P.l2 = (1 / 10, 0, 0) ∧
    (∀ n : ℕ, cmfAoadmm P (plain n) init = .ok (outs n)) ∧ (∀ n, Invertible P (outs n).st) ∧ ¬ ∃ G : Factors 1 1 1 fun _ => 1, FactorsTo (fun n => (outs n).st.F) G := by
  obtain ⟨prm, hP, hN, -, -⟩ := exists_params 1 1 none 1
  have hN : 0 < prm.nInner := by omega
  let init : AOState 1 1 1 0 0 0 fun _ => 1 := ⟨none, scF 1 1 1, Fin.elim0, Fin.elim0, Fin.elim0, Fin.elim0, Fin.elim0, Fin.elim0⟩
  have hex : ∀ n : ℕ, ∃ out, cmfAoadmm (lonP prm (1 / 10)) (plain n) init = .ok out := fun n => C61 _ one_pos (fun _ p => p.elim0) _ (by simp [plain, truthy]) init
  choose outs houts using hex
  obtain ⟨h0, hs⟩ := outs_succ houts
  have hst : ∀ n, ∃ a b, 0 < a ∧ (outs n).st.F = scF a b 1 := by
    intro n
    induction n with
    | zero => exact ⟨1, 1, one_pos, by rw [h0]⟩
    | succ n ih =>
      obtain ⟨a, b, ha, hF⟩ := ih
      obtain ⟨i, hi⟩ := hs n
      exact (lon_step hP hN (by norm_num) ha hF).2 _ i hi
  have hinv : ∀ n, Invertible (lonP prm (1 / 10)) (outs n).st := fun n => by
    obtain ⟨a, b, ha, hF⟩ := hst n
    exact (lon_step hP hN (by norm_num) ha hF).1
  refine ⟨lonP prm (1 / 10), init, outs, rfl, houts, hinv, ?_⟩
  refine C108_diverges _ rfl rfl rfl hP hN (.inl (by norm_num [lonP])) (.inr (.inl rfl)) ⟨by norm_num [lonP], le_rfl, le_rfl⟩ init ?_ outs houts hinv
  show ridgeObj (scX 1) (1 / 10, 0, 0) (scF 1 1 1) < 1 / 2 * raggedSq (scX 1)
  rw [ridge_lon, raggedSq_sc]
  norm_num

end Verif.Props
