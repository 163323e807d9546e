import Verif.Props.LoopFalse
import Verif.Props.InnerLoop
import Verif.Props.ADMMExamples

/-!
# C59, C60, C61: warm starts between outer iterations, convergence when one mode is updated, and when a call succeeds
-/

namespace Verif.Props

open Verif.Loop Verif.ADMM Verif.Penalties Verif.Spec Finset Matrix Filter

variable {I K R nA nB nC : ℕ} {J : Fin I → ℕ}

theorem iter_warm {σ : Type} {step : σ → σ} {stop : σ → σ → Bool} {N : ℕ} (hN : 0 < N) {t : ℕ → σ} (ht : ∀ n, t (n + 1) = innerLoop step stop N (t n)) :
    ∃ M : ℕ → ℕ, ∀ n, t n = step^[M n] (t 0) ∧ n ≤ M n ∧ M n ≤ n * N ∧ ((∀ s s', stop s s' = false) → M n = n * N) := by
  have h : ∀ n, ∃ M, t n = step^[M] (t 0) ∧ n ≤ M ∧ M ≤ n * N ∧ ((∀ s s', stop s s' = false) → M = n * N) := by
    intro n
    induction n with
    | zero => exact ⟨0, rfl, le_rfl, by simp, by simp⟩
    | succ n ih =>
      obtain ⟨M, h1, h2, h3, h4⟩ := ih
      obtain ⟨m, hm, he, g1, -⟩ := innerLoop_spec step stop N (t n)
      have hm1 : 1 ≤ m := by
        rcases hm.lt_or_eq with h | h
        · obtain ⟨k, rfl, -⟩ := g1 h; omega
        · omega
      refine ⟨m + M, ?_, by omega, by rw [Nat.add_mul]; omega, fun hs => ?_⟩
      · rw [ht, he, h1, Function.iterate_add_apply]
      · have : m = N := by
          by_contra hne
          obtain ⟨k, -, hk⟩ := g1 (lt_of_le_of_ne hm hne)
          rw [hs] at hk; cases hk
        rw [this, h4 hs]; ring
  choose M hM using h
  exact ⟨M, hM⟩

/-- Consecutive calls. -/
theorem outs_succ {P : Problem I K R nA nB nC J} {init : AOState I K R nA nB nC J} {outs : ℕ → Output (AOState I K R nA nB nC J)}
    (h : ∀ n : ℕ, cmfAoadmm P (plain n) init = .ok (outs n)) : (outs 0).st = init ∧ ∀ n, ∃ i, sweep P (outs n).st = .ok ((outs (n + 1)).st, i) := by
  refine ⟨(Except.ok.inj (plain_sweeps (h 0))).symm, fun n => ?_⟩
  have h1 := plain_sweeps (h n)
  have h2 := plain_sweeps (h (n + 1))
  rw [sweeps, h1] at h2
  simp only [Except.bind] at h2
  rw [show (aoOps P).sweep = sweep P from rfl] at h2
  cases hs : sweep P (outs n).st with
  | error e => rw [hs] at h2; cases h2
  | ok x =>
    rw [hs] at h2
    simp only [Except.map, Except.ok.injEq] at h2
    exact ⟨x.2, by rw [← h2]⟩

/-- No inner tolerance. -/
theorem matStop_none {m n : ℕ} {tol : Option ℝ} (h : ∀ t, tol = some t → t ≤ 0) (s s' : MatState m R n) : matStop tol s s' = false := by
  rw [← Bool.not_eq_true, matStop_iff]
  exact not_done_of_tol h

theorem ragStop_none {n : ℕ} {tol : Option ℝ} (h : ∀ t, tol = some t → t ≤ 0) (s s' : RagState I R n J) : ragStop tol s s' = false := by
  rw [← Bool.not_eq_true, ragStop_iff]
  exact not_done_of_tol h

/-- C59, mode 0: if only A is updated, the outer iterations continue one sequence of inner iterations (calls of the update with one inner iteration), starting from
the initial factor, auxiliary and dual variables. The n-th outer iteration ends after at least n and at most `n * inner_n_iter_max` of them, and after
exactly that many without an inner tolerance. -/
theorem C59_A (P : Problem I K R nA nB nC J) (hN : 0 < P.params.nInner) (hA : P.updA = true) (hB : P.updB = false) (hC : P.updC = false)
    (init : AOState I K R nA nB nC J) (outs : ℕ → Output (AOState I K R nA nB nC J)) (h : ∀ n : ℕ, cmfAoadmm P (plain n) init = .ok (outs n)) :
    ∃ (seq : ℕ → MatState I R nA) (M : ℕ → ℕ), seq 0 = ⟨init.F.A, init.auxA, init.dualA⟩ ∧
      (∀ k, admmUpdateA (once P.params) P.X P.pensA P.l2.1 P.constA ⟨(seq k).x, init.F.B, init.F.C⟩ (seq k).aux (seq k).dual = .ok (seq (k + 1))) ∧
      ∀ n, (⟨(outs n).st.F.A, (outs n).st.auxA, (outs n).st.dualA⟩ : MatState I R nA) = seq (M n) ∧ n ≤ M n ∧ M n ≤ n * P.params.nInner ∧
        ((∀ t, P.params.innerTol = some t → t ≤ 0) → M n = n * P.params.nInner) := by
  obtain ⟨h0, hs⟩ := outs_succ h
  have hsw : ∀ s : AOState I K R nA nB nC J, sweep P s = sweepA P s := by
    intro s
    unfold sweep sweepB sweepC
    simp [hB, hC, Except.bind]
  have hup : ∀ n, ∃ w, admmUpdateA P.params P.X P.pensA P.l2.1 P.constA (outs n).st.F (outs n).st.auxA (outs n).st.dualA = .ok w ∧
      (outs (n + 1)).st.F = ⟨w.x, (outs n).st.F.B, (outs n).st.F.C⟩ ∧ (outs (n + 1)).st.auxA = w.aux ∧ (outs (n + 1)).st.dualA = w.dual := by
    intro n
    obtain ⟨i, hi⟩ := hs n
    rw [hsw, sweepA, if_pos hA] at hi
    cases hw : admmUpdateA P.params P.X P.pensA P.l2.1 P.constA (outs n).st.F (outs n).st.auxA (outs n).st.dualA with
    | error e => rw [hw] at hi; cases hi
    | ok w =>
      rw [hw] at hi
      simp only [Except.map, Except.ok.injEq, Prod.mk.injEq] at hi
      exact ⟨w, rfl, by rw [← hi.1], by rw [← hi.1], by rw [← hi.1]⟩
  have hBC : ∀ n, (outs n).st.F.B = init.F.B ∧ (outs n).st.F.C = init.F.C := by
    intro n
    induction n with
    | zero => rw [h0]; exact ⟨rfl, rfl⟩
    | succ n ih => obtain ⟨w, -, hF, -⟩ := hup n; rw [hF]; exact ih
  obtain ⟨w, hw, -⟩ := hup 0
  obtain ⟨o, ρ, hρ⟩ : ∃ o ρ, feasPenalties P.params.scale P.constA (crossA init.F) = .ok (o, ρ) := by
    rw [h0] at hw
    unfold admmUpdateA at hw
    cases hf : feasPenalties P.params.scale P.constA (crossA init.F) with
    | error e => rw [hf] at hw; cases hw
    | ok x => exact ⟨x.1, x.2, rfl⟩
  have hcond : ¬ (!P.constA && decide (0 < P.params.nInner) && decide (0 < I) && (List.ofFn P.pensA).any fun p => p.row.isNone) = true := by
    intro hc
    rw [h0] at hw
    unfold admmUpdateA at hw
    rw [hρ] at hw
    simp only [Except.bind] at hw
    rw [if_pos hc] at hw
    cases hw
  set step := stepA P.pensA o ρ (fun i => P.params.svd (addRidge (crossA init.F i) (ρ i) nA P.l2.1)) (rhsA P.X init.F) with hstep
  have hval : ∀ (prm : Params R) (x : Matrix (Fin I) (Fin R) ℝ) (aux dual : Fin nA → Matrix (Fin I) (Fin R) ℝ), prm.svd = P.params.svd → prm.scale = P.params.scale →
      0 < prm.nInner → admmUpdateA prm P.X P.pensA P.l2.1 P.constA ⟨x, init.F.B, init.F.C⟩ aux dual =
        .ok (innerLoop step (matStop prm.innerTol) prm.nInner ⟨x, aux, dual⟩) := by
    intro prm x aux dual e1 e2 e3
    unfold admmUpdateA
    have hρ' : feasPenalties prm.scale P.constA (crossA ⟨x, init.F.B, init.F.C⟩) = .ok (o, ρ) := by rw [e2]; exact hρ
    rw [hρ']
    simp only [Except.bind]
    rw [if_neg (by simpa [e3, hN] using hcond), e1]
    rfl
  obtain ⟨M, hM⟩ := iter_warm (step := step) (stop := matStop P.params.innerTol) hN
    (t := fun n => ⟨(outs n).st.F.A, (outs n).st.auxA, (outs n).st.dualA⟩) (by
      intro n
      obtain ⟨w, hw, hF, h1, h2⟩ := hup n
      have hF' : (outs n).st.F = ⟨(outs n).st.F.A, init.F.B, init.F.C⟩ := by rw [← (hBC n).1, ← (hBC n).2]
      rw [hF', hval P.params _ _ _ rfl rfl hN] at hw
      rw [Except.ok.inj hw, hF, h1, h2])
  refine ⟨fun k => step^[k] ⟨init.F.A, init.auxA, init.dualA⟩, M, rfl, fun k => ?_, fun n => ?_⟩
  · rw [hval (once P.params) _ _ _ rfl rfl one_pos]
    simp only [Function.iterate_succ_apply']
    rw [show (once P.params).nInner = 1 from rfl, innerLoop_one]
  · obtain ⟨g1, g2, g3, g4⟩ := hM n
    simp only [h0] at g1
    exact ⟨g1, g2, g3, fun ht => g4 fun _ _ => matStop_none ht _ _⟩

/-- C59, mode 1. -/
theorem C59_B (P : Problem I K R nA nB nC J) (hN : 0 < P.params.nInner) (hA : P.updA = false) (hB : P.updB = true) (hC : P.updC = false)
    (init : AOState I K R nA nB nC J) (outs : ℕ → Output (AOState I K R nA nB nC J)) (h : ∀ n : ℕ, cmfAoadmm P (plain n) init = .ok (outs n)) :
    ∃ (seq : ℕ → RagState I R nB J) (M : ℕ → ℕ), seq 0 = ⟨init.F.B, init.auxB, init.dualB⟩ ∧
      (∀ k, admmUpdateB (once P.params) P.X P.pensB P.l2.2.1 P.constB ⟨init.F.A, (seq k).x, init.F.C⟩ (seq k).aux (seq k).dual = .ok (seq (k + 1))) ∧
      ∀ n, (⟨(outs n).st.F.B, (outs n).st.auxB, (outs n).st.dualB⟩ : RagState I R nB J) = seq (M n) ∧ n ≤ M n ∧ M n ≤ n * P.params.nInner ∧
        ((∀ t, P.params.innerTol = some t → t ≤ 0) → M n = n * P.params.nInner) := by
  obtain ⟨h0, hs⟩ := outs_succ h
  have hsw : ∀ s : AOState I K R nA nB nC J, sweep P s = (sweepB P s).map fun t => (t, none) := by
    intro s
    unfold sweep sweepA sweepC
    simp only [hA, hC]
    cases sweepB P s <;> rfl
  have hup : ∀ n, ∃ w, admmUpdateB P.params P.X P.pensB P.l2.2.1 P.constB (outs n).st.F (outs n).st.auxB (outs n).st.dualB = .ok w ∧
      (outs (n + 1)).st.F = ⟨(outs n).st.F.A, w.x, (outs n).st.F.C⟩ ∧ (outs (n + 1)).st.auxB = w.aux ∧ (outs (n + 1)).st.dualB = w.dual := by
    intro n
    obtain ⟨i, hi⟩ := hs n
    rw [hsw, sweepB, if_pos hB] at hi
    cases hw : admmUpdateB P.params P.X P.pensB P.l2.2.1 P.constB (outs n).st.F (outs n).st.auxB (outs n).st.dualB with
    | error e => rw [hw] at hi; cases hi
    | ok w =>
      rw [hw] at hi
      simp only [Except.map, Except.ok.injEq, Prod.mk.injEq] at hi
      exact ⟨w, rfl, by rw [← hi.1], by rw [← hi.1], by rw [← hi.1]⟩
  have hAC : ∀ n, (outs n).st.F.A = init.F.A ∧ (outs n).st.F.C = init.F.C := by
    intro n
    induction n with
    | zero => rw [h0]; exact ⟨rfl, rfl⟩
    | succ n ih => obtain ⟨w, -, hF, -⟩ := hup n; rw [hF]; exact ih
  obtain ⟨w, hw, -⟩ := hup 0
  obtain ⟨o, ρ, hρ⟩ : ∃ o ρ, feasPenalties P.params.scale P.constB (crossB init.F) = .ok (o, ρ) := by
    rw [h0] at hw
    unfold admmUpdateB at hw
    cases hf : feasPenalties P.params.scale P.constB (crossB init.F) with
    | error e => rw [hf] at hw; cases hw
    | ok x => exact ⟨x.1, x.2, rfl⟩
  set step := stepB P.pensB ρ (fun i => P.params.svd (addRidge (crossB init.F i) (ρ i) nB P.l2.2.1)) (rhsB P.X init.F) with hstep
  have hval : ∀ (prm : Params R) (x : Ragged I R J) (aux : Fin nB → AuxB I R J) (dual : Fin nB → Ragged I R J), prm.svd = P.params.svd →
      prm.scale = P.params.scale → admmUpdateB prm P.X P.pensB P.l2.2.1 P.constB ⟨init.F.A, x, init.F.C⟩ aux dual =
        .ok (innerLoop step (ragStop prm.innerTol) prm.nInner ⟨x, aux, dual⟩) := by
    intro prm x aux dual e1 e2
    unfold admmUpdateB
    have hρ' : feasPenalties prm.scale P.constB (crossB ⟨init.F.A, x, init.F.C⟩) = .ok (o, ρ) := by rw [e2]; exact hρ
    rw [hρ', e1]
    rfl
  obtain ⟨M, hM⟩ := iter_warm (step := step) (stop := ragStop P.params.innerTol) hN
    (t := fun n => ⟨(outs n).st.F.B, (outs n).st.auxB, (outs n).st.dualB⟩) (by
      intro n
      obtain ⟨w, hw, hF, h1, h2⟩ := hup n
      have hF' : (outs n).st.F = ⟨init.F.A, (outs n).st.F.B, init.F.C⟩ := by rw [← (hAC n).1, ← (hAC n).2]
      rw [hF', hval P.params _ _ _ rfl rfl] at hw
      rw [Except.ok.inj hw, hF, h1, h2])
  refine ⟨fun k => step^[k] ⟨init.F.B, init.auxB, init.dualB⟩, M, rfl, fun k => ?_, fun n => ?_⟩
  · rw [hval (once P.params) _ _ _ rfl rfl]
    simp only [Function.iterate_succ_apply']
    rw [show (once P.params).nInner = 1 from rfl, innerLoop_one]
  · obtain ⟨g1, g2, g3, g4⟩ := hM n
    simp only [h0] at g1
    exact ⟨g1, g2, g3, fun ht => g4 fun _ _ => ragStop_none ht _ _⟩

/-- C59, mode 2. -/
theorem C59_C (P : Problem I K R nA nB nC J) (hN : 0 < P.params.nInner) (hA : P.updA = false) (hB : P.updB = false) (hC : P.updC = true)
    (init : AOState I K R nA nB nC J) (outs : ℕ → Output (AOState I K R nA nB nC J)) (h : ∀ n : ℕ, cmfAoadmm P (plain n) init = .ok (outs n)) :
    ∃ (seq : ℕ → MatState K R nC) (M : ℕ → ℕ), seq 0 = ⟨init.F.C, init.auxC, init.dualC⟩ ∧
      (∀ k, admmUpdateC (once P.params) P.X P.pensC P.l2.2.2 ⟨init.F.A, init.F.B, (seq k).x⟩ (seq k).aux (seq k).dual = seq (k + 1)) ∧
      ∀ n, (⟨(outs n).st.F.C, (outs n).st.auxC, (outs n).st.dualC⟩ : MatState K R nC) = seq (M n) ∧ n ≤ M n ∧ M n ≤ n * P.params.nInner ∧
        ((∀ t, P.params.innerTol = some t → t ≤ 0) → M n = n * P.params.nInner) := by
  obtain ⟨h0, hs⟩ := outs_succ h
  have hup : ∀ n, (outs (n + 1)).st = sweepC P (outs n).st := by
    intro n
    obtain ⟨i, hi⟩ := hs n
    unfold sweep sweepA sweepB at hi
    simp only [hA, hB, Except.bind] at hi
    injection hi with hi
    exact (congrArg Prod.fst hi).symm
  have hAB : ∀ n, (outs n).st.F.A = init.F.A ∧ (outs n).st.F.B = init.F.B := by
    intro n
    induction n with
    | zero => rw [h0]; exact ⟨rfl, rfl⟩
    | succ n ih => rw [hup n, sweepC, if_pos hC]; exact ih
  set ρ := feasPenalty P.params.scale (crossC init.F) with hρ
  set step := stepC P.pensC ρ (P.params.svd (addRidge (crossC init.F) ρ nC P.l2.2.2)) (rhsC P.X init.F) with hstep
  have hval : ∀ (prm : Params R) (x : Matrix (Fin K) (Fin R) ℝ) (aux dual : Fin nC → Matrix (Fin K) (Fin R) ℝ), prm.svd = P.params.svd →
      prm.scale = P.params.scale → admmUpdateC prm P.X P.pensC P.l2.2.2 ⟨init.F.A, init.F.B, x⟩ aux dual =
        innerLoop step (matStop prm.innerTol) prm.nInner ⟨x, aux, dual⟩ := by
    intro prm x aux dual e1 e2
    unfold admmUpdateC
    rw [e1, e2]
    rfl
  obtain ⟨M, hM⟩ := iter_warm (step := step) (stop := matStop P.params.innerTol) hN
    (t := fun n => ⟨(outs n).st.F.C, (outs n).st.auxC, (outs n).st.dualC⟩) (by
      intro n
      have hF' : (outs n).st.F = ⟨init.F.A, init.F.B, (outs n).st.F.C⟩ := by rw [← (hAB n).1, ← (hAB n).2]
      rw [hup n, sweepC, if_pos hC, ← hval P.params _ _ _ rfl rfl, ← hF'])
  refine ⟨fun k => step^[k] ⟨init.F.C, init.auxC, init.dualC⟩, M, rfl, fun k => ?_, fun n => ?_⟩
  · rw [hval (once P.params) _ _ _ rfl rfl]
    simp only [Function.iterate_succ_apply']
    rw [show (once P.params).nInner = 1 from rfl, innerLoop_one]
  · obtain ⟨g1, g2, g3, g4⟩ := hM n
    simp only [h0] at g1
    exact ⟨g1, g2, g3, fun ht => g4 fun _ _ => matStop_none ht _ _⟩

/-! ### C60 -/

/-- C60, mode 0: with convex penalties and a saddle point of the subproblem, the outer loop updating only A converges when the number of iterations grows. -/
theorem C60_A (P : Problem I K R nA nB nC J) (hsvd : ValidSVD P.params) (hN : 0 < P.params.nInner) (hA : P.updA = true) (hB : P.updB = false)
    (hC : P.updC = false) (hl : 0 ≤ P.l2.1) (hn : 0 < nA) (init : AOState I K R nA nB nC J) (hw : ∀ i, 0 < weightA P.params.scale init.F i)
    (S : Fin nA → Set (Matrix (Fin I) (Fin R) ℝ)) (g : Fin nA → Matrix (Fin I) (Fin R) ℝ → ℝ)
    (hp : ∀ p, (P.pensA p).ProxOf (S p) (g p)) (hg : ∀ p, ConvexOn ℝ (S p) (g p))
    (xs : Matrix (Fin I) (Fin R) ℝ) (Λ : Fin nA → Matrix (Fin I) (Fin R) ℝ) (hs : IsSaddlePoint Spec.inner (fitA P.X P.l2.1 init.F) S g xs Λ)
    (outs : ℕ → Output (AOState I K R nA nB nC J)) (h : ∀ n : ℕ, cmfAoadmm P (plain n) init = .ok (outs n)) :
    IsMinOver (fitA P.X P.l2.1 init.F) S g xs ∧
    (∀ p i r, Tendsto (fun n => (outs n).st.F.A i r - (outs n).st.auxA p i r) atTop (nhds 0)) ∧
    (∀ i j k, Tendsto (fun n => (⟨(outs n).st.F.A, init.F.B, init.F.C⟩ : Factors I K R J).entry i j k) atTop
      (nhds ((⟨xs, init.F.B, init.F.C⟩ : Factors I K R J).entry i j k))) ∧
    (SolvableA init.F P.l2.1 → ∀ i r, Tendsto (fun n => (outs n).st.F.A i r) atTop (nhds (xs i r))) := by
  obtain ⟨seq, M, -, hseq, hM⟩ := C59_A P hN hA hB hC init outs h
  have hlim : Tendsto M atTop atTop := tendsto_atTop_mono (fun n => (hM n).2.1) tendsto_id
  have hx : ∀ n, (outs n).st.F.A = (seq (M n)).x ∧ (outs n).st.auxA = (seq (M n)).aux := fun n => by
    rw [← (hM n).1]; exact ⟨rfl, rfl⟩
  obtain ⟨c1, -, c3, c4, c5⟩ := C32_A P.params hsvd P.X hl P.constA init.F P.pensA hn hw S g hp hg seq hseq xs Λ hs
  simp only [(hx _).1, (hx _).2]
  exact ⟨c1, fun p i r => (c3 p i r).comp hlim, fun i j k => (c4 i j k).comp hlim, fun hsol i r => (c5 hsol i r).comp hlim⟩

/-- C60, mode 1. -/
theorem C60_B (P : Problem I K R nA nB nC J) (hsvd : ValidSVD P.params) (hN : 0 < P.params.nInner) (hA : P.updA = false) (hB : P.updB = true)
    (hC : P.updC = false) (hl : 0 ≤ P.l2.2.1) (hn : 0 < nB) (init : AOState I K R nA nB nC J) (hw : ∀ i, 0 < weightB P.params.scale init.F i)
    (S : Fin nB → Set (Ragged I R J)) (g : Fin nB → Ragged I R J → ℝ)
    (hp : ∀ p, (P.pensB p).ProxOf (S p) (g p)) (hg : ∀ p, ConvexOn ℝ (S p) (g p))
    (xs : Ragged I R J) (Λ : Fin nB → Ragged I R J) (hs : IsSaddlePoint ragInner (fitB P.X P.l2.2.1 init.F) S g xs Λ)
    (outs : ℕ → Output (AOState I K R nA nB nC J)) (h : ∀ n : ℕ, cmfAoadmm P (plain n) init = .ok (outs n)) :
    IsMinOver (fitB P.X P.l2.2.1 init.F) S g xs ∧
    (∀ p i j r, Tendsto (fun n => (outs n).st.F.B i j r - ((outs n).st.auxB p).toMats i j r) atTop (nhds 0)) ∧
    (∀ i j k, Tendsto (fun n => (⟨init.F.A, (outs n).st.F.B, init.F.C⟩ : Factors I K R J).entry i j k) atTop
      (nhds ((⟨init.F.A, xs, init.F.C⟩ : Factors I K R J).entry i j k))) ∧
    (SolvableB init.F P.l2.2.1 → ∀ i j r, Tendsto (fun n => (outs n).st.F.B i j r) atTop (nhds (xs i j r))) := by
  obtain ⟨seq, M, -, hseq, hM⟩ := C59_B P hN hA hB hC init outs h
  have hlim : Tendsto M atTop atTop := tendsto_atTop_mono (fun n => (hM n).2.1) tendsto_id
  have hx : ∀ n, (outs n).st.F.B = (seq (M n)).x ∧ (outs n).st.auxB = (seq (M n)).aux := fun n => by
    rw [← (hM n).1]; exact ⟨rfl, rfl⟩
  obtain ⟨c1, -, c3, c4, c5⟩ := C32_B P.params hsvd P.X hl P.constB init.F P.pensB hn hw S g hp hg seq hseq xs Λ hs
  simp only [(hx _).1, (hx _).2]
  exact ⟨c1, fun p i j r => (c3 p i j r).comp hlim, fun i j k => (c4 i j k).comp hlim, fun hsol i j r => (c5 hsol i j r).comp hlim⟩

/-- C60, mode 2. -/
theorem C60_C (P : Problem I K R nA nB nC J) (hsvd : ValidSVD P.params) (hN : 0 < P.params.nInner) (hA : P.updA = false) (hB : P.updB = false)
    (hC : P.updC = true) (hl : 0 ≤ P.l2.2.2) (hn : 0 < nC) (init : AOState I K R nA nB nC J) (hw : 0 < weightC P.params.scale init.F)
    (S : Fin nC → Set (Matrix (Fin K) (Fin R) ℝ)) (g : Fin nC → Matrix (Fin K) (Fin R) ℝ → ℝ)
    (hp : ∀ p, (P.pensC p).ProxOf (S p) (g p)) (hg : ∀ p, ConvexOn ℝ (S p) (g p))
    (xs : Matrix (Fin K) (Fin R) ℝ) (Λ : Fin nC → Matrix (Fin K) (Fin R) ℝ) (hs : IsSaddlePoint Spec.inner (fitC P.X P.l2.2.2 init.F) S g xs Λ)
    (outs : ℕ → Output (AOState I K R nA nB nC J)) (h : ∀ n : ℕ, cmfAoadmm P (plain n) init = .ok (outs n)) :
    IsMinOver (fitC P.X P.l2.2.2 init.F) S g xs ∧
    (∀ p k r, Tendsto (fun n => (outs n).st.F.C k r - (outs n).st.auxC p k r) atTop (nhds 0)) ∧
    (∀ i j k, Tendsto (fun n => (⟨init.F.A, init.F.B, (outs n).st.F.C⟩ : Factors I K R J).entry i j k) atTop
      (nhds ((⟨init.F.A, init.F.B, xs⟩ : Factors I K R J).entry i j k))) ∧
    (SolvableC init.F P.l2.2.2 → ∀ k r, Tendsto (fun n => (outs n).st.F.C k r) atTop (nhds (xs k r))) := by
  obtain ⟨seq, M, -, hseq, hM⟩ := C59_C P hN hA hB hC init outs h
  have hlim : Tendsto M atTop atTop := tendsto_atTop_mono (fun n => (hM n).2.1) tendsto_id
  have hx : ∀ n, (outs n).st.F.C = (seq (M n)).x ∧ (outs n).st.auxC = (seq (M n)).aux := fun n => by
    rw [← (hM n).1]; exact ⟨rfl, rfl⟩
  obtain ⟨c1, -, c3, c4, c5⟩ := C32_C P.params hsvd P.X hl init.F P.pensC hn hw S g hp hg seq hseq xs Λ hs
  simp only [(hx _).1, (hx _).2]
  exact ⟨c1, fun p k r => (c3 p k r).comp hlim, fun i j k => (c4 i j k).comp hlim, fun hsol k r => (c5 hsol k r).comp hlim⟩

/-! ### C61 -/

/-- A round of updates succeeds exactly when no maximum of an empty list is taken and no needed row update is missing. -/
theorem sweep_succeeds (P : Problem I K R nA nB nC J) (s : AOState I K R nA nB nC J) :
    (∃ x, sweep P s = .ok x) ↔ (P.updB = true → P.constB = true → 0 < I) ∧ (P.updA = true → P.constA = true → 0 < I) ∧
      (P.updA = true → P.constA = false → 0 < P.params.nInner → 0 < I → ∀ p, (P.pensA p).row.isSome) := by
  have hB : (∃ u, sweepB P s = .ok u) ↔ (P.updB = true → P.constB = true → 0 < I) := by
    unfold sweepB
    by_cases h : P.updB = true
    · rw [if_pos h]
      simp only [h, true_imp_iff]
      rw [← admmUpdateB_succeeds P.params P.X P.pensB P.l2.2.1 P.constB s.F s.auxB s.dualB]
      cases admmUpdateB P.params P.X P.pensB P.l2.2.1 P.constB s.F s.auxB s.dualB <;> simp [Except.map]
    · rw [if_neg h]
      simp [h]
  have hA : ∀ u : AOState I K R nA nB nC J, (∃ x, sweepA P u = .ok x) ↔ (P.updA = true → P.constA = true → 0 < I) ∧
      (P.updA = true → P.constA = false → 0 < P.params.nInner → 0 < I → ∀ p, (P.pensA p).row.isSome) := by
    intro u
    unfold sweepA
    by_cases h : P.updA = true
    · rw [if_pos h]
      simp only [h, true_imp_iff]
      rw [← admmUpdateA_succeeds P.params P.X P.pensA P.l2.1 P.constA u.F u.auxA u.dualA]
      cases admmUpdateA P.params P.X P.pensA P.l2.1 P.constA u.F u.auxA u.dualA <;> simp [Except.map]
    · rw [if_neg h]
      simp [h]
  constructor
  · rintro ⟨x, hx⟩
    obtain ⟨u, h1, h2⟩ := sweep_ok (t := x.1) (i := x.2) hx
    exact ⟨hB.mp ⟨u, h1⟩, (hA _).mp ⟨x, h2⟩⟩
  · rintro ⟨h1, h2⟩
    obtain ⟨u, hu⟩ := hB.mpr h1
    obtain ⟨x, hx⟩ := (hA (sweepC P u)).mpr h2
    exact ⟨x, by unfold sweep; rw [hu]; exact hx⟩

/-- C61: with at least one matrix, row updates for every penalty on A (or a constant feasibility penalty), and an absolute tolerance whenever there is a relative
one, a call returns; it never raises. -/
theorem C61 (P : Problem I K R nA nB nC J) (hI : 0 < I) (hrow : P.constA = false → ∀ p, (P.pensA p).row.isSome) (a : Args)
    (habs : truthy a.tol = true → a.absTol.isSome) (init : AOState I K R nA nB nC J) : ∃ out, cmfAoadmm P a init = .ok out := by
  have hsw : ∀ s : AOState I K R nA nB nC J, ∃ x, (aoOps P).sweep s = .ok x := fun s =>
    (sweep_succeeds P s).mpr ⟨fun _ _ => hI, fun _ _ => hI, fun _ h _ _ => hrow h⟩
  have hstop : ∀ (f : Bool) (p q : PyF) (s : Acc (AOState I K R nA nB nC J)), ∃ x, checkStop a f p q s = .ok x := by
    intro f p q s
    unfold checkStop
    by_cases h : truthy a.tol = true
    · obtain ⟨b, hb⟩ := Option.isSome_iff_exists.mp (habs h)
      rw [if_pos h, hb]
      simp only
      split
      · exact ⟨_, rfl⟩
      · split <;> exact ⟨_, rfl⟩
    · rw [if_neg h]; exact ⟨_, rfl⟩
  have hbody : ∀ s : Acc (AOState I K R nA nB nC J), ∃ x, body (aoOps P) a s = .ok x := by
    intro s
    obtain ⟨x, hx⟩ := hsw s.st
    unfold body
    rw [hx]
    simp only
    split
    · split
      · exact ⟨_, rfl⟩
      · exact hstop _ _ _ _
    · exact ⟨_, rfl⟩
  have hrun : ∀ (n : ℕ) (s : Acc (AOState I K R nA nB nC J)), ∃ x, run (aoOps P) a n s = .ok x := by
    intro n
    induction n with
    | zero => exact fun s => ⟨_, rfl⟩
    | succ n ih =>
      intro s
      obtain ⟨⟨s', b⟩, hx⟩ := hbody s
      rw [run, hx]
      cases b
      · exact ih s'
      · exact ⟨_, rfl⟩
  obtain ⟨x, hx⟩ := hrun a.nIterMax.toNat (initAcc (aoOps P) a none init)
  exact ⟨_, by unfold cmfAoadmm fit; rw [hx]⟩

/-- C61 needs the condition on the tolerances: without it every call with `return_errors` and at least one iteration raises. -/
theorem C61_tol {J : Fin I → ℕ} (P : Problem I K R nA nB nC J) (a : Args) (ht : truthy a.tol = true) (habs : a.absTol = none) (hr : a.returnErrors = true)
    (hn : 0 < a.nIterMax) (init : AOState I K R nA nB nC J) : ∃ e, cmfAoadmm P a init = .error e := by
  obtain ⟨n, hn'⟩ : ∃ n, a.nIterMax.toNat = n + 1 := ⟨a.nIterMax.toNat - 1, by omega⟩
  unfold cmfAoadmm fit
  rw [hn', run]
  have : ∀ s : Acc (AOState I K R nA nB nC J), ∃ e, body (aoOps P) a s = .error e := by
    intro s
    unfold body
    cases (aoOps P).sweep s.st with
    | error e => exact ⟨e, rfl⟩
    | ok x =>
      simp only [ht, hr, Bool.true_or, if_true, Bool.not_true, Bool.and_false, Bool.false_eq_true, if_false]
      unfold checkStop
      rw [if_pos ht, habs]
      exact ⟨_, rfl⟩
  obtain ⟨e, he⟩ := this (initAcc (aoOps P) a none init)
  rw [he]
  exact ⟨e, rfl⟩

/-- C59, C60, C61 apply: non-negativity and an L1 penalty on A, data -1; three inner iterations per outer iteration; the factor tends to 0. -/
example : ∃ (P : Problem 1 1 1 2 0 0 fun _ => 1) (init : AOState 1 1 1 2 0 0 fun _ => 1) (outs : ℕ → Output (AOState 1 1 1 2 0 0 fun _ => 1)),
    (∀ n : ℕ, cmfAoadmm P (plain n) init = .ok (outs n)) ∧ init.F.A = !![7] ∧ Tendsto (fun n => (outs n).st.F.A 0 0) atTop (nhds 0) := by
  obtain ⟨prm, hP, hN, -, hscale⟩ := exists_params 1 3 none 2
  let std : Fin 2 → StdPen 1 1 := ![.nonNeg, .l1 3 false]
  have hv : ∀ p, (std p).Valid := by
    intro p; fin_cases p
    · exact trivial
    · show (0 : ℝ) ≤ 3; norm_num
  let P : Problem 1 1 1 2 0 0 fun _ => 1 := ⟨dataNeg, fun p => (std p).toA, Fin.elim0, Fin.elim0, (0, 0, 0), prm, false, false, true, false, false⟩
  let init : AOState 1 1 1 2 0 0 fun _ => 1 := ⟨none, ⟨!![7], ones.B, ones.C⟩, fun _ => !![5], fun _ => !![4], Fin.elim0, Fin.elim0, Fin.elim0, Fin.elim0⟩
  have h : ∀ n : ℕ, ∃ out, cmfAoadmm P (plain n) init = .ok out := fun n =>
    C61 P one_pos (fun _ p => by fin_cases p <;> rfl) _ (by simp [plain, truthy]) init
  choose outs ho using h
  refine ⟨P, init, outs, ho, rfl, ?_⟩
  have hs : IsSaddlePoint Spec.inner (fitA dataNeg 0 init.F) (fun p => (std p).feasible) (fun p => (std p).fn) 0 ![!![-1], 0] := by
    refine ⟨fun p => ?_, fun y => ?_, fun p y hy => ?_⟩
    · fin_cases p
      · intro i r; exact le_rfl
      · intro h; cases h
    · simp [init, fitA, sse, Factors.entry, dataNeg, ones, sqNorm, Spec.inner, Fin.sum_univ_two]
      nlinarith [sq_nonneg (y 0 0)]
    · fin_cases p
      · have : 0 ≤ y 0 0 := hy 0 0
        simpa [std, StdPen.fn, Spec.inner] using this
      · simp [std, StdPen.fn, Spec.inner, absSum]
  exact (C60_A P hP (by show 0 < prm.nInner; omega) rfl rfl rfl le_rfl (by omega) init
    (by show ∀ i, 0 < weightA prm.scale init.F i; rw [hscale]; exact weightA_ones)
    _ _ (fun p => (std p).proxA (hv p)) (fun p => (std p).convexOn (hv p)) 0 _ hs outs ho).2.2.2 solvable_ones.1 0 0

end Verif.Props
