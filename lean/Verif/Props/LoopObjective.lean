import Verif.Props.Loop
import Verif.Props.ADMMStep

/-!
# C29, C30: descent of the objective
-/

namespace Verif.Props

open Verif.Loop Verif.ADMM Verif.Penalties Verif.Spec Finset Matrix

variable {I K R nA nB nC : ℕ} {J : Fin I → ℕ}

/-- The systems met in a round of updates from the state `s` are invertible. -/
def Invertible (P : Problem I K R 0 0 0 J) (s : AOState I K R 0 0 0 J) : Prop :=
  (P.updB = true → SolvableB s.F P.l2.2.1) ∧
  ∀ u, sweepB P s = .ok u → (P.updC = true → SolvableC u.F P.l2.2.2) ∧ (P.updA = true → SolvableA (sweepC P u).F P.l2.1)

theorem pos_sq {v : Fin R → ℝ} (hv : v ≠ 0) : 0 < ∑ r, v r ^ 2 := by
  obtain ⟨r, hr⟩ : ∃ r, v r ≠ 0 := by
    by_contra hc; push Not at hc; exact hv (funext hc)
  exact sum_pos' (fun _ _ => sq_nonneg _) ⟨r, mem_univ r, by positivity⟩

/-- Positive L2 parameters make every system invertible. -/
theorem invertible_of_l2 (P : Problem I K R 0 0 0 J) (hA : P.updA = true → 0 < P.l2.1) (hB : P.updB = true → 0 < P.l2.2.1)
    (hC : P.updC = true → 0 < P.l2.2.2) (s : AOState I K R 0 0 0 J) : Invertible P s := by
  refine ⟨fun h i v hv => ?_, fun u _ => ⟨fun h v hv => ?_, fun h i v hv => ?_⟩⟩
  · exact add_pos_of_nonneg_of_pos (sum_nonneg fun _ _ => sq_nonneg _) (mul_pos (hB h) (pos_sq hv))
  · exact add_pos_of_nonneg_of_pos (sum_nonneg fun _ _ => sum_nonneg fun _ _ => sq_nonneg _) (mul_pos (hC h) (pos_sq hv))
  · exact add_pos_of_nonneg_of_pos (sum_nonneg fun _ _ => sum_nonneg fun _ _ => sq_nonneg _) (mul_pos (hA h) (pos_sq hv))

/-- A round of updates does not increase the objective. -/
theorem sweep_descent {P : Problem I K R 0 0 0 J} (hsvd : ValidSVD P.params) (hN : 0 < P.params.nInner) {s t : AOState I K R 0 0 0 J}
    {i : Option (Inter I R)} (hs : Invertible P s) (h : sweep P s = .ok (t, i)) : ridgeObj P.X P.l2 t.F ≤ ridgeObj P.X P.l2 s.F := by
  obtain ⟨u, hB, hA⟩ := sweep_ok h
  have e1 : ridgeObj P.X P.l2 u.F ≤ ridgeObj P.X P.l2 s.F := by
    unfold sweepB at hB
    split at hB
    · rename_i hb
      cases hu : admmUpdateB P.params P.X P.pensB P.l2.2.1 P.constB s.F s.auxB s.dualB with
      | error e => rw [hu] at hB; cases hB
      | ok w =>
        rw [hu] at hB; cases hB
        by_cases hne : s.F.B = w.x
        · simp only [← hne]; exact le_rfl
        · exact (C27_B P.params hsvd hN P.X P.l2 P.constB s.F P.pensB s.auxB s.dualB (hs.1 hb) w hu s.F.B hne).le
    · cases hB; exact le_rfl
  have e2 : ridgeObj P.X P.l2 (sweepC P u).F ≤ ridgeObj P.X P.l2 u.F := by
    unfold sweepC
    split
    · rename_i hc
      by_cases hne : u.F.C = (admmUpdateC P.params P.X P.pensC P.l2.2.2 u.F u.auxC u.dualC).x
      · simp only [← hne]; exact le_rfl
      · exact (C27_C P.params hsvd hN P.X P.l2 u.F P.pensC u.auxC u.dualC ((hs.2 u hB).1 hc) u.F.C hne).le
    · exact le_rfl
  have e3 : ridgeObj P.X P.l2 t.F ≤ ridgeObj P.X P.l2 (sweepC P u).F := by
    unfold sweepA at hA
    split at hA
    · rename_i ha
      cases hu : admmUpdateA P.params P.X P.pensA P.l2.1 P.constA (sweepC P u).F (sweepC P u).auxA (sweepC P u).dualA with
      | error e => rw [hu] at hA; cases hA
      | ok w =>
        rw [hu] at hA; cases hA
        by_cases hne : (sweepC P u).F.A = w.x
        · simp only [← hne]; exact le_rfl
        · exact (C27_A P.params hsvd hN P.X P.l2 P.constA (sweepC P u).F P.pensA _ _ ((hs.2 u hB).2 ha) w hu _ hne).le
    · cases hA; exact le_rfl
  exact e3.trans (e2.trans e1)

/-- Weights stay absent. -/
theorem sweep_weights {P : Problem I K R nA nB nC J} {s t : AOState I K R nA nB nC J} {i : Option (Inter I R)} (h : sweep P s = .ok (t, i))
    (hs : s.weights = none) : t.weights = none := by
  obtain ⟨u, hB, hA⟩ := sweep_ok h
  obtain ⟨-, -, b1, b2⟩ := sweepB_frame hB
  obtain ⟨-, -, c1, c2⟩ := sweepC_frame P u
  obtain ⟨-, -, a1, a2⟩ := sweepA_frame hA
  have hu : u.weights = none := by
    cases hb : P.updB with
    | true => exact b2 hb
    | false => rw [b1 hb]; exact hs
  have hv : (sweepC P u).weights = none := by
    cases hc : P.updC with
    | true => exact c2 hc
    | false => rw [c1 hc]; exact hu
  cases ha : P.updA with
  | true => exact (a2 ha).1
  | false => rw [(a1 ha).1]; exact hv

/-- C29: without penalties, the objective of the returned factorization is at most that of the initial one. The hypothesis asks for the systems met after
`t` iterations to be invertible, for every `t` below the number of iterations allowed; `invertible_of_l2` gives it for positive L2 parameters. -/
theorem C29 (P : Problem I K R 0 0 0 J) (hsvd : ValidSVD P.params) (hN : 0 < P.params.nInner) (a : Args) (init : AOState I K R 0 0 0 J)
    (hinv : ∀ t : ℕ, t < a.nIterMax → ∀ o, cmfAoadmm P (plain t) init = .ok o → Invertible P o.st)
    (out : Output (AOState I K R 0 0 0 J)) (h : cmfAoadmm P a init = .ok out) :
    ridgeObj P.X P.l2 out.st.F ≤ ridgeObj P.X P.l2 init.F := by
  obtain ⟨l, hl, hlen, -⟩ := fit_hist h
  suffices H : ∀ (l : List (AOState I K R 0 0 0 J × Option (Inter I R))) s, Hist (aoOps P) none init l s → l.length ≤ a.nIterMax.toNat + 1 →
      ridgeObj P.X P.l2 s.F ≤ ridgeObj P.X P.l2 init.F from H l _ hl hlen
  intro l s hl
  induction hl with
  | zero => intro _; exact le_rfl
  | @snoc l s s' i hl hsw ih =>
    intro hlen
    simp only [List.length_append, List.length_singleton] at hlen
    have hpos : 0 < l.length := List.length_pos_iff.2 hl.ne_nil
    obtain ⟨o, ho, hos⟩ := fit_plain (aoOps P) none init s _ hl.sweeps_eq
    have hI := hinv (l.length - 1) (by omega) o ho
    rw [hos] at hI
    exact (sweep_descent hsvd hN hI hsw).trans (ih (by omega))

/-! ### C30 -/

/-- C30, when the L2 parameters are zero or the data have norm 1: the reported losses do not increase. Missing: other L2 parameters, for which it is false
(`C30_false`). -/
theorem C30_partial (P : Problem I K R 0 0 0 J) (hX : P.X ≠ 0) (hsvd : ValidSVD P.params) (hN : 0 < P.params.nInner)
    (hl2 : P.l2 = (0, 0, 0) ∨ raggedSq P.X = 1) (a : Args) (hr : a.returnErrors = true) (init : AOState I K R 0 0 0 J) (hw : init.weights = none)
    (hinv : ∀ t : ℕ, t < a.nIterMax → ∀ o, cmfAoadmm P (plain t) init = .ok o → Invertible P o.st)
    (out : Output (AOState I K R 0 0 0 J)) (h : cmfAoadmm P a init = .ok out) :
    ∃ d, out.diag = some d ∧ d.losses.length = d.nIter + 1 ∧
      ∀ t < d.nIter, ∃ p q, d.losses[t]? = some (.fin p) ∧ d.losses[t + 1]? = some (.fin q) ∧ q ≤ p := by
  obtain ⟨d, hd, -, -, hlen, hent⟩ := C37 P hX a hr init out h
  obtain ⟨d', hd', hn, -⟩ := report P a hr init out h
  obtain rfl : d = d' := Option.some.inj (hd.symm.trans hd')
  refine ⟨d, hd, hlen, fun t ht => ?_⟩
  obtain ⟨o, ho, -, -, hp, -⟩ := hent t ht.le
  obtain ⟨o', ho', -, -, hq, -⟩ := hent (t + 1) ht
  refine ⟨_, _, hp, hq, ?_⟩
  obtain ⟨l, hl, -⟩ := fit_hist ho
  have hstep : ∃ i, sweep P o.st = .ok (o'.st, i) := by
    have run1 : ∀ (k : ℕ) o, cmfAoadmm P (plain k) init = .ok o → sweeps (aoOps P) k init = .ok o.st := by
      intro k o ho
      obtain ⟨s, hs, hst, -⟩ := fit_ok ho
      have := run_sweeps (O := aoOps P) (a := plain k) rfl k (initAcc (aoOps P) (plain k) none init)
      rw [show (plain (k : ℤ)).nIterMax.toNat = k from Int.toNat_natCast k] at hs
      rw [hs] at this
      cases hsw : sweeps (aoOps P) k init with
      | error e => rw [show (initAcc (aoOps P) (plain k) none init).st = init from rfl, hsw] at this; cases this
      | ok x =>
        rw [show (initAcc (aoOps P) (plain k) none init).st = init from rfl, hsw] at this
        simp only [Except.map, Except.ok.injEq, Prod.mk.injEq] at this
        rw [hst, this.1]
    have h1 := run1 t o ho
    have h2 := run1 (t + 1) o' ho'
    rw [sweeps, h1] at h2
    simp only [Except.bind] at h2
    cases hsw : (aoOps P).sweep o.st with
    | error e => rw [hsw] at h2; cases h2
    | ok x =>
      rw [hsw] at h2
      simp only [Except.map, Except.ok.injEq] at h2
      exact ⟨x.2, by rw [← h2]; exact hsw⟩
  obtain ⟨i, hstep⟩ := hstep
  have hdesc := sweep_descent hsvd hN (hinv t (by omega) o ho) hstep
  have hwt : o.st.weights = none := hist_inv hl (Q := fun s => s.weights = none) hw fun s s' i hs hsw => sweep_weights hsw hs
  have hwt' := sweep_weights hstep hwt
  have hre : ∀ s : AOState I K R 0 0 0 J, s.weights = none → relErr P.X s ^ 2 = sse P.X s.F / raggedSq P.X := by
    intro s hs
    have : absorb s.weights s.F = s.F := by simp [absorb, hs]
    rw [relErr, this, div_pow, Real.sq_sqrt (sse_nonneg _ _), Real.sq_sqrt (raggedSq_nonneg _)]
  rw [hre _ hwt, hre _ hwt']
  simp only [regValue, univ_eq_empty, sum_empty, add_zero]
  simp only [ridgeObj] at hdesc
  rcases hl2 with h0 | h1
  · rw [h0] at hdesc ⊢
    simp only [zero_mul, add_zero, mul_zero] at hdesc ⊢
    have := div_le_div_of_nonneg_right (by linarith : sse P.X o'.st.F ≤ sse P.X o.st.F) (raggedSq_nonneg P.X)
    linarith
  · rw [h1, div_one, div_one]
    exact hdesc

end Verif.Props
