import Verif.Props.LoopStop
import Verif.Props.LoopObjective

/-!
# C84: how many iterations an unconstrained run takes at most
-/

namespace Verif.Props

open Verif.Loop Verif.ADMM Verif.Penalties Verif.Spec Finset Matrix

variable {I K R nA nB nC : ℕ} {J : Fin I → ℕ}

theorem no_gaps (t : ℝ) (s : AOState I K R 0 0 0 J) : NonzeroFactors s ∧ GapsBelow t s :=
  ⟨⟨fun h => absurd h (lt_irrefl _), fun h => absurd h (lt_irrefl _), fun h => absurd h (lt_irrefl _)⟩, fun p => p.elim0, fun p => p.elim0, fun p => p.elim0⟩

/-- C84: without penalties (and with zero L2 parameters or data of norm 1) every iteration after which the loop goes on has reduced the loss by the factor `1 - tol` at least and
left it at `absolute_tol` or above. So the number of iterations is bounded by that of the reductions that bring the initial loss below `absolute_tol`. -/
theorem C84 (P : Problem I K R 0 0 0 J) (hX : P.X ≠ 0) (hsvd : ValidSVD P.params) (hN : 0 < P.params.nInner)
    (hl2 : P.l2 = (0, 0, 0) ∨ raggedSq P.X = 1) (a : Args) (tol abs ft : ℝ) (ht : a.tol = some tol) (hab : a.absTol = some abs) (hft : IsSet a.feasTol ft)
    (h0 : 0 < tol) (h1 : tol ≤ 1) (hr : a.returnErrors = true) (init : AOState I K R 0 0 0 J) (hw : init.weights = none)
    (hinv : ∀ t : ℕ, t < a.nIterMax → ∀ o, cmfAoadmm P (plain t) init = .ok o → Invertible P o.st)
    (N : ℕ) (hN1 : 1 ≤ N) (hb : (1 - tol) ^ N * lossValue P init < abs) (hmax : (N : ℤ) ≤ a.nIterMax)
    (out : Output (AOState I K R 0 0 0 J)) (h : cmfAoadmm P a init = .ok out) :
    ∃ d, out.diag = some d ∧ d.stopping = some true ∧ d.nIter ≤ N := by
  obtain ⟨d, hd, -, hmono⟩ := C30_partial P hX hsvd hN hl2 a hr init hw hinv out h
  obtain ⟨d', hd', -, -, -, hent⟩ := C37 P hX a hr init out h
  obtain rfl : d' = d := Option.some.inj (hd'.symm.trans hd)
  obtain ⟨d'', hd'', hall⟩ := C41_partial P hX a tol abs ft ⟨ht, h0.ne'⟩ hab hft hr init out h
  obtain rfl : d'' = d' := Option.some.inj (hd''.symm.trans hd)
  obtain ⟨d, hd₁, -, -, hend, -⟩ := report P a hr init out h
  obtain rfl : d'' = d := Option.some.inj (hd.symm.trans hd₁)
  have hno : ∀ k < d''.nIter, ∃ o o', cmfAoadmm P (plain k) init = .ok o ∧ cmfAoadmm P (plain ((k + 1 : ℕ) : ℤ)) init = .ok o' ∧
      (¬ (k + 1 = d''.nIter ∧ d''.stopping = some true) → lossValue P o'.st ≤ (1 - tol) * lossValue P o.st ∧ abs ≤ lossValue P o'.st) := by
    intro k hk
    obtain ⟨o, o', ho, ho', hiff⟩ := hall k hk
    obtain ⟨p, q, hp, hq, hpq⟩ := hmono k hk
    obtain ⟨o₁, ho₁, -, -, hl₁, -⟩ := hent k hk.le
    obtain ⟨o₂, ho₂, -, -, hl₂, -⟩ := hent (k + 1) hk
    obtain rfl : o = o₁ := Except.ok.inj (ho.symm.trans ho₁)
    obtain rfl : o' = o₂ := Except.ok.inj (ho'.symm.trans (by exact_mod_cast ho₂))
    have e1 : p = lossValue P o.st := PyF.fin.inj (Option.some.inj (hp.symm.trans hl₁))
    have e2 : q = lossValue P o'.st := PyF.fin.inj (Option.some.inj (hq.symm.trans hl₂))
    refine ⟨o, o', ho, by exact_mod_cast ho', fun hns => ?_⟩
    have hc := mt (hiff (no_gaps ft _).1).1 hns
    simp only [(no_gaps ft o'.st).2, true_and, not_or, not_lt] at hc
    rw [e1, e2] at hpq
    rw [abs_of_nonneg (by linarith)] at hc
    exact ⟨by linarith [hc.1], hc.2⟩
  have hdec : ∀ k : ℕ, k ≤ d''.nIter → (k < d''.nIter ∨ d''.stopping ≠ some true) → ∀ o, cmfAoadmm P (plain k) init = .ok o →
      lossValue P o.st ≤ (1 - tol) ^ k * lossValue P init ∧ (1 ≤ k → abs ≤ lossValue P o.st) := by
    intro k
    induction k with
    | zero =>
      intro _ _ o ho
      obtain ⟨s, hs, hst, -⟩ := fit_ok ho
      have : s = _ := (Except.ok.inj hs).symm
      rw [hst, this]
      simp [initAcc]
    | succ k ih =>
      intro hk hor o' ho'
      obtain ⟨o, o₁, ho, ho₁, hstep⟩ := hno k hk
      obtain rfl : o' = o₁ := Except.ok.inj (ho'.symm.trans ho₁)
      obtain ⟨s1, s2⟩ := hstep (by rintro ⟨e1, e2⟩; rcases hor with h | h; omega; exact h e2)
      refine ⟨s1.trans ?_, fun _ => s2⟩
      rw [pow_succ, mul_assoc, mul_comm _ (lossValue P init), mul_comm (lossValue P init), ← mul_assoc, mul_comm _ (1 - tol), mul_assoc]
      exact mul_le_mul_of_nonneg_left (ih (by omega) (.inl (by omega)) o ho).1 (by linarith)
  by_contra hcon
  have hlt : N ≤ d''.nIter ∧ (N < d''.nIter ∨ d''.stopping ≠ some true) := by
    by_cases hs : d''.stopping = some true
    · have : ¬ d''.nIter ≤ N := fun h => hcon ⟨d'', hd, hs, h⟩
      omega
    · have := (hend hs).1
      exact ⟨by omega, .inr hs⟩
  obtain ⟨o, ho, -⟩ := hent N hlt.1
  obtain ⟨e1, e2⟩ := hdec N hlt.1 hlt.2 o ho
  linarith [e2 hN1]

end Verif.Props
