import Verif.Loop.Print
import Verif.Loop.Return
import Verif.Props.LoopStop

/-!
# C75, C76: what `cmf_aoadmm` prints and returns
-/

namespace Verif.Props

open Verif.Loop Verif.ADMM Verif.Penalties Verif.Spec Finset Matrix

variable {I K R nA nB nC : ℕ} {J : Fin I → ℕ}

/-- The gaps of a state. -/
noncomputable def stateGaps (s : AOState I K R nA nB nC J) : Gaps := feasibilityGaps s.F s.auxA s.auxB s.auxC

/-- What a line about iteration `it` must show, if `s` is the state after that iteration. Only the iteration number without tolerances and diagnostics. Only the gaps
if the gaps are not feasible and no diagnostics are requested. Otherwise also the relative error and the loss. -/
def Shows (P : Problem I K R nA nB nC J) (a : Args) (it : ℕ) (s : AOState I K R nA nB nC J) (x : Log) : Prop :=
  let tols := truthy a.tol ∨ truthy a.absTol
  let feasible := truthy a.feasTol ∧ checkFeasibility (stateGaps s) (a.feasTol.getD 0)
  (¬ tols ∧ a.returnErrors = false ∧ x = .iteration it) ∨
  (tols ∧ a.returnErrors = false ∧ ¬ feasible ∧ x = .notComputed it (stateGaps s)) ∨
  ((a.returnErrors = true ∨ (tols ∧ feasible)) ∧
    ∃ prev, x = .computed it (.fin (relErr P.X s)) prev (.fin (1 / 2 * relErr P.X s ^ 2 + regValue P s.F)) (stateGaps s))

theorem lineOf_shows {P : Problem I K R nA nB nC J} (hX : P.X ≠ 0) {a : Args} {it : ℕ} {p s : AOState I K R nA nB nC J} {i : Option (Inter I R)}
    (hs : (aoOps P).sweep p = .ok (s, i)) {prev : PyF} {x : Log} (h : LineOf (aoOps P) a it s i prev x) : Shows P a it s x := by
  have hrel : (aoOps P).relError s i = .fin (relErr P.X s) := by
    show PyF.div _ _ = _
    rw [show recError P.X s.weights s.F (rootSumSq P.X) i = √(sse P.X (absorb s.weights s.F)) from sweep_recError hs, rootSumSq_eq, PyF.div,
      if_neg (C35_direct P.X hX s.weights s.F).2.ne', relErr]
  have hpen : lossOf ((aoOps P).relError s i) ((aoOps P).penalty s) = .fin (1 / 2 * relErr P.X s ^ 2 + regValue P s.F) := by
    rw [hrel]; simp only [lossOf, aoOps, l2Penalty_eq, regValue]
  cases h with
  | iteration h1 h2 h3 => exact .inl ⟨by simp [h1, h2], h3, rfl⟩
  | notComputed h1 h2 h3 =>
    refine .inr (.inl ⟨by simpa using h1, h2, ?_, rfl⟩)
    intro hf
    rw [feasibleFor] at h3
    rw [show (aoOps P).gaps s = stateGaps s from rfl, hf.1, hf.2] at h3
    cases h3
  | computed h1 =>
    refine .inr (.inr ⟨?_, prev, by rw [hpen, hrel]; rfl⟩)
    rcases h1 with h1 | ⟨h1, h2⟩
    · exact .inl h1
    · simp only [feasibleFor, Bool.and_eq_true] at h2
      exact .inr ⟨by simpa using h1, h2⟩

/-- C75: what is printed. First the initial gaps if `verbose` is positive. Then one line per iteration that is a multiple of `verbose`, in order, with the values of
the factorization after that iteration. Last, unless `verbose` is zero, the reason the loop was left; the number in "converged in ... iterations" is one less than
the number of iterations. -/
theorem C75 (P : Problem I K R nA nB nC J) (hX : P.X ≠ 0) (a : Args) (init : AOState I K R nA nB nC J)
    (out : Output (AOState I K R nA nB nC J)) (h : cmfAoadmm P a init = .ok out) :
    ∃ (n : ℕ) (lines : List Log) (last : Log),
      (∃ o, cmfAoadmm P (plain n) init = .ok o ∧ o.st = out.st) ∧ (∀ d, out.diag = some d → d.nIter = n) ∧
      out.log = (if 0 < a.verbose then [.initial (stateGaps init)] else []) ++ lines ++ (if a.verbose ≠ 0 then [last] else []) ∧
      lines.map Log.iter = (if 0 < a.verbose then (List.range n).filter fun it : ℕ => decide (a.verbose ∣ (it : ℤ)) else []).map some ∧
      (∀ x ∈ lines, ∃ it o, it < n ∧ cmfAoadmm P (plain (it + 1)) init = .ok o ∧ Shows P a it o.st x) ∧
      (∀ d, out.diag = some d → ∀ x ∈ lines, ∃ it r p q g, x = .computed it r p q g ∧
        d.recErrors[it + 1]? = some r ∧ d.losses[it]? = some p ∧ d.losses[it + 1]? = some q ∧ d.gaps[it + 1]? = some g) ∧
      ((last = .reachedMax ∧ n = a.nIterMax.toNat ∧ ∀ d, out.diag = some d → d.message = .maxIter ∧ d.stopping ≠ some true) ∨
        ∃ m, last = .converged (n - 1) m ∧ 0 < n ∧ n ≤ a.nIterMax.toNat ∧ ∀ d, out.diag = some d → d.message = m ∧ d.stopping = some true) := by
  have hfit := h
  unfold cmfAoadmm fit at hfit
  split at hfit
  · cases hfit
  rename_i s hs
  cases hfit
  have hL : Lines (aoOps P) a init (initAcc (aoOps P) a none init) [] := ⟨by simp [initAcc, schedule], by simp⟩
  obtain ⟨lines, last, hl, hlog, hend⟩ :=
    run_log (head := if 0 < a.verbose then [.initial (stateGaps init)] else []) (follows_init (aoOps P) a none init) hL (by simp [initAcc, stateGaps, aoOps]) rfl hs
  obtain ⟨l, hf, -, -⟩ := run_ok (follows_init _ a none init) rfl hs
  have hdiag : ∀ d, (if a.returnErrors = true then some (diagnostics (aoOps P) a s) else none) = some d →
      a.returnErrors = true ∧ d = diagnostics (aoOps P) a s := by
    intro d hd
    split at hd
    · rename_i hr; cases hd; exact ⟨hr, rfl⟩
    · cases hd
  have hsw := hf.hist.sweeps_eq
  rw [hf.len, Nat.add_sub_cancel] at hsw
  refine ⟨s.nIter, lines, last, fit_plain (aoOps P) none init _ _ hsw, ?_, hlog, hl.iters, ?_, ?_, ?_⟩
  · rintro d hd; rw [(hdiag d hd).2]; rfl
  · intro x hx
    obtain ⟨it, p, t, i, prev, h1, h2, h3, h4, -⟩ := hl.line x hx
    have h5 : sweeps (aoOps P) (it + 1) init = .ok t := by rw [sweeps, h2]; simp [Except.bind, h3, Except.map]
    obtain ⟨o, ho, hos⟩ := fit_plain (aoOps P) none init _ _ h5
    refine ⟨it, o, h1, by unfold cmfAoadmm; simpa using ho, ?_⟩
    rw [hos]
    exact lineOf_shows hX h3 h4
  · intro d hd x hx
    obtain ⟨hr, rfl⟩ := hdiag d hd
    obtain ⟨it, p, t, i, prev, h1, h2, h3, h4, h5⟩ := hl.line x hx
    obtain ⟨g1, g2, g3⟩ := hf.lists hr
    have hlt : it + 1 < l.length := by rw [hf.len]; omega
    have hget : l[it + 1]? = some l[it + 1] := List.getElem?_eq_getElem hlt
    obtain ⟨p', hp1, hp2⟩ := (hf.hist.get _ _ hget).2.2 it rfl
    rw [h2] at hp1
    cases hp1
    rw [h3] at hp2
    have hti : l[it + 1] = (t, i) := (Except.ok.inj hp2).symm
    cases h4 with
    | iteration _ _ h => rw [hr] at h; cases h
    | notComputed _ h _ => rw [hr] at h; cases h
    | computed _ =>
      refine ⟨it, _, _, _, _, rfl, ?_, h5 hr, ?_, ?_⟩
      · simp [diagnostics, g2, hget, hti]
      · simp [diagnostics, g3, hget, hti]
      · simp [diagnostics, g1, hget, hti]
  · rcases hend with ⟨e1, e2, e3⟩ | ⟨m, e1, e2, e3, e4⟩
    · refine .inl ⟨e3, by simpa [initAcc] using e2, fun d hd => ?_⟩
      rw [(hdiag d hd).2]
      simp only [diagnostics, e1, Option.getD_none, Option.isSome_none, Bool.false_eq_true, if_false, true_and]
      split <;> simp
    · refine .inr ⟨m, e4, by simpa [initAcc] using e2, by simpa [initAcc] using e3, fun d hd => ?_⟩
      rw [(hdiag d hd).2]; simp [diagnostics, e1]

/-- C76: a call succeeds or fails independently of `return_admm_vars`. It returns the factorization alone if neither variables nor diagnostics are requested; otherwise
a tuple of the factorization, the variables (if requested) and the diagnostics (if requested), in this order. The factorization and the variables are those after
the last iteration; the last gaps of the diagnostics are the relative distances between the returned factors and the returned auxiliary
variables, the last error and loss are those of the returned factorization. -/
theorem C76 (P : Problem I K R nA nB nC J) (hX : P.X ≠ 0) (a : Args) (init : AOState I K R nA nB nC J) :
    (∃ e, ∀ rv, cmfReturn P a rv init = .error e) ∨
    ∃ (w : Option (Fin R → ℝ)) (F : Factors I K R J) (v : ADMMVars I K R nA nB nC J),
      (∃ (n : ℕ) (o : Output (AOState I K R nA nB nC J)), (n : ℤ) ≤ max 0 a.nIterMax ∧ cmfAoadmm P (plain n) init = .ok o ∧
        o.st = ⟨w, F, v.auxes.1, v.duals.1, v.auxes.2.1, v.duals.2.1, v.auxes.2.2, v.duals.2.2⟩) ∧
      (a.returnErrors = false → cmfReturn P a false init = .ok (.single (.cmf w F)) ∧ cmfReturn P a true init = .ok (.tuple [.cmf w F, .vars v])) ∧
      (a.returnErrors = true → ∃ d, cmfReturn P a false init = .ok (.tuple [.cmf w F, .diag d]) ∧
        cmfReturn P a true init = .ok (.tuple [.cmf w F, .vars v, .diag d]) ∧
        d.gaps[d.nIter]? = some (feasibilityGaps F v.auxes.1 v.auxes.2.1 v.auxes.2.2) ∧
        d.recErrors[d.nIter]? = some (.fin (√(sse P.X (absorb w F)) / √(raggedSq P.X))) ∧
        d.losses[d.nIter]? = some (.fin (1 / 2 * (√(sse P.X (absorb w F)) / √(raggedSq P.X)) ^ 2 + regValue P F))) := by
  cases h : cmfAoadmm P a init with
  | error e => exact .inl ⟨e, fun rv => by rw [cmfReturn, h]; rfl⟩
  | ok out =>
    right
    refine ⟨out.st.weights, out.st.F, ⟨(out.st.auxA, out.st.auxB, out.st.auxC), (out.st.dualA, out.st.dualB, out.st.dualC)⟩, ?_, fun hr => ?_, fun hr => ?_⟩
    · obtain ⟨n, _, _, ⟨o, h1, h2⟩, -, -, -, -, -, hn⟩ := C75 P hX a init out h
      refine ⟨n, o, ?_, h1, h2⟩
      rcases hn with ⟨-, hn, -⟩ | ⟨_, -, -, hn, -⟩ <;> omega
    · have hd : out.diag = none := by
        obtain ⟨s, -, -, hd⟩ := fit_ok h
        rw [hd, hr]; rfl
      constructor
      · rw [cmfReturn, h]; simp [Except.map, pack, hd]
      · rw [cmfReturn, h]; simp [Except.map, pack, hd]
    · obtain ⟨d, hd, -, -, -, hent⟩ := C37 P hX a hr init out h
      obtain ⟨o, -, ho, h1, h2, h3⟩ := hent d.nIter le_rfl
      rw [ho rfl] at h1 h2 h3
      refine ⟨d, ?_, ?_, h3, h1, h2⟩
      · rw [cmfReturn, h]; simp [Except.map, pack, hd]
      · rw [cmfReturn, h]; simp [Except.map, pack, hd]

end Verif.Props
