import Verif.Loop.Model

/-!
# Two executions of the loop that correspond to each other

`T` maps the states of one execution to those of the other one, `G` the feasibility gaps.
-/

namespace Verif.Loop

open Verif.ADMM

variable {σ τ ι κ : Type}

/-- The printed lines with other gaps. -/
def Log.mapGaps (G : Gaps → Gaps) : Log → Log
  | .initial g => .initial (G g)
  | .notComputed it g => .notComputed it (G g)
  | .computed it r p l g => .computed it r p l (G g)
  | .converged it m => .converged it m
  | .iteration it => .iteration it
  | .reachedMax => .reachedMax

/-- The diagnostics with other gaps. -/
def Diagnostics.mapGaps (G : Gaps → Gaps) (d : Diagnostics) : Diagnostics := { d with gaps := d.gaps.map G }

/-- The result with another state and other gaps. -/
def Output.map (T : σ → τ) (G : Gaps → Gaps) (o : Output σ) : Output τ := ⟨T o.st, o.diag.map (Diagnostics.mapGaps G), o.log.map (Log.mapGaps G)⟩

/-- The variables of the loop with another state and other gaps. -/
def Acc.map (T : σ → τ) (G : Gaps → Gaps) (s : Acc σ) : Acc τ :=
  ⟨T s.st, s.recErrors, s.gaps.map G, s.losses, s.nIter, s.stop, s.log.map (Log.mapGaps G)⟩

/-- The operations correspond, as long as `inv k` holds, where `k` iterations are left. -/
structure OpsMap (O : Ops σ ι) (O' : Ops τ κ) (z : ι) (z' : κ) (T : σ → τ) (G : Gaps → Gaps) (inv : ℕ → σ → Prop) : Prop where
  sweep_ok : ∀ k s, inv (k + 1) s → ∀ x i, O.sweep s = .ok (x, i) → inv k x ∧ ∃ i', O'.sweep (T s) = .ok (T x, i') ∧ O'.relError (T x) i' = O.relError x i
  sweep_err : ∀ k s, inv (k + 1) s → ∀ e, O.sweep s = .error e → O'.sweep (T s) = .error e
  gaps : ∀ k s, inv k s → O'.gaps (T s) = G (O.gaps s)
  feasible : ∀ k s, inv k s → ∀ tol, checkFeasibility (G (O.gaps s)) tol = checkFeasibility (O.gaps s) tol
  relError : ∀ k s, inv k s → O'.relError (T s) z' = O.relError s z
  penalty : ∀ k s, inv k s → O'.penalty (T s) = O.penalty s

variable {O : Ops σ ι} {O' : Ops τ κ} {z : ι} {z' : κ} {T : σ → τ} {G : Gaps → Gaps} {inv : ℕ → σ → Prop}

theorem checkStop_mapGaps (a : Args) (b : Bool) (p q : PyF) (s : Acc σ) :
    checkStop a b p q (s.map T G) = (checkStop a b p q s).map fun x => (x.1.map T G, x.2) := by
  unfold checkStop
  by_cases ht : truthy a.tol = true
  · rw [if_pos ht, if_pos ht]
    cases a.absTol with
    | none => rfl
    | some ab =>
      simp only
      by_cases c1 : (b && relCriterion p q (a.tol.getD 0)) = true
      · rw [if_pos c1, if_pos c1]
        by_cases hv : a.verbose ≠ 0 <;> simp [Except.map, Acc.map, hv, Log.mapGaps]
      · rw [if_neg c1, if_neg c1]
        by_cases c2 : (b && q.lt ab) = true
        · rw [if_pos c2, if_pos c2]
          by_cases hv : a.verbose ≠ 0 <;> simp [Except.map, Acc.map, hv, Log.mapGaps]
        · rw [if_neg c2, if_neg c2]; rfl
  · rw [if_neg ht, if_neg ht]; rfl

theorem checkStop_state {a : Args} {b : Bool} {p q : PyF} {s : Acc σ} {x : Acc σ × Bool} (h : checkStop a b p q s = .ok x) : x.1.st = s.st := by
  unfold checkStop at h
  split at h
  · cases ha : a.absTol with
    | none => rw [ha] at h; cases h
    | some t =>
      simp only [ha] at h
      split at h
      · cases h; rfl
      · split at h
        · cases h; rfl
        · cases h; rfl
  · cases h; rfl

theorem body_map (e : OpsMap O O' z z' T G inv) (a : Args) (k : ℕ) (s : Acc σ) (hs : inv (k + 1) s.st) :
    body O' a (s.map T G) = (body O a s).map (fun x => (x.1.map T G, x.2)) ∧ ∀ x, body O a s = .ok x → inv k x.1.st := by
  unfold body
  cases h : O.sweep s.st with
  | error er =>
    have : O'.sweep (s.map T G).st = .error er := e.sweep_err k _ hs _ h
    rw [this]
    exact ⟨rfl, fun x hx => by simp at hx⟩
  | ok x =>
    obtain ⟨st, i⟩ := x
    obtain ⟨h1, i', h2, h3⟩ := e.sweep_ok k _ hs _ _ h
    have : O'.sweep (s.map T G).st = .ok (T st, i') := h2
    rw [this]
    simp only
    rw [e.gaps k st h1, h3, e.penalty k st h1, e.feasible k st h1]
    by_cases c1 : (truthy a.tol || truthy a.absTol || a.returnErrors) = true
    · rw [if_pos c1, if_pos c1]
      by_cases c2 : ((truthy a.tol || truthy a.absTol) && !(truthy a.feasTol && checkFeasibility (O.gaps st) (a.feasTol.getD 0)) && !a.returnErrors) = true
      · rw [if_pos c2, if_pos c2]
        refine ⟨?_, fun x hx => by cases hx; exact h1⟩
        by_cases hv : prints a.verbose s.nIter = true <;> simp [Except.map, Acc.map, hv, Log.mapGaps]
      · rw [if_neg c2, if_neg c2]
        constructor
        · have hm := checkStop_mapGaps (T := T) (G := G) a (truthy a.feasTol && checkFeasibility (O.gaps st) (a.feasTol.getD 0)) (s.losses.getLastD .nan)
            (lossOf (O.relError st i) (O.penalty st)) { s with
              st := st, nIter := s.nIter + 1, gaps := s.gaps ++ [O.gaps st], recErrors := s.recErrors ++ [O.relError st i]
              losses := s.losses ++ [lossOf (O.relError st i) (O.penalty st)]
              log := s.log ++ if prints a.verbose s.nIter then [.computed s.nIter (O.relError st i) (s.losses.getLastD .nan) (lossOf (O.relError st i) (O.penalty st)) (O.gaps st)] else [] }
          rw [← hm]
          by_cases hv : prints a.verbose s.nIter = true <;> simp [Acc.map, hv, Log.mapGaps]
        · intro x hx
          rw [checkStop_state hx]
          exact h1
    · rw [if_neg c1, if_neg c1]
      refine ⟨?_, fun x hx => by cases hx; exact h1⟩
      by_cases hv : prints a.verbose s.nIter = true <;> simp [Except.map, Acc.map, hv, Log.mapGaps]

theorem run_map (e : OpsMap O O' z z' T G inv) (a : Args) : ∀ (n : ℕ) (s : Acc σ), inv n s.st →
    run O' a n (s.map T G) = (run O a n s).map (Acc.map T G) ∧ ∀ x, run O a n s = .ok x → ∃ k, inv k x.st
  | 0, s, hs => by
    refine ⟨?_, fun x hx => by cases hx; exact ⟨0, hs⟩⟩
    simp only [run]
    by_cases hv : a.verbose ≠ 0 <;> simp [Except.map, Acc.map, hv, Log.mapGaps]
  | n + 1, s, hs => by
    obtain ⟨h1, h2⟩ := body_map e a n s hs
    unfold run
    rw [h1]
    cases hb : body O a s with
    | error er => exact ⟨rfl, fun x hx => by simp at hx⟩
    | ok x =>
      obtain ⟨s', b⟩ := x
      have hs' := h2 _ hb
      cases b
      · exact run_map e a n s' hs'
      · exact ⟨rfl, fun x hx => by cases hx; exact ⟨n, hs'⟩⟩

/-- Corresponding calls return corresponding results. -/
theorem fit_map (e : OpsMap O O' z z' T G inv) (a : Args) (st : σ) (hs : inv a.nIterMax.toNat st) :
    fit O' a z' (T st) = (fit O a z st).map (Output.map T G) := by
  have hi : initAcc O' a z' (T st) = (initAcc O a z st).map T G := by
    simp only [Acc.map, initAcc, e.gaps _ st hs, e.relError _ st hs, e.penalty _ st hs]
    by_cases hv : a.verbose > 0 <;> simp [hv, Log.mapGaps]
  obtain ⟨h1, h2⟩ := run_map e a a.nIterMax.toNat (initAcc O a z st) hs
  unfold fit
  rw [hi, h1]
  cases hr : run O a a.nIterMax.toNat (initAcc O a z st) with
  | error er => rfl
  | ok s =>
    obtain ⟨k, hs'⟩ := h2 _ hr
    have hg : O'.gaps (s.map T G).st = G (O.gaps s.st) := e.gaps k _ hs'
    by_cases hb : a.returnErrors = true
    · simp only [Except.map, hb, if_true, Output.map, Option.map_some, diagnostics, hg, e.feasible k _ hs', Diagnostics.mapGaps]
      rfl
    · simp only [Except.map, hb, Output.map, Bool.false_eq_true, if_false, Option.map_none]
      rfl

/-- Nothing changes if the gaps do not. -/
theorem Output.map_id (T : σ → τ) (o : Output σ) : o.map T id = ⟨T o.st, o.diag, o.log⟩ := by
  have h1 : Diagnostics.mapGaps id = id := by funext d; simp [Diagnostics.mapGaps]
  have h2 : Log.mapGaps id = id := by funext d; cases d <;> rfl
  simp [Output.map, h1, h2]

end Verif.Loop
