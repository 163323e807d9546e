import Verif.Loop.Container
import Verif.Props.ADMMExamples
import Verif.Props.LoopBalance

/-!
# C128: B factor matrices in a list, a tuple or an array
-/

set_option linter.unusedSectionVars false

namespace Verif.Props

open Verif.ADMM Verif.Spec Verif.Loop Finset

section
variable {I K R nA nB nC : ℕ} {J : Fin I → ℕ}

/-- The result without the kind of the container. -/
def dropKind {σ : Type} (o : Output (σ × Kind)) : Output σ := ⟨o.st.1, o.diag, o.log⟩

/-- A first B-update from `s` does a second inner iteration: one inner iteration alone does not meet the inner stopping rule, and more are allowed. -/
def SecondInner (P : Problem I K R nA nB nC J) (s : AOState I K R nA nB nC J) : Prop :=
  P.updB = true ∧ 2 ≤ P.params.nInner ∧ ∃ t, admmUpdateB { P.params with nInner := 1 } P.X P.pensB P.l2.2.1 P.constB s.F s.auxB s.dualB = .ok t ∧
    innerConverged P.params.innerTol (rootSumSq t.x) (rootSumSq fun i => t.x i - s.F.B i) (List.ofFn fun p => raggedGap t.x (t.aux p)) = false

theorem innerKinds_list {σ : Type} (I : ℕ) (step : σ → σ) (stop : σ → σ → Bool) : ∀ n c o s, c ≠ .tuple → o ≠ .tuple →
    ∃ k, k ≠ .tuple ∧ innerKinds I step stop n c o s = .ok (innerLoop step stop n s, k)
  | 0, c, _, s, hc, _ => ⟨c, hc, rfl⟩
  | n + 1, c, o, s, hc, ho => by
    unfold innerKinds innerLoop
    rw [if_neg fun h => ho h.2]
    by_cases h : stop s (step s) = true
    · rw [if_pos h, if_pos h]; exact ⟨o, ho, rfl⟩
    · rw [if_neg h, if_neg h]; exact innerKinds_list I step stop n o c _ ho hc

theorem innerKinds_none {σ : Type} (step : σ → σ) (stop : σ → σ → Bool) : ∀ n c o s, ∃ k, innerKinds 0 step stop n c o s = .ok (innerLoop step stop n s, k)
  | 0, c, _, s => ⟨c, rfl⟩
  | n + 1, c, o, s => by
    unfold innerKinds innerLoop
    rw [if_neg (by simp)]
    by_cases h : stop s (step s) = true
    · rw [if_pos h, if_pos h]; exact ⟨o, rfl⟩
    · rw [if_neg h, if_neg h]; exact innerKinds_none step stop n o c _

theorem innerKinds_short {σ : Type} (I : ℕ) (step : σ → σ) (stop : σ → σ → Bool) {n : ℕ} (s : σ) (h : n = 0 ∨ n = 1 ∨ stop s (step s) = true) (c : Kind) :
    innerKinds I step stop n c .list s = .ok (innerLoop step stop n s, if n = 0 then c else .list) := by
  cases n with
  | zero => rfl
  | succ n =>
    unfold innerKinds innerLoop
    rw [if_neg (by simp), if_neg (Nat.succ_ne_zero n)]
    by_cases h' : stop s (step s) = true
    · rw [if_pos h', if_pos h']
    · rw [if_neg h', if_neg h']
      obtain rfl : n = 0 := by
        rcases h with h | h | h
        · omega
        · omega
        · exact absurd h h'
      rfl

theorem innerKinds_tuple {σ : Type} {I : ℕ} (hI : I ≠ 0) (step : σ → σ) (stop : σ → σ → Bool) {n : ℕ} (hn : 2 ≤ n) (s : σ) (h : stop s (step s) = false) :
    innerKinds I step stop n .tuple .list s = .error .typeError := by
  obtain ⟨n, rfl⟩ : ∃ k, n = k + 2 := ⟨n - 2, by omega⟩
  unfold innerKinds
  rw [if_neg (by simp), h, if_neg Bool.false_ne_true]
  unfold innerKinds
  rw [if_pos ⟨hI, rfl⟩]

theorem second_iff (P : Problem I K R nA nB nC J) (s : AOState I K R nA nB nC J) {ρ} (hρ : feasPenalties P.params.scale P.constB (crossB s.F) = .ok ρ) :
    SecondInner P s ↔ P.updB = true ∧ 2 ≤ P.params.nInner ∧
      ragStop P.params.innerTol ⟨s.F.B, s.auxB, s.dualB⟩ (stepB P.pensB ρ.2 (fun i => P.params.svd (addRidge (crossB s.F i) (ρ.2 i) nB P.l2.2.1)) (rhsB P.X s.F) ⟨s.F.B, s.auxB, s.dualB⟩) = false := by
  have e : admmUpdateB { P.params with nInner := 1 } P.X P.pensB P.l2.2.1 P.constB s.F s.auxB s.dualB =
      .ok (stepB P.pensB ρ.2 (fun i => P.params.svd (addRidge (crossB s.F i) (ρ.2 i) nB P.l2.2.1)) (rhsB P.X s.F) ⟨s.F.B, s.auxB, s.dualB⟩) := by
    unfold admmUpdateB
    rw [show feasPenalties ({ P.params with nInner := 1 } : Params R).scale P.constB (crossB s.F) = .ok ρ from hρ]
    simp only [Except.bind, innerLoop, ite_self]
  unfold SecondInner
  rw [e]
  constructor
  · rintro ⟨h1, h2, t, ht, h3⟩
    cases ht
    exact ⟨h1, h2, h3⟩
  · rintro ⟨h1, h2, h3⟩
    exact ⟨h1, h2, _, rfl, h3⟩

/-- Calls in which no B-update of tuples does a second inner iteration. -/
def KindSafe (P : Problem I K R nA nB nC J) (s : AOState I K R nA nB nC J × Kind) : Prop :=
  s.2 ≠ .tuple ∨ I = 0 ∨ P.updB = false ∨ P.params.nInner = 0 ∨ ¬ SecondInner P s.1

theorem update_safe (P : Problem I K R nA nB nC J) (s : AOState I K R nA nB nC J × Kind) (h : KindSafe P s) (hu : P.updB = true) :
    (∃ k, (k ≠ .tuple ∨ I = 0 ∨ P.params.nInner = 0) ∧ updateKindB P.params P.X P.pensB P.l2.2.1 P.constB s.1.F s.1.auxB s.1.dualB s.2 =
      (admmUpdateB P.params P.X P.pensB P.l2.2.1 P.constB s.1.F s.1.auxB s.1.dualB).map fun t => (t, k)) := by
  unfold updateKindB admmUpdateB
  cases hρ : feasPenalties P.params.scale P.constB (crossB s.1.F) with
  | error e => exact ⟨.list, .inl (by decide), rfl⟩
  | ok ρ =>
    simp only [Except.bind, Except.map]
    rcases h with h | rfl | h | h | h
    · obtain ⟨k, hk, e⟩ := innerKinds_list I (stepB P.pensB ρ.2 (fun i => P.params.svd (addRidge (crossB s.1.F i) (ρ.2 i) nB P.l2.2.1)) (rhsB P.X s.1.F)) (ragStop P.params.innerTol)
        P.params.nInner s.2 .list ⟨s.1.F.B, s.1.auxB, s.1.dualB⟩ h (by decide)
      exact ⟨k, .inl hk, e⟩
    · obtain ⟨k, hk⟩ := innerKinds_none (stepB P.pensB ρ.2 (fun i => P.params.svd (addRidge (crossB s.1.F i) (ρ.2 i) nB P.l2.2.1)) (rhsB P.X s.1.F)) (ragStop P.params.innerTol)
        P.params.nInner s.2 .list ⟨s.1.F.B, s.1.auxB, s.1.dualB⟩
      exact ⟨k, .inr (.inl rfl), hk⟩
    · rw [hu] at h; cases h
    · rw [innerKinds_short _ _ _ _ (.inl h), if_pos h]; exact ⟨s.2, .inr (.inr h), rfl⟩
    · rw [second_iff P s.1 hρ] at h
      have h' : P.params.nInner = 0 ∨ P.params.nInner = 1 ∨ ragStop P.params.innerTol ⟨s.1.F.B, s.1.auxB, s.1.dualB⟩
          (stepB P.pensB ρ.2 (fun i => P.params.svd (addRidge (crossB s.1.F i) (ρ.2 i) nB P.l2.2.1)) (rhsB P.X s.1.F) ⟨s.1.F.B, s.1.auxB, s.1.dualB⟩) = true := by
        by_contra hc
        push Not at hc
        exact h ⟨hu, by omega, by simpa using hc.2.2⟩
      rw [innerKinds_short _ _ _ _ h']
      refine ⟨_, ?_, rfl⟩
      split
      · rename_i h0; exact .inr (.inr h0)
      · exact .inl (by decide)

theorem sweep_safe (P : Problem I K R nA nB nC J) (s : AOState I K R nA nB nC J × Kind) (h : KindSafe P s) :
    (sweepKind P s).map (fun u => (u.1.1, u.2)) = sweep P s.1 ∧ ∀ x i, sweepKind P s = .ok (x, i) → KindSafe P x := by
  unfold sweepKind sweep sweepB
  by_cases hu : P.updB = true
  · obtain ⟨k, hk, e⟩ := update_safe P s h hu
    rw [if_pos hu, if_pos hu, e]
    have key : ∀ x : AOState I K R nA nB nC J × Kind, x.2 = k → KindSafe P x := fun x hx => by
      rcases hk with hk | hk | hk
      · exact .inl fun h => hk (hx.symm.trans h)
      · exact .inr (.inl hk)
      · exact .inr (.inr (.inr (.inl hk)))
    cases h1 : admmUpdateB P.params P.X P.pensB P.l2.2.1 P.constB s.1.F s.1.auxB s.1.dualB with
    | error er => exact ⟨rfl, fun x i hx => by cases hx⟩
    | ok t =>
      simp only [Except.map, Except.bind]
      cases h2 : sweepA P (sweepC P { s.1 with weights := none, F := ⟨s.1.F.A, t.x, s.1.F.C⟩, auxB := t.aux, dualB := t.dual }) with
      | error er => exact ⟨rfl, fun x i hx => by cases hx⟩
      | ok u => exact ⟨rfl, fun x i hx => by cases hx; exact key _ rfl⟩
  · rw [if_neg hu, if_neg hu]
    simp only [Except.bind]
    cases h2 : sweepA P (sweepC P s.1) with
    | error er => exact ⟨rfl, fun x i hx => by cases hx⟩
    | ok u => exact ⟨rfl, fun x i hx => by cases hx; exact .inr (.inr (.inl (by simpa using hu)))⟩

theorem kind_map (P : Problem I K R nA nB nC J) : OpsMap (kindOps P) (aoOps P) none none Prod.fst id fun _ s => KindSafe P s where
  sweep_ok k s hs x i h := by
    obtain ⟨h1, h2⟩ := sweep_safe P s hs
    have h' : sweepKind P s = .ok (x, i) := h
    rw [h'] at h1
    exact ⟨h2 x i h', i, h1.symm, rfl⟩
  sweep_err k s hs e h := by
    obtain ⟨h1, -⟩ := sweep_safe P s hs
    have h' : sweepKind P s = .error e := h
    rw [h'] at h1
    exact h1.symm
  gaps _ _ _ := rfl
  feasible _ _ _ _ := rfl
  relError _ _ _ := rfl
  penalty _ _ _ := rfl

theorem cmfKind_safe (P : Problem I K R nA nB nC J) (a : Args) (init : AOState I K R nA nB nC J) (kind : Kind) (h : KindSafe P (init, kind)) :
    (cmfKind P a init kind).map dropKind = cmfAoadmm P a init := by
  have := fit_map (kind_map P) a (init, kind) h
  rw [cmfAoadmm, this]
  unfold cmfKind
  cases fit (kindOps P) a none (init, kind) with
  | error e => rfl
  | ok o => simp only [Except.map, Output.map_id, dropKind]

/-- C128, lists: the model with containers returns what `cmfAoadmm` does. -/
theorem C128_list (P : Problem I K R nA nB nC J) (a : Args) (init : AOState I K R nA nB nC J) :
    (cmfKind P a init .list).map dropKind = cmfAoadmm P a init := cmfKind_safe P a init .list (.inl (by simp))

/-- C128, arrays: with an array with three axes a call returns the same as with a list. -/
theorem C128_array (P : Problem I K R nA nB nC J) (a : Args) (init : AOState I K R nA nB nC J) :
    (cmfKind P a init .array).map dropKind = (cmfKind P a init .list).map dropKind := by
  rw [C128_list, cmfKind_safe P a init .array (.inl (by simp))]

/-- C128, tuples: with a tuple of B factor matrices a call returns the same as with a list if the first B-update does not do a second inner iteration (or there is none). -/
theorem C128_partial (P : Problem I K R nA nB nC J) (a : Args) (init : AOState I K R nA nB nC J) (h : ¬ SecondInner P init) :
    (cmfKind P a init .tuple).map dropKind = (cmfKind P a init .list).map dropKind := by
  rw [C128_list, cmfKind_safe P a init .tuple (.inr (.inr (.inr (.inr h))))]

/-- C128 is false: if it does, every call with a tuple raises TypeError. -/
theorem C128_false (P : Problem I K R nA nB nC J) (a : Args) (ha : 0 < a.nIterMax) (hI : I ≠ 0) (init : AOState I K R nA nB nC J) (h : SecondInner P init) :
    cmfKind P a init .tuple = .error .typeError := by
  have hs : sweepKind P (init, .tuple) = .error .typeError := by
    unfold sweepKind
    rw [if_pos h.1]
    unfold updateKindB
    have h' := h
    obtain ⟨-, -, t, ht, -⟩ := h
    unfold admmUpdateB at ht
    cases hρ : feasPenalties P.params.scale P.constB (crossB init.F) with
    | error e => simp only [hρ, Except.bind] at ht; cases ht
    | ok ρ =>
      obtain ⟨-, hn, hstop⟩ := (second_iff P init hρ).1 h'
      simp only [Except.bind]
      rw [innerKinds_tuple hI _ _ hn _ hstop]
      rfl
  unfold cmfKind fit
  obtain ⟨n, hn⟩ : ∃ n, a.nIterMax.toNat = n + 1 := ⟨a.nIterMax.toNat - 1, by omega⟩
  rw [hn]
  unfold run body
  have : (kindOps P).sweep (initAcc (kindOps P) a none (init, Kind.tuple)).st = .error .typeError := hs
  rw [this]

/-- Without an inner tolerance, every call that updates the B matrices with two or more inner iterations raises TypeError for a tuple, whatever the data and penalties. -/
theorem C128_default (P : Problem I K R nA nB nC J) (hu : P.updB = true) (hn : 2 ≤ P.params.nInner) (ht : P.params.innerTol = none) (a : Args) (ha : 0 < a.nIterMax) (hI : I ≠ 0)
    (init : AOState I K R nA nB nC J) : cmfKind P a init .tuple = .error .typeError := by
  cases hρ : feasPenalties P.params.scale P.constB (crossB init.F) with
  | ok ρ => exact C128_false P a ha hI init ((second_iff P init hρ).2 ⟨hu, hn, by simp [ragStop, ht, innerConverged]⟩)
  | error e =>
    obtain ⟨ρ, h⟩ := feasPenalties_exists P.params.scale P.constB (crossB init.F) fun _ => Nat.pos_of_ne_zero hI
    rw [hρ] at h
    cases h

end

/-- The call of `C108_example` with two inner iterations, as the default of five is: with a list it returns, with a tuple it raises TypeError. With one inner iteration both return the same. -/
theorem C128_example : ∃ (prm : Params 1) (init : AOState 1 1 1 0 0 0 fun _ => 1), ValidSVD prm ∧ (∃ out, cmfKind (lonP prm (1 / 10)) (plain 3) init .list = .ok out) ∧
    cmfKind (lonP prm (1 / 10)) (plain 3) init .tuple = .error .typeError ∧ ¬ SecondInner (lonP { prm with nInner := 1 } (1 / 10)) init := by
  obtain ⟨prm, hP, hN, ht, -⟩ := exists_params 1 2 none 1
  let init : AOState 1 1 1 0 0 0 fun _ => 1 := ⟨none, scF 1 1 1, Fin.elim0, Fin.elim0, Fin.elim0, Fin.elim0, Fin.elim0, Fin.elim0⟩
  refine ⟨prm, init, hP, ?_, C128_default _ rfl (by simp [lonP, hN]) (by simp [lonP, ht]) _ (by simp [plain]) one_ne_zero init, fun h => ?_⟩
  · obtain ⟨o, ho⟩ : ∃ out, cmfAoadmm (lonP prm (1 / 10)) (plain (3 : ℕ)) init = .ok out := C61 _ one_pos (fun _ p => p.elim0) _ (by simp [plain, truthy]) init
    have h1 := C128_list (lonP prm (1 / 10)) (plain (3 : ℕ)) init
    rw [ho] at h1
    cases h2 : cmfKind (lonP prm (1 / 10)) (plain (3 : ℕ)) init .list with
    | error e => rw [h2] at h1; cases h1
    | ok x => exact ⟨x, rfl⟩
  · have := h.2.1
    simp [lonP] at this

end Verif.Props
