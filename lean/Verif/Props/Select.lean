import Verif.Examples.Select
import Verif.Props.LoopExamples
import Mathlib.Tactic.Linarith
import Mathlib.Tactic.NormNum
import Mathlib.Tactic.IntervalCases

/-!
# C117: the selection among several fits in the examples
-/

set_option linter.unusedSectionVars false

namespace Verif.Props

open Verif.Loop Verif.ADMM Verif.Penalties Verif.Spec Verif.Examples Finset

variable {μ : Type}

theorem foldlM_ok {σ α : Type} {step : σ → α → Except PyErr σ} {f : σ → α → σ} : ∀ {l : List α} {s : σ}, (∀ k ∈ l, ∀ s, step s k = .ok (f s k)) →
    l.foldlM step s = .ok (l.foldl f s)
  | [], _, _ => rfl
  | a :: l, s, h => by
    rw [List.foldlM_cons, h a (by simp), List.foldl_cons]
    exact foldlM_ok fun k hk s => h k (by simp [hk]) s

/-- All fits return, with these factorizations, final losses and final errors. -/
def Fits (fit : ℕ → Except PyErr (μ × Diagnostics)) (n : ℕ) (d : ℕ → μ × Diagnostics) (loss err : ℕ → PyF) : Prop :=
  ∀ k < n, fit k = .ok (d k) ∧ (d k).2.losses.getLast? = some (loss k) ∧ (d k).2.recErrors.getLast? = some (err k) ∧ (d k).2.gaps ≠ []

/-- `k` is the first of the starts `0, …, n - 1` with the lowest number, among those that are not NaN or infinite. -/
def IsFirstLowest (loss : ℕ → PyF) (n k : ℕ) : Prop :=
  k < n ∧ ∃ x, loss k = .fin x ∧ (∀ j < n, ∀ y, loss j = .fin y → x ≤ y) ∧ ∀ j < k, ∀ y, loss j = .fin y → x < y

theorem pyLast_some {α : Type} {l : List α} {x : α} (h : l.getLast? = some x) : pyLast l = .ok x := by simp [pyLast, h]

theorem PyF.inf_gt (x : PyF) : PyF.gt .inf x = true ↔ ∃ y, x = .fin y := by cases x <;> simp [PyF.gt]

theorem PyF.fin_gt (x : ℝ) (z : PyF) : PyF.gt (.fin x) z = true ↔ ∃ y, z = .fin y ∧ y < x := by cases z <;> simp [PyF.gt]

/-- The first lowest start so far, and its loss. -/
def Best (loss : ℕ → PyF) (n : ℕ) (sel : Option ℕ) (low : PyF) : Prop :=
  (sel = none ∧ low = .inf ∧ ∀ j < n, ∀ y, loss j ≠ .fin y) ∨ ∃ k, sel = some k ∧ low = loss k ∧ IsFirstLowest loss n k

theorem Best.step {loss : ℕ → PyF} {n : ℕ} {sel : Option ℕ} {low : PyF} (h : Best loss n sel low) :
    (low.gt (loss n) = true → Best loss (n + 1) (some n) (loss n)) ∧ (low.gt (loss n) = false → Best loss (n + 1) sel low) := by
  rcases h with ⟨h1, h2, h3⟩ | ⟨k, h1, h2, hk, x, hx, h3, h4⟩
  · subst h2
    refine ⟨fun h => .inr ⟨n, rfl, rfl, Nat.lt_succ_self n, ?_⟩, fun h => .inl ⟨h1, rfl, fun j hj y hy => ?_⟩⟩
    · obtain ⟨y, hy⟩ := (PyF.inf_gt _).1 h
      refine ⟨y, hy, fun j hj z hz => ?_, fun j hj z hz => absurd hz (h3 j hj z)⟩
      rcases Nat.lt_succ_iff_lt_or_eq.1 hj with h | rfl
      · exact absurd hz (h3 j h z)
      · rw [hy] at hz
        cases hz
        exact le_rfl
    · rcases Nat.lt_succ_iff_lt_or_eq.1 hj with h' | rfl
      · exact h3 j h' y hy
      · rw [(PyF.inf_gt _).2 ⟨y, hy⟩] at h
        cases h
  · rw [h2, hx]
    refine ⟨fun h => .inr ⟨n, rfl, rfl, Nat.lt_succ_self n, ?_⟩, fun h => .inr ⟨k, h1, hx.symm, by omega, x, hx, fun j hj y hy => ?_, h4⟩⟩
    · obtain ⟨y, hy, hlt⟩ := (PyF.fin_gt _ _).1 h
      refine ⟨y, hy, fun j hj z hz => ?_, fun j hj z hz => hlt.trans_le (h3 j hj z hz)⟩
      rcases Nat.lt_succ_iff_lt_or_eq.1 hj with h | rfl
      · exact hlt.le.trans (h3 j h z hz)
      · rw [hy] at hz
        cases hz
        exact le_rfl
    · rcases Nat.lt_succ_iff_lt_or_eq.1 hj with h' | rfl
      · exact h3 j h' y hy
      · by_contra hc
        rw [(PyF.fin_gt _ _).2 ⟨y, hy, not_le.1 hc⟩] at h
        cases h

/-! ### The bike sharing example -/

/-- C117 for the bike sharing example: with any number of starts, the selected one is the first with the lowest final loss, where fits with a NaN or infinite loss do not count; if all are
of this kind NameError is raised. -/
theorem C117_bike (fit : ℕ → Except PyErr (μ × Diagnostics)) (n : ℕ) (d : ℕ → μ × Diagnostics) (loss err : ℕ → PyF) (h : Fits fit n d loss err) :
    (∃ k, IsFirstLowest loss n k ∧ selectBike fit n = .ok (k, (d k).1)) ∨ ((∀ k < n, ∀ x, loss k ≠ .fin x) ∧ selectBike fit n = .error .nameError) := by
  have fold : ∀ m ≤ n, ∃ s, (List.range m).foldlM (bikeStep fit) ⟨[], none, .inf⟩ = .ok s ∧ s.models = (List.range m).map (fun k => (d k).1) ∧ Best loss m s.selected s.lowest := by
    intro m
    induction m with
    | zero => exact fun _ => ⟨_, rfl, rfl, .inl ⟨rfl, rfl, fun j hj => absurd hj (by omega)⟩⟩
    | succ m ih =>
      intro hm
      obtain ⟨s, h1, h2, h3⟩ := ih (by omega)
      obtain ⟨g1, g2, -⟩ := h m (by omega)
      rw [List.range_succ, List.foldlM_append, h1, ok_bind, List.foldlM_cons]
      unfold bikeStep
      rw [g1, ok_bind, pyLast_some g2, ok_bind]
      cases hc : s.lowest.gt (loss m) with
      | true => exact ⟨_, rfl, by simp [h2], h3.step.1 hc⟩
      | false => exact ⟨_, rfl, by simp [h2], h3.step.2 hc⟩
  obtain ⟨s, h1, h2, h3⟩ := fold n le_rfl
  unfold selectBike
  rw [h1, ok_bind]
  rcases h3 with ⟨h3, -, h4⟩ | ⟨k, h3, -, h4⟩
  · rw [h3]
    exact .inr ⟨h4, rfl⟩
  · rw [h3, h2]
    refine .inl ⟨k, h4, ?_⟩
    simp [bound, h4.1]

/-! ### The example on the number of components -/

theorem examine_fold (fit : ℕ → Except PyErr (μ × Diagnostics)) (n : ℕ) (d : ℕ → μ × Diagnostics) (loss err : ℕ → PyF) (h : Fits fit n d loss err) (carry : Option (μ × Diagnostics)) :
    ∀ m ≤ n, ∃ s sel, (List.range m).foldlM (examineStep fit) ⟨carry, .inf⟩ = .ok s ∧ Best loss m sel s.lowest ∧ s.selected = match sel with | none => carry | some k => some (d k) := by
  intro m
  induction m with
  | zero => exact fun _ => ⟨_, none, rfl, .inl ⟨rfl, rfl, fun j hj => absurd hj (by omega)⟩, rfl⟩
  | succ m ih =>
    intro hm
    obtain ⟨s, sel, h1, h2, h3⟩ := ih (by omega)
    obtain ⟨g1, g2, -⟩ := h m (by omega)
    rw [List.range_succ, List.foldlM_append, h1, ok_bind, List.foldlM_cons]
    unfold examineStep
    rw [g1, ok_bind, pyLast_some g2, ok_bind]
    cases hc : s.lowest.gt (loss m) with
    | true => exact ⟨_, some m, rfl, h2.step.1 hc, rfl⟩
    | false => exact ⟨_, sel, rfl, h2.step.2 hc, h3⟩

/-- C117 for the example on the number of components: if one of the fits has a finite final loss, those with the lowest are selected, whatever was selected before, and the score and the
gaps are those of the selected fit. -/
theorem C117_examine_partial (fit : ℕ → Except PyErr (μ × Diagnostics)) (n : ℕ) (d : ℕ → μ × Diagnostics) (loss err : ℕ → PyF) (h : Fits fit n d loss err)
    (hfin : ∃ k < n, ∃ x, loss k = .fin x) (carry : Option (μ × Diagnostics)) :
    ∃ k g, IsFirstLowest loss n k ∧ (d k).2.gaps.getLast? = some g ∧ examineRank n fit carry = .ok (some (d k), loss k, g) := by
  obtain ⟨s, sel, h1, h2, h3⟩ := examine_fold fit n d loss err h carry n le_rfl
  rcases h2 with ⟨-, -, h4⟩ | ⟨k, rfl, h5, h4⟩
  · obtain ⟨k, hk, x, hx⟩ := hfin
    exact absurd hx (h4 k hk x)
  · obtain ⟨-, -, -, hg⟩ := h k h4.1
    obtain ⟨g, hg⟩ : ∃ g, (d k).2.gaps.getLast? = some g := ⟨_, List.getLast?_eq_some_getLast hg⟩
    refine ⟨k, g, h4, hg, ?_⟩
    unfold examineRank
    simp only at h3
    rw [h1, ok_bind, h3]
    simp only [bound, ok_bind, pyLast_some hg, h5, pure_eq_ok]

/-- C117 fails if all losses are NaN or infinite: the gaps of the fit for the previous number of components are reported again, with a fit score of minus infinity. -/
theorem C117_examine_false (fit : ℕ → Except PyErr (μ × Diagnostics)) (n : ℕ) (d : ℕ → μ × Diagnostics) (loss err : ℕ → PyF) (h : Fits fit n d loss err)
    (hfin : ∀ k < n, ∀ x, loss k ≠ .fin x) (c : μ × Diagnostics) (g : Gaps) (hg : c.2.gaps.getLast? = some g) :
    examineRank n fit (some c) = .ok (some c, .inf, g) ∧ fitScore .inf = none ∧ examineRank n fit none = .error .nameError := by
  refine ⟨?_, rfl, ?_⟩
  · obtain ⟨s, sel, h1, h2, h3⟩ := examine_fold fit n d loss err h (some c) n le_rfl
    rcases h2 with ⟨rfl, h5, -⟩ | ⟨k, -, -, h4, x, hx, -⟩
    · unfold examineRank
      simp only at h3
      rw [h1, ok_bind, h3]
      simp only [bound, ok_bind, pyLast_some hg, h5, pure_eq_ok]
    · exact absurd hx (hfin k h4 x)
  · obtain ⟨s, sel, h1, h2, h3⟩ := examine_fold fit n d loss err h none n le_rfl
    rcases h2 with ⟨rfl, h5, -⟩ | ⟨k, -, -, h4, x, hx, -⟩
    · unfold examineRank
      simp only at h3
      rw [h1, ok_bind, h3]
      rfl
    · exact absurd hx (hfin k h4 x)

/-! ### The simulated example and the example on custom penalties -/

/-- The fit `k` counts: it satisfied the stopping conditions, and its loss is a number. -/
def Counts (d : ℕ → μ × Diagnostics) (loss : ℕ → PyF) (k : ℕ) : Prop := (d k).2.stopping = some true ∧ ∃ x, loss k = .fin x

theorem sim_fold (fit : ℕ → Except PyErr (μ × Diagnostics)) (n : ℕ) (d : ℕ → μ × Diagnostics) (loss : ℕ → PyF) (e : ℕ → ℝ) (h : Fits fit n d loss fun k => .fin (e k)) :
    ∀ m ≤ n, ∃ s, (List.range m).foldlM (simStep fit) ⟨none, .inf⟩ = .ok s ∧
      ((s.selected = none ∧ s.lowest = .inf ∧ ∀ j < m, ¬ Counts d loss j) ∨
        ∃ k < m, s.selected = some (d k) ∧ s.lowest = .fin (e k) ∧ Counts d loss k ∧ ∀ j < m, k < j → (d j).2.stopping = some true → ∀ y, loss j = .fin y → e k ≤ y) := by
  intro m
  induction m with
  | zero => exact fun _ => ⟨_, rfl, .inl ⟨rfl, rfl, fun j hj => absurd hj (by omega)⟩⟩
  | succ m ih =>
    intro hm
    obtain ⟨s, h1, h2⟩ := ih (by omega)
    obtain ⟨g1, g2, g3, -⟩ := h m (by omega)
    rw [List.range_succ, List.foldlM_append, h1, ok_bind, List.foldlM_cons]
    unfold simStep
    rw [g1, ok_bind, pyLast_some g2, ok_bind]
    cases hc : (s.lowest.gt (loss m) && (d m).2.stopping == some true) with
    | true =>
      simp only [if_true]
      rw [pyLast_some g3]
      obtain ⟨c1, c2⟩ := Bool.and_eq_true_iff.1 hc
      refine ⟨_, rfl, .inr ⟨m, Nat.lt_succ_self m, rfl, rfl, ⟨by simpa using c2, ?_⟩, fun j hj hj' => by omega⟩⟩
      rcases h2 with ⟨-, h2, -⟩ | ⟨k, -, -, h2, -⟩
      · rw [h2] at c1
        exact (PyF.inf_gt _).1 c1
      · rw [h2] at c1
        obtain ⟨y, hy, -⟩ := (PyF.fin_gt _ _).1 c1
        exact ⟨y, hy⟩
    | false =>
      refine ⟨_, rfl, ?_⟩
      rcases h2 with ⟨h3, h4, h5⟩ | ⟨k, hk, h3, h4, h5, h6⟩
      · refine .inl ⟨h3, h4, fun j hj => ?_⟩
        rcases Nat.lt_succ_iff_lt_or_eq.1 hj with h' | rfl
        · exact h5 j h'
        · rintro ⟨c1, x, c2⟩
          rw [h4, (PyF.inf_gt _).2 ⟨x, c2⟩, c1] at hc
          simp at hc
      · refine .inr ⟨k, by omega, h3, h4, h5, fun j hj hkj hs y hy => ?_⟩
        rcases Nat.lt_succ_iff_lt_or_eq.1 hj with h' | rfl
        · exact h6 j h' hkj hs y hy
        · by_contra hlt
          rw [h4, (PyF.fin_gt _ _).2 ⟨y, hy, not_le.1 hlt⟩, hs] at hc
          simp at hc

/-- C117 for the simulated examples, as far as it holds: the selected fit satisfied the stopping conditions, the printed error is its reconstruction error, and no later fit that satisfied the
stopping conditions has a loss below this error. NameError is raised exactly if no fit satisfied the stopping conditions with a loss that is a number. -/
theorem C117_sim_partial (fit : ℕ → Except PyErr (μ × Diagnostics)) (n : ℕ) (d : ℕ → μ × Diagnostics) (loss : ℕ → PyF) (e : ℕ → ℝ) (h : Fits fit n d loss fun k => .fin (e k)) :
    (∃ k < n, selectSim fit n = .ok (d k, .fin (e k)) ∧ Counts d loss k ∧ ∀ j < n, k < j → (d j).2.stopping = some true → ∀ y, loss j = .fin y → e k ≤ y) ∨
      ((∀ k < n, ¬ Counts d loss k) ∧ selectSim fit n = .error .nameError) := by
  obtain ⟨s, h1, h2⟩ := sim_fold fit n d loss e h n le_rfl
  unfold selectSim
  rw [h1, ok_bind]
  rcases h2 with ⟨h3, -, h5⟩ | ⟨k, hk, h3, h4, h5, h6⟩
  · rw [h3]
    exact .inr ⟨h5, rfl⟩
  · rw [h3, h4]
    exact .inl ⟨k, hk, rfl, h5, h6⟩

/-- C117 for the simulated examples without penalty values: a later start than the selected one, if it counts, has no smaller error, provided the selected error is at most 2. -/
theorem C117_sim_later_partial (fit : ℕ → Except PyErr (μ × Diagnostics)) (n : ℕ) (d : ℕ → μ × Diagnostics) (e : ℕ → ℝ) (he : ∀ k, 0 ≤ e k)
    (h : Fits fit n d (fun k => .fin (1 / 2 * e k ^ 2)) fun k => .fin (e k)) (hs : ∃ k < n, (d k).2.stopping = some true) :
    ∃ k < n, selectSim fit n = .ok (d k, .fin (e k)) ∧ (e k ≤ 2 → ∀ j < n, k < j → (d j).2.stopping = some true → e k ≤ e j) := by
  rcases C117_sim_partial fit n d _ e h with ⟨k, hk, h1, -, h2⟩ | ⟨h1, -⟩
  · refine ⟨k, hk, h1, fun h2' j hj hkj hst => ?_⟩
    have := h2 j hj hkj hst _ rfl
    by_contra hc
    nlinarith [he j, he k]
  · obtain ⟨k, hk, hst⟩ := hs
    exact absurd ⟨hst, _, rfl⟩ (h1 k hk)

/-- C117 fails for the simulated examples: whenever all starts satisfy the stopping conditions and have growing errors, each with half of its square below the error before, the last and worst
start is selected, although all losses are half of the squared errors, so that its loss is the highest too. -/
theorem C117_sim_false (fit : ℕ → Except PyErr (μ × Diagnostics)) (n : ℕ) (d : ℕ → μ × Diagnostics) (e : ℕ → ℝ)
    (h : Fits fit (n + 1) d (fun k => .fin (1 / 2 * e k ^ 2)) fun k => .fin (e k)) (hs : ∀ k ≤ n, (d k).2.stopping = some true)
    (hgrow : ∀ k < n, 1 / 2 * e (k + 1) ^ 2 < e k) : selectSim fit (n + 1) = .ok (d n, .fin (e n)) := by
  have fold : ∀ m ≤ n, (List.range (m + 1)).foldlM (simStep fit) ⟨none, .inf⟩ = .ok ⟨some (d m), .fin (e m)⟩ := by
    intro m
    induction m with
    | zero =>
      intro _
      obtain ⟨g1, g2, g3, -⟩ := h 0 (by omega)
      simp only [List.range_succ, List.range_zero, List.nil_append, List.foldlM_cons, List.foldlM_nil]
      unfold simStep
      rw [g1, ok_bind, pyLast_some g2, ok_bind, hs 0 (by omega), (PyF.inf_gt _).2 ⟨_, rfl⟩, pyLast_some g3]
      rfl
    | succ m ih =>
      intro hm
      obtain ⟨g1, g2, g3, -⟩ := h (m + 1) (by omega)
      rw [List.range_succ, List.foldlM_append, ih (by omega), ok_bind, List.foldlM_cons]
      unfold simStep
      rw [g1, ok_bind, pyLast_some g2, ok_bind, hs (m + 1) hm, (PyF.fin_gt _ _).2 ⟨_, rfl, hgrow m (by omega)⟩, pyLast_some g3]
      rfl
  unfold selectSim
  rw [fold n le_rfl]
  rfl

/-- Errors of five starts, from 0.2 to 1.4. -/
noncomputable def fiveErrors (k : ℕ) : ℝ := if k = 0 then 1 / 5 else if k = 1 then 3 / 5 else if k = 2 then 1 else if k = 3 then 13 / 10 else 7 / 5

/-- Five starts as in `C117_sim_false`: the best is the first, and the last is selected. -/
example : (∀ k < 4, fiveErrors k < fiveErrors (k + 1)) ∧ ∃ d : ℕ → Unit × Diagnostics, (∀ k, (d k).2.losses = [.fin (1 / 2 * fiveErrors k ^ 2)]) ∧
    selectSim (fun k => .ok (d k)) 5 = .ok (d 4, .fin (7 / 5)) := by
  refine ⟨fun k hk => by interval_cases k <;> norm_num [fiveErrors],
    fun k => ((), ⟨[.fin (fiveErrors k)], [feasibilityGaps (I := 0) (K := 0) (R := 0) (nA := 0) (nB := 0) (nC := 0) (J := nofun) ⟨0, 0, 0⟩ nofun nofun nofun],
      [.fin (1 / 2 * fiveErrors k ^ 2)], some true, some true, .maxIter, 0⟩), fun k => rfl, ?_⟩
  rw [C117_sim_false (fun k => .ok _) 4 _ fiveErrors (fun k _ => ⟨rfl, rfl, rfl, by simp⟩) (fun _ _ => rfl) fun k hk => by interval_cases k <;> norm_num [fiveErrors]]
  norm_num [fiveErrors]

/-! ### With the fits of the package -/

section
variable {I K R nA nB nC : ℕ} {J : Fin I → ℕ}

/-- Half of the squared relative error plus all penalties: what the documentation calls the loss. -/
noncomputable def finalLoss (P : Problem I K R nA nB nC J) (s : AOState I K R nA nB nC J) : ℝ := 1 / 2 * relErr P.X s ^ 2 + regValue P s.F

theorem startsFrom_fits (P : Problem I K R nA nB nC J) (hX : P.X ≠ 0) (a : Args) (hr : a.returnErrors = true) (init : ℕ → AOState I K R nA nB nC J) (n : ℕ)
    (out : ℕ → Output (AOState I K R nA nB nC J)) (h : ∀ k < n, cmfAoadmm P a (init k) = .ok (out k)) :
    ∃ d : ℕ → AOState I K R nA nB nC J × Diagnostics, (∀ k < n, (d k).1 = (out k).st) ∧
      Fits (startsFrom P a init) n d (fun k => .fin (finalLoss P (out k).st)) fun k => .fin (relErr P.X (out k).st) := by
  have key : ∀ k < n, ∃ d, (out k).diag = some d ∧ d.losses.getLast? = some (.fin (finalLoss P (out k).st)) ∧
      d.recErrors.getLast? = some (.fin (relErr P.X (out k).st)) ∧ d.gaps ≠ [] := by
    intro k hk
    obtain ⟨d, hd, l1, l2, l3, hent⟩ := C37 P hX a hr (init k) (out k) (h k hk)
    obtain ⟨o, -, ho, e1, e2, -⟩ := hent d.nIter le_rfl
    rw [ho rfl] at e1 e2
    refine ⟨d, hd, ?_, ?_, fun hg => ?_⟩
    · rw [List.getLast?_eq_getElem?, l3]
      exact e2
    · rw [List.getLast?_eq_getElem?, l1]
      exact e1
    · rw [hg] at l2
      simp at l2
  have hex : ∀ k, ∃ x : AOState I K R nA nB nC J × Diagnostics, k < n → x.1 = (out k).st ∧ (out k).diag = some x.2 ∧ x.2.losses.getLast? = some (.fin (finalLoss P (out k).st)) ∧
      x.2.recErrors.getLast? = some (.fin (relErr P.X (out k).st)) ∧ x.2.gaps ≠ [] := by
    intro k
    by_cases hk : k < n
    · obtain ⟨d, h1⟩ := key k hk
      exact ⟨(_, d), fun _ => ⟨rfl, h1⟩⟩
    · exact ⟨(init k, ⟨[], [], [], none, none, .maxIter, 0⟩), fun h => absurd h hk⟩
  choose d hd using hex
  refine ⟨d, fun k hk => (hd k hk).1, fun k hk => ?_⟩
  obtain ⟨h1, h2, h3, h4, h5⟩ := hd k hk
  refine ⟨?_, h3, h4, h5⟩
  unfold startsFrom
  rw [h k hk, ok_bind, h2, ← h1]
  rfl

/-- C117 for the bike sharing example with the fits of the package: for data that are not zero and at least one start, the returned factorization is that of the first start with the
lowest final loss; NameError is not raised. -/
theorem C117_bike_fits (P : Problem I K R nA nB nC J) (hX : P.X ≠ 0) (a : Args) (hr : a.returnErrors = true) (init : ℕ → AOState I K R nA nB nC J) (n : ℕ) (hn : 0 < n)
    (out : ℕ → Output (AOState I K R nA nB nC J)) (h : ∀ k < n, cmfAoadmm P a (init k) = .ok (out k)) :
    ∃ k < n, selectBike (startsFrom P a init) n = .ok (k, (out k).st) ∧ (∀ j < n, finalLoss P (out k).st ≤ finalLoss P (out j).st) ∧
      ∀ j < k, finalLoss P (out k).st < finalLoss P (out j).st := by
  obtain ⟨d, hd, hf⟩ := startsFrom_fits P hX a hr init n out h
  rcases C117_bike _ n d _ _ hf with ⟨k, ⟨hk, x, hx, h1, h2⟩, hsel⟩ | ⟨hno, -⟩
  · obtain rfl := PyF.fin.inj hx
    rw [hd k hk] at hsel
    exact ⟨k, hk, hsel, fun j hj => h1 j hj _ rfl, fun j hj => h2 j hj _ rfl⟩
  · exact absurd rfl (hno 0 hn _)

/-- C117 for the example on the number of components with the fits of the package, without penalty values (as there): the score is one minus half of the smallest squared relative error of
all starts. -/
theorem C117_examine_fits (P : Problem I K R nA nB nC J) (hX : P.X ≠ 0) (hpen : ∀ F, regValue P F = 0) (a : Args) (hr : a.returnErrors = true)
    (init : ℕ → AOState I K R nA nB nC J) (n : ℕ) (hn : 0 < n) (out : ℕ → Output (AOState I K R nA nB nC J)) (h : ∀ k < n, cmfAoadmm P a (init k) = .ok (out k))
    (carry : Option (AOState I K R nA nB nC J × Diagnostics)) :
    ∃ k < n, ∃ d low g, examineRank n (startsFrom P a init) carry = .ok (some ((out k).st, d), low, g) ∧ fitScore low = some (1 - 1 / 2 * relErr P.X (out k).st ^ 2) ∧
      ∀ j < n, relErr P.X (out k).st ≤ relErr P.X (out j).st := by
  obtain ⟨d, hd, hf⟩ := startsFrom_fits P hX a hr init n out h
  obtain ⟨k, g, ⟨hk, x, hx, h1, -⟩, -, hsel⟩ := C117_examine_partial _ n d _ _ hf ⟨0, hn, _, rfl⟩ carry
  obtain rfl := PyF.fin.inj hx
  refine ⟨k, hk, (d k).2, .fin (finalLoss P (out k).st), g, ?_, ?_, fun j hj => ?_⟩
  · rw [hsel, ← hd k hk]
  · simp [fitScore, finalLoss, hpen]
  · have := h1 j hj _ rfl
    simp only [finalLoss, hpen, add_zero] at this
    have hp : 0 ≤ relErr P.X (out j).st := div_nonneg (Real.sqrt_nonneg _) (Real.sqrt_nonneg _)
    by_contra hc
    nlinarith

/-- A problem that meets the hypotheses of `C117_bike_fits` and `C117_examine_fits` from any starts: one matrix that is not zero, and a non-negativity constraint on A. -/
example (init : ℕ → AOState 1 1 1 1 0 0 fun _ => 1) : ∃ (P : Problem 1 1 1 1 0 0 fun _ => 1) (out : ℕ → Output _), P.X ≠ 0 ∧ (∀ F, regValue P F = 0) ∧
    tolArgs.returnErrors = true ∧ ∀ k < 5, cmfAoadmm P tolArgs (init k) = .ok (out k) := by
  obtain ⟨prm, hP, hN, -, hs⟩ := exists_params 1 1 none 1
  choose out hout using fun k => C61 (scP prm 1 0 fun _ : Fin 1 => StdPen.nonNeg.toA) one_pos (fun _ p => rfl) tolArgs (fun _ => rfl) (init k)
  refine ⟨_, out, fun h => ?_, fun F => ?_, rfl, fun k _ => hout k⟩
  · have := congrFun (congrFun (congrFun h 0) 0) 0
    simp [scP, scX, sc] at this
  · simp [regValue, scP, StdPen.toA, StdPen.value, hardPenalty]

/-- The score is not the usual fit, one minus the relative sum of squared errors, unless the error is zero. -/
theorem C117_score_false (e : ℝ) : fitScore (.fin (1 / 2 * e ^ 2)) = some (1 - e ^ 2) ↔ e = 0 := by
  simp only [fitScore, Option.some.injEq]
  constructor
  · intro h
    have : e ^ 2 = 0 := by linarith
    exact pow_eq_zero_iff two_ne_zero |>.1 this
  · rintro rfl
    norm_num

end

end Verif.Props
