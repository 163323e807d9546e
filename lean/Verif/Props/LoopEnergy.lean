import Verif.Props.LoopSparse

/-!
# C145: limits of non-negative factorizations explain their own share of the data
-/

set_option linter.unusedSectionVars false

namespace Verif.Props

open Verif.Loop Verif.ADMM Verif.Penalties Verif.Spec Finset Matrix Filter

variable {I K R : ℕ} {J : Fin I → ℕ}

theorem box_lasso {g y : ℝ} (h : BoxEntry (some 0) none g y) : LassoEntry 0 true g y := by
  have hy : 0 ≤ y := h.1.1 0 rfl
  have hg : 0 ≤ g := by
    by_contra hn
    have := h.2.2 (not_le.1 hn)
    cases this
  refine ⟨hy, by simpa using hg, fun h0 => ?_⟩
  by_contra hn
  have := h.2.1 (lt_of_le_of_ne hg fun e => hn (by rw [← e]; simp))
  have : y = 0 := (Option.some.inj this).symm
  exact h0.ne' this

/-- The data explained by component `r`. -/
def explained (F : Factors I K R J) (r : Fin R) (i : Fin I) (j : Fin (J i)) (k : Fin K) : ℝ := F.A i r * F.B i j r * F.C k r

theorem sum_share (X : Ragged I K J) (F : Factors I K R J) : ∑ r, share X F r = ∑ i, ∑ j, ∑ k, (F.entry i j k - X i j k) * F.entry i j k := by
  simp only [share]
  rw [sum_comm]
  refine sum_congr rfl fun i _ => ?_
  rw [sum_comm]
  refine sum_congr rfl fun j _ => ?_
  rw [sum_comm]
  refine sum_congr rfl fun k _ => ?_
  rw [← mul_sum]
  rfl

theorem energy (X : Ragged I K J) (F : Factors I K R J) {c : Fin R → ℝ} (h : ∀ r, c r = -share X F r) :
    (∀ r, ∑ i, ∑ j, ∑ k, (X i j k - F.entry i j k) * explained F r i j k = c r) ∧
    ∑ i, ∑ j, ∑ k, X i j k ^ 2 = sse X F + ∑ i, ∑ j, ∑ k, F.entry i j k ^ 2 + 2 * ∑ r, c r := by
  constructor
  · intro r
    rw [h r, share]
    simp only [← sum_neg_distrib]
    exact sum_congr rfl fun i _ => sum_congr rfl fun j _ => sum_congr rfl fun k _ => by rw [explained]; ring
  · have e : ∑ r, c r = -∑ i, ∑ j, ∑ k, (F.entry i j k - X i j k) * F.entry i j k := by
      rw [← sum_share, ← sum_neg_distrib]
      exact sum_congr rfl fun r _ => h r
    rw [e]
    simp only [sse, mul_neg, mul_sum, ← sum_neg_distrib, ← sum_add_distrib]
    exact sum_congr rfl fun i _ => sum_congr rfl fun j _ => sum_congr rfl fun k _ => by ring

/-- C145: let the state after `n` and after `n + 1` iterations converge to `t` along some iteration counts, with non-negative factors. For every updated mode, the residual times a component is
the L2 coefficient times the squared norm of the component in this mode; and the sum of squares of the data is the loss plus the sum of squares of the model plus twice the L2 terms. Without L2
penalty the residual is orthogonal to every component and the sums of squares add up. -/
theorem C145 (P : Problem I K R 1 1 1 J) (hI : 0 < I) (hsvd : ValidSVD P.params) (hN : 0 < P.params.nInner) (init : AOState I K R 1 1 1 J)
    (outs : ℕ → Output (AOState I K R 1 1 1 J)) (h : ∀ n : ℕ, cmfAoadmm P (plain n) init = .ok (outs n)) (t : AOState I K R 1 1 1 J) (φ : ℕ → ℕ)
    (ht : StateTo (fun n => (outs (φ n)).st) t) (ht' : StateTo (fun n => (outs (φ n + 1)).st) t)
    (eA : P.pensA 0 = (StdPen.nonNeg : StdPen I R).toA) (eB : P.pensB 0 = StdPen.toB fun i => (StdPen.nonNeg : StdPen (J i) R)) (eC : P.pensC 0 = (StdPen.nonNeg : StdPen K R).toC) (hlA : 0 ≤ P.l2.1) (hlB : 0 ≤ P.l2.2.1) (hlC : 0 ≤ P.l2.2.2)
    (hwA : P.updA = true → ∀ i, 0 < weightA P.params.scale t.F i) (hwB : P.updB = true → ∀ i, 0 < weightB P.params.scale t.F i) (hwC : P.updC = true → 0 < weightC P.params.scale t.F) :
    (P.updA = true → (∀ r, ∑ i, ∑ j, ∑ k, (P.X i j k - t.F.entry i j k) * explained t.F r i j k = P.l2.1 * ∑ i, t.F.A i r ^ 2) ∧
      ∑ i, ∑ j, ∑ k, P.X i j k ^ 2 = sse P.X t.F + ∑ i, ∑ j, ∑ k, t.F.entry i j k ^ 2 + 2 * ∑ r, P.l2.1 * ∑ i, t.F.A i r ^ 2) ∧
    (P.updB = true → (∀ r, ∑ i, ∑ j, ∑ k, (P.X i j k - t.F.entry i j k) * explained t.F r i j k = P.l2.2.1 * ∑ i, ∑ j, t.F.B i j r ^ 2) ∧
      ∑ i, ∑ j, ∑ k, P.X i j k ^ 2 = sse P.X t.F + ∑ i, ∑ j, ∑ k, t.F.entry i j k ^ 2 + 2 * ∑ r, P.l2.2.1 * ∑ i, ∑ j, t.F.B i j r ^ 2) ∧
    (P.updC = true → (∀ r, ∑ i, ∑ j, ∑ k, (P.X i j k - t.F.entry i j k) * explained t.F r i j k = P.l2.2.2 * ∑ k, t.F.C k r ^ 2) ∧
      ∑ i, ∑ j, ∑ k, P.X i j k ^ 2 = sse P.X t.F + ∑ i, ∑ j, ∑ k, t.F.entry i j k ^ 2 + 2 * ∑ r, P.l2.2.2 * ∑ k, t.F.C k r ^ 2) := by
  have hv : ∀ l u : ℝ, some (0 : ℝ) = some l → (none : Option ℝ) = some u → l ≤ u := fun _ _ _ h => by cases h
  obtain ⟨o1, o2, o3⟩ := C143 P hI hsvd hN init outs h t φ ht ht' hv hv hv (.inr ⟨rfl, rfl, rfl⟩) (fun _ => .inr ⟨rfl, rfl, rfl⟩) (.inr ⟨rfl, rfl, rfl⟩) eA eB eC hlA hlB hlC hwA hwB hwC
  refine ⟨fun u => energy P.X t.F fun r => ?_, fun u => energy P.X t.F fun r => ?_, fun u => energy P.X t.F fun r => ?_⟩
  · rw [← balance_A (fun i r => box_lasso ((o1 u).2 i r)) r]
    ring
  · rw [← balance_B (fun i j r => box_lasso ((o2 u).2 i j r)) r]
    ring
  · rw [← balance_C (fun k r => box_lasso ((o3 u).2 k r)) r]
    ring

/-- C145, the explained part: without L2 penalty on some updated mode, the explained part of the data is the sum of squares of the model relative to that of the data, and between 0 and 1. -/
theorem C145_fraction (P : Problem I K R 1 1 1 J) (hI : 0 < I) (hsvd : ValidSVD P.params) (hN : 0 < P.params.nInner) (init : AOState I K R 1 1 1 J)
    (outs : ℕ → Output (AOState I K R 1 1 1 J)) (h : ∀ n : ℕ, cmfAoadmm P (plain n) init = .ok (outs n)) (t : AOState I K R 1 1 1 J) (φ : ℕ → ℕ)
    (ht : StateTo (fun n => (outs (φ n)).st) t) (ht' : StateTo (fun n => (outs (φ n + 1)).st) t)
    (eA : P.pensA 0 = (StdPen.nonNeg : StdPen I R).toA) (eB : P.pensB 0 = StdPen.toB fun i => (StdPen.nonNeg : StdPen (J i) R)) (eC : P.pensC 0 = (StdPen.nonNeg : StdPen K R).toC) (hlA : 0 ≤ P.l2.1) (hlB : 0 ≤ P.l2.2.1) (hlC : 0 ≤ P.l2.2.2)
    (hwA : P.updA = true → ∀ i, 0 < weightA P.params.scale t.F i) (hwB : P.updB = true → ∀ i, 0 < weightB P.params.scale t.F i) (hwC : P.updC = true → 0 < weightC P.params.scale t.F)
    (hfree : P.updA = true ∧ P.l2.1 = 0 ∨ P.updB = true ∧ P.l2.2.1 = 0 ∨ P.updC = true ∧ P.l2.2.2 = 0) (hX : 0 < ∑ i, ∑ j, ∑ k, P.X i j k ^ 2) :
    1 - sse P.X t.F / ∑ i, ∑ j, ∑ k, P.X i j k ^ 2 = (∑ i, ∑ j, ∑ k, t.F.entry i j k ^ 2) / ∑ i, ∑ j, ∑ k, P.X i j k ^ 2 ∧
    0 ≤ 1 - sse P.X t.F / ∑ i, ∑ j, ∑ k, P.X i j k ^ 2 ∧ 1 - sse P.X t.F / ∑ i, ∑ j, ∑ k, P.X i j k ^ 2 ≤ 1 := by
  obtain ⟨o1, o2, o3⟩ := C145 P hI hsvd hN init outs h t φ ht ht' eA eB eC hlA hlB hlC hwA hwB hwC
  have key : ∑ i, ∑ j, ∑ k, P.X i j k ^ 2 = sse P.X t.F + ∑ i, ∑ j, ∑ k, t.F.entry i j k ^ 2 := by
    rcases hfree with ⟨u, e⟩ | ⟨u, e⟩ | ⟨u, e⟩
    · have := (o1 u).2
      simpa only [e, zero_mul, sum_const_zero, mul_zero, add_zero] using this
    · have := (o2 u).2
      simpa only [e, zero_mul, sum_const_zero, mul_zero, add_zero] using this
    · have := (o3 u).2
      simpa only [e, zero_mul, sum_const_zero, mul_zero, add_zero] using this
  have h1 : 0 ≤ sse P.X t.F := sum_nonneg fun _ _ => sum_nonneg fun _ _ => sum_nonneg fun _ _ => sq_nonneg _
  have h2 : 0 ≤ ∑ i, ∑ j, ∑ k, t.F.entry i j k ^ 2 := sum_nonneg fun _ _ => sum_nonneg fun _ _ => sum_nonneg fun _ _ => sq_nonneg _
  have e : 1 - sse P.X t.F / ∑ i, ∑ j, ∑ k, P.X i j k ^ 2 = (∑ i, ∑ j, ∑ k, t.F.entry i j k ^ 2) / ∑ i, ∑ j, ∑ k, P.X i j k ^ 2 := by
    rw [eq_div_iff hX.ne', sub_mul, one_mul, div_mul_cancel₀ _ hX.ne']
    linarith
  refine ⟨e, ?_, ?_⟩
  · rw [e]
    exact div_nonneg h2 hX.le
  · linarith [div_nonneg h1 hX.le]

/-- C145 applies to the run of `edge_run`: data (1, -1) with sum of squares 2, of which the model (1, 0) explains 1. -/
theorem C145_example : ∃ (prm : Params 1) (outs : ℕ → Output (AOState 1 2 1 1 1 1 (fun _ => 1))),
    (∀ n : ℕ, cmfAoadmm (edgeProblem prm) (plain n) edgeState = .ok (outs n)) ∧ StateTo (fun n => (outs n).st) edgeState ∧
    ∑ i, ∑ j, ∑ k, (edgeProblem prm).X i j k ^ 2 = sse (edgeProblem prm).X edgeF + ∑ i, ∑ j, ∑ k, edgeF.entry i j k ^ 2 ∧ sse (edgeProblem prm).X edgeF = 1 := by
  obtain ⟨prm, outs, hP, hN, ho, hto, wA, wB, wC⟩ := edge_run
  have := ((C145 (edgeProblem prm) one_pos hP (by show 0 < prm.nInner; omega) edgeState outs ho edgeState id (hto id) (hto fun n => n + 1) rfl rfl rfl le_rfl le_rfl le_rfl
    (fun _ i => by rw [show weightA (edgeProblem prm).params.scale edgeState.F i = 1 from wA i]; norm_num)
    (fun _ i => by rw [show weightB (edgeProblem prm).params.scale edgeState.F i = 1 from wB i]; norm_num)
    (fun _ => by rw [show weightC (edgeProblem prm).params.scale edgeState.F = 1 from wC]; norm_num)).1 rfl).2
  refine ⟨prm, outs, ho, hto id, ?_, ?_⟩
  · rw [show (edgeProblem prm).l2.1 = 0 from rfl] at this
    simp only [zero_mul, sum_const_zero, mul_zero, add_zero] at this
    exact this
  · simp [sse, Factors.entry, edgeProblem, edgeF]

end Verif.Props
