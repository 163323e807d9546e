import Mathlib.Algebra.BigOperators.Fin
import Mathlib.Data.Rat.Defs
import Verif.CMF.Convert

/-!
# C10-C12: conversion from CP and PARAFAC2 tensors, and the indeterminacies
-/

set_option linter.unusedSectionVars false

namespace Verif.Props

open Verif.CMF Verif.Spec Finset

variable {K : Type} [Field K]

theorem construct_list {w A C : NDArray K} {Bs : List (NDArray K)} {k R : ℕ} (hw : w.shape = [R])
    (hA : A.shape = [Bs.length, R]) (hC : C.shape = [k, R]) (hB : ∀ B ∈ Bs, ∃ J, B.shape = [J, R]) :
    ∃ c, construct ⟨.tensor w, .tensor A, .list (Bs.map .tensor), .tensor C⟩ = .ok c ∧ c.weights = some w ∧
      c.A = A ∧ c.Bs = Bs ∧ c.C = C ∧ c.rank = R := by
  refine ⟨⟨some w, A, Bs, C, Bs.map (fun B => (B.shape.headD 0, C.shape.headD 0)), R⟩, ?_, rfl, rfl, rfl, rfl, rfl⟩
  exact construct_ok.2 ⟨⟨Or.inr ⟨w, rfl, rfl, hw⟩, rfl, hA, rfl, ⟨k, hC⟩, .list _, hB⟩, rfl⟩

/-- The matrices of `c` are the given ones. -/
def Represents (c : Fact K) (n : ℕ) (Js : ℕ → ℕ) (k : ℕ) (f : ℕ → ℕ → ℕ → K) : Prop :=
  ∃ ms, toMatrices c = .ok ms ∧ ms.length = n ∧ ∀ i, i < n → ∃ M, ms[i]? = some M ∧ IsMat M (Js i) k (f i)

theorem represents_of {x : CMFArg K} {c : Fact K} (h : construct x = .ok c) {n k : ℕ} {Js : ℕ → ℕ} {f : ℕ → ℕ → ℕ → K}
    (hn : c.Bs.length = n) (hk : rows c.C = k)
    (hB : ∀ i B, c.Bs[i]? = some B → rows B = Js i ∧ ∀ j < Js i, ∀ l < k,
      reprEntry c.rank c.weights c.A B c.C i j l = f i j l) : Represents c n Js k f := by
  obtain ⟨ms, h1, h2, h3⟩ := toMatrices_ok (good_of_construct h)
  refine ⟨ms, h1, by omega, fun i hi => ?_⟩
  obtain ⟨B, hB'⟩ : ∃ B, c.Bs[i]? = some B := ⟨_, List.getElem?_eq_getElem (by omega)⟩
  obtain ⟨M, m1, m2, m3⟩ := h3 i B hB'
  obtain ⟨b1, b2⟩ := hB i B hB'
  refine ⟨M, m1, by rw [m2, b1, hk], fun j hj l hl => ?_⟩
  rw [m3, matOf_repr, b2 j hj l hl]

/-- Entry of a CP tensor. -/
def cpEntry (R : ℕ) (w A B C : NDArray K) (i j l : ℕ) : K :=
  ∑ r ∈ range R, w.get [r] * A.get [i, r] * B.get [j, r] * C.get [l, r]

theorem cutB_ok {B C : NDArray K} {J k R : ℕ} (hB : B.shape = [J, R]) (hC : C.shape = [k, R]) :
    ∀ sh : List (ℕ × ℕ), (∀ s ∈ sh, s.2 = k ∧ s.1 ≤ J) → cutB B C sh = .ok (sh.map fun s => firstRows B s.1)
  | [], _ => rfl
  | (j, l) :: sh, h => by
    have h0 := h (j, l) (by simp)
    simp only at h0
    rw [cutB, cutB_ok hB hC sh (fun s hs => h s (by simp [hs])), hB, hC]
    simp [h0.1, h0.2]

theorem cutB_err {B C : NDArray K} {J k R : ℕ} (hB : B.shape = [J, R]) (hC : C.shape = [k, R]) :
    ∀ sh : List (ℕ × ℕ), ¬ (∀ s ∈ sh, s.2 = k ∧ s.1 ≤ J) → cutB B C sh = .error .valueError
  | [], h => by simp at h
  | (j, l) :: sh, h => by
    rw [cutB, hB, hC]
    simp only [List.getD_cons_zero]
    by_cases h1 : l = k
    · by_cases h2 : j ≤ J
      · have : ¬ (∀ s ∈ sh, s.2 = k ∧ s.1 ≤ J) := by
          intro hh
          apply h
          intro s hs
          rcases List.mem_cons.1 hs with rfl | hs
          · exact ⟨h1, h2⟩
          · exact hh s hs
        rw [cutB_err hB hC sh this]
        simp [h1, show ¬ (J < j) by omega]
      · simp [h1, show J < j by omega]
    · simp [h1]

/-- C10, without `shapes`: always succeeds for a third-order CP tensor and represents its slices. -/
theorem C10_cp {t : CPT K} {A B C : NDArray K} {n J k R : ℕ} (ht : t.factors = [A, B, C]) (hw : t.weights.shape = [R])
    (hA : A.shape = [n, R]) (hB : B.shape = [J, R]) (hC : C.shape = [k, R]) :
    ∃ c, fromCP t none = .ok c ∧ Represents c n (fun _ => J) k (cpEntry R t.weights A B C) := by
  have hn : A.shape.getD 0 0 = n := by rw [hA]; rfl
  obtain ⟨c, h1, h2, h3, h4, h5, h6⟩ := construct_list (w := t.weights) (A := A) (C := C)
    (Bs := (List.range (A.shape.getD 0 0)).map fun _ => B) (k := k) (R := R) hw (by simp [hA]) hC
    (by intro B' hB'; simp only [List.mem_map] at hB'; obtain ⟨_, -, rfl⟩ := hB'; exact ⟨J, hB⟩)
  refine ⟨c, ?_, represents_of h1 (by rw [h4]; simp [hA]) (by rw [h5]; simp [rows, hC]) ?_⟩
  · unfold fromCP
    rw [ht]
    simp only [pure_eq_ok, ok_bind]
    exact h1
  · intro i B' hB'
    rw [h4] at hB'
    have : B' = B := by
      have := List.mem_of_getElem? hB'
      simp only [List.mem_map] at this
      obtain ⟨_, -, rfl⟩ := this
      rfl
    subst this
    refine ⟨by simp [rows, hB], fun j _ l _ => ?_⟩
    rw [h2, h3, h5, h6]
    rfl

/-- C10, with `shapes`: succeeds exactly when there is one shape per row of A, each with the right number of columns
and at most as many rows as B; the `i`-th matrix is then the first `J_i` rows of the slice. -/
theorem C10_cp_shapes {t : CPT K} {A B C : NDArray K} {n J k R : ℕ} (ht : t.factors = [A, B, C])
    (hw : t.weights.shape = [R]) (hA : A.shape = [n, R]) (hB : B.shape = [J, R]) (hC : C.shape = [k, R])
    (sh : List (ℕ × ℕ)) :
    (sh.length = n ∧ (∀ s ∈ sh, s.2 = k ∧ s.1 ≤ J) → ∃ c, fromCP t (some sh) = .ok c ∧
      Represents c n (fun i => (sh.getD i (0, 0)).1) k (cpEntry R t.weights A B C)) ∧
    (∀ e, fromCP t (some sh) = .error e ↔ e = .valueError ∧
      (sh.length ≠ n ∨ (∃ s ∈ sh, s.2 ≠ k) ∨ ∃ s ∈ sh, J < s.1)) := by
  have hn : A.shape.getD 0 0 = n := by rw [hA]; rfl
  have ok : sh.length = n ∧ (∀ s ∈ sh, s.2 = k ∧ s.1 ≤ J) → ∃ c, fromCP t (some sh) = .ok c ∧
      Represents c n (fun i => (sh.getD i (0, 0)).1) k (cpEntry R t.weights A B C) := by
    rintro ⟨hlen, hs⟩
    obtain ⟨c, h1, h2, h3, h4, h5, h6⟩ := construct_list (w := t.weights) (A := A) (C := C)
      (Bs := sh.map fun s => firstRows B s.1) (k := k) (R := R) hw (by simp [hA, hlen]) hC
      (by
        intro B' hB'
        simp only [List.mem_map] at hB'
        obtain ⟨s, -, rfl⟩ := hB'
        exact ⟨min s.1 J, by simp [firstRows, hB]⟩)
    refine ⟨c, ?_, represents_of h1 (by rw [h4]; simp [hlen]) (by rw [h5]; simp [rows, hC]) ?_⟩
    · unfold fromCP
      rw [ht]
      simp only [hn, hlen, ne_eq, not_true_eq_false, if_false, cutB_ok hB hC sh hs, ok_bind]
      exact h1
    · intro i B' hB'
      rw [h4, List.getElem?_map, Option.map_eq_some_iff] at hB'
      obtain ⟨s, hs1, rfl⟩ := hB'
      have hsJ := (hs s (List.mem_of_getElem? hs1)).2
      have hgd : sh.getD i (0, 0) = s := by simp [hs1]
      rw [hgd]
      refine ⟨by simp [rows, firstRows, hB, hsJ], fun j hj l _ => ?_⟩
      rw [h2, h3, h5, h6]
      simp only [reprEntry, cpEntry, weightAt, firstRows, hB, mk2_get]
  refine ⟨ok, fun e => ?_⟩
  by_cases hc : sh.length = n ∧ (∀ s ∈ sh, s.2 = k ∧ s.1 ≤ J)
  · obtain ⟨c, hc', -⟩ := ok hc
    rw [hc']
    simp only [reduceCtorEq, false_iff, not_and]
    rintro - (h | ⟨s, hs, h⟩ | ⟨s, hs, h⟩)
    · exact h hc.1
    · exact h (hc.2 s hs).1
    · have := (hc.2 s hs).2; omega
  · have herr : fromCP t (some sh) = .error .valueError := by
      unfold fromCP
      rw [ht]
      simp only [hn]
      by_cases hl : sh.length = n
      · have : ¬ (∀ s ∈ sh, s.2 = k ∧ s.1 ≤ J) := fun h => hc ⟨hl, h⟩
        simp [hl, cutB_err hB hC sh this]
      · simp [hl]
    rw [herr]
    simp only [Except.error.injEq]
    constructor
    · rintro rfl
      refine ⟨rfl, ?_⟩
      by_contra hcon
      push Not at hcon
      exact hc ⟨hcon.1, fun s hs => ⟨hcon.2.1 s hs, hcon.2.2 s hs⟩⟩
    · rintro ⟨rfl, -⟩; rfl

/-- C10: a CP tensor that is not third order raises ValueError. -/
theorem C10_cp_order (t : CPT K) (sh : Option (List (ℕ × ℕ))) (ht : t.factors.length ≠ 3) :
    fromCP t sh = .error .valueError := by
  unfold fromCP
  split
  · rename_i h; simp [h] at ht
  · rfl

example : ∃ c, fromCP (K := ℚ) ⟨.mk1 2 fun r => r + 1, [.mk2 2 2 fun i r => i + r, .mk2 3 2 fun j r => j * r,
    .mk2 4 2 fun k r => k - r]⟩ (some [(3, 4), (1, 4)]) = .ok c ∧ c.shape = [(3, 4), (1, 4)] := ⟨_, rfl, rfl⟩

/-! ## C11 -/

/-- C11, represented matrices: entry `(j, l)` of matrix `i` is that of `P_i B diag(a_i * w) C^T`. -/
theorem C11_parafac2 {t : P2T K} {n S R k : ℕ} (hn : t.projections.length = n) (hw : t.weights.shape = [R])
    (hA : t.A.shape = [n, R]) (hB : t.B.shape = [S, R]) (hC : t.C.shape = [k, R])
    (hP : ∀ P ∈ t.projections, P.shape = [rows P, S]) :
    ∃ c : Fact K, fromP2 t = .ok c ∧ c.Bs.length = n ∧
      Represents c n (fun i => rows (t.projections.getD i ⟨[], fun _ => 0⟩)) k (fun i j l =>
        ∑ r ∈ range R, (∑ s ∈ range S, (t.projections.getD i ⟨[], fun _ => 0⟩).get [j, s] * t.B.get [s, r])
          * (t.A.get [i, r] * t.weights.get [r]) * t.C.get [l, r]) ∧
      ∀ (i : ℕ) (P : NDArray K), t.projections[i]? = some P → ∃ Bi : NDArray K, c.Bs[i]? = some Bi ∧
        IsMat Bi (rows P) R (fun j r => ∑ s ∈ range S, P.get [j, s] * t.B.get [s, r]) := by
  set f : NDArray K → NDArray K := fun P => .mk2 (rows P) R fun j r => ∑ s ∈ range S, P.get [j, s] * t.B.get [s, r]
    with hf
  have hdot : t.projections.mapM (fun P => dot P t.B) = .ok (t.projections.map f) :=
    mapM_ok _ _ _ fun P hP' => dot_ok (hP P hP') hB
  obtain ⟨c, h1, h2, h3, h4, h5, h6⟩ := construct_list (w := t.weights) (A := t.A) (C := t.C)
    (Bs := t.projections.map f) (k := k) (R := R) hw (by simp [hA, hn]) hC (by
      intro B' hB'
      simp only [List.mem_map] at hB'
      obtain ⟨P, -, rfl⟩ := hB'
      exact ⟨rows P, rfl⟩)
  refine ⟨c, ?_, by rw [h4]; simp [hn], represents_of h1 (by rw [h4]; simp [hn]) (by rw [h5]; simp [rows, hC]) ?_, ?_⟩
  · unfold fromP2
    rw [hdot, ok_bind]
    exact h1
  · intro i B' hB'
    rw [h4, List.getElem?_map, Option.map_eq_some_iff] at hB'
    obtain ⟨P, hP1, rfl⟩ := hB'
    have hgd : t.projections.getD i ⟨[], fun _ => 0⟩ = P := by simp [hP1]
    rw [hgd]
    refine ⟨rfl, fun j hj l _ => ?_⟩
    rw [h2, h3, h5, h6]
    simp only [reprEntry, weightAt, hf, mk2_get]
    exact sum_congr rfl fun r _ => by ring
  · intro i P hP1
    refine ⟨f P, by rw [h4]; simp [hP1], rfl, fun j _ r _ => rfl⟩

/-- C11, PARAFAC2 constraint: if a projection matrix has orthonormal columns, the cross product of the corresponding
`B_i` is that of `B` (so it is the same for all such `i`). -/
theorem C11_cross_product {P B Bi : NDArray K} {m S R : ℕ}
    (hBi : IsMat Bi m R (fun j r => ∑ s ∈ range S, P.get [j, s] * B.get [s, r]))
    (hP : ∀ s < S, ∀ s' < S, ∑ j ∈ range m, P.get [j, s] * P.get [j, s'] = if s = s' then 1 else 0)
    (r r' : ℕ) (hr : r < R) (hr' : r' < R) :
    ∑ j ∈ range m, Bi.get [j, r] * Bi.get [j, r'] = ∑ s ∈ range S, B.get [s, r] * B.get [s, r'] := by
  have e1 : ∑ j ∈ range m, Bi.get [j, r] * Bi.get [j, r']
      = ∑ s ∈ range S, ∑ s' ∈ range S, (∑ j ∈ range m, P.get [j, s] * P.get [j, s']) * (B.get [s, r] * B.get [s', r']) := by
    calc ∑ j ∈ range m, Bi.get [j, r] * Bi.get [j, r']
        = ∑ j ∈ range m, ∑ s ∈ range S, ∑ s' ∈ range S,
            P.get [j, s] * P.get [j, s'] * (B.get [s, r] * B.get [s', r']) := by
          refine sum_congr rfl fun j hj => ?_
          rw [hBi.2 j (mem_range.1 hj) r hr, hBi.2 j (mem_range.1 hj) r' hr', sum_mul_sum]
          exact sum_congr rfl fun s _ => sum_congr rfl fun s' _ => by ring
      _ = _ := by
          rw [sum_comm]
          refine sum_congr rfl fun s _ => ?_
          rw [sum_comm]
          exact sum_congr rfl fun s' _ => by rw [sum_mul]
  rw [e1]
  refine sum_congr rfl fun s hs => ?_
  rw [sum_congr rfl fun s' hs' => by rw [hP s (mem_range.1 hs) s' (mem_range.1 hs')]]
  simp [hs]

/-- Both theorems apply to a tensor with two projections with orthonormal columns (two coordinate selections). -/
example : ∃ c, fromP2 (K := ℚ) ⟨.mk1 1 fun _ => 2, .mk2 2 1 fun i _ => i + 1, .mk2 1 1 fun _ _ => 3, .mk2 2 1 fun k _ => k,
    [.mk2 2 1 fun j _ => if j = 0 then 1 else 0, .mk2 3 1 fun j _ => if j = 2 then 1 else 0]⟩ = .ok c := ⟨_, rfl⟩

/-! ## C12 -/

/-- The factorization obtained by permuting the components with `σ` and multiplying component `r` of A (row `i`), `B_i` and C by
`α i r`, `β i r`, `γ r`; `w'` are the new weights. -/
def rescaled (n R k : ℕ) (A C : NDArray K) (Bs : List (NDArray K)) (σ : ℕ → ℕ) (w' : Option (NDArray K))
    (α β : ℕ → ℕ → K) (γ : ℕ → K) : CMFArg K where
  weights := match w' with | some w => .tensor w | none => .none
  A := .tensor (.mk2 n R fun i r => α i r * A.get [i, σ r])
  Bs := .list (Bs.mapIdx fun i B => .tensor (.mk2 (rows B) R fun j r => β i r * B.get [j, σ r]))
  C := .tensor (.mk2 k R fun l r => γ r * C.get [l, σ r])

/-- C12. Any permutation and rescaling for which the scalings of each component of each matrix multiply to the old
weight gives an accepted factorization that represents the same matrices. Special cases: absorbing the weights into A
(`α i r = w r`, `w' = none`), moving a factor between A, C and the B_i, or between `B_i` and row `i` of A, sign flips. -/
theorem C12_indeterminacy {x : CMFArg K} {c : Fact K} (h : construct x = .ok c) (σ : ℕ → ℕ)
    (hσ : Set.BijOn σ (Set.Iio c.rank) (Set.Iio c.rank)) (w' : Option (NDArray K))
    (hw' : ∀ w, w' = some w → w.shape = [c.rank]) (α β : ℕ → ℕ → K) (γ : ℕ → K)
    (hprod : ∀ i < c.Bs.length, ∀ r < c.rank,
      weightAt w' r * (α i r * β i r * γ r) = weightAt c.weights (σ r)) :
    ∃ (c' : Fact K) (ms ms' : List (NDArray K)), construct (rescaled c.Bs.length c.rank (rows c.C) c.A c.C c.Bs σ w' α β γ) = .ok c' ∧
      toMatrices c = .ok ms ∧ toMatrices c' = .ok ms' ∧ ms'.length = ms.length ∧
      ∀ (i : ℕ) (M : NDArray K), ms[i]? = some M → ∃ M' : NDArray K, ms'[i]? = some M' ∧ M'.shape = M.shape ∧
        ∀ j l, M'.get [j, l] = M.get [j, l] := by
  have g := good_of_construct h
  set Bs' : List (NDArray K) := c.Bs.mapIdx fun i B => .mk2 (rows B) c.rank fun j r => β i r * B.get [j, σ r] with hBs'
  set c' : Fact K := ⟨w', .mk2 c.Bs.length c.rank fun i r => α i r * c.A.get [i, σ r], Bs',
    .mk2 (rows c.C) c.rank fun l r => γ r * c.C.get [l, σ r], Bs'.map (fun B => (B.shape.headD 0, rows c.C)), c.rank⟩
    with hc'
  have hcon : construct (rescaled c.Bs.length c.rank (rows c.C) c.A c.C c.Bs σ w' α β γ) = .ok c' := by
    refine construct_ok.2 ⟨⟨?_, rfl, ?_, rfl, ⟨rows c.C, rfl⟩, ?_, ?_⟩, rfl⟩
    · cases w' with
      | none => exact Or.inl ⟨rfl, rfl⟩
      | some w => exact Or.inr ⟨w, rfl, rfl, hw' w rfl⟩
    · simp [hc', hBs']
    · have : (rescaled c.Bs.length c.rank (rows c.C) c.A c.C c.Bs σ w' α β γ).Bs = .list (Bs'.map .tensor) := by
        rw [hBs']
        simp only [rescaled, BArg.list.injEq]
        apply List.ext_getElem <;> simp
      rw [this]
      exact .list _
    · intro B hB
      simp only [hc', hBs', List.mem_mapIdx] at hB
      obtain ⟨i, hi, rfl⟩ := hB
      exact ⟨_, rfl⟩
  have g' := good_of_construct hcon
  obtain ⟨ms, m1, m2, m3⟩ := toMatrices_ok g
  obtain ⟨ms', m1', m2', m3'⟩ := toMatrices_ok g'
  have hlen : c'.Bs.length = c.Bs.length := by simp [hc', hBs']
  refine ⟨c', ms, ms', hcon, m1, m1', by omega, ?_⟩
  intro i M hM
  have hi : i < c.Bs.length := by rw [← m2]; exact (List.getElem?_eq_some_iff.1 hM).1
  obtain ⟨M1, a1, a2, a3⟩ := m3 i _ (List.getElem?_eq_getElem hi)
  rw [hM] at a1
  simp only [Option.some.injEq] at a1
  subst a1
  set B := c.Bs[i] with hB
  obtain ⟨M', b1, b2, b3⟩ := m3' i (.mk2 (rows B) c.rank fun j r => β i r * B.get [j, σ r]) (by
    simp [hc', hBs', hi, hB])
  refine ⟨M', b1, by rw [b2, a2]; rfl, fun j l => ?_⟩
  rw [b3, a3, matOf_repr, matOf_repr]
  simp only [reprEntry, hc', mk2_get]
  -- reindex the sum of the old factorization by `σ`
  refine Finset.sum_bij (fun r _ => σ r) (fun r hr => ?_) (fun r hr r' hr' he => ?_) (fun r hr => ?_) (fun r hr => ?_)
  · exact mem_range.2 (hσ.mapsTo (Set.mem_Iio.2 (mem_range.1 hr)))
  · exact hσ.injOn (Set.mem_Iio.2 (mem_range.1 hr)) (Set.mem_Iio.2 (mem_range.1 hr')) he
  · obtain ⟨r', hr', rfl⟩ := hσ.surjOn (Set.mem_Iio.2 (mem_range.1 hr))
    exact ⟨r', mem_range.2 hr', rfl⟩
  · rw [← hprod i hi r (mem_range.1 hr)]
    ring

/-- The hypotheses of C12 hold for: absorb the weights into A, move the nonzero factor `s` from C to the B_i, and swap two
components (rank 2, two matrices). -/
example (s : ℚ) (hs : s ≠ 0) : ∃ (c : Fact ℚ), construct (K := ℚ) ⟨.tensor (.mk1 2 fun r => r + 1),
    .tensor (.mk2 2 2 fun i r => i + r), .list [.tensor (.mk2 3 2 fun j r => j * r), .tensor (.mk2 1 2 fun _ _ => 5)],
    .tensor (.mk2 4 2 fun k r => k - r)⟩ = .ok c ∧ Set.BijOn (fun r => 1 - r) (Set.Iio c.rank) (Set.Iio c.rank) ∧
    ∀ i < c.Bs.length, ∀ r < c.rank, weightAt (none : Option (NDArray ℚ)) r
      * ((weightAt c.weights (1 - r)) * s * s⁻¹) = weightAt c.weights (1 - r) := by
  refine ⟨_, rfl, ?_, ?_⟩
  · refine ⟨?_, ?_, ?_⟩
    · intro r hr; simp only [Set.mem_Iio, NDArray.mk2, List.getD_cons_succ, List.getD_cons_zero] at *; omega
    · intro r hr r' hr' he
      simp only [Set.mem_Iio, NDArray.mk2, List.getD_cons_succ, List.getD_cons_zero] at *; omega
    · intro r hr
      simp only [Set.mem_Iio, NDArray.mk2, List.getD_cons_succ, List.getD_cons_zero, Set.mem_image] at *
      exact ⟨1 - r, by omega, by omega⟩
  · intro i _ r _
    rw [mul_assoc (weightAt _ _), mul_inv_cancel₀ hs]
    simp [weightAt]

end Verif.Props
