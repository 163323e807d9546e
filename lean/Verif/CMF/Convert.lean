import Verif.CMF.Validate

/-!
# Helper lemmas: conversions
-/

set_option linter.unusedSectionVars false

namespace Verif.CMF

open Verif.Spec Finset

variable {K : Type} [Field K]

/-- Consequences of successful validation. -/
structure Good (c : Fact K) (k : ℕ) : Prop where
  A : c.A.shape = [c.Bs.length, c.rank]
  C : c.C.shape = [k, c.rank]
  B : ∀ B ∈ c.Bs, B.shape = [rows B, c.rank]
  w : ∀ w, c.weights = some w → w.shape = [c.rank]

theorem good_of_construct {x : CMFArg K} {c : Fact K} (h : construct x = .ok c) : Good c (rows c.C) := by
  obtain ⟨⟨hw, hA, hAs, hC, ⟨k, hCs⟩, hl, hB⟩, -⟩ := construct_ok.1 h
  refine ⟨hAs, by simp [rows, hCs], fun B hB' => ?_, fun w hw' => ?_⟩
  · obtain ⟨J, hJ⟩ := hB B hB'
    simp [rows, hJ]
  · rcases hw with hw | ⟨t, -, h2, h3⟩
    · rw [hw.2] at hw'; simp at hw'
    · rw [h2] at hw'; simp only [Option.some.injEq] at hw'; subst hw'; exact h3

theorem pyIndex_nat {n i : ℕ} (h : i < n) : pyIndex n (i : ℤ) = .ok i := by
  simp [pyIndex, h]

theorem listAt_ok {α : Type} {l : List α} {i : ℤ} {i' : ℕ} (h : pyIndex l.length i = .ok i') {a : α}
    (ha : l[i']? = some a) : listAt l i = .ok a := by
  simp [listAt, h, ha]

theorem rowAt_ok {M : NDArray K} {m n : ℕ} (h : M.shape = [m, n]) {i : ℤ} {i' : ℕ} (hi : pyIndex m i = .ok i') :
    rowAt M i = .ok (.mk1 n fun j => M.get [i', j]) := by
  unfold rowAt; rw [h]; simp [hi]

theorem mulVec_ok {v w : NDArray K} {n : ℕ} (hv : v.shape = [n]) (hw : w.shape = [n]) :
    mulVec v w = .ok (.mk1 n fun j => v.get [j] * w.get [j]) := by
  unfold mulVec; rw [hv, hw]; simp

theorem mulRow_ok {M v : NDArray K} {m n : ℕ} (hM : M.shape = [m, n]) (hv : v.shape = [n]) :
    mulRow M v = .ok (.mk2 m n fun i j => M.get [i, j] * v.get [j]) := by
  unfold mulRow; rw [hM, hv]; simp

theorem dot_ok {M N : NDArray K} {m n p : ℕ} (hM : M.shape = [m, n]) (hN : N.shape = [n, p]) :
    dot M N = .ok (.mk2 m p fun i k => ∑ r ∈ range n, M.get [i, r] * N.get [r, k]) := by
  unfold dot; rw [hM, hN]; simp

theorem transpose_ok {M : NDArray K} {m n : ℕ} (hM : M.shape = [m, n]) :
    transpose M = .ok (.mk2 n m fun i j => M.get [j, i]) := by
  unfold transpose; rw [hM]

/-- The matrix represented at position `i`, as computed. -/
def matOf (c : Fact K) (k i : ℕ) (B : NDArray K) : NDArray K :=
  .mk2 (rows B) k fun j l => ∑ r ∈ range c.rank, B.get [j, r] * (c.A.get [i, r] * weightAt c.weights r) * c.C.get [l, r]

theorem toMatrix_ok {c : Fact K} {k : ℕ} (h : Good c k) {i : ℤ} {i' : ℕ} (hi : pyIndex c.Bs.length i = .ok i')
    {B : NDArray K} (hB : c.Bs[i']? = some B) : toMatrix c i = .ok (matOf c k i' B) := by
  have hBs := h.B B (List.mem_of_getElem? hB)
  unfold toMatrix
  rw [rowAt_ok h.A hi, transpose_ok h.C, listAt_ok hi hB]
  rcases hw : c.weights with _ | w
  · simp only [ok_bind, pure_eq_ok]
    rw [mulRow_ok hBs (mk1_shape _ _), ok_bind, dot_ok (mk2_shape _ _ _) (mk2_shape _ _ _)]
    simp only [mk1_get, mk2_get, matOf, weightAt, mul_one, hw]
  · simp only [ok_bind]
    rw [mulVec_ok (mk1_shape _ _) (h.w w hw)]
    simp only [ok_bind]
    rw [mulRow_ok hBs (mk1_shape _ _), ok_bind, dot_ok (mk2_shape _ _ _) (mk2_shape _ _ _)]
    simp only [mk1_get, mk2_get, matOf, weightAt, hw]

theorem toMatrix_err {c : Fact K} {k : ℕ} (h : Good c k) {i : ℤ} (hi : pyIndex c.Bs.length i = .error .indexError) :
    toMatrix c i = .error .indexError := by
  unfold toMatrix rowAt
  rw [h.A]
  simp [hi]

/-- Same matrix, after the weights have been multiplied into A. -/
theorem toMatrices_ok {c : Fact K} {k : ℕ} (h : Good c k) :
    ∃ ms, toMatrices c = .ok ms ∧ ms.length = c.Bs.length ∧
      ∀ i B, c.Bs[i]? = some B → ∃ M, ms[i]? = some M ∧ M.shape = [rows B, k] ∧
        ∀ j l, M.get [j, l] = (matOf c k i B).get [j, l] := by
  have key : ∀ (c' : Fact K), Good c' k → c'.Bs = c.Bs → c'.weights = none →
      ∃ ms, (List.range c.Bs.length).mapM (fun i => toMatrix c' ((i : ℕ) : ℤ)) = .ok ms ∧ ms.length = c.Bs.length ∧
      ∀ i B, c.Bs[i]? = some B → ms[i]? = some (matOf c' k i B) := by
    intro c' h' hB' hw'
    have := mapM_ok (fun i : ℕ => toMatrix c' (i : ℤ)) (fun i => matOf c' k i (c.Bs.getD i ⟨[], fun _ => 0⟩))
      (List.range c.Bs.length) ?_
    · refine ⟨_, this, by simp, ?_⟩
      intro i B hB
      have hi : i < c.Bs.length := by
        by_contra hc
        rw [List.getElem?_eq_none (by omega)] at hB
        simp at hB
      simp [hi]
      rw [List.getElem?_eq_getElem hi, Option.some.injEq] at hB
      rw [hB]
    · intro i hi
      have hi' := List.mem_range.1 hi
      refine toMatrix_ok h' (by rw [hB']; exact pyIndex_nat hi') ?_
      rw [hB', List.getElem?_eq_getElem hi']
      simp [hi']
  unfold toMatrices
  rcases hw : c.weights with _ | w
  · simp only [pure_eq_ok, ok_bind]
    rw [h.A]
    obtain ⟨ms, h1, h2, h3⟩ := key c h rfl hw
    refine ⟨ms, ?_, h2, fun i B hB => ⟨_, h3 i B hB, rfl, fun j l => rfl⟩⟩
    rw [← h1]
    obtain ⟨w, A, Bs, C, sh, R⟩ := c
    simp only at hw
    subst hw
    rfl
  · simp only
    rw [mulRow_ok h.A (h.w w hw)]
    simp only [ok_bind, mk2_shape]
    obtain ⟨ms, h1, h2, h3⟩ := key
      { c with weights := none, A := .mk2 c.Bs.length c.rank fun i j => c.A.get [i, j] * w.get [j] }
      ⟨rfl, h.C, h.B, by simp⟩ rfl rfl
    refine ⟨ms, h1, h2, fun i B hB => ⟨_, h3 i B hB, rfl, fun j l => ?_⟩⟩
    simp only [matOf, mk2_get, weightAt, mul_one, hw]

theorem matOf_repr (c : Fact K) (k i : ℕ) (B : NDArray K) (j l : ℕ) :
    (matOf c k i B).get [j, l] = reprEntry c.rank c.weights c.A B c.C i j l := by
  simp only [matOf, mk2_get, reprEntry]
  exact sum_congr rfl fun r _ => by ring

/-! Padding -/

theorem indexUpdate_ok {T M : NDArray K} {a b c i len : ℕ} (hT : T.shape = [a, b, c]) (hM : M.shape = [len, c])
    (hi : i < a) (hl : len ≤ b) : indexUpdate T i len M
      = .ok (.mk3 a b c fun i' j k => if i' = i ∧ j < len then M.get [j, k] else T.get [i', j, k]) := by
  unfold indexUpdate; rw [hT, hM]; simp [hi, hl]

theorem fillTensor_ok {a b c : ℕ} : ∀ (l : List (NDArray K × ℕ)) (i : ℕ) (T : NDArray K), T.shape = [a, b, c] →
    i + l.length ≤ a → (∀ p ∈ l, p.1.shape = [p.2, c] ∧ p.2 ≤ b) →
    ∃ T', fillTensor i T l = .ok T' ∧ T'.shape = [a, b, c] ∧
      (∀ i' j k, i' < i ∨ i + l.length ≤ i' → T'.get [i', j, k] = T.get [i', j, k]) ∧
      ∀ n p, l[n]? = some p → ∀ j k, T'.get [i + n, j, k] = if j < p.2 then p.1.get [j, k] else T.get [i + n, j, k]
  | [], i, T, hT, _, _ => ⟨T, rfl, hT, fun _ _ _ _ => rfl, by simp⟩
  | (M, len) :: l, i, T, hT, hi, hl => by
    have h0 := hl (M, len) (by simp)
    simp only [List.length_cons] at hi
    set T1 : NDArray K := .mk3 a b c fun i' j k => if i' = i ∧ j < len then M.get [j, k] else T.get [i', j, k]
      with hT1
    obtain ⟨T', h1, h2, h3, h4⟩ := fillTensor_ok l (i + 1) T1 rfl (by omega) (fun p hp => hl p (by simp [hp]))
    refine ⟨T', ?_, h2, ?_, ?_⟩
    · rw [fillTensor, indexUpdate_ok hT h0.1 (by omega) h0.2, ok_bind, h1]
    · intro i' j k hi'
      simp only [List.length_cons] at hi'
      rw [h3 i' j k (by omega), hT1, mk3_get, if_neg (by omega)]
    · intro n p hp j k
      cases n with
      | zero =>
        simp only [List.getElem?_cons_zero, Option.some.injEq] at hp
        subst hp
        rw [Nat.add_zero, h3 i j k (by omega), hT1, mk3_get]
        simp
      | succ n =>
        simp only [List.getElem?_cons_succ] at hp
        have := h4 n p hp j k
        rw [show i + (n + 1) = i + 1 + n by omega, this, hT1, mk3_get]
        rw [if_neg (c := i + 1 + n = i ∧ j < len) (by omega)]

theorem foldl_max (l : List ℕ) : ∀ a, l.foldl max a = max a (maxOf l) := by
  induction l with
  | nil => simp [maxOf]
  | cons b l ih => intro a; simp only [List.foldl_cons, ih, maxOf, List.foldr_cons]; omega

theorem pyMax_ok {l : List ℕ} (h : l ≠ []) : pyMax l = .ok (maxOf l) := by
  cases l with
  | nil => contradiction
  | cons a l => simp only [pyMax, foldl_max, maxOf, List.foldr_cons]

theorem le_maxOf {l : List ℕ} {a : ℕ} (h : a ∈ l) : a ≤ maxOf l := by
  induction l with
  | nil => simp at h
  | cons b l ih =>
    simp only [maxOf, List.foldr_cons] at *
    rcases List.mem_cons.1 h with rfl | h
    · omega
    · have := ih h; omega

theorem toTensor_ok {c : Fact K} {k : ℕ} (h : Good c k) (hne : c.Bs ≠ []) :
    ∃ T, toTensor c = .ok T ∧ T.shape = [c.Bs.length, maxOf (c.Bs.map rows), k] ∧
      ∀ i B, c.Bs[i]? = some B → ∀ j l, T.get [i, j, l] =
        if j < rows B then reprEntry c.rank c.weights c.A B c.C i j l else 0 := by
  obtain ⟨ms, h1, h2, h3⟩ := toMatrices_ok h
  have hlen : c.Bs.map (fun B => B.shape.getD 0 0) = c.Bs.map rows := by
    refine List.map_congr_left fun B hB => ?_
    rw [h.B B hB]; rfl
  unfold toTensor
  simp only [h1, ok_bind, hlen, h.A, h.C, List.getD_cons_zero]
  rw [pyMax_ok (by simpa using hne), ok_bind]
  have hz : ∀ (n : ℕ) (p : NDArray K × ℕ), (ms.zip (c.Bs.map rows))[n]? = some p → ∃ B, c.Bs[n]? = some B ∧
      p.2 = rows B ∧ p.1.shape = [rows B, k] ∧ ∀ j l, p.1.get [j, l] = (matOf c k n B).get [j, l] := by
    intro n p hp
    rw [List.getElem?_zip_eq_some] at hp
    obtain ⟨hp1, hp2⟩ := hp
    rw [List.getElem?_map, Option.map_eq_some_iff] at hp2
    obtain ⟨B, hB, hp2⟩ := hp2
    obtain ⟨M, hM, hM2, hM3⟩ := h3 n B hB
    rw [hM] at hp1
    simp only [Option.some.injEq] at hp1
    subst hp1
    exact ⟨B, hB, hp2.symm, hM2, hM3⟩
  obtain ⟨T, g1, g2, -, g4⟩ := fillTensor_ok (ms.zip (c.Bs.map rows)) 0
    (zeros3 c.Bs.length (maxOf (c.Bs.map rows)) k) rfl (by simp [h2]) (by
      intro p hp
      obtain ⟨n, hn⟩ := List.mem_iff_getElem?.1 hp
      obtain ⟨B, hB, e1, e2, -⟩ := hz n p hn
      rw [e1, e2]
      exact ⟨rfl, le_maxOf (List.mem_map.2 ⟨B, List.mem_of_getElem? hB, rfl⟩)⟩)
  refine ⟨T, g1, g2, ?_⟩
  intro i B hB j l
  obtain ⟨M, hM, hM2, hM3⟩ := h3 i B hB
  have := g4 i (M, rows B) (by rw [List.getElem?_zip_eq_some]; simp [hM, hB]) j l
  rw [Nat.zero_add] at this
  rw [this, hM3, matOf_repr]
  simp [zeros3]

theorem toTensor_empty {c : Fact K} {k : ℕ} (h : Good c k) (hne : c.Bs = []) : toTensor c = .error .valueError := by
  obtain ⟨ms, h1, -, -⟩ := toMatrices_ok h
  unfold toTensor
  simp [h1, hne, pyMax]

/-! `create_padded_tensor` -/

theorem paddedFold_ok {k : ℕ} : ∀ (ms : List (NDArray K)) (a : ℕ), (∀ M ∈ ms, M.shape = [rows M, k]) →
    ms.foldlM (padStep k) a = .ok (max a (maxOf (ms.map rows)))
  | [], a, _ => by simp [maxOf]
  | M :: ms, a, h => by
    rw [List.foldlM_cons, padStep, h M (by simp)]
    simp only [ne_eq, not_true_eq_false, if_false, ok_bind]
    rw [paddedFold_ok ms _ (fun N hN => h N (by simp [hN]))]
    simp only [List.map_cons, maxOf, List.foldr_cons]
    congr 1
    omega

theorem paddedFold_err {k : ℕ} : ∀ (ms : List (NDArray K)) (a : ℕ), (∀ M ∈ ms, ∃ n, M.shape = [rows M, n]) →
    (∃ M ∈ ms, ∃ n, M.shape = [rows M, n] ∧ n ≠ k) →
    ms.foldlM (padStep k) a = .error .valueError
  | [], a, _, h => by simp at h
  | M :: ms, a, h, h' => by
    obtain ⟨n, hn⟩ := h M (by simp)
    rw [List.foldlM_cons, padStep, hn]
    simp only
    by_cases hk : n = k
    · simp only [hk, ne_eq, not_true_eq_false, if_false, ok_bind]
      refine paddedFold_err ms _ (fun N hN => h N (by simp [hN])) ?_
      obtain ⟨N, hN, n', hn', hk'⟩ := h'
      rcases List.mem_cons.1 hN with rfl | hN
      · rw [hn] at hn'; simp only [List.cons.injEq, and_true, true_and] at hn'; omega
      · exact ⟨N, hN, n', hn', hk'⟩
    · simp [hk]

theorem padded_ok {ms : List (NDArray K)} {k : ℕ} (hne : ms ≠ []) (h : ∀ M ∈ ms, M.shape = [rows M, k]) :
    ∃ T, createPaddedTensor ms = .ok T ∧ T.shape = [ms.length, maxOf (ms.map rows), k] ∧
      ∀ i M, ms[i]? = some M → ∀ j l, T.get [i, j, l] = if j < rows M then M.get [j, l] else 0 := by
  have hsh : paddedShape ms = .ok (ms.length, maxOf (ms.map rows), k) := by
    unfold paddedShape
    cases ms with
    | nil => contradiction
    | cons M ms =>
      simp only
      rw [h M (by simp)]
      simp only [List.getElem?_cons_succ, List.getElem?_cons_zero]
      rw [paddedFold_ok (M :: ms) 0 h]
      simp
  unfold createPaddedTensor
  rw [hsh, ok_bind]
  obtain ⟨T, g1, g2, -, g4⟩ := fillTensor_ok (ms.map fun M => (M, M.shape.getD 0 0)) 0
    (zeros3 ms.length (maxOf (ms.map rows)) k) rfl (by simp) (by
      intro p hp
      obtain ⟨M, hM, rfl⟩ := List.mem_map.1 hp
      simp only [h M hM, List.getD_cons_zero, true_and]
      exact le_maxOf (List.mem_map.2 ⟨M, hM, rfl⟩))
  refine ⟨T, g1, g2, ?_⟩
  intro i M hM j l
  have := g4 i (M, M.shape.getD 0 0) (by simp [hM]) j l
  rw [Nat.zero_add] at this
  rw [this]
  have hd : M.shape.getD 0 0 = rows M := by rw [h M (List.mem_of_getElem? hM)]; rfl
  simp only [hd]
  simp [zeros3]

theorem padded_err {ms : List (NDArray K)} (h : ∀ M ∈ ms, ∃ n, M.shape = [rows M, n])
    (h' : ∃ M ∈ ms, ∃ N ∈ ms, M.shape.getD 1 0 ≠ N.shape.getD 1 0) :
    createPaddedTensor ms = .error .valueError := by
  have hsh : paddedShape ms = .error .valueError := by
    unfold paddedShape
    cases ms with
    | nil => simp at h'
    | cons M ms =>
      obtain ⟨k, hk⟩ := h M (by simp)
      simp only
      rw [hk]
      simp only [List.getElem?_cons_succ, List.getElem?_cons_zero]
      rw [paddedFold_err (M :: ms) 0 h, error_bind]
      obtain ⟨P, hP, N, hN, hne⟩ := h'
      obtain ⟨p, hp⟩ := h P hP
      obtain ⟨n, hn⟩ := h N hN
      rw [hp, hn] at hne
      simp only [List.getD_cons_succ, List.getD_cons_zero] at hne
      by_cases hpk : p = k
      · exact ⟨N, hN, n, hn, by omega⟩
      · exact ⟨P, hP, p, hp, hpk⟩
  unfold createPaddedTensor
  rw [hsh, error_bind]

/-! Concatenation -/

theorem concatRowsAux {k : ℕ} : ∀ (l : List (NDArray K)) (acc : NDArray K) (m : ℕ), acc.shape = [m, k] →
    (∀ M ∈ l, M.shape = [rows M, k]) →
    ∃ M, l.foldlM concatRows2 acc = .ok M ∧ M.shape = [m + (l.map rows).sum, k] ∧
      (∀ j q, j < m → M.get [j, q] = acc.get [j, q]) ∧
      ∀ i N, l[i]? = some N → ∀ j q, j < rows N → M.get [m + ((l.take i).map rows).sum + j, q] = N.get [j, q]
  | [], acc, m, hacc, _ => ⟨acc, rfl, by simpa using hacc, fun _ _ _ => rfl, by simp⟩
  | N :: l, acc, m, hacc, h => by
    have hN := h N (by simp)
    set acc1 : NDArray K := .mk2 (m + rows N) k fun i q => if i < m then acc.get [i, q] else N.get [i - m, q] with e1
    obtain ⟨M, h1, h2, h3, h4⟩ := concatRowsAux l acc1 (m + rows N) rfl (fun P hP => h P (by simp [hP]))
    refine ⟨M, ?_, ?_, ?_, ?_⟩
    · rw [List.foldlM_cons]
      have : concatRows2 acc N = .ok acc1 := by unfold concatRows2; rw [hacc, hN]; simp [e1]
      rw [this, ok_bind, h1]
    · rw [h2]; simp [add_assoc]
    · intro j q hj
      rw [h3 j q (by omega), e1, mk2_get, if_pos hj]
    · intro i P hP j q hj
      cases i with
      | zero =>
        simp only [List.getElem?_cons_zero, Option.some.injEq] at hP
        subst hP
        simp only [List.take_zero, List.map_nil, List.sum_nil, Nat.add_zero]
        rw [h3 _ q (by omega), e1, mk2_get, if_neg (by omega)]
        congr 2; omega
      | succ i =>
        simp only [List.getElem?_cons_succ] at hP
        have := h4 i P hP j q hj
        rw [← this]
        simp [add_assoc]

theorem concatRows_ok {k : ℕ} {l : List (NDArray K)} (hne : l ≠ []) (h : ∀ M ∈ l, M.shape = [rows M, k]) :
    ∃ M, concatRows l = .ok M ∧ M.shape = [(l.map rows).sum, k] ∧
      ∀ i N, l[i]? = some N → ∀ j q, j < rows N → M.get [((l.take i).map rows).sum + j, q] = N.get [j, q] := by
  cases l with
  | nil => contradiction
  | cons P l =>
    obtain ⟨M, h1, h2, h3, h4⟩ := concatRowsAux l P (rows P) (h P (by simp)) (fun Q hQ => h Q (by simp [hQ]))
    refine ⟨M, h1, by simpa using h2, ?_⟩
    intro i N hN j q hj
    cases i with
    | zero =>
      simp only [List.getElem?_cons_zero, Option.some.injEq] at hN
      subst hN
      simpa using h3 j q hj
    | succ i =>
      simp only [List.getElem?_cons_succ] at hN
      simpa using h4 i N hN j q hj

theorem concatVecAux : ∀ (l : List (NDArray K)) (acc : NDArray K) (m : ℕ), acc.shape = [m] →
    (∀ v ∈ l, v.shape = [rows v]) →
    ∃ v, l.foldlM concatVec2 acc = .ok v ∧ v.shape = [m + (l.map rows).sum] ∧
      (∀ j, j < m → v.get [j] = acc.get [j]) ∧
      ∀ i u, l[i]? = some u → ∀ j, j < rows u → v.get [m + ((l.take i).map rows).sum + j] = u.get [j]
  | [], acc, m, hacc, _ => ⟨acc, rfl, by simpa using hacc, fun _ _ => rfl, by simp⟩
  | N :: l, acc, m, hacc, h => by
    have hN := h N (by simp)
    set acc1 : NDArray K := .mk1 (m + rows N) fun i => if i < m then acc.get [i] else N.get [i - m] with e1
    obtain ⟨M, h1, h2, h3, h4⟩ := concatVecAux l acc1 (m + rows N) rfl (fun P hP => h P (by simp [hP]))
    refine ⟨M, ?_, ?_, ?_, ?_⟩
    · rw [List.foldlM_cons]
      have : concatVec2 acc N = .ok acc1 := by unfold concatVec2; rw [hacc, hN]
      rw [this, ok_bind, h1]
    · rw [h2]; simp [add_assoc]
    · intro j hj
      rw [h3 j (by omega), e1, mk1_get, if_pos hj]
    · intro i P hP j hj
      cases i with
      | zero =>
        simp only [List.getElem?_cons_zero, Option.some.injEq] at hP
        subst hP
        simp only [List.take_zero, List.map_nil, List.sum_nil, Nat.add_zero]
        rw [h3 _ (by omega), e1, mk1_get, if_neg (by omega)]
        congr 2; omega
      | succ i =>
        simp only [List.getElem?_cons_succ] at hP
        have := h4 i P hP j hj
        rw [← this]
        simp [add_assoc]

theorem concatVec_ok {l : List (NDArray K)} (hne : l ≠ []) (h : ∀ v ∈ l, v.shape = [rows v]) :
    ∃ v, concatVec l = .ok v ∧ v.shape = [(l.map rows).sum] ∧
      ∀ i u, l[i]? = some u → ∀ j, j < rows u → v.get [((l.take i).map rows).sum + j] = u.get [j] := by
  cases l with
  | nil => contradiction
  | cons P l =>
    obtain ⟨M, h1, h2, h3, h4⟩ := concatVecAux l P (rows P) (h P (by simp)) (fun Q hQ => h Q (by simp [hQ]))
    refine ⟨M, h1, by simpa using h2, ?_⟩
    intro i N hN j hj
    cases i with
    | zero =>
      simp only [List.getElem?_cons_zero, Option.some.injEq] at hN
      subst hN
      simpa using h3 j hj
    | succ i =>
      simp only [List.getElem?_cons_succ] at hN
      simpa using h4 i N hN j hj

end Verif.CMF
