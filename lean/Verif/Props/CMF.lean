import Mathlib.Data.Rat.Defs
import Verif.CMF.Convert

/-!
# C06-C13: the factorization class and its conversions
-/

set_option linter.unusedSectionVars false

namespace Verif.Props

open Verif.CMF Verif.Spec Finset

/-! ## C07 -/

section
variable {K : Type}

/-- C07, acceptance: the constructor succeeds exactly for the well-shaped candidates; `shape` and `rank` are the
shapes of the represented matrices and the number of components. -/
theorem C07_accepts_iff (x : CMFArg K) (c : Fact K) : construct x = .ok c ↔
    IsFactorization x c.weights c.A c.Bs c.C c.rank ∧
      c.shape = c.Bs.map (fun B => (B.shape.headD 0, c.C.shape.headD 0)) := construct_ok

/-- C07, rejection: the only exceptions are TypeError, raised only if some component is of the wrong kind, and
ValueError, raised only if some shape is wrong. -/
theorem C07_rejects (x : CMFArg K) (e : PyErr) (h : construct x = .error e) :
    (e = .typeError ∧ WrongKind x) ∨ (e = .valueError ∧ WrongShape x) := construct_error h

/-- C07, rejection: a candidate with a wrong kind and no wrong shape raises TypeError, one with a wrong shape and no
wrong kind raises ValueError, and one with either is never accepted. -/
theorem C07_rejects_wrong (x : CMFArg K) :
    (WrongKind x → ¬ WrongShape x → construct x = .error .typeError) ∧
    (WrongShape x → ¬ WrongKind x → construct x = .error .valueError) ∧
    (WrongKind x ∨ WrongShape x → ∀ c, construct x ≠ .ok c) := by
  have h : WrongKind x ∨ WrongShape x → ∀ c, construct x ≠ .ok c := by
    intro hw c hc
    have := not_wrong (construct_ok.1 hc).1
    tauto
  refine ⟨fun h1 h2 => ?_, fun h1 h2 => ?_, h⟩
  all_goals
    rcases hc : construct x with e | c
    · have := construct_error hc
      rcases this with ⟨rfl, h'⟩ | ⟨rfl, h'⟩ <;> first | rfl | contradiction
    · exact absurd hc (h (by tauto) c)

/-- Non-trivial case of C07: two matrices with different numbers of rows, rank 2, with weights. -/
example : ∃ c, construct (K := ℚ) ⟨.tensor (.mk1 2 fun r => r + 1), .tensor (.mk2 2 2 fun i r => i + r),
    .list [.tensor (.mk2 3 2 fun j r => j * r), .tensor (.mk2 1 2 fun _ _ => 5)],
    .tensor (.mk2 4 2 fun k r => k - r)⟩ = .ok c ∧ c.shape = [(3, 4), (1, 4)] ∧ c.rank = 2 :=
  ⟨_, rfl, rfl, rfl⟩

/-- The tensor case: `B_is` may be a third-order tensor. -/
example : ∃ c, construct (K := ℚ) ⟨.none, .tensor (.mk2 2 2 fun i r => i + r), .tensor (.mk3 2 3 2 fun i j r => i * j + r),
    .tensor (.mk2 4 2 fun k r => k - r)⟩ = .ok c ∧ c.shape = [(3, 4), (3, 4)] := ⟨_, rfl, rfl⟩

example : WrongShape (K := ℚ) ⟨.none, .tensor (.mk2 2 2 fun i r => i + r), .list [], .tensor (.mk2 4 2 fun k r => k - r)⟩ := by
  refine Or.inr (Or.inr (Or.inr (Or.inr (Or.inr (Or.inr (Or.inr ⟨_, 2, 2, [], rfl, rfl, .list [], by simp⟩))))))

end

variable {K : Type} [Field K]

/-! ## C06 -/

/-- C06, the list of matrices. -/
theorem C06_matrices {x : CMFArg K} {c : Fact K} (h : construct x = .ok c) :
    ∃ ms, toMatrices c = .ok ms ∧ toSlices c = .ok ms ∧ ms.length = c.Bs.length ∧
      ∀ i B, c.Bs[i]? = some B → ∃ M, ms[i]? = some M ∧
        IsMat M (rows B) (rows c.C) (reprEntry c.rank c.weights c.A B c.C i) := by
  obtain ⟨ms, h1, h2, h3⟩ := toMatrices_ok (good_of_construct h)
  refine ⟨ms, h1, h1, h2, fun i B hB => ?_⟩
  obtain ⟨M, h4, h5, h6⟩ := h3 i B hB
  exact ⟨M, h4, h5, fun j _ l _ => by rw [h6, matOf_repr]⟩

/-- C06, one matrix: an index `i` with `-n ≤ i < n` gives the matrix of that number counted from the start or from the end; any other
index raises IndexError. -/
theorem C06_matrix {x : CMFArg K} {c : Fact K} (h : construct x = .ok c) (i : ℤ) :
    (∀ (n : ℕ) (B : NDArray K), c.Bs[n]? = some B → (i = n ∨ i = (n : ℤ) - c.Bs.length) →
      ∃ M, toMatrix c i = .ok M ∧ toSlice c i = .ok M ∧
        IsMat M (rows B) (rows c.C) (reprEntry c.rank c.weights c.A B c.C n)) ∧
    ((i < -(c.Bs.length : ℤ) ∨ (c.Bs.length : ℤ) ≤ i) →
      toMatrix c i = .error .indexError ∧ toSlice c i = .error .indexError) := by
  have g := good_of_construct h
  constructor
  · intro n B hB hi
    have hn : n < c.Bs.length := (List.getElem?_eq_some_iff.1 hB).1
    have hp : pyIndex c.Bs.length i = .ok n := by
      unfold pyIndex
      rcases hi with rfl | rfl
      · simp [hn]
      · rw [if_neg (by omega), if_pos (by omega)]
        congr 1; omega
    refine ⟨_, toMatrix_ok g hp hB, toMatrix_ok g hp hB, rfl, fun j _ l _ => matOf_repr ..⟩
  · intro hi
    have hp : pyIndex c.Bs.length i = .error .indexError := by
      unfold pyIndex
      rw [if_neg (by omega), if_neg (by omega)]
    exact ⟨toMatrix_err g hp, toMatrix_err g hp⟩

/-! ## C08 -/

/-- C08. -/
theorem C08_tensor {x : CMFArg K} {c : Fact K} (h : construct x = .ok c) (hne : c.Bs ≠ []) :
    ∃ T, toTensor c = .ok T ∧ T.shape = [c.Bs.length, maxOf (c.Bs.map rows), rows c.C] ∧
      ∀ i B, c.Bs[i]? = some B → ∀ j k, k < rows c.C →
        (j < rows B → T.get [i, j, k] = reprEntry c.rank c.weights c.A B c.C i j k) ∧
        (rows B ≤ j → j < maxOf (c.Bs.map rows) → T.get [i, j, k] = 0) := by
  obtain ⟨T, h1, h2, h3⟩ := toTensor_ok (good_of_construct h) hne
  refine ⟨T, h1, h2, fun i B hB j k _ => ⟨fun hj => ?_, fun hj _ => ?_⟩⟩
  · rw [h3 i B hB, if_pos hj]
  · rw [h3 i B hB, if_neg (by omega)]

/-- C08: padding the list of matrices gives the same tensor. -/
theorem C08_padded {x : CMFArg K} {c : Fact K} (h : construct x = .ok c) (hne : c.Bs ≠ []) :
    ∃ ms T T', toMatrices c = .ok ms ∧ toTensor c = .ok T ∧ createPaddedTensor ms = .ok T' ∧ T'.shape = T.shape ∧
      ∀ i j k, i < c.Bs.length → T'.get [i, j, k] = T.get [i, j, k] := by
  have g := good_of_construct h
  obtain ⟨T, h1, h2, h3⟩ := toTensor_ok g hne
  obtain ⟨ms, m1, m2, m3⟩ := toMatrices_ok g
  have hrows : ∀ (i : ℕ) (M : NDArray K), ms[i]? = some M → ∃ B, c.Bs[i]? = some B ∧ M.shape = [rows B, rows c.C] ∧
      ∀ j l, M.get [j, l] = reprEntry c.rank c.weights c.A B c.C i j l := by
    intro i M hM
    have hi : i < c.Bs.length := by rw [← m2]; exact (List.getElem?_eq_some_iff.1 hM).1
    obtain ⟨M', a, b, d⟩ := m3 i _ (List.getElem?_eq_getElem hi)
    rw [hM] at a
    simp only [Option.some.injEq] at a
    subst a
    exact ⟨_, List.getElem?_eq_getElem hi, b, fun j l => by rw [d, matOf_repr]⟩
  have hrows' : ms.map rows = c.Bs.map rows := by
    apply List.ext_getElem?
    intro i
    simp only [List.getElem?_map]
    rcases hM : ms[i]? with _ | M
    · have : c.Bs[i]? = none := by
        rw [List.getElem?_eq_none_iff] at *; omega
      rw [this]
    · obtain ⟨B, hB, hs, -⟩ := hrows i M hM
      rw [hB]
      simp [rows, hs]
  obtain ⟨T', p1, p2, p3⟩ := padded_ok (ms := ms) (k := rows c.C) (by
      intro h0; rw [h0] at m2; exact hne (by simpa using m2.symm)) (by
      intro M hM
      obtain ⟨i, hi⟩ := List.mem_iff_getElem?.1 hM
      obtain ⟨B, hB, hs, -⟩ := hrows i M hi
      rw [hs]; simp [rows, hs])
  refine ⟨ms, T, T', m1, h1, p1, by rw [p2, h2, m2, hrows'], ?_⟩
  intro i j k hi
  obtain ⟨M, hM⟩ : ∃ M, ms[i]? = some M := ⟨_, List.getElem?_eq_getElem (by omega)⟩
  obtain ⟨B, hB, hs, he⟩ := hrows i M hM
  rw [p3 i M hM, h3 i B hB, he]
  have : rows M = rows B := by simp [rows, hs]
  rw [this]

/-- C08, the excluded case: a factorization of zero matrices has no dense tensor. -/
theorem C08_empty {x : CMFArg K} {c : Fact K} (h : construct x = .ok c) (hne : c.Bs = []) :
    toTensor c = .error .valueError := toTensor_empty (good_of_construct h) hne

/-- Non-trivial case of C06-C09: entry `[0, 1, 1]` and a padded entry of a ragged weighted factorization. -/
example : ∃ c T, construct (K := ℚ) ⟨.tensor (.mk1 2 fun r => r + 1), .tensor (.mk2 2 2 fun i r => i + r),
    .list [.tensor (.mk2 3 2 fun j r => j * r), .tensor (.mk2 1 2 fun _ _ => 5)],
    .tensor (.mk2 4 2 fun k r => k - r)⟩ = .ok c ∧ c.Bs ≠ [] ∧ toTensor c = .ok T ∧ T.get [0, 2, 3] = 8 ∧ T.get [1, 2, 3] = 0 := by
  refine ⟨_, _, rfl, by simp, rfl, by decide +kernel, by decide +kernel⟩

/-! ## C09 -/

theorem div_pos_eq {a b c : ℕ} (h : b < c) : (a * c + b) / c = a ∧ (a * c + b) % c = b := by
  have hc : 0 < c := by omega
  constructor
  · rw [mul_comm, Nat.mul_add_div hc, Nat.div_eq_of_lt h, Nat.add_zero]
  · rw [mul_comm, Nat.mul_add_mod, Nat.mod_eq_of_lt h]

/-- C09, padded unfoldings. `T` is the dense tensor of C08. Entry `(i, j, k)` is at `[i, j*K + k]`, `[j, i*K + k]` and `[k, i*J + j]`
of the unfoldings along modes 0, 1, 2 (these are all positions). -/
theorem C09_unfolded {x : CMFArg K} {c : Fact K} (h : construct x = .ok c) (hne : c.Bs ≠ []) :
    ∃ T, toTensor c = .ok T ∧
      (∃ U, toUnfolded c 0 true = .ok U ∧ U.shape = [c.Bs.length, maxOf (c.Bs.map rows) * rows c.C] ∧
        ∀ i j k, k < rows c.C → U.get [i, j * rows c.C + k] = T.get [i, j, k]) ∧
      (maxOf (c.Bs.map rows) ≠ 0 → ∃ U, toUnfolded c 1 true = .ok U ∧
        U.shape = [maxOf (c.Bs.map rows), c.Bs.length * rows c.C] ∧
        ∀ i j k, k < rows c.C → U.get [j, i * rows c.C + k] = T.get [i, j, k]) ∧
      (rows c.C ≠ 0 → ∃ U, toUnfolded c 2 true = .ok U ∧
        U.shape = [rows c.C, c.Bs.length * maxOf (c.Bs.map rows)] ∧
        ∀ i j k, j < maxOf (c.Bs.map rows) → U.get [k, i * maxOf (c.Bs.map rows) + j] = T.get [i, j, k]) ∧
      (∀ mode, mode < -3 ∨ 2 < mode → toUnfolded c mode true = .error .valueError) := by
  obtain ⟨T, h1, h2, -⟩ := toTensor_ok (good_of_construct h) hne
  have hl : c.Bs.length ≠ 0 := by simpa using hne
  refine ⟨T, h1, ?_, ?_, ?_, ?_⟩
  · refine ⟨.mk2 c.Bs.length (maxOf (c.Bs.map rows) * rows c.C) fun i p => T.get [i, p / rows c.C, p % rows c.C],
      ?_, rfl, ?_⟩
    · simp only [toUnfolded, if_true, h1, ok_bind, unfold, h2]
      simp [hne]
    · intro i j k hk
      rw [mk2_get, (div_pos_eq hk).1, (div_pos_eq hk).2]
  · intro hJ
    refine ⟨.mk2 (maxOf (c.Bs.map rows)) (c.Bs.length * rows c.C) fun j p => T.get [p / rows c.C, j, p % rows c.C],
      ?_, rfl, ?_⟩
    · simp only [toUnfolded, if_true, h1, ok_bind, unfold, h2]
      simp [hJ]
    · intro i j k hk
      rw [mk2_get, (div_pos_eq hk).1, (div_pos_eq hk).2]
  · intro hK
    refine ⟨.mk2 (rows c.C) (c.Bs.length * maxOf (c.Bs.map rows))
      fun k p => T.get [p / maxOf (c.Bs.map rows), p % maxOf (c.Bs.map rows), k], ?_, rfl, ?_⟩
    · simp only [toUnfolded, if_true, h1, ok_bind, unfold, h2]
      simp [hK]
    · intro i j k hk
      rw [mk2_get, (div_pos_eq hk).1, (div_pos_eq hk).2]
  · intro mode hm
    simp only [toUnfolded, if_true, h1, ok_bind, unfold, h2]
    rw [if_neg (by omega), if_neg (by omega), if_neg (by omega)]

/-- C09, the other modes: a negative mode counts from the end, and an unfolding along a mode without any entries raises ValueError. -/
theorem C09_modes {x : CMFArg K} {c : Fact K} (h : construct x = .ok c) (hne : c.Bs ≠ []) :
    (∀ m : ℕ, 1 ≤ m → m ≤ 3 → toUnfolded c (-(m : ℤ)) true = toUnfolded c (3 - m) true) ∧
    (maxOf (c.Bs.map rows) = 0 → toUnfolded c 1 true = .error .valueError) ∧
    (rows c.C = 0 → toUnfolded c 2 true = .error .valueError) := by
  obtain ⟨T, h1, h2, -⟩ := toTensor_ok (good_of_construct h) hne
  refine ⟨fun m hm hm' => ?_, fun hJ => ?_, fun hK => ?_⟩
  · obtain rfl | rfl | rfl : m = 1 ∨ m = 2 ∨ m = 3 := by omega
    all_goals simp only [toUnfolded, if_true, h1, ok_bind, unfold, h2]; norm_num
  · simp only [toUnfolded, if_true, h1, ok_bind, unfold, h2]
    simp [hJ]
  · simp only [toUnfolded, if_true, h1, ok_bind, unfold, h2]
    simp [hK]

/-- C09, padded vector: entry `(i, j, k)` is at position `(i*J + j)*K + k`. -/
theorem C09_vec {x : CMFArg K} {c : Fact K} (h : construct x = .ok c) (hne : c.Bs ≠ []) :
    ∃ T v, toTensor c = .ok T ∧ toVec c true = .ok v ∧
      v.shape = [c.Bs.length * maxOf (c.Bs.map rows) * rows c.C] ∧
      ∀ i j k, j < maxOf (c.Bs.map rows) → k < rows c.C →
        v.get [(i * maxOf (c.Bs.map rows) + j) * rows c.C + k] = T.get [i, j, k] := by
  obtain ⟨T, h1, h2, -⟩ := toTensor_ok (good_of_construct h) hne
  refine ⟨T, .mk1 (c.Bs.length * maxOf (c.Bs.map rows) * rows c.C) fun p =>
      T.get [p / (maxOf (c.Bs.map rows) * rows c.C), p % (maxOf (c.Bs.map rows) * rows c.C) / rows c.C,
        p % (maxOf (c.Bs.map rows) * rows c.C) % rows c.C], h1, ?_, rfl, ?_⟩
  · simp only [toVec, if_true, h1, ok_bind, tensorToVec, h2]
  · intro i j k hj hk
    rw [mk1_get]
    set J := maxOf (c.Bs.map rows)
    set Kc := rows c.C
    have e : (i * J + j) * Kc + k = i * (J * Kc) + (j * Kc + k) := by ring
    have hlt : j * Kc + k < J * Kc := by
      calc j * Kc + k < j * Kc + Kc := by omega
        _ = (j + 1) * Kc := by ring
        _ ≤ J * Kc := Nat.mul_le_mul_right _ hj
    rw [e, (div_pos_eq hlt).1, (div_pos_eq hlt).2, (div_pos_eq hk).1, (div_pos_eq hk).2]

theorem mats_shape {c : Fact K} {k : ℕ} (_ : Good c k) {ms : List (NDArray K)} (h2 : ms.length = c.Bs.length)
    (h3 : ∀ i B, c.Bs[i]? = some B → ∃ M, ms[i]? = some M ∧ M.shape = [rows B, k] ∧
        ∀ j l, M.get [j, l] = (matOf c k i B).get [j, l]) :
    (∀ M ∈ ms, M.shape = [rows M, k]) ∧ ms.map rows = c.Bs.map rows := by
  have key : ∀ (i : ℕ) (M : NDArray K), ms[i]? = some M → ∃ B, c.Bs[i]? = some B ∧ M.shape = [rows B, k] := by
    intro i M hM
    have hi : i < c.Bs.length := by rw [← h2]; exact (List.getElem?_eq_some_iff.1 hM).1
    obtain ⟨M', a, b, -⟩ := h3 i _ (List.getElem?_eq_getElem hi)
    rw [hM] at a
    simp only [Option.some.injEq] at a
    subst a
    exact ⟨_, List.getElem?_eq_getElem hi, b⟩
  constructor
  · intro M hM
    obtain ⟨i, hi⟩ := List.mem_iff_getElem?.1 hM
    obtain ⟨B, hB, hs⟩ := key i M hi
    rw [hs]; simp [rows, hs]
  · apply List.ext_getElem?
    intro i
    simp only [List.getElem?_map]
    rcases hM : ms[i]? with _ | M
    · have : c.Bs[i]? = none := by
        rw [List.getElem?_eq_none_iff] at *; omega
      rw [this]
    · obtain ⟨B, hB, hs⟩ := key i M hM
      rw [hB]
      simp [rows, hs]

/-- C09 without padding, mode 2: entry `(j, k)` of matrix `i` is at `[k, J_0 + ... + J_(i-1) + j]`; the matrix has
`J_0 + ... + J_(I-1)` columns. Modes other than 2 raise ValueError. -/
theorem C09_unfolded_nopad {x : CMFArg K} {c : Fact K} (h : construct x = .ok c) (hne : c.Bs ≠ []) :
    (∃ U, toUnfolded c 2 false = .ok U ∧ U.shape = [rows c.C, (c.Bs.map rows).sum] ∧
      ∀ i B, c.Bs[i]? = some B → ∀ j k, j < rows B → k < rows c.C →
        U.get [k, ((c.Bs.take i).map rows).sum + j] = reprEntry c.rank c.weights c.A B c.C i j k) ∧
    ∀ mode, mode ≠ 2 → toUnfolded c mode false = .error .valueError := by
  have g := good_of_construct h
  obtain ⟨ms, m1, m2, m3⟩ := toMatrices_ok g
  obtain ⟨s1, s2⟩ := mats_shape g m2 m3
  constructor
  · obtain ⟨M, h1, h2, h3⟩ := concatRows_ok (l := ms) (by
      intro h0; rw [h0] at m2; exact hne (by simpa using m2.symm)) s1
    refine ⟨.mk2 (rows c.C) ((ms.map rows).sum) fun i j => M.get [j, i], ?_, by rw [mk2_shape, s2], ?_⟩
    · simp only [toUnfolded, m1, ok_bind, h1, transpose_ok h2]
      simp
    · intro i B hB j k hj hk
      obtain ⟨N, n1, n2, n3⟩ := m3 i B hB
      have hr : rows N = rows B := by simp [rows, n2]
      have := h3 i N n1 j k (by omega)
      rw [List.map_take, s2] at this
      rw [mk2_get, List.map_take, this, n3, matOf_repr]
  · intro mode hm
    simp [toUnfolded, hm]

/-- C09 without padding, vector: entry `(j, k)` of matrix `i` is at `(J_0 + ... + J_(i-1))*K + j*K + k`. -/
theorem C09_vec_nopad {x : CMFArg K} {c : Fact K} (h : construct x = .ok c) (hne : c.Bs ≠ []) :
    ∃ v, toVec c false = .ok v ∧ v.shape = [(c.Bs.map rows).sum * rows c.C] ∧
      ∀ i B, c.Bs[i]? = some B → ∀ j k, j < rows B → k < rows c.C →
        v.get [((c.Bs.take i).map rows).sum * rows c.C + (j * rows c.C + k)]
          = reprEntry c.rank c.weights c.A B c.C i j k := by
  have g := good_of_construct h
  obtain ⟨ms, m1, m2, m3⟩ := toMatrices_ok g
  obtain ⟨s1, s2⟩ := mats_shape g m2 m3
  set q := rows c.C with hq
  set rv : NDArray K → NDArray K := fun M => .mk1 (rows M * q) fun p => M.get [p / q, p % q] with hrv
  have hmap : ms.mapM ravel = .ok (ms.map rv) := by
    apply mapM_ok
    intro M hM
    unfold ravel
    rw [s1 M hM]
  have hrows : ∀ l : List (NDArray K), ((l.map rv).map rows).sum = (l.map rows).sum * q := by
    intro l
    induction l with
    | nil => simp
    | cons M l ih =>
      simp only [List.map_cons, List.sum_cons, ih, add_mul]
      rfl
  obtain ⟨v, h1, h2, h3⟩ := concatVec_ok (l := ms.map rv) (by
      intro h0
      have : ms = [] := by simpa using h0
      rw [this] at m2; exact hne (by simpa using m2.symm)) (by
      intro u hu
      obtain ⟨M, -, rfl⟩ := List.mem_map.1 hu
      rfl)
  refine ⟨v, ?_, ?_, ?_⟩
  · simp [toVec, m1, hmap, h1]
  · rw [h2, hrows, s2]
  · intro i B hB j k hj hk
    obtain ⟨N, n1, n2, n3⟩ := m3 i B hB
    have hr : rows N = rows B := by simp [rows, n2]
    have hlt : j * q + k < rows N * q := by
      calc j * q + k < j * q + q := by omega
        _ = (j + 1) * q := by ring
        _ ≤ rows N * q := Nat.mul_le_mul_right _ (by omega)
    have := h3 i (rv N) (by simp [n1]) (j * q + k) hlt
    rw [← List.map_take, hrows, List.map_take, s2, ← List.map_take] at this
    rw [this, hrv, mk1_get, (div_pos_eq hk).1, (div_pos_eq hk).2, n3, matOf_repr]

/-! ## C13 -/

/-- C13, shape and entries. -/
theorem C13_padded {ms : List (NDArray K)} {k : ℕ} (hne : ms ≠ []) (h : ∀ M ∈ ms, M.shape = [rows M, k]) :
    ∃ T, createPaddedTensor ms = .ok T ∧ T.shape = [ms.length, maxOf (ms.map rows), k] ∧
      ∀ i M, ms[i]? = some M → ∀ j l, (j < rows M → T.get [i, j, l] = M.get [j, l]) ∧
        (rows M ≤ j → T.get [i, j, l] = 0) := by
  obtain ⟨T, h1, h2, h3⟩ := padded_ok hne h
  refine ⟨T, h1, h2, fun i M hM j l => ⟨fun hj => ?_, fun hj => ?_⟩⟩
  · rw [h3 i M hM, if_pos hj]
  · rw [h3 i M hM, if_neg (by omega)]

/-- C13, errors: for a non-empty list of matrices, ValueError is the only exception and it is raised exactly when two
matrices have different numbers of columns. -/
theorem C13_error_iff {ms : List (NDArray K)} (hne : ms ≠ []) (h : ∀ M ∈ ms, ∃ n, M.shape = [rows M, n]) (e : PyErr) :
    createPaddedTensor ms = .error e ↔
      e = .valueError ∧ ∃ M ∈ ms, ∃ N ∈ ms, M.shape.getD 1 0 ≠ N.shape.getD 1 0 := by
  constructor
  · intro he
    by_cases hc : ∃ M ∈ ms, ∃ N ∈ ms, M.shape.getD 1 0 ≠ N.shape.getD 1 0
    · rw [padded_err h hc] at he
      simp only [Except.error.injEq] at he
      exact ⟨he.symm, hc⟩
    · exfalso
      push Not at hc
      obtain ⟨M0, ms', rfl⟩ := List.exists_cons_of_ne_nil hne
      obtain ⟨T, hT, -⟩ := padded_ok (k := M0.shape.getD 1 0) hne (by
        intro M hM
        obtain ⟨n, hn⟩ := h M hM
        have := hc M hM M0 (by simp)
        rw [hn] at this ⊢
        rw [← this]
        rfl)
      rw [hT] at he
      simp at he
  · rintro ⟨rfl, hc⟩
    exact padded_err h hc

/-- C13, injectivity: two lists of matrices with the same shapes and the same padded tensor have the same entries. -/
theorem C13_injective {ms ms' : List (NDArray K)} {k : ℕ} (hne : ms ≠ []) (h : ∀ M ∈ ms, M.shape = [rows M, k])
    (hsh : ms.map NDArray.shape = ms'.map NDArray.shape) {T T' : NDArray K}
    (hT : createPaddedTensor ms = .ok T) (hT' : createPaddedTensor ms' = .ok T')
    (heq : ∀ i j l, i < ms.length → j < maxOf (ms.map rows) → l < k → T.get [i, j, l] = T'.get [i, j, l])
    (i : ℕ) (M M' : NDArray K) (hM : ms[i]? = some M) (hM' : ms'[i]? = some M') (j l : ℕ) (hj : j < rows M)
    (hl : l < k) : M.get [j, l] = M'.get [j, l] := by
  have hshape : ∀ (i : ℕ) (M M' : NDArray K), ms[i]? = some M → ms'[i]? = some M' → M'.shape = M.shape := by
    intro i M M' hM hM'
    have := congrArg (fun l => l[i]?) hsh
    simpa [hM, hM', eq_comm] using this
  have hlen : ms.length = ms'.length := by simpa using congrArg List.length hsh
  have h' : ∀ N ∈ ms', N.shape = [rows N, k] := by
    intro N hN
    obtain ⟨n, hn⟩ := List.mem_iff_getElem?.1 hN
    have hn' : n < ms.length := by rw [hlen]; exact (List.getElem?_eq_some_iff.1 hn).1
    have := hshape n _ N (List.getElem?_eq_getElem hn') hn
    have h0 := h _ (List.getElem_mem hn')
    rw [this, h0]
    simp [rows, this]
  obtain ⟨S, s1, -, s3⟩ := padded_ok hne h
  obtain ⟨S', s1', -, s3'⟩ := padded_ok (ms := ms') (by intro h0; rw [h0] at hlen; exact hne (by simpa using hlen)) h'
  rw [s1] at hT; rw [s1'] at hT'
  simp only [Except.ok.injEq] at hT hT'
  subst hT; subst hT'
  have hr : rows M' = rows M := by simp [rows, hshape i M M' hM hM']
  have e1 := s3 i M hM j l
  have e2 := s3' i M' hM' j l
  rw [if_pos hj] at e1
  rw [hr, if_pos hj] at e2
  rw [← e1, ← e2]
  refine heq i j l (List.getElem?_eq_some_iff.1 hM).1 ?_ hl
  have := le_maxOf (List.mem_map.2 ⟨M, List.mem_of_getElem? hM, rfl⟩ : rows M ∈ ms.map rows)
  omega

example : createPaddedTensor (K := ℚ) [.mk2 1 2 fun _ _ => 1, .mk2 2 3 fun _ _ => 1] = .error .valueError := rfl

end Verif.Props
