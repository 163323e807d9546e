import Verif.Tac
import Verif.Spec.CMF

/-!
# Helper lemmas: validation
-/

namespace Verif.CMF

open Verif.Spec

variable {K : Type}

theorem checkB_ok {R : ℕ} {b : PyVal K} {t : NDArray K} :
    checkB R b = .ok t ↔ b = .tensor t ∧ ∃ J, t.shape = [J, R] := by
  cases b with
  | none => simp [checkB]
  | other => simp [checkB]
  | tensor s =>
    simp only [checkB, PyVal.tensor.injEq]
    obtain ⟨sh, g⟩ := s
    match sh with
    | [] => simp; rintro rfl; simp
    | [a] => simp; rintro rfl; simp
    | [a, b] =>
      simp only [List.length_cons, List.length_nil, Nat.zero_add, Nat.reduceAdd, ne_eq, not_true_eq_false, if_false,
        List.getElem?_cons_succ, List.getElem?_cons_zero, Option.some.injEq]
      split
      · simp only [reduceCtorEq, false_iff]; rintro ⟨rfl, J, hJ⟩; simp at hJ; omega
      · rename_i h
        simp only [Except.ok.injEq]
        constructor
        · rintro rfl; exact ⟨rfl, a, by simp; omega⟩
        · exact fun h => h.1
    | a :: b :: c :: d => simp; rintro rfl; simp

theorem checkB_error {R : ℕ} {b : PyVal K} {e : PyErr} (h : checkB R b = .error e) :
    (e = .typeError ∧ ∀ t, b ≠ .tensor t) ∨
    (e = .valueError ∧ ∃ t, b = .tensor t ∧ (t.shape.length ≠ 2 ∨ ∃ J R', t.shape = [J, R'] ∧ R' ≠ R)) := by
  cases b with
  | none => simp only [checkB, Except.error.injEq] at h; simp [← h]
  | other => simp only [checkB, Except.error.injEq] at h; simp [← h]
  | tensor s =>
    right
    simp only [checkB] at h
    obtain ⟨sh, g⟩ := s
    match sh with
    | [] => simp at h; exact ⟨h.symm, _, rfl, by simp⟩
    | [a] => simp at h; exact ⟨h.symm, _, rfl, by simp⟩
    | [a, b] =>
      simp only [List.length_cons, List.length_nil, Nat.zero_add, Nat.reduceAdd, ne_eq, not_true_eq_false, if_false,
        List.getElem?_cons_succ, List.getElem?_cons_zero, Option.some.injEq] at h
      split at h
      · rename_i hb
        simp only [Except.error.injEq] at h
        exact ⟨h.symm, _, rfl, Or.inr ⟨a, b, rfl, hb⟩⟩
      · simp at h
    | a :: b :: c :: d => simp at h; exact ⟨h.symm, _, rfl, by simp⟩

theorem mapM_checkB_ok {R : ℕ} : ∀ {l : List (PyVal K)} {Bs : List (NDArray K)},
    l.mapM (checkB R) = .ok Bs ↔ l = Bs.map .tensor ∧ ∀ B ∈ Bs, ∃ J, B.shape = [J, R]
  | [], Bs => by
    constructor
    · intro h
      have : Bs = [] := by
        cases Bs with
        | nil => rfl
        | cons => simp at h
      subst this; simp
    · rintro ⟨h, -⟩
      have : Bs = [] := by
        cases Bs with
        | nil => rfl
        | cons => simp at h
      subst this; rfl
  | b :: l, Bs => by
    have ih : ∀ Bs', l.mapM (checkB R) = .ok Bs' ↔ l = Bs'.map .tensor ∧ ∀ B ∈ Bs', ∃ J, B.shape = [J, R] :=
      fun Bs' => mapM_checkB_ok
    rw [List.mapM_cons]
    simp only [bind_ok, pure_eq_ok, Except.ok.injEq, checkB_ok, ih]
    constructor
    · rintro ⟨t, ⟨rfl, h1⟩, Bs', ⟨rfl, h2⟩, rfl⟩
      simp [h1]
      exact h2
    · rintro ⟨h1, h2⟩
      cases Bs with
      | nil => simp at h1
      | cons B Bs =>
        simp only [List.map_cons, List.cons.injEq] at h1
        exact ⟨B, ⟨h1.1, h2 B (by simp)⟩, Bs, ⟨h1.2, fun B' hB' => h2 B' (by simp [hB'])⟩, rfl⟩

theorem mapM_checkB_error {R : ℕ} {e : PyErr} : ∀ {l : List (PyVal K)}, l.mapM (checkB R) = .error e →
    (e = .typeError ∧ ∃ b ∈ l, ∀ t, b ≠ .tensor t) ∨ (e = .valueError ∧ ∃ t, .tensor t ∈ l ∧
      (t.shape.length ≠ 2 ∨ ∃ J R', t.shape = [J, R'] ∧ R' ≠ R))
  | [], h => by simp at h
  | b :: l, h => by
    rw [List.mapM_cons, bind_error] at h
    rcases h with h | ⟨t, -, h⟩
    · rcases checkB_error h with ⟨h1, h2⟩ | ⟨h1, t, rfl, h2⟩
      · exact Or.inl ⟨h1, b, by simp, h2⟩
      · exact Or.inr ⟨h1, t, by simp, h2⟩
    · rw [bind_error] at h
      rcases h with h | ⟨_, -, h⟩
      · rcases mapM_checkB_error h with ⟨h1, b', h2, h3⟩ | ⟨h1, t, h2, h3⟩
        · exact Or.inl ⟨h1, b', by simp [h2], h3⟩
        · exact Or.inr ⟨h1, t, by simp [h2], h3⟩
      · simp at h

theorem iter_ok {b : BArg K} {l : List (PyVal K)} : b.iter = .ok l ↔ Yields b l := by
  constructor
  · intro h
    cases b with
    | list l' => simp only [BArg.iter, Except.ok.injEq] at h; subst h; exact .list _
    | tensor t =>
      simp only [BArg.iter] at h
      split at h
      · simp at h
      · rename_i n sh hsh
        simp only [Except.ok.injEq] at h
        subst h
        exact .tensor t n sh hsh
    | notIterable => simp [BArg.iter] at h
  · intro h
    cases h with
    | list => rfl
    | tensor t n sh hsh =>
      rw [BArg.iter, hsh]
      rfl

theorem iter_error {b : BArg K} {e : PyErr} (h : b.iter = .error e) : e = .typeError ∧ ∀ l, ¬ Yields b l := by
  refine ⟨?_, fun l hl => ?_⟩
  · cases b with
    | list l' => simp [BArg.iter] at h
    | tensor t =>
      simp only [BArg.iter] at h
      split at h
      · simpa [eq_comm] using h
      · simp at h
    | notIterable => simpa [BArg.iter, eq_comm] using h
  · rw [iter_ok.2 hl] at h; simp at h

theorem checkMat_ok {v : PyVal K} {t : NDArray K} : checkMat v = .ok t ↔ v = .tensor t ∧ ∃ m n, t.shape = [m, n] := by
  have aux : ∀ t : NDArray K, t.shape.length = 2 ↔ ∃ m n, t.shape = [m, n] := fun t => List.length_eq_two
  cases v with
  | none => simp [checkMat]
  | other => simp [checkMat]
  | tensor s =>
    simp only [checkMat, PyVal.tensor.injEq, ← aux]
    split
    · simp only [reduceCtorEq, false_iff]; rintro ⟨rfl, h⟩; contradiction
    · rename_i h
      simp only [Except.ok.injEq]
      constructor
      · rintro rfl; exact ⟨rfl, by simpa using h⟩
      · exact fun h => h.1

theorem checkMat_error {v : PyVal K} {e : PyErr} (h : checkMat v = .error e) :
    (e = .typeError ∧ ∀ t, v ≠ .tensor t) ∨ (e = .valueError ∧ ∃ t, v = .tensor t ∧ t.shape.length ≠ 2) := by
  cases v with
  | none => simp only [checkMat, Except.error.injEq] at h; simp [← h]
  | other => simp only [checkMat, Except.error.injEq] at h; simp [← h]
  | tensor s =>
    simp only [checkMat] at h
    split at h
    · rename_i hs; simp only [Except.error.injEq] at h; exact Or.inr ⟨h.symm, s, rfl, hs⟩
    · simp at h

theorem checkWeights_ok {v : PyVal K} {w : Option (NDArray K)} : checkWeights v = .ok w ↔
    (v = .none ∧ w = none) ∨ ∃ t L, v = .tensor t ∧ w = some t ∧ t.shape = [L] := by
  have aux : ∀ t : NDArray K, t.shape.length = 1 ↔ ∃ L, t.shape = [L] := fun t => List.length_eq_one_iff
  cases v with
  | none => simp [checkWeights, eq_comm]
  | other => simp [checkWeights]
  | tensor s =>
    simp only [checkWeights]
    split
    · rename_i h
      simp only [reduceCtorEq, false_and, false_or, PyVal.tensor.injEq, false_iff]
      rintro ⟨t, L, rfl, -, h'⟩
      exact h (by simp [h'])
    · rename_i h
      simp only [not_not] at h
      obtain ⟨L, hL⟩ := (aux s).1 h
      simp only [Except.ok.injEq, reduceCtorEq, false_and, false_or, PyVal.tensor.injEq]
      constructor
      · rintro rfl; exact ⟨s, L, rfl, rfl, hL⟩
      · rintro ⟨t, L, rfl, h, -⟩; exact h.symm

theorem checkWeights_error {v : PyVal K} {e : PyErr} (h : checkWeights v = .error e) :
    (e = .typeError ∧ v = .other) ∨ (e = .valueError ∧ ∃ t, v = .tensor t ∧ t.shape.length ≠ 1) := by
  cases v with
  | none => simp [checkWeights] at h
  | other => simp only [checkWeights, Except.error.injEq] at h; simp [← h]
  | tensor s =>
    simp only [checkWeights] at h
    split at h
    · rename_i hs; simp only [Except.error.injEq] at h; exact Or.inr ⟨h.symm, s, rfl, hs⟩
    · simp at h

theorem raiseIf_ok {b : Prop} [Decidable b] {u : Unit} : raiseIf b = .ok u ↔ ¬ b := by
  unfold raiseIf; split <;> simp [*]

theorem raiseIf_error {b : Prop} [Decidable b] {e : PyErr} : raiseIf b = .error e ↔ b ∧ e = .valueError := by
  unfold raiseIf; split <;> simp [*, eq_comm]

theorem construct_ok {x : CMFArg K} {c : Fact K} : construct x = .ok c ↔
    IsFactorization x c.weights c.A c.Bs c.C c.rank ∧
      c.shape = c.Bs.map (fun B => (B.shape.headD 0, c.C.shape.headD 0)) := by
  unfold construct
  simp only [bind_ok, checkWeights_ok, checkMat_ok, raiseIf_ok, iter_ok, mapM_checkB_ok, pure_eq_ok, Except.ok.injEq]
  constructor
  · rintro ⟨w, hw, A, ⟨hA, I, R, hAs⟩, C, ⟨hC, k, R', hCs⟩, -, hR, l, hl, Bs, ⟨rfl, hB⟩, -, hwl, -, hI, rfl⟩
    simp only [hAs, hCs, List.getD_cons_succ, List.getD_cons_zero, ne_eq, not_not, List.length_map] at hR hI hB hwl ⊢
    subst hI
    subst hR
    refine ⟨⟨?_, hA, hAs, hC, ⟨k, hCs⟩, hl, hB⟩, ?_⟩
    · rcases hw with hw | ⟨t, L, h1, h2, h3⟩
      · exact Or.inl hw
      · refine Or.inr ⟨t, h1, h2, ?_⟩
        subst h2
        simp only [Option.mem_def, Option.some.injEq, exists_eq_left', h3, List.getD_cons_zero, not_not] at hwl
        rw [h3, hwl]
    · refine List.map_congr_left fun B hB' => ?_
      obtain ⟨J, hJ⟩ := hB B hB'
      simp [hJ]
  · rintro ⟨⟨hw, hA, hAs, hC, ⟨k, hCs⟩, hl, hB⟩, hsh⟩
    refine ⟨c.weights, ?_, c.A, ⟨hA, _, _, hAs⟩, c.C, ⟨hC, _, _, hCs⟩, (), ?_, _, hl, c.Bs, ⟨rfl, ?_⟩, (), ?_, (),
      ?_, ?_⟩
    · rcases hw with hw | ⟨t, h1, h2, h3⟩
      · exact Or.inl hw
      · exact Or.inr ⟨t, _, h1, h2, h3⟩
    · simp [hAs, hCs]
    · simpa [hAs] using hB
    · rcases hw with hw | ⟨t, h1, h2, h3⟩
      · simp [hw.2]
      · simp [h2, h3, hAs]
    · simp [hAs]
    · obtain ⟨w, A, Bs, C, shape, rank⟩ := c
      simp only [Fact.mk.injEq, true_and] at *
      refine ⟨?_, by simp [hAs]⟩
      rw [hsh]
      refine List.map_congr_left fun B hB' => ?_
      obtain ⟨J, hJ⟩ := hB B hB'
      simp [hJ, hCs]

theorem construct_error {x : CMFArg K} {e : PyErr} (h : construct x = .error e) :
    (e = .typeError ∧ WrongKind x) ∨ (e = .valueError ∧ WrongShape x) := by
  unfold construct at h
  simp only [bind_error, checkMat_ok, raiseIf_ok, raiseIf_error, iter_ok, mapM_checkB_ok, pure_eq_ok,
    checkWeights_ok] at h
  unfold WrongKind WrongShape
  rcases h with h | ⟨w, hw, h | ⟨A, ⟨hA, I, R, hAs⟩, h | ⟨C, ⟨hC, k, R', hCs⟩, h | ⟨-, hR, h | ⟨l, hl, h | ⟨Bs, ⟨rfl, hB⟩,
    h | ⟨-, hwl, h | ⟨-, hI, h⟩⟩⟩⟩⟩⟩⟩⟩
  · rcases checkWeights_error h with h | h
    · exact Or.inl ⟨h.1, Or.inl h.2⟩
    · exact Or.inr ⟨h.1, Or.inl h.2⟩
  · rcases checkMat_error h with h | h
    · exact Or.inl ⟨h.1, Or.inr (Or.inl h.2)⟩
    · exact Or.inr ⟨h.1, Or.inr (Or.inl h.2)⟩
  · rcases checkMat_error h with h | h
    · exact Or.inl ⟨h.1, Or.inr (Or.inr (Or.inl h.2))⟩
    · exact Or.inr ⟨h.1, Or.inr (Or.inr (Or.inl h.2))⟩
  · refine Or.inr ⟨h.2, Or.inr (Or.inr (Or.inr (Or.inr (Or.inl ⟨A, I, R, C, k, R', hA, hAs, hC, hCs, ?_⟩))))⟩
    simpa [hAs, hCs] using h.1
  · have := iter_error h
    exact Or.inl ⟨this.1, Or.inr (Or.inr (Or.inr (Or.inl this.2)))⟩
  · rcases mapM_checkB_error h with ⟨h1, b, h2, h3⟩ | ⟨h1, t, h2, h3 | ⟨J, R'', h3, h4⟩⟩
    · exact Or.inl ⟨h1, Or.inr (Or.inr (Or.inr (Or.inr ⟨l, hl, b, h2, h3⟩)))⟩
    · exact Or.inr ⟨h1, Or.inr (Or.inr (Or.inr (Or.inl ⟨l, t, hl, h2, h3⟩)))⟩
    · refine Or.inr ⟨h1, Or.inr (Or.inr (Or.inr (Or.inr (Or.inr (Or.inl
        ⟨A, I, R, l, t, J, R'', hA, hAs, hl, h2, h3, ?_⟩)))))⟩
      simpa [hAs] using h4
  · obtain ⟨⟨t, ht, h1⟩, h2⟩ := h
    rcases hw with hw | ⟨t', L, h3, h4, h5⟩
    · simp [hw.2] at ht
    · have : t' = t := by rw [h4] at ht; simpa using ht
      subst this
      refine Or.inr ⟨h2, Or.inr (Or.inr (Or.inr (Or.inr (Or.inr (Or.inr (Or.inl
        ⟨A, I, R, t', L, hA, hAs, h3, h5, ?_⟩))))))⟩
      simpa [hAs, h5] using h1
  · refine Or.inr ⟨h.2, Or.inr (Or.inr (Or.inr (Or.inr (Or.inr (Or.inr (Or.inr
      ⟨A, I, R, _, hA, hAs, hl, ?_⟩))))))⟩
    have := h.1
    simp only [hAs, List.getD_cons_zero, ne_eq] at this
    exact fun h' => this h'.symm
  · simp at h

theorem Yields.unique {b : BArg K} {l l' : List (PyVal K)} (h : Yields b l) (h' : Yields b l') : l = l' := by
  have := iter_ok.2 h
  rw [iter_ok.2 h'] at this
  simpa [eq_comm] using this

theorem not_wrong {x : CMFArg K} {w : Option (NDArray K)} {A : NDArray K} {Bs : List (NDArray K)} {C : NDArray K}
    {R : ℕ} (h : IsFactorization x w A Bs C R) : ¬ WrongKind x ∧ ¬ WrongShape x := by
  obtain ⟨hw, hA, hAs, hC, ⟨k, hCs⟩, hl, hB⟩ := h
  constructor
  · rintro (h | h | h | h | ⟨l, h1, b, h2, h3⟩)
    · rcases hw with hw | ⟨t, h1, -, -⟩
      · rw [hw.1] at h; simp at h
      · rw [h1] at h; simp at h
    · exact h _ hA
    · exact h _ hC
    · exact h _ hl
    · rw [Yields.unique h1 hl] at h2
      obtain ⟨B, -, rfl⟩ := List.mem_map.1 h2
      exact h3 _ rfl
  · rintro (⟨t, h1, h2⟩ | ⟨t, h1, h2⟩ | ⟨t, h1, h2⟩ | ⟨l, t, h1, h2, h3⟩ | ⟨a, I, R1, c, k1, R2, h1, h2, h3, h4, h5⟩ |
      ⟨a, I, R1, l, b, J, R2, h1, h2, h3, h4, h5, h6⟩ | ⟨a, I, R1, t, L, h1, h2, h3, h4, h5⟩ |
      ⟨a, I, R1, l, h1, h2, h3, h4⟩)
    · rcases hw with hw | ⟨t', h3, -, h5⟩
      · rw [hw.1] at h1; simp at h1
      · rw [h3] at h1; simp only [PyVal.tensor.injEq] at h1; subst h1; simp [h5] at h2
    · rw [hA] at h1; simp only [PyVal.tensor.injEq] at h1; subst h1; simp [hAs] at h2
    · rw [hC] at h1; simp only [PyVal.tensor.injEq] at h1; subst h1; simp [hCs] at h2
    · rw [Yields.unique h1 hl] at h2
      obtain ⟨B, hB', h⟩ := List.mem_map.1 h2
      simp only [PyVal.tensor.injEq] at h; subst h
      obtain ⟨J, hJ⟩ := hB B hB'
      simp [hJ] at h3
    · rw [hA] at h1; simp only [PyVal.tensor.injEq] at h1; subst h1
      rw [hC] at h3; simp only [PyVal.tensor.injEq] at h3; subst h3
      rw [hAs] at h2; rw [hCs] at h4; simp at h2 h4; omega
    · rw [hA] at h1; simp only [PyVal.tensor.injEq] at h1; subst h1
      rw [Yields.unique h3 hl] at h4
      obtain ⟨B, hB', h⟩ := List.mem_map.1 h4
      simp only [PyVal.tensor.injEq] at h; subst h
      obtain ⟨J, hJ⟩ := hB B hB'
      rw [hAs] at h2; rw [hJ] at h5; simp at h2 h5; omega
    · rw [hA] at h1; simp only [PyVal.tensor.injEq] at h1; subst h1
      rcases hw with hw | ⟨t', h6, -, h7⟩
      · rw [hw.1] at h3; simp at h3
      · rw [h6] at h3; simp only [PyVal.tensor.injEq] at h3; subst h3
        rw [hAs] at h2; rw [h7] at h4; simp at h2 h4; omega
    · rw [hA] at h1; simp only [PyVal.tensor.injEq] at h1; subst h1
      rw [Yields.unique h3 hl] at h4
      rw [hAs] at h2; simp at h2 h4; omega

end Verif.CMF
