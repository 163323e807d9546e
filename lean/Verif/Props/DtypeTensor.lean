import Mathlib.Data.Rat.Floor
import Verif.Dtype.Model
import Verif.Props.CMF

/-!
# C100: dense tensors of factorizations with integer and floating-point arrays

`cmf_to_tensor` and `create_padded_tensor` write all matrices into one array, which has the type of the first matrix.
-/

set_option linter.unusedSectionVars false

namespace Verif.Props

open Verif.CMF Verif.NumType Verif.Spec

section
variable {K : Type} [Field K] [LinearOrder K] [IsStrictOrderedRing K] [FloorRing K]

/-- `x` is an integer. -/
def IsInt (x : K) : Prop := ∃ z : ℤ, x = z

/-- An integer array has integer entries. -/
def TypeConsistent (d : Dtype) (M : NDArray K) : Prop := d = .int → ∀ idx, IsInt (M.get idx)

/-- The types of the arrays of a factorization are types that these arrays can have. -/
structure Typed (f : DFact K) : Prop where
  len : f.dtBs.length = f.fact.Bs.length
  w : ∀ w ∈ f.fact.weights, TypeConsistent f.dtW w
  A : TypeConsistent f.dtA f.fact.A
  B : ∀ (i : ℕ) (d : Dtype) (B : NDArray K), f.dtBs[i]? = some d → f.fact.Bs[i]? = some B → TypeConsistent d B
  C : TypeConsistent f.dtC f.fact.C

theorem store_intCast (d : Dtype) (z : ℤ) : d.store (z : K) = z := by
  cases d
  · simp [Dtype.store]
  · rfl

theorem store_int (x : K) : IsInt (Dtype.int.store x) := by
  show IsInt (if 0 ≤ x then (⌊x⌋ : K) else (⌈x⌉ : K))
  split
  · exact ⟨_, rfl⟩
  · exact ⟨_, rfl⟩

theorem store_eq_iff (d : Dtype) (x : K) : d.store x = x ↔ d = .float ∨ IsInt x := by
  constructor
  · intro h
    cases d with
    | float => exact .inl rfl
    | int => exact .inr (h ▸ store_int x)
  · rintro (rfl | ⟨z, rfl⟩)
    · rfl
    · exact store_intCast d z

theorem store_zero (d : Dtype) : d.store (0 : K) = 0 := by
  have := store_intCast (K := K) d 0
  simpa using this

theorem fillTensorD_eq (d : Dtype) : ∀ (l : List (NDArray K × ℕ)) (i : ℕ) (T : NDArray K),
    fillTensorD d i T l = fillTensor i T (l.map fun p => (castTo d p.1, p.2))
  | [], _, _ => rfl
  | (M, len) :: l, i, T => by
    rw [fillTensorD, List.map_cons, fillTensor]
    congr 1
    funext T'
    exact fillTensorD_eq d l (i + 1) T'

theorem join_int {a b : Dtype} : a.join b = .int ↔ a = .int ∧ b = .int := by
  cases a <;> cases b <;> simp [Dtype.join]

theorem castTo_shape (d : Dtype) (M : NDArray K) : (castTo d M).shape = M.shape := rfl

/-- The matrices with their types. -/
theorem toMatricesD_ok {x : CMFArg K} {f : DFact K} (h : construct x = .ok f.fact) (ht : Typed f) :
    ∃ ms, toMatricesD f = .ok ms ∧ ms.length = f.fact.Bs.length ∧
      ∀ i B d, f.fact.Bs[i]? = some B → f.dtBs[i]? = some d → ∃ M, ms[i]? = some M ∧ M.arr.shape = [rows B, rows f.fact.C] ∧
        M.dtype = (d.join f.scaledA).join f.dtC ∧
        ∀ j l, M.arr.get [j, l] = reprEntry f.fact.rank f.fact.weights f.fact.A B f.fact.C i j l := by
  obtain ⟨ms, h1, h2, h3⟩ := toMatrices_ok (good_of_construct h)
  refine ⟨_, by rw [toMatricesD, h1]; rfl, by simp [h2, ht.len], ?_⟩
  intro i B d hB hd
  obtain ⟨M, hM, hs, hg⟩ := h3 i B hB
  refine ⟨⟨(d.join f.scaledA).join f.dtC, M⟩, ?_, hs, rfl, fun j l => ?_⟩
  · rw [List.getElem?_zipWith, hd, hM]
  · rw [← matOf_repr (k := rows f.fact.C)]; exact hg j l

/-- C100 (partial: the property says that the tensor has the entries of the matrices). The tensor has the type of the
first matrix. Its entries are those of the matrices, converted to this type; the rest is zero. -/
theorem C100_stored_partial {x : CMFArg K} {f : DFact K} (h : construct x = .ok f.fact) (ht : Typed f) (hne : f.fact.Bs ≠ []) :
    ∃ ms M T, toMatricesD f = .ok ms ∧ ms.head? = some M ∧ toTensorD f = .ok T ∧ T.dtype = M.dtype ∧
      T.arr.shape = [f.fact.Bs.length, maxOf (f.fact.Bs.map rows), rows f.fact.C] ∧
      ∀ i B, f.fact.Bs[i]? = some B → ∀ j k,
        (j < rows B → T.arr.get [i, j, k] = T.dtype.store (reprEntry f.fact.rank f.fact.weights f.fact.A B f.fact.C i j k)) ∧
        (rows B ≤ j → T.arr.get [i, j, k] = 0) := by
  have g := good_of_construct h
  obtain ⟨ms, h1, h2, h3⟩ := toMatricesD_ok h ht
  obtain ⟨M0, ms', rfl⟩ : ∃ M0 ms', ms = M0 :: ms' := by
    cases ms with
    | nil => exact absurd (List.length_eq_zero_iff.1 h2.symm) hne
    | cons a l => exact ⟨a, l, rfl⟩
  set ms := M0 :: ms' with hms
  have hlen : f.fact.Bs.map (fun B => B.shape.getD 0 0) = f.fact.Bs.map rows := by
    refine List.map_congr_left fun B hB => ?_
    rw [g.B B hB]; rfl
  have hget : ∀ (n : ℕ) (B : NDArray K), f.fact.Bs[n]? = some B → ∃ d, f.dtBs[n]? = some d := by
    intro n B hB
    have hn := (List.getElem?_eq_some_iff.1 hB).1
    exact ⟨_, List.getElem?_eq_getElem (by rw [ht.len]; exact hn)⟩
  have hz : ∀ (n : ℕ) (p : NDArray K × ℕ), (((ms.map DArray.arr).zip (f.fact.Bs.map rows)).map fun p => (castTo M0.dtype p.1, p.2))[n]? = some p →
      ∃ B, f.fact.Bs[n]? = some B ∧ p.2 = rows B ∧ p.1.shape = [rows B, rows f.fact.C] := by
    intro n p hp
    rw [List.getElem?_map, Option.map_eq_some_iff] at hp
    obtain ⟨q, hq, rfl⟩ := hp
    rw [List.getElem?_zip_eq_some, List.getElem?_map, List.getElem?_map, Option.map_eq_some_iff, Option.map_eq_some_iff] at hq
    obtain ⟨⟨M, hM, e1⟩, B, hB, e2⟩ := hq
    obtain ⟨d, hd⟩ := hget n B hB
    obtain ⟨M', hM', hs, -, -⟩ := h3 n B d hB hd
    rw [hM] at hM'
    cases hM'
    refine ⟨B, hB, e2.symm, ?_⟩
    rw [castTo_shape, ← e1, hs]
  obtain ⟨T, g1, g2, -, g4⟩ := fillTensor_ok (((ms.map DArray.arr).zip (f.fact.Bs.map rows)).map fun p => (castTo M0.dtype p.1, p.2)) 0
    (zeros3 f.fact.Bs.length (maxOf (f.fact.Bs.map rows)) (rows f.fact.C)) rfl (by simp [h2]) (by
      intro p hp
      obtain ⟨n, hn⟩ := List.mem_iff_getElem?.1 hp
      obtain ⟨B, hB, e1, e2⟩ := hz n p hn
      rw [e1, e2]
      exact ⟨rfl, le_maxOf (List.mem_map.2 ⟨B, List.mem_of_getElem? hB, rfl⟩)⟩)
  refine ⟨ms, M0, ⟨M0.dtype, T⟩, h1, rfl, ?_, rfl, g2, ?_⟩
  · unfold toTensorD
    simp only [h1, ok_bind, hlen, g.A, g.C, List.getD_cons_zero]
    rw [pyMax_ok (by simpa using hne), ok_bind]
    simp only [hms, context, ok_bind]
    rw [← hms, fillTensorD_eq, g1]
    rfl
  · intro i B hB j k
    obtain ⟨d, hd⟩ := hget i B hB
    obtain ⟨M, hM, hs, -, he⟩ := h3 i B d hB hd
    have hh := g4 i (castTo M0.dtype M.arr, rows B) (by
      rw [List.getElem?_map, Option.map_eq_some_iff]
      refine ⟨(M.arr, rows B), ?_, rfl⟩
      rw [List.getElem?_zip_eq_some]; simp [hM, hB]) j k
    rw [Nat.zero_add] at hh
    refine ⟨fun hj => ?_, fun hj => ?_⟩
    · show T.get [i, j, k] = _
      rw [hh, if_pos hj, ← he]
      rfl
    · show T.get [i, j, k] = _
      rw [hh, if_neg (by simpa using hj)]
      rfl

/-- C100 (partial): exactly when the tensor has the entries of the matrices: the first matrix is of type float, or all matrices have integer entries. -/
theorem C100_exact_partial {x : CMFArg K} {f : DFact K} (h : construct x = .ok f.fact) (ht : Typed f) (hne : f.fact.Bs ≠ []) :
    ∃ ms M T, toMatricesD f = .ok ms ∧ ms.head? = some M ∧ toTensorD f = .ok T ∧
      ((∀ i B, f.fact.Bs[i]? = some B → ∀ j < rows B, ∀ k < rows f.fact.C,
          T.arr.get [i, j, k] = reprEntry f.fact.rank f.fact.weights f.fact.A B f.fact.C i j k) ↔
        M.dtype = .float ∨ ∀ i B, f.fact.Bs[i]? = some B → ∀ j < rows B, ∀ k < rows f.fact.C,
          IsInt (reprEntry f.fact.rank f.fact.weights f.fact.A B f.fact.C i j k)) := by
  obtain ⟨ms, M, T, h1, h2, h3, h4, -, h6⟩ := C100_stored_partial h ht hne
  refine ⟨ms, M, T, h1, h2, h3, ?_⟩
  rw [← h4]
  constructor
  · intro he
    by_cases hd : T.dtype = .float
    · exact .inl hd
    · refine .inr fun i B hB j hj k hk => ?_
      have e1 := he i B hB j hj k hk
      rw [((h6 i B hB j k).1 hj), store_eq_iff] at e1
      exact e1.resolve_left hd
  · rintro hc i B hB j hj k hk
    rw [((h6 i B hB j k).1 hj), store_eq_iff]
    exact hc.imp id fun hi => hi i B hB j hj k hk

/-- C100, arrays of one type, and more generally: the entries are right if A, C, the weights or the first B is of type float, or if all arrays are integer arrays. -/
theorem C100_uniform_partial {x : CMFArg K} {f : DFact K} (h : construct x = .ok f.fact) (ht : Typed f) (hne : f.fact.Bs ≠ [])
    (hd : f.dtA = .float ∨ f.dtC = .float ∨ (f.fact.weights.isSome ∧ f.dtW = .float) ∨ f.dtBs.head? = some .float ∨ ∀ d ∈ f.dtBs, d = .int) :
    ∃ T, toTensorD f = .ok T ∧ ∀ i B, f.fact.Bs[i]? = some B → ∀ j < rows B, ∀ k < rows f.fact.C,
      T.arr.get [i, j, k] = reprEntry f.fact.rank f.fact.weights f.fact.A B f.fact.C i j k := by
  obtain ⟨ms, M, T, h1, h2, h3, h4⟩ := C100_exact_partial h ht hne
  refine ⟨T, h3, h4.2 ?_⟩
  obtain ⟨ms', g1, g2, g3⟩ := toMatricesD_ok h ht
  rw [h1] at g1
  cases g1
  by_cases hf : M.dtype = .float
  · exact .inl hf
  · right
    have hint : M.dtype = .int := by cases hM : M.dtype with | int => rfl | float => exact absurd hM hf
    obtain ⟨B0, Bs', hBs⟩ : ∃ B0 Bs', f.fact.Bs = B0 :: Bs' := by
      cases hB : f.fact.Bs with
      | nil => exact absurd hB hne
      | cons a l => exact ⟨a, l, rfl⟩
    obtain ⟨d0, ds', hds⟩ : ∃ d0 ds', f.dtBs = d0 :: ds' := by
      cases hB : f.dtBs with
      | nil => have := ht.len; rw [hB, hBs] at this; simp at this
      | cons a l => exact ⟨a, l, rfl⟩
    obtain ⟨M', e1, -, e2, -⟩ := g3 0 B0 d0 (by rw [hBs]; rfl) (by rw [hds]; rfl)
    rw [List.head?_eq_getElem?, e1] at h2
    cases h2
    rw [e2, join_int, join_int] at hint
    obtain ⟨⟨i1, i2⟩, i3⟩ := hint
    have hA : f.dtA = .int ∧ ∀ w ∈ f.fact.weights, f.dtW = .int := by
      unfold DFact.scaledA at i2
      cases hw : f.fact.weights with
      | none => rw [hw] at i2; exact ⟨i2, by simp⟩
      | some w => rw [hw] at i2; exact ⟨(join_int.1 i2).1, fun _ _ => (join_int.1 i2).2⟩
    have hall : ∀ d ∈ f.dtBs, d = .int := by
      rcases hd with hd | hd | ⟨hw, hd⟩ | hd | hd
      · rw [hA.1] at hd; cases hd
      · rw [i3] at hd; cases hd
      · obtain ⟨w, hw⟩ := Option.isSome_iff_exists.1 hw
        rw [hA.2 w hw] at hd; cases hd
      · rw [hds, i1] at hd; simp at hd
      · exact hd
    intro i B hB j _ k _
    obtain ⟨d, hdi⟩ : ∃ d, f.dtBs[i]? = some d :=
      ⟨_, List.getElem?_eq_getElem (by rw [ht.len]; exact (List.getElem?_eq_some_iff.1 hB).1)⟩
    have cB := ht.B i d B hdi hB (hall d (List.mem_of_getElem? hdi))
    have cA := ht.A hA.1
    have cC := ht.C i3
    have cw : ∀ r, IsInt (weightAt f.fact.weights r) := by
      intro r
      cases hw : f.fact.weights with
      | none => exact ⟨1, by simp [weightAt]⟩
      | some w => exact ht.w w hw (hA.2 w hw) [r]
    unfold reprEntry
    have key : ∀ r, ∃ z : ℤ, weightAt f.fact.weights r * f.fact.A.get [i, r] * B.get [j, r] * f.fact.C.get [k, r] = z := by
      intro r
      obtain ⟨a, ha⟩ := cw r
      obtain ⟨b, hb⟩ := cA [i, r]
      obtain ⟨c, hc⟩ := cB [j, r]
      obtain ⟨e, he⟩ := cC [k, r]
      exact ⟨a * b * c * e, by rw [ha, hb, hc, he]; push_cast; ring⟩
    choose z hz using key
    exact ⟨∑ r ∈ Finset.range f.fact.rank, z r, by push_cast; exact Finset.sum_congr rfl fun r _ => hz r⟩

/-- C100 for `create_padded_tensor` (partial). -/
theorem C100_padded_partial {ms : List (DArray K)} {M : DArray K} {k : ℕ} (hM : ms.head? = some M) (h : ∀ N ∈ ms, N.arr.shape = [rows N.arr, k]) :
    ∃ T, createPaddedTensorD ms = .ok T ∧ T.dtype = M.dtype ∧ T.arr.shape = [ms.length, maxOf (ms.map fun N => rows N.arr), k] ∧
      ∀ i N, ms[i]? = some N → ∀ j l, T.arr.get [i, j, l] = if j < rows N.arr then M.dtype.store (N.arr.get [j, l]) else 0 := by
  obtain ⟨T, h1, h2, h3⟩ := padded_ok (ms := ms.map fun N => castTo M.dtype N.arr) (k := k)
    (by intro hc; rw [List.map_eq_nil_iff] at hc; rw [hc] at hM; simp at hM)
    (by
      intro N hN
      obtain ⟨N', hN', rfl⟩ := List.mem_map.1 hN
      exact h N' hN')
  have hsh : paddedShape (ms.map fun N => castTo M.dtype N.arr) = paddedShape (ms.map DArray.arr) := by
    unfold paddedShape
    cases ms with
    | nil => rfl
    | cons a l =>
      simp only [List.map_cons, castTo_shape, List.length_cons, List.length_map]
      have hf : ∀ (q : ℕ) (l : List (DArray K)) (b : ℕ), (l.map fun N => castTo M.dtype N.arr).foldlM (padStep q) b = (l.map DArray.arr).foldlM (padStep q) b := by
        intro q l
        induction l with
        | nil => intro b; rfl
        | cons c l ih =>
          intro b
          simp only [List.map_cons, List.foldlM_cons]
          have : padStep q b (castTo M.dtype c.arr) = padStep q b c.arr := rfl
          rw [this]
          congr 1
          funext b'
          exact ih b'
      cases a.arr.shape[1]? with
      | none => rfl
      | some q =>
        simp only
        have := hf q (a :: l) 0
        simp only [List.map_cons] at this
        rw [this]
  refine ⟨⟨M.dtype, T⟩, ?_, rfl, ?_, ?_⟩
  · unfold createPaddedTensorD
    unfold createPaddedTensor at h1
    rw [hsh] at h1
    cases hp : paddedShape (ms.map DArray.arr) with
    | error e => rw [hp] at h1; cases h1
    | ok p =>
      rw [hp] at h1
      obtain ⟨I, J, q⟩ := p
      simp only [ok_bind] at h1 ⊢
      have hctx : context ms = .ok M.dtype := by
        cases ms with
        | nil => simp at hM
        | cons a l => simp only [List.head?_cons, Option.some.injEq] at hM; subst hM; rfl
      rw [hctx, ok_bind, fillTensorD_eq, List.map_map]
      rw [List.map_map] at h1
      have : ((fun p : NDArray K × ℕ => (castTo M.dtype p.1, p.2)) ∘ fun N : DArray K => (N.arr, N.arr.shape.getD 0 0))
          = ((fun M : NDArray K => (M, M.shape.getD 0 0)) ∘ fun N : DArray K => castTo M.dtype N.arr) := rfl
      rw [this, h1]
      rfl
  · show T.shape = _
    rw [h2, List.length_map, List.map_map]
    rfl
  · intro i N hN j l
    show T.get [i, j, l] = _
    rw [h3 i (castTo M.dtype N.arr) (by rw [List.getElem?_map, hN]; rfl) j l]
    rfl

end

theorem mk2_isInt (m n : ℕ) (f : ℕ → ℕ → ℚ) (h : ∀ i j, IsInt (f i j)) (idx : List ℕ) : IsInt ((NDArray.mk2 m n f).get idx) := by
  match idx with
  | [] => exact ⟨0, by simp [NDArray.mk2]⟩
  | [_] => exact ⟨0, by simp [NDArray.mk2]⟩
  | [i, j] => exact h i j
  | _ :: _ :: _ :: _ => exact ⟨0, by simp [NDArray.mk2]⟩

/-- The factorization of the counterexample: A, C and the first B are integer matrices, the second B is `[[1/2]]`. -/
def mixedFact : DFact ℚ where
  fact := ⟨none, .mk2 2 1 fun _ _ => 1, [.mk2 1 1 fun _ _ => 1, .mk2 1 1 fun _ _ => 1 / 2], .mk2 1 1 fun _ _ => 3, [(1, 1), (1, 1)], 1⟩
  dtW := .float
  dtA := .int
  dtBs := [.int, .float]
  dtC := .int

/-- C100 is false: `cmf_to_matrices` gives `[[3]]` and `[[1.5]]`, `cmf_to_tensor` gives 3 and 1. -/
theorem C100_false : ∃ x ms T, construct x = .ok mixedFact.fact ∧ Typed mixedFact ∧ toMatricesD mixedFact = .ok ms ∧
    ms.map (fun M => M.arr.get [0, 0]) = [3, 3 / 2] ∧ toTensorD mixedFact = .ok T ∧ T.arr.get [0, 0, 0] = 3 ∧ T.arr.get [1, 0, 0] = 1 := by
  refine ⟨⟨.none, .tensor (.mk2 2 1 fun _ _ => 1), .list [.tensor (.mk2 1 1 fun _ _ => 1), .tensor (.mk2 1 1 fun _ _ => 1 / 2)],
    .tensor (.mk2 1 1 fun _ _ => 3)⟩, _, _, rfl, ⟨rfl, by simp [mixedFact], ?_, ?_, ?_⟩, rfl, ?_, rfl, ?_, ?_⟩
  · exact fun _ => mk2_isInt _ _ _ fun _ _ => ⟨1, by norm_num⟩
  · intro i d B hd hB hi
    match i with
    | 0 => cases hB; exact mk2_isInt _ _ _ fun _ _ => ⟨1, by norm_num⟩
    | 1 => cases hd; cases hi
    | _ + 2 => cases hB
  · exact fun _ => mk2_isInt _ _ _ fun _ _ => ⟨3, by norm_num⟩
  · decide +kernel
  · decide +kernel
  · decide +kernel

/-- Non-trivial case of the partial theorems: with a floating-point A the same entries are kept. -/
example : ∃ T, toTensorD { mixedFact with dtA := .float } = .ok T ∧ T.dtype = .float ∧ T.arr.get [1, 0, 0] = 3 / 2 :=
  ⟨_, rfl, rfl, by decide +kernel⟩

/-- The same for `create_padded_tensor`: the second matrix is `[[-1.5, 0.5]]`, it is stored as `[[-1, 0]]`. -/
example : ∃ T, createPaddedTensorD (K := ℚ) [⟨.int, .mk2 2 2 fun i j => i + j⟩, ⟨.float, .mk2 1 2 fun _ j => 2 * j - 3 / 2⟩] = .ok T ∧
    T.arr.get [0, 1, 1] = 2 ∧ T.arr.get [1, 0, 0] = -1 ∧ T.arr.get [1, 0, 1] = 0 ∧ T.arr.get [1, 1, 1] = 0 :=
  ⟨_, rfl, by decide +kernel, by decide +kernel, by decide +kernel, by decide +kernel⟩

end Verif.Props
