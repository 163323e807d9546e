import Mathlib.Algebra.BigOperators.Field
import Mathlib.Tactic.Positivity
import Mathlib.Tactic.FieldSimp
import Verif.Props.CMFConv
import Verif.CMF.Random

/-!
# C14: the random factorization generator
-/

namespace Verif.Props

open Verif.CMF Verif.Spec Finset

variable {S : Type}

theorem drawBs_length (g : Sampler S) (R : ℕ) : ∀ (sh : List (ℕ × ℕ)) (s : S), (drawBs g R s sh).1.length = sh.length
  | [], _ => rfl
  | (j, k) :: sh, s => by simp [drawBs, drawBs_length g R sh]

theorem drawBs_shape (g : Sampler S) (R : ℕ) : ∀ (sh : List (ℕ × ℕ)) (s : S) (i : ℕ) (p : ℕ × ℕ), sh[i]? = some p →
    ∃ B, (drawBs g R s sh).1[i]? = some B ∧ B.shape = [p.1, R]
  | [], _, _, _, h => by simp at h
  | (j, k) :: sh, s, 0, p, h => by
    simp at h; subst h
    exact ⟨_, rfl, g.shape _ _ _⟩
  | (j, k) :: sh, s, i + 1, p, h => by
    simp at h
    exact drawBs_shape g R sh _ i p h

theorem drawBs_nonneg (g : Sampler S) (hg : ∀ s m n i j, 0 ≤ (g.sample s m n).1.get [i, j]) (R : ℕ) :
    ∀ (sh : List (ℕ × ℕ)) (s : S), ∀ B ∈ (drawBs g R s sh).1, ∀ i j, 0 ≤ B.get [i, j]
  | [], _, B, h => by simp [drawBs] at h
  | (j, k) :: sh, s, B, h => by
    simp only [drawBs, List.mem_cons] at h
    rcases h with rfl | h
    · exact hg _ _ _
    · exact drawBs_nonneg g hg R sh _ B h

/-- The raw draws. -/
noncomputable def rawA (g : Sampler S) (s : S) (shapes : List (ℕ × ℕ)) (R : ℕ) : NDArray ℝ :=
  (g.sample s shapes.length R).1
noncomputable def rawBs (g : Sampler S) (s : S) (shapes : List (ℕ × ℕ)) (R : ℕ) : List (NDArray ℝ) :=
  (drawBs g R (g.sample s shapes.length R).2 shapes).1
noncomputable def rawC (g : Sampler S) (s : S) (shapes : List (ℕ × ℕ)) (R : ℕ) : NDArray ℝ :=
  (g.sample (drawBs g R (g.sample s shapes.length R).2 shapes).2 (shapes.headD (0, 0)).2 R).1

/-- Norm of column `r` of the first `m` rows of a matrix. -/
noncomputable def cnorm (M : NDArray ℝ) (m r : ℕ) : ℝ := √(∑ j ∈ range m, M.get [j, r] ^ 2)

/-- The explicit result. -/
theorem random_ok (g : Sampler S) (s : S) (shapes : List (ℕ × ℕ)) (R k : ℕ) (nf nb : Bool) (hne : shapes ≠ [])
    (hk : ∀ p ∈ shapes, p.2 = k) :
    ∃ (c : Fact ℝ) (x : CMFArg ℝ) (w : NDArray ℝ) (a γ : ℕ → ℝ) (b : ℕ → ℕ → ℝ),
      randomCMF g s shapes R nf nb = .ok c ∧ construct x = .ok c ∧ c.rank = R ∧
      c.weights = some w ∧ c.C.shape = [k, R] ∧ c.A.shape = [shapes.length, R] ∧ c.Bs.length = shapes.length ∧
      (∀ (i : ℕ) (p : ℕ × ℕ), shapes[i]? = some p → ∃ B B0 : NDArray ℝ, c.Bs[i]? = some B ∧ (rawBs g s shapes R)[i]? = some B0 ∧
        B.shape = [p.1, R] ∧ (∀ r, b i r = if nf || nb then cnorm B0 p.1 r else 1) ∧
        ∀ j r, B.get [j, r] = B0.get [j, r] / b i r) ∧
      (∀ i < shapes.length, ∀ r, c.A.get [i, r] = (rawA g s shapes R).get [i, r] * b i r / a r) ∧
      (∀ l r, c.C.get [l, r] = (rawC g s shapes R).get [l, r] / γ r) ∧
      (∀ r, w.get [r] = a r * γ r) ∧
      (∀ r, a r = if nf then √(∑ i ∈ range shapes.length, ((rawA g s shapes R).get [i, r] * b i r) ^ 2) else 1) ∧
      (∀ r, γ r = if nf then cnorm (rawC g s shapes R) k r else 1) := by
  obtain ⟨sh, rest, hsh⟩ := List.exists_cons_of_ne_nil hne
  have hhead : (shapes.headD (0, 0)).2 = k := by rw [hsh]; simpa using hk sh (by simp [hsh])
  have hraise : raiseIf (¬ ∀ p ∈ shapes, p.2 = (shapes.headD (0, 0)).2) = .ok () := by
    rw [raiseIf_ok, not_not, hhead]; exact hk
  have hmatch : numColumns shapes = .ok k := by
    rw [hsh]; simp [numColumns, hk sh (by simp [hsh])]
  set A0 := rawA g s shapes R with hA0
  set Bs0 := rawBs g s shapes R with hBs0
  set C0 := rawC g s shapes R with hC0
  have hA0s : A0.shape = [shapes.length, R] := g.shape _ _ _
  have hC0s : C0.shape = [k, R] := by rw [hC0, rawC, g.shape, hhead]
  have hlen : Bs0.length = shapes.length := drawBs_length _ _ _ _
  have hBsh : ∀ (i : ℕ) (p : ℕ × ℕ), shapes[i]? = some p → ∃ B, Bs0[i]? = some B ∧ B.shape = [p.1, R] :=
    fun i p h => drawBs_shape g R shapes _ i p h
  have hBsh' : ∀ B ∈ Bs0, ∃ J, B.shape = [J, R] := by
    intro B hB
    obtain ⟨i, hi, rfl⟩ := List.mem_iff_getElem.1 hB
    obtain ⟨B', h1, h2⟩ := hBsh i _ (List.getElem?_eq_getElem (by omega))
    rw [List.getElem?_eq_getElem hi, Option.some.injEq] at h1
    exact ⟨_, by rw [h1, h2]⟩
  -- the model, with the draws named
  have hunf : randomCMF g s shapes R nf nb =
      ((if nf || nb then normaliseBs A0 Bs0 else .ok (A0, Bs0) : Except PyErr _) >>= fun AB =>
      (if nf then normaliseAC AB.1 C0 else .ok (AB.1, C0, .mk1 R fun _ => 1) : Except PyErr _) >>= fun ACw =>
      construct ⟨.tensor ACw.2.2, .tensor ACw.1, .list (AB.2.map .tensor), .tensor ACw.2.1⟩) := by
    unfold randomCMF
    rw [hraise, hmatch]
    simp only [ok_bind, hA0, hBs0, hC0, rawA, rawBs, rawC, hhead]
  rw [hunf]
  have hAB : ∃ (A1 : NDArray ℝ) (Bs1 : List (NDArray ℝ)) (b : ℕ → ℕ → ℝ), (if nf || nb then normaliseBs A0 Bs0 else .ok (A0, Bs0)) = .ok (A1, Bs1) ∧
      A1.shape = [shapes.length, R] ∧ Bs1.length = shapes.length ∧
      (∀ (i : ℕ) (p : ℕ × ℕ), shapes[i]? = some p → ∃ B B0 : NDArray ℝ, Bs1[i]? = some B ∧ Bs0[i]? = some B0 ∧
        B.shape = [p.1, R] ∧ (∀ r, b i r = if nf || nb then cnorm B0 p.1 r else 1) ∧
        ∀ j r, B.get [j, r] = B0.get [j, r] / b i r) ∧
      (∀ i < shapes.length, ∀ r, A1.get [i, r] = A0.get [i, r] * b i r) := by
    by_cases h : (nf || nb) = true
    · have hzip : List.zipWith divRow Bs0 (Bs0.map colNorms) = Bs0.map fun B => divRow B (colNorms B) := by
        apply List.ext_getElem <;> simp
      obtain ⟨B, Bs', hB⟩ := List.exists_cons_of_ne_nil (l := Bs0) (by rintro h; rw [h] at hlen; simp [hsh] at hlen)
      have hstack : stack (Bs0.map colNorms) = .ok (.mk2 shapes.length R fun i r =>
          ((Bs0.map colNorms).getD i (colNorms B)).get [r]) := by
        obtain ⟨J, hJ⟩ := hBsh' B (by simp [hB])
        rw [← hlen, hB]
        simp [stack, colNorms, hJ]
      refine ⟨⟨A0.shape, fun idx => A0.get idx * (NDArray.mk2 shapes.length R fun i r =>
          ((Bs0.map colNorms).getD i (colNorms B)).get [r]).get idx⟩, Bs0.map fun B => divRow B (colNorms B),
        fun i r => ((Bs0.map colNorms).getD i (colNorms B)).get [r], ?_, hA0s, ?_, ?_, ?_⟩
      · rw [if_pos h, normaliseBs, hstack]
        simp only [ok_bind, mulMat, hA0s, mk2_shape, if_true, hzip]
        rfl
      · simp [hlen]
      · intro i p hp
        obtain ⟨B0, h1, h2⟩ := hBsh i p hp
        refine ⟨divRow B0 (colNorms B0), B0, by simp [h1], h1, by simp [divRow, h2], fun r => ?_, fun j r => ?_⟩
        · simp [h, h1, colNorms, h2, cnorm]
        · simp [h1, divRow]
      · intro i hi r
        rfl
    · refine ⟨A0, Bs0, fun _ _ => 1, by simp [h], hA0s, hlen, ?_, by simp⟩
      intro i p hp
      obtain ⟨B0, h1, h2⟩ := hBsh i p hp
      exact ⟨B0, B0, h1, h1, h2, by simp [h], by simp⟩
  obtain ⟨A1, Bs1, b, h1, hA1, hlen1, hB1, hA1'⟩ := hAB
  rw [h1, ok_bind]
  have hACw : ∃ (A2 C2 w : NDArray ℝ) (a γ : ℕ → ℝ), (if nf then normaliseAC A1 C0 else .ok (A1, C0, .mk1 R fun _ => 1)) = .ok (A2, C2, w) ∧
      A2.shape = [shapes.length, R] ∧ C2.shape = [k, R] ∧ w.shape = [R] ∧
      (∀ i r, A2.get [i, r] = A1.get [i, r] / a r) ∧
      (∀ l r, C2.get [l, r] = C0.get [l, r] / γ r) ∧
      (∀ r, w.get [r] = a r * γ r) ∧
      (∀ r, a r = if nf then √(∑ i ∈ range shapes.length, (A0.get [i, r] * b i r) ^ 2) else 1) ∧
      (∀ r, γ r = if nf then cnorm C0 k r else 1) := by
    by_cases h : nf = true
    · refine ⟨divRow A1 (colNorms A1), divRow C0 (colNorms C0),
        .mk1 R fun r => (colNorms A1).get [r] * (colNorms C0).get [r], fun r => (colNorms A1).get [r],
        fun r => (colNorms C0).get [r], ?_, by simp [divRow, hA1], by simp [divRow, hC0s], rfl, fun i r => by simp [divRow],
        fun i r => by simp [divRow], fun r => rfl, fun r => ?_, fun r => ?_⟩
      · rw [if_pos h, normaliseAC, mulVec_ok (n := R) (by simp [colNorms, hA1]) (by simp [colNorms, hC0s])]
        rfl
      · rw [if_pos h]
        simp only [colNorms, mk1_get, hA1, List.getD_cons_zero]
        congr 1
        exact sum_congr rfl fun i hi => by rw [hA1' i (mem_range.1 hi)]
      · rw [if_pos h]
        simp [colNorms, hC0s, cnorm]
    · exact ⟨A1, C0, _, fun _ => 1, fun _ => 1, by rw [if_neg h], hA1, hC0s, rfl, by simp, by simp, by simp,
        by simp [h], by simp [h]⟩
  obtain ⟨A2, C2, w, a, γ, h2, hA2, hC2, hw, hA2', hC2', hw', ha, hγ⟩ := hACw
  rw [h2, ok_bind]
  obtain ⟨c, c1, c2, c3, c4, c5, c6⟩ := construct_list (w := w) (A := A2) (C := C2) (Bs := Bs1) (k := k) (R := R) hw
    (by rw [hA2, hlen1]) hC2 (by
      intro B hB
      obtain ⟨i, hi, rfl⟩ := List.mem_iff_getElem.1 hB
      obtain ⟨B', B0, e1, e2, e3, -⟩ := hB1 i _ (List.getElem?_eq_getElem (by omega))
      rw [List.getElem?_eq_getElem hi, Option.some.injEq] at e1
      exact ⟨_, by rw [e1, e3]⟩)
  refine ⟨c, _, w, a, γ, b, c1, c1, c6, c2, by rw [c5, hC2], by rw [c3, hA2], by rw [c4, hlen1], ?_, ?_, ?_, hw', ha, hγ⟩
  · rw [c4]; exact hB1
  · intro i hi r
    rw [c3, hA2', hA1' i hi]
  · rw [c5]; exact hC2'

/-- C14, errors: ValueError exactly when the numbers of columns differ. The only other possible exception is the
IndexError for an empty collection of shapes. -/
theorem C14_error (g : Sampler S) (s : S) (shapes : List (ℕ × ℕ)) (R : ℕ) (nf nb : Bool) (e : PyErr) :
    randomCMF g s shapes R nf nb = .error e ↔
      (e = .valueError ∧ ∃ p ∈ shapes, ∃ q ∈ shapes, p.2 ≠ q.2) ∨ (e = .indexError ∧ shapes = []) := by
  rcases shapes with _ | ⟨sh, rest⟩
  · have : randomCMF g s [] R nf nb = .error .indexError := by simp [randomCMF, raiseIf, numColumns]
    rw [this]
    simp only [Except.error.injEq, List.not_mem_nil, false_and, exists_false, and_false, false_or, and_true]
    exact eq_comm
  · by_cases h : ∀ p ∈ sh :: rest, p.2 = sh.2
    · obtain ⟨c, -, -, -, -, -, hc, -⟩ := random_ok g s (sh :: rest) R sh.2 nf nb (by simp) h
      rw [hc]
      simp only [reduceCtorEq, and_false, or_false, false_iff]
      rintro ⟨-, p, hp, q, hq, hpq⟩
      exact hpq ((h p hp).trans (h q hq).symm)
    · have : raiseIf (¬ ∀ p ∈ sh :: rest, p.2 = ((sh :: rest).headD (0, 0)).2) = .error .valueError :=
        raiseIf_error.2 ⟨h, rfl⟩
      rw [randomCMF, this, error_bind]
      simp only [Except.error.injEq, reduceCtorEq, and_false, or_false]
      constructor
      · rintro rfl
        push Not at h
        obtain ⟨p, hp, hpe⟩ := h
        exact ⟨rfl, p, hp, sh, by simp, hpe⟩
      · rintro ⟨rfl, -⟩; rfl

/-- C14: a successful result has the requested shapes, rank and number of columns; if the draws are non-negative, so are
all components, whatever is normalised. -/
theorem C14_shapes_nonneg (g : Sampler S) (s : S) (shapes : List (ℕ × ℕ)) (R : ℕ) (nf nb : Bool) (c : Fact ℝ)
    (hc : randomCMF g s shapes R nf nb = .ok c) :
    c.shape = shapes ∧ c.rank = R ∧
    ((∀ s m n i j, 0 ≤ (g.sample s m n).1.get [i, j]) →
      (∀ r, 0 ≤ weightAt c.weights r) ∧ (∀ i < shapes.length, ∀ r, 0 ≤ c.A.get [i, r]) ∧
      (∀ B ∈ c.Bs, ∀ j r, 0 ≤ B.get [j, r]) ∧ ∀ l r, 0 ≤ c.C.get [l, r]) := by
  have hne : shapes ≠ [] := by
    intro h
    have := (C14_error g s shapes R nf nb .indexError).2 (Or.inr ⟨rfl, h⟩)
    rw [hc] at this; simp at this
  have hk : ∀ p ∈ shapes, p.2 = (shapes.headD (0, 0)).2 := by
    by_contra h
    push Not at h
    obtain ⟨p, hp, hpe⟩ := h
    have := (C14_error g s shapes R nf nb .valueError).2 (Or.inl ⟨rfl, p, hp, shapes.headD (0, 0), by
      obtain ⟨sh, rest, hsh⟩ := List.exists_cons_of_ne_nil hne
      simp [hsh], hpe⟩)
    rw [hc] at this; simp at this
  obtain ⟨c', x, w, a, γ, b, h1, h2, h3, h4, h5, h6, h7, h8, h9, h10, h11, h12, h13⟩ := random_ok g s shapes R _ nf nb hne hk
  rw [hc, Except.ok.injEq] at h1
  subst h1
  refine ⟨?_, h3, fun hg => ?_⟩
  · obtain ⟨-, hs⟩ := construct_ok.1 h2
    rw [hs]
    apply List.ext_getElem?
    intro i
    rcases hi : shapes[i]? with _ | p
    · have : c.Bs[i]? = none := by
        rw [List.getElem?_eq_none_iff] at hi ⊢; omega
      simp [this]
    · obtain ⟨B, B0, e1, -, e3, -⟩ := h8 i p hi
      have := hk p (List.mem_of_getElem? hi)
      simp only [List.getElem?_map, e1, Option.map_some, e3, h5, List.headD_cons, ← this]
  · have hbn : ∀ i < shapes.length, ∀ r, 0 ≤ b i r := by
      intro i hi r
      obtain ⟨B, B0, -, -, -, e, -⟩ := h8 i _ (List.getElem?_eq_getElem hi)
      rw [e]
      split
      · exact Real.sqrt_nonneg _
      · exact zero_le_one
    have han : ∀ r, 0 ≤ a r := by
      intro r; rw [h12]; split
      · exact Real.sqrt_nonneg _
      · exact zero_le_one
    have hγn : ∀ r, 0 ≤ γ r := by
      intro r; rw [h13]; split
      · exact Real.sqrt_nonneg _
      · exact zero_le_one
    refine ⟨fun r => ?_, fun i hi r => ?_, fun B hB j r => ?_, fun l r => ?_⟩
    · rw [h4]; simp only [weightAt]; rw [h11]; exact mul_nonneg (han r) (hγn r)
    · rw [h9 i hi]
      exact div_nonneg (mul_nonneg (hg _ _ _ _ _) (hbn i hi r)) (han r)
    · obtain ⟨i, hi, rfl⟩ := List.mem_iff_getElem.1 hB
      obtain ⟨B', B0, e1, e2, -, -, e4⟩ := h8 i _ (List.getElem?_eq_getElem (by omega))
      rw [List.getElem?_eq_getElem hi, Option.some.injEq] at e1
      rw [e1, e4]
      exact div_nonneg (drawBs_nonneg g hg R _ _ B0 (List.mem_of_getElem? e2) _ _) (hbn i (by omega) r)
    · rw [h10]
      exact div_nonneg (hg _ _ _ _ _) (hγn r)

/-- C14: with the same draws, the represented matrices do not depend on what is normalised. `c0` is the result without
normalisation, that is, the raw draws with unit weights; `hB`, `hA`, `hC` say that no drawn column is entirely zero. -/
theorem C14_same_matrices (g : Sampler S) (s : S) (shapes : List (ℕ × ℕ)) (R : ℕ) (nf nb : Bool) (c0 : Fact ℝ)
    (h0 : randomCMF g s shapes R false false = .ok c0)
    (hB : ∀ B ∈ c0.Bs, ∀ r < R, ∃ j < rows B, B.get [j, r] ≠ 0)
    (hA : ∀ r < R, ∃ i < shapes.length, c0.A.get [i, r] ≠ 0) (hC : ∀ r < R, ∃ l < rows c0.C, c0.C.get [l, r] ≠ 0) :
    ∃ (c : Fact ℝ) (ms0 ms : List (NDArray ℝ)), randomCMF g s shapes R nf nb = .ok c ∧
      randomMatrices g s shapes R false false = .ok ms0 ∧ randomMatrices g s shapes R nf nb = .ok ms ∧
      ms.length = ms0.length ∧
      (∀ (i : ℕ) (M : NDArray ℝ), ms0[i]? = some M → ∃ M', ms[i]? = some M' ∧ M'.shape = M.shape ∧
        ∀ j l, M'.get [j, l] = M.get [j, l]) ∧
      (nf || nb → ∀ B ∈ c.Bs, ∀ r < R, √(∑ j ∈ range (rows B), B.get [j, r] ^ 2) = 1) ∧
      (nf → ∀ r < R, √(∑ i ∈ range shapes.length, c.A.get [i, r] ^ 2) = 1 ∧
        √(∑ l ∈ range (rows c.C), c.C.get [l, r] ^ 2) = 1) := by
  have hne : shapes ≠ [] := by
    intro h
    have := (C14_error g s shapes R false false .indexError).2 (Or.inr ⟨rfl, h⟩)
    rw [h0] at this; simp at this
  have hk : ∀ p ∈ shapes, p.2 = (shapes.headD (0, 0)).2 := by
    by_contra h
    push Not at h
    obtain ⟨p, hp, hpe⟩ := h
    have := (C14_error g s shapes R false false .valueError).2 (Or.inl ⟨rfl, p, hp, shapes.headD (0, 0), by
      obtain ⟨sh, rest, hsh⟩ := List.exists_cons_of_ne_nil hne
      simp [hsh], hpe⟩)
    rw [h0] at this; simp at this
  obtain ⟨c', x, w, a, γ, b, h1, h2, h3, h4, h5, h6, h7, h8, h9, h10, h11, h12, h13⟩ :=
    random_ok g s shapes R _ false false hne hk
  rw [h0, Except.ok.injEq] at h1
  subst h1
  obtain ⟨c, x', w', a', γ', b', g1, g2, g3, g4, g5, g6, g7, g8, g9, g10, g11, g12, g13⟩ :=
    random_ok g s shapes R _ nf nb hne hk
  simp only [Bool.false_eq_true, if_false, Bool.or_self] at h8 h12 h13
  obtain ⟨ms0, m1, m2, m3⟩ := toMatrices_ok (good_of_construct h2)
  obtain ⟨ms, n1, n2, n3⟩ := toMatrices_ok (good_of_construct g2)
  have hk0 : rows c0.C = (shapes.headD (0, 0)).2 := by simp [rows, h5]
  have hk1 : rows c.C = (shapes.headD (0, 0)).2 := by simp [rows, g5]
  have sqpos : ∀ (m : ℕ) (f : ℕ → ℝ), (∃ j < m, f j ≠ 0) → 0 < ∑ j ∈ range m, f j ^ 2 := by
    rintro m f ⟨j, hj, hf⟩
    exact lt_of_lt_of_le (by positivity) (single_le_sum (f := fun j => f j ^ 2) (fun j _ => sq_nonneg _) (mem_range.2 hj))
  have unit : ∀ (m : ℕ) (f : ℕ → ℝ), 0 < ∑ j ∈ range m, f j ^ 2 →
      √(∑ j ∈ range m, (f j / √(∑ j ∈ range m, f j ^ 2)) ^ 2) = 1 := by
    intro m f h
    simp only [div_pow, Real.sq_sqrt h.le]
    rw [← sum_div, div_self h.ne', Real.sqrt_one]
  -- the norms are positive
  have hbB : ∀ i p, shapes[i]? = some p → ∃ B B0 : NDArray ℝ, c.Bs[i]? = some B ∧ c0.Bs[i]? = some B0 ∧
      B.shape = [p.1, R] ∧ B0.shape = [p.1, R] ∧ (∀ j r, B.get [j, r] = B0.get [j, r] / b' i r) ∧
      (∀ r, b' i r = if nf || nb then cnorm B0 p.1 r else 1) ∧ (∀ r < R, 0 < b' i r) ∧
      ∀ r < R, 0 < ∑ j ∈ range p.1, B0.get [j, r] ^ 2 := by
    intro i p hp
    obtain ⟨B0, Br, e1, e2, e3, e4, e5⟩ := h8 i p hp
    obtain ⟨B, Br', f1, f2, f3, f4, f5⟩ := g8 i p hp
    rw [e2, Option.some.injEq] at f2
    subst f2
    have hget : ∀ j r, B0.get [j, r] = Br.get [j, r] := by intro j r; rw [e5, e4, div_one]
    have hpos : ∀ r < R, 0 < ∑ j ∈ range p.1, B0.get [j, r] ^ 2 := by
      intro r hr
      obtain ⟨j, hj, hjr⟩ := hB B0 (List.mem_of_getElem? e1) r hr
      exact sqpos _ _ ⟨j, by simpa [rows, e3] using hj, hjr⟩
    have hb : ∀ r, b' i r = if nf || nb then cnorm B0 p.1 r else 1 := by
      intro r; rw [f4]; simp only [cnorm, hget]
    refine ⟨B, B0, f1, e1, f3, e3, by simpa [hget] using f5, hb, fun r hr => ?_, hpos⟩
    rw [hb]
    split
    · exact Real.sqrt_pos.2 (hpos r hr)
    · exact one_pos
  have hA0 : ∀ i < shapes.length, ∀ r, c0.A.get [i, r] = (rawA g s shapes R).get [i, r] := by
    intro i hi r
    obtain ⟨_, _, -, -, -, e4, -⟩ := h8 i _ (List.getElem?_eq_getElem hi)
    rw [h9 i hi, e4, h12]; simp
  have hC0 : ∀ l r, c0.C.get [l, r] = (rawC g s shapes R).get [l, r] := by
    intro l r; rw [h10, h13]; simp
  have hapos : ∀ r < R, 0 < ∑ i ∈ range shapes.length, ((rawA g s shapes R).get [i, r] * b' i r) ^ 2 := by
    intro r hr
    obtain ⟨i, hi, hir⟩ := hA r hr
    refine sqpos _ (fun i => (rawA g s shapes R).get [i, r] * b' i r) ⟨i, hi, mul_ne_zero (by rwa [← hA0 i hi]) ?_⟩
    obtain ⟨_, _, -, -, -, -, -, -, h, -⟩ := hbB i _ (List.getElem?_eq_getElem hi)
    exact (h r hr).ne'
  have ha' : ∀ r < R, a' r ≠ 0 := by
    intro r hr
    rw [g12]
    split
    · exact (Real.sqrt_pos.2 (hapos r hr)).ne'
    · exact one_ne_zero
  have hγpos : ∀ r < R, 0 < ∑ l ∈ range (rows c.C), (rawC g s shapes R).get [l, r] ^ 2 := by
    intro r hr
    obtain ⟨l, hl, hlr⟩ := hC r hr
    exact sqpos _ (fun l => (rawC g s shapes R).get [l, r]) ⟨l, by omega, by rwa [← hC0]⟩
  have hγ' : ∀ r < R, γ' r ≠ 0 := by
    intro r hr
    rw [g13]
    split
    · rw [← hk1]; exact (Real.sqrt_pos.2 (hγpos r hr)).ne'
    · exact one_ne_zero
  refine ⟨c, ms0, ms, g1, ?_, ?_, by omega, ?_, ?_, ?_⟩
  · rw [randomMatrices, h0]; exact m1
  · rw [randomMatrices, g1]; exact n1
  · intro i M hM
    have hi : i < shapes.length := by rw [← h7, ← m2]; exact (List.getElem?_eq_some_iff.1 hM).1
    obtain ⟨B, B0, e1, e2, e3, e4, e5, -, e6, -⟩ := hbB i _ (List.getElem?_eq_getElem hi)
    obtain ⟨M0, p1, p2, p3⟩ := m3 i B0 e2
    obtain ⟨M', q1, q2, q3⟩ := n3 i B e1
    rw [hM, Option.some.injEq] at p1
    subst p1
    refine ⟨M', q1, by rw [q2, p2, hk0, hk1]; simp [rows, e3, e4], fun j l => ?_⟩
    rw [q3, p3, matOf_repr, matOf_repr]
    simp only [reprEntry, h3, g3, h4, g4, weightAt, h11, g11]
    refine sum_congr rfl fun r hr => ?_
    have hr := mem_range.1 hr
    rw [e5, g9 i hi, g10, h12, h13, hA0 i hi, hC0]
    have := (e6 r hr).ne'
    have := ha' r hr
    have := hγ' r hr
    field_simp
  · intro hn B' hB' r hr
    obtain ⟨i, hi, rfl⟩ := List.mem_iff_getElem.1 hB'
    obtain ⟨B, B0, e1, e2, e3, e4, e5, e7, e6, e8⟩ := hbB i _ (List.getElem?_eq_getElem (by omega))
    rw [List.getElem?_eq_getElem hi, Option.some.injEq] at e1
    simp only [e1, rows, e3, List.headD_cons, e5, e7, if_pos hn, cnorm]
    exact unit _ (fun j => B0.get [j, r]) (e8 r hr)
  · intro hn r hr
    constructor
    · have : ∀ i ∈ range shapes.length, c.A.get [i, r] ^ 2 = ((rawA g s shapes R).get [i, r] * b' i r / a' r) ^ 2 := by
        intro i hi; rw [g9 i (mem_range.1 hi)]
      rw [sum_congr rfl this, g12, if_pos hn]
      exact unit _ (fun i => (rawA g s shapes R).get [i, r] * b' i r) (hapos r hr)
    · simp only [g10, g13, if_pos hn, cnorm, ← hk1]
      exact unit _ (fun l => (rawC g s shapes R).get [l, r]) (hγpos r hr)

/-- A source (all entries 1/2) for which all hypotheses hold, with two matrices of different sizes and rank 2. -/
example : ∃ (g : Sampler Unit) (c0 : Fact ℝ), (∀ s m n i j, 0 ≤ (g.sample s m n).1.get [i, j]) ∧
    randomCMF g () [(3, 4), (2, 4)] 2 false false = .ok c0 ∧
    (∀ B ∈ c0.Bs, ∀ r < 2, ∃ j < rows B, B.get [j, r] ≠ 0) ∧
    (∀ r < 2, ∃ i < 2, c0.A.get [i, r] ≠ 0) ∧ (∀ r < 2, ∃ l < rows c0.C, c0.C.get [l, r] ≠ 0) := by
  let g : Sampler Unit := ⟨fun _ m n => (⟨[m, n], fun _ => 1 / 2⟩, ()), fun _ _ _ => rfl⟩
  have hget : ∀ s m n idx, (g.sample s m n).1.get idx = 1 / 2 := fun _ _ _ _ => rfl
  refine ⟨g, ⟨some (.mk1 2 fun _ => 1), ⟨[2, 2], fun _ => 1 / 2⟩, [⟨[3, 2], fun _ => 1 / 2⟩, ⟨[2, 2], fun _ => 1 / 2⟩],
    ⟨[4, 2], fun _ => 1 / 2⟩, [(3, 4), (2, 4)], 2⟩, fun s m n i j => by rw [hget]; norm_num, ?_, ?_, ?_, ?_⟩
  · simp [randomCMF, raiseIf, numColumns, drawBs, g, construct, checkWeights, checkMat, BArg.iter, checkB]
  · intro B hB r hr
    simp only [List.mem_cons, List.not_mem_nil, or_false] at hB
    rcases hB with rfl | rfl
    · exact ⟨0, by simp [rows], by norm_num⟩
    · exact ⟨0, by simp [rows], by norm_num⟩
  · exact fun r hr => ⟨0, by norm_num, by norm_num⟩
  · exact fun r hr => ⟨0, by simp [rows], by norm_num⟩

end Verif.Props
