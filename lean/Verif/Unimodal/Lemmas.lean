import Verif.Tac
import Verif.Spec.Unimodal
import Verif.Unimodal.Model

/-!
# Helper lemmas: the pool-adjacent-violators invariant
-/

set_option linter.unusedSectionVars false

namespace Verif.Unimodal

open Finset

variable {K : Type} [Field K] [LinearOrder K] [IsStrictOrderedRing K]

/-- Invariant of one block `[idx k, k]`. -/
structure BlkCore (w y : ℕ → K) (s : PState K) (k : ℕ) : Prop where
  le : s.idx k ≤ k
  swy : s.sumwy k = ∑ j ∈ Ico (s.idx k) (k + 1), w j * y j
  swy2 : s.sumwy2 k = ∑ j ∈ Ico (s.idx k) (k + 1), w j * y j * y j
  sw : s.sumw k = ∑ j ∈ Ico (s.idx k) (k + 1), w j
  lev : s.level k * s.sumw k = s.sumwy k
  part : ∀ m, s.idx k ≤ m → m ≤ k → 0 ≤ ∑ j ∈ Ico (s.idx k) (m + 1), w j * (y j - s.level k)

/-- The block's level is above that of the block to its left. -/
def BlkStrict (s : PState K) (k : ℕ) : Prop := s.idx k ≠ 0 → s.level (s.idx k - 1) < s.level k

/-- Two states agree except for the block data at `i`. -/
structure SameOff (i : ℕ) (s t : PState K) : Prop where
  swy : ∀ j, j ≠ i → t.sumwy j = s.sumwy j
  swy2 : ∀ j, j ≠ i → t.sumwy2 j = s.sumwy2 j
  sw : ∀ j, j ≠ i → t.sumw j = s.sumw j
  level : ∀ j, j ≠ i → t.level j = s.level j
  idx : ∀ j, j ≠ i → t.idx j = s.idx j
  error : t.error = s.error
  thr : t.thr = s.thr

theorem SameOff.rfl' (i : ℕ) (s : PState K) : SameOff i s s := by
  constructor <;> intros <;> rfl

theorem SameOff.trans {i : ℕ} {s t u : PState K} (h : SameOff i s t) (h' : SameOff i t u) : SameOff i s u where
  swy j hj := (h'.swy j hj).trans (h.swy j hj)
  swy2 j hj := (h'.swy2 j hj).trans (h.swy2 j hj)
  sw j hj := (h'.sw j hj).trans (h.sw j hj)
  level j hj := (h'.level j hj).trans (h.level j hj)
  idx j hj := (h'.idx j hj).trans (h.idx j hj)
  error := h'.error.trans h.error
  thr := h'.thr.trans h.thr

theorem BlkCore.congr {w y : ℕ → K} {i : ℕ} {s t : PState K} (h : SameOff i s t) {k : ℕ} (hk : k ≠ i)
    (hb : BlkCore w y s k) : BlkCore w y t k := by
  obtain ⟨a, b, c, d, e, f⟩ := hb
  constructor
  · rw [h.idx k hk]; exact a
  · rw [h.idx k hk, h.swy k hk]; exact b
  · rw [h.idx k hk, h.swy2 k hk]; exact c
  · rw [h.idx k hk, h.sw k hk]; exact d
  · rw [h.level k hk, h.sw k hk, h.swy k hk]; exact e
  · rw [h.idx k hk, h.level k hk]; exact f

theorem BlkStrict.congr {i : ℕ} {s t : PState K} (h : SameOff i s t) {k : ℕ} (hk : k < i)
    (hle : s.idx k ≤ k) (hb : BlkStrict s k) : BlkStrict t k := by
  unfold BlkStrict at *
  rw [h.idx k hk.ne, h.level k hk.ne, h.level _ (by omega)]
  exact hb

/-- One merge keeps the block invariant. -/
theorem merge_core {w y : ℕ → K} {s : PState K} {i p : ℕ} (hp : p + 1 = s.idx i)
    (hw : ∀ j, j ≤ i → 0 < w j) (hi : BlkCore w y s i) (hpb : BlkCore w y s p) (hle : s.level i ≤ s.level p)
    {t : PState K} (tidx : t.idx i = s.idx p) (tswy : t.sumwy i = s.sumwy i + s.sumwy p)
    (tswy2 : t.sumwy2 i = s.sumwy2 i + s.sumwy2 p) (tsw : t.sumw i = s.sumw i + s.sumw p)
    (tlev : t.level i = (s.sumwy i + s.sumwy p) / (s.sumw i + s.sumw p)) :
    BlkCore w y t i := by
  have hip : s.idx i ≤ i := hi.le
  have hpp : s.idx p ≤ p := hpb.le
  have hpi : p < i := by omega
  have cat : ∀ f : ℕ → K, ∑ j ∈ Ico (s.idx i) (i + 1), f j + ∑ j ∈ Ico (s.idx p) (p + 1), f j
      = ∑ j ∈ Ico (s.idx p) (i + 1), f j := by
    intro f
    rw [add_comm, ← hp]
    exact sum_Ico_consecutive f (by omega) (by omega)
  have hWi : 0 < s.sumw i := by
    rw [hi.sw]
    apply sum_pos
    · intro j hj; simp only [mem_Ico] at hj; exact hw j (by omega)
    · exact ⟨i, by simp [hi.le]⟩
  have hWp : 0 < s.sumw p := by
    rw [hpb.sw]
    apply sum_pos
    · intro j hj; simp only [mem_Ico] at hj; exact hw j (by omega)
    · exact ⟨p, by simp [hpb.le]⟩
  set c := t.level i with hc
  have hcmul : c * (s.sumw i + s.sumw p) = s.sumwy i + s.sumwy p := by
    rw [tlev]; field_simp
  have hci : s.level i ≤ c := by
    have h1 : s.level i * s.sumw p ≤ s.level p * s.sumw p := mul_le_mul_of_nonneg_right hle hWp.le
    have h2 : s.level i * (s.sumw i + s.sumw p) ≤ c * (s.sumw i + s.sumw p) := by
      rw [hcmul, ← hi.lev, ← hpb.lev]; linarith
    exact le_of_mul_le_mul_right h2 (by positivity)
  have hcp : c ≤ s.level p := by
    have h1 : s.level i * s.sumw i ≤ s.level p * s.sumw i := mul_le_mul_of_nonneg_right hle hWi.le
    have h2 : c * (s.sumw i + s.sumw p) ≤ s.level p * (s.sumw i + s.sumw p) := by
      rw [hcmul, ← hi.lev, ← hpb.lev]; linarith
    exact le_of_mul_le_mul_right h2 (by positivity)
  have shift : ∀ (a b : ℕ) (l : K), ∑ j ∈ Ico a b, w j * (y j - c)
      = ∑ j ∈ Ico a b, w j * (y j - l) + (l - c) * ∑ j ∈ Ico a b, w j := by
    intro a b l
    rw [mul_sum, ← sum_add_distrib]
    exact sum_congr rfl fun j _ => by ring
  refine ⟨by omega, ?_, ?_, ?_, ?_, ?_⟩
  · rw [tidx, tswy, hi.swy, hpb.swy, cat]
  · rw [tidx, tswy2, hi.swy2, hpb.swy2, cat]
  · rw [tidx, tsw, hi.sw, hpb.sw, cat]
  · rw [tsw, tswy]; exact hcmul
  · intro m hm1 hm2
    rw [tidx] at hm1 ⊢
    rcases Nat.lt_or_ge p m with hlt | hge
    · -- the part beyond the left block
      rw [← sum_Ico_consecutive _ (show s.idx p ≤ p + 1 by omega) (show p + 1 ≤ m + 1 by omega)]
      have e1 : ∑ j ∈ Ico (s.idx p) (p + 1), w j * (y j - c) = (c - s.level i) * s.sumw i := by
        have : ∑ j ∈ Ico (s.idx p) (p + 1), w j * (y j - c)
            = ∑ j ∈ Ico (s.idx p) (p + 1), w j * y j - c * ∑ j ∈ Ico (s.idx p) (p + 1), w j := by
          rw [mul_sum, ← sum_sub_distrib]
          exact sum_congr rfl fun j _ => by ring
        rw [this, ← hpb.swy, ← hpb.sw]
        have := hi.lev
        linear_combination this - hcmul
      have e2 := shift (p + 1) (m + 1) (s.level i)
      have e3 : 0 ≤ ∑ j ∈ Ico (p + 1) (m + 1), w j * (y j - s.level i) := by
        rw [hp]; exact hi.part m (by omega) hm2
      have e4 : ∑ j ∈ Ico (p + 1) (m + 1), w j ≤ s.sumw i := by
        rw [hi.sw, ← hp]
        apply sum_le_sum_of_subset_of_nonneg
        · intro j; simp only [mem_Ico]; omega
        · intro j hj _; simp only [mem_Ico] at hj; exact (hw j (by omega)).le
      rw [e1, e2]
      have : (c - s.level i) * ∑ j ∈ Ico (p + 1) (m + 1), w j ≤ (c - s.level i) * s.sumw i :=
        mul_le_mul_of_nonneg_left e4 (by linarith)
      linarith
    · rw [shift _ _ (s.level p)]
      have e3 := hpb.part m hm1 hge
      have e4 : 0 ≤ ∑ j ∈ Ico (s.idx p) (m + 1), w j := by
        apply sum_nonneg; intro j hj; simp only [mem_Ico] at hj; exact (hw j (by omega)).le
      have := mul_nonneg (sub_nonneg.2 hcp) e4
      linarith

/-- The `while` loop: enough fuel, frame, block invariant, and exit condition. -/
theorem mergeLoop_spec {w y : ℕ → K} (n : ℕ) : ∀ (f i : ℕ) (s : PState K), s.idx i ≤ f →
    (∀ j, j ≤ i → 0 < w j) → (∀ k, k < i → BlkCore w y s k) → BlkCore w y s i →
    SameOff i s (mergeLoop id n f i s) ∧ BlkCore w y (mergeLoop id n f i s) i ∧
      BlkStrict (mergeLoop id n f i s) i := by
  intro f
  induction f with
  | zero =>
    intro i s hf hw hk hi
    refine ⟨SameOff.rfl' _ _, hi, ?_⟩
    intro h
    simp only [mergeLoop] at h
    omega
  | succ f ih =>
    intro i s hf hw hk hi
    rw [mergeLoop]
    split
    · rename_i hcond
      obtain ⟨h1, h2⟩ := hcond
      have hp : (s.idx i - 1) + 1 = s.idx i := by omega
      have hpi : s.idx i - 1 < i := by have := hi.le; omega
      simp only [predIdx, h2, if_false] at h1
      set s2 : PState K := { mergeInto id i (s.idx i - 1) s with
        idx := Function.update (mergeInto id i (s.idx i - 1) s).idx i
          ((mergeInto id i (s.idx i - 1) s).idx ((mergeInto id i (s.idx i - 1) s).idx i - 1)) } with hs2
      have hsame : SameOff i s s2 := by
        constructor <;> intros <;> simp [mergeInto, *]
      have hidx : s2.idx i = s.idx (s.idx i - 1) := by simp [hs2, mergeInto]
      have hcore : BlkCore w y s2 i := by
        refine merge_core hp hw hi (hk _ hpi) h1 hidx ?_ ?_ ?_ ?_ <;> simp [hs2, mergeInto]
      have hle := (hk _ hpi).le
      obtain ⟨a, b, c⟩ := ih i s2 (by omega) hw (fun k hk' => (hk k hk').congr hsame hk'.ne) hcore
      exact ⟨hsame.trans a, b, c⟩
    · rename_i hcond
      refine ⟨SameOff.rfl' _ _, hi, ?_⟩
      intro h
      by_contra hcon
      apply hcond
      refine ⟨?_, h⟩
      simpa [predIdx, h] using not_lt.1 hcon

/-- Invariant after samples `0..k` have been processed. -/
structure Inv (nn : Bool) (w y : ℕ → K) (k : ℕ) (s : PState K) : Prop where
  core : ∀ j, j ≤ k → BlkCore w y s j
  strict : ∀ j, j ≤ k → BlkStrict s j
  rawy : ∀ j, k < j → s.sumwy j = w j * y j
  rawy2 : ∀ j, k < j → s.sumwy2 j = w j * y j * y j
  raww : ∀ j, k < j → s.sumw j = w j
  thr : ∀ j, j ≤ k → (s.thr j = true ↔ nn = true ∧ s.level j < 0)
  thr' : ∀ j, k < j → s.thr j = false
  err0 : s.error 0 = 0
  err : ∀ j, j ≤ k → s.error (j + 1) = if nn = true ∧ s.level j < 0 then ∑ l ∈ range (j + 1), w l * y l * y l
    else (s.sumwy2 j - s.sumwy j ^ 2 / s.sumw j) + s.error (s.idx j)

theorem cumsum_eq (x : ℕ → K) (k : ℕ) : cumsum x k = ∑ j ∈ range (k + 1), x j := by
  induction k with
  | zero => simp [cumsum]
  | succ k ih => rw [cumsum, ih, sum_range_succ _ (k + 1)]

theorem single_core {w y : ℕ → K} {s : PState K} {i : ℕ} (h1 : s.idx i = i) (h2 : s.sumwy i = w i * y i)
    (h3 : s.sumwy2 i = w i * y i * y i) (h4 : s.sumw i = w i) (h5 : s.level i = y i) : BlkCore w y s i := by
  have e : Ico i (i + 1) = {i} := by ext j; simp
  refine ⟨h1.le, ?_, ?_, ?_, ?_, ?_⟩
  · rw [h1, e, h2]; simp
  · rw [h1, e, h3]; simp
  · rw [h1, e, h4]; simp
  · rw [h5, h4, h2]; ring
  · intro m hm1 hm2
    have : m = i := by omega
    subst this
    rw [h1, e]; simp [h5]

theorem inv_init (nn : Bool) (w y : ℕ → K) (hw : 0 < w 0) : Inv nn w y 0 (initState nn w y) := by
  refine ⟨?_, ?_, ?_, ?_, ?_, ?_, ?_, ?_, ?_⟩
  · intro j hj
    obtain rfl : j = 0 := by omega
    apply single_core <;> simp [initState]
  · intro j hj
    obtain rfl : j = 0 := by omega
    intro h; simp [initState] at h
  · intros; simp [initState]
  · intros; simp [initState]
  · intros; simp [initState]
  · intro j hj
    obtain rfl : j = 0 := by omega
    simp [initState]
  · intro j hj
    have : j ≠ 0 := by omega
    simp [initState, this]
  · simp [initState]
  · intro j hj
    obtain rfl : j = 0 := by omega
    by_cases h : nn = true ∧ y 0 < 0
    · simp [initState, h, cumsum]
    · have hw' := hw.ne'
      by_cases hnn : nn = true
      · simp only [hnn, true_and] at h
        simp [initState, h, hnn]
        field_simp
        ring
      · simp [initState, hnn]
        field_simp
        ring

theorem inv_body {nn : Bool} {w y : ℕ → K} {n k : ℕ} {s : PState K} (hw : ∀ j, j ≤ k + 1 → 0 < w j)
    (h : Inv nn w y k s) :
    Inv nn w y (k + 1) (body id n nn y (cumsum fun j => w j * y j * y j) (k + 1) s) := by
  set s1 : PState K := { s with level := Function.update s.level (k + 1) (y (k + 1)),
                                idx := Function.update s.idx (k + 1) (k + 1) } with hs1
  have hsame1 : SameOff (k + 1) s s1 := by
    constructor <;> intros <;> simp [*]
  have hcore1 : BlkCore w y s1 (k + 1) := by
    apply single_core
    · simp [hs1]
    · simpa [hs1] using h.rawy (k + 1) (by omega)
    · simpa [hs1] using h.rawy2 (k + 1) (by omega)
    · simpa [hs1] using h.raww (k + 1) (by omega)
    · simp [hs1]
  obtain ⟨hsame2, hcore2, hstrict2⟩ := mergeLoop_spec (w := w) (y := y) n (k + 1) (k + 1) s1 (by simp [hs1]) hw
    (fun j hj => (h.core j (by omega)).congr hsame1 hj.ne) hcore1
  set s2 := mergeLoop id n (k + 1) (k + 1) s1 with hs2
  have hsame := hsame1.trans hsame2
  have hidx2 : s2.idx (k + 1) ≤ k + 1 := hcore2.le
  -- the final state only differs from s2 in `thr` and `error`
  set s3 := body id n nn y (cumsum fun j => w j * y j * y j) (k + 1) s with hs3
  have hb : s3 = if nn = true ∧ s2.level (k + 1) < 0 then
      { s2 with thr := Function.update s2.thr (k + 1) true,
                error := Function.update s2.error (k + 2) ((cumsum fun j => w j * y j * y j) (k + 1)) }
      else { s2 with error := Function.update s2.error (k + 2) (
                s2.sumwy2 (k + 1) - s2.sumwy (k + 1) ^ 2 / s2.sumw (k + 1) + s2.error (s2.idx (k + 1))) } := rfl
  have f1 : s3.sumwy = s2.sumwy := by rw [hb]; split <;> rfl
  have f2 : s3.sumwy2 = s2.sumwy2 := by rw [hb]; split <;> rfl
  have f3 : s3.sumw = s2.sumw := by rw [hb]; split <;> rfl
  have f4 : s3.level = s2.level := by rw [hb]; split <;> rfl
  have f5 : s3.idx = s2.idx := by rw [hb]; split <;> rfl
  have f6 : ∀ j, j ≤ k + 1 → s3.error j = s.error j := by
    intro j hj
    rw [hb]
    have : j ≠ k + 2 := by omega
    split <;> simp [Function.update_of_ne this, hsame.error]
  have f7 : ∀ j, j ≠ k + 1 → s3.thr j = s.thr j := by
    intro j hj
    rw [hb]
    split <;> simp [Function.update_of_ne hj, hsame.thr]
  have core3 : ∀ j, BlkCore w y s2 j → BlkCore w y s3 j := by
    rintro j ⟨a, b, c, d, e, f⟩
    constructor <;> simp only [f1, f2, f3, f4, f5] <;> assumption
  refine ⟨?_, ?_, ?_, ?_, ?_, ?_, ?_, ?_, ?_⟩
  · intro j hj
    apply core3
    rcases Nat.lt_or_ge j (k + 1) with hlt | hge
    · exact (h.core j (by omega)).congr hsame hlt.ne
    · obtain rfl : j = k + 1 := by omega
      exact hcore2
  · intro j hj
    have : BlkStrict s2 j := by
      rcases Nat.lt_or_ge j (k + 1) with hlt | hge
      · exact BlkStrict.congr hsame hlt (h.core j (by omega)).le (h.strict j (by omega))
      · obtain rfl : j = k + 1 := by omega
        exact hstrict2
    unfold BlkStrict at *
    rw [f4, f5]; exact this
  · intro j hj; rw [f1, hsame.swy j (by omega)]; exact h.rawy j (by omega)
  · intro j hj; rw [f2, hsame.swy2 j (by omega)]; exact h.rawy2 j (by omega)
  · intro j hj; rw [f3, hsame.sw j (by omega)]; exact h.raww j (by omega)
  · intro j hj
    rcases Nat.lt_or_ge j (k + 1) with hlt | hge
    · rw [f7 j hlt.ne, f4, hsame.level j hlt.ne]; exact h.thr j (by omega)
    · obtain rfl : j = k + 1 := by omega
      rw [f4, hb]
      split
      · rename_i hc; simp [hc.1, hc.2]
      · rename_i hc
        constructor
        · intro ht
          have : s.thr (k + 1) = true := by simpa [hsame.thr] using ht
          rw [h.thr' (k + 1) (by omega)] at this
          exact absurd this (by simp)
        · intro hc'; exact absurd hc' hc
  · intro j hj; rw [f7 j (by omega)]; exact h.thr' j (by omega)
  · rw [f6 0 (by omega)]; exact h.err0
  · intro j hj
    rcases Nat.lt_or_ge j (k + 1) with hlt | hge
    · rw [f6 (j + 1) (by omega), f4, f5, f1, f2, f3, hsame.level j hlt.ne, hsame.idx j hlt.ne,
        hsame.swy j hlt.ne, hsame.swy2 j hlt.ne, hsame.sw j hlt.ne,
        f6 _ (by have := (h.core j (by omega)).le; omega)]
      exact h.err j (by omega)
    · obtain rfl : j = k + 1 := by omega
      rw [f4, f5, f1, f2, f3, f6 _ hidx2]
      rw [hb]
      split
      · simp [cumsum_eq]
      · simp [hsame.error]

theorem inv_run {nn : Bool} {w y : ℕ → K} {n : ℕ} : ∀ k, (∀ j, j ≤ k → 0 < w j) →
    Inv nn w y k (runLoop id n nn w y k)
  | 0, hw => inv_init nn w y (hw 0 le_rfl)
  | k + 1, hw => inv_body hw (inv_run k fun j hj => hw j (by omega))

end Verif.Unimodal
