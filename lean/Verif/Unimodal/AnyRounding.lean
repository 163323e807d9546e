import Verif.Unimodal.Split

/-!
# Helper lemmas: unimodal regression with any conversion of the stored levels

For an integer array the levels are rounded when they are stored. The lemmas of `Lemmas`, `Fit` and `Split` are about
the identity; the ones here hold for every conversion `rnd` that leaves the entries of `y` as they are.
-/

set_option linter.unusedSectionVars false

namespace Verif.Unimodal

open Finset Verif.Spec

variable {K : Type} [Field K] [LinearOrder K] [IsStrictOrderedRing K] {rnd : K → K}

/-- Invariant of one block `[idx k, k]` with rounded levels. -/
structure BlkW (rnd : K → K) (w y : ℕ → K) (s : PState K) (k : ℕ) : Prop where
  le : s.idx k ≤ k
  swy : s.sumwy k = ∑ j ∈ Ico (s.idx k) (k + 1), w j * y j
  swy2 : s.sumwy2 k = ∑ j ∈ Ico (s.idx k) (k + 1), w j * y j * y j
  sw : s.sumw k = ∑ j ∈ Ico (s.idx k) (k + 1), w j
  lev : s.level k = rnd (s.sumwy k / s.sumw k)
  const : MonoUpTo y (k + 1) → ∀ m, s.idx k ≤ m → m ≤ k → y m = y k

theorem BlkW.congr {w y : ℕ → K} {i : ℕ} {s t : PState K} (h : SameOff i s t) {k : ℕ} (hk : k ≠ i)
    (hb : BlkW rnd w y s k) : BlkW rnd w y t k := by
  obtain ⟨a, b, c, d, e, f⟩ := hb
  constructor
  · rw [h.idx k hk]; exact a
  · rw [h.idx k hk, h.swy k hk]; exact b
  · rw [h.idx k hk, h.swy2 k hk]; exact c
  · rw [h.idx k hk, h.sw k hk]; exact d
  · rw [h.level k hk, h.sw k hk, h.swy k hk]; exact e
  · rw [h.idx k hk]; exact f

theorem BlkW.sw_pos {w y : ℕ → K} {s : PState K} {k : ℕ} (hb : BlkW rnd w y s k)
    (hw : ∀ j, j ≤ k → 0 < w j) : 0 < s.sumw k := by
  rw [hb.sw]
  apply sum_pos
  · intro j hj; simp only [mem_Ico] at hj; exact hw j (by omega)
  · exact ⟨k, by simp [hb.le]⟩

/-- A constant block has the common value as its level and no error. -/
theorem BlkW.of_const {w y : ℕ → K} {s : PState K} {k : ℕ} (hb : BlkW rnd w y s k)
    (hw : ∀ j, j ≤ k → 0 < w j) (hr : rnd (y k) = y k) (hc : ∀ m, s.idx k ≤ m → m ≤ k → y m = y k) :
    s.level k = y k ∧ s.sumwy2 k - s.sumwy k ^ 2 / s.sumw k = 0 := by
  have hW := hb.sw_pos hw
  have e1 : s.sumwy k = y k * s.sumw k := by
    rw [hb.swy, hb.sw, mul_sum]
    refine sum_congr rfl fun j hj => ?_
    simp only [mem_Ico] at hj
    rw [hc j hj.1 (by omega), mul_comm]
  have e2 : s.sumwy2 k = y k * y k * s.sumw k := by
    rw [hb.swy2, hb.sw, mul_sum]
    refine sum_congr rfl fun j hj => ?_
    simp only [mem_Ico] at hj
    rw [hc j hj.1 (by omega)]; ring
  refine ⟨?_, ?_⟩
  · rw [hb.lev, e1, mul_div_assoc, div_self hW.ne', mul_one, hr]
  · rw [e1, e2]; field_simp; ring

/-- One merge keeps the block invariant. -/
theorem mergeLoop_wspec_step {w y : ℕ → K} (i : ℕ) (s : PState K)
    (hw : ∀ j, j ≤ i → 0 < w j) (hr : ∀ j, j ≤ i → rnd (y j) = y j)
    (hk : ∀ k, k < i → BlkW rnd w y s k) (hi : BlkW rnd w y s i)
    (h1 : s.level i ≤ s.level (s.idx i - 1)) (h2 : s.idx i ≠ 0) :
    BlkW rnd w y { mergeInto rnd i (s.idx i - 1) s with
      idx := Function.update (mergeInto rnd i (s.idx i - 1) s).idx i
        ((mergeInto rnd i (s.idx i - 1) s).idx ((mergeInto rnd i (s.idx i - 1) s).idx i - 1)) } i := by
  have hp : (s.idx i - 1) + 1 = s.idx i := by omega
  have hpi : s.idx i - 1 < i := by have := hi.le; omega
  set s2 : PState K := { mergeInto rnd i (s.idx i - 1) s with
    idx := Function.update (mergeInto rnd i (s.idx i - 1) s).idx i
      ((mergeInto rnd i (s.idx i - 1) s).idx ((mergeInto rnd i (s.idx i - 1) s).idx i - 1)) } with hs2
  have hidx : s2.idx i = s.idx (s.idx i - 1) := by simp [hs2, mergeInto]
  have hpb := hk _ hpi
  have hle := hpb.le
  have cat : ∀ f : ℕ → K, ∑ j ∈ Ico (s.idx i) (i + 1), f j
      + ∑ j ∈ Ico (s.idx (s.idx i - 1)) (s.idx i - 1 + 1), f j
      = ∑ j ∈ Ico (s.idx (s.idx i - 1)) (i + 1), f j := by
    intro f
    rw [add_comm, hp]
    exact sum_Ico_consecutive f (by omega) (by have := hi.le; omega)
  refine ⟨by omega, ?_, ?_, ?_, ?_, ?_⟩
  · rw [hidx, ← cat, ← hi.swy, ← hpb.swy]; simp [hs2, mergeInto]
  · rw [hidx, ← cat, ← hi.swy2, ← hpb.swy2]; simp [hs2, mergeInto]
  · rw [hidx, ← cat, ← hi.sw, ← hpb.sw]; simp [hs2, mergeInto]
  · simp [hs2, mergeInto]
  · intro hm m hm1 hm2
    rw [hidx] at hm1
    have hmp : MonoUpTo y (s.idx i - 1 + 1) := fun a b hab hb => hm a b hab (by omega)
    have c1 := hi.const hm
    have c2 := hpb.const hmp
    have l1 := (hi.of_const hw (hr i le_rfl) c1).1
    have l2 := (hpb.of_const (fun j hj => hw j (by omega)) (hr _ hpi.le) c2).1
    rw [l1, l2] at h1
    have h3 : y (s.idx i - 1) = y i := le_antisymm (hm _ _ hpi.le (by omega)) h1
    rcases Nat.lt_or_ge m (s.idx i) with hlt | hge
    · rw [c2 m hm1 (by omega), h3]
    · exact c1 m hge hm2

theorem mergeLoop_wspec {w y : ℕ → K} (n : ℕ) : ∀ (f i : ℕ) (s : PState K), s.idx i ≤ f →
    (∀ j, j ≤ i → 0 < w j) → (∀ j, j ≤ i → rnd (y j) = y j) →
    (∀ k, k < i → BlkW rnd w y s k) → BlkW rnd w y s i →
    SameOff i s (mergeLoop rnd n f i s) ∧ BlkW rnd w y (mergeLoop rnd n f i s) i ∧
      BlkStrict (mergeLoop rnd n f i s) i := by
  intro f
  induction f with
  | zero =>
    intro i s hf hw hr hk hi
    refine ⟨SameOff.rfl' _ _, hi, ?_⟩
    intro h
    simp only [mergeLoop] at h
    omega
  | succ f ih =>
    intro i s hf hw hr hk hi
    rw [mergeLoop]
    split
    · rename_i hcond
      obtain ⟨h1, h2⟩ := hcond
      have hp : (s.idx i - 1) + 1 = s.idx i := by omega
      have hpi : s.idx i - 1 < i := by have := hi.le; omega
      simp only [predIdx, h2, if_false] at h1
      set s2 : PState K := { mergeInto rnd i (s.idx i - 1) s with
        idx := Function.update (mergeInto rnd i (s.idx i - 1) s).idx i
          ((mergeInto rnd i (s.idx i - 1) s).idx ((mergeInto rnd i (s.idx i - 1) s).idx i - 1)) } with hs2
      have hsame : SameOff i s s2 := by
        constructor <;> intros <;> simp [mergeInto, *]
      have hidx : s2.idx i = s.idx (s.idx i - 1) := by simp [hs2, mergeInto]
      have hcore : BlkW rnd w y s2 i := mergeLoop_wspec_step i s hw hr hk hi h1 h2
      have hle := (hk _ hpi).le
      obtain ⟨a, b, c⟩ := ih i s2 (by omega) hw hr (fun k hk' => (hk k hk').congr hsame hk'.ne) hcore
      exact ⟨hsame.trans a, b, c⟩
    · rename_i hcond
      refine ⟨SameOff.rfl' _ _, hi, ?_⟩
      intro h
      by_contra hcon
      apply hcond
      refine ⟨?_, h⟩
      simpa [predIdx, h] using not_lt.1 hcon

/-- Invariant after samples `0..k` have been processed. -/
structure WInv (rnd : K → K) (nn : Bool) (w y : ℕ → K) (k : ℕ) (s : PState K) : Prop where
  core : ∀ j, j ≤ k → BlkW rnd w y s j
  strict : ∀ j, j ≤ k → BlkStrict s j
  rawy : ∀ j, k < j → s.sumwy j = w j * y j
  rawy2 : ∀ j, k < j → s.sumwy2 j = w j * y j * y j
  raww : ∀ j, k < j → s.sumw j = w j
  thr : ∀ j, j ≤ k → (s.thr j = true ↔ nn = true ∧ s.level j < 0)
  thr' : ∀ j, k < j → s.thr j = false
  err0 : s.error 0 = 0
  err : ∀ j, j ≤ k → s.error (j + 1) = if nn = true ∧ s.level j < 0 then ∑ l ∈ range (j + 1), w l * y l * y l
    else (s.sumwy2 j - s.sumwy j ^ 2 / s.sumw j) + s.error (s.idx j)

theorem single_wcore {w y : ℕ → K} {s : PState K} {i : ℕ} (hw : 0 < w i) (hr : rnd (y i) = y i)
    (h1 : s.idx i = i) (h2 : s.sumwy i = w i * y i)
    (h3 : s.sumwy2 i = w i * y i * y i) (h4 : s.sumw i = w i) (h5 : s.level i = y i) : BlkW rnd w y s i := by
  have e : Ico i (i + 1) = {i} := by ext j; simp
  refine ⟨h1.le, ?_, ?_, ?_, ?_, ?_⟩
  · rw [h1, e, h2]; simp
  · rw [h1, e, h3]; simp
  · rw [h1, e, h4]; simp
  · rw [h5, h4, h2, mul_div_assoc, mul_div_cancel₀ _ hw.ne', hr]
  · intro _ m hm1 hm2
    rw [show m = i by omega]

theorem winv_init (nn : Bool) (w y : ℕ → K) (hw : 0 < w 0) (hr : rnd (y 0) = y 0) :
    WInv rnd nn w y 0 (initState nn w y) := by
  have h := inv_init nn w y hw
  refine ⟨?_, h.strict, h.rawy, h.rawy2, h.raww, h.thr, h.thr', h.err0, h.err⟩
  intro j hj
  obtain rfl : j = 0 := by omega
  apply single_wcore hw hr <;> simp [initState]

theorem winv_body {nn : Bool} {w y : ℕ → K} {n k : ℕ} {s : PState K} (hw : ∀ j, j ≤ k + 1 → 0 < w j)
    (hr : ∀ j, j ≤ k + 1 → rnd (y j) = y j)
    (h : WInv rnd nn w y k s) :
    WInv rnd nn w y (k + 1) (body rnd n nn y (cumsum fun j => w j * y j * y j) (k + 1) s) := by
  set s1 : PState K := { s with level := Function.update s.level (k + 1) (y (k + 1)),
                                idx := Function.update s.idx (k + 1) (k + 1) } with hs1
  have hsame1 : SameOff (k + 1) s s1 := by
    constructor <;> intros <;> simp [*]
  have hcore1 : BlkW rnd w y s1 (k + 1) := by
    apply single_wcore (hw _ le_rfl) (hr _ le_rfl)
    · simp [hs1]
    · simpa [hs1] using h.rawy (k + 1) (by omega)
    · simpa [hs1] using h.rawy2 (k + 1) (by omega)
    · simpa [hs1] using h.raww (k + 1) (by omega)
    · simp [hs1]
  obtain ⟨hsame2, hcore2, hstrict2⟩ := mergeLoop_wspec (rnd := rnd) (w := w) (y := y) n (k + 1) (k + 1) s1 (by simp [hs1]) hw hr
    (fun j hj => (h.core j (by omega)).congr hsame1 hj.ne) hcore1
  set s2 := mergeLoop rnd n (k + 1) (k + 1) s1 with hs2
  have hsame := hsame1.trans hsame2
  have hidx2 : s2.idx (k + 1) ≤ k + 1 := hcore2.le
  -- the final state only differs from s2 in `thr` and `error`
  set s3 := body rnd n nn y (cumsum fun j => w j * y j * y j) (k + 1) s with hs3
  have hb : s3 = if nn = true ∧ s2.level (k + 1) < 0 then
      { s2 with thr := Function.update s2.thr (k + 1) true,
                error := Function.update s2.error (k + 2) ((cumsum fun j => w j * y j * y j) (k + 1)) }
      else { s2 with error := Function.update s2.error (k + 2) (
                s2.sumwy2 (k + 1) - s2.sumwy (k + 1) ^ 2 / s2.sumw (k + 1) + s2.error (s2.idx (k + 1))) } := rfl
  have f1 : s3.sumwy = s2.sumwy := by rw [hb]; split <;> rfl
  have f2 : s3.sumwy2 = s2.sumwy2 := by rw [hb]; split <;> rfl
  have f3 : s3.sumw = s2.sumw := by rw [hb]; split <;> rfl
  have f4 : s3.level = s2.level := by rw [hb]; split <;> rfl
  have f5 : s3.idx = s2.idx := by rw [hb]; split <;> rfl
  have f6 : ∀ j, j ≤ k + 1 → s3.error j = s.error j := by
    intro j hj
    rw [hb]
    have : j ≠ k + 2 := by omega
    split <;> simp [Function.update_of_ne this, hsame.error]
  have f7 : ∀ j, j ≠ k + 1 → s3.thr j = s.thr j := by
    intro j hj
    rw [hb]
    split <;> simp [Function.update_of_ne hj, hsame.thr]
  have core3 : ∀ j, BlkW rnd w y s2 j → BlkW rnd w y s3 j := by
    rintro j ⟨a, b, c, d, e, f⟩
    constructor <;> simp only [f1, f2, f3, f4, f5] <;> assumption
  refine ⟨?_, ?_, ?_, ?_, ?_, ?_, ?_, ?_, ?_⟩
  · intro j hj
    apply core3
    rcases Nat.lt_or_ge j (k + 1) with hlt | hge
    · exact (h.core j (by omega)).congr hsame hlt.ne
    · obtain rfl : j = k + 1 := by omega
      exact hcore2
  · intro j hj
    have : BlkStrict s2 j := by
      rcases Nat.lt_or_ge j (k + 1) with hlt | hge
      · exact BlkStrict.congr hsame hlt (h.core j (by omega)).le (h.strict j (by omega))
      · obtain rfl : j = k + 1 := by omega
        exact hstrict2
    unfold BlkStrict at *
    rw [f4, f5]; exact this
  · intro j hj; rw [f1, hsame.swy j (by omega)]; exact h.rawy j (by omega)
  · intro j hj; rw [f2, hsame.swy2 j (by omega)]; exact h.rawy2 j (by omega)
  · intro j hj; rw [f3, hsame.sw j (by omega)]; exact h.raww j (by omega)
  · intro j hj
    rcases Nat.lt_or_ge j (k + 1) with hlt | hge
    · rw [f7 j hlt.ne, f4, hsame.level j hlt.ne]; exact h.thr j (by omega)
    · obtain rfl : j = k + 1 := by omega
      rw [f4, hb]
      split
      · rename_i hc; simp [hc.1, hc.2]
      · rename_i hc
        constructor
        · intro ht
          have : s.thr (k + 1) = true := by simpa [hsame.thr] using ht
          rw [h.thr' (k + 1) (by omega)] at this
          exact absurd this (by simp)
        · intro hc'; exact absurd hc' hc
  · intro j hj; rw [f7 j (by omega)]; exact h.thr' j (by omega)
  · rw [f6 0 (by omega)]; exact h.err0
  · intro j hj
    rcases Nat.lt_or_ge j (k + 1) with hlt | hge
    · rw [f6 (j + 1) (by omega), f4, f5, f1, f2, f3, hsame.level j hlt.ne, hsame.idx j hlt.ne,
        hsame.swy j hlt.ne, hsame.swy2 j hlt.ne, hsame.sw j hlt.ne,
        f6 _ (by have := (h.core j (by omega)).le; omega)]
      exact h.err j (by omega)
    · obtain rfl : j = k + 1 := by omega
      rw [f4, f5, f1, f2, f3, f6 _ hidx2]
      rw [hb]
      split
      · simp [cumsum_eq]
      · simp [hsame.error]


theorem winv_run {nn : Bool} {w y : ℕ → K} {n : ℕ} : ∀ k, (∀ j, j ≤ k → 0 < w j) →
    (∀ j, j ≤ k → rnd (y j) = y j) → WInv rnd nn w y k (runLoop rnd n nn w y k)
  | 0, hw, hr => winv_init nn w y (hw 0 le_rfl) (hr 0 le_rfl)
  | k + 1, hw, hr => winv_body hw hr (winv_run k (fun j hj => hw j (by omega)) fun j hj => hr j (by omega))

theorem finLevel_weq {nn : Bool} {w y : ℕ → K} {N : ℕ} {s : PState K} (h : WInv rnd nn w y N s) {k : ℕ}
    (hk : k ≤ N) : finLevel nn s k = if nn = true ∧ s.level k < 0 then 0 else s.level k := by
  unfold finLevel
  have := h.thr k hk
  by_cases h1 : nn = true ∧ s.level k < 0
  · simp [this.2 h1, h1]
  · have h2 : ¬ (nn = true ∧ s.thr k = true) := fun hc => h1 (this.1 hc.2)
    rw [if_neg h1, if_neg h2]

/-- The squared error of a block about its mean, as the code computes it, is the sum of squares. -/
theorem block_werr {w y : ℕ → K} {s : PState K} {k : ℕ} (hb : BlkW rnd w y s k)
    (hw : ∀ j, j ≤ k → 0 < w j) :
    s.sumwy2 k - s.sumwy k ^ 2 / s.sumw k
      = ∑ j ∈ Ico (s.idx k) (k + 1), w j * (y j - s.sumwy k / s.sumw k) ^ 2 := by
  have hW := hb.sw_pos hw
  set c := s.sumwy k / s.sumw k with hc
  have hcm : c * s.sumw k = s.sumwy k := by rw [hc]; field_simp
  have e : ∀ j ∈ Ico (s.idx k) (k + 1), w j * (y j - c) ^ 2
      = w j * y j * y j - 2 * c * (w j * y j) + c ^ 2 * w j := fun j _ => by ring
  rw [sum_congr rfl e, sum_add_distrib, sum_sub_distrib, ← mul_sum, ← mul_sum, ← hb.swy, ← hb.swy2, ← hb.sw,
    ← hcm]
  field_simp
  ring

/-- What holds of the fit of a prefix of length `e` whatever the conversion of the stored levels. -/
structure WFit (rnd : K → K) (nn : Bool) (y u : ℕ → K) (e : ℕ) (err : K) : Prop where
  mono : MonoUpTo u e
  nonneg : nn = true → ∀ j, j < e → 0 ≤ u j
  val : ∀ j, j < e → u j = 0 ∨ ∃ x, u j = rnd x
  err_nonneg : 0 ≤ err
  exact : err = 0 → ∀ j, j < e → u j = y j
  err_zero : MonoUpTo y e → (nn = true → ∀ j, j < e → 0 ≤ y j) → err = 0

theorem wfit_ok {nn : Bool} {w y : ℕ → K} {N : ℕ} {s : PState K} (h : WInv rnd nn w y N s)
    (hw : ∀ j, j ≤ N → 0 < w j) (hr : ∀ j, j ≤ N → rnd (y j) = y j) : ∀ e, e ≤ N + 1 →
    WFit rnd nn y (fitFn (finLevel nn s) s.idx e) e (s.error e) ∧
      ∀ j, j < e → fitFn (finLevel nn s) s.idx e j ≤ finLevel nn s (e - 1) := by
  intro e
  induction e using Nat.strong_induction_on with
  | _ e ih =>
    intro he
    rcases Nat.eq_zero_or_pos e with rfl | hpos
    · refine ⟨⟨?_, ?_, ?_, ?_, ?_, ?_⟩, ?_⟩
      · intro i j _ hj; omega
      · intro _ j hj; omega
      · intro j hj; omega
      · rw [h.err0]
      · intro _ j hj; omega
      · intro _ _; exact h.err0
      · intro j hj; omega
    · obtain ⟨k, rfl⟩ : ∃ k, e = k + 1 := ⟨e - 1, by omega⟩
      have hk : k ≤ N := by omega
      have hb := h.core k hk
      have hwk : ∀ j, j ≤ k → 0 < w j := fun j hj => hw j (by omega)
      set a := s.idx k with ha
      have hak : a ≤ k := hb.le
      obtain ⟨ok, ub⟩ := ih a (by omega) (by omega)
      set L := finLevel nn s with hL
      set u := fitFn L s.idx (k + 1) with hu
      set u0 := fitFn L s.idx a with hu0
      have ustep : ∀ j, u j = if a ≤ j then L k else u0 j := by
        intro j
        rw [hu, fitFn]
        simp only [Nat.add_eq_zero_iff, one_ne_zero, and_false, dite_false, Nat.add_sub_cancel, ← ha]
        rw [Nat.min_eq_left hak]
      have uhi : ∀ j, a ≤ j → u j = L k := fun j hj => by rw [ustep, if_pos hj]
      have ulo : ∀ j, j < a → u j = u0 j := fun j hj => by rw [ustep, if_neg (by omega)]
      have Lk := finLevel_weq h hk
      rw [← hL] at Lk
      have L0 : nn = true → 0 ≤ L k := by
        intro hnn
        rw [Lk]
        split
        · exact le_rfl
        · rename_i hc
          by_contra hcon
          exact hc ⟨hnn, not_le.1 hcon⟩
      have Lstep : a ≠ 0 → L (a - 1) ≤ L k := by
        intro ha0
        have hs := h.strict k hk ha0
        rw [← ha] at hs
        have La := finLevel_weq h (show a - 1 ≤ N by omega)
        rw [← hL] at La
        rw [La, Lk]
        split
        · rename_i hc
          split
          · exact le_rfl
          · rename_i hc'
            by_contra hcon
            exact hc' ⟨hc.1, not_le.1 hcon⟩
        · rename_i hc
          split
          · rename_i hc'
            exfalso
            exact hc ⟨hc'.1, hs.trans hc'.2⟩
          · exact hs.le
      have ub' : ∀ j, j < k + 1 → u j ≤ L k := by
        intro j hj
        rcases Nat.lt_or_ge j a with hlt | hge
        · rw [ulo j hlt]
          exact (ub j hlt).trans (Lstep (by omega))
        · rw [uhi j hge]
      have unn : nn = true → ∀ j, j < k + 1 → 0 ≤ u j := by
        intro hnn j hj
        rcases Nat.lt_or_ge j a with hlt | hge
        · rw [ulo j hlt]; exact ok.nonneg hnn j hlt
        · rw [uhi j hge]; exact L0 hnn
      have hblk := block_werr hb hwk
      have hblk0 : 0 ≤ s.sumwy2 k - s.sumwy k ^ 2 / s.sumw k := by
        rw [hblk]
        refine sum_nonneg fun j hj => ?_
        simp only [mem_Ico] at hj
        exact mul_nonneg (hwk j (by omega)).le (sq_nonneg _)
      have hsq0 : 0 ≤ ∑ l ∈ range (k + 1), w l * y l * y l := by
        refine sum_nonneg fun j hj => ?_
        rw [mul_assoc]
        exact mul_nonneg (hwk j (by have := mem_range.1 hj; omega)).le (mul_self_nonneg _)
      refine ⟨⟨?_, unn, ?_, ?_, ?_, ?_⟩, by simpa using ub'⟩
      · intro i j hij hj
        rcases Nat.lt_or_ge j a with hlt | hge
        · rw [ulo j hlt, ulo i (by omega)]; exact ok.mono i j hij hlt
        · rw [uhi j hge]; exact ub' i (by omega)
      · intro j hj
        rcases Nat.lt_or_ge j a with hlt | hge
        · rw [ulo j hlt]; exact ok.val j hlt
        · rw [uhi j hge, Lk]
          split
          · exact Or.inl rfl
          · exact Or.inr ⟨_, hb.lev⟩
      · rw [h.err k hk]
        split
        · exact hsq0
        · exact add_nonneg hblk0 ok.err_nonneg
      · intro h0
        rw [h.err k hk] at h0
        split at h0
        · rename_i hc
          exfalso
          have hy : ∀ j, j ≤ k → y j = 0 := by
            intro j hj
            have := (sum_eq_zero_iff_of_nonneg (fun l hl => by
              rw [mul_assoc]
              exact mul_nonneg (hwk l (by have := mem_range.1 hl; omega)).le (mul_self_nonneg _))).1 h0 j
                (mem_range.2 (by omega))
            rw [mul_assoc] at this
            rcases mul_eq_zero.1 this with hz | hz
            · exact absurd hz (hwk j hj).ne'
            · exact mul_self_eq_zero.1 hz
          have := (hb.of_const hwk (hr k hk) (fun m _ hm => by rw [hy m hm, hy k le_rfl])).1
          rw [this, hy k le_rfl] at hc
          exact lt_irrefl _ hc.2
        · rename_i hc
          have hz1 : s.sumwy2 k - s.sumwy k ^ 2 / s.sumw k = 0 := by
            have := ok.err_nonneg
            linarith
          have hz2 : s.error a = 0 := by rw [hz1, zero_add] at h0; exact h0
          have hy : ∀ j, a ≤ j → j ≤ k → y j = s.sumwy k / s.sumw k := by
            intro j hj1 hj2
            rw [hblk] at hz1
            have := (sum_eq_zero_iff_of_nonneg (fun l hl => by
              simp only [mem_Ico] at hl
              exact mul_nonneg (hwk l (by omega)).le (sq_nonneg _))).1 hz1 j (mem_Ico.2 ⟨hj1, by omega⟩)
            rcases mul_eq_zero.1 this with hz | hz
            · exact absurd hz (hwk j hj2).ne'
            · exact sub_eq_zero.1 (pow_eq_zero_iff (two_ne_zero)|>.1 hz)
          have hl := (hb.of_const hwk (hr k hk) (fun m h1 h2 => by rw [hy m h1 h2, hy k hak le_rfl])).1
          intro j hj
          rcases Nat.lt_or_ge j a with hlt | hge
          · rw [ulo j hlt]; exact ok.exact hz2 j hlt
          · rw [uhi j hge, Lk, if_neg hc, hl, hy j hge (by omega), hy k hak le_rfl]
      · intro hm h0
        have hl := hb.of_const hwk (hr k hk) (hb.const hm)
        rw [h.err k hk, if_neg, hl.2, zero_add]
        · exact ok.err_zero (fun i j hij hj => hm i j hij (by omega)) (fun hnn j hj => h0 hnn j (by omega))
        · rintro ⟨hnn, hlt⟩
          rw [hl.1] at hlt
          exact absurd (h0 hnn k (by omega)) (not_le.2 hlt)

theorem prefixIsotonic_wok {n : ℕ} (hn : 0 < n) (y : ℕ → K) (nn : Bool) (hr : ∀ j, j < n → rnd (y j) = y j) :
    ∃ p, prefixIsotonic rnd n y none nn = .ok p ∧ p.error 0 = 0 ∧ ∀ k, k ≤ n →
      ∃ u, (∀ j, isoFromIndex k p.level p.idx j = if j < k then some (u j) else none) ∧
        WFit rnd nn y u k (p.error k) := by
  have inv := winv_run (rnd := rnd) (n := n) (nn := nn) (w := fun _ => 1) (y := y) (n - 1)
    (fun _ _ => one_pos) (fun j hj => hr j (by omega))
  refine ⟨_, by rw [prefixIsotonic, if_neg (by omega)], inv.err0, ?_⟩
  intro k hk
  refine ⟨_, ?_, (wfit_ok inv (fun _ _ => one_pos) (fun j hj => hr j (by omega)) k (by omega)).1⟩
  intro j
  exact isoLoop_eq _ _ _ _ _ le_rfl (fun i hi => (inv.core i (by omega)).le) j

/-- A vector that rises up to `b` and falls from `b` on is unimodal. -/
theorem isUnimodal_of_split {n : ℕ} (hn : 0 < n) {b : ℕ} (hbn : b ≤ n) (u : ℕ → K)
    (hm : ∀ i j, i ≤ j → j < b → u i ≤ u j) (ha : ∀ i j, b ≤ i → i ≤ j → j < n → u j ≤ u i) :
    IsUnimodal fun j : Fin n => u j := by
  by_cases hc : b ≠ 0 ∧ (b = n ∨ u b ≤ u (b - 1))
  · refine ⟨⟨b - 1, by omega⟩, ?_, ?_⟩
    · intro i j hij hj
      exact hm i j hij (by have : (j : ℕ) ≤ b - 1 := hj; omega)
    · intro i j hi hij
      have hi' : b - 1 ≤ (i : ℕ) := hi
      have hij' : (i : ℕ) ≤ j := hij
      rcases Nat.lt_or_ge (i : ℕ) b with h | h
      · rcases Nat.lt_or_ge (j : ℕ) b with h' | h'
        · exact le_of_eq (congrArg u (by omega))
        · have e1 : (i : ℕ) = b - 1 := by omega
          simp only [e1]
          have hlt := j.2
          rcases hc.2 with hbn' | hle
          · omega
          · exact (ha b j le_rfl h' j.2).trans hle
      · exact ha i j h hij' j.2
  · have hb' : b < n ∧ (b = 0 ∨ u (b - 1) < u b) := by
      by_cases h0 : b = 0
      · exact ⟨by omega, Or.inl h0⟩
      · have : ¬ (b = n ∨ u b ≤ u (b - 1)) := fun h => hc ⟨h0, h⟩
        push Not at this
        exact ⟨by omega, Or.inr this.2⟩
    refine ⟨⟨b, hb'.1⟩, ?_, ?_⟩
    · intro i j hij hj
      have hj' : (j : ℕ) ≤ b := hj
      have hij' : (i : ℕ) ≤ j := hij
      rcases Nat.lt_or_ge (j : ℕ) b with h | h
      · exact hm i j hij' h
      · rcases Nat.lt_or_ge (i : ℕ) b with h' | h'
        · have e1 : (j : ℕ) = b := by omega
          simp only [e1]
          rcases hb'.2 with h0 | hlt
          · omega
          · exact (hm i (b - 1) (by omega) (by omega)).trans hlt.le
        · exact le_of_eq (congrArg u (by omega))
    · intro i j hi hij
      exact ha i j hi hij j.2

/-- The one-dimensional regression for any conversion that keeps the entries of `y`. -/
theorem regression1_wok {n : ℕ} (hn : 0 < n) (y : Fin n → K) (nn : Bool) (hr : ∀ j, rnd (y j) = y j) :
    ∃ u : Fin n → K, unimodalRegression1 rnd y nn = .ok (fun j => some (u j)) ∧ IsUnimodal u ∧
      (nn = true → IsNonneg u) ∧ (∀ j, u j = 0 ∨ ∃ x, u j = rnd x) ∧
      (IsUnimodal y → (nn = true → IsNonneg y) → u = y) := by
  have hr' : ∀ j, j < n → rnd (ext y j) = ext y j := by
    intro j hj
    simp only [ext, dif_pos hj]
    exact hr _
  obtain ⟨pl, hl, hl0, okl⟩ := prefixIsotonic_wok (rnd := rnd) hn (ext y) nn hr'
  obtain ⟨pr, hrr, _, okr⟩ := prefixIsotonic_wok (rnd := rnd) hn (fun j => ext y (n - 1 - j)) nn
    (fun j hj => hr' _ (by omega))
  obtain ⟨hb1, hb2, hb3⟩ := bestIndex_spec pl.error pr.error n hl0 (n + 1)
  set b := (bestIndex pl.error pr.error n (n + 1)).1 with hb
  set e := (bestIndex pl.error pr.error n (n + 1)).2 with he
  have hbn : b ≤ n := by omega
  obtain ⟨ul, hul, fl⟩ := okl b hbn
  obtain ⟨ur, hur, fr⟩ := okr (n - b) (by omega)
  refine ⟨fun j => if (j : ℕ) < b then ul j else ur (n - 1 - j), ?_, ?_, ?_, ?_, ?_⟩
  · have h1 : unimodalFibre rnd n (ext y) nn = .ok (fun j => if j < b then isoFromIndex b pl.level pl.idx j
      else isoFromIndex (n - b) pr.level pr.idx (n - b - 1 - (j - b)), e) := by
      simp only [unimodalFibre, hl, hrr, bind, Except.bind, pure, Except.pure]
      rfl
    simp only [unimodalRegression1, h1, bind, Except.bind, pure, Except.pure]
    congr 1
    funext j
    have hj := j.2
    by_cases h1 : (j : ℕ) < b
    · rw [if_pos h1, if_pos h1, hul, if_pos h1]
    · rw [if_neg h1, if_neg h1, hur, if_pos (by omega)]
      congr 2
      omega
  · refine isUnimodal_of_split hn hbn (fun j => if j < b then ul j else ur (n - 1 - j)) ?_ ?_
    · intro i j hij hj
      rw [if_pos hj, if_pos (by omega)]
      exact fl.mono i j hij hj
    · intro i j hi hij hj
      rw [if_neg (by omega), if_neg (by omega)]
      exact fr.mono _ _ (by omega) (by omega)
  · intro hnn j
    have hj := j.2
    simp only
    split
    · exact fl.nonneg hnn j ‹_›
    · exact fr.nonneg hnn _ (by omega)
  · intro j
    have hj := j.2
    simp only
    split
    · exact fl.val j ‹_›
    · exact fr.val _ (by omega)
  · rintro ⟨t, hv1, hv2⟩ hv0
    have ht := t.2
    obtain ⟨_, _, ftl⟩ := okl t (by omega)
    obtain ⟨_, _, ftr⟩ := okr (n - t) (by omega)
    have z1 := ftl.err_zero (fun i j hij hj => by
        have hjn : j < n := by omega
        have := hv1 ⟨i, by omega⟩ ⟨j, hjn⟩ hij (Fin.mk_le_of_le_val hj.le)
        simpa [ext, hjn, show i < n by omega] using this)
      (fun hnn j hj => by
        have := hv0 hnn ⟨j, by omega⟩
        simpa [ext, show j < n by omega] using this)
    have z2 := ftr.err_zero (fun i j hij hj => by
        have h1 : n - 1 - j < n := by omega
        have h2 : n - 1 - i < n := by omega
        have := hv2 ⟨n - 1 - j, h1⟩ ⟨n - 1 - i, h2⟩ (Fin.le_def.2 (by simp only; omega))
          (Fin.le_def.2 (by simp only; omega))
        simpa only [ext, dif_pos h1, dif_pos h2] using this)
      (fun hnn j hj => by
        have h1 : n - 1 - j < n := by omega
        have := hv0 hnn ⟨n - 1 - j, h1⟩
        simpa only [ext, dif_pos h1] using this)
    have h3 := hb3 t (by omega)
    rw [z1, z2, hb1, add_zero] at h3
    have p1 := fl.err_nonneg
    have p2 := fr.err_nonneg
    have q1 : pl.error b = 0 := by linarith
    have q2 : pr.error (n - b) = 0 := by linarith
    funext j
    have hj := j.2
    split
    · rw [fl.exact q1 j ‹_›, ext_apply]
    · rw [fr.exact q2 _ (by omega), show n - 1 - (n - 1 - (j : ℕ)) = j by omega, ext_apply]

end Verif.Unimodal
