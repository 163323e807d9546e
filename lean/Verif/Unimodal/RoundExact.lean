import Verif.Unimodal.AnyRounding

/-!
# Helper lemmas: when rounded levels do not change the result

`t` is the state of the run with exact levels, `s` the state of the run with rounded levels. Where the exact fit is
left as it is by the rounding, both runs have the same blocks.
-/

set_option linter.unusedSectionVars false

namespace Verif.Unimodal

open Finset Verif.Spec

variable {K : Type} [Field K] [LinearOrder K] [IsStrictOrderedRing K] {rnd : K → K}

/-- Mean of the entries from `a` up to and including `k`. -/
def wmean (w y : ℕ → K) (a k : ℕ) : K := (∑ j ∈ Ico a (k + 1), w j * y j) / ∑ j ∈ Ico a (k + 1), w j

theorem BlkW.lev' {w y : ℕ → K} {s : PState K} {k : ℕ} (hb : BlkW rnd w y s k) :
    s.level k = rnd (wmean w y (s.idx k) k) := by
  rw [hb.lev, hb.swy, hb.sw]; rfl

/-- The merge loop does not reach below `a` if the block `[a, i]` would lie above the block that ends at `a - 1`. -/
theorem mergeLoop_ge {w y : ℕ → K} (n a : ℕ) : ∀ (f i : ℕ) (s : PState K), s.idx i ≤ f →
    (∀ j, j ≤ i → 0 < w j) → (∀ j, j ≤ i → rnd (y j) = y j) →
    (∀ k, k < i → BlkW rnd w y s k) → BlkW rnd w y s i →
    a ≤ s.idx i → (∀ k, a ≤ k → k < i → a ≤ s.idx k) →
    (a ≠ 0 → s.level (a - 1) < rnd (wmean w y a i)) → a ≤ (mergeLoop rnd n f i s).idx i := by
  intro f
  induction f with
  | zero => intro i s _ _ _ _ _ h _ _; exact h
  | succ f ih =>
    intro i s hf hw hr hk hi ha hak hlt
    rw [mergeLoop]
    split
    · rename_i hcond
      obtain ⟨h1, h2⟩ := hcond
      have hp : (s.idx i - 1) + 1 = s.idx i := by omega
      have hpi : s.idx i - 1 < i := by have := hi.le; omega
      simp only [predIdx, h2, if_false] at h1
      -- the block is not `[a, i]`
      have hne : a < s.idx i := by
        rcases Nat.lt_or_ge a (s.idx i) with h | h
        · exact h
        · exfalso
          have hai : s.idx i = a := by omega
          have := hlt (by omega)
          rw [hi.lev', hai] at h1
          exact absurd h1 (not_le.2 this)
      set s2 : PState K := { mergeInto rnd i (s.idx i - 1) s with
        idx := Function.update (mergeInto rnd i (s.idx i - 1) s).idx i
          ((mergeInto rnd i (s.idx i - 1) s).idx ((mergeInto rnd i (s.idx i - 1) s).idx i - 1)) } with hs2
      have hsame : SameOff i s s2 := by
        constructor <;> intros <;> simp [mergeInto, *]
      have hidx : s2.idx i = s.idx (s.idx i - 1) := by simp [hs2, mergeInto]
      have hpb := hk _ hpi
      have hle := hpb.le
      have hcore : BlkW rnd w y s2 i := mergeLoop_wspec_step i s hw hr hk hi h1 h2
      have ha2 := hak (s.idx i - 1) (by omega) hpi
      refine ih i s2 (by omega) hw hr (fun k hk' => (hk k hk').congr hsame hk'.ne) hcore (by omega)
        (fun k h3 h4 => by rw [hsame.idx k h4.ne]; exact hak k h3 h4) (fun h0 => ?_)
      rw [hsame.level _ (by omega)]
      exact hlt h0
    · exact ha

theorem mergeLoop_same (n : ℕ) : ∀ (f i : ℕ) (s : PState K), SameOff i s (mergeLoop rnd n f i s) := by
  intro f
  induction f with
  | zero => intro i s; exact SameOff.rfl' _ _
  | succ f ih =>
    intro i s
    rw [mergeLoop]
    split
    · refine SameOff.trans ?_ (ih i _)
      constructor <;> intros <;> simp [mergeInto, *]
    · exact SameOff.rfl' _ _

/-- Blocks of earlier samples are not touched. -/
theorem body_same {nn : Bool} {y cs : ℕ → K} {n i : ℕ} {s : PState K} {j : ℕ} (hj : j ≠ i) :
    (body rnd n nn y cs i s).level j = s.level j ∧ (body rnd n nn y cs i s).idx j = s.idx j := by
  set s1 : PState K := { s with level := Function.update s.level i (y i), idx := Function.update s.idx i i } with hs1
  have h := mergeLoop_same (rnd := rnd) n i i s1
  have h1 : (mergeLoop rnd n i i s1).level j = s.level j := by rw [h.level j hj]; simp [hs1, hj]
  have h2 : (mergeLoop rnd n i i s1).idx j = s.idx j := by rw [h.idx j hj]; simp [hs1, hj]
  rw [body]
  simp only [← hs1]
  split
  · exact ⟨h1, h2⟩
  · exact ⟨h1, h2⟩

theorem run_same {nn : Bool} {w y : ℕ → K} {n j : ℕ} : ∀ {k N : ℕ}, j ≤ k → k ≤ N →
    (runLoop rnd n nn w y N).level j = (runLoop rnd n nn w y k).level j ∧
      (runLoop rnd n nn w y N).idx j = (runLoop rnd n nn w y k).idx j := by
  intro k N hj hk
  induction N, hk using Nat.le_induction with
  | base => exact ⟨rfl, rfl⟩
  | succ N hk ih =>
    have := body_same (rnd := rnd) (nn := nn) (y := y) (cs := cumsum fun j => w j * y j * y j) (n := n)
      (i := N + 1) (s := runLoop rnd n nn w y N) (j := j) (by omega)
    exact ⟨this.1.trans ih.1, this.2.trans ih.2⟩

/-- No block of a sample from `a` on starts below `a`, if all blocks `[a, q]` would lie above the block that ends at
`a - 1`. -/
theorem run_ge {nn : Bool} {w y : ℕ → K} {n a : ℕ} : ∀ k, (∀ j, j ≤ k → 0 < w j) → (∀ j, j ≤ k → rnd (y j) = y j) →
    (a ≠ 0 → ∀ q, a ≤ q → q ≤ k → (runLoop rnd n nn w y k).level (a - 1) < rnd (wmean w y a q)) →
    ∀ q, a ≤ q → q ≤ k → a ≤ (runLoop rnd n nn w y k).idx q := by
  intro k
  induction k with
  | zero => intro _ _ _ q h1 h2; omega
  | succ k ih =>
    intro hw hr hlt q h1 h2
    have hw' : ∀ j, j ≤ k → 0 < w j := fun j hj => hw j (by omega)
    have hr' : ∀ j, j ≤ k → rnd (y j) = y j := fun j hj => hr j (by omega)
    have hlt' : a ≠ 0 → ∀ q, a ≤ q → q ≤ k → (runLoop rnd n nn w y k).level (a - 1) < rnd (wmean w y a q) := by
      intro h0 q h3 h4
      have := hlt h0 q h3 (by omega)
      rwa [(run_same (j := a - 1) (k := k) (by omega) (by omega)).1] at this
    have ih' := ih hw' hr' hlt'
    rcases Nat.lt_or_ge q (k + 1) with hq | hq
    · rw [(run_same (j := q) (k := k) (by omega) (by omega)).2]
      exact ih' q h1 (by omega)
    · obtain rfl : q = k + 1 := by omega
      have inv := winv_run (rnd := rnd) (nn := nn) (n := n) k hw' hr'
      set s := runLoop rnd n nn w y k with hs
      set s1 : PState K := { s with level := Function.update s.level (k + 1) (y (k + 1)),
                                    idx := Function.update s.idx (k + 1) (k + 1) } with hs1
      have hsame1 : SameOff (k + 1) s s1 := by
        constructor <;> intros <;> simp [*]
      have hcore1 : BlkW rnd w y s1 (k + 1) := by
        apply single_wcore (hw _ le_rfl) (hr _ le_rfl)
        · simp [hs1]
        · simpa [hs1] using inv.rawy (k + 1) (by omega)
        · simpa [hs1] using inv.rawy2 (k + 1) (by omega)
        · simpa [hs1] using inv.raww (k + 1) (by omega)
        · simp [hs1]
      have key := mergeLoop_ge (rnd := rnd) (w := w) (y := y) n a (k + 1) (k + 1) s1 (by simp [hs1]) hw hr
        (fun j hj => (inv.core j (by omega)).congr hsame1 hj.ne) hcore1 (by simpa [hs1] using h1)
        (fun j h3 h4 => by rw [hsame1.idx j h4.ne]; exact ih' j h3 (by omega))
        (fun h0 => by
          have := hlt h0 (k + 1) h1 le_rfl
          rw [(run_same (j := a - 1) (k := k) (by omega) (by omega)).1] at this
          rw [hsame1.level _ (by omega)]
          exact this)
      have e : (runLoop rnd n nn w y (k + 1)).idx (k + 1) = (mergeLoop rnd n (k + 1) (k + 1) s1).idx (k + 1) := by
        rw [runLoop, body]
        simp only [← hs, ← hs1]
        split <;> rfl
      rw [e]
      exact key

/-- In a block of the exact run the leading means are at least the level. -/
theorem Inv.mean_ge {nn : Bool} {w y : ℕ → K} {N : ℕ} {t : PState K} (h : Inv nn w y N t)
    (hw : ∀ j, j ≤ N → 0 < w j) {k q : ℕ} (hk : k ≤ N) (h1 : t.idx k ≤ q) (h2 : q ≤ k) :
    t.level k ≤ wmean w y (t.idx k) q := by
  have hp := (h.core k hk).part q h1 h2
  have hW : 0 < ∑ j ∈ Ico (t.idx k) (q + 1), w j := by
    apply sum_pos
    · intro j hj; simp only [mem_Ico] at hj; exact hw j (by omega)
    · exact ⟨q, by simp [h1]⟩
  rw [wmean, le_div_iff₀ hW, mul_sum]
  have : ∑ j ∈ Ico (t.idx k) (q + 1), w j * (y j - t.level k)
      = ∑ j ∈ Ico (t.idx k) (q + 1), w j * y j - ∑ j ∈ Ico (t.idx k) (q + 1), t.level k * w j := by
    rw [← sum_sub_distrib]
    exact sum_congr rfl fun j _ => by ring
  rw [this] at hp
  linarith

/-- In a block of the exact run the trailing means are at most the level. -/
theorem Inv.mean_le {nn : Bool} {w y : ℕ → K} {N : ℕ} {t : PState K} (h : Inv nn w y N t)
    (hw : ∀ j, j ≤ N → 0 < w j) {k q : ℕ} (hk : k ≤ N) (h1 : t.idx k ≤ q) (h2 : q ≤ k) :
    wmean w y q k ≤ t.level k := by
  have hb := h.core k hk
  have hW : 0 < ∑ j ∈ Ico q (k + 1), w j := by
    apply sum_pos
    · intro j hj; simp only [mem_Ico] at hj; exact hw j (by omega)
    · exact ⟨k, by simp [h2]⟩
  rw [wmean, div_le_iff₀ hW, mul_sum]
  have e : ∀ a b, ∑ j ∈ Ico a b, w j * (y j - t.level k)
      = ∑ j ∈ Ico a b, w j * y j - ∑ j ∈ Ico a b, t.level k * w j := by
    intro a b
    rw [← sum_sub_distrib]
    exact sum_congr rfl fun j _ => by ring
  have htot : ∑ j ∈ Ico (t.idx k) (k + 1), w j * (y j - t.level k) = 0 := by
    rw [e, ← mul_sum, ← hb.swy, ← hb.sw, hb.lev, sub_self]
  have hsplit := sum_Ico_consecutive (fun j => w j * (y j - t.level k)) h1 (show q ≤ k + 1 by omega)
  have hpre : 0 ≤ ∑ j ∈ Ico (t.idx k) q, w j * (y j - t.level k) := by
    rcases Nat.eq_or_lt_of_le h1 with h3 | h3
    · rw [h3]; simp
    · have := hb.part (q - 1) (by omega) (by omega)
      rwa [show q - 1 + 1 = q by omega] at this
  rw [htot, e q (k + 1)] at hsplit
  linarith

/-- Going down the blocks of the rounded run from `q`, a block that starts at `a` is reached. -/
theorem WInv.first_block {nn : Bool} {w y : ℕ → K} {N a : ℕ} {s : PState K} (h : WInv rnd nn w y N s) :
    ∀ q, a ≤ q → q ≤ N → (∀ p, a ≤ p → p ≤ q → a ≤ s.idx p) →
      ∃ p, a ≤ p ∧ p ≤ q ∧ s.idx p = a ∧ s.level p ≤ s.level q := by
  intro q
  induction q using Nat.strong_induction_on with
  | _ q ih =>
    intro h1 h2 h3
    have hle := (h.core q h2).le
    rcases Nat.eq_or_lt_of_le (h3 q h1 le_rfl) with h4 | h4
    · exact ⟨q, h1, le_rfl, h4.symm, le_rfl⟩
    · have hs := h.strict q h2 (by omega)
      obtain ⟨p, a1, a2, a3, a4⟩ := ih (s.idx q - 1) (by omega) (by omega) (by omega)
        (fun p h5 h6 => h3 p h5 (by omega))
      exact ⟨p, a1, by omega, a3, a4.trans hs.le⟩

/-- Where the exact fit of a prefix is fixed by the rounding, the rounded run gives the same fit and the same error. -/
theorem run_agree {w y : ℕ → K} {n N : ℕ} (hmono : Monotone rnd) (hw : ∀ j, j ≤ N → 0 < w j)
    (hr : ∀ j, j ≤ N → rnd (y j) = y j) {s t : PState K} (hs : s = runLoop rnd n false w y N)
    (ht : t = runLoop id n false w y N) : ∀ e, e ≤ N + 1 →
    (∀ j, j < e → rnd (fitFn t.level t.idx e j) = fitFn t.level t.idx e j) →
    (∀ j, j < e → fitFn s.level s.idx e j = fitFn t.level t.idx e j) ∧ s.error e = t.error e ∧
      (e ≠ 0 → s.level (e - 1) = t.level (e - 1)) := by
  have hS : WInv rnd false w y N s := hs ▸ winv_run N hw hr
  have hT : Inv false w y N t := ht ▸ inv_run N hw
  intro e
  induction e using Nat.strong_induction_on with
  | _ e ih =>
    intro he hfix
    rcases Nat.eq_zero_or_pos e with rfl | hpos
    · exact ⟨fun j hj => by omega, by rw [hS.err0, hT.err0], fun h => absurd rfl h⟩
    · obtain ⟨k, rfl⟩ : ∃ k, e = k + 1 := ⟨e - 1, by omega⟩
      have hk : k ≤ N := by omega
      have tb := hT.core k hk
      have sb := hS.core k hk
      have step : ∀ (lev : ℕ → K) (idx : ℕ → ℕ), idx k ≤ k → ∀ j, fitFn lev idx (k + 1) j
          = if idx k ≤ j then lev k else fitFn lev idx (idx k) j := by
        intro lev idx hle j
        rw [fitFn]
        simp only [Nat.add_eq_zero_iff, one_ne_zero, and_false, dite_false, Nat.add_sub_cancel]
        rw [Nat.min_eq_left hle]
      have tstep := step t.level t.idx tb.le
      have sstep := step s.level s.idx sb.le
      have hc : rnd (t.level k) = t.level k := by
        have := hfix k (by omega)
        rwa [tstep, if_pos tb.le] at this
      have hak := tb.le
      obtain ⟨i1, i2, i3⟩ := ih (t.idx k) (by omega) (by omega) (fun j hj => by
        have := hfix j (by omega)
        rwa [tstep, if_neg (by omega)] at this)
      have hge : ∀ q, t.idx k ≤ q → q ≤ k → t.idx k ≤ s.idx q := by
        intro q h1 h2
        rw [hs, (run_same (j := q) (k := k) h2 hk).2]
        refine run_ge k (fun j hj => hw j (by omega)) (fun j hj => hr j (by omega)) ?_ q h1 h2
        intro h0 p h3 h4
        rw [← (run_same (rnd := rnd) (n := n) (nn := false) (w := w) (y := y) (j := t.idx k - 1) (k := k) (N := N)
          (by omega) hk).1, ← hs, i3 h0]
        refine (hT.strict k hk h0).trans_le ?_
        rw [← hc]
        exact hmono (hT.mean_ge hw hk h3 h4)
      have hidx : s.idx k = t.idx k := by
        rcases Nat.eq_or_lt_of_le (hge k hak le_rfl) with h1 | h1
        · exact h1.symm
        · exfalso
          have hsk := sb.le
          obtain ⟨p, a1, a2, a3, a4⟩ := hS.first_block (a := t.idx k) (s.idx k - 1) (by omega) (by omega)
            (fun p h5 h6 => hge p h5 (by omega))
          have hst := hS.strict k hk (by omega)
          have b1 : t.level k ≤ s.level p := by
            rw [(hS.core p (by omega)).lev', a3, ← hc]
            exact hmono (hT.mean_ge hw hk a1 (by omega))
          have b2 : s.level k ≤ t.level k := by
            rw [sb.lev', ← hc]
            exact hmono (hT.mean_le hw hk h1.le hsk)
          exact absurd (hst.trans_le b2) (not_lt.2 (b1.trans a4))
      have hsums : s.sumwy k = t.sumwy k ∧ s.sumwy2 k = t.sumwy2 k ∧ s.sumw k = t.sumw k := by
        rw [sb.swy, sb.swy2, sb.sw, hidx, ← tb.swy, ← tb.swy2, ← tb.sw]
        exact ⟨rfl, rfl, rfl⟩
      have hWk : 0 < s.sumw k := sb.sw_pos fun j hj => hw j (by omega)
      have hlev : s.level k = t.level k := by
        rw [sb.lev, hsums.1, hsums.2.2, ← tb.lev, mul_div_assoc, div_self (hsums.2.2 ▸ hWk.ne'), mul_one, hc]
      refine ⟨fun j hj => ?_, ?_, fun _ => hlev⟩
      · rw [tstep, sstep, hidx, hlev]
        split
        · rfl
        · exact i1 j (by omega)
      · rw [hS.err k hk, hT.err k hk, if_neg (by simp), if_neg (by simp), hidx, i2, hsums.1, hsums.2.1, hsums.2.2]

/-- The errors of the rounded run are errors of isotonic fits (the unrounded block means), so they are not below
those of the exact run. -/
theorem run_error_le {w y : ℕ → K} {n N : ℕ} (hmono : Monotone rnd) (hw : ∀ j, j ≤ N → 0 < w j)
    (hr : ∀ j, j ≤ N → rnd (y j) = y j) {s t : PState K} (hs : s = runLoop rnd n false w y N)
    (ht : t = runLoop id n false w y N) (e : ℕ) (he : e ≤ N + 1) : t.error e ≤ s.error e := by
  have hS : WInv rnd false w y N s := hs ▸ winv_run N hw hr
  have hT : Inv false w y N t := ht ▸ inv_run N hw
  have key : ∀ e, e ≤ N + 1 → ∃ v : ℕ → K, MonoUpTo v e ∧ wsqErr w y v e = s.error e ∧
      ∀ j, j < e → v j ≤ wmean w y (s.idx (e - 1)) (e - 1) := by
    intro e
    induction e using Nat.strong_induction_on with
    | _ e ih =>
      intro he
      rcases Nat.eq_zero_or_pos e with rfl | hpos
      · refine ⟨fun _ => 0, fun i j _ hj => by omega, ?_, fun j hj => by omega⟩
        simp [wsqErr, hS.err0]
      · obtain ⟨k, rfl⟩ : ∃ k, e = k + 1 := ⟨e - 1, by omega⟩
        have hk : k ≤ N := by omega
        have sb := hS.core k hk
        have hle := sb.le
        obtain ⟨v, v1, v2, v3⟩ := ih (s.idx k) (by omega) (by omega)
        have hstep : s.idx k ≠ 0 → wmean w y (s.idx (s.idx k - 1)) (s.idx k - 1) ≤ wmean w y (s.idx k) k := by
          intro h0
          have hst := hS.strict k hk h0
          rw [sb.lev', (hS.core (s.idx k - 1) (by omega)).lev'] at hst
          exact (hmono.reflect_lt hst).le
        refine ⟨fun j => if s.idx k ≤ j then wmean w y (s.idx k) k else v j, ?_, ?_, ?_⟩
        · intro i j hij hj
          by_cases h1 : s.idx k ≤ j
          · simp only [if_pos h1]
            split
            · exact le_rfl
            · exact (v3 i (by omega)).trans (hstep (by omega))
          · simp only [if_neg h1, if_neg (show ¬ s.idx k ≤ i by omega)]
            exact v1 i j hij (by omega)
        · rw [wsqErr, ← sum_range_add_sum_Ico _ (show s.idx k ≤ k + 1 by omega), hS.err k hk, if_neg (by simp),
            block_werr sb (fun j hj => hw j (by omega)), add_comm, ← v2]
          congr 1
          · refine sum_congr rfl fun j hj => ?_
            rw [if_pos (mem_Ico.1 hj).1, wmean, ← sb.swy, ← sb.sw]
          · refine sum_congr rfl fun j hj => ?_
            rw [if_neg (by have := mem_range.1 hj; omega)]
        · intro j hj
          simp only [Nat.add_sub_cancel]
          split
          · exact le_rfl
          · exact (v3 j (by omega)).trans (hstep (by omega))
  obtain ⟨v, v1, v2, -⟩ := key e he
  rw [← v2]
  exact (fit_ok hT hw e he).1.opt (fun j hj => hw j (by omega)) v1 (by simp)

/-- `_get_best_unimodality_index` returns the first of the best split points. -/
theorem bestIndex_first (errL errR : ℕ → K) (n : ℕ) (h0 : errL 0 = 0) : ∀ k,
    ∀ i, i < (bestIndex errL errR n k).1 → (bestIndex errL errR n k).2 < errL i + errR (n - i)
  | 0 => by simp [bestIndex]
  | k + 1 => by
    intro i
    have ih := bestIndex_first errL errR n h0 k i
    obtain ⟨-, -, c⟩ := bestIndex_spec errL errR n h0 k
    have e : n + 1 - k - 1 = n - k := by omega
    rw [bestIndex, e]
    split
    · rename_i hlt
      intro hi
      exact hlt.trans_le (c i hi)
    · exact ih

theorem prefixIsotonic_false {n : ℕ} (hn : 0 < n) (y : ℕ → K) : prefixIsotonic rnd n y none false
    = .ok ⟨(runLoop rnd n false (fun _ => 1) y (n - 1)).level, (runLoop rnd n false (fun _ => 1) y (n - 1)).idx,
        (runLoop rnd n false (fun _ => 1) y (n - 1)).error⟩ := by
  rw [prefixIsotonic, if_neg (by omega)]
  simp

/-- If the exact result is left as it is by the rounding, then it is the result with rounding. -/
theorem regression1_agree {n : ℕ} (hn : 0 < n) (y u : Fin n → K) (hmono : Monotone rnd)
    (hr : ∀ j, rnd (y j) = y j) (hu : unimodalRegression1 id y false = .ok fun j => some (u j))
    (hfix : ∀ j, rnd (u j) = u j) :
    unimodalRegression1 rnd y false = .ok fun j => some (u j) := by
  have hr' : ∀ j, j ≤ n - 1 → rnd (ext y j) = ext y j := by
    intro j hj
    simp only [ext, dif_pos (show j < n by omega)]
    exact hr _
  set yr : ℕ → K := fun j => ext y (n - 1 - j) with hyr
  have hrr : ∀ j, j ≤ n - 1 → rnd (yr j) = yr j := fun j hj => hr' _ (by omega)
  have hw : ∀ j, j ≤ n - 1 → (0 : K) < (fun _ : ℕ => (1 : K)) j := fun _ _ => one_pos
  obtain ⟨sl, hsl⟩ : ∃ s, s = runLoop rnd n false (fun _ => 1) (ext y) (n - 1) := ⟨_, rfl⟩
  obtain ⟨sr, hsr⟩ : ∃ s, s = runLoop rnd n false (fun _ => 1) yr (n - 1) := ⟨_, rfl⟩
  obtain ⟨tl, htl⟩ : ∃ s, s = runLoop id n false (fun _ => 1) (ext y) (n - 1) := ⟨_, rfl⟩
  obtain ⟨tr, htr⟩ : ∃ s, s = runLoop id n false (fun _ => 1) yr (n - 1) := ⟨_, rfl⟩
  have hSl : WInv rnd false (fun _ => 1) (ext y) (n - 1) sl := hsl ▸ winv_run _ hw hr'
  have hSr : WInv rnd false (fun _ => 1) yr (n - 1) sr := hsr ▸ winv_run _ hw hrr
  have hTl : Inv false (fun _ => 1) (ext y) (n - 1) tl := htl ▸ inv_run _ hw
  have hTr : Inv false (fun _ => 1) yr (n - 1) tr := htr ▸ inv_run _ hw
  -- both calls, unfolded
  have call : ∀ (r : K → K) (l p : PState K), l = runLoop r n false (fun _ => 1) (ext y) (n - 1) →
      p = runLoop r n false (fun _ => 1) yr (n - 1) → (∀ i, i ≤ n - 1 → l.idx i ≤ i) → (∀ i, i ≤ n - 1 → p.idx i ≤ i) →
      ∀ b, b = (bestIndex l.error p.error n (n + 1)).1 → b ≤ n →
      unimodalRegression1 r y false = .ok fun j => some (if (j : ℕ) < b then fitFn l.level l.idx b j
        else fitFn p.level p.idx (n - b) (n - 1 - j)) := by
    intro r l p hl hp il ip b hb hbn
    have e1 := prefixIsotonic_false (rnd := r) hn (ext y)
    have e2 := prefixIsotonic_false (rnd := r) hn yr
    rw [← hl] at e1
    rw [← hp] at e2
    simp only [unimodalRegression1, unimodalFibre, ← hyr, e1, e2, bind, Except.bind, pure, Except.pure, ← hb]
    congr 1
    funext j
    have hj := j.2
    by_cases h1 : (j : ℕ) < b
    · simp only [if_pos h1]
      rw [isoFromIndex, isoLoop_eq _ _ _ _ _ le_rfl (fun i hi => il i (by omega)), if_pos h1]
    · simp only [if_neg h1]
      rw [isoFromIndex, isoLoop_eq _ _ _ _ _ le_rfl (fun i hi => ip i (by omega)), if_pos (by omega)]
      congr 2
      omega
  obtain ⟨b1, b2, b3⟩ := bestIndex_spec tl.error tr.error n hTl.err0 (n + 1)
  have b4 := bestIndex_first tl.error tr.error n hTl.err0 (n + 1)
  obtain ⟨c1, c2, c3⟩ := bestIndex_spec sl.error sr.error n hSl.err0 (n + 1)
  have c4 := bestIndex_first sl.error sr.error n hSl.err0 (n + 1)
  obtain ⟨b, hb⟩ : ∃ b, b = (bestIndex tl.error tr.error n (n + 1)).1 := ⟨_, rfl⟩
  obtain ⟨c, hc⟩ : ∃ c, c = (bestIndex sl.error sr.error n (n + 1)).1 := ⟨_, rfl⟩
  rw [← hb] at b1 b2 b4
  rw [← hc] at c1 c2 c4
  rw [b1] at b3 b4
  rw [c1] at c3 c4
  have hbn : b ≤ n := by omega
  have hcn : c ≤ n := by omega
  have callT := call id tl tr htl htr (fun i hi => (hTl.core i hi).le) (fun i hi => (hTr.core i hi).le) b hb hbn
  have callS := call rnd sl sr hsl hsr (fun i hi => (hSl.core i hi).le) (fun i hi => (hSr.core i hi).le) c hc hcn
  have hval : ∀ j : Fin n, (if (j : ℕ) < b then fitFn tl.level tl.idx b j
      else fitFn tr.level tr.idx (n - b) (n - 1 - j)) = u j := by
    intro j
    have := callT.symm.trans hu
    simp only [Except.ok.injEq] at this
    exact Option.some.inj (congrFun this j)
  obtain ⟨l1, l2, -⟩ := run_agree hmono hw hr' hsl htl b (by omega) (fun j hj => by
    have := hval ⟨j, by omega⟩
    simp only [if_pos hj] at this
    rw [this]
    exact hfix _)
  obtain ⟨r1, r2, -⟩ := run_agree hmono hw hrr hsr htr (n - b) (by omega) (fun j hj => by
    have := hval ⟨n - 1 - j, by omega⟩
    simp only [if_neg (show ¬ n - 1 - j < b by omega), show n - 1 - (n - 1 - j) = j by omega] at this
    rw [this]
    exact hfix _)
  have ge : ∀ i, i ≤ n → tl.error i + tr.error (n - i) ≤ sl.error i + sr.error (n - i) := fun i hi =>
    add_le_add (run_error_le hmono hw hr' hsl htl i (by omega)) (run_error_le hmono hw hrr hsr htr (n - i) (by omega))
  have hbc : c = b := by
    rcases Nat.lt_trichotomy c b with h | h | h
    · have h1 := b4 c h
      have h2 := c3 b (by omega)
      have h3 := ge c hcn
      rw [l2, r2] at h2
      exact absurd (h1.trans_le h3) (not_lt.2 h2)
    · exact h
    · have h1 := c4 b h
      have h2 := b3 c (by omega)
      have h3 := ge c hcn
      rw [l2, r2] at h1
      exact absurd (h1.trans_le h2) (not_lt.2 h3)
  rw [callS, hbc]
  congr 1
  funext j
  have hj := j.2
  congr 1
  rw [← hval j]
  split
  · exact l1 j ‹_›
  · exact r1 _ (by omega)

end Verif.Unimodal
