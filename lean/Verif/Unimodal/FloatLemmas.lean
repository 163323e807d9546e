import Verif.Spec.FloatOrder
import Verif.Unimodal.Model

/-!
# Helper lemmas: unimodal regression in floating-point arithmetic

The lemmas of `Lemmas`, `Fit` and `Split` are about exact numbers. Here nothing is assumed about `+`, `-`, `*`, `/` and
powers; only the laws of comparisons are used.
-/

set_option linter.unusedSectionVars false

namespace Verif.Unimodal

open Verif.Spec

variable {K : Type} [Zero K] [One K] [Add K] [Sub K] [Mul K] [Div K] [Pow K ℕ] [LE K] [LT K] [DecidableLE K] [DecidableLT K] {rnd : K → K}

/-- Two states agree in the levels and block starts of other samples, and in the thresholds. -/
structure SameLev (i : ℕ) (s t : PState K) : Prop where
  level : ∀ j, j ≠ i → t.level j = s.level j
  idx : ∀ j, j ≠ i → t.idx j = s.idx j
  thr : t.thr = s.thr

theorem SameLev.trans {i : ℕ} {s t u : PState K} (h : SameLev i s t) (h' : SameLev i t u) : SameLev i s u where
  level j hj := (h'.level j hj).trans (h.level j hj)
  idx j hj := (h'.idx j hj).trans (h.idx j hj)
  thr := h'.thr.trans h.thr

/-- The level of a block is not `≤` the level of the block before it. -/
def BlkF (s : PState K) (k : ℕ) : Prop := s.idx k ≤ k ∧ (s.idx k ≠ 0 → ¬ s.level k ≤ s.level (s.idx k - 1))

theorem mergeLoop_fspec (n : ℕ) : ∀ (f i : ℕ) (s : PState K), s.idx i ≤ f → (∀ k, k ≤ i → s.idx k ≤ k) →
    SameLev i s (mergeLoop rnd n f i s) ∧ BlkF (mergeLoop rnd n f i s) i := by
  intro f
  induction f with
  | zero =>
    intro i s hf hk
    refine ⟨⟨fun _ _ => rfl, fun _ _ => rfl, rfl⟩, hk i le_rfl, ?_⟩
    intro h
    simp only [mergeLoop] at h
    omega
  | succ f ih =>
    intro i s hf hk
    rw [mergeLoop]
    split
    · rename_i hcond
      obtain ⟨h1, h2⟩ := hcond
      have hle := hk i le_rfl
      have hlp := hk (s.idx i - 1) (by omega)
      set s2 : PState K := { mergeInto rnd i (s.idx i - 1) s with
        idx := Function.update (mergeInto rnd i (s.idx i - 1) s).idx i
          ((mergeInto rnd i (s.idx i - 1) s).idx ((mergeInto rnd i (s.idx i - 1) s).idx i - 1)) } with hs2
      have hsame : SameLev i s s2 := by
        constructor <;> intros <;> simp [mergeInto, *]
      have hidx : s2.idx i = s.idx (s.idx i - 1) := by simp [hs2, mergeInto]
      obtain ⟨a, b⟩ := ih i s2 (by omega) (fun k hk' => by
        by_cases hki : k = i
        · subst hki; omega
        · rw [hsame.idx k hki]; exact hk k hk')
      exact ⟨hsame.trans a, b⟩
    · rename_i hcond
      refine ⟨⟨fun _ _ => rfl, fun _ _ => rfl, rfl⟩, hk i le_rfl, ?_⟩
      intro h hcon
      apply hcond
      refine ⟨?_, h⟩
      simpa [predIdx, h] using hcon

/-- Invariant after samples `0..k` have been processed. -/
structure FInv (nn : Bool) (k : ℕ) (s : PState K) : Prop where
  blk : ∀ j, j ≤ k → BlkF s j
  thr : ∀ j, j ≤ k → (s.thr j = true ↔ nn = true ∧ s.level j < 0)
  off : ∀ j, k < j → s.thr j = false

theorem FInv.init (nn : Bool) (w y : ℕ → K) : FInv nn 0 (initState nn w y) := by
  refine ⟨?_, ?_, ?_⟩
  · intro j _
    exact ⟨Nat.zero_le _, fun h => absurd rfl h⟩
  · intro j hj
    obtain rfl : j = 0 := by omega
    simp only [initState, Function.update_self, and_true]
    split <;> simp_all
  · intro j hj
    simp only [initState]
    rw [if_neg (by omega)]

theorem FInv.step {n : ℕ} {nn : Bool} {y cs : ℕ → K} {k : ℕ} {s : PState K} (h : FInv nn k s) :
    FInv nn (k + 1) (body rnd n nn y cs (k + 1) s) := by
  set s1 : PState K := { s with level := Function.update s.level (k + 1) (y (k + 1)), idx := Function.update s.idx (k + 1) (k + 1) }
    with hs1
  have e0 : SameLev (k + 1) s s1 := by
    constructor <;> intros <;> simp [*]
  obtain ⟨a, b⟩ := mergeLoop_fspec (rnd := rnd) n (k + 1) (k + 1) s1 (by simp [hs1]) (fun j hj => by
    by_cases hjk : j = k + 1
    · subst hjk; simp [hs1]
    · rw [e0.idx j hjk]; exact (h.blk j (by omega)).1)
  set t := mergeLoop rnd n (k + 1) (k + 1) s1 with ht
  have e1 := e0.trans a
  have old : ∀ j, j ≤ k → BlkF t j := by
    intro j hj
    obtain ⟨c, d⟩ := h.blk j hj
    refine ⟨by rw [e1.idx j (by omega)]; exact c, ?_⟩
    rw [e1.idx j (by omega), e1.level j (by omega), e1.level _ (by omega)]
    exact d
  have blk : ∀ j, j ≤ k + 1 → BlkF t j := fun j hj => by
    by_cases hjk : j = k + 1
    · exact hjk ▸ b
    · exact old j (by omega)
  have body_eq : body rnd n nn y cs (k + 1) s = (if nn ∧ t.level (k + 1) < 0 then
      { t with thr := Function.update t.thr (k + 1) true, error := Function.update t.error (k + 1 + 1) (cs (k + 1)) }
    else { t with error := Function.update t.error (k + 1 + 1) (t.sumwy2 (k + 1) - t.sumwy (k + 1) ^ 2 / t.sumw (k + 1) + t.error (t.idx (k + 1))) }) := rfl
  rw [body_eq]
  by_cases hc : nn = true ∧ t.level (k + 1) < 0
  · rw [if_pos hc]
    refine ⟨blk, ?_, ?_⟩
    · intro j hj
      by_cases hjk : j = k + 1
      · subst hjk; simpa using hc
      · show Function.update t.thr (k + 1) true j = true ↔ nn = true ∧ t.level j < 0
        rw [Function.update_of_ne hjk, e1.thr, e1.level j hjk]
        exact h.thr j (by omega)
    · intro j hj
      show Function.update t.thr (k + 1) true j = false
      rw [Function.update_of_ne (by omega), e1.thr]
      exact h.off j (by omega)
  · rw [if_neg hc]
    refine ⟨blk, ?_, ?_⟩
    · intro j hj
      show t.thr j = true ↔ nn = true ∧ t.level j < 0
      by_cases hjk : j = k + 1
      · subst hjk
        rw [e1.thr, h.off _ (by omega)]
        simpa using hc
      · rw [e1.thr, e1.level j hjk]
        exact h.thr j (by omega)
    · intro j hj
      show t.thr j = false
      rw [e1.thr]
      exact h.off j (by omega)

theorem runLoop_finv (n : ℕ) (nn : Bool) (w y : ℕ → K) : ∀ k, FInv nn k (runLoop rnd n nn w y k)
  | 0 => FInv.init nn w y
  | k + 1 => (runLoop_finv n nn w y k).step

/-- What the fit of the first `e` samples looks like: rising where it is not NaN. -/
structure FFit (nn : Bool) (e : ℕ) (u : ℕ → K) : Prop where
  mono : (∀ j, j < e → ¬ IsNaN (u j)) → ∀ i j, i ≤ j → j < e → u i ≤ u j
  nonneg : nn = true → ∀ j, j < e → ¬ IsNaN (u j) → 0 ≤ u j

/-- The level after the final loop (lines 64-67). -/
def finLev (nn : Bool) (s : PState K) : ℕ → K := fun j => if nn ∧ s.thr j then 0 else s.level j

section
variable [FloatOrder K]

theorem finLev_eq {nn : Bool} {N : ℕ} {s : PState K} (h : FInv nn N s) {k : ℕ} (hk : k ≤ N) :
    finLev nn s k = if nn = true ∧ s.level k < 0 then 0 else s.level k := by
  unfold finLev
  have := h.thr k hk
  by_cases h1 : nn = true ∧ s.level k < 0
  · simp [this.2 h1, h1]
  · have h2 : ¬ (nn = true ∧ s.thr k = true) := fun hc => h1 (this.1 hc.2)
    rw [if_neg h1, if_neg h2]

theorem zero_le_of_not_lt {x : K} (hx : ¬ IsNaN x) (h : ¬ x < 0) : 0 ≤ x := by
  rcases FloatOrder.total hx (FloatOrder.zero (K := K)) with h1 | h1
  · by_contra h2
    exact h (FloatOrder.lt_iff.2 ⟨h1, h2⟩)
  · exact h1

theorem finLev_nonneg {nn : Bool} {N : ℕ} {s : PState K} (h : FInv nn N s) {k : ℕ} (hk : k ≤ N) (hnn : nn = true)
    (hx : ¬ IsNaN (finLev nn s k)) : 0 ≤ finLev nn s k := by
  rw [finLev_eq h hk] at hx ⊢
  split at hx
  · rename_i hc
    rw [if_pos hc]
    exact not_not.1 (FloatOrder.zero (K := K))
  · rename_i hc
    rw [if_neg hc]
    exact zero_le_of_not_lt hx fun hlt => hc ⟨hnn, hlt⟩

theorem finLev_step {nn : Bool} {N : ℕ} {s : PState K} (h : FInv nn N s) {k : ℕ} (hk : k ≤ N) (h0 : s.idx k ≠ 0)
    (h1 : ¬ IsNaN (finLev nn s k)) (h2 : ¬ IsNaN (finLev nn s (s.idx k - 1))) :
    finLev nn s (s.idx k - 1) ≤ finLev nn s k := by
  obtain ⟨hle, hstr⟩ := h.blk k hk
  have hs := hstr h0
  have h1' := finLev_nonneg h hk
  rw [finLev_eq h hk] at h1 h1' ⊢
  rw [finLev_eq h (show s.idx k - 1 ≤ N by omega)] at h2 ⊢
  by_cases c2 : nn = true ∧ s.level (s.idx k - 1) < 0
  · rw [if_pos c2]
    exact h1' c2.1 h1
  · rw [if_neg c2] at h2 ⊢
    by_cases c1 : nn = true ∧ s.level k < 0
    · exfalso
      obtain ⟨hn, hlt⟩ := c1
      have hp : 0 ≤ s.level (s.idx k - 1) := zero_le_of_not_lt h2 fun hc => c2 ⟨hn, hc⟩
      exact hs (FloatOrder.trans (FloatOrder.lt_iff.1 hlt).1 hp)
    · rw [if_neg c1] at h1 ⊢
      exact (FloatOrder.total h1 h2).resolve_left hs

/-- `_compute_isotonic_from_index` fills every entry; where no entry is NaN the result rises. -/
theorem isoLoop_fit {nn : Bool} {N : ℕ} {s : PState K} (h : FInv nn N s) : ∀ (f e : ℕ) (out : ℕ → Option K), e ≤ f → e ≤ N + 1 →
    ∃ u : ℕ → K, (∀ j, isoLoop (finLev nn s) s.idx f e out j = if j < e then some (u j) else out j) ∧ FFit nn e u ∧
      (0 < e → u (e - 1) = finLev nn s (e - 1)) := by
  intro f
  induction f with
  | zero =>
    intro e out he _
    obtain rfl : e = 0 := by omega
    refine ⟨fun _ => 0, fun j => by simp [isoLoop], ⟨?_, ?_⟩, by omega⟩
    · intro _ i j _ hj; omega
    · intro _ j hj; omega
  | succ f ih =>
    intro e out he heN
    rcases Nat.eq_zero_or_pos e with rfl | hpos
    · refine ⟨fun _ => 0, fun j => by simp [isoLoop], ⟨?_, ?_⟩, by omega⟩
      · intro _ i j _ hj; omega
      · intro _ j hj; omega
    · obtain ⟨hle, -⟩ := h.blk (e - 1) (by omega)
      obtain ⟨u, hu, hf, hlast⟩ := ih (s.idx (e - 1))
        (fun j => if s.idx (e - 1) ≤ j ∧ j ≤ e - 1 then some (finLev nn s (e - 1)) else out j) (by omega) (by omega)
      refine ⟨fun j => if j < s.idx (e - 1) then u j else finLev nn s (e - 1), ?_, ⟨?_, ?_⟩, ?_⟩
      · intro j
        rw [isoLoop, if_neg (by omega), hu]
        by_cases h1 : j < s.idx (e - 1)
        · simp only [if_pos h1]; rw [if_pos (by omega)]
        · simp only [if_neg h1]
          by_cases h2 : j < e
          · rw [if_pos ⟨by omega, by omega⟩, if_pos h2]
          · rw [if_neg (by omega), if_neg h2]
      · intro hnan i j hij hj
        have hL : ¬ IsNaN (finLev nn s (e - 1)) := by
          have := hnan (e - 1) (by omega)
          simpa [show ¬ e - 1 < s.idx (e - 1) by omega] using this
        have hu' : ∀ j, j < s.idx (e - 1) → ¬ IsNaN (u j) := fun j hj' => by
          have := hnan j (by omega)
          simpa [hj'] using this
        show (if i < s.idx (e - 1) then u i else finLev nn s (e - 1)) ≤ if j < s.idx (e - 1) then u j else finLev nn s (e - 1)
        by_cases hj1 : j < s.idx (e - 1)
        · rw [if_pos hj1, if_pos (by omega)]
          exact hf.mono hu' i j hij hj1
        · rw [if_neg hj1]
          by_cases hi1 : i < s.idx (e - 1)
          · rw [if_pos hi1]
            have hpos' : 0 < s.idx (e - 1) := by omega
            have hl := hlast hpos'
            have hm := hf.mono hu' i (s.idx (e - 1) - 1) (by omega) (by omega)
            have hn2 := hu' (s.idx (e - 1) - 1) (by omega)
            rw [hl] at hm hn2
            exact FloatOrder.trans hm (finLev_step h (by omega) (by omega) hL hn2)
          · rw [if_neg hi1]
            exact not_not.1 hL
      · intro hnn j hj
        by_cases hj1 : j < s.idx (e - 1)
        · simp only [if_pos hj1]
          exact hf.nonneg hnn j hj1
        · simp only [if_neg hj1]
          exact finLev_nonneg h (by omega) hnn
      · intro _
        simp only [if_neg (show ¬ e - 1 < s.idx (e - 1) by omega)]

theorem prefixIsotonic_fit {n : ℕ} (hn : 0 < n) (y : ℕ → K) (nn : Bool) :
    ∃ p, prefixIsotonic rnd n y none nn = .ok p ∧ ∀ e, e ≤ n →
      ∃ u : ℕ → K, (∀ j, isoFromIndex e p.level p.idx j = if j < e then some (u j) else none) ∧ FFit nn e u := by
  refine ⟨_, by rw [prefixIsotonic, if_neg (by omega)], ?_⟩
  intro e he
  obtain ⟨u, h1, h2, -⟩ := isoLoop_fit (runLoop_finv (rnd := rnd) n nn (fun _ => 1) y (n - 1)) e e (fun _ => none) le_rfl (by omega)
  exact ⟨u, h1, h2⟩

end

theorem bestIndex_le (errL errR : ℕ → K) (n : ℕ) : ∀ k, (bestIndex errL errR n k).1 ≤ k - 1
  | 0 => by simp [bestIndex]
  | k + 1 => by
    have := bestIndex_le errL errR n k
    rw [bestIndex]
    split
    · simp
    · omega

/-- `unimodal_regression` in any arithmetic: no entry is left unset; where no entry is NaN the result is unimodal. -/
theorem regression1_float [FloatOrder K] {n : ℕ} (hn : 0 < n) (y : Fin n → K) (nn : Bool) :
    ∃ u : Fin n → K, unimodalRegression1 rnd y nn = .ok (fun j => some (u j)) ∧
      ((∀ j, ¬ IsNaN (u j)) → IsUnimodalLE u) ∧ (nn = true → ∀ j, ¬ IsNaN (u j) → 0 ≤ u j) := by
  obtain ⟨pl, hl, okl⟩ := prefixIsotonic_fit (rnd := rnd) hn (Unimodal.ext y) nn
  obtain ⟨pr, hr, okr⟩ := prefixIsotonic_fit (rnd := rnd) hn (fun j => Unimodal.ext y (n - 1 - j)) nn
  have hb := bestIndex_le pl.error pr.error n (n + 1)
  set b := (bestIndex pl.error pr.error n (n + 1)).1 with hbdef
  have hbn : b ≤ n := by omega
  obtain ⟨ul, hul, fl⟩ := okl b hbn
  obtain ⟨ur, hur, fr⟩ := okr (n - b) (by omega)
  refine ⟨fun j => if (j : ℕ) < b then ul j else ur (n - 1 - j), ?_, ?_, ?_⟩
  · have : unimodalRegression1 rnd y nn = .ok (fun j => if (j : ℕ) < b then isoFromIndex b pl.level pl.idx j
        else isoFromIndex (n - b) pr.level pr.idx (n - b - 1 - (j - b))) := by
      unfold unimodalRegression1 unimodalFibre
      rw [hl, hr]
      rfl
    rw [this]
    congr 1
    funext j
    have hj := j.2
    by_cases h1 : (j : ℕ) < b
    · simp only [if_pos h1, hul]
    · simp only [if_neg h1, hur]
      rw [if_pos (by omega)]
      congr 2
      omega
  · intro hnan
    have nl : ∀ j, j < b → ¬ IsNaN (ul j) := fun j hj => by
      have := hnan ⟨j, by omega⟩
      simpa [hj] using this
    have nr : ∀ j, j < n - b → ¬ IsNaN (ur j) := fun j hj => by
      have := hnan ⟨n - 1 - j, by omega⟩
      simp only [show ¬ n - 1 - j < b by omega, if_false] at this
      rwa [show n - 1 - (n - 1 - j) = j by omega] at this
    have up := fl.mono nl
    have down : ∀ i j, b ≤ i → i ≤ j → j < n → ur (n - 1 - j) ≤ ur (n - 1 - i) := fun i j h1 h2 h3 =>
      fr.mono nr _ _ (by omega) (by omega)
    -- the peak is the last entry of the left part or the first entry of the right part
    by_cases hb0 : b = 0
    · refine ⟨⟨0, hn⟩, ?_, ?_⟩
      · intro i j hij hj
        have h1 : (j : ℕ) = 0 := by have := Fin.le_def.1 hj; simp at this; exact this
        have h2 : (i : ℕ) = 0 := by have := Fin.le_def.1 hij; omega
        obtain rfl : i = j := Fin.ext (by omega)
        exact not_not.1 (hnan i)
      · intro i j _ hij
        simp only [show ¬ (i : ℕ) < b by omega, show ¬ (j : ℕ) < b by omega, if_false]
        exact down _ _ (by omega) hij j.2
    · by_cases hbe : b = n
      · refine ⟨⟨n - 1, by omega⟩, ?_, ?_⟩
        · intro i j hij _
          simp only [show (i : ℕ) < b by omega, show (j : ℕ) < b by omega, if_true]
          exact up _ _ hij (by omega)
        · intro i j hi hij
          have h1 := Fin.le_def.1 hi
          have h2 := Fin.le_def.1 hij
          simp only at h1
          obtain rfl : i = j := Fin.ext (by omega)
          exact not_not.1 (hnan i)
      · rcases FloatOrder.total (nl (b - 1) (by omega)) (nr (n - 1 - b) (by omega)) with hc | hc
        · refine ⟨⟨b, by omega⟩, ?_, ?_⟩
          · intro i j hij hj
            have h1 := Fin.le_def.1 hij
            have h2 := Fin.le_def.1 hj
            simp only at h2
            by_cases hjb : (j : ℕ) < b
            · simp only [show (i : ℕ) < b by omega, hjb, if_true]
              exact up _ _ hij hjb
            · have hjb' : (j : ℕ) = b := by omega
              simp only [hjb', lt_irrefl, if_false]
              by_cases hib : (i : ℕ) < b
              · simp only [hib, if_true]
                exact FloatOrder.trans (up i (b - 1) (by omega) (by omega)) hc
              · have hib' : (i : ℕ) = b := by omega
                simp only [hib', lt_irrefl, if_false]
                exact not_not.1 (nr _ (by omega))
          · intro i j hi hij
            have h1 := Fin.le_def.1 hi
            have h2 := Fin.le_def.1 hij
            simp only at h1
            simp only [show ¬ (i : ℕ) < b by omega, show ¬ (j : ℕ) < b by omega, if_false]
            exact down _ _ (by omega) hij j.2
        · refine ⟨⟨b - 1, by omega⟩, ?_, ?_⟩
          · intro i j hij hj
            have h1 := Fin.le_def.1 hij
            have h2 := Fin.le_def.1 hj
            simp only at h2
            simp only [show (i : ℕ) < b by omega, show (j : ℕ) < b by omega, if_true]
            exact up _ _ hij (by omega)
          · intro i j hi hij
            have h1 := Fin.le_def.1 hi
            have h2 := Fin.le_def.1 hij
            simp only at h1
            by_cases hib : (i : ℕ) < b
            · have hib' : (i : ℕ) = b - 1 := by omega
              simp only [hib, if_true]
              by_cases hjb : (j : ℕ) < b
              · simp only [hjb, if_true]
                obtain rfl : i = j := Fin.ext (by omega)
                exact not_not.1 (nl _ hib)
              · simp only [hjb, if_false, hib']
                exact FloatOrder.trans (down b j le_rfl (by omega) j.2) hc
            · simp only [hib, show ¬ (j : ℕ) < b by omega, if_false]
              exact down _ _ (by omega) hij j.2
  · intro hnn j hx
    by_cases h1 : (j : ℕ) < b
    · simp only [if_pos h1] at hx ⊢
      exact fl.nonneg hnn _ h1 hx
    · simp only [if_neg h1] at hx ⊢
      exact fr.nonneg hnn _ (by omega) hx

end Verif.Unimodal
