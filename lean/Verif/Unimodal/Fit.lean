import Verif.Unimodal.Lemmas

/-!
# Helper lemmas: the fit read off the level sets is the optimal isotonic fit of every prefix
-/

set_option linter.unusedSectionVars false

namespace Verif.Unimodal

open Finset Verif.Spec

variable {K : Type} [Field K] [LinearOrder K] [IsStrictOrderedRing K]

/-- The piecewise constant function encoded by `level` and `idx` on `[0, e)`. -/
def fitFn (lev : ℕ → K) (idx : ℕ → ℕ) (e j : ℕ) : K :=
  if h : e = 0 then 0
  else if min (idx (e - 1)) (e - 1) ≤ j then lev (e - 1)
  else fitFn lev idx (min (idx (e - 1)) (e - 1)) j
termination_by e
decreasing_by omega

/-- Abel summation bound for a block whose partial sums are non-negative. -/
theorem block_abel (q v : ℕ → K) (a : ℕ) : ∀ b, a ≤ b →
    (∀ m, a ≤ m → m ≤ b → 0 ≤ ∑ j ∈ Ico a (m + 1), q j) →
    (∀ i j, a ≤ i → i ≤ j → j ≤ b → v i ≤ v j) →
    ∑ j ∈ Ico a (b + 1), q j * v j ≤ (∑ j ∈ Ico a (b + 1), q j) * v b := by
  intro b hab
  induction b, hab using Nat.le_induction with
  | base =>
    intro _ _
    have e : Ico a (a + 1) = {a} := by ext j; simp
    simp [e]
  | succ b hab ih =>
    intro hP hv
    rw [sum_Ico_succ_top (by omega), sum_Ico_succ_top (by omega) q]
    have h1 := ih (fun m h1 h2 => hP m h1 (by omega)) (fun i j h1 h2 h3 => hv i j h1 h2 (by omega))
    have h2 := mul_le_mul_of_nonneg_left (hv b (b + 1) hab (by omega) le_rfl) (hP b hab (by omega))
    linarith

/-- Final levels: negative levels are replaced by zero when `nn`. -/
def finLevel (nn : Bool) (s : PState K) : ℕ → K := fun j => if nn ∧ s.thr j then 0 else s.level j

theorem finLevel_eq {nn : Bool} {w y : ℕ → K} {N : ℕ} {s : PState K} (h : Inv nn w y N s) {k : ℕ} (hk : k ≤ N) :
    finLevel nn s k = if nn = true ∧ s.level k < 0 then 0 else s.level k := by
  unfold finLevel
  have := h.thr k hk
  by_cases h1 : nn = true ∧ s.level k < 0
  · simp [this.2 h1, h1]
  · have h2 : ¬ (nn = true ∧ s.thr k = true) := fun hc => h1 (this.1 hc.2)
    rw [if_neg h1, if_neg h2]

theorem block_kkt {nn : Bool} {w y : ℕ → K} {N : ℕ} {s : PState K} (h : Inv nn w y N s)
    (hw : ∀ j, j ≤ N → 0 < w j) {k : ℕ} (hk : k ≤ N) (v : ℕ → K)
    (hv : ∀ i j, s.idx k ≤ i → i ≤ j → j ≤ k → v i ≤ v j) (hv0 : nn = true → ∀ j, j ≤ k → 0 ≤ v j) :
    ∑ j ∈ Ico (s.idx k) (k + 1), w j * (y j - finLevel nn s k) * (v j - finLevel nn s k) ≤ 0 := by
  have hb := h.core k hk
  have htot : ∑ j ∈ Ico (s.idx k) (k + 1), w j * (y j - s.level k) = 0 := by
    have : ∑ j ∈ Ico (s.idx k) (k + 1), w j * (y j - s.level k)
        = ∑ j ∈ Ico (s.idx k) (k + 1), w j * y j - s.level k * ∑ j ∈ Ico (s.idx k) (k + 1), w j := by
      rw [mul_sum, ← sum_sub_distrib]
      exact sum_congr rfl fun j _ => by ring
    rw [this, ← hb.swy, ← hb.sw, hb.lev, sub_self]
  have hA := block_abel (fun j => w j * (y j - s.level k)) v (s.idx k) k hb.le hb.part hv
  rw [htot, zero_mul] at hA
  rw [finLevel_eq h hk]
  split
  · rename_i hc
    have e : ∀ j ∈ Ico (s.idx k) (k + 1), w j * (y j - 0) * (v j - 0)
        = w j * (y j - s.level k) * v j + s.level k * (w j * v j) := fun j _ => by ring
    rw [sum_congr rfl e, sum_add_distrib, ← mul_sum]
    have h2 : 0 ≤ ∑ j ∈ Ico (s.idx k) (k + 1), w j * v j := by
      apply sum_nonneg
      intro j hj
      simp only [mem_Ico] at hj
      exact mul_nonneg (hw j (by omega)).le (hv0 hc.1 j (by omega))
    have := mul_nonpos_of_nonpos_of_nonneg hc.2.le h2
    linarith
  · have e : ∀ j ∈ Ico (s.idx k) (k + 1), w j * (y j - s.level k) * (v j - s.level k)
        = w j * (y j - s.level k) * v j - s.level k * (w j * (y j - s.level k)) := fun j _ => by ring
    rw [sum_congr rfl e, sum_sub_distrib, ← mul_sum, htot]
    linarith

theorem block_err {nn : Bool} {w y : ℕ → K} {N : ℕ} {s : PState K} (h : Inv nn w y N s)
    (hw : ∀ j, j ≤ N → 0 < w j) {k : ℕ} (hk : k ≤ N) :
    ∑ j ∈ Ico (s.idx k) (k + 1), w j * (y j - s.level k) ^ 2 = s.sumwy2 k - s.sumwy k ^ 2 / s.sumw k := by
  have hb := h.core k hk
  have hW : 0 < s.sumw k := by
    rw [hb.sw]
    apply sum_pos
    · intro j hj; simp only [mem_Ico] at hj; exact hw j (by omega)
    · exact ⟨k, by simp [hb.le]⟩
  have e : ∀ j ∈ Ico (s.idx k) (k + 1), w j * (y j - s.level k) ^ 2
      = w j * y j * y j - 2 * s.level k * (w j * y j) + s.level k ^ 2 * w j := fun j _ => by ring
  rw [sum_congr rfl e, sum_add_distrib, sum_sub_distrib, ← mul_sum, ← mul_sum, ← hb.swy, ← hb.swy2, ← hb.sw,
    ← hb.lev]
  field_simp
  ring

/-- All facts about the fit of a prefix of length `e`. -/
structure FitOK (nn : Bool) (w y u : ℕ → K) (e : ℕ) (err : K) : Prop where
  mono : MonoUpTo u e
  nonneg : nn = true → ∀ j, j < e → 0 ≤ u j
  kkt : ∀ v, MonoUpTo v e → (nn = true → ∀ j, j < e → 0 ≤ v j) →
    ∑ j ∈ range e, w j * (y j - u j) * (v j - u j) ≤ 0
  err_eq : ∑ j ∈ range e, w j * (y j - u j) ^ 2 = err

theorem fit_ok {nn : Bool} {w y : ℕ → K} {N : ℕ} {s : PState K} (h : Inv nn w y N s)
    (hw : ∀ j, j ≤ N → 0 < w j) : ∀ e, e ≤ N + 1 →
    FitOK nn w y (fitFn (finLevel nn s) s.idx e) e (s.error e) ∧
      ∀ j, j < e → fitFn (finLevel nn s) s.idx e j ≤ finLevel nn s (e - 1) := by
  intro e
  induction e using Nat.strong_induction_on with
  | _ e ih =>
    intro he
    rcases Nat.eq_zero_or_pos e with rfl | hpos
    · refine ⟨⟨?_, ?_, ?_, ?_⟩, ?_⟩
      · intro i j _ hj; omega
      · intro _ j hj; omega
      · intro v _ _; simp
      · simp [h.err0]
      · intro j hj; omega
    · obtain ⟨k, rfl⟩ : ∃ k, e = k + 1 := ⟨e - 1, by omega⟩
      have hk : k ≤ N := by omega
      have hb := h.core k hk
      set a := s.idx k with ha
      have hak : a ≤ k := hb.le
      obtain ⟨ok, ub⟩ := ih a (by omega) (by omega)
      set L := finLevel nn s with hL
      set u := fitFn L s.idx (k + 1) with hu
      set u0 := fitFn L s.idx a with hu0
      have ustep : ∀ j, u j = if a ≤ j then L k else u0 j := by
        intro j
        rw [hu, fitFn]
        simp only [Nat.add_eq_zero_iff, one_ne_zero, and_false, dite_false, Nat.add_sub_cancel, ← ha]
        rw [Nat.min_eq_left hak]
      have uhi : ∀ j, a ≤ j → u j = L k := fun j hj => by rw [ustep, if_pos hj]
      have ulo : ∀ j, j < a → u j = u0 j := fun j hj => by rw [ustep, if_neg (by omega)]
      have Lk := finLevel_eq h hk
      rw [← hL] at Lk
      have L0 : nn = true → 0 ≤ L k := by
        intro hnn
        rw [Lk]
        split
        · exact le_rfl
        · rename_i hc
          by_contra hcon
          exact hc ⟨hnn, not_le.1 hcon⟩
      have Lstep : a ≠ 0 → L (a - 1) ≤ L k := by
        intro ha0
        have hs := h.strict k hk ha0
        rw [← ha] at hs
        have La := finLevel_eq h (show a - 1 ≤ N by omega)
        rw [← hL] at La
        rw [La, Lk]
        split
        · rename_i hc
          split
          · exact le_rfl
          · rename_i hc'
            by_contra hcon
            exact hc' ⟨hc.1, not_le.1 hcon⟩
        · rename_i hc
          split
          · rename_i hc'
            exfalso
            exact hc ⟨hc'.1, hs.trans hc'.2⟩
          · exact hs.le
      have ub' : ∀ j, j < k + 1 → u j ≤ L k := by
        intro j hj
        rcases Nat.lt_or_ge j a with hlt | hge
        · rw [ulo j hlt]
          exact (ub j hlt).trans (Lstep (by omega))
        · rw [uhi j hge]
      have unn : nn = true → ∀ j, j < k + 1 → 0 ≤ u j := by
        intro hnn j hj
        rcases Nat.lt_or_ge j a with hlt | hge
        · rw [ulo j hlt]; exact ok.nonneg hnn j hlt
        · rw [uhi j hge]; exact L0 hnn
      refine ⟨⟨?_, unn, ?_, ?_⟩, by simpa using ub'⟩
      · intro i j hij hj
        rcases Nat.lt_or_ge j a with hlt | hge
        · rw [ulo j hlt, ulo i (by omega)]; exact ok.mono i j hij hlt
        · rw [uhi j hge]; exact ub' i (by omega)
      · intro v hv hv0
        rw [← sum_range_add_sum_Ico _ (show a ≤ k + 1 by omega)]
        have h1 : ∑ j ∈ range a, w j * (y j - u j) * (v j - u j) ≤ 0 := by
          rw [sum_congr rfl fun j hj => by rw [ulo j (mem_range.1 hj)]]
          exact ok.kkt v (fun i j hij hj => hv i j hij (by omega)) (fun hnn j hj => hv0 hnn j (by omega))
        have h2 : ∑ j ∈ Ico a (k + 1), w j * (y j - u j) * (v j - u j) ≤ 0 := by
          rw [sum_congr rfl fun j hj => by rw [uhi j (mem_Ico.1 hj).1]]
          exact block_kkt h hw hk v (fun i j _ hij hj => hv i j hij (by omega))
            (fun hnn j hj => hv0 hnn j (by omega))
        linarith
      · rw [h.err k hk]
        split
        · rename_i hc
          have hLk0 : L k = 0 := by rw [Lk, if_pos hc]
          refine sum_congr rfl fun j hj => ?_
          have hj' := mem_range.1 hj
          have : u j = 0 := le_antisymm (hLk0 ▸ ub' j hj') (unn hc.1 j hj')
          rw [this]; ring
        · rename_i hc
          rw [← sum_range_add_sum_Ico _ (show a ≤ k + 1 by omega)]
          have h1 : ∑ j ∈ range a, w j * (y j - u j) ^ 2 = s.error a := by
            rw [sum_congr rfl fun j hj => by rw [ulo j (mem_range.1 hj)]]
            exact ok.err_eq
          have h2 : ∑ j ∈ Ico a (k + 1), w j * (y j - u j) ^ 2
              = s.sumwy2 k - s.sumwy k ^ 2 / s.sumw k := by
            rw [sum_congr rfl fun j hj => by rw [uhi j (mem_Ico.1 hj).1, Lk, if_neg hc]]
            exact block_err h hw hk
          rw [h1, h2, ← ha, add_comm]

/-- The Pythagorean inequality that the optimality condition gives. -/
theorem FitOK.pythagoras {nn : Bool} {w y u : ℕ → K} {e : ℕ} {err : K}
    (h : FitOK nn w y u e err) {v : ℕ → K} (hv : MonoUpTo v e) (hv0 : nn = true → ∀ j, j < e → 0 ≤ v j) :
    wsqErr w y u e + ∑ j ∈ range e, w j * (u j - v j) ^ 2 ≤ wsqErr w y v e := by
  have hk := h.kkt v hv hv0
  have e1 : wsqErr w y v e = wsqErr w y u e + ∑ j ∈ range e, w j * (u j - v j) ^ 2
      - 2 * ∑ j ∈ range e, w j * (y j - u j) * (v j - u j) := by
    unfold wsqErr
    rw [mul_sum, ← sum_add_distrib, ← sum_sub_distrib]
    exact sum_congr rfl fun j _ => by ring
  linarith

theorem FitOK.opt {nn : Bool} {w y u : ℕ → K} {e : ℕ} {err : K} (hw : ∀ j, j < e → 0 < w j)
    (h : FitOK nn w y u e err) {v : ℕ → K} (hv : MonoUpTo v e) (hv0 : nn = true → ∀ j, j < e → 0 ≤ v j) :
    err ≤ wsqErr w y v e := by
  have := h.pythagoras hv hv0
  have h2 : 0 ≤ ∑ j ∈ range e, w j * (u j - v j) ^ 2 :=
    sum_nonneg fun j hj => mul_nonneg (hw j (mem_range.1 hj)).le (sq_nonneg _)
  have h3 : wsqErr w y u e = err := h.err_eq
  linarith

/-- `_compute_isotonic_from_index` fills every entry, with the fit. -/
theorem isoLoop_eq (lev : ℕ → K) (idx : ℕ → ℕ) : ∀ (f e : ℕ) (out : ℕ → Option K), e ≤ f →
    (∀ k, k < e → idx k ≤ k) →
    ∀ j, isoLoop lev idx f e out j = if j < e then some (fitFn lev idx e j) else out j := by
  intro f
  induction f with
  | zero =>
    intro e out he _ j
    obtain rfl : e = 0 := by omega
    simp [isoLoop]
  | succ f ih =>
    intro e out he hidx j
    rw [isoLoop]
    split
    · rename_i h0; subst h0; simp
    · rename_i h0
      have hle := hidx (e - 1) (by omega)
      rw [ih _ _ (by omega) (fun k hk => hidx k (by omega))]
      rw [fitFn.eq_def lev idx e j, dif_neg h0, Nat.min_eq_left hle]
      by_cases h1 : j < idx (e - 1)
      · rw [if_pos h1, if_pos (by omega), if_neg (by omega)]
      · rw [if_neg h1]
        by_cases h2 : j < e
        · rw [if_pos ⟨by omega, by omega⟩, if_pos h2, if_pos (by omega)]
        · rw [if_neg (by omega), if_neg h2]

/-- `_get_best_unimodality_index` finds a minimiser over the split points. -/
theorem bestIndex_spec (errL errR : ℕ → K) (n : ℕ) (h0 : errL 0 = 0) : ∀ k,
    (bestIndex errL errR n k).2 = errL (bestIndex errL errR n k).1 + errR (n - (bestIndex errL errR n k).1) ∧
    ((bestIndex errL errR n k).1 = 0 ∨ (bestIndex errL errR n k).1 < k) ∧
    ∀ i, i < k → (bestIndex errL errR n k).2 ≤ errL i + errR (n - i)
  | 0 => by simp [bestIndex, h0]
  | k + 1 => by
    obtain ⟨a, b, c⟩ := bestIndex_spec errL errR n h0 k
    have e : n + 1 - k - 1 = n - k := by omega
    rw [bestIndex, e]
    split
    · rename_i hlt
      refine ⟨by simp, Or.inr (by simp), ?_⟩
      intro i hi
      rcases Nat.lt_or_ge i k with hik | hik
      · exact hlt.le.trans (c i hik)
      · obtain rfl : i = k := by omega
        exact le_rfl
    · rename_i hlt
      refine ⟨a, b.imp id (by omega), ?_⟩
      intro i hi
      rcases Nat.lt_or_ge i k with hik | hik
      · exact c i hik
      · obtain rfl : i = k := by omega
        exact not_lt.1 hlt

end Verif.Unimodal
