import Verif.Unimodal.Fit

/-!
# Helper lemmas: combining the two prefix regressions
-/

set_option linter.unusedSectionVars false

namespace Verif.Unimodal

open Finset Verif.Spec

variable {K : Type} [Field K] [LinearOrder K] [IsStrictOrderedRing K]

theorem sum_reverse (f : ℕ → K) {b n : ℕ} (hb : b ≤ n) :
    ∑ j ∈ range (n - b), f (n - 1 - j) = ∑ j ∈ Ico b n, f j := by
  refine sum_nbij' (fun j => n - 1 - j) (fun j => n - 1 - j) ?_ ?_ ?_ ?_ ?_
  · intro j hj; simp only [mem_range, mem_Ico] at *; omega
  · intro j hj; simp only [mem_range, mem_Ico] at *; omega
  · intro j hj; simp only [mem_range] at *; omega
  · intro j hj; simp only [mem_Ico] at *; omega
  · intro j _; rfl

theorem sum_split (f : ℕ → K) {b n : ℕ} (hb : b ≤ n) :
    ∑ j ∈ range n, f j = ∑ j ∈ range b, f j + ∑ j ∈ range (n - b), f (n - 1 - j) := by
  rw [sum_reverse f hb, sum_range_add_sum_Ico _ hb]

/-- The prefix regression returns, for every prefix, a fit with the properties of `FitOK`. -/
theorem prefixIsotonic_ok {n : ℕ} (hn : 0 < n) (y : ℕ → K) (weights : Option (ℕ → K)) (nn : Bool)
    (hw : ∀ w, weights = some w → ∀ j, j < n → 0 < w j) :
    ∃ p, prefixIsotonic id n y weights nn = .ok p ∧ p.error 0 = 0 ∧ ∀ k, k ≤ n →
      ∃ u, (∀ j, isoFromIndex k p.level p.idx j = if j < k then some (u j) else none) ∧
        FitOK nn (weights.getD fun _ => 1) y u k (p.error k) := by
  set w := weights.getD fun _ => 1 with hwd
  have hw' : ∀ j, j ≤ n - 1 → 0 < w j := by
    intro j hj
    cases weights with
    | none => simp [hwd]
    | some w0 => exact hw w0 rfl j (by omega)
  have inv := inv_run (n := n) (nn := nn) (y := y) (n - 1) hw'
  refine ⟨_, by rw [prefixIsotonic, if_neg (by omega)], inv.err0, ?_⟩
  intro k hk
  refine ⟨_, ?_, (fit_ok inv hw' k (by omega)).1⟩
  intro j
  rw [isoFromIndex]
  rw [isoLoop_eq _ _ _ _ _ le_rfl (fun i hi => (inv.core i (by omega)).le)]
  rfl

/-- What one call of `_unimodal_regression` computes. -/
theorem unimodalFibre_ok {n : ℕ} (hn : 0 < n) (y : ℕ → K) (nn : Bool) :
    ∃ (f : ℕ → Option K) (e : K) (b : ℕ) (u : ℕ → K), unimodalFibre id n y nn = .ok (f, e) ∧ (∀ j, j < n → f j = some (u j)) ∧ b ≤ n ∧
      (∀ i j, i ≤ j → j < b → u i ≤ u j) ∧ (∀ i j, b ≤ i → i ≤ j → j < n → u j ≤ u i) ∧
      (nn = true → ∀ j, j < n → 0 ≤ u j) ∧ ∑ j ∈ range n, (y j - u j) ^ 2 = e ∧
      ∀ (v : ℕ → K) (t : ℕ), t ≤ n → (∀ i j, i ≤ j → j < t → v i ≤ v j) →
        (∀ i j, t ≤ i → i ≤ j → j < n → v j ≤ v i) → (nn = true → ∀ j, j < n → 0 ≤ v j) →
        e ≤ ∑ j ∈ range n, (y j - v j) ^ 2 := by
  obtain ⟨pl, hl, hl0, okl⟩ := prefixIsotonic_ok hn y none nn (by simp)
  obtain ⟨pr, hr, _, okr⟩ := prefixIsotonic_ok hn (fun j => y (n - 1 - j)) none nn (by simp)
  simp only [Option.getD_none] at okl okr
  obtain ⟨hb1, hb2, hb3⟩ := bestIndex_spec pl.error pr.error n hl0 (n + 1)
  set b := (bestIndex pl.error pr.error n (n + 1)).1 with hb
  set e := (bestIndex pl.error pr.error n (n + 1)).2 with he
  have hbn : b ≤ n := by omega
  obtain ⟨ul, hul, fl⟩ := okl b hbn
  obtain ⟨ur, hur, fr⟩ := okr (n - b) (by omega)
  refine ⟨fun j => if j < b then isoFromIndex b pl.level pl.idx j
      else isoFromIndex (n - b) pr.level pr.idx (n - b - 1 - (j - b)), e, b, fun j => if j < b then ul j else ur (n - 1 - j), ?_, ?_, hbn, ?_, ?_, ?_, ?_, ?_⟩
  · simp only [unimodalFibre, hl, hr, bind, Except.bind, pure, Except.pure]
    rfl
  · intro j hj
    simp only
    by_cases h1 : j < b
    · rw [if_pos h1, if_pos h1, hul, if_pos h1]
    · rw [if_neg h1, if_neg h1, hur, if_pos (by omega)]
      congr 2
      omega
  · intro i j hij hj
    simp only
    rw [if_pos hj, if_pos (by omega)]
    exact fl.mono i j hij hj
  · intro i j hi hij hj
    simp only
    rw [if_neg (by omega), if_neg (by omega)]
    exact fr.mono _ _ (by omega) (by omega)
  · intro hnn j hj
    simp only
    split
    · exact fl.nonneg hnn j ‹_›
    · exact fr.nonneg hnn _ (by omega)
  · rw [sum_split _ hbn, hb1, ← fl.err_eq, ← fr.err_eq]
    congr 1
    · refine sum_congr rfl fun j hj => ?_
      beta_reduce
      rw [if_pos (mem_range.1 hj), one_mul]
    · refine sum_congr rfl fun j hj => ?_
      have := mem_range.1 hj
      beta_reduce
      rw [if_neg (by omega), one_mul]
      congr 3
      omega
  · intro v t ht hv1 hv2 hv0
    obtain ⟨_, _, ftl⟩ := okl t ht
    obtain ⟨_, _, ftr⟩ := okr (n - t) (by omega)
    have h1 := ftl.opt (fun _ _ => one_pos) (v := v) (fun i j hij hj => hv1 i j hij hj)
      (fun hnn j hj => hv0 hnn j (by omega))
    have h2 := ftr.opt (fun _ _ => one_pos) (v := fun j => v (n - 1 - j))
      (fun i j hij hj => hv2 _ _ (by omega) (by omega) (by omega)) (fun hnn j hj => hv0 hnn _ (by omega))
    rw [sum_split _ ht]
    have h3 := hb3 t (by omega)
    simp only [wsqErr, one_mul] at h1 h2
    linarith

theorem ext_apply {n : ℕ} (y : Fin n → K) (j : Fin n) : ext y j = y j := by simp [ext]

/-- The one-dimensional regression, in terms of vectors of length `n`. -/
theorem regression1_ok {n : ℕ} (hn : 0 < n) (y : Fin n → K) (nn : Bool) :
    ∃ (f : ℕ → Option K) (e : K) (u : Fin n → K), unimodalFibre id n (ext y) nn = .ok (f, e) ∧
      unimodalRegression1 id y nn = .ok (fun j => some (u j)) ∧ (∀ j : Fin n, f j = some (u j)) ∧
      IsUnimodal u ∧ (nn = true → IsNonneg u) ∧ sqDist y u = e ∧
      ∀ v, IsUnimodal v → (nn = true → IsNonneg v) → e ≤ sqDist y v := by
  obtain ⟨f, e, b, u, h1, h2, hbn, hm, ha, hnn, herr, hopt⟩ := unimodalFibre_ok hn (ext y) nn
  refine ⟨f, e, fun j => u j, h1, ?_, fun j => h2 j j.2, ?_, fun h j => hnn h j j.2, ?_, ?_⟩
  · simp only [unimodalRegression1, h1, bind, Except.bind, pure, Except.pure]
    congr 1
    funext j
    exact h2 j j.2
  · -- peak at `b - 1` or `b`
    by_cases hc : b ≠ 0 ∧ (b = n ∨ u b ≤ u (b - 1))
    · refine ⟨⟨b - 1, by omega⟩, ?_, ?_⟩
      · intro i j hij hj
        exact hm i j hij (by have : (j : ℕ) ≤ b - 1 := hj; omega)
      · intro i j hi hij
        have hi' : b - 1 ≤ (i : ℕ) := hi
        have hij' : (i : ℕ) ≤ j := hij
        rcases Nat.lt_or_ge (i : ℕ) b with h | h
        · rcases Nat.lt_or_ge (j : ℕ) b with h' | h'
          · exact le_of_eq (congrArg u (by omega))
          · have e1 : (i : ℕ) = b - 1 := by omega
            simp only [e1]
            have hlt := j.2
            rcases hc.2 with hbn' | hle
            · omega
            · exact (ha b j le_rfl h' j.2).trans hle
        · exact ha i j h hij' j.2
    · have hb' : b < n ∧ (b = 0 ∨ u (b - 1) < u b) := by
        by_cases h0 : b = 0
        · exact ⟨by omega, Or.inl h0⟩
        · have : ¬ (b = n ∨ u b ≤ u (b - 1)) := fun h => hc ⟨h0, h⟩
          push Not at this
          exact ⟨by omega, Or.inr this.2⟩
      refine ⟨⟨b, hb'.1⟩, ?_, ?_⟩
      · intro i j hij hj
        have hj' : (j : ℕ) ≤ b := hj
        have hij' : (i : ℕ) ≤ j := hij
        rcases Nat.lt_or_ge (j : ℕ) b with h | h
        · exact hm i j hij' h
        · rcases Nat.lt_or_ge (i : ℕ) b with h' | h'
          · have e1 : (j : ℕ) = b := by omega
            simp only [e1]
            rcases hb'.2 with h0 | hlt
            · omega
            · exact (hm i (b - 1) (by omega) (by omega)).trans hlt.le
          · exact le_of_eq (congrArg u (by omega))
      · intro i j hi hij
        exact ha i j hi hij j.2
  · rw [sqDist, ← herr, Finset.sum_range]
    exact sum_congr rfl fun j _ => by rw [ext_apply]
  · rintro v ⟨t, hv1, hv2⟩ hv0
    have := hopt (ext v) t t.2.le ?_ ?_ ?_
    · rw [Finset.sum_range] at this
      simpa only [ext_apply, sqDist] using this
    · intro i j hij hj
      have hjn : j < n := hj.trans t.2
      have := hv1 ⟨i, by omega⟩ ⟨j, hjn⟩ hij (Fin.mk_le_of_le_val hj.le)
      simpa [ext, hjn, show i < n by omega] using this
    · intro i j hi hij hj
      have := hv2 ⟨i, by omega⟩ ⟨j, hj⟩ hi hij
      simpa [ext, hj, show i < n by omega] using this
    · intro hnn j hj
      have := hv0 hnn ⟨j, hj⟩
      simpa [ext, hj] using this

end Verif.Unimodal
