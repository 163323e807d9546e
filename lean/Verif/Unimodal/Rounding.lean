import Verif.Unimodal.Split

/-!
# Helper lemmas: storing levels in an integer array is harmless when all block means are integers
-/

set_option linter.unusedSectionVars false

namespace Verif.Unimodal

open Finset Verif.Spec

variable {K : Type} [Field K] [LinearOrder K] [IsStrictOrderedRing K]

theorem mergeLoop_rnd {w y : ℕ → K} (rnd : K → K) (n : ℕ) : ∀ (f i : ℕ) (s : PState K), s.idx i ≤ f →
    (∀ j, j ≤ i → 0 < w j) → (∀ k, k < i → BlkCore w y s k) → BlkCore w y s i →
    (∀ a b, a ≤ b → b ≤ i → rnd ((∑ j ∈ Ico a (b + 1), w j * y j) / ∑ j ∈ Ico a (b + 1), w j)
      = (∑ j ∈ Ico a (b + 1), w j * y j) / ∑ j ∈ Ico a (b + 1), w j) →
    mergeLoop rnd n f i s = mergeLoop id n f i s := by
  intro f
  induction f with
  | zero => intros; rfl
  | succ f ih =>
    intro i s hf hw hk hi hr
    rw [mergeLoop, mergeLoop]
    split
    · rename_i hcond
      obtain ⟨h1, h2⟩ := hcond
      have hp : (s.idx i - 1) + 1 = s.idx i := by omega
      have hpi : s.idx i - 1 < i := by have := hi.le; omega
      simp only [predIdx, h2, if_false] at h1
      have hpb := hk _ hpi
      have hpp := hpb.le
      have hmerge : mergeInto rnd i (s.idx i - 1) s = mergeInto id i (s.idx i - 1) s := by
        have cat : ∀ f : ℕ → K, ∑ j ∈ Ico (s.idx i) (i + 1), f j
            + ∑ j ∈ Ico (s.idx (s.idx i - 1)) (s.idx i - 1 + 1), f j
            = ∑ j ∈ Ico (s.idx (s.idx i - 1)) (i + 1), f j := by
          intro f
          rw [add_comm, hp]
          exact sum_Ico_consecutive f (by omega) (by have := hi.le; omega)
        have := hr (s.idx (s.idx i - 1)) i (by omega) le_rfl
        rw [← cat, ← cat, ← hi.swy, ← hpb.swy, ← hi.sw, ← hpb.sw] at this
        simp only [mergeInto, this, id]
      rw [hmerge]
      set s2 : PState K := { mergeInto id i (s.idx i - 1) s with
        idx := Function.update (mergeInto id i (s.idx i - 1) s).idx i
          ((mergeInto id i (s.idx i - 1) s).idx ((mergeInto id i (s.idx i - 1) s).idx i - 1)) } with hs2
      have hsame : SameOff i s s2 := by
        constructor <;> intros <;> simp [mergeInto, *]
      have hidx : s2.idx i = s.idx (s.idx i - 1) := by simp [hs2, mergeInto]
      have hcore : BlkCore w y s2 i := by
        refine merge_core hp hw hi (hk _ hpi) h1 hidx ?_ ?_ ?_ ?_ <;> simp [hs2, mergeInto]
      exact ih i s2 (by omega) hw (fun k hk' => (hk k hk').congr hsame hk'.ne) hcore hr
    · rfl

theorem runLoop_rnd {nn : Bool} {w y : ℕ → K} (rnd : K → K) {n : ℕ} : ∀ k, (∀ j, j ≤ k → 0 < w j) →
    (∀ a b, a ≤ b → b ≤ k → rnd ((∑ j ∈ Ico a (b + 1), w j * y j) / ∑ j ∈ Ico a (b + 1), w j)
      = (∑ j ∈ Ico a (b + 1), w j * y j) / ∑ j ∈ Ico a (b + 1), w j) →
    runLoop rnd n nn w y k = runLoop id n nn w y k
  | 0, _, _ => rfl
  | k + 1, hw, hr => by
    have h := inv_run (nn := nn) (w := w) (y := y) (n := n) k (fun j hj => hw j (by omega))
    rw [runLoop, runLoop, runLoop_rnd rnd k (fun j hj => hw j (by omega)) (fun a b h1 h2 => hr a b h1 (by omega))]
    set s := runLoop id n nn w y k
    set s1 : PState K := { s with level := Function.update s.level (k + 1) (y (k + 1)),
                                  idx := Function.update s.idx (k + 1) (k + 1) } with hs1
    have hsame1 : SameOff (k + 1) s s1 := by
      constructor <;> intros <;> simp [*]
    have hcore1 : BlkCore w y s1 (k + 1) := by
      apply single_core
      · simp [hs1]
      · simpa [hs1] using h.rawy (k + 1) (by omega)
      · simpa [hs1] using h.rawy2 (k + 1) (by omega)
      · simpa [hs1] using h.raww (k + 1) (by omega)
      · simp [hs1]
    have := mergeLoop_rnd (w := w) (y := y) rnd n (k + 1) (k + 1) s1 (by simp [hs1]) hw
      (fun j hj => (h.core j (by omega)).congr hsame1 hj.ne) hcore1 hr
    simp only [body]
    rw [this]

theorem regression1_rnd (rnd : K → K) {n : ℕ} (y : Fin n → K) (nn : Bool)
    (hr : ∀ a b, a < b → b ≤ n → rnd ((∑ j ∈ Ico a b, ext y j) / ((b - a : ℕ) : K))
      = (∑ j ∈ Ico a b, ext y j) / ((b - a : ℕ) : K)) :
    unimodalRegression1 rnd y nn = unimodalRegression1 id y nn := by
  rcases Nat.eq_zero_or_pos n with rfl | hn
  · rfl
  have e1 : prefixIsotonic rnd n (ext y) none nn = prefixIsotonic id n (ext y) none nn := by
    unfold prefixIsotonic
    simp only [Option.getD_none]
    rw [runLoop_rnd rnd (n - 1) (fun _ _ => one_pos) ?_]
    intro a b hab hb
    have := hr a (b + 1) (by omega) (by omega)
    simpa using this
  have e2 : prefixIsotonic rnd n (fun j => ext y (n - 1 - j)) none nn
      = prefixIsotonic id n (fun j => ext y (n - 1 - j)) none nn := by
    unfold prefixIsotonic
    simp only [Option.getD_none]
    rw [runLoop_rnd rnd (n - 1) (fun _ _ => one_pos) ?_]
    intro a b hab hb
    have e : ∑ j ∈ Ico a (b + 1), ext y (n - 1 - j) = ∑ j ∈ Ico (n - 1 - b) (n - a), ext y j := by
      refine sum_nbij' (fun j => n - 1 - j) (fun j => n - 1 - j) ?_ ?_ ?_ ?_ ?_
      · intro j hj; simp only [mem_Ico] at *; omega
      · intro j hj; simp only [mem_Ico] at *; omega
      · intro j hj; simp only [mem_Ico] at *; omega
      · intro j hj; simp only [mem_Ico] at *; omega
      · intro j _; rfl
    have := hr (n - 1 - b) (n - a) (by omega) (by omega)
    have e3 : n - a - (n - 1 - b) = b + 1 - a := by omega
    rw [e3] at this
    simp only [one_mul, sum_const, Nat.card_Ico, nsmul_eq_mul, mul_one]
    rw [e]
    exact this
  simp only [unimodalRegression1, unimodalFibre, e1, e2]

end Verif.Unimodal
