import Mathlib.Data.Fin.VecNotation
import Mathlib.Tactic.Ring
import Mathlib.Tactic.Linarith
import Verif.Unimodal.Steps
import Verif.Shapes.Cost
import Verif.Props.Shapes

/-!
# C113: documented costs

Unimodal regression takes linear time (`penalties.py` line 995), and the product of three matrices is computed in the cheaper order (`decomposition.py` lines 141-144).
-/

set_option linter.unusedSectionVars false

namespace Verif.Props

open Verif.Unimodal

section
variable {K : Type} [Zero K] [One K] [Add K] [Sub K] [Mul K] [Div K] [Pow K ℕ] [LE K] [LT K] [DecidableLE K] [DecidableLT K]
variable {rnd : K → K}

/-! ### Counting does not change the results -/

theorem mergeLoopC_fst (n : ℕ) : ∀ (f i : ℕ) (s : PState K) (c : ℕ), (mergeLoopC rnd n f i (s, c)).1 = mergeLoop rnd n f i s
  | 0, _, _, _ => rfl
  | f + 1, i, s, c => by
    simp only [mergeLoopC, mergeLoop]
    split
    · exact mergeLoopC_fst n f i _ _
    · rfl

theorem runLoopC_fst (n : ℕ) (nn : Bool) (w y : ℕ → K) : ∀ k, (runLoopC rnd n nn w y k).1 = runLoop rnd n nn w y k
  | 0 => rfl
  | k + 1 => by
    simp only [runLoopC, runLoop, bodyC, body, mergeLoopC_fst, runLoopC_fst n nn w y k]
    split <;> rfl

theorem prefixIsotonicC_eq (n : ℕ) (y : ℕ → K) (w : Option (ℕ → K)) (nn : Bool) :
    (prefixIsotonicC rnd n y w nn).map Prod.fst = prefixIsotonic rnd n y w nn := by
  unfold prefixIsotonicC prefixIsotonic
  split
  · rfl
  · simp only [Except.map, runLoopC_fst]

theorem isoLoopC_fst (level : ℕ → K) (idx : ℕ → ℕ) : ∀ (f e : ℕ) (out : ℕ → Option K) (c : ℕ), (isoLoopC level idx f e (out, c)).1 = isoLoop level idx f e out
  | 0, _, _, _ => rfl
  | f + 1, e, out, c => by
    simp only [isoLoopC, isoLoop]
    split
    · rfl
    · exact isoLoopC_fst level idx f _ _ _

theorem bestIndexC_fst (errL errR : ℕ → K) (n : ℕ) : ∀ k, (bestIndexC errL errR n k).1 = bestIndex errL errR n k
  | 0 => rfl
  | k + 1 => by
    simp only [bestIndexC, bestIndex, bestIndexC_fst errL errR n k]
    split <;> rfl

theorem unimodalFibreC_eq (n : ℕ) (y : ℕ → K) (nn : Bool) : (unimodalFibreC rnd n y nn).map Prod.fst = unimodalFibre rnd n y nn := by
  unfold unimodalFibreC unimodalFibre
  rw [← prefixIsotonicC_eq, ← prefixIsotonicC_eq]
  rcases prefixIsotonicC rnd n y none nn with e | l
  · rfl
  rcases prefixIsotonicC rnd n (fun j => y (n - 1 - j)) none nn with e | r
  · rfl
  show Except.ok _ = Except.ok _
  simp only [isoLoopC_fst, bestIndexC_fst, isoFromIndex]

theorem regression1C_eq {n : ℕ} (y : Fin n → K) (nn : Bool) : (unimodalRegression1C rnd y nn).map Prod.fst = unimodalRegression1 rnd y nn := by
  unfold unimodalRegression1C unimodalRegression1
  rw [← unimodalFibreC_eq]
  rcases unimodalFibreC rnd n (ext y) nn with e | r <;> rfl

/-! ### Blocks -/

/-- The first `e` samples are `c` blocks; `idx` of the last sample of a block is its first sample. -/
inductive Blocks (idx : ℕ → ℕ) : ℕ → ℕ → Prop
  | nil : Blocks idx 0 0
  | snoc {e c : ℕ} (h : idx e ≤ e) : Blocks idx (idx e) c → Blocks idx (e + 1) (c + 1)

theorem Blocks.congr {idx idx' : ℕ → ℕ} {e c : ℕ} (h : Blocks idx e c) (he : ∀ k < e, idx' k = idx k) : Blocks idx' e c := by
  induction h with
  | nil => exact .nil
  | @snoc e c hle _ ih =>
    have e0 := he e e.lt_succ_self
    refine .snoc (e0 ▸ hle) ?_
    rw [e0]
    exact ih fun k hk => he k (by omega)

theorem mergeLoopC_blocks (n : ℕ) : ∀ (f i : ℕ) (s : PState K) (c b : ℕ), s.idx i ≤ i → Blocks s.idx (s.idx i) b → ∃ b' k,
    (mergeLoopC rnd n f i (s, c)).2 = c + k ∧ b' + k = b ∧ (mergeLoopC rnd n f i (s, c)).1.idx i ≤ i ∧
      Blocks (mergeLoopC rnd n f i (s, c)).1.idx ((mergeLoopC rnd n f i (s, c)).1.idx i) b' ∧ ∀ j, j ≠ i → (mergeLoopC rnd n f i (s, c)).1.idx j = s.idx j
  | 0, i, s, c, b => fun h1 h2 => ⟨b, 0, rfl, rfl, h1, h2, fun _ _ => rfl⟩
  | f + 1, i, s, c, b => by
    intro h1 h2
    simp only [mergeLoopC]
    split
    · rename_i hc
      obtain ⟨p, hp⟩ := Nat.exists_eq_succ_of_ne_zero hc.2
      rw [hp] at h2
      cases h2 with
      | @snoc _ b0 hle hb =>
        have hpi : p ≠ i := by omega
        set s1 : PState K := { mergeInto rnd i (s.idx i - 1) s with
          idx := Function.update (mergeInto rnd i (s.idx i - 1) s).idx i ((mergeInto rnd i (s.idx i - 1) s).idx ((mergeInto rnd i (s.idx i - 1) s).idx i - 1)) } with hs1
        have hi : s1.idx i = s.idx p := by
          simp only [hs1, mergeInto, Function.update_self, hp, Nat.succ_eq_add_one, Nat.add_sub_cancel]
        have ho : ∀ j, j ≠ i → s1.idx j = s.idx j := fun j hj => by
          simp only [hs1, mergeInto, Function.update_of_ne hj]
        obtain ⟨b', k, e1, e2, e3, e4, e5⟩ := mergeLoopC_blocks n f i s1 (c + 1) b0 (by rw [hi]; omega)
          (by rw [hi]; exact hb.congr fun k hk => ho k (by omega))
        exact ⟨b', k + 1, by rw [e1]; omega, by omega, e3, e4, fun j hj => (e5 j hj).trans (ho j hj)⟩
    · exact ⟨b, 0, rfl, rfl, h1, h2, fun _ _ => rfl⟩

/-- The invariant: passes and blocks add up to at most twice the number of samples. -/
theorem runLoopC_blocks (n : ℕ) (nn : Bool) (w y : ℕ → K) : ∀ k, (∀ j ≤ k, (runLoopC rnd n nn w y k).1.idx j ≤ j) ∧
    ∃ b, 0 < b ∧ Blocks (runLoopC rnd n nn w y k).1.idx (k + 1) b ∧ (runLoopC rnd n nn w y k).2 + b = 2 * k + 1
  | 0 => ⟨fun j _ => Nat.zero_le j, 1, one_pos, .snoc (Nat.zero_le _) .nil, rfl⟩
  | k + 1 => by
    obtain ⟨hle, b, hb0, hb, hc⟩ := runLoopC_blocks n nn w y k
    set r := runLoopC rnd n nn w y k with hr
    obtain ⟨b', m, e1, e2, e3, e4, e5⟩ := mergeLoopC_blocks (rnd := rnd) n (k + 1) (k + 1)
      { r.1 with level := Function.update r.1.level (k + 1) (y (k + 1)), idx := Function.update r.1.idx (k + 1) (k + 1) } (r.2 + 1) b
      (by simp) (by
        simp only [Function.update_self]
        exact hb.congr fun j hj => Function.update_of_ne (by omega) _ _)
    set q := mergeLoopC rnd n (k + 1) (k + 1)
      ({ r.1 with level := Function.update r.1.level (k + 1) (y (k + 1)), idx := Function.update r.1.idx (k + 1) (k + 1) }, r.2 + 1) with hq
    have key : (runLoopC rnd n nn w y (k + 1)).1.idx = q.1.idx ∧ (runLoopC rnd n nn w y (k + 1)).2 = q.2 := by
      simp only [runLoopC, bodyC, ← hr, ← hq]
      split <;> exact ⟨rfl, rfl⟩
    rw [key.1, key.2]
    refine ⟨fun j hj => ?_, b' + 1, b'.succ_pos, .snoc e3 e4, by omega⟩
    rcases Nat.eq_or_lt_of_le hj with rfl | hlt
    · exact e3
    · rw [e5 j (by omega)]
      simp only [Function.update_of_ne (show j ≠ k + 1 by omega)]
      exact hle j (by omega)

theorem prefixIsotonicC_steps {n : ℕ} {y : ℕ → K} {w : Option (ℕ → K)} {nn : Bool} {r : PrefixFit K × ℕ} (h : prefixIsotonicC rnd n y w nn = .ok r) :
    (∀ j < n, r.1.idx j ≤ j) ∧ r.2 ≤ 2 * (n - 1) + if nn then n else 0 := by
  unfold prefixIsotonicC at h
  split at h
  · cases h
  · rename_i hn
    obtain ⟨h1, b, hb, -, h2⟩ := runLoopC_blocks (rnd := rnd) n nn (w.getD fun _ => 1) y (n - 1)
    cases h
    exact ⟨fun j hj => h1 j (by omega), by simp only; omega⟩

theorem isoLoopC_steps (level : ℕ → K) (idx : ℕ → ℕ) : ∀ (f e : ℕ) (out : ℕ → Option K) (c : ℕ), (∀ j < e, idx j ≤ j) → (isoLoopC level idx f e (out, c)).2 ≤ c + 2 * e
  | 0, _, _, c => fun _ => Nat.le_add_right _ _
  | f + 1, e, out, c => fun h => by
    simp only [isoLoopC]
    split
    · exact Nat.le_add_right _ _
    · rename_i he
      have h0 := h (e - 1) (by omega)
      refine (isoLoopC_steps level idx f _ _ _ fun j hj => h j (by omega)).trans ?_
      omega

theorem bestIndexC_steps (errL errR : ℕ → K) (n : ℕ) : ∀ k, (bestIndexC errL errR n k).2 = k ∧ (bestIndexC errL errR n k).1.1 ≤ k - 1
  | 0 => ⟨rfl, le_rfl⟩
  | k + 1 => by
    obtain ⟨h1, h2⟩ := bestIndexC_steps errL errR n k
    simp only [bestIndexC]
    split
    · exact ⟨by simp only [h1], by simp⟩
    · exact ⟨by simp only [h1], by simp only; omega⟩

/-- C113, prefix isotonic regression: whatever the numbers are, all `while` loops together have fewer passes than there are samples. With the `for` loop there are at most `2 (n - 1)`
passes, and `n` more with non-negativity. -/
theorem C113_prefix {n : ℕ} (hn : 0 < n) (y : ℕ → K) (w : Option (ℕ → K)) (nn : Bool) : ∃ r, prefixIsotonicC rnd n y w nn = .ok r ∧
    prefixIsotonic rnd n y w nn = .ok r.1 ∧ r.2 ≤ 2 * (n - 1) + if nn then n else 0 := by
  rcases h : prefixIsotonicC rnd n y w nn with e | r
  · unfold prefixIsotonicC at h
    rw [if_neg hn.ne'] at h
    cases h
  · exact ⟨r, rfl, by rw [← prefixIsotonicC_eq, h]; rfl, (prefixIsotonicC_steps h).2⟩

/-- C113, vectors: unimodal regression of a vector of length `n` takes at most `9 n` steps, for real numbers, floating-point numbers and integers. -/
theorem C113_vector {n : ℕ} (hn : 0 < n) (y : Fin n → K) (nn : Bool) : ∃ r, unimodalRegression1C rnd y nn = .ok r ∧
    unimodalRegression1 rnd y nn = .ok r.1 ∧ r.2 ≤ 9 * n := by
  obtain ⟨l, hl, -⟩ := C113_prefix (rnd := rnd) hn (ext y) none nn
  obtain ⟨q, hq, -⟩ := C113_prefix (rnd := rnd) hn (fun j => ext y (n - 1 - j)) none nn
  have hb := bestIndexC_steps l.1.error q.1.error n (n + 1)
  obtain ⟨l1, l2⟩ := prefixIsotonicC_steps hl
  obtain ⟨q1, q2⟩ := prefixIsotonicC_steps hq
  have hL := isoLoopC_steps l.1.level l.1.idx (bestIndexC l.1.error q.1.error n (n + 1)).1.1 (bestIndexC l.1.error q.1.error n (n + 1)).1.1 (fun _ => none) 0
    fun j hj => l1 j (by omega)
  have hQ := isoLoopC_steps q.1.level q.1.idx (n - (bestIndexC l.1.error q.1.error n (n + 1)).1.1) (n - (bestIndexC l.1.error q.1.error n (n + 1)).1.1) (fun _ => none) 0
    fun j hj => q1 j (by omega)
  have e : ∃ r, unimodalRegression1C rnd y nn = .ok r ∧ r.2 ≤ 9 * n := by
    refine ⟨_, by unfold unimodalRegression1C unimodalFibreC; rw [hl, show prefixIsotonicC rnd n (fun j => ext y (n - 1 - j)) none nn = .ok q from hq]; rfl, ?_⟩
    simp only
    have hnn : (if nn then n else 0) ≤ n := by split <;> omega
    omega
  obtain ⟨r, h1, h2⟩ := e
  exact ⟨r, h1, by rw [← regression1C_eq, h1]; rfl, h2⟩

theorem mapM_steps {α β : Type} (g : α → Except PyErr (β × ℕ)) (N : ℕ) (hg : ∀ a, ∃ r, g a = .ok r ∧ r.2 ≤ N) : ∀ l : List α, ∃ rs, l.mapM g = .ok rs ∧
    l.mapM (fun a => (g a).map Prod.fst) = .ok (rs.map Prod.fst) ∧ (rs.map fun c => c.2 + 1).sum ≤ l.length * (N + 1)
  | [] => ⟨[], rfl, rfl, Nat.zero_le _⟩
  | a :: l => by
    obtain ⟨r, h1, h2⟩ := hg a
    obtain ⟨rs, h3, h4, h5⟩ := mapM_steps g N hg l
    refine ⟨r :: rs, by rw [List.mapM_cons, h1, h3]; rfl, by rw [List.mapM_cons, h1, h4]; rfl, ?_⟩
    simp only [List.map_cons, List.sum_cons, List.length_cons, Nat.succ_mul]
    omega

/-- C113, arrays: unimodal regression of the `m` fibres of an array takes at most 10 steps for each of its `n m` entries. -/
theorem C113_array {n m : ℕ} (hn : 0 < n) (hm : 0 < m) {ι : Type} (flat : ι ≃ Fin m) (y : Fin n → ι → K) (nn : Bool) : ∃ r, unimodalRegressionNC rnd flat y nn = .ok r ∧
    unimodalRegressionN rnd flat y nn = .ok r.1 ∧ r.2 ≤ 10 * (n * m) := by
  obtain ⟨rs, h1, h2, h3⟩ := mapM_steps (fun r : Fin m => unimodalRegression1C rnd (fun j => y j (flat.symm r)) nn) (9 * n)
    (fun r => by obtain ⟨q, h1, -, h2⟩ := C113_vector (rnd := rnd) hn (fun j => y j (flat.symm r)) nn; exact ⟨q, h1, h2⟩) (List.finRange m)
  refine ⟨_, by unfold unimodalRegressionNC; rw [if_neg (by omega), h1]; rfl, ?_, ?_⟩
  · unfold unimodalRegressionN
    rw [if_neg (by omega)]
    simp only [regression1C_eq] at h2
    rw [h2]
    show Except.ok _ = Except.ok _
    congr 1
    funext j i
    simp only [List.getElem?_map]
    cases rs[(flat i : ℕ)]? <;> rfl
  · simp only [List.length_finRange] at h3
    refine h3.trans ?_
    calc m * (9 * n + 1) ≤ m * (9 * n + n) := Nat.mul_le_mul_left _ (by omega)
      _ = 10 * (n * m) := by ring

end

/-- A decreasing vector, for which every sample is merged in one direction. -/
example : (unimodalRegression1C (K := ℤ) id (n := 4) ![4, 3, 2, 1] false).map Prod.snd = .ok 22 := by decide +kernel

/-! ### The order of products -/

open Verif.Shapes

/-- The counted product is the product of the model of the loop, which goes on with the cross product. -/
theorem term_triple (M B C CtC : Sh) : term M B C CtC = (do
    let t ← tripleC M B C
    let _ ← both (← dot B.swap B) CtC
    return t.1) := by
  unfold term tripleC dotC
  split
  · rcases dot B.swap M with e | x
    · rfl
    · show (dot x C >>= _) = _
      simp only [bind, Except.bind, pure, Except.pure]
      rcases dot x C <;> rfl
  · rcases dot M C with e | x
    · rfl
    · show (dot B.swap x >>= _) = _
      simp only [bind, Except.bind, pure, Except.pure]
      rcases dot B.swap x <;> rfl

/-- C113, the order of products: the order that is chosen is the cheaper one, whatever the sizes are. -/
theorem C113_order (j k R : ℕ) : ∃ c, tripleC (j, k) (j, R) (k, R) = .ok ((R, R), c) ∧
    (∀ c', (do dotC (← dotC ((R, j), 0) ((j, k), 0)) ((k, R), 0)) = .ok ((R, R), c') → c ≤ c') ∧
    (∀ c', (do dotC ((R, j), 0) (← dotC ((j, k), 0) ((k, R), 0))) = .ok ((R, R), c') → c ≤ c') := by
  have h1 : (do dotC (← dotC ((R, j), 0) ((j, k), 0)) ((k, R), 0)) = .ok ((R, R), R * j * k + R * k * R) := by
    simp [dotC, bind, Except.bind, pure, Except.pure]
  have h2 : (do dotC ((R, j), 0) (← dotC ((j, k), 0) ((k, R), 0))) = .ok ((R, R), j * k * R + R * j * R) := by
    simp [dotC, bind, Except.bind, pure, Except.pure]
  have e : R * j * k = j * k * R := by ring
  have le : ∀ a b : ℕ, a ≤ b → R * a * R ≤ R * b * R := fun a b h => Nat.mul_le_mul_right _ (Nat.mul_le_mul_left _ h)
  rcases Nat.lt_or_ge k j with hkj | hkj
  · refine ⟨_, by unfold tripleC; rw [if_pos hkj]; exact h1, fun c' h => ?_, fun c' h => ?_⟩
    · rw [h1] at h; cases h; exact le_rfl
    · rw [h2] at h; cases h; rw [e]; exact Nat.add_le_add_left (le _ _ hkj.le) _
  · refine ⟨_, by unfold tripleC; rw [if_neg (not_lt.2 hkj)]; exact h2, fun c' h => ?_, fun c' h => ?_⟩
    · rw [h1] at h; cases h; rw [e]; exact Nat.add_le_add_left (le _ _ hkj) _
    · rw [h2] at h; cases h; exact le_rfl

end Verif.Props
