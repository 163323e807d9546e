import Mathlib.Data.Rat.Floor
import Mathlib.Data.Fin.VecNotation
import Mathlib.Logic.Equiv.Basic
import Verif.Unimodal.Rounding

/-!
# C01-C05: unimodal regression
-/

set_option linter.unusedSectionVars false

namespace Verif.Props

open Finset Verif.Spec Verif.Unimodal

variable {K : Type} [Field K] [LinearOrder K] [IsStrictOrderedRing K]

/-- C01. -/
theorem C01_unimodal_nearest {n : ℕ} (hn : 0 < n) (y : Fin n → K) :
    ∃ u : Fin n → K, unimodalRegression1 id y false = .ok (fun j => some (u j)) ∧ IsNearest IsUnimodal y u := by
  obtain ⟨f, e, u, -, h, -, h1, -, h3, h4⟩ := regression1_ok hn y false
  exact ⟨u, h, h1, fun v hv => h3 ▸ h4 v hv (by simp)⟩

/-- C01, the excluded case: an empty vector raises IndexError. -/
theorem C01_empty (y : Fin 0 → K) (nn : Bool) : unimodalRegression1 id y nn = .error .indexError := rfl

/-- Non-trivial case of C01: blocks are merged on both sides and the peak is in the interior. -/
example : (unimodalRegression1 id ![(3 : ℚ), 1, 2, 5, 4] false).map List.ofFn
    = .ok [some 2, some 2, some 2, some 5, some 4] := by
  decide +kernel

/-- C02. -/
theorem C02_nonneg_unimodal_nearest {n : ℕ} (hn : 0 < n) (y : Fin n → K) :
    ∃ u : Fin n → K, unimodalRegression1 id y true = .ok (fun j => some (u j)) ∧
      IsNearest (fun v => IsUnimodal v ∧ IsNonneg v) y u := by
  obtain ⟨f, e, u, -, h, -, h1, h2, h3, h4⟩ := regression1_ok hn y true
  exact ⟨u, h, ⟨h1, h2 rfl⟩, fun v hv => h3 ▸ h4 v hv.1 (fun _ => hv.2)⟩

example : (unimodalRegression1 id ![(-3 : ℚ), 1, -2, 5, -4] true).map List.ofFn
    = .ok [some 0, some 0, some 0, some 5, some 0] := by
  decide +kernel

/-- C03. The array has `n` rows and its other modes are indexed by `ι` (`m` fibres). Every fibre of the result is the regression of
the fibre of the input, the whole result is the nearest array with unimodal (non-negative) fibres, and the error
that `_unimodal_regression` returns for each fibre is the squared distance. -/
theorem C03_matrix_columns {n m : ℕ} (hn : 0 < n) (hm : 0 < m) {ι : Type} [Fintype ι] (flat : ι ≃ Fin m)
    (y : Fin n → ι → K) (nn : Bool) :
    ∃ u : Fin n → ι → K, unimodalRegressionN id flat y nn = .ok (fun j i => some (u j i)) ∧
      (∀ i, unimodalRegression1 id (fun j => y j i) nn = .ok (fun j => some (u j i))) ∧
      (∀ i, ∃ f e, unimodalFibre id n (ext fun j => y j i) nn = .ok (f, e) ∧
        e = sqDist (fun j => y j i) (fun j => u j i)) ∧
      IsNearest (fun v : Fin n × ι → K => ∀ i, IsUnimodal (fun j => v (j, i)) ∧
        (nn = true → IsNonneg (fun j => v (j, i)))) (fun p => y p.1 p.2) (fun p => u p.1 p.2) := by
  choose f e u h1 h2 h3 h4 h5 h6 h7 using fun i => regression1_ok hn (fun j => y j i) nn
  refine ⟨fun j i => u i j, ?_, h2, fun i => ⟨f i, e i, h1 i, (h6 i).symm⟩, fun i => ⟨h4 i, h5 i⟩, ?_⟩
  · rw [unimodalRegressionN, if_neg (by omega)]
    rw [mapM_ok _ (fun r j => some (u (flat.symm r) j)) _ (fun r _ => h2 (flat.symm r))]
    simp only [bind, Except.bind, pure, Except.pure]
    congr 1
    funext j i
    simp
  · intro v hv
    simp only [sqDist, Fintype.sum_prod_type_right]
    refine sum_le_sum fun i _ => ?_
    have := h7 i (fun j => v (j, i)) (hv i).1 (hv i).2
    rw [← h6 i] at this
    exact this

example : (unimodalRegressionN id (Equiv.refl (Fin 2)) ![![(3 : ℚ), -1], ![1, 1], ![2, -3]] true).map
    (fun u => List.ofFn fun j => List.ofFn (u j))
    = .ok [[some 3, some 0], [some (3/2), some 1], [some (3/2), some 0]] := by
  decide +kernel

/-- C04. For every prefix length `k`, `error[k]` is the smallest weighted squared error of a non-decreasing (and
non-negative) fit, and the level sets reconstruct a fit that attains it. `weights = none` means unit weights. -/
theorem C04_prefix_isotonic {n : ℕ} (hn : 0 < n) (y : ℕ → K) (weights : Option (ℕ → K)) (nn : Bool)
    (hw : ∀ w, weights = some w → ∀ j, j < n → 0 < w j) :
    ∃ p, prefixIsotonic id n y weights nn = .ok p ∧ ∀ k, k ≤ n →
      (∃ u, (∀ j, j < k → isoFromIndex k p.level p.idx j = some (u j)) ∧ MonoUpTo u k ∧
        (nn = true → ∀ j, j < k → 0 ≤ u j) ∧ wsqErr (weights.getD fun _ => 1) y u k = p.error k) ∧
      ∀ v, MonoUpTo v k → (nn = true → ∀ j, j < k → 0 ≤ v j) →
        p.error k ≤ wsqErr (weights.getD fun _ => 1) y v k := by
  obtain ⟨p, h1, -, h2⟩ := prefixIsotonic_ok hn y weights nn hw
  refine ⟨p, h1, fun k hk => ?_⟩
  obtain ⟨u, hu, fit⟩ := h2 k hk
  refine ⟨⟨u, fun j hj => by rw [hu, if_pos hj], fit.mono, fit.nonneg, fit.err_eq⟩, fun v hv hv0 => ?_⟩
  refine fit.opt (fun j hj => ?_) hv hv0
  cases weights with
  | none => exact one_pos
  | some w => exact hw w rfl j (by omega)

/-- Non-trivial case of C04: weighted, merging, every prefix error is positive from length two on. -/
example : (prefixIsotonic id 3 (fun j => (3 - j : ℚ)) (some fun j => (j + 1 : ℚ)) false).map
    (fun p => (List.range 4).map p.error) = .ok [0, 0, 2 / 3, 10 / 3] := by
  decide +kernel

/-- Conversion of a number to an integer dtype: truncation towards zero. -/
def truncInt (q : ℚ) : ℚ := if 0 ≤ q then ⌊q⌋ else ⌈q⌉

theorem map_ofFn_inj {n : ℕ} {β : Type} {r : Except PyErr (Fin n → β)} {u : Fin n → β}
    (h : r.map List.ofFn = .ok (List.ofFn u)) : r = .ok u := by
  cases r with
  | error e => simp [Except.map] at h
  | ok v => simp only [Except.map, Except.ok.injEq] at h; rw [List.ofFn_injective h]

/-- C05 is false: on the integer array `[2, 1, 2]` the result is `[2, 1, 1]`, which is not a nearest unimodal
vector (`[2, 3/2, 3/2]` is closer), and differs from the result for floats. -/
theorem C05_integer_dtype_false : ∃ (n : ℕ) (y : Fin n → ℤ) (u : Fin n → ℚ), 0 < n ∧
    unimodalRegression1 truncInt (fun j => (y j : ℚ)) false = .ok (fun j => some (u j)) ∧
    unimodalRegression1 id (fun j => (y j : ℚ)) false ≠ .ok (fun j => some (u j)) ∧
    ¬ IsNearest IsUnimodal (fun j => (y j : ℚ)) u := by
  refine ⟨3, ![2, 1, 2], ![2, 1, 1], by omega, map_ofFn_inj (by decide +kernel), ?_, ?_⟩
  · intro h
    have h' := congrArg (Except.map List.ofFn) h
    revert h'
    decide +kernel
  rintro ⟨-, h⟩
  have := h ![2, 3/2, 3/2] ⟨0, by decide +kernel, by decide +kernel⟩
  revert this
  decide +kernel

/-- C05, what holds (partial: the full statement has no hypothesis `hr`). If the mean of every run of consecutive
entries is an integer, the result for the integer array equals the result for floats. -/
theorem C05_integer_dtype_partial {n : ℕ} (y : Fin n → ℤ) (nn : Bool)
    (hr : ∀ a b, a < b → b ≤ n → ∃ z : ℤ, ∑ j : Fin n, (if a ≤ j.1 ∧ j.1 < b then y j else 0) = (b - a) * z) :
    unimodalRegression1 truncInt (fun j => (y j : ℚ)) nn = unimodalRegression1 id (fun j => (y j : ℚ)) nn := by
  apply regression1_rnd
  intro a b hab hb
  obtain ⟨z, hz⟩ := hr a b hab hb
  have e : ∑ j ∈ Ico a b, ext (fun j => (y j : ℚ)) j = ((b - a : ℕ) : ℚ) * z := by
    have h1 : ∑ j ∈ Ico a b, ext (fun j => (y j : ℚ)) j
        = ∑ j ∈ range n, (if a ≤ j ∧ j < b then ext (fun j => (y j : ℚ)) j else 0) := by
      rw [← sum_filter]
      refine sum_congr ?_ fun _ _ => rfl
      ext j
      simp only [mem_Ico, mem_filter, mem_range]
      omega
    rw [h1, Finset.sum_range]
    have h2 : ((∑ j : Fin n, (if a ≤ j.1 ∧ j.1 < b then y j else 0) : ℤ) : ℚ) = ((b - a : ℕ) : ℚ) * z := by
      rw [hz]
      push_cast [Nat.cast_sub hab.le]
      ring
    rw [← h2]
    push_cast
    refine sum_congr rfl fun j _ => ?_
    split <;> simp [Unimodal.ext]
  have hne : ((b - a : ℕ) : ℚ) ≠ 0 := by
    have : b - a ≠ 0 := by omega
    exact_mod_cast this
  rw [e, mul_div_cancel_left₀ _ hne]
  unfold truncInt
  split <;> simp

/-- The hypothesis of the partial theorem holds for a vector with a merge: `[6, 0, 12]`. -/
example : ∀ a < 4, ∀ b < 4, a < b → ((b - a : ℕ) : ℤ) ∣
    ∑ j : Fin 3, (if a ≤ j.1 ∧ j.1 < b then ![6, 0, 12] j else (0 : ℤ)) := by
  decide

end Verif.Props
