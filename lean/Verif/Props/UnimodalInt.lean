import Verif.Unimodal.RoundExact
import Verif.Props.Unimodal

/-!
# C05: unimodal regression of integer arrays

The levels are stored in an array with the dtype of `y`, so for integer arrays they are truncated. The nearest
unimodal vector is then missed in general (`C05_integer_dtype_false`), but the result is still an integer unimodal
vector, and a vector that needs no change is not changed.
-/

namespace Verif.Props

open Verif.Unimodal Verif.Spec Finset

/-- C05, what holds for every integer array (partial: the full statement says that `u` is a nearest unimodal
vector). The result has no NaN, it consists of integers, it is unimodal, it is non-negative when this was asked for,
and an array that is already unimodal (and non-negative when this was asked for) is returned as it is. -/
theorem C05_feasible_partial {n : ℕ} (hn : 0 < n) (y : Fin n → ℤ) (nn : Bool) :
    ∃ u : Fin n → ℤ, unimodalRegression1 truncInt (fun j => (y j : ℚ)) nn = .ok (fun j => some (u j : ℚ)) ∧
      IsUnimodal (fun j => (u j : ℚ)) ∧ (nn = true → ∀ j, 0 ≤ u j) ∧
      (IsUnimodal (fun j => (y j : ℚ)) → (nn = true → ∀ j, 0 ≤ y j) → u = y) := by
  obtain ⟨u, h1, h2, h3, h4, h5⟩ := regression1_wok (rnd := truncInt) hn (fun j => (y j : ℚ)) nn
    (fun j => by unfold truncInt; split <;> simp)
  have h6 : ∀ j, ∃ z : ℤ, u j = z := by
    intro j
    rcases h4 j with h | ⟨x, h⟩
    · exact ⟨0, by rw [h]; simp⟩
    · rw [h]
      unfold truncInt
      split
      · exact ⟨_, rfl⟩
      · exact ⟨_, rfl⟩
  choose z hz using h6
  obtain rfl : u = fun j => (z j : ℚ) := funext hz
  refine ⟨z, h1, h2, fun hnn j => ?_, fun hu h0 => ?_⟩
  · have : (0 : ℚ) ≤ (z j : ℚ) := h3 hnn j
    exact_mod_cast this
  · have := h5 hu (fun hnn j => by have := h0 hnn j; simpa using this)
    funext j
    have := congrFun this j
    exact_mod_cast this

/-- Non-trivial cases: the array `[2, 1, 2, 7, 1, 4]`, where levels are truncated, and `[-3, 1, 1, 4, 0]`, which is
returned as it is. -/
example : (unimodalRegression1 truncInt ![(2 : ℚ), 1, 2, 7, 1, 4] false).map List.ofFn
      = .ok [some 1, some 1, some 2, some 7, some 2, some 2]
    ∧ (unimodalRegression1 truncInt ![(-3 : ℚ), 1, 1, 4, 0] false).map List.ofFn
      = .ok [some (-3), some 1, some 1, some 4, some 0] := by
  constructor <;> decide +kernel

theorem truncInt_intCast (z : ℤ) : truncInt (z : ℚ) = z := by
  unfold truncInt; split <;> simp

theorem truncInt_mono : Monotone truncInt := by
  intro a b hab
  unfold truncInt
  split
  · rename_i h
    rw [if_pos (h.trans hab)]
    exact_mod_cast Int.floor_le_floor hab
  · rename_i h
    split
    · rename_i h'
      have h1 : ⌈a⌉ ≤ 0 := Int.ceil_le.2 (by push_cast; exact (not_le.1 h).le)
      have h2 : 0 ≤ ⌊b⌋ := Int.floor_nonneg.2 h'
      exact_mod_cast h1.trans h2
    · exact_mod_cast Int.ceil_le_ceil hab

/-- C05, exactly when the property holds without the option `non_negativity`: the result for the integer array is the
result for floats if and only if the latter, the nearest unimodal vector that C01 describes, consists of integers. -/
theorem C05_exact {n : ℕ} (hn : 0 < n) (y : Fin n → ℤ) :
    unimodalRegression1 truncInt (fun j => (y j : ℚ)) false = unimodalRegression1 id (fun j => (y j : ℚ)) false ↔
      ∃ z : Fin n → ℤ, unimodalRegression1 id (fun j => (y j : ℚ)) false = .ok fun j => some (z j : ℚ) := by
  constructor
  · intro h
    obtain ⟨u, hu, -⟩ := C05_feasible_partial hn y false
    exact ⟨u, h ▸ hu⟩
  · rintro ⟨z, hz⟩
    rw [hz]
    exact regression1_agree hn _ _ truncInt_mono (fun j => truncInt_intCast _) hz (fun j => truncInt_intCast _)

/-- C05 with `non_negativity` is false even where the nearest vector consists of integers: for `[-3, 0, 1]` the
nearest non-negative unimodal vector is `[0, 0, 1]`, the result for the integer array is `[0, 0, 0]`. Read from the
right, all three entries are merged; their mean `-2/3` is stored as `0`, which is not below zero, so the error of the
mean (`26/3`) is recorded and not the error of the zero vector (`10`), and it beats the error `9` of the better split. -/
theorem C05_nonneg_false : ∃ (n : ℕ) (y z u : Fin n → ℤ), 0 < n ∧
    unimodalRegression1 id (fun j => (y j : ℚ)) true = .ok (fun j => some (z j : ℚ)) ∧
    IsNearest (fun v => IsUnimodal v ∧ IsNonneg v) (fun j => (y j : ℚ)) (fun j => (z j : ℚ)) ∧
    unimodalRegression1 truncInt (fun j => (y j : ℚ)) true = .ok (fun j => some (u j : ℚ)) ∧ u ≠ z := by
  have h1 : unimodalRegression1 id (fun j => ((![-3, 0, 1] : Fin 3 → ℤ) j : ℚ)) true
      = .ok (fun j => some ((![0, 0, 1] : Fin 3 → ℤ) j : ℚ)) := map_ofFn_inj (by decide +kernel)
  refine ⟨3, ![-3, 0, 1], ![0, 0, 1], ![0, 0, 0], by omega, h1, ?_, map_ofFn_inj (by decide +kernel), by decide⟩
  obtain ⟨u, hu, hnear⟩ := C02_nonneg_unimodal_nearest (by omega) (fun j => ((![-3, 0, 1] : Fin 3 → ℤ) j : ℚ))
  have : u = fun j => ((![0, 0, 1] : Fin 3 → ℤ) j : ℚ) := by
    have := hu.symm.trans h1
    simp only [Except.ok.injEq] at this
    funext j
    exact Option.some.inj (congrFun this j)
  rw [← this]
  exact hnear

end Verif.Props
