import Mathlib.Algebra.Order.Field.Rat
import Mathlib.Data.Fin.VecNotation
import Verif.Props.Unimodal
import Verif.Unimodal.FloatLemmas

/-!
# C99: unimodal regression in floating-point arithmetic

C01 to C04 are about exact numbers. In floating-point arithmetic the blocks and the split point are chosen from rounded
sums and errors, so the result need not be the nearest unimodal vector, and nothing about distances is claimed here. What
remains true, whatever the operations return, is that the result is unimodal and non-negative: not up to rounding
errors, but in the comparisons of floating-point numbers.
-/

namespace Verif.Props

open Verif.Unimodal Verif.Spec

section
variable {K : Type} [Zero K] [One K] [Add K] [Sub K] [Mul K] [Div K] [Pow K ℕ] [LE K] [LT K] [DecidableLE K] [DecidableLT K]
  [FloatOrder K]

/-- C99. `+`, `-`, `*`, `/`, powers and the conversion `rnd` of stored levels are arbitrary functions; only the
comparisons follow the laws of IEEE 754. Every vector that is not empty gets a result of the same length, in which every
entry was computed (`none` is an entry that `np.full(..., np.nan)` put there). Every entry that is not NaN is
non-negative if this was asked for. If no entry is NaN then the result is unimodal. -/
theorem C99 (rnd : K → K) {n : ℕ} (hn : 0 < n) (y : Fin n → K) (nn : Bool) :
    ∃ u : Fin n → K, unimodalRegression1 rnd y nn = .ok (fun j => some (u j)) ∧
      ((∀ j, ¬ IsNaN (u j)) → IsUnimodalLE u) ∧ (nn = true → ∀ j, ¬ IsNaN (u j) → 0 ≤ u j) :=
  regression1_float hn y nn

/-- C99 for arrays with more modes: every fibre along the first mode is treated like a vector. -/
theorem C99_fibres (rnd : K → K) {n m : ℕ} {ι : Type} (hn : 0 < n) (hm : 0 < m) (flat : ι ≃ Fin m) (y : Fin n → ι → K)
    (nn : Bool) :
    ∃ u : Fin n → ι → K, unimodalRegressionN rnd flat y nn = .ok (fun j i => some (u j i)) ∧
      (∀ i, unimodalRegression1 rnd (fun j => y j i) nn = .ok (fun j => some (u j i))) ∧
      ∀ i, ((∀ j, ¬ IsNaN (u j i)) → IsUnimodalLE fun j => u j i) ∧
        (nn = true → ∀ j, ¬ IsNaN (u j i) → 0 ≤ u j i) := by
  choose u h1 h2 h3 using fun i => regression1_float (rnd := rnd) hn (fun j => y j i) nn
  refine ⟨fun j i => u i j, ?_, h1, fun i => ⟨h2 i, h3 i⟩⟩
  rw [unimodalRegressionN, if_neg (by omega)]
  rw [mapM_ok _ (fun r j => some (u (flat.symm r) j)) _ (fun r _ => h1 (flat.symm r))]
  simp only [bind, Except.bind, pure, Except.pure]
  congr 1
  funext j i
  simp

end

/-- C99 for an arithmetic that never returns NaN: the result is unimodal, without a condition. -/
theorem C99_total {K : Type} [Zero K] [One K] [Add K] [Sub K] [Mul K] [Div K] [Pow K ℕ] [LinearOrder K] (rnd : K → K) {n : ℕ}
    (hn : 0 < n) (y : Fin n → K) (nn : Bool) :
    ∃ u : Fin n → K, unimodalRegression1 rnd y nn = .ok (fun j => some (u j)) ∧ IsUnimodalLE u ∧
      (nn = true → ∀ j, 0 ≤ u j) := by
  obtain ⟨u, h1, h2, h3⟩ := C99 rnd hn y nn
  have h : ∀ j, ¬ IsNaN (u j) := fun j hc => hc le_rfl
  exact ⟨u, h1, h2 h, fun hnn j => h3 hnn j (h j)⟩

/-! ### A small floating-point arithmetic -/

/-- Numbers with one binary digit after the point, from `-32` to `32`, and NaN (`none`). `some q` is `q / 2`. -/
structure Half where
  val : Option ℤ
  deriving DecidableEq

namespace Half

/-- Overflow gives NaN. -/
def mk' (q : ℤ) : Half := ⟨if q.natAbs ≤ 64 then some q else none⟩

def lift (f : ℤ → ℤ → Option Half) (x y : Half) : Half :=
  match x.val, y.val with
  | some a, some b => (f a b).getD ⟨none⟩
  | _, _ => ⟨none⟩

instance : Zero Half := ⟨⟨some 0⟩⟩
instance : One Half := ⟨⟨some 2⟩⟩
instance : Add Half := ⟨lift fun a b => some (mk' (a + b))⟩
instance : Sub Half := ⟨lift fun a b => some (mk' (a - b))⟩
/-- Products are rounded down. -/
instance : Mul Half := ⟨lift fun a b => some (mk' (a * b / 2))⟩
/-- Quotients are rounded down; division by zero gives NaN. -/
instance : Div Half := ⟨lift fun a b => if b = 0 then none else some (mk' (2 * a / b))⟩
instance : Pow Half ℕ := ⟨fun x k => k.rec 1 fun _ r => r * x⟩

/-- Comparisons with NaN are false. -/
def cmp (f : ℤ → ℤ → Bool) (x y : Half) : Bool :=
  match x.val, y.val with
  | some a, some b => f a b
  | _, _ => false

instance : LE Half := ⟨fun x y => cmp (fun a b => decide (a ≤ b)) x y = true⟩
instance : LT Half := ⟨fun x y => cmp (fun a b => decide (a < b)) x y = true⟩
instance : DecidableLE Half := fun x y => inferInstanceAs (Decidable (cmp _ x y = true))
instance : DecidableLT Half := fun x y => inferInstanceAs (Decidable (cmp _ x y = true))

theorem le_iff (x y : Half) : x ≤ y ↔ ∃ a, x.val = some a ∧ ∃ b, y.val = some b ∧ a ≤ b := by
  obtain ⟨_ | a⟩ := x <;> obtain ⟨_ | b⟩ := y <;> simp [LE.le, cmp]

theorem lt_iff (x y : Half) : x < y ↔ ∃ a, x.val = some a ∧ ∃ b, y.val = some b ∧ a < b := by
  obtain ⟨_ | a⟩ := x <;> obtain ⟨_ | b⟩ := y <;> simp [LT.lt, cmp]

theorem nan_iff (x : Half) : IsNaN x ↔ x.val = none := by
  unfold IsNaN
  rw [le_iff]
  obtain ⟨_ | a⟩ := x <;> simp

instance : FloatOrder Half where
  left := by
    intro x y h
    obtain ⟨a, ha, -⟩ := (le_iff x y).1 h
    rw [nan_iff, ha]; simp
  right := by
    intro x y h
    obtain ⟨-, -, b, hb, -⟩ := (le_iff x y).1 h
    rw [nan_iff, hb]; simp
  trans := by
    intro x y z h h'
    obtain ⟨a, ha, b, hb, h⟩ := (le_iff x y).1 h
    obtain ⟨b', hb', c, hc, h'⟩ := (le_iff y z).1 h'
    obtain rfl : b = b' := Option.some_injective _ (hb.symm.trans hb')
    exact (le_iff x z).2 ⟨a, ha, c, hc, h.trans h'⟩
  total := by
    rintro ⟨_ | a⟩ ⟨_ | b⟩ hx hy
    · exact absurd ((nan_iff _).2 rfl) hx
    · exact absurd ((nan_iff _).2 rfl) hx
    · exact absurd ((nan_iff _).2 rfl) hy
    · rcases le_total a b with h | h
      · exact Or.inl ((le_iff _ _).2 ⟨a, rfl, b, rfl, h⟩)
      · exact Or.inr ((le_iff _ _).2 ⟨b, rfl, a, rfl, h⟩)
  lt_iff := by
    intro x y
    rw [lt_iff, le_iff, le_iff]
    constructor
    · rintro ⟨a, ha, b, hb, h⟩
      refine ⟨⟨a, ha, b, hb, h.le⟩, ?_⟩
      rintro ⟨b', hb', a', ha', h'⟩
      obtain rfl : b = b' := Option.some_injective _ (hb.symm.trans hb')
      obtain rfl : a = a' := Option.some_injective _ (ha.symm.trans ha')
      exact absurd h (not_lt.2 h')
    · rintro ⟨⟨a, ha, b, hb, -⟩, h⟩
      refine ⟨a, ha, b, hb, ?_⟩
      by_contra hc
      exact h ⟨b, hb, a, ha, not_lt.1 hc⟩
  zero := fun h => by cases (nan_iff 0).1 h

end Half
/-- Non-trivial case of C99: the exact result for `[2, 1, 1, 3, -1, 0]` is `[4/3, 4/3, 4/3, 3, -1/2, -1/2]`. In the
small arithmetic the level `4/3` is rounded, twice: `(2 + 1) / 2 = 3/2`, then `(3 + 1) / 3` becomes `1`. -/
example : (unimodalRegression1 id ![(⟨some 4⟩ : Half), ⟨some 2⟩, ⟨some 2⟩, ⟨some 6⟩, ⟨some (-2)⟩, ⟨some 0⟩] false).map List.ofFn
      = .ok [some ⟨some 2⟩, some ⟨some 2⟩, some ⟨some 2⟩, some ⟨some 6⟩, some ⟨some (-1)⟩, some ⟨some (-1)⟩]
    ∧ (unimodalRegression1 id ![(⟨some 4⟩ : Half), ⟨some 2⟩, ⟨some 2⟩, ⟨some 6⟩, ⟨some (-2)⟩, ⟨some 0⟩] true).map List.ofFn
      = .ok [some ⟨some 2⟩, some ⟨some 2⟩, some ⟨some 2⟩, some ⟨some 6⟩, some ⟨some 0⟩, some ⟨some 0⟩] := by
  constructor <;> decide +kernel

/-- The condition about NaN cannot be left out: `[1, NaN, 0, NaN, 1]` is returned as it is. -/
theorem C99_nan : (unimodalRegression1 id ![(⟨some 2⟩ : Half), ⟨none⟩, ⟨some 0⟩, ⟨none⟩, ⟨some 2⟩] false).map List.ofFn
    = .ok [some ⟨some 2⟩, some ⟨none⟩, some ⟨some 0⟩, some ⟨none⟩, some ⟨some 2⟩] := by
  decide +kernel

end Verif.Props
