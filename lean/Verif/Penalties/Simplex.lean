import Mathlib.Topology.Order.IntermediateValue
import Mathlib.Topology.Instances.Real.Lemmas
import Mathlib.Topology.Algebra.Monoid
import Verif.Penalties.Elementwise

/-!
# Helper lemmas: bisection and the unit simplex
-/

namespace Verif.Penalties

open Finset

/-! ### The bisection loop -/

/-- Whatever the loop returns is within `d` of a sign change, where `d` is below the tolerance or the value is 0. -/
theorem bisectLoop_ok {f : ℝ → ℝ} {xtol rtol : ℝ} : ∀ (n : ℕ) (xa dm x : ℝ), 0 ≤ dm → 0 ≤ f xa → f (xa + dm) ≤ 0 →
    bisectLoop f xtol rtol false n xa dm = .ok x →
    xa ≤ x ∧ x ≤ xa + dm ∧ ∃ d, 0 ≤ d ∧ (f x = 0 ∨ d < xtol + rtol * |x|) ∧ 0 ≤ f (x - d) ∧ f (x + d) ≤ 0
  | 0, _, _, _, _, _, _, h => by simp [bisectLoop] at h
  | n + 1, xa, dm, x, hd, ha, hb, h => by
    simp only [bisectLoop] at h
    set d := dm * (1 / 2) with hdd
    have hd' : 0 ≤ d := by rw [hdd]; positivity
    have hdm : dm = d + d := by rw [hdd]; ring
    split at h
    · rename_i hstop
      simp only [Except.ok.injEq] at h
      subst h
      refine ⟨by linarith, by linarith, d, hd', ?_, by simpa using ha, by rw [hdm] at hb; rwa [add_assoc]⟩
      rw [abs_of_nonneg hd'] at hstop
      exact hstop
    · by_cases hneg : f (xa + d) < 0
      · rw [if_neg (by simp [hneg])] at h
        obtain ⟨h1, h2, h3⟩ := bisectLoop_ok n xa d x hd' ha hneg.le h
        exact ⟨h1, by linarith, h3⟩
      · rw [if_pos (by simp [hneg])] at h
        obtain ⟨h1, h2, h3⟩ := bisectLoop_ok n (xa + d) d x hd' (not_lt.1 hneg)
          (by rw [hdm] at hb; rwa [add_assoc]) h
        exact ⟨by linarith, by linarith, h3⟩

/-- The loop returns if the interval is small enough for the number of iterations. -/
theorem bisectLoop_terminates {f : ℝ → ℝ} {xtol rtol : ℝ} (hr : 0 ≤ rtol) (b : Bool) : ∀ (n : ℕ) (xa dm : ℝ), 0 ≤ dm →
    dm < xtol * 2 ^ (n + 1) → ∃ x, bisectLoop f xtol rtol b (n + 1) xa dm = .ok x
  | 0, xa, dm, h0, h => by
    refine ⟨xa + dm * (1 / 2), ?_⟩
    simp only [bisectLoop]
    rw [if_pos]
    right
    rw [abs_of_nonneg (by positivity)]
    have : 0 ≤ rtol * |xa + dm * (1 / 2)| := by positivity
    norm_num at h ⊢
    linarith
  | n + 1, xa, dm, h0, h => by
    rw [bisectLoop]
    split
    · exact ⟨_, rfl⟩
    · refine bisectLoop_terminates hr b n _ _ (by positivity) ?_
      rw [pow_succ] at h
      linarith

/-- The loop fails if the root cannot be hit and the interval is too large. `P x d` is an invariant of the midpoints. -/
theorem bisectLoop_fails {f : ℝ → ℝ} {xtol rtol : ℝ} (Inv : ℕ → ℝ → ℝ → Prop) {b : Bool}
    (hstep : ∀ n xa dm, Inv (n + 1) xa dm → f (xa + dm * (1 / 2)) ≠ 0 ∧
      xtol + rtol * |xa + dm * (1 / 2)| ≤ |dm * (1 / 2)| ∧
      Inv n (if decide (f (xa + dm * (1 / 2)) < 0) = b then xa + dm * (1 / 2) else xa) (dm * (1 / 2))) :
    ∀ n xa dm, Inv n xa dm → bisectLoop f xtol rtol b n xa dm = .error .runtimeError
  | 0, _, _, _ => rfl
  | n + 1, xa, dm, h => by
    obtain ⟨h1, h2, h3⟩ := hstep n xa dm h
    simp only [bisectLoop]
    rw [if_neg (by rintro (h' | h'); exacts [h1 h', absurd h' (not_lt.2 h2)])]
    exact bisectLoop_fails Inv hstep n _ _ h3

/-! ### The function whose root is sought -/

variable {m : ℕ}

theorem simplexF_eq (y : Fin m → ℝ) (μ : ℝ) : simplexF y μ = (∑ i, max (y i - μ) 0) - 1 := rfl

theorem simplexF_lipschitz (y : Fin m → ℝ) (μ ν : ℝ) : |simplexF y μ - simplexF y ν| ≤ m * |μ - ν| := by
  rw [simplexF_eq, simplexF_eq]
  have e : (∑ i, max (y i - μ) 0) - 1 - ((∑ i, max (y i - ν) 0) - 1) = ∑ i, (max (y i - μ) 0 - max (y i - ν) 0) := by
    rw [sum_sub_distrib]; ring
  rw [e]
  calc |∑ i, (max (y i - μ) 0 - max (y i - ν) 0)| ≤ ∑ i : Fin m, |max (y i - μ) 0 - max (y i - ν) 0| :=
        abs_sum_le_sum_abs _ _
    _ ≤ ∑ _i : Fin m, |μ - ν| := sum_le_sum fun i _ => by
        refine (abs_max_sub_max_le_abs _ _ _).trans ?_
        rw [abs_sub_comm μ ν]
        exact le_of_eq (by congr 1; ring)
    _ = m * |μ - ν| := by simp

theorem simplexF_continuous (y : Fin m → ℝ) : Continuous (simplexF y) := by
  have : simplexF y = fun μ => (∑ i, max (y i - μ) 0) - 1 := by funext μ; exact simplexF_eq y μ
  rw [this]
  fun_prop

theorem foldl_min_le (l : List ℝ) : ∀ a, l.foldl min a ≤ a ∧ (∀ b ∈ l, l.foldl min a ≤ b) ∧
    (l.foldl min a = a ∨ l.foldl min a ∈ l) := by
  induction l with
  | nil => intro a; simp
  | cons c l ih =>
    intro a
    obtain ⟨h1, h2, h3⟩ := ih (min a c)
    refine ⟨h1.trans (min_le_left _ _), ?_, ?_⟩
    · intro b hb
      rcases List.mem_cons.1 hb with rfl | hb
      · exact h1.trans (min_le_right _ _)
      · exact h2 b hb
    · rcases h3 with h3 | h3
      · rw [List.foldl_cons, h3]
        rcases min_choice a c with h | h
        · left; exact h
        · right; rw [h]; simp
      · right; exact List.mem_cons_of_mem _ h3

theorem foldl_max_ge (l : List ℝ) : ∀ a, a ≤ l.foldl max a ∧ (∀ b ∈ l, b ≤ l.foldl max a) ∧
    (l.foldl max a = a ∨ l.foldl max a ∈ l) := by
  induction l with
  | nil => intro a; simp
  | cons c l ih =>
    intro a
    obtain ⟨h1, h2, h3⟩ := ih (max a c)
    refine ⟨(le_max_left _ _).trans h1, ?_, ?_⟩
    · intro b hb
      rcases List.mem_cons.1 hb with rfl | hb
      · exact (le_max_right _ _).trans h1
      · exact h2 b hb
    · rcases h3 with h3 | h3
      · rw [List.foldl_cons, h3]
        rcases max_choice a c with h | h
        · left; exact h
        · right; rw [h]; simp
      · right; exact List.mem_cons_of_mem _ h3

theorem vecMin_ok (y : Fin m → ℝ) (hm : 0 < m) : ∃ a, vecMin (List.ofFn y) = .ok a ∧ (∀ i, a ≤ y i) ∧ ∃ i, a = y i := by
  have hne : List.ofFn y ≠ [] := by simp; omega
  obtain ⟨b, l, hl⟩ := List.exists_cons_of_ne_nil hne
  obtain ⟨h1, h2, h3⟩ := foldl_min_le l b
  refine ⟨l.foldl min b, by rw [hl]; rfl, fun i => ?_, ?_⟩
  · have : y i ∈ List.ofFn y := by simp [List.mem_ofFn]
    rw [hl] at this
    rcases List.mem_cons.1 this with h | h
    · rw [h]; exact h1
    · exact h2 _ h
  · have : l.foldl min b ∈ List.ofFn y := by
      rw [hl]
      rcases h3 with h | h
      · rw [h]; simp
      · exact List.mem_cons_of_mem _ h
    rw [List.mem_ofFn] at this
    obtain ⟨i, hi⟩ := this
    exact ⟨i, hi.symm⟩

theorem vecMax_ok (y : Fin m → ℝ) (hm : 0 < m) : ∃ a, vecMax (List.ofFn y) = .ok a ∧ (∀ i, y i ≤ a) ∧ ∃ i, a = y i := by
  have hne : List.ofFn y ≠ [] := by simp; omega
  obtain ⟨b, l, hl⟩ := List.exists_cons_of_ne_nil hne
  obtain ⟨h1, h2, h3⟩ := foldl_max_ge l b
  refine ⟨l.foldl max b, by rw [hl]; rfl, fun i => ?_, ?_⟩
  · have : y i ∈ List.ofFn y := by simp [List.mem_ofFn]
    rw [hl] at this
    rcases List.mem_cons.1 this with h | h
    · rw [h]; exact h1
    · exact h2 _ h
  · have : l.foldl max b ∈ List.ofFn y := by
      rw [hl]
      rcases h3 with h | h
      · rw [h]; simp
      · exact List.mem_cons_of_mem _ h
    rw [List.mem_ofFn] at this
    obtain ⟨i, hi⟩ := this
    exact ⟨i, hi.symm⟩

theorem bisect_eq {f : ℝ → ℝ} {lo hi : ℝ} (h1 : 0 < f lo) (h2 : f hi < 0) :
    bisect f lo hi = bisectLoop f (2 / 10 ^ 12) (4 / 2 ^ 52) false 100 lo (hi - lo) := by
  have e1 : decide (f lo < 0) = false := by simp [h1.le]
  have e2 : decide (f hi < 0) = true := by simp [h2]
  rw [bisect, if_neg h1.ne', if_neg h2.ne, e1, e2, if_neg (by simp)]

/-- The bracket the code computes. -/
theorem lagrange_eq (y : Fin m → ℝ) (hm : 0 < m) : ∃ lo hi, lagrange y =
      bisectLoop (simplexF y) (2 / 10 ^ 12) (4 / 2 ^ 52) false 100 lo (hi - lo) ∧
    lo < hi ∧ 0 < simplexF y lo ∧ simplexF y hi < 0 ∧
    ∀ b, (∀ i, |y i| ≤ b) → |lo| ≤ 11 / 10 * (b + 1 + 1 / 10 ^ 5) ∧ |hi| ≤ 11 / 10 * (b + 1 + 1 / 10 ^ 5) := by
  generalize hε' : (1 : ℝ) / 10 ^ 5 = ε
  have hε : 0 < ε := by rw [← hε']; positivity
  obtain ⟨a, ha, ha1, ia, ha2⟩ := vecMin_ok y hm
  obtain ⟨c, hc, hc1, ic, hc2⟩ := vecMax_ok y hm
  set lo' := a - 1 - ε with hlo'
  set hi' := c + ε with hhi'
  set lo := min (9 / 10 * lo') (11 / 10 * lo') with hlo
  set hi := max (9 / 10 * hi') (11 / 10 * hi') with hhi
  have hl : lo ≤ lo' := by
    rw [hlo]; rcases le_total 0 lo' with h | h
    · exact (min_le_left _ _).trans (by linarith)
    · exact (min_le_right _ _).trans (by linarith)
  have hh : hi' ≤ hi := by
    rw [hhi]; rcases le_total 0 hi' with h | h
    · exact le_trans (by linarith) (le_max_right _ _)
    · exact le_trans (by linarith) (le_max_left _ _)
  have hac : a ≤ c := (ha1 ic).trans (hc1 ic)
  have hlt : lo < hi := by
    have : lo' < hi' := by rw [hlo', hhi']; linarith
    linarith
  have hflo : 0 < simplexF y lo := by
    rw [simplexF_eq]
    have h1 : ∀ i, 1 + ε ≤ max (y i - lo) 0 := fun i => by
      refine le_trans ?_ (le_max_left _ _)
      have := ha1 i; linarith
    have h2 : (1 : ℝ) + ε ≤ ∑ i, max (y i - lo) 0 :=
      (h1 ia).trans (single_le_sum (f := fun i => max (y i - lo) 0) (fun i _ => le_max_right _ _) (mem_univ ia))
    linarith
  have hfhi : simplexF y hi < 0 := by
    rw [simplexF_eq]
    have : ∑ i, max (y i - hi) 0 = 0 := sum_eq_zero fun i _ => by
      refine max_eq_right ?_
      have := hc1 i
      linarith
    rw [this]; norm_num
  refine ⟨lo, hi, ?_, hlt, hflo, hfhi, fun b hb => ?_⟩
  · simp only [lagrange, ha, hc, ok_bind, hε']
    exact bisect_eq hflo hfhi
  · have hbp : 0 ≤ b := (abs_nonneg _).trans (hb ia)
    have h1 := abs_le.1 (hb ia)
    have h2 := abs_le.1 (hb ic)
    rw [← ha2] at h1; rw [← hc2] at h2
    have e1 : |lo'| ≤ b + 1 + ε := by
      rw [abs_le, hlo']; constructor <;> linarith
    have e2 : |hi'| ≤ b + 1 + ε := by
      rw [abs_le, hhi']; constructor <;> linarith
    constructor
    · rw [hlo]
      have e1 := abs_le.1 e1
      rcases min_choice (9 / 10 * lo') (11 / 10 * lo') with h | h <;> rw [h, abs_le] <;> constructor <;> linarith
    · rw [hhi]
      have e2 := abs_le.1 e2
      rcases max_choice (9 / 10 * hi') (11 / 10 * hi') with h | h <;> rw [h, abs_le] <;> constructor <;> linarith

/-- Whatever multiplier is returned is close to an exact root. -/
theorem lagrange_ok (y : Fin m → ℝ) (hm : 0 < m) {μ : ℝ} (h : lagrange y = .ok μ) :
    ∃ ν, simplexF y ν = 0 ∧ |μ - ν| ≤ 2 / 10 ^ 12 + 4 / 2 ^ 52 * |μ| ∧
      ∀ b, (∀ i, |y i| ≤ b) → |μ| ≤ 11 / 10 * (b + 1 + 1 / 10 ^ 5) := by
  obtain ⟨lo, hi, h1, h2, h3, h4, h5⟩ := lagrange_eq y hm
  rw [h1] at h
  obtain ⟨g1, g2, d, g3, g4, g5, g6⟩ := bisectLoop_ok 100 lo (hi - lo) μ (by linarith) h3.le (by simpa using h4.le) h
  have hb : ∀ b, (∀ i, |y i| ≤ b) → |μ| ≤ 11 / 10 * (b + 1 + 1 / 10 ^ 5) := by
    intro b hb
    obtain ⟨e1, e2⟩ := h5 b hb
    have e1 := abs_le.1 e1
    have e2 := abs_le.1 e2
    rw [abs_le]; constructor <;> linarith
  rcases g4 with g4 | g4
  · refine ⟨μ, g4, ?_, hb⟩
    simp only [sub_self, abs_zero]
    positivity
  · obtain ⟨ν, hν, hν0⟩ := intermediate_value_Icc' (show μ - d ≤ μ + d by linarith)
      (simplexF_continuous y).continuousOn (show (0 : ℝ) ∈ Set.Icc _ _ from ⟨g6, g5⟩)
    refine ⟨ν, hν0, le_trans ?_ g4.le, hb⟩
    rw [abs_le]; constructor <;> linarith [hν.1, hν.2]

/-! ### The loop over the columns -/

theorem simplexLoop_ok {n : ℕ} (X : Matrix (Fin m) (Fin n) ℝ) : ∀ (rs : List (Fin n)) (out Z : Matrix (Fin m) (Fin n) ℝ),
    simplexLoop X rs out = .ok Z → ∀ r, (r ∈ rs → ∃ μ, lagrange (fun i => X i r) = .ok μ ∧
      ∀ i, Z i r = max (X i r - μ) 0) ∧ (r ∉ rs → ∀ i, Z i r = out i r)
  | [], out, Z, h => by
    simp only [simplexLoop, Except.ok.injEq] at h
    subst h
    simp
  | s :: rs, out, Z, h => by
    simp only [simplexLoop, bind_ok] at h
    obtain ⟨μ, hμ, h⟩ := h
    intro r
    obtain ⟨ih1, ih2⟩ := simplexLoop_ok X rs _ Z h r
    constructor
    · intro hr
      by_cases hrs : r ∈ rs
      · exact ih1 hrs
      · have : r = s := by
          rcases List.mem_cons.1 hr with h | h
          · exact h
          · exact absurd h hrs
        subst this
        exact ⟨μ, hμ, fun i => by rw [ih2 hrs i, if_pos rfl]; rfl⟩
    · intro hr i
      rw [ih2 (fun h => hr (List.mem_cons_of_mem _ h)) i, if_neg (fun h => hr (by simp [h]))]

theorem simplexLoop_succeeds {n : ℕ} (X : Matrix (Fin m) (Fin n) ℝ) : ∀ (rs : List (Fin n)) (out : Matrix (Fin m) (Fin n) ℝ),
    (∀ r ∈ rs, ∃ μ, lagrange (fun i => X i r) = .ok μ) → ∃ Z, simplexLoop X rs out = .ok Z
  | [], out, _ => ⟨out, rfl⟩
  | s :: rs, out, h => by
    obtain ⟨μ, hμ⟩ := h s (by simp)
    simp only [simplexLoop, hμ, ok_bind]
    exact simplexLoop_succeeds X rs _ fun r hr => h r (List.mem_cons_of_mem _ hr)

theorem simplexLoop_error {n : ℕ} (X : Matrix (Fin m) (Fin n) ℝ) : ∀ (rs : List (Fin n)) (out : Matrix (Fin m) (Fin n) ℝ)
    (e : PyErr), simplexLoop X rs out = .error e → ∃ r, lagrange (fun i => X i r) = .error e
  | [], out, e, h => by simp [simplexLoop] at h
  | s :: rs, out, e, h => by
    simp only [simplexLoop, bind_error] at h
    rcases h with h | ⟨μ, -, h⟩
    · exact ⟨s, h⟩
    · exact simplexLoop_error X rs _ e h

/-- KKT: an exact root gives the projection onto the simplex. -/
theorem simplex_kkt (y : Fin m → ℝ) {ν : ℝ} (hν : simplexF y ν = 0) (z : Fin m → ℝ) (hz : ∀ i, 0 ≤ z i)
    (hz1 : ∑ i, z i = 1) : ∑ i, (y i - max (y i - ν) 0) * (z i - max (y i - ν) 0) ≤ 0 := by
  have h1 : ∑ i, max (y i - ν) 0 = 1 := by rw [simplexF_eq] at hν; linarith
  have h2 : ∑ i, ν * (z i - max (y i - ν) 0) = 0 := by
    rw [← mul_sum, sum_sub_distrib, hz1, h1]; ring
  calc ∑ i, (y i - max (y i - ν) 0) * (z i - max (y i - ν) 0)
      = ∑ i, (y i - ν - max (y i - ν) 0) * (z i - max (y i - ν) 0) := by
        have : ∑ i, (y i - ν - max (y i - ν) 0) * (z i - max (y i - ν) 0) + ∑ i, ν * (z i - max (y i - ν) 0)
            = ∑ i, (y i - max (y i - ν) 0) * (z i - max (y i - ν) 0) := by
          rw [← sum_add_distrib]; exact sum_congr rfl fun _ _ => by ring
        rw [← this, h2, add_zero]
    _ ≤ 0 := by
        refine sum_nonpos fun i _ => ?_
        rcases le_total (y i - ν) 0 with h | h
        · rw [max_eq_right h]; nlinarith [hz i]
        · rw [max_eq_left h]; nlinarith

end Verif.Penalties
