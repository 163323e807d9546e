import Verif.Props.LoopSolve

/-!
# C137: the zeros of factors with an L1 penalty
-/

set_option linter.unusedSectionVars false

namespace Verif.Props

open Verif.ADMM Verif.Penalties Verif.Spec Verif.Loop Finset Matrix Filter

variable {I K R n nA nB nC : ℕ} {J : Fin I → ℕ}

/-! ### Specification -/

/-- Derivative of the fit (with ridge term) by an entry of A. -/
def gradA (X : Ragged I K J) (l : ℝ) (F : Factors I K R J) (Y : Matrix (Fin I) (Fin R) ℝ) (i : Fin I) (r : Fin R) : ℝ :=
  ∑ j, ∑ k, ((⟨Y, F.B, F.C⟩ : Factors I K R J).entry i j k - X i j k) * (F.B i j r * F.C k r) + l * Y i r

/-- Derivative of the fit by an entry of a `B i`. -/
def gradB (X : Ragged I K J) (l : ℝ) (F : Factors I K R J) (Y : Ragged I R J) (i : Fin I) (j : Fin (J i)) (r : Fin R) : ℝ :=
  ∑ k, ((⟨F.A, Y, F.C⟩ : Factors I K R J).entry i j k - X i j k) * (F.A i r * F.C k r) + l * Y i j r

/-- Derivative of the fit by an entry of C. -/
def gradC (X : Ragged I K J) (l : ℝ) (F : Factors I K R J) (Y : Matrix (Fin K) (Fin R) ℝ) (k : Fin K) (r : Fin R) : ℝ :=
  ∑ i, ∑ j, ((⟨F.A, F.B, Y⟩ : Factors I K R J).entry i j k - X i j k) * (F.A i r * F.B i j r) + l * Y k r

/-- Optimality of an entry `y` with derivative `g` for an L1 penalty of strength `γ`: the derivative is `-γ` times the sign of a nonzero entry and at most `γ` in magnitude at zero; if
entries are non-negative, it is at least `-γ` and equal to it at positive entries. -/
def LassoEntry (γ : ℝ) (nn : Bool) (g y : ℝ) : Prop :=
  if nn then 0 ≤ y ∧ -γ ≤ g ∧ (0 < y → g = -γ) else |g| ≤ γ ∧ (0 < y → g = -γ) ∧ (y < 0 → g = γ)

/-! ### One-dimensional arguments -/

theorem nonneg_of_small {a b : ℝ} (h : ∀ t, 0 < t → t ≤ 1 → 0 ≤ t * a + t ^ 2 * b) : 0 ≤ a := by
  by_contra hc
  push Not at hc
  have hb := abs_nonneg b
  set t := min 1 (-a / (2 * (|b| + 1))) with ht
  have hd : 0 < 2 * (|b| + 1) := by positivity
  have t0 : 0 < t := lt_min one_pos (div_pos (by linarith) hd)
  have t1 : t * (2 * (|b| + 1)) ≤ -a := (le_div_iff₀ hd).1 (min_le_right _ _)
  have t2 : t * b ≤ t * |b| := mul_le_mul_of_nonneg_left (le_abs_self b) t0.le
  have := h t t0 (min_le_left _ _)
  have e : t * a + t ^ 2 * b = t * (a + t * b) := by ring
  rw [e] at this
  have := nonneg_of_mul_nonneg_right this t0
  nlinarith

theorem lasso_le {γ g y z : ℝ} {nn : Bool} (hγ : 0 ≤ γ) (h : LassoEntry γ nn g y) (hz : nn → 0 ≤ z) : γ * |y| ≤ g * (z - y) + γ * |z| := by
  cases nn with
  | true =>
    obtain ⟨h1, h2, h3⟩ : 0 ≤ y ∧ -γ ≤ g ∧ (0 < y → g = -γ) := h
    rw [abs_of_nonneg h1, abs_of_nonneg (hz rfl)]
    rcases h1.eq_or_lt with h0 | h0
    · rw [← h0]
      nlinarith [hz rfl]
    · rw [h3 h0]
      linarith
  | false =>
    obtain ⟨h1, h2, h3⟩ : |g| ≤ γ ∧ (0 < y → g = -γ) ∧ (y < 0 → g = γ) := h
    rcases lt_trichotomy y 0 with h0 | h0 | h0
    · rw [h3 h0, abs_of_neg h0]
      nlinarith [neg_abs_le z]
    · rw [h0, abs_zero, sub_zero, mul_zero]
      have := neg_abs_le (g * z)
      rw [abs_mul] at this
      nlinarith [abs_nonneg z]
    · rw [h2 h0, abs_of_pos h0]
      nlinarith [le_abs_self z]

theorem lasso_of {γ g y q : ℝ} {nn : Bool} (hγ : 0 ≤ γ) (hy : nn → 0 ≤ y) (h : ∀ z, (nn → 0 ≤ z) → γ * |y| ≤ g * (z - y) + q * (z - y) ^ 2 + γ * |z|) : LassoEntry γ nn g y := by
  have down : 0 < y → g ≤ -γ := by
    intro h0
    have : 0 ≤ -(g + γ) * y := nonneg_of_small (b := q * y ^ 2) fun t ht0 ht1 => by
      have hz : 0 ≤ y - t * y := by nlinarith
      have := h (y - t * y) fun _ => hz
      rw [abs_of_nonneg hz, abs_of_pos h0] at this
      linarith
    nlinarith
  have upper : -γ ≤ g := by
    have : 0 ≤ g + γ := nonneg_of_small (b := q) fun t ht0 ht1 => by
      have := h (y + t) fun hn => by have := hy hn; linarith
      have h2 : |y + t| ≤ |y| + t := (abs_add_le y t).trans (by rw [abs_of_pos ht0])
      nlinarith
    linarith
  cases nn with
  | true => exact ⟨hy rfl, upper, fun h0 => le_antisymm (down h0) upper⟩
  | false =>
    have lower : g ≤ γ := by
      have : 0 ≤ γ - g := nonneg_of_small (b := q) fun t ht0 ht1 => by
        have := h (y - t) (fun hn => by cases hn)
        have h2 : |y - t| ≤ |y| + t := (abs_sub y t).trans (by rw [abs_of_pos ht0])
        nlinarith
      linarith
    refine ⟨abs_le.2 ⟨upper, lower⟩, fun h0 => le_antisymm (down h0) upper, fun h0 => le_antisymm lower ?_⟩
    have : 0 ≤ (g - γ) * -y := nonneg_of_small (b := q * y ^ 2) fun t ht0 ht1 => by
      have hz : y - t * y ≤ 0 := by nlinarith
      have := h (y - t * y) (fun hn => by cases hn)
      rw [abs_of_nonpos hz, abs_of_neg h0] at this
      linarith
    nlinarith

/-- Minimisers of a convex quadratic function plus an L1 penalty. -/
theorem lasso_iff {V ι : Type} [Fintype ι] [DecidableEq ι] [AddCommGroup V] (f : V → ℝ) (co : ι → V → ℝ) (G : V → ι → ℝ) (Q : V → ℝ) (hQ : ∀ v, 0 ≤ Q v)
    (hf : ∀ y z, f z = f y + ∑ p, G y p * (co p z - co p y) + Q (z - y)) (move : V → ι → ℝ → V) (hm : ∀ y p t q, co q (move y p t) = if q = p then t else co q y)
    (hq : ∀ p, ∃ c, ∀ y t, Q (move y p t - y) = c * (t - co p y) ^ 2) {γ : ℝ} (hγ : 0 ≤ γ) (nn : Bool) (y : V) :
    ((nn → ∀ p, 0 ≤ co p y) ∧ ∀ z, (nn → ∀ p, 0 ≤ co p z) → f y + γ * ∑ p, |co p y| ≤ f z + γ * ∑ p, |co p z|) ↔ ∀ p, LassoEntry γ nn (G y p) (co p y) := by
  constructor
  · rintro ⟨h1, h2⟩ p
    obtain ⟨c, hc⟩ := hq p
    refine lasso_of hγ (fun hn => h1 hn p) (q := c) fun z hz => ?_
    have := h2 (move y p z) fun hn q => by
      rw [hm]
      split
      · exact hz hn
      · exact h1 hn q
    rw [hf y (move y p z), hc] at this
    have e1 : ∑ q, G y q * (co q (move y p z) - co q y) = G y p * (z - co p y) := by
      rw [sum_eq_single p]
      · rw [hm, if_pos rfl]
      · intro q _ hqp
        rw [hm, if_neg hqp, sub_self, mul_zero]
      · intro hp
        exact absurd (mem_univ p) hp
    have e2 : ∑ q, |co q (move y p z)| = |z| + ∑ q ∈ univ.erase p, |co q y| := by
      rw [← add_sum_erase univ _ (mem_univ p), hm, if_pos rfl]
      congr 1
      refine sum_congr rfl fun q hq => ?_
      rw [hm, if_neg (ne_of_mem_erase hq)]
    have e3 : ∑ q, |co q y| = |co p y| + ∑ q ∈ univ.erase p, |co q y| := (add_sum_erase univ _ (mem_univ p)).symm
    rw [e1, e2, e3] at this
    nlinarith
  · intro h
    constructor
    · intro hn p
      have := h p
      rw [hn] at this
      exact this.1
    · intro z hz
      rw [hf y z]
      have : ∑ p, γ * |co p y| ≤ ∑ p, (G y p * (co p z - co p y) + γ * |co p z|) := sum_le_sum fun p _ => lasso_le hγ (h p) fun hn => hz hn p
      rw [sum_add_distrib, ← mul_sum, ← mul_sum] at this
      linarith [hQ (z - y)]

/-! ### Mode 2 -/

noncomputable def quadC (l : ℝ) (F : Factors I K R J) (V : Matrix (Fin K) (Fin R) ℝ) : ℝ :=
  1 / 2 * ∑ i, ∑ j, ∑ k, (⟨F.A, F.B, V⟩ : Factors I K R J).entry i j k ^ 2 + l / 2 * sqNorm V

theorem half_sq (x y v : ℝ) : (x - (y + v)) ^ 2 = (x - y) ^ 2 + 2 * ((y - x) * v) + v ^ 2 := by ring

theorem sqNorm_expand {m n : ℕ} (Y Z : Matrix (Fin m) (Fin n) ℝ) : sqNorm Z = sqNorm Y + 2 * ∑ i, ∑ r, Y i r * (Z i r - Y i r) + sqNorm (Z - Y) := by
  simp only [sqNorm, mul_sum, ← sum_add_distrib]
  refine sum_congr rfl fun i _ => sum_congr rfl fun r _ => ?_
  rw [Matrix.sub_apply]
  ring

theorem fitC_expand (X : Ragged I K J) (l : ℝ) (F : Factors I K R J) (Y Z : Matrix (Fin K) (Fin R) ℝ) :
    fitC X l F Z = fitC X l F Y + ∑ k, ∑ r, gradC X l F Y k r * (Z k r - Y k r) + quadC l F (Z - Y) := by
  have e : ∀ i j k, (⟨F.A, F.B, Z⟩ : Factors I K R J).entry i j k = (⟨F.A, F.B, Y⟩ : Factors I K R J).entry i j k + (⟨F.A, F.B, Z - Y⟩ : Factors I K R J).entry i j k := by
    intro i j k
    simp only [Factors.entry, ← sum_add_distrib]
    exact sum_congr rfl fun r _ => by rw [Matrix.sub_apply]; ring
  have e2 : ∑ i, ∑ j, ∑ k, ((⟨F.A, F.B, Y⟩ : Factors I K R J).entry i j k - X i j k) * (⟨F.A, F.B, Z - Y⟩ : Factors I K R J).entry i j k =
      ∑ k, ∑ r, (∑ i, ∑ j, ((⟨F.A, F.B, Y⟩ : Factors I K R J).entry i j k - X i j k) * (F.A i r * F.B i j r)) * (Z k r - Y k r) := by
    simp only [sum_mul]
    have h1 : ∀ k : Fin K, (∑ r, ∑ i, ∑ j, ((⟨F.A, F.B, Y⟩ : Factors I K R J).entry i j k - X i j k) * (F.A i r * F.B i j r) * (Z k r - Y k r)) =
        ∑ i, ∑ j, ((⟨F.A, F.B, Y⟩ : Factors I K R J).entry i j k - X i j k) * (⟨F.A, F.B, Z - Y⟩ : Factors I K R J).entry i j k := by
      intro k
      rw [sum_comm]
      refine sum_congr rfl fun i _ => ?_
      rw [sum_comm]
      refine sum_congr rfl fun j _ => ?_
      rw [show (⟨F.A, F.B, Z - Y⟩ : Factors I K R J).entry i j k = ∑ r, F.A i r * F.B i j r * (Z - Y) k r from rfl, mul_sum]
      exact sum_congr rfl fun r _ => by rw [Matrix.sub_apply]; ring
    simp only [h1]
    rw [sum_comm]
    exact sum_congr rfl fun i _ => sum_comm
  have e3 : sse X ⟨F.A, F.B, Z⟩ = sse X ⟨F.A, F.B, Y⟩ + 2 * ∑ i, ∑ j, ∑ k, ((⟨F.A, F.B, Y⟩ : Factors I K R J).entry i j k - X i j k) * (⟨F.A, F.B, Z - Y⟩ : Factors I K R J).entry i j k
      + ∑ i, ∑ j, ∑ k, (⟨F.A, F.B, Z - Y⟩ : Factors I K R J).entry i j k ^ 2 := by
    simp only [sse, e, half_sq, sum_add_distrib, mul_sum]
  rw [fitC, e3, e2, sqNorm_expand Y Z, fitC, quadC]
  simp only [gradC, add_mul, sum_add_distrib, mul_assoc, ← mul_sum]
  ring

theorem quadC_smul (l : ℝ) (F : Factors I K R J) (s : ℝ) (V : Matrix (Fin K) (Fin R) ℝ) : quadC l F (s • V) = s ^ 2 * quadC l F V := by
  have e : ∀ i j k, (⟨F.A, F.B, s • V⟩ : Factors I K R J).entry i j k = s * (⟨F.A, F.B, V⟩ : Factors I K R J).entry i j k := by
    intro i j k
    simp only [Factors.entry, mul_sum]
    exact sum_congr rfl fun r _ => by rw [Matrix.smul_apply, smul_eq_mul]; ring
  simp only [quadC, e, mul_pow, ← mul_sum, sqNorm, Matrix.smul_apply, smul_eq_mul]
  ring

/-- A matrix with one entry replaced. -/
def setEntry {m n : ℕ} (Y : Matrix (Fin m) (Fin n) ℝ) (p : Fin m × Fin n) (t : ℝ) : Matrix (Fin m) (Fin n) ℝ := Matrix.of fun i r => if (i, r) = p then t else Y i r

theorem setEntry_sub {m n : ℕ} (Y : Matrix (Fin m) (Fin n) ℝ) (p : Fin m × Fin n) (t : ℝ) : setEntry Y p t - Y = (t - Y p.1 p.2) • setEntry 0 p 1 := by
  ext i r
  simp only [setEntry, Matrix.sub_apply, Matrix.smul_apply, Matrix.of_apply, smul_eq_mul, Matrix.zero_apply]
  split
  · rename_i h
    rw [← h]
    ring
  · ring

theorem lasso_minC (X : Ragged I K J) {l : ℝ} (hl : 0 ≤ l) (F : Factors I K R J) {γ : ℝ} (hγ : 0 ≤ γ) (nn : Bool) (Y : Matrix (Fin K) (Fin R) ℝ) :
    IsMinOver (fitC X l F) (fun _ : Fin 1 => (StdPen.l1 γ nn : StdPen K R).feasible) (fun _ => (StdPen.l1 γ nn : StdPen K R).fn) Y ↔ ∀ k r, LassoEntry γ nn (gradC X l F Y k r) (Y k r) := by
  have key := lasso_iff (fitC X l F) (fun p : Fin K × Fin R => fun Z => Z p.1 p.2) (fun Z p => gradC X l F Z p.1 p.2) (quadC l F)
    (fun v => add_nonneg (mul_nonneg (by norm_num) (sum_nonneg fun _ _ => sum_nonneg fun _ _ => sum_nonneg fun _ _ => sq_nonneg _)) (mul_nonneg (by linarith) (sqNorm_nonneg _)))
    (fun y z => by rw [fitC_expand X l F y z, Fintype.sum_prod_type]) setEntry (fun y p t q => by simp [setEntry])
    (fun p => ⟨quadC l F (setEntry 0 p 1), fun y t => by rw [setEntry_sub, quadC_smul]; ring⟩) hγ nn Y
  simp only [Prod.forall, Fintype.sum_prod_type] at key
  rw [← key]
  simp only [IsMinOver, univ_unique, sum_singleton, forall_const]
  exact Iff.rfl

/-! ### Mode 0 -/

noncomputable def quadA (l : ℝ) (F : Factors I K R J) (V : Matrix (Fin I) (Fin R) ℝ) : ℝ :=
  1 / 2 * ∑ i, ∑ j, ∑ k, (⟨V, F.B, F.C⟩ : Factors I K R J).entry i j k ^ 2 + l / 2 * sqNorm V

theorem fitA_expand (X : Ragged I K J) (l : ℝ) (F : Factors I K R J) (Y Z : Matrix (Fin I) (Fin R) ℝ) :
    fitA X l F Z = fitA X l F Y + ∑ i, ∑ r, gradA X l F Y i r * (Z i r - Y i r) + quadA l F (Z - Y) := by
  have e : ∀ i j k, (⟨Z, F.B, F.C⟩ : Factors I K R J).entry i j k = (⟨Y, F.B, F.C⟩ : Factors I K R J).entry i j k + (⟨Z - Y, F.B, F.C⟩ : Factors I K R J).entry i j k := by
    intro i j k
    simp only [Factors.entry, ← sum_add_distrib]
    exact sum_congr rfl fun r _ => by rw [Matrix.sub_apply]; ring
  have e2 : ∑ i, ∑ j, ∑ k, ((⟨Y, F.B, F.C⟩ : Factors I K R J).entry i j k - X i j k) * (⟨Z - Y, F.B, F.C⟩ : Factors I K R J).entry i j k =
      ∑ i, ∑ r, (∑ j, ∑ k, ((⟨Y, F.B, F.C⟩ : Factors I K R J).entry i j k - X i j k) * (F.B i j r * F.C k r)) * (Z i r - Y i r) := by
    refine sum_congr rfl fun i _ => ?_
    simp only [sum_mul]
    rw [sum_comm (s := (univ : Finset (Fin R)))]
    refine sum_congr rfl fun j _ => ?_
    rw [sum_comm (s := (univ : Finset (Fin R)))]
    refine sum_congr rfl fun k _ => ?_
    rw [show (⟨Z - Y, F.B, F.C⟩ : Factors I K R J).entry i j k = ∑ r, (Z - Y) i r * F.B i j r * F.C k r from rfl, mul_sum]
    exact sum_congr rfl fun r _ => by rw [Matrix.sub_apply]; ring
  have e3 : sse X ⟨Z, F.B, F.C⟩ = sse X ⟨Y, F.B, F.C⟩ + 2 * ∑ i, ∑ j, ∑ k, ((⟨Y, F.B, F.C⟩ : Factors I K R J).entry i j k - X i j k) * (⟨Z - Y, F.B, F.C⟩ : Factors I K R J).entry i j k
      + ∑ i, ∑ j, ∑ k, (⟨Z - Y, F.B, F.C⟩ : Factors I K R J).entry i j k ^ 2 := by
    simp only [sse, e, half_sq, sum_add_distrib, mul_sum]
  rw [fitA, e3, e2, sqNorm_expand Y Z, fitA, quadA]
  simp only [gradA, add_mul, sum_add_distrib, mul_assoc, ← mul_sum]
  ring

theorem quadA_smul (l : ℝ) (F : Factors I K R J) (s : ℝ) (V : Matrix (Fin I) (Fin R) ℝ) : quadA l F (s • V) = s ^ 2 * quadA l F V := by
  have e : ∀ i j k, (⟨s • V, F.B, F.C⟩ : Factors I K R J).entry i j k = s * (⟨V, F.B, F.C⟩ : Factors I K R J).entry i j k := by
    intro i j k
    simp only [Factors.entry, mul_sum]
    exact sum_congr rfl fun r _ => by rw [Matrix.smul_apply, smul_eq_mul]; ring
  simp only [quadA, e, mul_pow, ← mul_sum, sqNorm, Matrix.smul_apply, smul_eq_mul]
  ring

theorem lasso_minA (X : Ragged I K J) {l : ℝ} (hl : 0 ≤ l) (F : Factors I K R J) {γ : ℝ} (hγ : 0 ≤ γ) (nn : Bool) (Y : Matrix (Fin I) (Fin R) ℝ) :
    IsMinOver (fitA X l F) (fun _ : Fin 1 => (StdPen.l1 γ nn : StdPen I R).feasible) (fun _ => (StdPen.l1 γ nn : StdPen I R).fn) Y ↔ ∀ i r, LassoEntry γ nn (gradA X l F Y i r) (Y i r) := by
  have key := lasso_iff (fitA X l F) (fun p : Fin I × Fin R => fun Z => Z p.1 p.2) (fun Z p => gradA X l F Z p.1 p.2) (quadA l F)
    (fun v => add_nonneg (mul_nonneg (by norm_num) (sum_nonneg fun _ _ => sum_nonneg fun _ _ => sum_nonneg fun _ _ => sq_nonneg _)) (mul_nonneg (by linarith) (sqNorm_nonneg _)))
    (fun y z => by rw [fitA_expand X l F y z, Fintype.sum_prod_type]) setEntry (fun y p t q => by simp [setEntry])
    (fun p => ⟨quadA l F (setEntry 0 p 1), fun y t => by rw [setEntry_sub, quadA_smul]; ring⟩) hγ nn Y
  simp only [Prod.forall, Fintype.sum_prod_type] at key
  rw [← key]
  simp only [IsMinOver, univ_unique, sum_singleton, forall_const]
  exact Iff.rfl

/-! ### Mode 1 -/

noncomputable def quadB (l : ℝ) (F : Factors I K R J) (V : Ragged I R J) : ℝ :=
  1 / 2 * ∑ i, ∑ j, ∑ k, (⟨F.A, V, F.C⟩ : Factors I K R J).entry i j k ^ 2 + l / 2 * raggedSq V

theorem raggedSq_expand (Y Z : Ragged I R J) : raggedSq Z = raggedSq Y + 2 * ∑ i, ∑ j, ∑ r, Y i j r * (Z i j r - Y i j r) + raggedSq (Z - Y) := by
  simp only [raggedSq, mul_sum, ← sum_add_distrib]
  refine sum_congr rfl fun i _ => ?_
  rw [sqNorm_expand (Y i) (Z i)]
  simp only [mul_sum]
  rfl

theorem fitB_expand (X : Ragged I K J) (l : ℝ) (F : Factors I K R J) (Y Z : Ragged I R J) :
    fitB X l F Z = fitB X l F Y + ∑ i, ∑ j, ∑ r, gradB X l F Y i j r * (Z i j r - Y i j r) + quadB l F (Z - Y) := by
  have e : ∀ i j k, (⟨F.A, Z, F.C⟩ : Factors I K R J).entry i j k = (⟨F.A, Y, F.C⟩ : Factors I K R J).entry i j k + (⟨F.A, Z - Y, F.C⟩ : Factors I K R J).entry i j k := by
    intro i j k
    simp only [Factors.entry, ← sum_add_distrib]
    exact sum_congr rfl fun r _ => by rw [Pi.sub_apply, Matrix.sub_apply]; ring
  have e2 : ∑ i, ∑ j, ∑ k, ((⟨F.A, Y, F.C⟩ : Factors I K R J).entry i j k - X i j k) * (⟨F.A, Z - Y, F.C⟩ : Factors I K R J).entry i j k =
      ∑ i, ∑ j, ∑ r, (∑ k, ((⟨F.A, Y, F.C⟩ : Factors I K R J).entry i j k - X i j k) * (F.A i r * F.C k r)) * (Z i j r - Y i j r) := by
    refine sum_congr rfl fun i _ => sum_congr rfl fun j _ => ?_
    simp only [sum_mul]
    rw [sum_comm (s := (univ : Finset (Fin R)))]
    refine sum_congr rfl fun k _ => ?_
    rw [show (⟨F.A, Z - Y, F.C⟩ : Factors I K R J).entry i j k = ∑ r, F.A i r * (Z - Y) i j r * F.C k r from rfl, mul_sum]
    exact sum_congr rfl fun r _ => by rw [Pi.sub_apply, Matrix.sub_apply]; ring
  have e3 : sse X ⟨F.A, Z, F.C⟩ = sse X ⟨F.A, Y, F.C⟩ + 2 * ∑ i, ∑ j, ∑ k, ((⟨F.A, Y, F.C⟩ : Factors I K R J).entry i j k - X i j k) * (⟨F.A, Z - Y, F.C⟩ : Factors I K R J).entry i j k
      + ∑ i, ∑ j, ∑ k, (⟨F.A, Z - Y, F.C⟩ : Factors I K R J).entry i j k ^ 2 := by
    simp only [sse, e, half_sq, sum_add_distrib, mul_sum]
  rw [fitB, e3, e2, raggedSq_expand Y Z, fitB, quadB]
  simp only [gradB, add_mul, sum_add_distrib, mul_assoc, ← mul_sum]
  ring

theorem quadB_smul (l : ℝ) (F : Factors I K R J) (s : ℝ) (V : Ragged I R J) : quadB l F (fun i => s • V i) = s ^ 2 * quadB l F V := by
  have e : ∀ i j k, (⟨F.A, fun i => s • V i, F.C⟩ : Factors I K R J).entry i j k = s * (⟨F.A, V, F.C⟩ : Factors I K R J).entry i j k := by
    intro i j k
    simp only [Factors.entry, mul_sum]
    exact sum_congr rfl fun r _ => by rw [Matrix.smul_apply, smul_eq_mul]; ring
  simp only [quadB, e, mul_pow, ← mul_sum, raggedSq, sqNorm, Matrix.smul_apply, smul_eq_mul]
  ring

/-- A list of matrices with one entry replaced. -/
def setRag (Y : Ragged I R J) (p : (i : Fin I) × Fin (J i) × Fin R) (t : ℝ) : Ragged I R J := fun i => Matrix.of fun j r => if (⟨i, j, r⟩ : (i : Fin I) × Fin (J i) × Fin R) = p then t else Y i j r

theorem setRag_sub (Y : Ragged I R J) (p : (i : Fin I) × Fin (J i) × Fin R) (t : ℝ) : setRag Y p t - Y = fun i => (t - Y p.1 p.2.1 p.2.2) • setRag 0 p 1 i := by
  funext i
  ext j r
  simp only [setRag, Pi.sub_apply, Matrix.sub_apply, Matrix.smul_apply, Matrix.of_apply, smul_eq_mul, Pi.zero_apply, Matrix.zero_apply]
  split
  · rename_i h
    rw [← h]
    ring
  · ring

theorem lasso_minB (X : Ragged I K J) {l : ℝ} (hl : 0 ≤ l) (F : Factors I K R J) {γ : ℝ} (hγ : 0 ≤ γ) (nn : Bool) (Y : Ragged I R J) :
    IsMinOver (fitB X l F) (fun _ : Fin 1 => {Z : Ragged I R J | ∀ i, Z i ∈ (StdPen.l1 γ nn : StdPen (J i) R).feasible}) (fun _ Z => ∑ i, (StdPen.l1 γ nn : StdPen (J i) R).fn (Z i)) Y ↔
      ∀ i j r, LassoEntry γ nn (gradB X l F Y i j r) (Y i j r) := by
  have key := lasso_iff (fitB X l F) (fun p : (i : Fin I) × Fin (J i) × Fin R => fun Z => Z p.1 p.2.1 p.2.2) (fun Z p => gradB X l F Z p.1 p.2.1 p.2.2) (quadB l F)
    (fun v => add_nonneg (mul_nonneg (by norm_num) (sum_nonneg fun _ _ => sum_nonneg fun _ _ => sum_nonneg fun _ _ => sq_nonneg _))
      (mul_nonneg (by linarith) (sum_nonneg fun _ _ => sqNorm_nonneg _)))
    (fun y z => by rw [fitB_expand X l F y z]; simp only [Fintype.sum_sigma, Fintype.sum_prod_type]) setRag (fun y p t q => by simp [setRag])
    (fun p => ⟨quadB l F (setRag 0 p 1), fun y t => by rw [setRag_sub, quadB_smul]; ring⟩) hγ nn Y
  simp only [Sigma.forall, Prod.forall, Fintype.sum_sigma, Fintype.sum_prod_type] at key
  rw [← key]
  simp only [IsMinOver, univ_unique, sum_singleton, forall_const, StdPen.feasible, StdPen.fn, Set.mem_ofPred_eq, absSum, ← mul_sum]
  constructor
  · rintro ⟨h1, h2⟩
    exact ⟨fun hn i => h1 i hn, fun z hz => h2 z fun i hn => hz hn i⟩
  · rintro ⟨h1, h2⟩
    exact ⟨fun i hn => h1 hn i, fun z hz => h2 z fun hn i => hz i hn⟩

/-! ### C137 -/

theorem lasso_zero {γ : ℝ} (nn : Bool) (M : ℝ) : LassoEntry γ nn (-M) 0 ↔ (if nn then M else |M|) ≤ γ := by
  cases nn with
  | true => simp [LassoEntry]
  | false => simp [LassoEntry]

/-- C137, A: if only this factor is updated and it has an L1 penalty, then its iterates and auxiliary variables converge to the only matrix whose entries are optimal in the
sense of `LassoEntry`. The limit is zero if and only if the penalty is at least as strong as all correlations of the data with the components. -/
theorem C137_A (P : Problem I K R 1 nB nC J) (hsvd : ValidSVD P.params) (hN : 0 < P.params.nInner) (hA : P.updA = true) (hB : P.updB = false)
    (hC : P.updC = false) (hl : 0 ≤ P.l2.1) (init : AOState I K R 1 nB nC J) (hw : ∀ i, 0 < weightA P.params.scale init.F i) (hsol : SolvableA init.F P.l2.1)
    {γ : ℝ} (hγ : 0 ≤ γ) (nn : Bool) (hpens : P.pensA 0 = (StdPen.l1 γ nn : StdPen I R).toA)
    (outs : ℕ → Output (AOState I K R 1 nB nC J)) (h : ∀ n : ℕ, cmfAoadmm P (plain n) init = .ok (outs n)) :
    ∃ xs : Matrix (Fin I) (Fin R) ℝ, (∀ i r, Tendsto (fun n => (outs n).st.F.A i r) atTop (nhds (xs i r))) ∧ (∀ i r, Tendsto (fun n => (outs n).st.auxA 0 i r) atTop (nhds (xs i r))) ∧
      (∀ Y : Matrix (Fin I) (Fin R) ℝ, (∀ i r, LassoEntry γ nn (gradA P.X P.l2.1 init.F Y i r) (Y i r)) ↔ Y = xs) ∧
      ((∀ i r, xs i r = 0) ↔ ∀ i r, (if nn then ∑ j, ∑ k, P.X i j k * (init.F.B i j r * init.F.C k r) else |∑ j, ∑ k, P.X i j k * (init.F.B i j r * init.F.C k r)|) ≤ γ) := by
  obtain ⟨xs, h1, h2, h3⟩ := C68_A P hsvd hN hA hB hC hl init hw hsol (fun _ => .l1 γ nn) (fun _ => hγ) (fun p => by rw [Subsingleton.elim p 0]; exact hpens) 0 0 (fun _ _ _ => le_rfl)
    (fun p hp => absurd (Subsingleton.elim p 0) hp) outs h
  have hiff : ∀ Y : Matrix (Fin I) (Fin R) ℝ, (∀ i r, LassoEntry γ nn (gradA P.X P.l2.1 init.F Y i r) (Y i r)) ↔ Y = xs := fun Y =>
    (lasso_minA P.X hl init.F hγ nn Y).symm.trans (h1 Y)
  refine ⟨xs, h2, h3 0, hiff, ?_⟩
  have e0 : (∀ i r, xs i r = 0) ↔ (0 : Matrix (Fin I) (Fin R) ℝ) = xs := ⟨fun hz => funext fun i => funext fun r => (hz i r).symm, fun hz i r => by rw [← hz]; rfl⟩
  rw [e0, ← hiff 0]
  refine forall_congr' fun i => forall_congr' fun r => ?_
  
  have eg : gradA P.X P.l2.1 init.F 0 i r = -(∑ j, ∑ k, P.X i j k * (init.F.B i j r * init.F.C k r)) := by
    simp [gradA, Factors.entry]
  rw [eg]
  exact lasso_zero nn _

/-- C137, the B factor matrices: if only this factor is updated and it has an L1 penalty, then its iterates and auxiliary variables converge to the only matrix whose entries are optimal in the
sense of `LassoEntry`. The limit is zero if and only if the penalty is at least as strong as all correlations of the data with the components. -/
theorem C137_B (P : Problem I K R nA 1 nC J) (hsvd : ValidSVD P.params) (hN : 0 < P.params.nInner) (hA : P.updA = false) (hB : P.updB = true)
    (hC : P.updC = false) (hl : 0 ≤ P.l2.2.1) (init : AOState I K R nA 1 nC J) (hw : ∀ i, 0 < weightB P.params.scale init.F i) (hsol : SolvableB init.F P.l2.2.1)
    {γ : ℝ} (hγ : 0 ≤ γ) (nn : Bool) (hpens : P.pensB 0 = StdPen.toB fun i => (StdPen.l1 γ nn : StdPen (J i) R))
    (outs : ℕ → Output (AOState I K R nA 1 nC J)) (h : ∀ n : ℕ, cmfAoadmm P (plain n) init = .ok (outs n)) :
    ∃ xs : Ragged I R J, (∀ i j r, Tendsto (fun n => (outs n).st.F.B i j r) atTop (nhds (xs i j r))) ∧ (∀ i j r, Tendsto (fun n => ((outs n).st.auxB 0).toMats i j r) atTop (nhds (xs i j r))) ∧
      (∀ Y : Ragged I R J, (∀ i j r, LassoEntry γ nn (gradB P.X P.l2.2.1 init.F Y i j r) (Y i j r)) ↔ Y = xs) ∧
      ((∀ i j r, xs i j r = 0) ↔ ∀ i j r, (if nn then ∑ k, P.X i j k * (init.F.A i r * init.F.C k r) else |∑ k, P.X i j k * (init.F.A i r * init.F.C k r)|) ≤ γ) := by
  obtain ⟨xs, h1, h2, h3⟩ := C68_B P hsvd hN hA hB hC hl init hw hsol (fun _ _ => .l1 γ nn) (fun _ _ => hγ) (fun p => by rw [Subsingleton.elim p 0]; exact hpens) 0 0 (fun _ _ _ _ => le_rfl)
    (fun p hp => absurd (Subsingleton.elim p 0) hp) outs h
  have hiff : ∀ Y : Ragged I R J, (∀ i j r, LassoEntry γ nn (gradB P.X P.l2.2.1 init.F Y i j r) (Y i j r)) ↔ Y = xs := fun Y =>
    (lasso_minB P.X hl init.F hγ nn Y).symm.trans (h1 Y)
  refine ⟨xs, h2, h3 0, hiff, ?_⟩
  have e0 : (∀ i j r, xs i j r = 0) ↔ (0 : Ragged I R J) = xs := ⟨fun hz => funext fun i => funext fun j => funext fun r => (hz i j r).symm, fun hz i j r => by rw [← hz]; rfl⟩
  rw [e0, ← hiff 0]
  refine forall_congr' fun i => forall_congr' fun j => ?_
  refine forall_congr' fun r => ?_
  have eg : gradB P.X P.l2.2.1 init.F 0 i j r = -(∑ k, P.X i j k * (init.F.A i r * init.F.C k r)) := by
    simp [gradB, Factors.entry]
  rw [eg]
  exact lasso_zero nn _

/-- C137, C: if only this factor is updated and it has an L1 penalty, then its iterates and auxiliary variables converge to the only matrix whose entries are optimal in the
sense of `LassoEntry`. The limit is zero if and only if the penalty is at least as strong as all correlations of the data with the components. -/
theorem C137_C (P : Problem I K R nA nB 1 J) (hsvd : ValidSVD P.params) (hN : 0 < P.params.nInner) (hA : P.updA = false) (hB : P.updB = false)
    (hC : P.updC = true) (hl : 0 ≤ P.l2.2.2) (init : AOState I K R nA nB 1 J) (hw : 0 < weightC P.params.scale init.F) (hsol : SolvableC init.F P.l2.2.2)
    {γ : ℝ} (hγ : 0 ≤ γ) (nn : Bool) (hpens : P.pensC 0 = (StdPen.l1 γ nn : StdPen K R).toC)
    (outs : ℕ → Output (AOState I K R nA nB 1 J)) (h : ∀ n : ℕ, cmfAoadmm P (plain n) init = .ok (outs n)) :
    ∃ xs : Matrix (Fin K) (Fin R) ℝ, (∀ k r, Tendsto (fun n => (outs n).st.F.C k r) atTop (nhds (xs k r))) ∧ (∀ k r, Tendsto (fun n => (outs n).st.auxC 0 k r) atTop (nhds (xs k r))) ∧
      (∀ Y : Matrix (Fin K) (Fin R) ℝ, (∀ k r, LassoEntry γ nn (gradC P.X P.l2.2.2 init.F Y k r) (Y k r)) ↔ Y = xs) ∧
      ((∀ k r, xs k r = 0) ↔ ∀ k r, (if nn then ∑ i, ∑ j, P.X i j k * (init.F.A i r * init.F.B i j r) else |∑ i, ∑ j, P.X i j k * (init.F.A i r * init.F.B i j r)|) ≤ γ) := by
  obtain ⟨xs, h1, h2, h3⟩ := C68_C P hsvd hN hA hB hC hl init hw hsol (fun _ => .l1 γ nn) (fun _ => hγ) (fun p => by rw [Subsingleton.elim p 0]; exact hpens) 0 0 (fun _ _ _ => le_rfl)
    (fun p hp => absurd (Subsingleton.elim p 0) hp) outs h
  have hiff : ∀ Y : Matrix (Fin K) (Fin R) ℝ, (∀ k r, LassoEntry γ nn (gradC P.X P.l2.2.2 init.F Y k r) (Y k r)) ↔ Y = xs := fun Y =>
    (lasso_minC P.X hl init.F hγ nn Y).symm.trans (h1 Y)
  refine ⟨xs, h2, h3 0, hiff, ?_⟩
  have e0 : (∀ k r, xs k r = 0) ↔ (0 : Matrix (Fin K) (Fin R) ℝ) = xs := ⟨fun hz => funext fun k => funext fun r => (hz k r).symm, fun hz k r => by rw [← hz]; rfl⟩
  rw [e0, ← hiff 0]
  refine forall_congr' fun k => forall_congr' fun r => ?_
  
  have eg : gradC P.X P.l2.2.2 init.F 0 k r = -(∑ i, ∑ j, P.X i j k * (init.F.A i r * init.F.B i j r)) := by
    simp [gradC, Factors.entry]
  rw [eg]
  exact lasso_zero nn _

/-- The data matrix `[[5]]`, B and C equal to 1: for every strength `γ` of the penalty, A tends to `max (5 - γ) 0`. -/
theorem C137_example (γ : ℝ) (hγ : 0 ≤ γ) : ∃ (P : Problem 1 1 1 1 0 0 fun _ => 1) (init : AOState 1 1 1 1 0 0 fun _ => 1) (outs : ℕ → Output (AOState 1 1 1 1 0 0 fun _ => 1)),
    (∀ n : ℕ, cmfAoadmm P (plain n) init = .ok (outs n)) ∧ P.X 0 0 0 = 5 ∧ P.pensA 0 = (StdPen.l1 γ false : StdPen 1 1).toA ∧ init.F.A = !![7] ∧
      Tendsto (fun n => (outs n).st.F.A 0 0) atTop (nhds (max (5 - γ) 0)) := by
  obtain ⟨prm, hP, hN, -, hscale⟩ := exists_params 1 3 none 2
  let P : Problem 1 1 1 1 0 0 fun _ => 1 :=
    ⟨fun _ => !![5], fun _ => (StdPen.l1 γ false : StdPen 1 1).toA, Fin.elim0, Fin.elim0, (0, 0, 0), prm, false, false, true, false, false⟩
  let init : AOState 1 1 1 1 0 0 fun _ => 1 := ⟨none, ⟨!![7], ones.B, ones.C⟩, fun _ => !![5], fun _ => !![4], Fin.elim0, Fin.elim0, Fin.elim0, Fin.elim0⟩
  choose outs ho using fun n : ℕ => C61 P one_pos (fun _ p => by fin_cases p; rfl) (plain n) (by simp [plain, truthy]) init
  refine ⟨P, init, outs, ho, rfl, rfl, rfl, ?_⟩
  obtain ⟨xs, h1, -, h3, -⟩ := C137_A P hP (by show 0 < prm.nInner; omega) rfl rfl rfl le_rfl init
    (by show ∀ i, 0 < weightA prm.scale _ i; rw [hscale]; exact weightA_ones) solvable_ones.1 hγ false rfl outs ho
  have h5 : !![max (5 - γ) 0] = xs := (h3 _).1 (by
    intro i r
    fin_cases i; fin_cases r
    have eg : gradA P.X P.l2.1 init.F !![max (5 - γ) 0] 0 0 = max (5 - γ) 0 - 5 := by
      simp [gradA, Factors.entry, P, init, ones]
    show LassoEntry γ false (gradA P.X P.l2.1 init.F !![max (5 - γ) 0] 0 0) (max (5 - γ) 0)
    rw [eg]
    refine ⟨abs_le.2 ⟨by linarith [le_max_left (5 - γ) 0], ?_⟩, fun h0 => ?_, fun h0 => absurd h0 (not_lt.2 (le_max_right _ _))⟩
    · rcases max_choice (5 - γ) 0 with h | h <;> rw [h] <;> linarith
    · rcases max_choice (5 - γ) 0 with h | h
      · rw [h]; ring
      · rw [h] at h0; exact absurd h0 (lt_irrefl _))
  have := h1 0 0
  rw [← h5] at this
  exact this

end Verif.Props
