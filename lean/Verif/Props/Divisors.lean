import Verif.Props.ADMMStep

/-!
# C34: exactly when a linear system of the updates is singular
-/

namespace Verif.Props

open Verif.ADMM Verif.Spec Verif.Penalties Finset

variable {I K R : ℕ} {J : Fin I → ℕ}

/-- Row `i` of `A` is determined by its matrix: a nonzero row represents a nonzero matrix. -/
def DeterminesA (F : Factors I K R J) (i : Fin I) : Prop := ∀ v : Fin R → ℝ, (∀ j k, ∑ r, v r * F.B i j r * F.C k r = 0) → v = 0

/-- `B_i` is determined by its matrix. -/
def DeterminesB (F : Factors I K R J) (i : Fin I) : Prop := ∀ v : Fin R → ℝ, (∀ k, ∑ r, F.A i r * v r * F.C k r = 0) → v = 0

/-- `C` is determined by the matrices. -/
def DeterminesC (F : Factors I K R J) : Prop := ∀ v : Fin R → ℝ, (∀ i j, ∑ r, F.A i r * F.B i j r * v r = 0) → v = 0

theorem system_iff {κ : Type} [Fintype κ] (M : Matrix κ (Fin R) ℝ) {ρ l2 : ℝ} (hρ : 0 ≤ ρ) (hl : 0 ≤ l2) (n : ℕ) {d : SVD R R R}
    (hd : d.Valid (addRidge (M.transpose * M) ρ n l2)) :
    (∀ r, d.s r ≠ 0) ↔ 0 < l2 ∨ (0 < n ∧ 0 < ρ) ∨ ∀ v : Fin R → ℝ, (∀ k, ∑ r, M k r * v r = 0) → v = 0 := by
  have hn : (0 : ℝ) ≤ n := n.cast_nonneg
  have hc : 0 ≤ ρ * n + l2 := by positivity
  rw [divisors_iff M hc hd]
  constructor
  · intro h
    by_contra hcon
    push Not at hcon
    obtain ⟨h1, h2, v, hv, hv0⟩ := hcon
    have e1 : l2 = 0 := le_antisymm h1 hl
    have e2 : ρ * n = 0 := by
      rcases n.eq_zero_or_pos with h0 | h0
      · rw [h0]; simp
      · rw [le_antisymm (h2 h0) hρ, zero_mul]
    have := h v hv0
    rw [e1, e2] at this
    simp [hv] at this
  · intro h v hv
    obtain ⟨r, hr⟩ := Function.ne_iff.1 hv
    have hpos : 0 < ∑ r, v r ^ 2 := sum_pos' (fun _ _ => sq_nonneg _) ⟨r, mem_univ r, (sq_nonneg _).lt_of_ne' (pow_ne_zero 2 hr)⟩
    have h1 : 0 ≤ ∑ k, (∑ r, M k r * v r) ^ 2 := sum_nonneg fun _ _ => sq_nonneg _
    have hcs : 0 ≤ (ρ * n + l2) * ∑ r, v r ^ 2 := mul_nonneg hc hpos.le
    rcases h with h | ⟨h, h'⟩ | h
    · have := mul_nonneg hρ hn
      exact add_pos_of_nonneg_of_pos h1 (mul_pos (by linarith) hpos)
    · have hn' : (0 : ℝ) < n := by exact_mod_cast h
      have := mul_pos h' hn'
      exact add_pos_of_nonneg_of_pos h1 (mul_pos (by linarith) hpos)
    · refine add_pos_of_pos_of_nonneg (h1.lt_of_ne' fun h0 => hv (h v fun k => ?_)) hcs
      rw [sum_eq_zero_iff_of_nonneg fun _ _ => sq_nonneg _] at h0
      exact pow_eq_zero_iff two_ne_zero |>.1 (h0 k (mem_univ k))

/-- C34, exact: the system of a block has no zero divisor if and only if there is a positive ridge penalty, or there are penalties with a positive feasibility penalty, or
the factor is determined by the matrices it represents. -/
theorem C34_exact (P : Params R) (hsvd : ValidSVD P) (hs : 0 ≤ P.scale) (F : Factors I K R J) {l2 : ℝ} (hl : 0 ≤ l2) (n : ℕ) :
    (∀ constant ρ, IsWeights constant (weightA P.scale F) ρ → ∀ i,
      (∀ r, divisorsA P F (ρ i) n l2 i r ≠ 0) ↔ 0 < l2 ∨ (0 < n ∧ 0 < ρ i) ∨ DeterminesA F i) ∧
    (∀ constant ρ, IsWeights constant (weightB P.scale F) ρ → ∀ i,
      (∀ r, divisorsB P F (ρ i) n l2 i r ≠ 0) ↔ 0 < l2 ∨ (0 < n ∧ 0 < ρ i) ∨ DeterminesB F i) ∧
    ((∀ r, divisorsC P F n l2 r ≠ 0) ↔ 0 < l2 ∨ (0 < n ∧ 0 < weightC P.scale F) ∨ DeterminesC F) := by
  refine ⟨fun constant ρ hρ i => ?_, fun constant ρ hρ i => ?_, ?_⟩
  · have hd := hsvd (addRidge (crossA F i) (ρ i) n l2)
    rw [divisorsA]
    conv at hd => arg 2; rw [crossA_eq]
    rw [system_iff (designA F i) (hρ.nonneg (weightA_nonneg hs F) i) hl n hd]
    have : (∀ v : Fin R → ℝ, (∀ jk, ∑ r, designA F i jk r * v r = 0) → v = 0) ↔ DeterminesA F i := by
      refine forall_congr' fun v => imp_congr_left ⟨fun h j k => ?_, fun h jk => ?_⟩
      · rw [← h (j, k)]; exact sum_congr rfl fun r _ => by simp only [designA, Matrix.of_apply]; ring
      · rw [← h jk.1 jk.2]; exact sum_congr rfl fun r _ => by simp only [designA, Matrix.of_apply]; ring
    rw [this]
  · have hd := hsvd (addRidge (crossB F i) (ρ i) n l2)
    rw [divisorsB]
    conv at hd => arg 2; rw [crossB_eq]
    rw [system_iff (designB F i) (hρ.nonneg (weightB_nonneg hs F) i) hl n hd]
    have : (∀ v : Fin R → ℝ, (∀ k, ∑ r, designB F i k r * v r = 0) → v = 0) ↔ DeterminesB F i := by
      refine forall_congr' fun v => imp_congr_left ⟨fun h k => ?_, fun h k => ?_⟩
      · rw [← h k]; exact sum_congr rfl fun r _ => by simp only [designB, Matrix.of_apply]; ring
      · rw [← h k]; exact sum_congr rfl fun r _ => by simp only [designB, Matrix.of_apply]; ring
    rw [this]
  · have hd := hsvd (addRidge (crossC F) (weightC P.scale F) n l2)
    rw [divisorsC]
    conv at hd => arg 2; rw [crossC_eq]
    rw [system_iff (designC F) (weightC_nonneg hs F) hl n hd]
    have : (∀ v : Fin R → ℝ, (∀ ij, ∑ r, designC F ij r * v r = 0) → v = 0) ↔ DeterminesC F := by
      refine forall_congr' fun v => imp_congr_left ⟨fun h i j => ?_, fun h ij => ?_⟩
      · rw [← h ⟨i, j⟩]; exact sum_congr rfl fun r _ => by simp only [designC, Matrix.of_apply]; ring
      · rw [← h ij.1 ij.2]; exact sum_congr rfl fun r _ => by simp only [designC, Matrix.of_apply]; ring
    rw [this]

/-- When a feasibility penalty is positive: a positive scale and a nonzero product of the other factors. -/
theorem weight_pos_iff {scale : ℝ} (hs : 0 ≤ scale) (F : Factors I K R J) :
    (∀ i, 0 < weightA scale F i ↔ 0 < scale ∧ ∃ j k r, F.B i j r * F.C k r ≠ 0) ∧ (∀ i, 0 < weightB scale F i ↔ 0 < scale ∧ ∃ k r, F.C k r * F.A i r ≠ 0) ∧
    (0 < weightC scale F ↔ 0 < scale ∧ ∃ i j r, F.B i j r * F.A i r ≠ 0) := by
  have key : ∀ {s t : ℝ} {p : Prop}, 0 ≤ s → 0 ≤ t → (0 < t ↔ p) → (0 < s / 2 * t ↔ 0 < s ∧ p) := fun {s t p} h1 h2 h3 => by
    rw [← h3]
    constructor
    · intro h
      refine ⟨h1.lt_of_ne' fun h0 => ?_, h2.lt_of_ne' fun h0 => ?_⟩ <;> · rw [h0] at h; simp at h
    · rintro ⟨a, b⟩; positivity
  have pos : ∀ {ι : Type} [Fintype ι] (f : ι → ℝ), (∀ x, 0 ≤ f x) → (0 < ∑ x, f x ↔ ∃ x, 0 < f x) := fun f hf => by
    constructor
    · intro h
      by_contra hc
      push Not at hc
      exact absurd h (not_lt.2 (sum_nonpos fun x _ => hc x))
    · rintro ⟨x, hx⟩
      exact sum_pos' (fun x _ => hf x) ⟨x, mem_univ x, hx⟩
  have sq : ∀ x : ℝ, 0 < x ^ 2 ↔ x ≠ 0 := fun x => by rw [sq_pos_iff]
  refine ⟨fun i => ?_, fun i => ?_, ?_⟩
  · unfold weightA
    refine key hs (sum_nonneg fun _ _ => sum_nonneg fun _ _ => sum_nonneg fun _ _ => sq_nonneg _) ?_
    rw [pos _ fun _ => sum_nonneg fun _ _ => sum_nonneg fun _ _ => sq_nonneg _]
    constructor
    · rintro ⟨r, h⟩
      obtain ⟨j, h⟩ := (pos _ fun _ => sum_nonneg fun _ _ => sq_nonneg _).1 h
      obtain ⟨k, h⟩ := (pos _ fun _ => sq_nonneg _).1 h
      exact ⟨j, k, r, (sq _).1 h⟩
    · rintro ⟨j, k, r, h⟩
      exact ⟨r, (pos _ fun _ => sum_nonneg fun _ _ => sq_nonneg _).2 ⟨j, (pos _ fun _ => sq_nonneg _).2 ⟨k, (sq _).2 h⟩⟩⟩
  · unfold weightB
    refine key hs (sum_nonneg fun _ _ => sum_nonneg fun _ _ => sq_nonneg _) ?_
    rw [pos _ fun _ => sum_nonneg fun _ _ => sq_nonneg _]
    constructor
    · rintro ⟨r, h⟩
      obtain ⟨k, h⟩ := (pos _ fun _ => sq_nonneg _).1 h
      exact ⟨k, r, (sq _).1 h⟩
    · rintro ⟨k, r, h⟩
      exact ⟨r, (pos _ fun _ => sq_nonneg _).2 ⟨k, (sq _).2 h⟩⟩
  · unfold weightC
    refine key hs (sum_nonneg fun _ _ => sum_nonneg fun _ _ => sum_nonneg fun _ _ => sq_nonneg _) ?_
    rw [pos _ fun _ => sum_nonneg fun _ _ => sum_nonneg fun _ _ => sq_nonneg _]
    constructor
    · rintro ⟨r, h⟩
      obtain ⟨i, h⟩ := (pos _ fun _ => sum_nonneg fun _ _ => sq_nonneg _).1 h
      obtain ⟨j, h⟩ := (pos _ fun _ => sq_nonneg _).1 h
      exact ⟨i, j, r, (sq _).1 h⟩
    · rintro ⟨i, j, r, h⟩
      exact ⟨r, (pos _ fun _ => sum_nonneg fun _ _ => sq_nonneg _).2 ⟨i, (pos _ fun _ => sq_nonneg _).2 ⟨j, (sq _).2 h⟩⟩⟩

/-- Both sides occur: with rank two and one column, `A` is not determined (the equal columns of `B` and `C` cancel), with rank one it is. -/
example : ¬ DeterminesA (⟨Matrix.of fun _ _ => 1, fun _ => Matrix.of fun _ _ => 1, Matrix.of fun _ _ => 1⟩ : Factors 1 1 2 (fun _ => 1)) 0 ∧
    DeterminesA (⟨Matrix.of fun _ _ => 1, fun _ => Matrix.of fun _ _ => 1, Matrix.of fun _ _ => 1⟩ : Factors 1 1 1 (fun _ => 1)) 0 := by
  constructor
  · intro h
    have := congrFun (h ![1, -1] fun j k => by simp [Fin.sum_univ_two]) 0
    simp at this
  · intro v h
    funext r
    have := h 0 0
    simp at this
    rw [Subsingleton.elim r 0, this]; rfl

end Verif.Props
