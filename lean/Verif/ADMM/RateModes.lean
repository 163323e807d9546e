import Verif.ADMM.Rate
import Verif.ADMM.LimitModes
import Mathlib.Algebra.Order.BigOperators.Ring.Finset
import Mathlib.Topology.MetricSpace.ProperSpace.Lemmas
import Mathlib.Topology.Order.Compact

/-!
# Helper lemmas: curvature and saddle points of the three subproblems
-/

namespace Verif.ADMM

open Finset Filter Matrix Verif.Spec Verif.Penalties

variable {I K R n m : ℕ} {J : Fin I → ℕ}

/-! ### Curvature -/

theorem sqNorm_mul_transpose {κ : Type} [Fintype κ] (M : Matrix κ (Fin R) ℝ) (V : Matrix (Fin m) (Fin R) ℝ) :
    sqNorm (V * M.transpose) = ∑ i, ∑ a, (∑ r, M a r * V i r) ^ 2 := by
  refine sum_congr rfl fun i _ => sum_congr rfl fun a _ => ?_
  rw [mul_apply]
  congr 1
  exact sum_congr rfl fun r _ => mul_comm _ _

theorem curvature_ge {κ : Type} [Fintype κ] (M : Matrix κ (Fin R) ℝ) {c l2 : ℝ}
    (h : ∀ v : Fin R → ℝ, c * ∑ r, v r ^ 2 ≤ ∑ a, (∑ r, M a r * v r) ^ 2 + l2 * ∑ r, v r ^ 2) (V : Matrix (Fin m) (Fin R) ℝ) :
    c * sqNorm V ≤ 2 * (1 / 2 * sqNorm (V * M.transpose) + l2 / 2 * sqNorm V) := by
  have := sum_le_sum fun i (_ : i ∈ univ) => h (V i)
  rw [← mul_sum, sum_add_distrib, ← mul_sum, ← sqNorm_mul_transpose] at this
  change c * sqNorm V ≤ _ + l2 * sqNorm V at this
  linarith

theorem curvature_le {κ : Type} [Fintype κ] (M : Matrix κ (Fin R) ℝ) {d l2 : ℝ} (hd : ∑ r, ∑ a, M a r ^ 2 + l2 ≤ d)
    (V : Matrix (Fin m) (Fin R) ℝ) : 2 * (1 / 2 * sqNorm (V * M.transpose) + l2 / 2 * sqNorm V) ≤ d * sqNorm V := by
  have h : sqNorm (V * M.transpose) ≤ (∑ r, ∑ a, M a r ^ 2) * sqNorm V := by
    rw [sqNorm_mul_transpose, sqNorm, mul_sum]
    refine sum_le_sum fun i _ => ?_
    rw [sum_comm, sum_mul]
    exact sum_le_sum fun a _ => sum_mul_sq_le_sq_mul_sq univ (fun r => M a r) (V i)
  have h2 := mul_le_mul_of_nonneg_right hd (sqNorm_nonneg V)
  linarith

/-- A uniquely solvable least-squares problem is strongly convex. -/
theorem exists_curvature {κ : Type} [Fintype κ] (M : Matrix κ (Fin R) ℝ) {l2 : ℝ}
    (h : ∀ v : Fin R → ℝ, v ≠ 0 → 0 < ∑ a, (∑ r, M a r * v r) ^ 2 + l2 * ∑ r, v r ^ 2) :
    ∃ c, 0 < c ∧ ∀ v : Fin R → ℝ, c * ∑ r, v r ^ 2 ≤ ∑ a, (∑ r, M a r * v r) ^ 2 + l2 * ∑ r, v r ^ 2 := by
  set F : (Fin R → ℝ) → ℝ := fun v => ∑ a, (∑ r, M a r * v r) ^ 2 + l2 * ∑ r, v r ^ 2 with hF
  have hcont : Continuous F := by fun_prop
  set S : Set (Fin R → ℝ) := {v | ∑ r, v r ^ 2 = 1} with hS
  have hSc : IsCompact S := by
    refine Metric.isCompact_of_isClosed_isBounded (isClosed_eq (by fun_prop) continuous_const) ?_
    refine (Metric.isBounded_closedBall (x := (0 : Fin R → ℝ)) (r := 1)).subset fun v hv => ?_
    rw [Metric.mem_closedBall, dist_pi_le_iff zero_le_one]
    intro r
    rw [Real.dist_eq, Pi.zero_apply, sub_zero]
    have h1 : v r ^ 2 ≤ ∑ r, v r ^ 2 := single_le_sum (f := fun r => v r ^ 2) (fun r _ => sq_nonneg _) (mem_univ r)
    have h2 : ∑ r, v r ^ 2 = 1 := hv
    exact (sq_le_one_iff_abs_le_one _).1 (h1.trans h2.le)
  have hhom : ∀ (t : ℝ) v, F (t • v) = t ^ 2 * F v := by
    intro t v
    simp only [hF, Pi.smul_apply, smul_eq_mul, mul_add, mul_sum, mul_pow]
    congr 1
    · refine sum_congr rfl fun a _ => ?_
      rw [← mul_pow, mul_sum]
      congr 1
      exact sum_congr rfl fun r _ => by ring
    · exact sum_congr rfl fun r _ => by ring
  have hpos : ∀ v : Fin R → ℝ, v ≠ 0 → 0 < ∑ r, v r ^ 2 := by
    intro v hv
    obtain ⟨r, hr⟩ := Function.ne_iff.1 hv
    exact lt_of_lt_of_le (by have : v r ≠ 0 := hr; positivity) (single_le_sum (f := fun r => v r ^ 2) (fun r _ => sq_nonneg _) (mem_univ r))
  have hunit : ∀ v : Fin R → ℝ, v ≠ 0 → (√(∑ r, v r ^ 2))⁻¹ • v ∈ S := by
    intro v hv
    have h1 := hpos v hv
    show ∑ r, ((√(∑ r, v r ^ 2))⁻¹ * v r) ^ 2 = 1
    simp only [mul_pow, ← mul_sum, inv_pow, Real.sq_sqrt h1.le]
    exact inv_mul_cancel₀ h1.ne'
  rcases S.eq_empty_or_nonempty with hE | hne
  · refine ⟨1, one_pos, fun v => ?_⟩
    by_cases hv : v = 0
    · subst hv
      simp
    · exact absurd (hunit v hv) (by rw [hE]; exact id)
  · obtain ⟨v0, hv0, hmin⟩ := hSc.exists_isMinOn hne hcont.continuousOn
    have hv0' : v0 ≠ 0 := by
      rintro rfl
      have : ∑ r : Fin R, (0 : Fin R → ℝ) r ^ 2 = 1 := hv0
      simp at this
    refine ⟨F v0, h v0 hv0', fun v => ?_⟩
    by_cases hv : v = 0
    · subst hv
      simp
    · have h1 := hpos v hv
      have h2 : F v0 ≤ F ((√(∑ r, v r ^ 2))⁻¹ • v) := hmin (hunit v hv)
      rw [hhom, inv_pow, Real.sq_sqrt h1.le] at h2
      calc F v0 * ∑ r, v r ^ 2 ≤ (∑ r, v r ^ 2)⁻¹ * F v * ∑ r, v r ^ 2 := mul_le_mul_of_nonneg_right h2 h1.le
        _ = F v := by field_simp

/-! ### Saddle points in the weighted space -/

theorem inner_sum_left' (f : Fin n → Matrix (Fin m) (Fin K) ℝ) (Y : Matrix (Fin m) (Fin K) ℝ) : Spec.inner (∑ p, f p) Y = ∑ p, Spec.inner (f p) Y :=
  map_sum (AddMonoidHom.mk' (fun M : Matrix (Fin m) (Fin K) ℝ => Spec.inner M Y) fun a b => inner_add_left a b _) f univ

/-- Multipliers divided by the row weights. -/
noncomputable def rowScaled (ρ : Fin m → ℝ) (L : Matrix (Fin m) (Fin R) ℝ) : Matrix (Fin m) (Fin R) ℝ := Matrix.of fun i r => L i r / ρ i

/-- The same for lists of matrices. -/
noncomputable def blockScaled (ρ : Fin I → ℝ) (L : Ragged I R J) : Ragged I R J := fun i => Matrix.of fun j r => L i j r / ρ i

theorem matIP_rowScaled {ρ : Fin m → ℝ} (hρ : ∀ i, 0 < ρ i) (L V : Matrix (Fin m) (Fin R) ℝ) :
    (matIP ρ fun i => (hρ i).le).ip (rowScaled ρ L) V = Spec.inner L V := by
  simp only [matIP, rowScaled, Spec.inner, Matrix.of_apply, mul_sum]
  refine sum_congr rfl fun i _ => sum_congr rfl fun r _ => ?_
  rw [← mul_assoc, mul_div_cancel₀ _ (hρ i).ne']

theorem ragIP_blockScaled {ρ : Fin I → ℝ} (hρ : ∀ i, 0 < ρ i) (L V : Ragged I R J) :
    (ragIP ρ fun i => (hρ i).le).ip (blockScaled ρ L) V = ragInner L V := by
  simp only [ragIP, blockScaled, Spec.inner, ragInner, Matrix.of_apply, mul_sum]
  refine sum_congr rfl fun i _ => sum_congr rfl fun j _ => sum_congr rfl fun r _ => ?_
  rw [← mul_assoc, mul_div_cancel₀ _ (hρ i).ne']

variable {X : Ragged I K J} {F : Factors I K R J} {l2 : ℝ}

theorem saddleA {C : Fin n → Set (Matrix (Fin I) (Fin R) ℝ)} {g : Fin n → Matrix (Fin I) (Fin R) ℝ → ℝ} {xs : Matrix (Fin I) (Fin R) ℝ}
    {Λ : Fin n → Matrix (Fin I) (Fin R) ℝ} (hs : IsSaddlePoint Spec.inner (fitA X l2 F) C g xs Λ) {ρ : Fin I → ℝ} (hρ : ∀ i, 0 < ρ i) :
    IsSaddle (matIP ρ fun i => (hρ i).le) (fitA X l2 F) (quadA F l2) C g xs fun p => rowScaled ρ (Λ p) := by
  refine ⟨hs.mem, fun Y => ?_, fun p Y hY => ?_⟩
  · have := kktA X F l2 xs (∑ p, Λ p) (fun Y => by
      have := hs.fopt Y
      rw [inner_sum_left']
      simp only [fitA] at this
      linarith) Y
    rw [inner_sum_left'] at this
    simp only [matIP_rowScaled hρ]
    exact this
  · have := hs.gopt p Y hY
    rw [matIP_rowScaled hρ]
    linarith

theorem saddleC {C : Fin n → Set (Matrix (Fin K) (Fin R) ℝ)} {g : Fin n → Matrix (Fin K) (Fin R) ℝ → ℝ} {xs : Matrix (Fin K) (Fin R) ℝ}
    {Λ : Fin n → Matrix (Fin K) (Fin R) ℝ} (hs : IsSaddlePoint Spec.inner (fitC X l2 F) C g xs Λ) {ρ : Fin K → ℝ} (hρ : ∀ i, 0 < ρ i) :
    IsSaddle (matIP ρ fun i => (hρ i).le) (fitC X l2 F) (quadC F l2) C g xs fun p => rowScaled ρ (Λ p) := by
  refine ⟨hs.mem, fun Y => ?_, fun p Y hY => ?_⟩
  · have := kktC X F l2 xs (∑ p, Λ p) (fun Y => by
      have := hs.fopt Y
      rw [inner_sum_left']
      simp only [fitC] at this
      linarith) Y
    rw [inner_sum_left'] at this
    simp only [matIP_rowScaled hρ]
    exact this
  · have := hs.gopt p Y hY
    rw [matIP_rowScaled hρ]
    linarith

theorem saddleB {C : Fin n → Set (Ragged I R J)} {g : Fin n → Ragged I R J → ℝ} {xs : Ragged I R J} {Λ : Fin n → Ragged I R J}
    (hs : IsSaddlePoint ragInner (fitB X l2 F) C g xs Λ) {ρ : Fin I → ℝ} (hρ : ∀ i, 0 < ρ i) :
    IsSaddle (ragIP ρ fun i => (hρ i).le) (fitB X l2 F) (quadB F l2) C g xs fun p => blockScaled ρ (Λ p) := by
  have hsumΛ : ∀ V : Ragged I R J, ∑ i, Spec.inner ((∑ p, Λ p) i) (V i) = ∑ p, ragInner (Λ p) V := by
    intro V
    simp only [ragInner]
    rw [sum_comm]
    refine sum_congr rfl fun i _ => ?_
    rw [Finset.sum_apply, inner_sum_left']
  refine ⟨hs.mem, fun Y => ?_, fun p Y hY => ?_⟩
  · have := kktB X F l2 xs (∑ p, Λ p) (fun Y => by
      have h1 := hs.fopt Y
      have h2 := hsumΛ (Y - xs)
      simp only [Pi.sub_apply] at h2
      rw [h2]
      simp only [fitB] at h1
      linarith) Y
    have h2 := hsumΛ (Y - xs)
    simp only [Pi.sub_apply] at h2
    rw [h2] at this
    simp only [ragIP_blockScaled hρ]
    exact this
  · have := hs.gopt p Y hY
    rw [ragIP_blockScaled hρ]
    linarith

/-! ### Norms in coordinates -/

theorem matIP_sq_eq {ρ : Fin m → ℝ} (hρ : ∀ i, 0 ≤ ρ i) (V : Matrix (Fin m) (Fin R) ℝ) : (matIP ρ hρ).sq V = ∑ i, ρ i * ∑ r, V i r ^ 2 := by
  simp only [IP.sq, matIP, ← sq]

theorem ragIP_sq_eq {ρ : Fin I → ℝ} (hρ : ∀ i, 0 ≤ ρ i) (V : Ragged I R J) : (ragIP ρ hρ).sq V = ∑ i, ρ i * ∑ j, ∑ r, V i j r ^ 2 := by
  simp only [IP.sq, ragIP, Spec.inner, ← sq]

/-- Quadratic functions have a linear first-order part. -/
theorem quad_linear {V ι : Type} [AddCommGroup V] [Module ℝ V] [Fintype ι] {f q : V → ℝ} {c : ι → V →ₗ[ℝ] ℝ} {a : V → ι → ℝ}
    (h : ∀ y, QuadAt f q c y (a y)) (y : V) : ∃ D : V → ℝ, (∀ v, D (-v) = -D v) ∧ ∀ v, f v = f y + D (v - y) + q (v - y) :=
  ⟨fun v => ∑ i, a y i * c i v, fun v => by simp only [map_neg, mul_neg, sum_neg_distrib], fun v => h y v⟩

end Verif.ADMM
