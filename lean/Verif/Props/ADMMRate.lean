import Verif.ADMM.RateModes
import Verif.Props.ADMMConv

/-!
# C119, C120: rates of convergence of the inner iterations
-/

set_option linter.unusedSectionVars false

namespace Verif.Props

open Verif.ADMM Verif.Penalties Verif.Spec Finset Matrix Filter

variable {I K R n m : ℕ} {J : Fin I → ℕ}

/-! ### Distances to a saddle point -/

/-- Weighted squared distance of auxiliary variables `z` and dual variables `u` from a solution `xs` and its scaled multipliers. -/
noncomputable def matDist (ρ : Fin m → ℝ) (xs : Matrix (Fin m) (Fin R) ℝ) (Λ z u : Fin n → Matrix (Fin m) (Fin R) ℝ) : ℝ :=
  ∑ p, ∑ i, ρ i * ∑ r, ((u p i r - Λ p i r / ρ i) ^ 2 + (z p i r - xs i r) ^ 2)

/-- The same for lists of matrices. -/
noncomputable def ragDist (ρ : Fin I → ℝ) (xs : Ragged I R J) (Λ z u : Fin n → Ragged I R J) : ℝ :=
  ∑ p, ∑ i, ρ i * ∑ j, ∑ r, ((u p i j r - Λ p i j r / ρ i) ^ 2 + (z p i j r - xs i j r) ^ 2)

theorem energy_mat {ρ : Fin m → ℝ} (hρ : ∀ i, 0 ≤ ρ i) (xs : Matrix (Fin m) (Fin R) ℝ) (Λ z u : Fin n → Matrix (Fin m) (Fin R) ℝ) :
    energy (matIP ρ hρ) xs (fun p => rowScaled ρ (Λ p)) z u = matDist ρ xs Λ z u := by
  refine sum_congr rfl fun p _ => ?_
  rw [matIP_sq_eq, matIP_sq_eq, ← sum_add_distrib]
  refine sum_congr rfl fun i _ => ?_
  rw [← mul_add, ← sum_add_distrib]
  rfl

theorem energy_rag {ρ : Fin I → ℝ} (hρ : ∀ i, 0 ≤ ρ i) (xs : Ragged I R J) (Λ z u : Fin n → Ragged I R J) :
    energy (ragIP ρ hρ) xs (fun p => blockScaled ρ (Λ p)) z u = ragDist ρ xs Λ z u := by
  refine sum_congr rfl fun p _ => ?_
  rw [ragIP_sq_eq, ragIP_sq_eq, ← sum_add_distrib]
  refine sum_congr rfl fun i _ => ?_
  rw [← mul_add, ← sum_add_distrib]
  congr 1
  refine sum_congr rfl fun j _ => ?_
  rw [← sum_add_distrib]
  rfl

theorem weights_le {constant : Bool} {w ρ : Fin I → ℝ} (h : IsWeights constant w ρ) (i : Fin I) : w i ≤ ρ i := by
  cases constant with
  | false => rw [h.1 rfl]
  | true =>
    obtain ⟨i₀, h1, h2⟩ := h.2 rfl
    rw [h2]
    exact h1 i

theorem sqNorm_rowMat (v : Fin R → ℝ) : sqNorm (rowMat v) = ∑ r, v r ^ 2 := by
  rw [sqNorm, Fin.sum_univ_one]
  rfl

/-! ### C119 -/

/-- C119, mode 0: with any number of convex penalties, after `N + 1` inner iterations the squared gaps between factor and auxiliary variables and the squared changes
of the auxiliary variables sum to at most `1/N` of the squared distance of the initial variables to any saddle point. -/
theorem C119_A (P : Params R) (hsvd : ValidSVD P) (X : Ragged I K J) {l2 : ℝ} (hl : 0 ≤ l2)
    (constant : Bool) (F : Factors I K R J) (pens : Fin n → PenA I R)
    (hn : 0 < n) (hw : ∀ i, 0 < weightA P.scale F i)
    (C : Fin n → Set (Matrix (Fin I) (Fin R) ℝ)) (g : Fin n → Matrix (Fin I) (Fin R) ℝ → ℝ)
    (hp : ∀ p, (pens p).ProxOf (C p) (g p)) (hg : ∀ p, ConvexOn ℝ (C p) (g p))
    (seq : ℕ → MatState I R n)
    (hseq : ∀ k, admmUpdateA (once P) X pens l2 constant ⟨(seq k).x, F.B, F.C⟩ (seq k).aux (seq k).dual = .ok (seq (k + 1)))
    (xs : Matrix (Fin I) (Fin R) ℝ) (Λ : Fin n → Matrix (Fin I) (Fin R) ℝ) (hs : IsSaddlePoint inner (fitA X l2 F) C g xs Λ)
    (ρ : Fin I → ℝ) (hρ : IsWeights constant (weightA P.scale F) ρ) (N : ℕ) :
    N * ∑ p, ∑ i, ρ i * ∑ r, (((seq (N + 1)).x i r - (seq (N + 1)).aux p i r) ^ 2 + ((seq (N + 1)).aux p i r - (seq N).aux p i r) ^ 2)
      ≤ matDist ρ xs Λ (seq 0).aux (seq 0).dual := by
  have hpos := hρ.pos hw
  have h := admm_rate (x := fun k => (seq k).x) (z := fun k => (seq k).aux) (u := fun k => (seq k).dual)
    (fun k => isStepA (F := ⟨(seq k).x, F.B, F.C⟩) hsvd hl hn hw (hseq k) hp hg hρ) (saddleA hs hpos) (quadA_neg F l2) (quadA_nonneg F hl) N
  rw [energy_mat] at h
  refine le_trans (le_of_eq ?_) h
  congr 1
  refine sum_congr rfl fun p _ => ?_
  rw [matIP_sq_eq, matIP_sq_eq, ← sum_add_distrib]
  refine sum_congr rfl fun i _ => ?_
  rw [← mul_add, ← sum_add_distrib]
  rfl

/-- C119, mode 1. -/
theorem C119_B (P : Params R) (hsvd : ValidSVD P) (X : Ragged I K J) {l2 : ℝ} (hl : 0 ≤ l2)
    (constant : Bool) (F : Factors I K R J) (pens : Fin n → PenB I R J)
    (hn : 0 < n) (hw : ∀ i, 0 < weightB P.scale F i)
    (C : Fin n → Set (Ragged I R J)) (g : Fin n → Ragged I R J → ℝ)
    (hp : ∀ p, (pens p).ProxOf (C p) (g p)) (hg : ∀ p, ConvexOn ℝ (C p) (g p))
    (seq : ℕ → RagState I R n J)
    (hseq : ∀ k, admmUpdateB (once P) X pens l2 constant ⟨F.A, (seq k).x, F.C⟩ (seq k).aux (seq k).dual = .ok (seq (k + 1)))
    (xs : Ragged I R J) (Λ : Fin n → Ragged I R J) (hs : IsSaddlePoint ragInner (fitB X l2 F) C g xs Λ)
    (ρ : Fin I → ℝ) (hρ : IsWeights constant (weightB P.scale F) ρ) (N : ℕ) :
    N * ∑ p, ∑ i, ρ i * ∑ j, ∑ r, (((seq (N + 1)).x i j r - ((seq (N + 1)).aux p).toMats i j r) ^ 2
        + (((seq (N + 1)).aux p).toMats i j r - ((seq N).aux p).toMats i j r) ^ 2)
      ≤ ragDist ρ xs Λ (fun p => ((seq 0).aux p).toMats) (seq 0).dual := by
  have hpos := hρ.pos hw
  have h := admm_rate (x := fun k => (seq k).x) (z := fun k p => ((seq k).aux p).toMats) (u := fun k => (seq k).dual)
    (fun k => isStepB (F := ⟨F.A, (seq k).x, F.C⟩) hsvd hl hn hw (hseq k) hp hg hρ) (saddleB hs hpos) (quadB_neg F l2) (quadB_nonneg F hl) N
  rw [energy_rag] at h
  refine le_trans (le_of_eq ?_) h
  congr 1
  refine sum_congr rfl fun p _ => ?_
  rw [ragIP_sq_eq, ragIP_sq_eq, ← sum_add_distrib]
  refine sum_congr rfl fun i _ => ?_
  rw [← mul_add, ← sum_add_distrib]
  congr 1
  refine sum_congr rfl fun j _ => ?_
  rw [← sum_add_distrib]
  rfl

/-- C119, mode 2. -/
theorem C119_C (P : Params R) (hsvd : ValidSVD P) (X : Ragged I K J) {l2 : ℝ} (hl : 0 ≤ l2)
    (F : Factors I K R J) (pens : Fin n → PenC K R)
    (hn : 0 < n) (hw : 0 < weightC P.scale F)
    (C : Fin n → Set (Matrix (Fin K) (Fin R) ℝ)) (g : Fin n → Matrix (Fin K) (Fin R) ℝ → ℝ)
    (hp : ∀ p, (pens p).ProxOf (C p) (g p)) (hg : ∀ p, ConvexOn ℝ (C p) (g p))
    (seq : ℕ → MatState K R n)
    (hseq : ∀ k, admmUpdateC (once P) X pens l2 ⟨F.A, F.B, (seq k).x⟩ (seq k).aux (seq k).dual = seq (k + 1))
    (xs : Matrix (Fin K) (Fin R) ℝ) (Λ : Fin n → Matrix (Fin K) (Fin R) ℝ) (hs : IsSaddlePoint inner (fitC X l2 F) C g xs Λ) (N : ℕ) :
    N * ∑ p, ∑ i, weightC P.scale F *
        ∑ r, (((seq (N + 1)).x i r - (seq (N + 1)).aux p i r) ^ 2 + ((seq (N + 1)).aux p i r - (seq N).aux p i r) ^ 2)
      ≤ matDist (fun _ => weightC P.scale F) xs Λ (seq 0).aux (seq 0).dual := by
  have h := admm_rate (x := fun k => (seq k).x) (z := fun k => (seq k).aux) (u := fun k => (seq k).dual)
    (fun k => isStepC (F := ⟨F.A, F.B, (seq k).x⟩) hsvd hl hn hw (hseq k) hp hg) (saddleC hs fun _ => hw) (quadC_neg F l2) (quadC_nonneg F hl) N
  rw [energy_mat] at h
  refine le_trans (le_of_eq ?_) h
  congr 1
  refine sum_congr rfl fun p _ => ?_
  rw [matIP_sq_eq, matIP_sq_eq, ← sum_add_distrib]
  refine sum_congr rfl fun i _ => ?_
  rw [← mul_add, ← sum_add_distrib]
  rfl

/-! ### C120 -/

theorem scale_pos {s t : ℝ} (ht : 0 ≤ t) (h : 0 < s / 2 * t) : 0 < s := by
  by_contra hs
  have : s / 2 * t ≤ 0 := mul_nonpos_of_nonpos_of_nonneg (by linarith) ht
  linarith

/-- The feasibility penalty bounds the curvature: `2/scale` times the penalty bounds the trace. -/
theorem trace_le {s t w c l2 : ℝ} (hs : 0 < s) (h : s / 2 * t ≤ w) (hc : l2 ≤ c * w) : t + l2 ≤ (2 / s + c) * w := by
  have h1 : t ≤ 2 / s * w := by
    have := mul_le_mul_of_nonneg_left h (show 0 ≤ 2 / s by positivity)
    have e : 2 / s * (s / 2 * t) = t := by field_simp
    linarith
  linarith

/-- C120, mode 0: one convex penalty. Let the fit be strongly convex with modulus `μ` relative to the feasibility penalties `ρ`, and let the ridge coefficient be at most
`c` times them. Then the squared distances of factor, auxiliary and dual variables to the solution and its multiplier decrease geometrically. Apart from `μ` and `c` the
factor only depends on the scale of the feasibility penalties, not on the data, the sizes or the rank. -/
theorem C120_A (P : Params R) (hsvd : ValidSVD P) (X : Ragged I K J) {l2 : ℝ} (hl : 0 ≤ l2)
    (constant : Bool) (F : Factors I K R J) (pens : Fin 1 → PenA I R) (hw : ∀ i, 0 < weightA P.scale F i)
    (C : Fin 1 → Set (Matrix (Fin I) (Fin R) ℝ)) (g : Fin 1 → Matrix (Fin I) (Fin R) ℝ → ℝ)
    (hp : ∀ p, (pens p).ProxOf (C p) (g p)) (hg : ∀ p, ConvexOn ℝ (C p) (g p))
    (seq : ℕ → MatState I R 1)
    (hseq : ∀ k, admmUpdateA (once P) X pens l2 constant ⟨(seq k).x, F.B, F.C⟩ (seq k).aux (seq k).dual = .ok (seq (k + 1)))
    (xs : Matrix (Fin I) (Fin R) ℝ) (Λ : Fin 1 → Matrix (Fin I) (Fin R) ℝ) (hs : IsSaddlePoint inner (fitA X l2 F) C g xs Λ)
    (ρ : Fin I → ℝ) (hρ : IsWeights constant (weightA P.scale F) ρ) {μ c θ : ℝ} (hμ : 0 < μ) (hc : 0 ≤ c) (hlc : ∀ i, l2 ≤ c * ρ i)
    (hcurv : ∀ i (v : Fin R → ℝ), μ * ρ i * ∑ r, v r ^ 2 ≤ ∑ j, ∑ k, (∑ r, v r * F.B i j r * F.C k r) ^ 2 + l2 * ∑ r, v r ^ 2)
    (hθ : θ = 1 - 2 * μ / (1 + 2 * μ + (2 / P.scale + c) * μ)) (hI : 0 < I) (k : ℕ) :
    0 < θ ∧ θ < 1 ∧
    ∑ i, ρ i * ∑ r, ((seq (k + 2)).x i r - xs i r) ^ 2 ≤ θ ^ k * (2 * matDist ρ xs Λ (seq 0).aux (seq 0).dual) ∧
    matDist ρ xs Λ (seq (k + 1)).aux (seq (k + 1)).dual ≤ θ ^ k * (2 * matDist ρ xs Λ (seq 0).aux (seq 0).dual) := by
  have hpos := hρ.pos hw
  have hsc : 0 < P.scale := scale_pos (sum_nonneg fun _ _ => sum_nonneg fun _ _ => sum_nonneg fun _ _ => sq_nonneg _) (hw ⟨0, hI⟩)
  have hL : 0 < 2 / P.scale + c := add_pos_of_pos_of_nonneg (by positivity) hc
  have h := admm_linear (x := fun k => (seq k).x) (z := fun k => (seq k).aux) (u := fun k => (seq k).dual)
    (fun k => isStepA (F := ⟨(seq k).x, F.B, F.C⟩) hsvd hl one_pos hw (hseq k) hp hg hρ) (saddleA hs hpos) (quad_linear (quadAt_A X F l2)) hμ hL
    (quadA_neg F l2) (quadA_nonneg F hl) (fun V => ?_) (fun V => ?_) k
  · rw [energy_mat, energy_mat, matIP_sq_eq] at h
    have hr := rate_bounds hμ hL
    rw [rate, ← hθ] at hr h
    exact ⟨hr.1, hr.2, h.1, h.2⟩
  · rw [matIP_sq_eq, quadA, mul_sum, mul_sum]
    refine sum_le_sum fun i _ => ?_
    have := curvature_ge (designA F i) (c := μ * ρ i) (l2 := l2) (fun v => ?_) (rowMat (V i))
    · rw [sqNorm_rowMat, mul_assoc] at this
      rw [sqNorm_rowMat]
      exact this
    · rw [Fintype.sum_prod_type]
      refine (hcurv i v).trans (le_of_eq ?_)
      congr 1
      refine sum_congr rfl fun j _ => sum_congr rfl fun k _ => ?_
      congr 1
      exact sum_congr rfl fun r _ => by simp only [designA, Matrix.of_apply]; ring
  · rw [matIP_sq_eq, quadA, mul_sum, mul_sum]
    refine sum_le_sum fun i _ => ?_
    have := curvature_le (designA F i) (d := (2 / P.scale + c) * ρ i) (l2 := l2) ?_ (rowMat (V i))
    · rw [sqNorm_rowMat, mul_assoc] at this
      rw [sqNorm_rowMat]
      exact this
    · refine trace_le hsc (le_trans (le_of_eq ?_) (weights_le hρ i)) (hlc i)
      simp only [Fintype.sum_prod_type]
      rfl

/-- C120, mode 1. -/
theorem C120_B (P : Params R) (hsvd : ValidSVD P) (X : Ragged I K J) {l2 : ℝ} (hl : 0 ≤ l2)
    (constant : Bool) (F : Factors I K R J) (pens : Fin 1 → PenB I R J) (hw : ∀ i, 0 < weightB P.scale F i)
    (C : Fin 1 → Set (Ragged I R J)) (g : Fin 1 → Ragged I R J → ℝ)
    (hp : ∀ p, (pens p).ProxOf (C p) (g p)) (hg : ∀ p, ConvexOn ℝ (C p) (g p))
    (seq : ℕ → RagState I R 1 J)
    (hseq : ∀ k, admmUpdateB (once P) X pens l2 constant ⟨F.A, (seq k).x, F.C⟩ (seq k).aux (seq k).dual = .ok (seq (k + 1)))
    (xs : Ragged I R J) (Λ : Fin 1 → Ragged I R J) (hs : IsSaddlePoint ragInner (fitB X l2 F) C g xs Λ)
    (ρ : Fin I → ℝ) (hρ : IsWeights constant (weightB P.scale F) ρ) {μ c θ : ℝ} (hμ : 0 < μ) (hc : 0 ≤ c) (hlc : ∀ i, l2 ≤ c * ρ i)
    (hcurv : ∀ i (v : Fin R → ℝ), μ * ρ i * ∑ r, v r ^ 2 ≤ ∑ k, (∑ r, F.A i r * v r * F.C k r) ^ 2 + l2 * ∑ r, v r ^ 2)
    (hθ : θ = 1 - 2 * μ / (1 + 2 * μ + (2 / P.scale + c) * μ)) (hI : 0 < I) (k : ℕ) :
    0 < θ ∧ θ < 1 ∧
    ∑ i, ρ i * ∑ j, ∑ r, ((seq (k + 2)).x i j r - xs i j r) ^ 2
      ≤ θ ^ k * (2 * ragDist ρ xs Λ (fun p => ((seq 0).aux p).toMats) (seq 0).dual) ∧
    ragDist ρ xs Λ (fun p => ((seq (k + 1)).aux p).toMats) (seq (k + 1)).dual
      ≤ θ ^ k * (2 * ragDist ρ xs Λ (fun p => ((seq 0).aux p).toMats) (seq 0).dual) := by
  have hpos := hρ.pos hw
  have hsc : 0 < P.scale := scale_pos (sum_nonneg fun _ _ => sum_nonneg fun _ _ => sq_nonneg _) (hw ⟨0, hI⟩)
  have hL : 0 < 2 / P.scale + c := add_pos_of_pos_of_nonneg (by positivity) hc
  have h := admm_linear (x := fun k => (seq k).x) (z := fun k p => ((seq k).aux p).toMats) (u := fun k => (seq k).dual)
    (fun k => isStepB (F := ⟨F.A, (seq k).x, F.C⟩) hsvd hl one_pos hw (hseq k) hp hg hρ) (saddleB hs hpos) (quad_linear (quadAt_B X F l2)) hμ hL
    (quadB_neg F l2) (quadB_nonneg F hl) (fun V => ?_) (fun V => ?_) k
  · rw [energy_rag, energy_rag, ragIP_sq_eq] at h
    have hr := rate_bounds hμ hL
    rw [rate, ← hθ] at hr h
    exact ⟨hr.1, hr.2, h.1, h.2⟩
  · rw [ragIP_sq_eq, quadB, mul_sum, mul_sum]
    refine sum_le_sum fun i _ => ?_
    have := curvature_ge (designB F i) (c := μ * ρ i) (l2 := l2) (fun v => ?_) (V i)
    · rw [mul_assoc] at this
      exact this
    · refine (hcurv i v).trans (le_of_eq ?_)
      congr 1
      refine sum_congr rfl fun k _ => ?_
      congr 1
      exact sum_congr rfl fun r _ => by simp only [designB, Matrix.of_apply]; ring
  · rw [ragIP_sq_eq, quadB, mul_sum, mul_sum]
    refine sum_le_sum fun i _ => ?_
    have := curvature_le (designB F i) (d := (2 / P.scale + c) * ρ i) (l2 := l2) ?_ (V i)
    · rw [mul_assoc] at this
      exact this
    · exact trace_le hsc (weights_le hρ i) (hlc i)

/-- C120, mode 2. -/
theorem C120_C (P : Params R) (hsvd : ValidSVD P) (X : Ragged I K J) {l2 : ℝ} (hl : 0 ≤ l2)
    (F : Factors I K R J) (pens : Fin 1 → PenC K R) (hw : 0 < weightC P.scale F)
    (C : Fin 1 → Set (Matrix (Fin K) (Fin R) ℝ)) (g : Fin 1 → Matrix (Fin K) (Fin R) ℝ → ℝ)
    (hp : ∀ p, (pens p).ProxOf (C p) (g p)) (hg : ∀ p, ConvexOn ℝ (C p) (g p))
    (seq : ℕ → MatState K R 1)
    (hseq : ∀ k, admmUpdateC (once P) X pens l2 ⟨F.A, F.B, (seq k).x⟩ (seq k).aux (seq k).dual = seq (k + 1))
    (xs : Matrix (Fin K) (Fin R) ℝ) (Λ : Fin 1 → Matrix (Fin K) (Fin R) ℝ) (hs : IsSaddlePoint inner (fitC X l2 F) C g xs Λ)
    {ρ μ c θ : ℝ} (hρ : ρ = weightC P.scale F) (hμ : 0 < μ) (hc : 0 ≤ c) (hlc : l2 ≤ c * ρ)
    (hcurv : ∀ v : Fin R → ℝ, μ * ρ * ∑ r, v r ^ 2 ≤ ∑ i, ∑ j, (∑ r, F.A i r * F.B i j r * v r) ^ 2 + l2 * ∑ r, v r ^ 2)
    (hθ : θ = 1 - 2 * μ / (1 + 2 * μ + (2 / P.scale + c) * μ)) (k : ℕ) :
    0 < θ ∧ θ < 1 ∧
    ∑ i, ρ * ∑ r, ((seq (k + 2)).x i r - xs i r) ^ 2 ≤ θ ^ k * (2 * matDist (fun _ => ρ) xs Λ (seq 0).aux (seq 0).dual) ∧
    matDist (fun _ => ρ) xs Λ (seq (k + 1)).aux (seq (k + 1)).dual ≤ θ ^ k * (2 * matDist (fun _ => ρ) xs Λ (seq 0).aux (seq 0).dual) := by
  subst hρ
  have hsc : 0 < P.scale := scale_pos (sum_nonneg fun _ _ => sum_nonneg fun _ _ => sum_nonneg fun _ _ => sq_nonneg _) hw
  have hL : 0 < 2 / P.scale + c := add_pos_of_pos_of_nonneg (by positivity) hc
  have h := admm_linear (x := fun k => (seq k).x) (z := fun k => (seq k).aux) (u := fun k => (seq k).dual)
    (fun k => isStepC (F := ⟨F.A, F.B, (seq k).x⟩) hsvd hl one_pos hw (hseq k) hp hg) (saddleC hs fun _ => hw) (quad_linear (quadAt_C X F l2)) hμ hL
    (quadC_neg F l2) (quadC_nonneg F hl) (fun V => ?_) (fun V => ?_) k
  · rw [energy_mat, energy_mat, matIP_sq_eq] at h
    have hr := rate_bounds hμ hL
    rw [rate, ← hθ] at hr h
    exact ⟨hr.1, hr.2, h.1, h.2⟩
  · have := curvature_ge (designC F) (c := μ * weightC P.scale F) (l2 := l2) (fun v => ?_) V
    · rw [mul_assoc] at this
      rw [matIP_sq_eq, quadC, ← mul_sum]
      exact this
    · rw [Fintype.sum_sigma]
      refine (hcurv v).trans (le_of_eq ?_)
      congr 1
      refine sum_congr rfl fun i _ => sum_congr rfl fun j _ => ?_
      congr 1
      exact sum_congr rfl fun r _ => by simp only [designC, Matrix.of_apply]; ring
  · have := curvature_le (designC F) (d := (2 / P.scale + c) * weightC P.scale F) (l2 := l2) ?_ V
    · rw [mul_assoc] at this
      rw [matIP_sq_eq, quadC, ← mul_sum]
      exact this
    · refine trace_le hsc (le_of_eq ?_) hlc
      simp only [Fintype.sum_sigma]
      rfl

/-! ### Uniquely solvable problems -/

theorem exists_lower {ι : Type} [Fintype ι] {P : ι → ℝ → Prop} (h : ∀ i, ∃ c, 0 < c ∧ P i c) (hmono : ∀ i a b, a ≤ b → P i b → P i a) :
    ∃ c, 0 < c ∧ ∀ i, P i c := by
  choose f hf hP using h
  by_cases hne : (univ : Finset ι).Nonempty
  · exact ⟨univ.inf' hne f, (lt_inf'_iff _).2 fun i _ => hf i, fun i => hmono i _ _ (inf'_le f (mem_univ i)) (hP i)⟩
  · exact ⟨1, one_pos, fun i => absurd ⟨i, mem_univ i⟩ hne⟩

/-- Geometric decay of a weighted sum gives geometric decay of the sum. -/
theorem decay_of_weighted {ρ : Fin m → ℝ} (hρ : ∀ i, 0 < ρ i) {e : ℕ → Fin m → ℝ} (he : ∀ k i, 0 ≤ e k i) {θ b : ℝ} (h : ∀ k, ∑ i, ρ i * e k i ≤ θ ^ k * b) :
    ∃ c, ∀ k, ∑ i, e k i ≤ θ ^ k * c := by
  obtain ⟨d, hd, hdρ⟩ := exists_lower (P := fun i c => c ≤ ρ i) (fun i => ⟨ρ i, hρ i, le_rfl⟩) fun _ _ _ h1 h2 => h1.trans h2
  refine ⟨b / d, fun k => ?_⟩
  have h1 : d * ∑ i, e k i ≤ ∑ i, ρ i * e k i := by
    rw [mul_sum]
    exact sum_le_sum fun i _ => mul_le_mul_of_nonneg_right (hdρ i) (he k i)
  rw [← mul_div_assoc, le_div_iff₀ hd]
  linarith [h k]

/-- C120, mode 0: with one convex penalty and a uniquely solvable fit, the factor converges geometrically to the solution. -/
theorem C120_solvable_A (P : Params R) (hsvd : ValidSVD P) (X : Ragged I K J) {l2 : ℝ} (hl : 0 ≤ l2)
    (constant : Bool) (F : Factors I K R J) (pens : Fin 1 → PenA I R) (hw : ∀ i, 0 < weightA P.scale F i)
    (C : Fin 1 → Set (Matrix (Fin I) (Fin R) ℝ)) (g : Fin 1 → Matrix (Fin I) (Fin R) ℝ → ℝ)
    (hp : ∀ p, (pens p).ProxOf (C p) (g p)) (hg : ∀ p, ConvexOn ℝ (C p) (g p))
    (seq : ℕ → MatState I R 1)
    (hseq : ∀ k, admmUpdateA (once P) X pens l2 constant ⟨(seq k).x, F.B, F.C⟩ (seq k).aux (seq k).dual = .ok (seq (k + 1)))
    (xs : Matrix (Fin I) (Fin R) ℝ) (Λ : Fin 1 → Matrix (Fin I) (Fin R) ℝ) (hs : IsSaddlePoint inner (fitA X l2 F) C g xs Λ)
    (hsol : SolvableA F l2) (hI : 0 < I) :
    ∃ θ c, 0 < θ ∧ θ < 1 ∧ ∀ k, sqNorm ((seq (k + 2)).x - xs) ≤ θ ^ k * c := by
  obtain ⟨o, ρ, hρ, -⟩ := admmUpdateA_ok (hseq 0)
  have hρ : IsWeights constant (weightA P.scale F) ρ := hρ
  have hpos := hρ.pos hw
  obtain ⟨μ, hμ, hcurv⟩ := exists_lower
    (P := fun i μ => ∀ v : Fin R → ℝ, μ * ρ i * ∑ r, v r ^ 2 ≤ ∑ j, ∑ k, (∑ r, v r * F.B i j r * F.C k r) ^ 2 + l2 * ∑ r, v r ^ 2)
    (fun i => by
      obtain ⟨c, hc, h⟩ := exists_curvature (designA F i) (solvableA_design hsol i)
      refine ⟨c / ρ i, div_pos hc (hpos i), fun v => ?_⟩
      rw [div_mul_cancel₀ _ (hpos i).ne']
      refine (h v).trans (le_of_eq ?_)
      rw [Fintype.sum_prod_type]
      congr 1
      refine sum_congr rfl fun j _ => sum_congr rfl fun k _ => ?_
      congr 1
      exact sum_congr rfl fun r _ => by simp only [designA, Matrix.of_apply]; ring)
    (fun i a b hab h v => le_trans (mul_le_mul_of_nonneg_right (mul_le_mul_of_nonneg_right hab (hpos i).le) (sum_nonneg fun _ _ => sq_nonneg _)) (h v))
  have hlc : ∀ i, l2 ≤ (∑ i, l2 / ρ i) * ρ i := fun i => by
    have := single_le_sum (f := fun i => l2 / ρ i) (fun i _ => div_nonneg hl (hpos i).le) (mem_univ i)
    rwa [div_le_iff₀ (hpos i)] at this
  have h := C120_A P hsvd X hl constant F pens hw C g hp hg seq hseq xs Λ hs ρ hρ hμ (sum_nonneg fun i _ => div_nonneg hl (hpos i).le) hlc hcurv rfl hI
  obtain ⟨c, hc⟩ := decay_of_weighted hpos (e := fun k i => ∑ r, ((seq (k + 2)).x i r - xs i r) ^ 2) (fun _ _ => sum_nonneg fun _ _ => sq_nonneg _) fun k => (h k).2.2.1
  exact ⟨_, c, (h 0).1, (h 0).2.1, hc⟩

/-- C120, mode 1. -/
theorem C120_solvable_B (P : Params R) (hsvd : ValidSVD P) (X : Ragged I K J) {l2 : ℝ} (hl : 0 ≤ l2)
    (constant : Bool) (F : Factors I K R J) (pens : Fin 1 → PenB I R J) (hw : ∀ i, 0 < weightB P.scale F i)
    (C : Fin 1 → Set (Ragged I R J)) (g : Fin 1 → Ragged I R J → ℝ)
    (hp : ∀ p, (pens p).ProxOf (C p) (g p)) (hg : ∀ p, ConvexOn ℝ (C p) (g p))
    (seq : ℕ → RagState I R 1 J)
    (hseq : ∀ k, admmUpdateB (once P) X pens l2 constant ⟨F.A, (seq k).x, F.C⟩ (seq k).aux (seq k).dual = .ok (seq (k + 1)))
    (xs : Ragged I R J) (Λ : Fin 1 → Ragged I R J) (hs : IsSaddlePoint ragInner (fitB X l2 F) C g xs Λ)
    (hsol : SolvableB F l2) (hI : 0 < I) :
    ∃ θ c, 0 < θ ∧ θ < 1 ∧ ∀ k, raggedSq ((seq (k + 2)).x - xs) ≤ θ ^ k * c := by
  obtain ⟨ρ, hρ, -⟩ := admmUpdateB_ok (hseq 0)
  have hρ : IsWeights constant (weightB P.scale F) ρ := hρ
  have hpos := hρ.pos hw
  obtain ⟨μ, hμ, hcurv⟩ := exists_lower
    (P := fun i μ => ∀ v : Fin R → ℝ, μ * ρ i * ∑ r, v r ^ 2 ≤ ∑ k, (∑ r, F.A i r * v r * F.C k r) ^ 2 + l2 * ∑ r, v r ^ 2)
    (fun i => by
      obtain ⟨c, hc, h⟩ := exists_curvature (designB F i) (solvableB_design hsol i)
      refine ⟨c / ρ i, div_pos hc (hpos i), fun v => ?_⟩
      rw [div_mul_cancel₀ _ (hpos i).ne']
      refine (h v).trans (le_of_eq ?_)
      congr 1
      refine sum_congr rfl fun k _ => ?_
      congr 1
      exact sum_congr rfl fun r _ => by simp only [designB, Matrix.of_apply]; ring)
    (fun i a b hab h v => le_trans (mul_le_mul_of_nonneg_right (mul_le_mul_of_nonneg_right hab (hpos i).le) (sum_nonneg fun _ _ => sq_nonneg _)) (h v))
  have hlc : ∀ i, l2 ≤ (∑ i, l2 / ρ i) * ρ i := fun i => by
    have := single_le_sum (f := fun i => l2 / ρ i) (fun i _ => div_nonneg hl (hpos i).le) (mem_univ i)
    rwa [div_le_iff₀ (hpos i)] at this
  have h := C120_B P hsvd X hl constant F pens hw C g hp hg seq hseq xs Λ hs ρ hρ hμ (sum_nonneg fun i _ => div_nonneg hl (hpos i).le) hlc hcurv rfl hI
  obtain ⟨c, hc⟩ := decay_of_weighted hpos (e := fun k i => ∑ j, ∑ r, ((seq (k + 2)).x i j r - xs i j r) ^ 2)
    (fun _ _ => sum_nonneg fun _ _ => sum_nonneg fun _ _ => sq_nonneg _) fun k => (h k).2.2.1
  exact ⟨_, c, (h 0).1, (h 0).2.1, hc⟩

/-- C120, mode 2. -/
theorem C120_solvable_C (P : Params R) (hsvd : ValidSVD P) (X : Ragged I K J) {l2 : ℝ} (hl : 0 ≤ l2)
    (F : Factors I K R J) (pens : Fin 1 → PenC K R) (hw : 0 < weightC P.scale F)
    (C : Fin 1 → Set (Matrix (Fin K) (Fin R) ℝ)) (g : Fin 1 → Matrix (Fin K) (Fin R) ℝ → ℝ)
    (hp : ∀ p, (pens p).ProxOf (C p) (g p)) (hg : ∀ p, ConvexOn ℝ (C p) (g p))
    (seq : ℕ → MatState K R 1)
    (hseq : ∀ k, admmUpdateC (once P) X pens l2 ⟨F.A, F.B, (seq k).x⟩ (seq k).aux (seq k).dual = seq (k + 1))
    (xs : Matrix (Fin K) (Fin R) ℝ) (Λ : Fin 1 → Matrix (Fin K) (Fin R) ℝ) (hs : IsSaddlePoint inner (fitC X l2 F) C g xs Λ)
    (hsol : SolvableC F l2) :
    ∃ θ c, 0 < θ ∧ θ < 1 ∧ ∀ k, sqNorm ((seq (k + 2)).x - xs) ≤ θ ^ k * c := by
  obtain ⟨c, hc, hcv⟩ := exists_curvature (designC F) (solvableC_design hsol)
  have hcurv : ∀ v : Fin R → ℝ, c / weightC P.scale F * weightC P.scale F * ∑ r, v r ^ 2
      ≤ ∑ i, ∑ j, (∑ r, F.A i r * F.B i j r * v r) ^ 2 + l2 * ∑ r, v r ^ 2 := by
    intro v
    rw [div_mul_cancel₀ _ hw.ne']
    refine (hcv v).trans (le_of_eq ?_)
    rw [Fintype.sum_sigma]
    congr 1
    refine sum_congr rfl fun i _ => sum_congr rfl fun j _ => ?_
    congr 1
    exact sum_congr rfl fun r _ => by simp only [designC, Matrix.of_apply]; ring
  have h := C120_C P hsvd X hl F pens hw C g hp hg seq hseq xs Λ hs rfl (div_pos hc hw) (div_nonneg hl hw.le) (by rw [div_mul_cancel₀ _ hw.ne']) hcurv rfl
  obtain ⟨c, hc⟩ := decay_of_weighted (fun _ => hw) (e := fun k i => ∑ r, ((seq (k + 2)).x i r - xs i r) ^ 2) (fun _ _ => sum_nonneg fun _ _ => sq_nonneg _) fun k => (h k).2.2.1
  exact ⟨_, c, (h 0).1, (h 0).2.1, hc⟩

end Verif.Props
