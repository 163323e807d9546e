import Mathlib.Analysis.Matrix.Spectrum
import Mathlib.Analysis.InnerProductSpace.PiL2
import Mathlib.Data.Fin.Tuple.Sort
import Verif.Spec.Objective

/-!
# The best approximation of matrices with common row space

Eigenvalues of the sum of cross products of all data matrices, which are the squared singular values of the stacked matrix.
-/

namespace Verif.Spec

open Finset Matrix

variable {I K R d m n : ℕ} {J : Fin I → ℕ}

/-- The cross products of the columns of the stacked matrix. -/
def gram (X : Ragged I K J) : Matrix (Fin K) (Fin K) ℝ := ∑ i, (X i)ᵀ * X i

/-- Orthonormal eigenvectors (the columns of `U`) with their eigenvalues in descending order. -/
structure Spectral (G U : Matrix (Fin K) (Fin K) ℝ) (lam : Fin K → ℝ) : Prop where
  ortho : Uᵀ * U = 1
  eq : G = U * diagonal lam * Uᵀ
  sorted : Antitone lam

/-- The sum of the eigenvalues without the first `R`. -/
def rest (lam : Fin K → ℝ) (R : ℕ) : ℝ := ∑ k, if k.val < R then 0 else lam k

/-- The first `R` columns. -/
def lead (U : Matrix (Fin K) (Fin K) ℝ) (h : R ≤ K) : Matrix (Fin K) (Fin R) ℝ := U.submatrix id (Fin.castLE h)

theorem exists_spectral {G : Matrix (Fin K) (Fin K) ℝ} (hG : Gᵀ = G) : ∃ U lam, Spectral G U lam := by
  have hA : G.IsHermitian := by
    rw [Matrix.IsHermitian, Matrix.conjTranspose_eq_transpose_of_trivial, hG]
  let V : Matrix (Fin K) (Fin K) ℝ := hA.eigenvectorUnitary
  have hV : Vᵀ * V = 1 := by
    have := Unitary.coe_star_mul_self hA.eigenvectorUnitary
    rwa [Matrix.star_eq_conjTranspose, Matrix.conjTranspose_eq_transpose_of_trivial] at this
  have hE : G = V * diagonal hA.eigenvalues * Vᵀ := by
    have := hA.spectral_theorem
    rw [Unitary.conjStarAlgAut_apply, Matrix.star_eq_conjTranspose, Matrix.conjTranspose_eq_transpose_of_trivial] at this
    exact this
  let σ : Equiv.Perm (Fin K) := Tuple.sort fun k => -hA.eigenvalues k
  refine ⟨V.submatrix id σ, hA.eigenvalues ∘ σ, ?_, ?_, ?_⟩
  · rw [Matrix.transpose_submatrix, ← Matrix.submatrix_mul _ _ _ _ _ Function.bijective_id, hV]
    exact Matrix.submatrix_one_equiv σ
  · have h1 : diagonal (hA.eigenvalues ∘ σ) = (diagonal hA.eigenvalues).submatrix σ σ := (Matrix.submatrix_diagonal_equiv _ σ).symm
    rw [h1, Matrix.transpose_submatrix, Matrix.submatrix_mul_equiv, Matrix.submatrix_mul_equiv]
    exact hE
  · intro a b hab
    have := Tuple.monotone_sort (fun k => -hA.eigenvalues k) hab
    simp only [Function.comp] at this ⊢
    exact neg_le_neg_iff.1 this

theorem gram_transpose (X : Ragged I K J) : (gram X)ᵀ = gram X := by
  simp [gram, Matrix.transpose_sum, Matrix.transpose_mul]

theorem sqNorm_trace (M : Matrix (Fin m) (Fin n) ℝ) : sqNorm M = (M * Mᵀ).trace := by
  simp [sqNorm, Matrix.trace, Matrix.mul_apply, sq]

theorem sqNorm_trace' (M : Matrix (Fin m) (Fin n) ℝ) : sqNorm M = (Mᵀ * M).trace := by
  rw [sqNorm_trace, Matrix.trace_mul_comm]

/-- Every row space of dimension at most `R` is in the span of at most `R` orthonormal vectors. -/
theorem exists_ortho (C : Matrix (Fin K) (Fin R) ℝ) : ∃ d ≤ R, ∃ V : Matrix (Fin K) (Fin d) ℝ, Vᵀ * V = 1 ∧ V * Vᵀ * C = C := by
  let c : Fin R → EuclideanSpace ℝ (Fin K) := fun r => WithLp.toLp 2 fun k => C k r
  let W : Submodule ℝ (EuclideanSpace ℝ (Fin K)) := Submodule.span ℝ (Set.range c)
  let b := stdOrthonormalBasis ℝ W
  refine ⟨Module.finrank ℝ W, ?_, Matrix.of fun k l => (b l : EuclideanSpace ℝ (Fin K)) k, ?_, ?_⟩
  · have := finrank_range_le_card (R := ℝ) c
    rwa [Fintype.card_fin] at this
  · ext l l'
    have h := (orthonormal_iff_ite.1 b.orthonormal) l l'
    rw [Submodule.coe_inner, PiLp.inner_apply] at h
    simp only [Matrix.mul_apply, Matrix.transpose_apply, Matrix.of_apply, Matrix.one_apply]
    rw [← h]
    exact sum_congr rfl fun k _ => by simp [mul_comm]
  · ext k r
    have hc : c r ∈ W := Submodule.subset_span ⟨r, rfl⟩
    have h := congrArg (fun w : W => (w : EuclideanSpace ℝ (Fin K)) k) (b.sum_repr' ⟨c r, hc⟩)
    simp only [Submodule.coe_sum, Submodule.coe_smul, Submodule.coe_inner] at h
    rw [Matrix.mul_assoc]
    simp only [Matrix.mul_apply, Matrix.transpose_apply, Matrix.of_apply]
    have h' : (∑ l, Inner.inner ℝ (b l : EuclideanSpace ℝ (Fin K)) (c r) • (b l : EuclideanSpace ℝ (Fin K))) k = C k r := h
    rw [← h']
    rw [WithLp.ofLp_sum, Finset.sum_apply]
    refine sum_congr rfl fun l _ => ?_
    rw [PiLp.smul_apply, PiLp.inner_apply, smul_eq_mul, mul_comm]
    congr 1
    exact sum_congr rfl fun k _ => by simp [c, mul_comm]

/-- Pythagoras: `Y` has its rows in the span of the columns of `V`. -/
theorem pythagoras {V : Matrix (Fin K) (Fin d) ℝ} (X Y : Matrix (Fin m) (Fin K) ℝ) (hY : Y * (V * Vᵀ) = Y) :
    sqNorm (X - Y) = sqNorm X - sqNorm (X * V) + sqNorm ((X - Y) * V) := by
  have h2 : V * Vᵀ * Yᵀ = Yᵀ := by
    have := congrArg Matrix.transpose hY
    rwa [Matrix.transpose_mul, Matrix.transpose_mul, Matrix.transpose_transpose] at this
  have e : ∀ M : Matrix (Fin m) (Fin K) ℝ, sqNorm (M * V) = (M * (V * Vᵀ) * Mᵀ).trace := by
    intro M
    rw [sqNorm_trace, Matrix.transpose_mul]
    simp only [Matrix.mul_assoc]
  rw [e, e, sqNorm_trace, sqNorm_trace]
  simp only [Matrix.transpose_sub, Matrix.mul_sub, Matrix.sub_mul, Matrix.trace_sub, hY]
  have h3 : X * (V * Vᵀ) * Yᵀ = X * Yᵀ := by rw [Matrix.mul_assoc, h2]
  rw [h3]
  ring

theorem spectral_nonneg {X : Ragged I K J} {U : Matrix (Fin K) (Fin K) ℝ} {lam : Fin K → ℝ} (h : Spectral (gram X) U lam) (k : Fin K) : 0 ≤ lam k := by
  have e : Uᵀ * gram X * U = diagonal lam := by
    rw [h.eq]
    calc Uᵀ * (U * diagonal lam * Uᵀ) * U = (Uᵀ * U) * diagonal lam * (Uᵀ * U) := by simp only [Matrix.mul_assoc]
      _ = diagonal lam := by rw [h.ortho, Matrix.one_mul, Matrix.mul_one]
  have e2 : lam k = ∑ i, ((X i * U)ᵀ * (X i * U)) k k := by
    have := congrFun (congrFun e k) k
    rw [Matrix.diagonal_apply_eq] at this
    rw [← this, gram, Matrix.mul_sum, Matrix.sum_mul, Matrix.sum_apply]
    refine sum_congr rfl fun i _ => ?_
    rw [Matrix.transpose_mul]
    simp only [Matrix.mul_assoc]
  rw [e2]
  refine sum_nonneg fun i _ => ?_
  rw [Matrix.mul_apply]
  exact sum_nonneg fun j _ => mul_self_nonneg _

/-- The part of the data in the span of the columns of `V`. -/
theorem sum_sqNorm_mul {X : Ragged I K J} {U : Matrix (Fin K) (Fin K) ℝ} {lam : Fin K → ℝ} (h : Spectral (gram X) U lam) (V : Matrix (Fin K) (Fin d) ℝ) :
    ∑ i, sqNorm (X i * V) = ∑ k, lam k * ∑ l, (Uᵀ * V) k l ^ 2 := by
  have e1 : ∑ i, sqNorm (X i * V) = (Vᵀ * gram X * V).trace := by
    rw [gram, Matrix.mul_sum, Matrix.sum_mul, Matrix.trace_sum]
    refine sum_congr rfl fun i _ => ?_
    rw [sqNorm_trace', Matrix.transpose_mul]
    simp only [Matrix.mul_assoc]
  have e2 : Vᵀ * gram X * V = (Uᵀ * V)ᵀ * (diagonal lam * (Uᵀ * V)) := by
    rw [h.eq, Matrix.transpose_mul, Matrix.transpose_transpose]
    simp only [Matrix.mul_assoc]
  rw [e1, e2]
  simp only [Matrix.trace, Matrix.diag_apply, Matrix.mul_apply (M := (Uᵀ * V)ᵀ), Matrix.diagonal_mul, Matrix.transpose_apply]
  rw [sum_comm]
  refine sum_congr rfl fun k _ => ?_
  rw [mul_sum]
  exact sum_congr rfl fun l _ => by ring

theorem raggedSq_eq_sum {X : Ragged I K J} {U : Matrix (Fin K) (Fin K) ℝ} {lam : Fin K → ℝ} (h : Spectral (gram X) U lam) : raggedSq X = ∑ k, lam k := by
  have hU : U * Uᵀ = 1 := mul_eq_one_comm.1 h.ortho
  have e : raggedSq X = (gram X).trace := by
    rw [gram, Matrix.trace_sum]
    exact sum_congr rfl fun i _ => sqNorm_trace' (X i)
  rw [e, h.eq, Matrix.trace_mul_comm, ← Matrix.mul_assoc, h.ortho, Matrix.one_mul, Matrix.trace_diagonal]

/-- Weights between 0 and 1 with sum at most `R` do not collect more than the first `R` values. -/
theorem collect_le {lam w : Fin K → ℝ} (hs : Antitone lam) (h0 : ∀ k, 0 ≤ lam k) (hw0 : ∀ k, 0 ≤ w k) (hw1 : ∀ k, w k ≤ 1) (hR : ∑ k, w k ≤ R) :
    rest lam R ≤ ∑ k, lam k * (1 - w k) := by
  by_cases hK : R < K
  · set μ := lam ⟨R, hK⟩
    have hμ : 0 ≤ μ := h0 _
    have key : ∀ k : Fin K, (if k.val < R then 0 else lam k) + μ * ((if k.val < R then 1 else 0) - w k) ≤ lam k * (1 - w k) := by
      intro k
      split
      · rename_i hk
        have : μ ≤ lam k := hs (Fin.le_def.2 hk.le)
        nlinarith [hw1 k]
      · rename_i hk
        have : lam k ≤ μ := hs (Fin.le_def.2 (not_lt.1 hk))
        nlinarith [hw0 k]
    have := sum_le_sum fun k (_ : k ∈ univ) => key k
    rw [sum_add_distrib, ← mul_sum, sum_sub_distrib] at this
    have hc : (∑ k : Fin K, if k.val < R then (1 : ℝ) else 0) = R := by
      rw [sum_boole]
      have : (univ.filter fun k : Fin K => k.val < R) = univ.map (Fin.castLEEmb hK.le) := by
        ext k
        simp only [mem_filter, mem_univ, true_and, mem_map, Fin.castLEEmb_apply]
        exact ⟨fun h => ⟨⟨k, h⟩, rfl⟩, fun ⟨r, hr⟩ => hr ▸ r.isLt⟩
      rw [this, card_map, card_univ, Fintype.card_fin]
    rw [hc] at this
    have h3 : 0 ≤ μ * (R - ∑ k, w k) := mul_nonneg hμ (sub_nonneg.2 hR)
    unfold rest
    linarith
  · have : rest lam R = 0 := sum_eq_zero fun k _ => if_pos (lt_of_lt_of_le k.isLt (not_lt.1 hK))
    rw [this]
    exact sum_nonneg fun k _ => mul_nonneg (h0 k) (sub_nonneg.2 (hw1 k))

theorem ortho_weights {U : Matrix (Fin K) (Fin K) ℝ} (hU : Uᵀ * U = 1) {V : Matrix (Fin K) (Fin d) ℝ} (hV : Vᵀ * V = 1) :
    (∀ k, ∑ l, (Uᵀ * V) k l ^ 2 ≤ 1) ∧ ∑ k, ∑ l, (Uᵀ * V) k l ^ 2 = d := by
  have hU' : U * Uᵀ = 1 := mul_eq_one_comm.1 hU
  set Q := Uᵀ * V with hQ
  have hQQ : Qᵀ * Q = 1 := by
    rw [hQ, Matrix.transpose_mul, Matrix.transpose_transpose]
    calc Vᵀ * U * (Uᵀ * V) = Vᵀ * (U * Uᵀ) * V := by simp only [Matrix.mul_assoc]
      _ = 1 := by rw [hU', Matrix.mul_one, hV]
  constructor
  · intro k
    set w := ∑ l, Q k l ^ 2 with hw
    have e1 : (Q * Qᵀ) k k = w := by simp [Matrix.mul_apply, hw, sq]
    have e2 : (Q * Qᵀ) * (Q * Qᵀ) = Q * Qᵀ := by
      calc (Q * Qᵀ) * (Q * Qᵀ) = Q * (Qᵀ * Q) * Qᵀ := by simp only [Matrix.mul_assoc]
        _ = Q * Qᵀ := by rw [hQQ, Matrix.mul_one]
    have e3 : w = ∑ j, (Q * Qᵀ) k j ^ 2 := by
      rw [← e1]
      conv_lhs => rw [← e2]
      rw [Matrix.mul_apply]
      refine sum_congr rfl fun j _ => ?_
      have : (Q * Qᵀ) j k = (Q * Qᵀ) k j := by simp [Matrix.mul_apply, mul_comm]
      rw [this, sq]
    have e4 : w ^ 2 ≤ w := by
      conv_rhs => rw [e3]
      rw [← e1]
      exact single_le_sum (f := fun j => (Q * Qᵀ) k j ^ 2) (fun j _ => sq_nonneg _) (mem_univ k)
    nlinarith [sq_nonneg (w - 1)]
  · have : ∑ k, ∑ l, Q k l ^ 2 = (Qᵀ * Q).trace := sqNorm_trace' Q
    rw [this, hQQ, Matrix.trace_one, Fintype.card_fin]

/-- The factors of all rows of a matrix. -/
theorem recon_eq (F : Factors I K R J) (i : Fin I) : F.recon i = (Matrix.of fun j r => F.A i r * F.B i j r) * F.Cᵀ := by
  ext j k
  simp [Factors.recon, Factors.entry, Matrix.mul_apply]

theorem sse_eq_sqNorm (X : Ragged I K J) (F : Factors I K R J) : sse X F = ∑ i, sqNorm (X i - F.recon i) := rfl

/-- No factorization with `R` components has a smaller error than the sum of the other eigenvalues. -/
theorem rest_le_sse {X : Ragged I K J} {U : Matrix (Fin K) (Fin K) ℝ} {lam : Fin K → ℝ} (h : Spectral (gram X) U lam) (F : Factors I K R J) : rest lam R ≤ sse X F := by
  obtain ⟨d, hd, V, hV, hC⟩ := exists_ortho F.C
  have hY : ∀ i, F.recon i * (V * Vᵀ) = F.recon i := by
    intro i
    have : F.Cᵀ * (V * Vᵀ) = F.Cᵀ := by
      have := congrArg Matrix.transpose hC
      rwa [Matrix.transpose_mul, Matrix.transpose_mul, Matrix.transpose_transpose] at this
    rw [recon_eq, Matrix.mul_assoc, this]
  have h1 : raggedSq X - ∑ i, sqNorm (X i * V) ≤ sse X F := by
    rw [sse_eq_sqNorm, raggedSq, ← sum_sub_distrib]
    refine sum_le_sum fun i _ => ?_
    rw [pythagoras (X i) _ (hY i)]
    have : 0 ≤ sqNorm ((X i - F.recon i) * V) := sum_nonneg fun _ _ => sum_nonneg fun _ _ => sq_nonneg _
    linarith
  obtain ⟨w1, w2⟩ := ortho_weights h.ortho hV
  have h2 := collect_le (R := R) h.sorted (spectral_nonneg h) (w := fun k => ∑ l, (Uᵀ * V) k l ^ 2) (fun k => sum_nonneg fun _ _ => sq_nonneg _) w1
    (by rw [w2]; exact_mod_cast hd)
  rw [raggedSq_eq_sum h, sum_sqNorm_mul h V, ← sum_sub_distrib] at h1
  refine h2.trans (le_trans (le_of_eq ?_) h1)
  exact sum_congr rfl fun k _ => by ring

/-- The leading eigenvectors as C, A filled with ones and the projections of the data as B reach this bound. -/
theorem sse_lead {X : Ragged I K J} {U : Matrix (Fin K) (Fin K) ℝ} {lam : Fin K → ℝ} (h : Spectral (gram X) U lam) (hR : R ≤ K) :
    sse X ⟨fun _ _ => 1, fun i => X i * lead U hR, lead U hR⟩ = rest lam R := by
  set V := lead U hR with hVdef
  have hV : Vᵀ * V = 1 := by
    have : Vᵀ * V = (Uᵀ * U).submatrix (Fin.castLE hR) (Fin.castLE hR) := by
      ext r r'
      simp [hVdef, lead, Matrix.mul_apply]
    rw [this, h.ortho]
    ext r r'
    simp [Matrix.one_apply, Fin.castLE_inj]
  have hr : ∀ i, (⟨fun _ _ => 1, fun i => X i * V, V⟩ : Factors I K R J).recon i = X i * (V * Vᵀ) := by
    intro i
    rw [recon_eq]
    have : (Matrix.of fun j r => (1 : ℝ) * (X i * V) j r) = X i * V := by
      ext j r
      simp
    rw [this, Matrix.mul_assoc]
  have hY : ∀ i, (⟨fun _ _ => 1, fun i => X i * V, V⟩ : Factors I K R J).recon i * (V * Vᵀ) = (⟨fun _ _ => 1, fun i => X i * V, V⟩ : Factors I K R J).recon i := by
    intro i
    rw [hr i]
    calc X i * (V * Vᵀ) * (V * Vᵀ) = X i * V * (Vᵀ * V) * Vᵀ := by simp only [Matrix.mul_assoc]
      _ = X i * (V * Vᵀ) := by rw [hV, Matrix.mul_one, Matrix.mul_assoc]
  have h0 : ∀ i, (X i - (⟨fun _ _ => 1, fun i => X i * V, V⟩ : Factors I K R J).recon i) * V = 0 := by
    intro i
    rw [hr i, Matrix.sub_mul]
    have : X i * (V * Vᵀ) * V = X i * V := by
      rw [Matrix.mul_assoc, Matrix.mul_assoc, hV, Matrix.mul_one]
    rw [this, sub_self]
  have h1 : sse X ⟨fun _ _ => 1, fun i => X i * V, V⟩ = raggedSq X - ∑ i, sqNorm (X i * V) := by
    rw [sse_eq_sqNorm, raggedSq, ← sum_sub_distrib]
    refine sum_congr rfl fun i _ => ?_
    rw [pythagoras (X i) _ (hY i), h0 i]
    simp [sqNorm]
  rw [h1, raggedSq_eq_sum h, sum_sqNorm_mul h V, ← sum_sub_distrib]
  unfold rest
  refine sum_congr rfl fun k _ => ?_
  have hQ : ∀ l, (Uᵀ * V) k l = if k = Fin.castLE hR l then 1 else 0 := by
    intro l
    have : (Uᵀ * V) k l = (Uᵀ * U) k (Fin.castLE hR l) := by simp [hVdef, lead, Matrix.mul_apply]
    rw [this, h.ortho, Matrix.one_apply]
  simp only [hQ]
  split
  · rename_i hk
    have : (∑ l : Fin R, (if k = Fin.castLE hR l then (1 : ℝ) else 0) ^ 2) = 1 := by
      rw [sum_eq_single ⟨k, hk⟩]
      · simp
      · intro l _ hl
        have hne : k ≠ Fin.castLE hR l := fun he => hl (Fin.ext (congrArg Fin.val he).symm)
        rw [if_neg hne]
        norm_num
      · simp
    rw [this]
    ring
  · rename_i hk
    have : (∑ l : Fin R, (if k = Fin.castLE hR l then (1 : ℝ) else 0) ^ 2) = 0 := by
      refine sum_eq_zero fun l _ => ?_
      rw [if_neg (fun he => hk (by rw [he]; exact l.isLt))]
      norm_num
    rw [this]
    ring

end Verif.Spec
