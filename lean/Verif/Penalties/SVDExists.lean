import Mathlib.Analysis.Matrix.Spectrum
import Verif.Penalties.Model

/-!
# The SVD contract can be met

Every real matrix with at least as many rows as columns has a singular value decomposition in the sense of `SVD.Valid`, so no
hypothesis "the SVD function returns valid decompositions" is vacuous.
-/

namespace Verif.Penalties

open Matrix Finset

theorem exists_svd {m n : ℕ} (hmn : n ≤ m) (M : Matrix (Fin m) (Fin n) ℝ) : ∃ d : SVD m n n, d.Valid M := by
  have hG : (M.transpose * M).IsHermitian := by
    rw [IsHermitian, conjTranspose_eq_transpose_of_trivial, transpose_mul, transpose_transpose]
  set b := hG.eigenvectorBasis with hb
  set ev := hG.eigenvalues with hev
  set Vh : Matrix (Fin n) (Fin n) ℝ := Matrix.of fun j l => (b j).ofLp l with hVh
  have hVV : Vh * Vh.transpose = 1 := by
    ext i j
    have h := b.orthonormal
    rw [orthonormal_iff_ite] at h
    have := h j i
    rw [EuclideanSpace.inner_eq_star_dotProduct] at this
    rw [mul_apply, one_apply]
    simp only [star_trivial, dotProduct] at this
    simp only [hVh, of_apply, transpose_apply, eq_comm (a := i)]
    rw [← this]
  have hVV' : Vh.transpose * Vh = 1 := mul_eq_one_comm.mp hVV
  have heig : Vh * (M.transpose * M) = diagonal ev * Vh := by
    ext j l
    have h := congrFun (hG.mulVec_eigenvectorBasis j) l
    have hs : (M.transpose * M) = (M.transpose * M).transpose := by rw [transpose_mul, transpose_transpose]
    rw [diagonal_mul, hs, mul_apply]
    simp only [mulVec, dotProduct, Pi.smul_apply, smul_eq_mul] at h
    simp only [hVh, of_apply, transpose_apply]
    rw [← h]
    exact sum_congr rfl fun a _ => mul_comm _ _
  -- the images of the eigenvectors
  have hW : (M * Vh.transpose).transpose * (M * Vh.transpose) = diagonal ev := by
    rw [transpose_mul, transpose_transpose, Matrix.mul_assoc, ← Matrix.mul_assoc M.transpose, ← Matrix.mul_assoc, heig,
      Matrix.mul_assoc, hVV, Matrix.mul_one]
  set W := M * Vh.transpose with hWdef
  have hWij : ∀ i j, ∑ a, W a i * W a j = if i = j then ev i else 0 := by
    intro i j
    have := congrFun (congrFun hW i) j
    rw [mul_apply, diagonal_apply] at this
    exact this
  have hev0 : ∀ j, 0 ≤ ev j := fun j => by
    have := hWij j j
    rw [if_pos rfl] at this
    rw [← this]
    exact sum_nonneg fun a _ => mul_self_nonneg _
  -- orthonormal completion
  let v : Fin m → EuclideanSpace ℝ (Fin m) := fun i =>
    if h : (i : ℕ) < n then WithLp.toLp 2 fun a => W a ⟨i, h⟩ / √(ev ⟨i, h⟩) else 0
  let S : Set (Fin m) := {i | ∃ h : (i : ℕ) < n, 0 < ev ⟨i, h⟩}
  have hv : Orthonormal ℝ (S.domRestrict v) := by
    rw [orthonormal_iff_ite]
    rintro ⟨i, hi, hi0⟩ ⟨j, hj, hj0⟩
    rw [EuclideanSpace.inner_eq_star_dotProduct]
    simp only [Set.domRestrict_apply, v, hi, hj, dif_pos, star_trivial, dotProduct, Subtype.mk.injEq]
    have e : ∀ a, W a ⟨j, hj⟩ / √(ev ⟨j, hj⟩) * (W a ⟨i, hi⟩ / √(ev ⟨i, hi⟩))
        = (W a ⟨j, hj⟩ * W a ⟨i, hi⟩) * (1 / (√(ev ⟨j, hj⟩) * √(ev ⟨i, hi⟩))) := fun a => by
      have := Real.sqrt_pos.2 hi0
      have := Real.sqrt_pos.2 hj0
      field_simp
    simp only [e]
    rw [← sum_mul, hWij]
    by_cases hij : i = j
    · subst hij
      rw [if_pos rfl, if_pos rfl, Real.mul_self_sqrt hi0.le]
      exact mul_one_div_cancel hi0.ne'
    · rw [if_neg (fun h => hij (Fin.ext (by simpa using (congrArg Fin.val h).symm))), if_neg hij, zero_mul]
  obtain ⟨u, hu⟩ := hv.exists_orthonormalBasis_extension_of_card_eq (by simp)
  let U : Matrix (Fin m) (Fin n) ℝ := Matrix.of fun a j => (u (Fin.castLE hmn j)).ofLp a
  have hUs : ∀ a j, U a j * √(ev j) = W a j := by
    intro a j
    rcases (hev0 j).eq_or_lt with h | h
    · have h0 : ∑ a, W a j * W a j = 0 := by rw [hWij, if_pos rfl, ← h]
      have := (sum_eq_zero_iff_of_nonneg fun a _ => mul_self_nonneg (W a j)).mp h0 a (mem_univ a)
      rw [← h, Real.sqrt_zero, mul_zero, mul_self_eq_zero.mp this]
    · have := hu (Fin.castLE hmn j) ⟨j.2, h⟩
      simp only [U, of_apply]
      rw [this]
      simp only [v, Fin.val_castLE, j.2, dif_pos]
      exact div_mul_cancel₀ _ (Real.sqrt_pos.2 h).ne'
  refine ⟨⟨U, fun j => √(ev j), Vh⟩, ?_, ?_, hVV, fun j => Real.sqrt_nonneg _⟩
  · have : U * diagonal (fun j => √(ev j)) = W := by
      ext a j; rw [mul_diagonal, hUs]
    simp only
    rw [this, hWdef, Matrix.mul_assoc, hVV', Matrix.mul_one]
  · ext i j
    have h := u.orthonormal
    rw [orthonormal_iff_ite] at h
    have := h (Fin.castLE hmn j) (Fin.castLE hmn i)
    rw [EuclideanSpace.inner_eq_star_dotProduct] at this
    simp only [star_trivial, dotProduct, Fin.castLE_inj, eq_comm (a := j)] at this
    rw [mul_apply, one_apply, ← this]
    rfl

/-- An SVD function meeting the contract. -/
theorem exists_svd_fun (n : ℕ) : ∃ f : Matrix (Fin n) (Fin n) ℝ → SVD n n n, ∀ M, (f M).Valid M :=
  ⟨fun M => (exists_svd le_rfl M).choose, fun M => (exists_svd le_rfl M).choose_spec⟩

end Verif.Penalties
