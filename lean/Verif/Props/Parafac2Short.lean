import Mathlib.Analysis.Matrix.Order
import Mathlib.Data.Real.StarOrdered
import Mathlib.LinearAlgebra.Matrix.PosDef
import Mathlib.LinearAlgebra.Matrix.Rank
import Verif.Penalties.P2Any
import Verif.Penalties.SVDExists
import Verif.Props.Parafac2

/-!
# C110: the PARAFAC2 parametrisation, and matrices with fewer rows than the rank
-/

namespace Verif.Props

open Verif.Penalties Verif.Spec Matrix

variable {I R : ℕ} {J : Fin I → ℕ}

/-- The PARAFAC2 constraint: all matrices have the same cross product. -/
def ConstantCross (B : (i : Fin I) → Matrix (Fin (J i)) (Fin R) ℝ) : Prop := ∀ i j, (B i)ᵀ * B i = (B j)ᵀ * B j

/-- The documented parametrisation: a coordinate matrix and basis matrices with orthonormal columns. -/
def Parametrised (B : (i : Fin I) → Matrix (Fin (J i)) (Fin R) ℝ) : Prop :=
  ∃ (D : Matrix (Fin R) (Fin R) ℝ) (P : (i : Fin I) → Matrix (Fin (J i)) (Fin R) ℝ), (∀ i, Orthonormal (P i)) ∧ ∀ i, B i = P i * D

/-! ### Square roots -/

theorem trace_symm_sq {n : ℕ} {D : Matrix (Fin n) (Fin n) ℝ} (hD : Dᵀ = D) (h : D * D = 0) : D = 0 := by
  have : Dᵀ * D = 0 := by rw [hD]; exact h
  have := (Matrix.conjTranspose_mul_self_eq_zero (A := D)).1 (by rw [Matrix.conjTranspose_eq_transpose_of_trivial]; exact this)
  exact this

/-- A positive semidefinite matrix has one positive semidefinite square root. -/
theorem psd_sqrt_unique {n : ℕ} {S T : Matrix (Fin n) (Fin n) ℝ} (hS : S.PosSemidef) (hT : T.PosSemidef) (h : S * S = T * T) : S = T := by
  have sS : Sᵀ = S := by rw [← Matrix.conjTranspose_eq_transpose_of_trivial]; exact hS.isHermitian
  have sT : Tᵀ = T := by rw [← Matrix.conjTranspose_eq_transpose_of_trivial]; exact hT.isHermitian
  set D := S - T with hDdef
  have sD : Dᵀ = D := by rw [hDdef, Matrix.transpose_sub, sS, sT]
  -- the trace of D (S + T) D vanishes
  have key : Matrix.trace (D * S * D) + Matrix.trace (D * T * D) = 0 := by
    have e1 : D * (S + T) + (S + T) * D = 0 := by
      have : D * (S + T) + (S + T) * D = (S * S - T * T) + (S * S - T * T) := by rw [hDdef]; noncomm_ring
      rw [this, h, sub_self, add_zero]
    have e2 : Matrix.trace (D * (D * (S + T) + (S + T) * D)) = 0 := by rw [e1, Matrix.mul_zero, Matrix.trace_zero]
    have e3 : Matrix.trace (D * (D * (S + T))) = Matrix.trace (D * (S + T) * D) := by rw [Matrix.trace_mul_comm]
    rw [Matrix.mul_add, Matrix.trace_add, e3, ← Matrix.mul_assoc, ← two_mul] at e2
    have e4 : Matrix.trace (D * (S + T) * D) = 0 := by linarith
    rw [Matrix.mul_add, Matrix.add_mul, Matrix.trace_add] at e4
    exact e4
  have quad : ∀ (M : Matrix (Fin n) (Fin n) ℝ) (j : Fin n), (D * M * D) j j = (fun i => D i j) ⬝ᵥ (M *ᵥ fun i => D i j) := by
    intro M j
    rw [Matrix.mul_assoc, Matrix.mul_apply]
    refine Finset.sum_congr rfl fun i _ => ?_
    rw [show D j i = D i j from congrFun (congrFun sD i) j ▸ rfl]
    rfl
  have nn : ∀ {M : Matrix (Fin n) (Fin n) ℝ}, M.PosSemidef → ∀ j, 0 ≤ (D * M * D) j j := by
    intro M hM j
    rw [quad]
    have := hM.dotProduct_mulVec_nonneg (fun i => D i j)
    simpa using this
  have zero : ∀ {M : Matrix (Fin n) (Fin n) ℝ}, M.PosSemidef → Matrix.trace (D * M * D) = 0 → M * D = 0 := by
    intro M hM h0
    have hj : ∀ j, (D * M * D) j j = 0 := fun j => (Finset.sum_eq_zero_iff_of_nonneg fun j _ => nn hM j).1 h0 j (Finset.mem_univ j)
    ext i j
    have := (hM.dotProduct_mulVec_zero_iff (fun i => D i j)).1 (by rw [← hj j, quad]; simp)
    exact congrFun this i
  have tS : 0 ≤ Matrix.trace (D * S * D) := Finset.sum_nonneg fun j _ => nn hS j
  have tT : 0 ≤ Matrix.trace (D * T * D) := Finset.sum_nonneg fun j _ => nn hT j
  have z1 := zero hS (by linarith)
  have z2 := zero hT (by linarith)
  have : D * D = 0 := by
    conv_lhs => rw [hDdef]
    rw [Matrix.sub_mul, z1, z2, sub_zero]
  exact sub_eq_zero.1 (trace_symm_sq sD this)

/-- Polar decomposition of a matrix with at least as many rows as columns. -/
theorem exists_polar {m n : ℕ} (hmn : n ≤ m) (B : Matrix (Fin m) (Fin n) ℝ) :
    ∃ (P : Matrix (Fin m) (Fin n) ℝ) (H : Matrix (Fin n) (Fin n) ℝ), Orthonormal P ∧ H.PosSemidef ∧ B = P * H ∧ H * H = Bᵀ * B := by
  obtain ⟨d, hd⟩ := exists_svd hmn B
  have hr : d.Vhᵀ * d.Vh = 1 := mul_eq_one_comm.1 hd.right
  refine ⟨d.U * d.Vh, d.Vhᵀ * diagonal d.s * d.Vh, ?_, ?_, ?_, ?_⟩
  · unfold Orthonormal
    rw [Matrix.transpose_mul, Matrix.mul_assoc, ← Matrix.mul_assoc _ d.U, hd.left, Matrix.one_mul, hr]
  · have : (diagonal d.s).PosSemidef := Matrix.posSemidef_diagonal_iff.2 hd.nonneg
    have := this.conjTranspose_mul_mul_same d.Vh
    rwa [Matrix.conjTranspose_eq_transpose_of_trivial] at this
  · rw [Matrix.mul_assoc d.Vhᵀ, Matrix.mul_assoc d.U, ← Matrix.mul_assoc d.Vh, hd.right, Matrix.one_mul, ← Matrix.mul_assoc, hd.eq]
  · conv_rhs => rw [← hd.eq]
    simp only [Matrix.transpose_mul, Matrix.diagonal_transpose]
    calc d.Vhᵀ * diagonal d.s * d.Vh * (d.Vhᵀ * diagonal d.s * d.Vh) = d.Vhᵀ * diagonal d.s * (d.Vh * d.Vhᵀ) * (diagonal d.s * d.Vh) := by simp only [Matrix.mul_assoc]
      _ = d.Vhᵀ * diagonal d.s * (d.Uᵀ * d.U) * (diagonal d.s * d.Vh) := by rw [hd.right, hd.left]
      _ = d.Vhᵀ * (diagonal d.s * d.Uᵀ) * (d.U * diagonal d.s * d.Vh) := by simp only [Matrix.mul_assoc]

/-- Orthonormal columns need as many rows. -/
theorem Orthonormal.le {m n : ℕ} {P : Matrix (Fin m) (Fin n) ℝ} (h : Orthonormal P) : n ≤ m := by
  have h1 : (1 : Matrix (Fin n) (Fin n) ℝ).rank ≤ P.rank := by
    rw [← show Pᵀ * P = 1 from h]
    exact Matrix.rank_mul_le_right _ _
  rw [Matrix.rank_one, Fintype.card_fin] at h1
  exact h1.trans (by simpa using Matrix.rank_le_height P)

/-! ### The parametrisation -/

/-- C110, the documented parametrisation: matrices with at least as many rows as the rank satisfy the PARAFAC2 constraint exactly if they are basis matrices with
orthonormal columns times one coordinate matrix. -/
theorem C110_parametrisation_partial (hJ : ∀ i, R ≤ J i) (B : (i : Fin I) → Matrix (Fin (J i)) (Fin R) ℝ) : ConstantCross B ↔ Parametrised B := by
  constructor
  · intro h
    rcases Nat.eq_zero_or_pos I with rfl | hI
    · exact ⟨0, fun i => i.elim0, fun i => i.elim0, fun i => i.elim0⟩
    choose P H hP hH hB hHH using fun i => exists_polar (hJ i) (B i)
    refine ⟨H ⟨0, hI⟩, P, hP, fun i => ?_⟩
    rw [psd_sqrt_unique (hH ⟨0, hI⟩) (hH i) (by rw [hHH, hHH, h ⟨0, hI⟩ i])]
    exact hB i
  · rintro ⟨D, P, hP, hB⟩ i j
    have e : ∀ i, (B i)ᵀ * B i = Dᵀ * D := by
      intro i
      rw [hB i, Matrix.transpose_mul, Matrix.mul_assoc, ← Matrix.mul_assoc _ (P i), show (P i)ᵀ * P i = 1 from hP i, Matrix.one_mul]
    rw [e i, e j]

/-- Two different matrices with the same cross product: the identity and the exchange of the columns. -/
example : Parametrised (I := 2) (J := fun _ => 2) (R := 2) ![1, !![0, 1; 1, 0]] := by
  refine (C110_parametrisation_partial (fun _ => le_refl 2) _).1 fun i j => ?_
  have h : ∀ i : Fin 2, ((![1, !![0, 1; 1, 0]] : Fin 2 → Matrix (Fin 2) (Fin 2) ℝ) i)ᵀ * (![1, !![0, 1; 1, 0]] : Fin 2 → Matrix (Fin 2) (Fin 2) ℝ) i = 1 := by
    intro i
    fin_cases i
    · simp
    · ext a b; fin_cases a <;> fin_cases b <;> simp [Matrix.mul_apply, Fin.sum_univ_two]
  exact (h i).trans (h j).symm

/-- C110, the parametrisation is false in general: with a matrix that has fewer rows than the rank there are no such basis matrices. -/
theorem C110_parametrisation_false {i : Fin I} (hi : J i < R) : ¬ ∀ B : (i : Fin I) → Matrix (Fin (J i)) (Fin R) ℝ, ConstantCross B → Parametrised B := by
  intro h
  obtain ⟨-, P, hP, -⟩ := h (fun _ => 0) fun _ _ => by simp
  exact absurd (hP i).le (not_le.2 hi)

/-- With a short matrix the constraint bounds the rank of all matrices by its number of rows. -/
theorem C110_rank {B : (i : Fin I) → Matrix (Fin (J i)) (Fin R) ℝ} (h : ConstantCross B) (i j : Fin I) : (B i).rank ≤ J j := by
  have e : (B i).rank = (B j).rank := by
    rw [← Matrix.rank_transpose_mul_self (B i), h i j, Matrix.rank_transpose_mul_self]
  rw [e]
  simpa using Matrix.rank_le_height (B j)

/-! ### The update -/

/-- C110, updates: with a matrix that has fewer rows than the rank an update with at least one iteration raises ValueError or returns basis matrices of which that one has no orthonormal
columns, whatever the SVD function. -/
theorem C110_short (svd : (i : Fin I) → Matrix (Fin (J i)) (Fin R) ℝ → AnySVD (J i) R) (X : (i : Fin I) → Matrix (Fin (J i)) (Fin R) ℝ) (ρ : Fin I → ℝ) (n : ℕ)
    (aux : P2Aux I J R) {i : Fin I} (hi : J i < R) :
    anyUpdate svd X ρ (n + 1) aux = .error .valueError ∨ ∃ out, anyUpdate svd X ρ (n + 1) aux = .ok out ∧ ¬ Orthonormal (out.bases i) := by
  have h : ∀ n aux, anyUpdate svd X ρ n aux = .error .valueError ∨ ∃ out, anyUpdate svd X ρ n aux = .ok out := by
    intro n
    induction n with
    | zero => exact fun aux => .inr ⟨_, rfl⟩
    | succ n ih =>
      intro aux
      rw [anyUpdate]
      unfold anyBases
      split
      · next e he =>
        split at he
        · cases he
        · cases he; exact .inl rfl
      · exact ih _
  rcases h (n + 1) aux with h | ⟨out, h⟩
  · exact .inl h
  · exact .inr ⟨out, h, fun ho => absurd ho.le (not_le.2 hi)⟩

/-- An SVD function that returns all left and right singular vectors makes the update raise ValueError if a matrix has fewer rows than the rank. -/
theorem C110_full (svd : (i : Fin I) → Matrix (Fin (J i)) (Fin R) ℝ → AnySVD (J i) R) (hsvd : ∀ i M, (svd i M).k = min (J i) R ∧ (svd i M).l = R)
    (X : (i : Fin I) → Matrix (Fin (J i)) (Fin R) ℝ) (ρ : Fin I → ℝ) (n : ℕ) (aux : P2Aux I J R) {i : Fin I} (hi : J i < R) :
    anyUpdate svd X ρ (n + 1) aux = .error .valueError := by
  have : anyBases svd X aux.coord = .error .valueError := by
    unfold anyBases
    rw [dif_neg]
    intro h
    have := h i
    rw [(hsvd i _).1, (hsvd i _).2] at this
    omega
  rw [anyUpdate, this]

/-- One row, rank two: one left and two right singular vectors. -/
example (X : Fin 1 → Matrix (Fin 1) (Fin 2) ℝ) (ρ : Fin 1 → ℝ) (aux : P2Aux 1 (fun _ => 1) 2) :
    anyUpdate (fun _ _ => ⟨1, 2, 1, 1⟩) X ρ 1 aux = .error .valueError :=
  C110_full _ (fun _ _ => ⟨rfl, rfl⟩) X ρ 0 aux (i := 0) (by norm_num)

/-- If every matrix has at least as many rows as the rank and the SVD function returns that many vectors, the update is the one of C23 and C24. -/
theorem C110_same (svd : (i : Fin I) → Matrix (Fin (J i)) (Fin R) ℝ → SVD (J i) R R) (X : (i : Fin I) → Matrix (Fin (J i)) (Fin R) ℝ) (ρ : Fin I → ℝ) :
    ∀ (n : ℕ) (aux : P2Aux I J R), anyUpdate (fun i M => ⟨R, R, (svd i M).U, (svd i M).Vh⟩) X ρ n aux = .ok (p2Update svd true true X ρ n aux)
  | 0, aux => rfl
  | n + 1, aux => by
    have e : anyBases (fun i M => ⟨R, R, (svd i M).U, (svd i M).Vh⟩) X aux.coord = .ok (p2Bases svd X aux.coord) := by
      unfold anyBases
      rw [dif_pos fun _ => rfl]
      rfl
    rw [anyUpdate, e]
    simp only
    rw [C110_same svd X ρ n, p2Update]
    simp

/-- C110 for updates: with at least as many rows as the rank and a correct SVD function, what an update returns satisfies the constraint. -/
theorem C110_update_partial (svd : (i : Fin I) → Matrix (Fin (J i)) (Fin R) ℝ → SVD (J i) R R) (hsvd : SVDFun svd) (X : (i : Fin I) → Matrix (Fin (J i)) (Fin R) ℝ)
    (ρ : Fin I → ℝ) (n : ℕ) (aux : P2Aux I J R) : ∃ out, anyUpdate (fun i M => ⟨R, R, (svd i M).U, (svd i M).Vh⟩) X ρ (n + 1) aux = .ok out ∧
      ConstantCross (p2Matrices out) :=
  ⟨_, C110_same svd X ρ (n + 1) aux, (C23_constraint svd hsvd true true X ρ (n + 1) aux (.inl ⟨rfl, n.succ_pos⟩)).2⟩

/-! ### A violated constraint -/

/-- One row and two rows, rank two. -/
def shortJ : Fin 2 → ℕ := ![1, 2]

/-- The factor matrices (1 0) and the identity. -/
def shortX : (i : Fin 2) → Matrix (Fin (shortJ i)) (Fin 2) ℝ := fun _ j r => if j.val = r.val then 1 else 0

/-- A thin SVD function: right for the two matrices. -/
def shortSvd : (i : Fin 2) → Matrix (Fin (shortJ i)) (Fin 2) ℝ → AnySVD (shortJ i) 2 := fun i _ =>
  ⟨shortJ i, shortJ i, 1, fun j r => if j.val = r.val then 1 else 0⟩

theorem shortX_orthonormal (i : Fin 2) : shortX i * (shortX i)ᵀ = 1 := by
  have hle : shortJ i ≤ 2 := by fin_cases i <;> decide
  ext j k
  rw [Matrix.mul_apply, Finset.sum_eq_single ⟨j.val, j.isLt.trans_le hle⟩]
  · by_cases h : j = k
    · subst h; simp [shortX]
    · have : k.val ≠ j.val := fun e => h (Fin.ext e.symm)
      simp [shortX, h, this]
  · intro b _ hb
    have : j.val ≠ b.val := fun e => hb (Fin.ext e.symm)
    simp [shortX, this]
  · simp

/-- What the SVD function returns, with the singular values 1, is an SVD of the matrices it is called with. -/
theorem shortSvd_valid (i : Fin 2) : (SVD.mk (shortSvd i (shortX i * (1 : Matrix (Fin 2) (Fin 2) ℝ)ᵀ)).U (fun _ => 1)
    (shortSvd i (shortX i * (1 : Matrix (Fin 2) (Fin 2) ℝ)ᵀ)).Vh).Valid (shortX i * (1 : Matrix (Fin 2) (Fin 2) ℝ)ᵀ) := by
  rw [Matrix.transpose_one, Matrix.mul_one]
  change (SVD.mk (k := shortJ i) (1 : Matrix (Fin (shortJ i)) (Fin (shortJ i)) ℝ) (fun _ => 1) (shortX i)).Valid (shortX i)
  refine ⟨?_, ?_, ?_, fun _ => zero_le_one⟩
  · change (1 : Matrix (Fin (shortJ i)) (Fin (shortJ i)) ℝ) * (diagonal fun _ => (1 : ℝ)) * shortX i = shortX i
    rw [Matrix.one_mul, Matrix.diagonal_one, Matrix.one_mul]
  · change (1 : Matrix (Fin (shortJ i)) (Fin (shortJ i)) ℝ)ᵀ * 1 = 1
    rw [Matrix.transpose_one, Matrix.one_mul]
  · exact shortX_orthonormal i

/-- C110 is false for updates: with a thin SVD function an update of (1 0) and the identity returns auxiliary matrices with cross products diag(1, 0) and diag(1, 1/4). -/
theorem C110_false : ∃ out, anyUpdate shortSvd shortX (fun _ => 1) 1 ⟨fun _ => 0, 1⟩ = .ok out ∧ ¬ ConstantCross (p2Matrices out) := by
  have e : anyBases shortSvd shortX 1 = .ok shortX := by
    unfold anyBases
    rw [dif_pos (show ∀ i : Fin 2, (shortSvd i (shortX i * (1 : Matrix (Fin 2) (Fin 2) ℝ).transpose)).k = (shortSvd i (shortX i * (1 : Matrix (Fin 2) (Fin 2) ℝ).transpose)).l from fun _ => rfl)]
    refine congrArg _ (funext fun i => ?_)
    change (1 : Matrix (Fin (shortJ i)) (Fin (shortJ i)) ℝ) * shortX i = shortX i
    rw [Matrix.one_mul]
  refine ⟨⟨shortX, p2Coord shortX (fun _ => 1) shortX⟩, ?_, fun h => ?_⟩
  · rw [anyUpdate]
    simp only
    rw [e]
    rfl
  have s0 : ∀ f : Fin (shortJ 0) → ℝ, ∑ j, f j = f ⟨0, by decide⟩ := fun f => Fin.sum_univ_one (M := ℝ) f
  have s1 : ∀ f : Fin (shortJ 1) → ℝ, ∑ j, f j = f ⟨0, by decide⟩ + f ⟨1, by decide⟩ := fun f => Fin.sum_univ_two (M := ℝ) f
  have hc : ∀ a b, p2Coord shortX (fun _ => 1) shortX a b = if a = b then (if a = 0 then 1 else 1 / 2) else 0 := by
    intro a b
    rw [p2Coord]
    simp only [Matrix.smul_apply, Matrix.add_apply, Fin.sum_univ_two, Matrix.mul_apply, Matrix.transpose_apply, s0, s1, shortX, smul_eq_mul]
    fin_cases a <;> fin_cases b <;> norm_num
  have := congrFun (congrFun (h 0 1) 1) 1
  simp only [p2Matrices, Matrix.mul_apply, Matrix.transpose_apply, s0, s1, hc, Fin.sum_univ_two, shortX] at this
  norm_num at this

end Verif.Props
