import Mathlib.Analysis.Convex.Function
import Mathlib.Algebra.BigOperators.Field
import Verif.ADMM.Modes
import Verif.Penalties.TV
import Verif.Penalties.Simplex

/-!
# Helper lemmas: one inner iteration of each update
-/

namespace Verif.ADMM

open Verif.Penalties Verif.Spec Finset Matrix

variable {I K R n : ℕ} {J : Fin I → ℕ}

/-! ### Proximal points of convex functions satisfy a variational inequality -/

theorem prox_vi {V : Type} [AddCommGroup V] [Module ℝ V] (W : IP V) {C : Set V} {g : V → ℝ} (hg : ConvexOn ℝ C g) {Y X : V}
    (hX : X ∈ C) (h : ∀ Z ∈ C, g X + W.sq (X - Y) / 2 ≤ g Z + W.sq (Z - Y) / 2) (Z : V) (hZ : Z ∈ C) :
    g X + W.ip (Y - X) (Z - X) ≤ g Z := by
  have := linear_nonneg (a := W.sq (Z - X) / 2) (b := g Z - g X + W.ip (X - Y) (Z - X)) fun t ht ht1 => by
    have hconv := hg.2 hX hZ (show (0:ℝ) ≤ 1 - t by linarith) ht.le (by ring)
    have hmem := hg.1 hX hZ (show (0:ℝ) ≤ 1 - t by linarith) ht.le (by ring)
    have h1 := h _ hmem
    have e : (1 - t) • X + t • Z - Y = (X - Y) + t • (Z - X) := by
      rw [sub_smul, one_smul, smul_sub]; abel
    rw [e] at h1
    have e2 : W.sq ((X - Y) + t • (Z - X)) = W.sq (X - Y) + 2 * t * W.ip (X - Y) (Z - X) + t ^ 2 * W.sq (Z - X) := by
      simp only [IP.sq, W.add_right, W.add_left, W.smul_left, W.symm _ (t • (Z - X))]
      rw [W.symm (Z - X) (X - Y)]
      ring
    rw [e2] at h1
    simp only [smul_eq_mul] at hconv
    linarith
  have e : W.ip (Y - X) (Z - X) = -W.ip (X - Y) (Z - X) := by rw [← W.neg_left, neg_sub]
  linarith

theorem matIP_sq {m : ℕ} (w : Fin m → ℝ) (hw : ∀ i, 0 ≤ w i) (X Y : Matrix (Fin m) (Fin R) ℝ) :
    (matIP w hw).sq (X - Y) / 2 = ∑ i, w i / 2 * ∑ r, (X i r - Y i r) ^ 2 := by
  simp only [IP.sq, matIP, sum_div]
  refine sum_congr rfl fun i _ => ?_
  rw [mul_div_right_comm]
  congr 1
  exact sum_congr rfl fun r _ => (sq _).symm

theorem ragIP_sq (w : Fin I → ℝ) (hw : ∀ i, 0 ≤ w i) (X Y : Ragged I R J) :
    (ragIP w hw).sq (X - Y) / 2 = ∑ i, w i / 2 * frobSq (X i) (Y i) := by
  simp only [IP.sq, ragIP, sum_div]
  refine sum_congr rfl fun i _ => ?_
  rw [mul_div_right_comm, inner_self, frobSq_eq]
  rfl

theorem _root_.Verif.Spec.IsProxRows.vi {m : ℕ} {C : Set (Matrix (Fin m) (Fin R) ℝ)} {g : Matrix (Fin m) (Fin R) ℝ → ℝ} {w : Fin m → ℝ}
    (hw : ∀ i, 0 ≤ w i) {Y X : Matrix (Fin m) (Fin R) ℝ} (h : IsProxRows C g w Y X) (hg : ConvexOn ℝ C g) :
    ∀ Z ∈ C, g X + (matIP w hw).ip (Y - X) (Z - X) ≤ g Z :=
  prox_vi _ hg h.1 fun Z hZ => by
    rw [matIP_sq, matIP_sq]
    by_cases e : Z = X
    · rw [e]
    · exact (h.2 Z hZ e).le

theorem _root_.Verif.Spec.IsProxRag.vi {C : Set (Ragged I R J)} {g : Ragged I R J → ℝ} {w : Fin I → ℝ}
    (hw : ∀ i, 0 ≤ w i) {Y X : Ragged I R J} (h : IsProxRag C g w Y X) (hg : ConvexOn ℝ C g) :
    ∀ Z ∈ C, g X + (ragIP w hw).ip (Y - X) (Z - X) ≤ g Z :=
  prox_vi _ hg h.1 fun Z hZ => by
    rw [ragIP_sq, ragIP_sq]
    by_cases e : Z = X
    · rw [e]
    · exact (h.2 Z hZ e).le

/-! ### Feasibility penalties -/

theorem trace_gram {κ : Type} [Fintype κ] (M : Matrix κ (Fin R) ℝ) : (M.transpose * M).trace = ∑ r, ∑ k, M k r ^ 2 := by
  simp only [Matrix.trace, diag_apply, mul_apply, transpose_apply, sq]

theorem feasPenalty_A (scale : ℝ) (F : Factors I K R J) (i : Fin I) : feasPenalty scale (crossA F i) = weightA scale F i := by
  rw [feasPenalty, weightA, crossA_eq, trace_gram]
  simp only [Fintype.sum_prod_type, designA, Matrix.of_apply]
  ring

theorem feasPenalty_B (scale : ℝ) (F : Factors I K R J) (i : Fin I) : feasPenalty scale (crossB F i) = weightB scale F i := by
  rw [feasPenalty, weightB, crossB_eq, trace_gram]
  simp only [designB, Matrix.of_apply]
  ring

theorem feasPenalty_C (scale : ℝ) (F : Factors I K R J) : feasPenalty scale (crossC F) = weightC scale F := by
  rw [feasPenalty, weightC, crossC_eq, trace_gram]
  simp only [Fintype.sum_sigma, designC, Matrix.of_apply]
  ring

theorem feasPenalties_ok {scale : ℝ} {constant : Bool} {G : Fin I → Matrix (Fin R) (Fin R) ℝ} {o : Option ℝ} {ρ : Fin I → ℝ}
    (h : feasPenalties scale constant G = .ok (o, ρ)) :
    IsWeights constant (fun i => feasPenalty scale (G i)) ρ ∧
      (constant = false → o = none) ∧ (constant = true → ∃ m, o = some m ∧ ∀ i, ρ i = m) := by
  cases constant with
  | false =>
    simp only [feasPenalties, Bool.false_eq_true, if_false, Except.ok.injEq, Prod.mk.injEq] at h
    obtain ⟨rfl, rfl⟩ := h
    exact ⟨⟨fun _ => rfl, by simp⟩, by simp, by simp⟩
  | true =>
    rcases Nat.eq_zero_or_pos I with rfl | hI
    · simp [feasPenalties, vecMax, Except.map] at h
    · obtain ⟨a, ha, hle, i₀, rfl⟩ := vecMax_ok (fun i => feasPenalty scale (G i)) hI
      simp only [feasPenalties, if_true, ha, Except.map, Except.ok.injEq, Prod.mk.injEq] at h
      obtain ⟨rfl, rfl⟩ := h
      exact ⟨⟨by simp, fun _ => ⟨i₀, hle, fun _ => rfl⟩⟩, by simp, fun _ => ⟨_, rfl, fun _ => rfl⟩⟩

theorem feasPenalties_exists (scale : ℝ) (constant : Bool) (G : Fin I → Matrix (Fin R) (Fin R) ℝ) (hI : constant = true → 0 < I) :
    ∃ x, feasPenalties scale constant G = .ok x := by
  cases constant with
  | false => exact ⟨_, rfl⟩
  | true =>
    obtain ⟨a, ha, -⟩ := vecMax_ok (fun i => feasPenalty scale (G i)) (hI rfl)
    exact ⟨_, by simp only [feasPenalties, if_true, ha]; rfl⟩

theorem _root_.Verif.Spec.IsWeights.pos {constant : Bool} {w ρ : Fin I → ℝ} (h : IsWeights constant w ρ) (hw : ∀ i, 0 < w i) (i : Fin I) : 0 < ρ i := by
  cases constant with
  | false => rw [h.1 rfl]; exact hw i
  | true => obtain ⟨i₀, -, h2⟩ := h.2 rfl; rw [h2]; exact hw i₀

theorem _root_.Verif.Spec.IsWeights.nonneg {constant : Bool} {w ρ : Fin I → ℝ} (h : IsWeights constant w ρ) (hw : ∀ i, 0 ≤ w i) (i : Fin I) : 0 ≤ ρ i := by
  cases constant with
  | false => rw [h.1 rfl]; exact hw i
  | true => obtain ⟨i₀, -, h2⟩ := h.2 rfl; rw [h2]; exact hw i₀

theorem _root_.Verif.Spec.IsWeights.unique {constant : Bool} {w ρ ρ' : Fin I → ℝ} (h : IsWeights constant w ρ) (h' : IsWeights constant w ρ') : ρ = ρ' := by
  cases constant with
  | false => rw [h.1 rfl, h'.1 rfl]
  | true =>
    obtain ⟨i₀, h1, h2⟩ := h.2 rfl
    obtain ⟨i₁, h1', h2'⟩ := h'.2 rfl
    funext i
    rw [h2, h2']
    exact le_antisymm (h1' _) (h1 _)

/-! ### Systems -/

theorem addRidge_symm {G : Matrix (Fin R) (Fin R) ℝ} (h : G.transpose = G) (ρ l2 : ℝ) (n : ℕ) :
    (addRidge G ρ n l2).transpose = addRidge G ρ n l2 := by
  rw [addRidge, transpose_add, transpose_smul, transpose_one, h]

/-- The system is invertible when the problem is solvable, or some feasibility penalty is added. -/
theorem isUnit_system {κ : Type} [Fintype κ] (M : Matrix κ (Fin R) ℝ) {ρ l2 : ℝ} (hρ : 0 ≤ ρ) (hl : 0 ≤ l2)
    (h : (0 < n ∧ 0 < ρ) ∨ ∀ v : Fin R → ℝ, v ≠ 0 → 0 < ∑ k, (∑ r, M k r * v r) ^ 2 + l2 * ∑ r, v r ^ 2) :
    IsUnit (addRidge (M.transpose * M) ρ n l2) := by
  rcases h with ⟨hn, hρ'⟩ | h
  · refine isUnit_add_ridge (psd_gram M) ?_
    have : (0 : ℝ) < n := by exact_mod_cast hn
    positivity
  · refine isUnit_gram M h ?_
    have : (0 : ℝ) ≤ ρ * n := by positivity
    linarith

/-! ### Expansions -/

theorem inner_rowMat (v w : Fin R → ℝ) : inner (rowMat v) (rowMat w) = ∑ r, v r * w r := by
  rw [inner, Fin.sum_univ_one]; rfl

/-- Quadratic term for mode 0. -/
noncomputable def quadA (F : Factors I K R J) (l2 : ℝ) (V : Matrix (Fin I) (Fin R) ℝ) : ℝ :=
  ∑ i, (1 / 2 * sqNorm (rowMat (V i) * (designA F i).transpose) + l2 / 2 * sqNorm (rowMat (V i)))

noncomputable def quadB (F : Factors I K R J) (l2 : ℝ) (V : Ragged I R J) : ℝ :=
  ∑ i, (1 / 2 * sqNorm (V i * (designB F i).transpose) + l2 / 2 * sqNorm (V i))

noncomputable def quadC (F : Factors I K R J) (l2 : ℝ) (V : Matrix (Fin K) (Fin R) ℝ) : ℝ :=
  1 / 2 * sqNorm (V * (designC F).transpose) + l2 / 2 * sqNorm V

theorem stepA_expand (X : Ragged I K J) (F : Factors I K R J) (l2 : ℝ) (pens : Fin n → PenA I R) (ρmax : Option ℝ) (ρ : Fin I → ℝ)
    (svds : Fin I → SVD R R R) (hd : ∀ i, (svds i).Valid (addRidge (crossA F i) (ρ i) n l2))
    (hu : ∀ i, IsUnit (addRidge (crossA F i) (ρ i) n l2)) (s : MatState I R n) (Y : Matrix (Fin I) (Fin R) ℝ) :
    1 / 2 * sse X ⟨Y, F.B, F.C⟩ + l2 / 2 * sqNorm Y
      = (1 / 2 * sse X ⟨(stepA pens ρmax ρ svds (rhsA X F) s).x, F.B, F.C⟩
          + l2 / 2 * sqNorm (stepA pens ρmax ρ svds (rhsA X F) s).x)
        + ∑ p, ∑ i, ρ i * ∑ r, (s.aux p - s.dual p - (stepA pens ρmax ρ svds (rhsA X F) s).x) i r
            * (Y - (stepA pens ρmax ρ svds (rhsA X F) s).x) i r
        + quadA F l2 (Y - (stepA pens ρmax ρ svds (rhsA X F) s).x) := by
  set x := (stepA pens ρmax ρ svds (rhsA X F) s).x with hx
  have hsys : ∀ i, rowMat (x i) * ((designA F i).transpose * designA F i + (ρ i * n + l2) • 1)
      = rowMat (ρ i • (∑ p, (s.aux p - s.dual p) i)) + dataA X i * designA F i := by
    intro i
    have h1 : rowMat (x i) = svdSolve (svds i) (rowMat (ρ i • (∑ p, (s.aux p - s.dual p) i) + rhsA X F i)) :=
      svdSolveRow_eq _ _
    have hsym : (crossA F i).transpose = crossA F i := by
      rw [crossA_eq, transpose_mul, transpose_transpose]
    have h2 := svdSolve_mul (hd i) (addRidge_symm hsym _ _ _) (svd_ne_zero (hd i) (hu i))
      (rowMat (ρ i • (∑ p, (s.aux p - s.dual p) i) + rhsA X F i))
    rw [← h1, addRidge, crossA_eq] at h2
    rw [h2, ← rhsA_eq]
    rfl
  rw [sse_A, sse_A]
  rw [sum_congr rfl fun i _ => lsq_expand _ _ l2 (ρ i * n) _ _ (hsys i) (rowMat (Y i))]
  rw [sum_add_distrib, sum_add_distrib]
  congr 2
  rw [sum_comm]
  refine sum_congr rfl fun i _ => ?_
  have e : rowMat (ρ i • (∑ p, (s.aux p - s.dual p) i)) - (ρ i * n) • rowMat (x i)
      = rowMat (ρ i • ∑ p, (s.aux p - s.dual p - x) i) := by
    ext z r
    simp only [rowMat, Matrix.sub_apply, Matrix.smul_apply, Matrix.of_apply, Pi.smul_apply, Finset.sum_apply, smul_eq_mul,
      sum_sub_distrib, sum_const, card_univ, Fintype.card_fin, nsmul_eq_mul]
    ring
  rw [e]
  have e2 : rowMat (Y i) - rowMat (x i) = rowMat ((Y - x) i) := rfl
  rw [e2, inner_rowMat, ← mul_sum]
  simp only [Pi.smul_apply, Finset.sum_apply, smul_eq_mul, mul_assoc, sum_mul, ← mul_sum]
  rw [sum_comm]

theorem stepB_expand (X : Ragged I K J) (F : Factors I K R J) (l2 : ℝ) (pens : Fin n → PenB I R J) (ρ : Fin I → ℝ)
    (svds : Fin I → SVD R R R) (hd : ∀ i, (svds i).Valid (addRidge (crossB F i) (ρ i) n l2))
    (hu : ∀ i, IsUnit (addRidge (crossB F i) (ρ i) n l2)) (s : RagState I R n J) (Y : Ragged I R J) :
    1 / 2 * sse X ⟨F.A, Y, F.C⟩ + l2 / 2 * raggedSq Y
      = (1 / 2 * sse X ⟨F.A, (stepB pens ρ svds (rhsB X F) s).x, F.C⟩
          + l2 / 2 * raggedSq (stepB pens ρ svds (rhsB X F) s).x)
        + ∑ p, ∑ i, ρ i * inner ((s.aux p).toMats i - s.dual p i - (stepB pens ρ svds (rhsB X F) s).x i)
            (Y i - (stepB pens ρ svds (rhsB X F) s).x i)
        + quadB F l2 (Y - (stepB pens ρ svds (rhsB X F) s).x) := by
  set x := (stepB pens ρ svds (rhsB X F) s).x with hx
  have hsub : ∀ p i, (s.aux p).subtract (s.dual p) i = (s.aux p).toMats i - s.dual p i := by
    intro p i
    cases s.aux p <;> rfl
  have hsys : ∀ i, x i * ((designB F i).transpose * designB F i + (ρ i * n + l2) • 1)
      = (ρ i • ∑ p, ((s.aux p).toMats i - s.dual p i)) + X i * designB F i := by
    intro i
    have h1 : x i = svdSolve (svds i) (ρ i • (∑ p, ((s.aux p).toMats i - s.dual p i)) + rhsB X F i) := by
      rw [← sum_congr rfl fun p _ => hsub p i]
      rfl
    have hsym : (crossB F i).transpose = crossB F i := by
      rw [crossB_eq, transpose_mul, transpose_transpose]
    have h2 := svdSolve_mul (hd i) (addRidge_symm hsym _ _ _) (svd_ne_zero (hd i) (hu i))
      (ρ i • (∑ p, ((s.aux p).toMats i - s.dual p i)) + rhsB X F i)
    rw [← h1, addRidge, crossB_eq] at h2
    exact h2
  rw [sse_B, sse_B]
  rw [sum_congr rfl fun i _ => lsq_expand _ _ l2 (ρ i * n) _ _ (hsys i) (Y i)]
  rw [sum_add_distrib, sum_add_distrib]
  congr 2
  rw [sum_comm]
  refine sum_congr rfl fun i _ => ?_
  have e : (ρ i • ∑ p, ((s.aux p).toMats i - s.dual p i)) - (ρ i * n) • x i
      = ∑ p, ρ i • ((s.aux p).toMats i - s.dual p i - x i) := by
    rw [← smul_sum, sum_sub_distrib _ (fun _ => x i), sum_const, card_univ, Fintype.card_fin, smul_sub, mul_smul, Nat.cast_smul_eq_nsmul]
  rw [e]
  have e3 : ∀ f : Fin n → Matrix (Fin (J i)) (Fin R) ℝ, inner (∑ p, f p) (Y i - x i) = ∑ p, inner (f p) (Y i - x i) := by
    intro f
    have := map_sum (AddMonoidHom.mk' (fun M : Matrix (Fin (J i)) (Fin R) ℝ => inner M (Y i - x i))
      fun a b => inner_add_left a b _) f univ
    exact this
  rw [e3]
  exact sum_congr rfl fun p _ => inner_smul_left _ _ _

theorem stepC_expand (X : Ragged I K J) (F : Factors I K R J) (l2 : ℝ) (pens : Fin n → PenC K R) (ρ : ℝ)
    (svd : SVD R R R) (hd : svd.Valid (addRidge (crossC F) ρ n l2))
    (hu : IsUnit (addRidge (crossC F) ρ n l2)) (s : MatState K R n) (Y : Matrix (Fin K) (Fin R) ℝ) :
    1 / 2 * sse X ⟨F.A, F.B, Y⟩ + l2 / 2 * sqNorm Y
      = (1 / 2 * sse X ⟨F.A, F.B, (stepC pens ρ svd (rhsC X F) s).x⟩
          + l2 / 2 * sqNorm (stepC pens ρ svd (rhsC X F) s).x)
        + ∑ p, ∑ k, ρ * ∑ r, (s.aux p - s.dual p - (stepC pens ρ svd (rhsC X F) s).x) k r
            * (Y - (stepC pens ρ svd (rhsC X F) s).x) k r
        + quadC F l2 (Y - (stepC pens ρ svd (rhsC X F) s).x) := by
  set x := (stepC pens ρ svd (rhsC X F) s).x with hx
  have hsys : x * ((designC F).transpose * designC F + (ρ * n + l2) • 1)
      = (ρ • ∑ p, (s.aux p - s.dual p)) + dataC X * designC F := by
    have h1 : x = svdSolve svd (ρ • (∑ p, (s.aux p - s.dual p)) + rhsC X F) := rfl
    have hsym : (crossC F).transpose = crossC F := by
      rw [crossC_eq, transpose_mul, transpose_transpose]
    have h2 := svdSolve_mul hd (addRidge_symm hsym _ _ _) (svd_ne_zero hd hu)
      (ρ • (∑ p, (s.aux p - s.dual p)) + rhsC X F)
    rw [← h1, addRidge, crossC_eq, rhsC_eq] at h2
    exact h2
  rw [sse_C, sse_C, lsq_expand _ _ l2 (ρ * n) _ _ hsys Y]
  congr 2
  have e : (ρ • ∑ p, (s.aux p - s.dual p)) - (ρ * n) • x = ∑ p, ρ • (s.aux p - s.dual p - x) := by
    rw [← smul_sum, sum_sub_distrib _ (fun _ => x), sum_const, card_univ, Fintype.card_fin, smul_sub, mul_smul, Nat.cast_smul_eq_nsmul]
  rw [e]
  have e3 : ∀ f : Fin n → Matrix (Fin K) (Fin R) ℝ, inner (∑ p, f p) (Y - x) = ∑ p, inner (f p) (Y - x) := by
    intro f
    have := map_sum (AddMonoidHom.mk' (fun M : Matrix (Fin K) (Fin R) ℝ => inner M (Y - x))
      fun a b => inner_add_left a b _) f univ
    exact this
  rw [e3]
  refine sum_congr rfl fun p _ => ?_
  rw [inner_smul_left, inner, mul_sum]

end Verif.ADMM
