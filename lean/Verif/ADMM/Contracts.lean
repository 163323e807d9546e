import Mathlib.Analysis.Convex.Function
import Verif.ADMM.Steps

/-!
# Penalties as proximal operators, and the inner loop
-/

namespace Verif.ADMM

open Verif.Penalties Verif.Spec Finset Matrix

variable {I K R n : ℕ} {J : Fin I → ℕ}

/-- The updates of a penalty on mode 0 are the proximal operators of `g` on `C`, for every feasibility penalty: one for the whole
matrix, and (if it has a row update) one for each row. -/
structure PenA.ProxOf (pen : PenA I R) (C : Set (Matrix (Fin I) (Fin R) ℝ)) (g : Matrix (Fin I) (Fin R) ℝ → ℝ) : Prop where
  mat : ∀ ρ : ℝ, 0 < ρ → ∀ Y aux, IsProxRows C g (fun _ => ρ) Y (pen.mat Y ρ aux)
  row : ∀ u, pen.row = some u → ∀ ρ : Fin I → ℝ, (∀ i, 0 < ρ i) → ∀ Y aux : Matrix (Fin I) (Fin R) ℝ,
    IsProxRows C g ρ Y (Matrix.of fun i => u (Y i) (ρ i) (aux i))

/-- The same for mode 2. -/
def PenC.ProxOf (pen : PenC K R) (C : Set (Matrix (Fin K) (Fin R) ℝ)) (g : Matrix (Fin K) (Fin R) ℝ → ℝ) : Prop :=
  ∀ ρ : ℝ, 0 < ρ → ∀ Y aux, IsProxRows C g (fun _ => ρ) Y (pen.mat Y ρ aux)

/-- The same for mode 1, with one feasibility penalty per matrix. -/
def PenB.ProxOf (pen : PenB I R J) (C : Set (Ragged I R J)) (g : Ragged I R J → ℝ) : Prop :=
  ∀ ρ : Fin I → ℝ, (∀ i, 0 < ρ i) → ∀ Y aux, IsProxRag C g ρ Y (pen.update Y ρ aux).toMats

/-! ### From the penalties' own guarantees -/

theorem isProxRows_of_isProx {m : ℕ} {C : Set (Matrix (Fin m) (Fin R) ℝ)} {g : Matrix (Fin m) (Fin R) ℝ → ℝ} {ρ : ℝ}
    {Y X : Matrix (Fin m) (Fin R) ℝ} (h : IsProx C g ρ Y X) : IsProxRows C g (fun _ => ρ) Y X := by
  refine ⟨h.1, fun Z hZ hne => ?_⟩
  have := h.2 Z hZ hne
  simp only [← mul_sum]
  exact this

/-- Row-wise constraints and penalties: one proximal problem per row. -/
theorem isProxRows_of_rows {m : ℕ} {C : Set (Matrix (Fin 1) (Fin R) ℝ)} {g : Matrix (Fin 1) (Fin R) ℝ → ℝ} {w : Fin m → ℝ}
    {Y X : Matrix (Fin m) (Fin R) ℝ} (h : ∀ i, IsProx C g (w i) (rowMat (Y i)) (rowMat (X i))) :
    IsProxRows {Z | ∀ i, rowMat (Z i) ∈ C} (fun Z => ∑ i, g (rowMat (Z i))) w Y X := by
  refine ⟨fun i => (h i).1, fun Z hZ hne => ?_⟩
  have hd : ∀ A : Matrix (Fin m) (Fin R) ℝ, ∀ i, frobSq (rowMat (A i)) (rowMat (Y i)) = ∑ r, (A i r - Y i r) ^ 2 := by
    intro A i
    rw [frobSq, Fin.sum_univ_one]; rfl
  rw [← sum_add_distrib, ← sum_add_distrib]
  have hle : ∀ i, g (rowMat (X i)) + w i / 2 * ∑ r, (X i r - Y i r) ^ 2 ≤ g (rowMat (Z i)) + w i / 2 * ∑ r, (Z i r - Y i r) ^ 2 := by
    intro i
    by_cases e : rowMat (Z i) = rowMat (X i)
    · have e' : ∀ r, Z i r = X i r := fun r => congrFun (congrFun e 0) r
      simp only [e, e', le_refl]
    · have := (h i).2 _ (hZ i) e
      rw [hd, hd] at this
      exact this.le
  obtain ⟨i, hi⟩ : ∃ i, Z i ≠ X i := by
    by_contra hc
    push Not at hc
    exact hne (by ext i r; exact congrFun (hc i) r)
  refine sum_lt_sum (fun i _ => hle i) ⟨i, mem_univ i, ?_⟩
  have := (h i).2 _ (hZ i) fun e => hi (by funext r; exact congrFun (congrFun e 0) r)
  rw [hd, hd] at this
  exact this

/-- A penalty on mode 1 that treats every matrix separately. -/
theorem penB_ofMat_prox {u : (i : Fin I) → MatUpdate (J i) R} {v : Ragged I R J → ℝ} {C : (i : Fin I) → Set (Matrix (Fin (J i)) (Fin R) ℝ)}
    {g : (i : Fin I) → Matrix (Fin (J i)) (Fin R) ℝ → ℝ}
    (h : ∀ i ρ, 0 < ρ → ∀ Y aux, IsProx (C i) (g i) ρ Y (u i Y ρ aux)) :
    (PenB.ofMat u v).ProxOf {Z | ∀ i, Z i ∈ C i} fun Z => ∑ i, g i (Z i) := by
  intro ρ hρ Y aux
  have h' := fun i => h i (ρ i) (hρ i) (Y i) (aux.toMats i)
  have hX : ∀ i, ((PenB.ofMat u v).update Y ρ aux).toMats i = u i (Y i) (ρ i) (aux.toMats i) := fun _ => rfl
  refine ⟨fun i => (h' i).1, fun Z hZ hne => ?_⟩
  rw [← sum_add_distrib, ← sum_add_distrib]
  have hle : ∀ i, g i (((PenB.ofMat u v).update Y ρ aux).toMats i) + ρ i / 2 * frobSq (((PenB.ofMat u v).update Y ρ aux).toMats i) (Y i)
      ≤ g i (Z i) + ρ i / 2 * frobSq (Z i) (Y i) := by
    intro i
    by_cases e : Z i = u i (Y i) (ρ i) (aux.toMats i)
    · rw [hX, e]
    · exact ((h' i).2 _ (hZ i) e).le
  obtain ⟨i, hi⟩ : ∃ i, Z i ≠ u i (Y i) (ρ i) (aux.toMats i) := by
    by_contra hc
    push Not at hc
    exact hne (funext hc)
  exact sum_lt_sum (fun i _ => hle i) ⟨i, mem_univ i, (h' i).2 _ (hZ i) hi⟩

/-- A row-wise penalty on mode 0. -/
theorem penA_prox_of_rows {pen : PenA I R} {u : RowUpdate R} (hu : pen.row = some u)
    (hm : ∀ Y ρ aux, pen.mat Y ρ aux = matrixFromRows u Y ρ aux)
    {C : Set (Matrix (Fin 1) (Fin R) ℝ)} {g : Matrix (Fin 1) (Fin R) ℝ → ℝ}
    (h : ∀ ρ, 0 < ρ → ∀ y aux, IsProx C g ρ (rowMat y) (rowMat (u y ρ aux))) :
    pen.ProxOf {Z | ∀ i, rowMat (Z i) ∈ C} fun Z => ∑ i, g (rowMat (Z i)) where
  mat ρ hρ Y aux := isProxRows_of_rows fun i => by
    rw [hm]; exact h ρ hρ (Y i) (aux i)
  row v hv ρ hρ Y aux := isProxRows_of_rows fun i => by
    rw [hu, Option.some.injEq] at hv
    subst hv
    exact h (ρ i) (hρ i) (Y i) (aux i)

/-- A matrix-wise penalty on mode 0 (without row update). -/
theorem penA_prox_of_mat {pen : PenA I R} (hu : pen.row = none) {C : Set (Matrix (Fin I) (Fin R) ℝ)}
    {g : Matrix (Fin I) (Fin R) ℝ → ℝ} (h : ∀ ρ, 0 < ρ → ∀ Y aux, IsProx C g ρ Y (pen.mat Y ρ aux)) : pen.ProxOf C g where
  mat ρ hρ Y aux := isProxRows_of_isProx (h ρ hρ Y aux)
  row v hv := by rw [hu] at hv; cases hv

/-! ### Auxiliary updates -/

theorem auxA_prox {pen : PenA I R} {C : Set (Matrix (Fin I) (Fin R) ℝ)} {g : Matrix (Fin I) (Fin R) ℝ → ℝ} (h : pen.ProxOf C g)
    {o : Option ℝ} {ρ : Fin I → ℝ} (hρ : ∀ i, 0 < ρ i) (ho : (o = none ∧ (pen.row.isSome ∨ I = 0)) ∨ ∃ m, 0 < m ∧ o = some m ∧ ∀ i, ρ i = m)
    (Y aux : Matrix (Fin I) (Fin R) ℝ) : IsProxRows C g ρ Y (auxA pen o ρ Y aux) := by
  rcases ho with ⟨rfl, hr⟩ | ⟨m, hm, rfl, hc⟩
  · cases hu : pen.row with
    | some u =>
      have := h.row u hu ρ hρ Y aux
      simp only [auxA, hu]
      exact this
    | none =>
      rcases hr with hr | rfl
      · simp [hu] at hr
      · have h1 := (h.mat 1 one_pos Y aux).1
        have e : ∀ A B : Matrix (Fin 0) (Fin R) ℝ, A = B := fun A B => by ext i; exact i.elim0
        rw [e (auxA pen none ρ Y aux) (pen.mat Y 1 aux)]
        exact ⟨h1, fun Z _ hne => absurd (e _ _) hne⟩
  · have : ρ = fun _ => m := funext hc
    rw [this]
    exact h.mat m hm Y aux

/-! ### The inner loop -/

theorem innerLoop_zero {σ : Type} (step : σ → σ) (stop : σ → σ → Bool) (s : σ) : innerLoop step stop 0 s = s := rfl

theorem innerLoop_one {σ : Type} (step : σ → σ) (stop : σ → σ → Bool) (s : σ) : innerLoop step stop 1 s = step s := by
  rw [innerLoop, innerLoop]; split <;> rfl

theorem innerLoop_last {σ : Type} (step : σ → σ) (stop : σ → σ → Bool) : ∀ (N : ℕ) (s : σ), 0 < N →
    ∃ s₀, innerLoop step stop N s = step s₀
  | N + 1, s, _ => by
    rw [innerLoop]
    split
    · exact ⟨s, rfl⟩
    · rcases Nat.eq_zero_or_pos N with rfl | h
      · exact ⟨s, rfl⟩
      · exact innerLoop_last step stop N _ h

/-- The loop performs `M` iterations, the first number after which it may stop. -/
theorem innerLoop_spec {σ : Type} (step : σ → σ) (stop : σ → σ → Bool) : ∀ (N : ℕ) (s : σ),
    ∃ M ≤ N, innerLoop step stop N s = step^[M] s ∧
      (M < N → ∃ k, M = k + 1 ∧ stop (step^[k] s) (step^[k + 1] s) = true) ∧
      ∀ k, k + 1 < M → stop (step^[k] s) (step^[k + 1] s) = false
  | 0, s => ⟨0, le_rfl, rfl, fun h => absurd h (lt_irrefl _), fun k h => by omega⟩
  | N + 1, s => by
    by_cases h : stop s (step s) = true
    · refine ⟨1, by omega, ?_, fun _ => ⟨0, rfl, h⟩, fun k hk => by omega⟩
      rw [innerLoop, if_pos h]; rfl
    · obtain ⟨M, hM, he, h1, h2⟩ := innerLoop_spec step stop N (step s)
      refine ⟨M + 1, by omega, ?_, fun hlt => ?_, fun k hk => ?_⟩
      · rw [innerLoop, if_neg h, he]; rfl
      · obtain ⟨k, rfl, hs⟩ := h1 (by omega)
        exact ⟨k + 1, rfl, hs⟩
      · cases k with
        | zero => simpa using h
        | succ k => exact h2 k (by omega)

end Verif.ADMM
