import Verif.ADMM.Abstract

/-!
# Periodic runs of consensus ADMM are constant
-/

namespace Verif.ADMM

open Finset

variable {V : Type} [AddCommGroup V] [Module ℝ V] {n : ℕ} {W : IP V} {f q : V → ℝ} {C : Fin n → Set V} {g : Fin n → V → ℝ}

/-- Two steps: the changes of the auxiliary and of the dual variables are aligned. -/
theorem IsStep.aligned {z u z' u' w v w' v' : Fin n → V} {x y : V} (h : IsStep W f q C g z u x z' u') (k : IsStep W f q C g w v y w' v')
    (p : Fin n) : 0 ≤ W.ip (v' p - u' p) (w' p - z' p) := by
  have h1 := h.zopt p (w' p) (k.zmem p)
  have h2 := k.zopt p (z' p) (h.zmem p)
  have e : x + u p - z' p = u' p := by rw [h.ueq p]; abel
  have e' : y + v p - w' p = v' p := by rw [k.ueq p]; abel
  rw [e] at h1
  rw [e'] at h2
  simp only [IP.sub_right, W.sub_left] at *
  linarith

/-- Two steps: the sums of auxiliary and dual variables approach each other (firm nonexpansiveness). -/
theorem IsStep.firm {z u z' u' w v w' v' : Fin n → V} {x y : V} (h : IsStep W f q C g z u x z' u') (k : IsStep W f q C g w v y w' v')
    (hq : ∀ a, 0 ≤ q a) (hzu : ∀ p, 0 ≤ W.ip (v p - u p) (w p - z p)) :
    ∑ p, W.sq ((w' p + v' p) - (z' p + u' p)) ≤ ∑ p, W.ip ((w' p + v' p) - (z' p + u' p)) ((w p + v p) - (z p + u p)) := by
  have h1 := h.xopt y
  have h2 := k.xopt x
  have q1 := hq (y - x)
  have q2 := hq (x - y)
  have hx : ∑ p, (W.ip (z p - u p - x) (y - x) + W.ip (w p - v p - y) (x - y)) ≤ 0 := by rw [sum_add_distrib]; linarith
  have key : ∀ p, W.sq ((w' p + v' p) - (z' p + u' p)) - W.ip ((w' p + v' p) - (z' p + u' p)) ((w p + v p) - (z p + u p))
      ≤ W.ip (z p - u p - x) (y - x) + W.ip (w p - v p - y) (x - y) := by
    intro p
    have h3 := hzu p
    have e : (w' p + v' p) - (z' p + u' p) = (y + v p) - (x + u p) := by rw [h.ueq p, k.ueq p]; abel
    rw [e]
    simp only [IP.sq, IP.add_right, IP.sub_right, W.add_left, W.sub_left] at *
    have s1 := W.symm (u p) x
    have s2 := W.symm (u p) y
    have s3 := W.symm (u p) (v p)
    have s4 := W.symm (v p) x
    have s5 := W.symm (v p) y
    have s6 := W.symm x y
    have s7 := W.symm (z p) (u p)
    have s8 := W.symm (z p) (v p)
    have s9 := W.symm (z p) (w p)
    have s10 := W.symm (z p) x
    have s11 := W.symm (z p) y
    have s12 := W.symm (w p) (u p)
    have s13 := W.symm (w p) (v p)
    have s14 := W.symm (w p) x
    have s15 := W.symm (w p) y
    linarith
  have := sum_le_sum fun p (_ : p ∈ univ) => key p
  rw [sum_sub_distrib] at this
  linarith

/-- A sequence of steps with period `M` is constant when the form is definite. -/
theorem periodic_const {x : ℕ → V} {z u : ℕ → Fin n → V} {M : ℕ} (hM : 0 < M)
    (hstep : ∀ k, IsStep W f q C g (z k) (u k) (x k) (z (k + 1)) (u (k + 1))) (hz : ∀ k, z (k + M) = z k) (hu : ∀ k, u (k + M) = u k)
    (hdef : ∀ v, W.sq v = 0 → v = 0) (hq : ∀ a, 0 ≤ q a) (k : ℕ) : z (k + 1) = z k ∧ u (k + 1) = u k := by
  -- changes from one step to the next
  let d : ℕ → Fin n → V := fun k p => (z (k + 1) p + u (k + 1) p) - (z k p + u k p)
  have hal : ∀ k p, 0 ≤ W.ip (u (k + 1) p - u k p) (z (k + 1) p - z k p) := by
    intro k p
    have := (hstep (k + (M - 1))).aligned (hstep (k + 1 + (M - 1))) p
    rw [show k + (M - 1) + 1 = k + M by omega, show k + 1 + (M - 1) + 1 = k + 1 + M by omega, hz, hz, hu, hu] at this
    exact this
  have hfirm : ∀ k, ∑ p, W.sq (d (k + 1) p) ≤ ∑ p, W.ip (d (k + 1) p) (d k p) := fun k =>
    (hstep k).firm (hstep (k + 1)) hq (hal k)
  have hexp : ∀ k, ∑ p, W.sq (d (k + 1) p - d k p) = ∑ p, W.sq (d (k + 1) p) + ∑ p, W.sq (d k p) - 2 * ∑ p, W.ip (d (k + 1) p) (d k p) := by
    intro k
    rw [mul_sum, ← sum_add_distrib, ← sum_sub_distrib]
    refine sum_congr rfl fun p _ => ?_
    simp only [IP.sq, IP.sub_right, W.sub_left]
    have := W.symm (d k p) (d (k + 1) p)
    linarith
  have hnn : ∀ k, 0 ≤ ∑ p, W.sq (d (k + 1) p - d k p) := fun k => sum_nonneg fun p _ => W.sq_nonneg _
  have hanti : Antitone fun k => ∑ p, W.sq (d k p) := antitone_nat_of_succ_le fun k => by
    have h1 := hfirm k
    have h2 := hexp k
    have h3 := hnn k
    linarith
  have hper : ∀ k, d (k + M) = d k := by
    intro k
    funext p
    show (z (k + M + 1) p + u (k + M + 1) p) - (z (k + M) p + u (k + M) p) = _
    rw [show k + M + 1 = k + 1 + M by omega, hz, hu, hz, hu]
  have hconst : ∀ k p, d (k + 1) p = d k p := by
    intro k p
    have h1 : ∑ p, W.sq (d (k + M) p) ≤ ∑ p, W.sq (d (k + 1) p) := hanti (show k + 1 ≤ k + M by omega)
    rw [hper] at h1
    have h2 := hfirm k
    have h3 := hexp k
    have h4 : ∑ p, W.sq (d (k + 1) p - d k p) = 0 := le_antisymm (by linarith) (hnn k)
    exact sub_eq_zero.1 (hdef _ ((sum_eq_zero_iff_of_nonneg fun p _ => W.sq_nonneg _).1 h4 p (mem_univ p)))
  have hlin : ∀ (j : ℕ) p, z (k + j) p + u (k + j) p = z k p + u k p + (j : ℝ) • d k p := by
    intro j p
    induction j with
    | zero => simp
    | succ j ih =>
      have hd : d (k + j) p = d k p := by
        clear ih
        induction j with
        | zero => rfl
        | succ j ih => rw [← ih]; exact hconst (k + j) p
      have : z (k + (j + 1)) p + u (k + (j + 1)) p = z (k + j) p + u (k + j) p + d (k + j) p := by
        show _ = z (k + j) p + u (k + j) p + ((z (k + j + 1) p + u (k + j + 1) p) - (z (k + j) p + u (k + j) p))
        rw [add_assoc k j 1]; abel
      rw [this, ih, hd, Nat.cast_succ, add_smul, one_smul]; abel
  have hd0 : ∀ p, d k p = 0 := by
    intro p
    have := hlin M p
    rw [hz, hu] at this
    have h0 : (M : ℝ) • d k p = 0 := by simpa using this.symm
    have : ((M : ℝ)⁻¹ * (M : ℝ)) • d k p = 0 := by rw [mul_smul, h0, smul_zero]
    rwa [inv_mul_cancel₀ (Nat.cast_ne_zero.2 hM.ne'), one_smul] at this
  have hzk : z (k + 1) = z k := by
    funext p
    have h1 := hal k p
    have e : u (k + 1) p - u k p = -(z (k + 1) p - z k p) := by
      have := hd0 p
      have : (z (k + 1) p + u (k + 1) p) - (z k p + u k p) = 0 := this
      rw [← sub_eq_zero, ← this]; abel
    rw [e, W.neg_left] at h1
    have h2 := W.sq_nonneg (z (k + 1) p - z k p)
    exact sub_eq_zero.1 (hdef _ (le_antisymm (by rw [IP.sq]; linarith) h2))
  refine ⟨hzk, ?_⟩
  funext p
  have : (z (k + 1) p + u (k + 1) p) - (z k p + u k p) = 0 := hd0 p
  rw [hzk] at this
  rw [← sub_eq_zero, ← this]; abel

/-- Finitely many steps that lead back to where they started: already the last step is a fixed point. -/
theorem step_of_cycle {x : ℕ → V} {z u : ℕ → Fin n → V} {M : ℕ} (hM : 0 < M)
    (hstep : ∀ k < M, IsStep W f q C g (z k) (u k) (x (k + 1)) (z (k + 1)) (u (k + 1))) (hz : z M = z 0) (hu : u M = u 0)
    (hdef : ∀ v, W.sq v = 0 → v = 0) (hq : ∀ a, 0 ≤ q a) : IsStep W f q C g (z 0) (u 0) (x M) (z 0) (u 0) := by
  have hnext : ∀ k, z ((k + 1) % M) = z (k % M + 1) ∧ u ((k + 1) % M) = u (k % M + 1) := by
    intro k
    have hlt := Nat.mod_lt k hM
    rcases Nat.lt_or_ge (k % M + 1) M with h | h
    · rw [Nat.add_mod, Nat.mod_eq_of_lt (show 1 < M by omega), Nat.mod_eq_of_lt h]
      exact ⟨rfl, rfl⟩
    · have he : k % M + 1 = M := by omega
      have : (k + 1) % M = 0 := by
        rw [← Nat.mod_add_mod, he, Nat.mod_self]
      rw [this, he]
      exact ⟨hz.symm, hu.symm⟩
  have hc := periodic_const (W := W) (f := f) (q := q) (C := C) (g := g) (x := fun k => x (k % M + 1)) (z := fun k => z (k % M)) (u := fun k => u (k % M)) hM
    (fun k => by
      rw [(hnext k).1, (hnext k).2]
      exact hstep _ (Nat.mod_lt k hM)) (fun k => by simp) (fun k => by simp) hdef hq (M - 1)
  beta_reduce at hc
  have he : M - 1 + 1 = M := by omega
  rw [he, Nat.mod_self, Nat.mod_eq_of_lt (show M - 1 < M by omega)] at hc
  have := hstep (M - 1) (by omega)
  rw [he, ← hc.1, ← hc.2, hz, hu] at this
  exact this

/-- A step from a saddle point stays there. -/
theorem IsStep.fixed_of_saddle {z u z' u' : Fin n → V} {x' xs : V} {us : Fin n → V} (h : IsStep W f q C g z u x' z' u') (hn : 0 < n)
    (hs : IsSaddle W f q C g xs us) (hq : ∀ v, q (-v) = q v) (hq0 : ∀ a, 0 ≤ q a) (hdef : ∀ v, W.sq v = 0 → v = 0)
    (hz : ∀ p, z p = xs) (hu : ∀ p, u p = us p) : x' = xs ∧ (∀ p, z' p = xs) ∧ ∀ p, u' p = us p := by
  have h1 := h.energy_le hs hq
  have h0 : energy W xs us z u = 0 := by
    unfold energy
    refine sum_eq_zero fun p _ => ?_
    rw [hz, hu, sub_self, sub_self, IP.sq, W.zero_left, add_zero]
  have h2 := hq0 (x' - xs)
  have a : ∀ p, 0 ≤ W.sq (u' p - us p) + W.sq (z' p - xs) := fun p => add_nonneg (W.sq_nonneg _) (W.sq_nonneg _)
  have h3 : 0 ≤ energy W xs us z' u' := sum_nonneg fun p _ => a p
  have h4 : 0 ≤ ∑ p, W.sq (x' - z p) := sum_nonneg fun p _ => W.sq_nonneg _
  have e1 : energy W xs us z' u' = 0 := by linarith
  have e2 : ∑ p, W.sq (x' - z p) = 0 := by linarith
  have e3 := (sum_eq_zero_iff_of_nonneg fun p _ => a p).1 e1
  have e4 := (sum_eq_zero_iff_of_nonneg fun p _ => W.sq_nonneg _).1 e2
  refine ⟨?_, fun p => ?_, fun p => ?_⟩
  · have := hdef _ (e4 ⟨0, hn⟩ (mem_univ _))
    rw [hz] at this
    exact sub_eq_zero.1 this
  · have b1 := W.sq_nonneg (u' p - us p)
    have b2 := W.sq_nonneg (z' p - xs)
    have b3 := e3 p (mem_univ p)
    exact sub_eq_zero.1 (hdef _ (by linarith))
  · have b1 := W.sq_nonneg (u' p - us p)
    have b2 := W.sq_nonneg (z' p - xs)
    have b3 := e3 p (mem_univ p)
    exact sub_eq_zero.1 (hdef _ (by linarith))

/-- Finitely many steps lead back to where they started exactly if they start from a saddle point. -/
theorem cycle_iff_saddle {x : ℕ → V} {z u : ℕ → Fin n → V} {M : ℕ} (hM : 0 < M) (hn : 0 < n)
    (hstep : ∀ k < M, IsStep W f q C g (z k) (u k) (x (k + 1)) (z (k + 1)) (u (k + 1)))
    (hdef : ∀ v, W.sq v = 0 → v = 0) (hq : ∀ v, q (-v) = q v) (hq0 : ∀ a, 0 ≤ q a) (a : V) :
    (x M = a ∧ z M = z 0 ∧ u M = u 0) ↔ (∀ p, a = z 0 p) ∧ IsSaddle W f q C g a (u 0) := by
  constructor
  · rintro ⟨rfl, h2, h3⟩
    exact (step_of_cycle hM hstep h2 h3 hdef hq0).saddle_of_fixed
  · rintro ⟨h1, h2⟩
    have key : ∀ k, k ≤ M → (0 < k → x k = a) ∧ (∀ p, z k p = a) ∧ ∀ p, u k p = u 0 p := by
      intro k
      induction k with
      | zero => exact fun _ => ⟨fun h => absurd h (lt_irrefl _), fun p => (h1 p).symm, fun _ => rfl⟩
      | succ k ih =>
        intro hk
        obtain ⟨-, i2, i3⟩ := ih (by omega)
        obtain ⟨c1, c2, c3⟩ := (hstep k (by omega)).fixed_of_saddle hn h2 hq hq0 hdef i2 i3
        exact ⟨fun _ => c1, c2, c3⟩
    obtain ⟨k1, k2, k3⟩ := key M le_rfl
    exact ⟨k1 hM, funext fun p => by rw [k2 p, h1 p], funext k3⟩

end Verif.ADMM
