import Verif.ADMM.Contracts
import Verif.Props.ADMMStep
import Verif.Props.ADMMConv

/-!
# C33: number of inner iterations and early stopping
-/

namespace Verif.Props

open Verif.ADMM Verif.Penalties Verif.Spec Finset Matrix

variable {I K R n : ℕ} {J : Fin I → ℕ}

/-! ### The stopping test -/

theorem pyMax_nonfinite : ∀ (l : List PyF) (a : PyF), (∀ x, a ≠ .fin x) → (∀ b ∈ l, ∀ x, b ≠ .fin x) → ∀ x, pyMax a l ≠ .fin x
  | [], a, h, _, x => h x
  | b :: l, a, h, hl, x => by
    rw [pyMax, List.foldl_cons]
    refine pyMax_nonfinite l _ ?_ (fun c hc => hl c (List.mem_cons_of_mem _ hc)) x
    split
    · exact hl b List.mem_cons_self
    · exact h

theorem pyMax_fin : ∀ (l : List ℝ) (a : ℝ), ∃ m, pyMax (.fin a) (l.map .fin) = .fin m ∧ ∀ t, m < t ↔ a < t ∧ ∀ x ∈ l, x < t
  | [], a => ⟨a, rfl, fun t => by simp⟩
  | b :: l, a => by
    obtain ⟨m, h1, h2⟩ := pyMax_fin l (if a < b then b else a)
    refine ⟨m, ?_, fun t => ?_⟩
    · rw [← h1, List.map_cons, pyMax, pyMax, List.foldl_cons]
      congr 1
      simp only [PyF.gt, decide_eq_true_eq]
      split <;> rfl
    · rw [h2, List.forall_mem_cons, ← and_assoc]
      refine and_congr_left' ?_
      split
      · exact ⟨fun h => ⟨by linarith, h⟩, fun h => h.2⟩
      · exact ⟨fun h => ⟨h, by linarith⟩, fun h => h.1⟩

theorem gapsBelow_iff {gaps : Fin n → ℝ} (hg : ∀ p, 0 ≤ gaps p) {norm t : ℝ} (hnorm : 0 ≤ norm) :
    gapsBelow (List.ofFn fun p => PyF.div (gaps p) norm) t = true ↔ ∀ p, gaps p < t * norm := by
  rcases hnorm.eq_or_lt with h0 | h0
  · subst h0
    cases n with
    | zero => simp [gapsBelow]
    | succ n =>
      have hne : ∀ p x, PyF.div (gaps p) 0 ≠ .fin x := by
        intro p x
        rw [PyF.div, if_pos rfl]
        split <;> simp
      constructor
      · intro h
        exfalso
        rw [List.ofFn_succ, gapsBelow] at h
        have := pyMax_nonfinite (List.ofFn fun p : Fin n => PyF.div (gaps p.succ) 0) _ (hne 0) (fun b hb => by
          obtain ⟨p, rfl⟩ := List.mem_ofFn.mp hb
          exact hne _)
        cases hm : pyMax (PyF.div (gaps 0) 0) (List.ofFn fun p : Fin n => PyF.div (gaps p.succ) 0) with
        | fin x => exact this x hm
        | nan => rw [hm] at h; simp [PyF.lt] at h
        | inf => rw [hm] at h; simp [PyF.lt] at h
      · intro h
        have := h 0
        rw [mul_zero] at this
        exact absurd (hg 0) (not_le.mpr this)
  · have hd : ∀ p, PyF.div (gaps p) norm = .fin (gaps p / norm) := fun p => by rw [PyF.div, if_neg h0.ne']
    simp only [hd]
    cases n with
    | zero => simp [gapsBelow]
    | succ n =>
      rw [List.ofFn_succ, gapsBelow]
      obtain ⟨m, h1, h2⟩ := pyMax_fin (List.ofFn fun p : Fin n => gaps p.succ / norm) (gaps 0 / norm)
      rw [List.map_ofFn] at h1
      rw [show (List.ofFn fun p : Fin n => PyF.fin (gaps p.succ / norm)) = List.ofFn (PyF.fin ∘ fun p : Fin n => gaps p.succ / norm) from rfl, h1]
      simp only [PyF.lt, decide_eq_true_eq]
      rw [h2, Fin.forall_fin_succ]
      simp only [List.forall_mem_ofFn_iff, div_lt_iff₀ h0]

theorem innerConverged_iff {tol : Option ℝ} {norm change : ℝ} {gaps : Fin n → ℝ} (hg : ∀ p, 0 ≤ gaps p) (hnorm : 0 ≤ norm) :
    innerConverged tol norm change (List.ofFn fun p => PyF.div (gaps p) norm) = true ↔ InnerDone tol norm change gaps := by
  cases tol with
  | none => simp [innerConverged, InnerDone]
  | some t =>
    simp only [innerConverged, InnerDone, Option.some.injEq, exists_eq_left']
    by_cases ht : 0 < t
    · rw [if_neg (by rintro (h | h) <;> linarith)]
      by_cases hc : change > t * norm
      · rw [if_pos hc]
        exact ⟨by simp, fun h => absurd h.2.1 (not_le.mpr hc)⟩
      · rw [if_neg hc, gapsBelow_iff hg hnorm]
        exact ⟨fun h => ⟨ht, not_lt.mp hc, h⟩, fun h => h.2.2⟩
    · rw [if_pos (by rcases lt_trichotomy t 0 with h | h | h; exacts [.inr h, .inl h, absurd h ht])]
      exact ⟨by simp, fun h => absurd h.1 ht⟩

/-- `InnerDone` for matrices: `x` old, `x'` new factor, `z` auxiliary variables. -/
def MatDone {m : ℕ} (tol : Option ℝ) (x x' : Matrix (Fin m) (Fin R) ℝ) (z : Fin n → Matrix (Fin m) (Fin R) ℝ) : Prop :=
  InnerDone tol √(sqNorm x') √(sqNorm (x' - x)) fun p => √(sqNorm (x' - z p))

/-- `InnerDone` for lists of matrices. -/
def RagDone (tol : Option ℝ) (x x' : Ragged I R J) (z : Fin n → Ragged I R J) : Prop :=
  InnerDone tol √(raggedSq x') √(raggedSq (x' - x)) fun p => √(raggedSq (x' - z p))

theorem matNorm_eq {m k : ℕ} (X : Matrix (Fin m) (Fin k) ℝ) : matNorm X = √(sqNorm X) := rfl

theorem sqNorm_sub_comm {m k : ℕ} (X Y : Matrix (Fin m) (Fin k) ℝ) : sqNorm (X - Y) = sqNorm (Y - X) :=
  sum_congr rfl fun i _ => sum_congr rfl fun j _ => by rw [Matrix.sub_apply, Matrix.sub_apply]; ring

theorem rootSumSq_eq (X : Ragged I R J) : rootSumSq X = √(raggedSq X) := rfl

theorem raggedSq_sub_comm (X Y : Ragged I R J) : raggedSq (X - Y) = raggedSq (Y - X) :=
  sum_congr rfl fun i _ => sqNorm_sub_comm (X i) (Y i)

theorem auxB_subtract (a : AuxB I R J) (Y : Ragged I R J) : a.subtract Y = a.toMats - Y := by
  cases a <;> rfl

theorem matStop_iff {m : ℕ} {tol : Option ℝ} {s s' : MatState m R n} : matStop tol s s' = true ↔ MatDone tol s.x s'.x s'.aux := by
  rw [matStop, MatDone, ← innerConverged_iff (fun p => Real.sqrt_nonneg _) (Real.sqrt_nonneg _)]
  simp only [matGap, matNorm_eq, sqNorm_sub_comm s'.x]

theorem ragStop_iff {tol : Option ℝ} {s s' : RagState I R n J} :
    ragStop tol s s' = true ↔ RagDone tol s.x s'.x fun p => (s'.aux p).toMats := by
  rw [ragStop, RagDone, ← innerConverged_iff (fun p => Real.sqrt_nonneg _) (Real.sqrt_nonneg _)]
  simp only [raggedGap, rootSumSq_eq, auxB_subtract, raggedSq_sub_comm s'.x]
  rw [raggedSq_sub_comm s.x]
  rfl

theorem not_done_of_tol {tol : Option ℝ} (h : ∀ t, tol = some t → t ≤ 0) {norm change : ℝ} {gaps : Fin n → ℝ} :
    ¬ InnerDone tol norm change gaps := by
  rintro ⟨t, rfl, ht, -⟩
  exact absurd (h t rfl) (not_le.mpr ht)

/-- The loop of one update, given what a call with one iteration does. -/
theorem innerLoop_calls {σ : Type} (step : σ → σ) (stop : σ → σ → Bool) (done : σ → σ → Prop) (hd : ∀ s s', stop s s' = true ↔ done s s')
    (N : ℕ) (s : σ) :
    ∃ M ≤ N, innerLoop step stop N s = step^[M] s ∧ ((∀ s s', ¬ done s s') → M = N) ∧
      (M < N → ∃ k, M = k + 1 ∧ done (step^[k] s) (step^[k + 1] s)) ∧
      ∀ k, k + 1 < M → ¬ done (step^[k] s) (step^[k + 1] s) := by
  obtain ⟨M, hM, he, h1, h2⟩ := innerLoop_spec step stop N s
  refine ⟨M, hM, he, fun h => ?_, fun h => ?_, fun k hk => ?_⟩
  · by_contra hne
    obtain ⟨k, -, hk⟩ := h1 (lt_of_le_of_ne hM hne)
    exact h _ _ ((hd _ _).mp hk)
  · obtain ⟨k, hk, hs⟩ := h1 h
    exact ⟨k, hk, (hd _ _).mp hs⟩
  · rw [← hd, h2 k hk]; simp

/-! ### C33 -/

/-- C33, mode 0: a call equals `M` calls with one inner iteration each; `M` is at most the limit, equals it when the tolerance is absent or not
positive, and otherwise is the first iteration meeting the criterion (or the limit). -/
theorem C33_A (P : Params R) (X : Ragged I K J) (pens : Fin n → PenA I R) (l2 : ℝ) (constant : Bool) (F : Factors I K R J)
    (aux dual : Fin n → Matrix (Fin I) (Fin R) ℝ) (s : MatState I R n) (h : admmUpdateA P X pens l2 constant F aux dual = .ok s) :
    ∃ M ≤ P.nInner, ∃ seq : ℕ → MatState I R n, seq 0 = ⟨F.A, aux, dual⟩ ∧ s = seq M ∧
      (∀ k < M, admmUpdateA (once P) X pens l2 constant ⟨(seq k).x, F.B, F.C⟩ (seq k).aux (seq k).dual = .ok (seq (k + 1))) ∧
      ((∀ t, P.innerTol = some t → t ≤ 0) → M = P.nInner) ∧
      (M < P.nInner → ∃ k, M = k + 1 ∧ MatDone P.innerTol (seq k).x (seq (k + 1)).x (seq (k + 1)).aux) ∧
      ∀ k, k + 1 < M → ¬ MatDone P.innerTol (seq k).x (seq (k + 1)).x (seq (k + 1)).aux := by
  simp only [admmUpdateA, Except.bind] at h ⊢
  cases hρ : feasPenalties P.scale constant (crossA F) with
  | error e => rw [hρ] at h; simp at h
  | ok ρ =>
    rw [hρ] at h
    simp only at h
    split at h
    · cases h
    · rename_i hc
      injection h with h
      set step := stepA pens ρ.1 ρ.2 (fun i => P.svd (addRidge (crossA F i) (ρ.2 i) n l2)) (rhsA X F) with hstep
      obtain ⟨M, hM, he, h0, h1, h2⟩ := innerLoop_calls step (matStop P.innerTol)
        (fun s s' => MatDone P.innerTol s.x s'.x s'.aux) (fun _ _ => matStop_iff) P.nInner ⟨F.A, aux, dual⟩
      refine ⟨M, hM, fun k => step^[k] ⟨F.A, aux, dual⟩, rfl, by rw [← h, he], fun k hk => ?_,
        fun ht => h0 fun _ _ => not_done_of_tol ht, h1, h2⟩
      have hρ' : feasPenalties (once P).scale constant (crossA ⟨(step^[k] ⟨F.A, aux, dual⟩).x, F.B, F.C⟩) = .ok ρ := hρ
      rw [hρ']
      have hc' : ¬ (!constant && decide (0 < (once P).nInner) && decide (0 < I) && (List.ofFn pens).any fun p => p.row.isNone) = true := by
        have hP : 0 < P.nInner := by omega
        simp only [once, hP, zero_lt_one] at hc ⊢
        exact hc
      simp only
      rw [if_neg hc', show (once P).nInner = 1 from rfl, innerLoop_one, Function.iterate_succ_apply']
      rfl

/-- C33, mode 1. -/
theorem C33_B (P : Params R) (X : Ragged I K J) (pens : Fin n → PenB I R J) (l2 : ℝ) (constant : Bool) (F : Factors I K R J)
    (aux : Fin n → AuxB I R J) (dual : Fin n → Ragged I R J) (s : RagState I R n J)
    (h : admmUpdateB P X pens l2 constant F aux dual = .ok s) :
    ∃ M ≤ P.nInner, ∃ seq : ℕ → RagState I R n J, seq 0 = ⟨F.B, aux, dual⟩ ∧ s = seq M ∧
      (∀ k < M, admmUpdateB (once P) X pens l2 constant ⟨F.A, (seq k).x, F.C⟩ (seq k).aux (seq k).dual = .ok (seq (k + 1))) ∧
      ((∀ t, P.innerTol = some t → t ≤ 0) → M = P.nInner) ∧
      (M < P.nInner → ∃ k, M = k + 1 ∧ RagDone P.innerTol (seq k).x (seq (k + 1)).x fun p => ((seq (k + 1)).aux p).toMats) ∧
      ∀ k, k + 1 < M → ¬ RagDone P.innerTol (seq k).x (seq (k + 1)).x fun p => ((seq (k + 1)).aux p).toMats := by
  simp only [admmUpdateB, Except.bind] at h ⊢
  cases hρ : feasPenalties P.scale constant (crossB F) with
  | error e => rw [hρ] at h; simp at h
  | ok ρ =>
    rw [hρ] at h
    simp only at h
    injection h with h
    set step := stepB pens ρ.2 (fun i => P.svd (addRidge (crossB F i) (ρ.2 i) n l2)) (rhsB X F) with hstep
    obtain ⟨M, hM, he, h0, h1, h2⟩ := innerLoop_calls step (ragStop P.innerTol)
      (fun s s' => RagDone P.innerTol s.x s'.x fun p => (s'.aux p).toMats) (fun _ _ => ragStop_iff) P.nInner ⟨F.B, aux, dual⟩
    refine ⟨M, hM, fun k => step^[k] ⟨F.B, aux, dual⟩, rfl, by rw [← h, he], fun k hk => ?_,
      fun ht => h0 fun _ _ => not_done_of_tol ht, h1, h2⟩
    have hρ' : feasPenalties (once P).scale constant (crossB ⟨F.A, (step^[k] ⟨F.B, aux, dual⟩).x, F.C⟩) = .ok ρ := hρ
    rw [hρ']
    simp only
    rw [show (once P).nInner = 1 from rfl, innerLoop_one, Function.iterate_succ_apply']
    rfl

/-- C33, mode 2. -/
theorem C33_C (P : Params R) (X : Ragged I K J) (pens : Fin n → PenC K R) (l2 : ℝ) (F : Factors I K R J)
    (aux dual : Fin n → Matrix (Fin K) (Fin R) ℝ) :
    ∃ M ≤ P.nInner, ∃ seq : ℕ → MatState K R n, seq 0 = ⟨F.C, aux, dual⟩ ∧ admmUpdateC P X pens l2 F aux dual = seq M ∧
      (∀ k < M, admmUpdateC (once P) X pens l2 ⟨F.A, F.B, (seq k).x⟩ (seq k).aux (seq k).dual = seq (k + 1)) ∧
      ((∀ t, P.innerTol = some t → t ≤ 0) → M = P.nInner) ∧
      (M < P.nInner → ∃ k, M = k + 1 ∧ MatDone P.innerTol (seq k).x (seq (k + 1)).x (seq (k + 1)).aux) ∧
      ∀ k, k + 1 < M → ¬ MatDone P.innerTol (seq k).x (seq (k + 1)).x (seq (k + 1)).aux := by
  set step := stepC pens (feasPenalty P.scale (crossC F))
    (P.svd (addRidge (crossC F) (feasPenalty P.scale (crossC F)) n l2)) (rhsC X F) with hstep
  obtain ⟨M, hM, he, h0, h1, h2⟩ := innerLoop_calls step (matStop P.innerTol)
    (fun s s' => MatDone P.innerTol s.x s'.x s'.aux) (fun _ _ => matStop_iff) P.nInner ⟨F.C, aux, dual⟩
  refine ⟨M, hM, fun k => step^[k] ⟨F.C, aux, dual⟩, rfl, he, fun k hk => ?_,
    fun ht => h0 fun _ _ => not_done_of_tol ht, h1, h2⟩
  rw [admmUpdateC, show (once P).nInner = 1 from rfl]
  simp only
  rw [innerLoop_one, Function.iterate_succ_apply']
  rfl

/-! ### C36 -/

end Verif.Props
