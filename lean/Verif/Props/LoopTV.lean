import Verif.Props.LoopLasso

/-!
# C140: the jumps of factors with a total variation penalty
-/

set_option linter.unusedSectionVars false

namespace Verif.Props

open Verif.ADMM Verif.Penalties Verif.Spec Verif.Loop Finset Matrix Filter

variable {I K R n nA nB nC : ℕ} {J : Fin I → ℕ}

/-- Sum of the first entries, up to index `i`. -/
def firstSum {m : ℕ} (g : Fin m → ℝ) (i : ℕ) : ℝ := ∑ j : Fin m, if j.val ≤ i then g j else 0

/-- Optimality of a column `y` with derivative `g` for a total variation penalty of strength `α`: the entries of `g` sum to zero, no partial sum exceeds `α` in magnitude, and where `y` jumps
up or down, the partial sum is `α` or `-α`. -/
def TVColumn {m : ℕ} (α : ℝ) (g y : Fin m → ℝ) : Prop :=
  ∑ i, g i = 0 ∧ ∀ i : Fin (m - 1), |firstSum g i| ≤ α ∧ (y ⟨i, by omega⟩ < y ⟨i + 1, by omega⟩ → firstSum g i = α) ∧ (y ⟨i + 1, by omega⟩ < y ⟨i, by omega⟩ → firstSum g i = -α)

/-- Total variation of one column. -/
def colVar {m : ℕ} (y : Fin m → ℝ) : ℝ := ∑ i : Fin (m - 1), |y ⟨i + 1, by omega⟩ - y ⟨i, by omega⟩|

theorem jump_iff {α s d : ℝ} : LassoEntry α false (-s) d ↔ |s| ≤ α ∧ (0 < d → s = α) ∧ (d < 0 → s = -α) := by
  simp [LassoEntry, neg_eq_iff_eq_neg]

theorem sum_jumps (w : ℕ → ℝ) {n j : ℕ} (h : j ≤ n) : ∑ i ∈ range n, (if j ≤ i then w (i + 1) - w i else 0) = w n - w j := by
  induction n with
  | zero => simp [Nat.le_zero.1 h]
  | succ n ih =>
    rw [sum_range_succ]
    rcases h.lt_or_eq with h1 | h1
    · rw [ih (by omega), if_pos (by omega)]
      ring
    · rw [sum_eq_zero, if_neg (by omega), h1]
      · ring
      · intro i hi
        rw [if_neg (by have := mem_range.1 hi; omega)]

/-- Summation by parts. -/
theorem sum_parts {m : ℕ} {g : Fin m → ℝ} (hg : ∑ i, g i = 0) (z : Fin m → ℝ) : ∑ j, g j * z j = -∑ i : Fin (m - 1), firstSum g i * (z ⟨i + 1, by omega⟩ - z ⟨i, by omega⟩) := by
  rcases Nat.eq_zero_or_pos m with hm | hm
  · subst hm
    simp
  let w : ℕ → ℝ := fun k => if h : k < m then z ⟨k, h⟩ else 0
  have e1 : ∀ j : Fin m, z j = w (m - 1) - ∑ i : Fin (m - 1), (if j.val ≤ i.val then z ⟨i + 1, by omega⟩ - z ⟨i, by omega⟩ else 0) := by
    intro j
    have h1 := sum_jumps w (n := m - 1) (j := j.val) (by omega)
    rw [← Fin.sum_univ_eq_sum_range (fun i => if j.val ≤ i then w (i + 1) - w i else 0)] at h1
    have h2 : ∀ i : Fin (m - 1), (if j.val ≤ i.val then z ⟨i + 1, by omega⟩ - z ⟨i, by omega⟩ else 0) = if j.val ≤ i.val then w (i + 1) - w i else 0 := by
      intro i
      have a : (i : ℕ) + 1 < m := by omega
      have b : (i : ℕ) < m := by omega
      simp [w, a, b]
    simp only [h2, h1]
    simp [w]
  calc ∑ j, g j * z j = ∑ j, g j * (w (m - 1) - ∑ i : Fin (m - 1), (if j.val ≤ i.val then z ⟨i + 1, by omega⟩ - z ⟨i, by omega⟩ else 0)) :=
        sum_congr rfl fun j _ => by rw [← e1 j]
    _ = (∑ j, g j) * w (m - 1) - ∑ j, ∑ i : Fin (m - 1), (if j.val ≤ i.val then g j else 0) * (z ⟨i + 1, by omega⟩ - z ⟨i, by omega⟩) := by
        rw [sum_mul, ← sum_sub_distrib]
        refine sum_congr rfl fun j _ => ?_
        rw [mul_sub, mul_sum]
        congr 1
        refine sum_congr rfl fun i _ => ?_
        split <;> simp
    _ = _ := by
        rw [hg, zero_mul, zero_sub, sum_comm]
        simp only [firstSum, sum_mul]

theorem tv_le {m : ℕ} {α : ℝ} (hα : 0 ≤ α) {g y : Fin m → ℝ} (h : TVColumn α g y) (z : Fin m → ℝ) : α * colVar y ≤ ∑ i, g i * (z i - y i) + α * colVar z := by
  rw [sum_parts h.1 fun i => z i - y i, colVar, colVar, mul_sum, mul_sum, ← sum_neg_distrib, ← sum_add_distrib]
  refine sum_le_sum fun i _ => ?_
  obtain ⟨h1, h2, h3⟩ := h.2 i
  have := lasso_le (z := z ⟨i + 1, by omega⟩ - z ⟨i, by omega⟩) hα (jump_iff.2 ⟨h1, fun h => h2 (by linarith), fun h => h3 (by linarith)⟩ :
    LassoEntry α false (-firstSum g i) (y ⟨i + 1, by omega⟩ - y ⟨i, by omega⟩)) (fun hn => by cases hn)
  refine this.trans_eq ?_
  ring

theorem tv_of {m : ℕ} {α : ℝ} (hα : 0 ≤ α) {g y : Fin m → ℝ} (q : (Fin m → ℝ) → ℝ)
    (h : ∀ (u : Fin m → ℝ) (t : ℝ), α * colVar y ≤ t * ∑ i, g i * u i + t ^ 2 * q u + α * colVar fun i => y i + t * u i) : TVColumn α g y := by
  refine ⟨?_, fun i => ?_⟩
  · have e : ∀ t : ℝ, colVar (fun i => y i + t * 1) = colVar y := fun t => by simp [colVar]
    have h1 : ∀ t : ℝ, 0 ≤ t * ∑ i, g i + t ^ 2 * q fun _ => 1 := fun t => by
      have := h (fun _ => 1) t
      rw [e] at this
      simp only [mul_one] at this
      linarith
    refine le_antisymm ?_ (nonneg_of_small fun t _ _ => h1 t)
    have : 0 ≤ -∑ i, g i := nonneg_of_small (b := q fun _ => 1) fun t _ _ => by
      have := h1 (-t)
      nlinarith
    linarith
  · let u : Fin m → ℝ := fun j => if j.val ≤ i.val then 1 else 0
    have key := lasso_of (γ := α) (g := -firstSum g i) (y := y ⟨i + 1, by omega⟩ - y ⟨i, by omega⟩) (q := q u) (nn := false) hα (fun hn => by cases hn) fun d _ => by
      set t := -(d - (y ⟨i + 1, by omega⟩ - y ⟨i, by omega⟩)) with ht
      have h1 := h u t
      have e1 : ∑ j, g j * u j = firstSum g i := by
        simp [u, firstSum]
      have e2 : ∀ k : Fin (m - 1), |y ⟨k + 1, by omega⟩ + t * u ⟨k + 1, by omega⟩ - (y ⟨k, by omega⟩ + t * u ⟨k, by omega⟩)| =
          |y ⟨k + 1, by omega⟩ - y ⟨k, by omega⟩| + if k = i then |d| - |y ⟨i + 1, by omega⟩ - y ⟨i, by omega⟩| else 0 := by
        intro k
        rcases lt_trichotomy k.val i.val with hk | hk | hk
        · have n1 : k ≠ i := fun e => by rw [e] at hk; exact lt_irrefl _ hk
          simp only [u, if_pos (show k.val + 1 ≤ i.val from hk), if_pos hk.le, if_neg n1]
          ring_nf
        · obtain rfl : k = i := Fin.ext hk
          simp only [u, if_neg (show ¬ k.val + 1 ≤ k.val by omega), le_refl, if_true]
          rw [show y ⟨k.val + 1, by omega⟩ + t * 0 - (y ⟨k.val, by omega⟩ + t * 1) = d by rw [ht]; ring]
          ring
        · have n1 : k ≠ i := fun e => by rw [e] at hk; exact lt_irrefl _ hk
          simp only [u, if_neg (show ¬ k.val + 1 ≤ i.val by omega), if_neg (show ¬ k.val ≤ i.val by omega), if_neg n1]
          ring_nf
      have e3 : (colVar fun j => y j + t * u j) = colVar y + (|d| - |y ⟨i + 1, by omega⟩ - y ⟨i, by omega⟩|) := by
        unfold colVar
        rw [sum_congr rfl fun k _ => e2 k, sum_add_distrib, sum_ite_eq' univ i, if_pos (mem_univ i)]
      rw [e1, e3] at h1
      rw [ht] at h1
      nlinarith
    obtain ⟨h1, h2, h3⟩ := jump_iff.1 key
    exact ⟨h1, fun hd => h2 (by linarith), fun hd => h3 (by linarith)⟩

/-- Minimisers of a convex quadratic function plus the total variation of the columns. -/
theorem tv_iff {V κ : Type} [Fintype κ] [AddCommGroup V] [Module ℝ V] {m : κ → ℕ} (f : V → ℝ) (col : (p : κ) → V → Fin (m p) → ℝ) (G : V → (p : κ) → Fin (m p) → ℝ) (Q : V → ℝ)
    (hQ : ∀ v, 0 ≤ Q v) (hQs : ∀ (t : ℝ) v, Q (t • v) = t ^ 2 * Q v) (hcol : ∀ p (t : ℝ) y v i, col p (y + t • v) i = col p y i + t * col p v i)
    (hf : ∀ y z, f z = f y + ∑ p, ∑ i, G y p i * (col p z i - col p y i) + Q (z - y)) (dir : (p : κ) → (Fin (m p) → ℝ) → V) (hp1 : ∀ p u, col p (dir p u) = u)
    (hp2 : ∀ p u q, q ≠ p → ∀ i, col q (dir p u) i = 0) {α : ℝ} (hα : 0 ≤ α) (y : V) :
    (∀ z, f y + α * ∑ p, colVar (col p y) ≤ f z + α * ∑ p, colVar (col p z)) ↔ ∀ p, TVColumn α (G y p) (col p y) := by
  constructor
  · intro h p
    refine tv_of hα (fun u => Q (dir p u)) fun u t => ?_
    have h1 := h (y + t • dir p u)
    rw [hf y (y + t • dir p u), add_sub_cancel_left, hQs] at h1
    have e1 : ∑ q, ∑ i, G y q i * (col q (y + t • dir p u) i - col q y i) = t * ∑ i, G y p i * u i := by
      rw [sum_eq_single p, mul_sum]
      · refine sum_congr rfl fun i _ => ?_
        rw [hcol, hp1]
        ring
      · intro q _ hq
        simp [hcol, hp2 p u q hq]
      · intro hp
        exact absurd (mem_univ p) hp
    have e2 : ∑ q, colVar (col q (y + t • dir p u)) - ∑ q, colVar (col q y) = (colVar fun i => col p y i + t * u i) - colVar (col p y) := by
      rw [← sum_sub_distrib, sum_eq_single p]
      · congr 2
        funext i
        rw [hcol, hp1]
      · intro q _ hq
        have : col q (y + t • dir p u) = col q y := by
          funext i
          rw [hcol, hp2 p u q hq, mul_zero, add_zero]
        rw [this, sub_self]
      · intro hp
        exact absurd (mem_univ p) hp
    rw [e1] at h1
    have e3 := congrArg (fun x => α * x) e2
    simp only [mul_sub] at e3
    linarith
  · intro h z
    rw [hf y z]
    have : ∑ p, α * colVar (col p y) ≤ ∑ p, (∑ i, G y p i * (col p z i - col p y i) + α * colVar (col p z)) := sum_le_sum fun p _ => tv_le hα (h p) (col p z)
    rw [sum_add_distrib, ← mul_sum, ← mul_sum] at this
    linarith [hQ (z - y)]

theorem totalVar_cols {m : ℕ} (Z : Matrix (Fin m) (Fin R) ℝ) : totalVar Z = ∑ r, colVar fun i => Z i r := rfl

theorem tv_minA (X : Ragged I K J) {l : ℝ} (hl : 0 ≤ l) (F : Factors I K R J) (solver : Matrix (Fin R) (Fin I) ℝ → ℝ → Matrix (Fin R) (Fin I) ℝ) {α : ℝ} (hα : 0 ≤ α)
    (Y : Matrix (Fin I) (Fin R) ℝ) :
    IsMinOver (fitA X l F) (fun _ : Fin 1 => (StdPen.tv solver α 0 : StdPen I R).feasible) (fun _ => (StdPen.tv solver α 0 : StdPen I R).fn) Y ↔
      ∀ r, TVColumn α (fun i => gradA X l F Y i r) fun i => Y i r := by
  have key := tv_iff (m := fun _ : Fin R => I) (fitA X l F) (fun r Z i => Z i r) (fun Z r i => gradA X l F Z i r) (quadA l F)
    (fun v => add_nonneg (mul_nonneg (by norm_num) (sum_nonneg fun _ _ => sum_nonneg fun _ _ => sum_nonneg fun _ _ => sq_nonneg _)) (mul_nonneg (by linarith) (sqNorm_nonneg _)))
    (fun t v => quadA_smul l F t v) (fun p t y z i => by simp) (fun y z => by rw [fitA_expand X l F y z, sum_comm]) (fun r u => Matrix.of fun i s => if s = r then u i else 0)
    (fun p u => by funext i; simp) (fun p u q hq i => by simp [hq]) hα Y
  rw [← key]
  simp only [IsMinOver, univ_unique, sum_singleton, forall_const, StdPen.feasible, StdPen.fn, Set.mem_univ, true_and, zero_mul, add_zero, totalVar_cols]

theorem tv_minB (X : Ragged I K J) {l : ℝ} (hl : 0 ≤ l) (F : Factors I K R J) (solver : (i : Fin I) → Matrix (Fin R) (Fin (J i)) ℝ → ℝ → Matrix (Fin R) (Fin (J i)) ℝ) {α : ℝ} (hα : 0 ≤ α)
    (Y : Ragged I R J) :
    IsMinOver (fitB X l F) (fun _ : Fin 1 => {Z : Ragged I R J | ∀ i, Z i ∈ (StdPen.tv (solver i) α 0 : StdPen (J i) R).feasible})
      (fun _ Z => ∑ i, (StdPen.tv (solver i) α 0 : StdPen (J i) R).fn (Z i)) Y ↔ ∀ i r, TVColumn α (fun j => gradB X l F Y i j r) fun j => Y i j r := by
  have key := tv_iff (m := fun p : Fin I × Fin R => J p.1) (fitB X l F) (fun p Z j => Z p.1 j p.2) (fun Z p j => gradB X l F Z p.1 j p.2) (quadB l F)
    (fun v => add_nonneg (mul_nonneg (by norm_num) (sum_nonneg fun _ _ => sum_nonneg fun _ _ => sum_nonneg fun _ _ => sq_nonneg _))
      (mul_nonneg (by linarith) (sum_nonneg fun _ _ => sqNorm_nonneg _)))
    (fun t v => quadB_smul l F t v) (fun p t y z i => by simp)
    (fun y z => by rw [fitB_expand X l F y z, Fintype.sum_prod_type]; congr 2; exact sum_congr rfl fun i _ => sum_comm)
    (fun p u i => if h : i = p.1 then Matrix.of fun j s => if s = p.2 then u (h ▸ j) else 0 else 0)
    (fun p u => by funext i; simp) (fun p u q hq i => by
      by_cases h : q.1 = p.1
      · have h2 : q.2 ≠ p.2 := fun h2 => hq (Prod.ext h h2)
        simp [h, h2]
      · simp [h]) hα Y
  simp only [Prod.forall, Fintype.sum_prod_type] at key
  rw [← key]
  simp only [IsMinOver, univ_unique, sum_singleton, forall_const, StdPen.feasible, StdPen.fn, Set.mem_univ, implies_true, zero_mul, add_zero, totalVar_cols, mul_sum]
  simp

theorem tv_minC (X : Ragged I K J) {l : ℝ} (hl : 0 ≤ l) (F : Factors I K R J) (solver : Matrix (Fin R) (Fin K) ℝ → ℝ → Matrix (Fin R) (Fin K) ℝ) {α : ℝ} (hα : 0 ≤ α)
    (Y : Matrix (Fin K) (Fin R) ℝ) :
    IsMinOver (fitC X l F) (fun _ : Fin 1 => (StdPen.tv solver α 0 : StdPen K R).feasible) (fun _ => (StdPen.tv solver α 0 : StdPen K R).fn) Y ↔
      ∀ r, TVColumn α (fun k => gradC X l F Y k r) fun k => Y k r := by
  have key := tv_iff (m := fun _ : Fin R => K) (fitC X l F) (fun r Z k => Z k r) (fun Z r k => gradC X l F Z k r) (quadC l F)
    (fun v => add_nonneg (mul_nonneg (by norm_num) (sum_nonneg fun _ _ => sum_nonneg fun _ _ => sum_nonneg fun _ _ => sq_nonneg _)) (mul_nonneg (by linarith) (sqNorm_nonneg _)))
    (fun t v => quadC_smul l F t v) (fun p t y z i => by simp) (fun y z => by rw [fitC_expand X l F y z, sum_comm]) (fun r u => Matrix.of fun k s => if s = r then u k else 0)
    (fun p u => by funext i; simp) (fun p u q hq i => by simp [hq]) hα Y
  rw [← key]
  simp only [IsMinOver, univ_unique, sum_singleton, forall_const, StdPen.feasible, StdPen.fn, Set.mem_univ, true_and, zero_mul, add_zero, totalVar_cols]

/-- C140, A: if only this factor is updated and has a total variation penalty, then its iterates and auxiliary variables converge to the only matrix whose columns are optimal in
the sense of `TVColumn`. -/
theorem C140_A (P : Problem I K R 1 nB nC J) (hsvd : ValidSVD P.params) (hN : 0 < P.params.nInner) (hA : P.updA = true) (hB : P.updB = false)
    (hC : P.updC = false) (hl : 0 ≤ P.l2.1) (init : AOState I K R 1 nB nC J) (hw : ∀ i, 0 < weightA P.params.scale init.F i) (hsol : SolvableA init.F P.l2.1)
    (solver : Matrix (Fin R) (Fin I) ℝ → ℝ → Matrix (Fin R) (Fin I) ℝ) (hs : SolvesTV solver) {α : ℝ} (hα : 0 < α) (hpens : P.pensA 0 = (StdPen.tv solver α 0 : StdPen I R).toA)
    (outs : ℕ → Output (AOState I K R 1 nB nC J)) (h : ∀ n : ℕ, cmfAoadmm P (plain n) init = .ok (outs n)) :
    ∃ xs : Matrix (Fin I) (Fin R) ℝ, (∀ i r, Tendsto (fun n => (outs n).st.F.A i r) atTop (nhds (xs i r))) ∧ (∀ i r, Tendsto (fun n => (outs n).st.auxA 0 i r) atTop (nhds (xs i r))) ∧
      ∀ Y : Matrix (Fin I) (Fin R) ℝ, (∀ r, TVColumn α (fun i => gradA P.X P.l2.1 init.F Y i r) fun i => Y i r) ↔ Y = xs := by
  obtain ⟨xs, h1, h2, h3⟩ := C68_A P hsvd hN hA hB hC hl init hw hsol (fun _ => .tv solver α 0) (fun _ => ⟨hs, hα, le_rfl⟩) (fun q => by rw [Subsingleton.elim q 0]; exact hpens) 0 0 (Set.mem_univ _)
    (fun q hq => absurd (Subsingleton.elim q 0) hq) outs h
  exact ⟨xs, h2, h3 0, fun Y => (tv_minA P.X hl init.F solver hα.le Y).symm.trans (h1 Y)⟩

/-- C140, the B factor matrices: if only this factor is updated and has a total variation penalty, then its iterates and auxiliary variables converge to the only matrix whose columns are optimal in
the sense of `TVColumn`. -/
theorem C140_B (P : Problem I K R nA 1 nC J) (hsvd : ValidSVD P.params) (hN : 0 < P.params.nInner) (hA : P.updA = false) (hB : P.updB = true)
    (hC : P.updC = false) (hl : 0 ≤ P.l2.2.1) (init : AOState I K R nA 1 nC J) (hw : ∀ i, 0 < weightB P.params.scale init.F i) (hsol : SolvableB init.F P.l2.2.1)
    (solver : (i : Fin I) → Matrix (Fin R) (Fin (J i)) ℝ → ℝ → Matrix (Fin R) (Fin (J i)) ℝ) (hs : ∀ i, SolvesTV (solver i)) {α : ℝ} (hα : 0 < α) (hpens : P.pensB 0 = StdPen.toB fun i => (StdPen.tv (solver i) α 0 : StdPen (J i) R))
    (outs : ℕ → Output (AOState I K R nA 1 nC J)) (h : ∀ n : ℕ, cmfAoadmm P (plain n) init = .ok (outs n)) :
    ∃ xs : Ragged I R J, (∀ i j r, Tendsto (fun n => (outs n).st.F.B i j r) atTop (nhds (xs i j r))) ∧ (∀ i j r, Tendsto (fun n => ((outs n).st.auxB 0).toMats i j r) atTop (nhds (xs i j r))) ∧
      ∀ Y : Ragged I R J, (∀ i r, TVColumn α (fun j => gradB P.X P.l2.2.1 init.F Y i j r) fun j => Y i j r) ↔ Y = xs := by
  obtain ⟨xs, h1, h2, h3⟩ := C68_B P hsvd hN hA hB hC hl init hw hsol (fun _ i => .tv (solver i) α 0) (fun _ i => ⟨hs i, hα, le_rfl⟩) (fun q => by rw [Subsingleton.elim q 0]; exact hpens) 0 0 (fun _ => Set.mem_univ _)
    (fun q hq => absurd (Subsingleton.elim q 0) hq) outs h
  exact ⟨xs, h2, h3 0, fun Y => (tv_minB P.X hl init.F solver hα.le Y).symm.trans (h1 Y)⟩

/-- C140, C: if only this factor is updated and has a total variation penalty, then its iterates and auxiliary variables converge to the only matrix whose columns are optimal in
the sense of `TVColumn`. -/
theorem C140_C (P : Problem I K R nA nB 1 J) (hsvd : ValidSVD P.params) (hN : 0 < P.params.nInner) (hA : P.updA = false) (hB : P.updB = false)
    (hC : P.updC = true) (hl : 0 ≤ P.l2.2.2) (init : AOState I K R nA nB 1 J) (hw : 0 < weightC P.params.scale init.F) (hsol : SolvableC init.F P.l2.2.2)
    (solver : Matrix (Fin R) (Fin K) ℝ → ℝ → Matrix (Fin R) (Fin K) ℝ) (hs : SolvesTV solver) {α : ℝ} (hα : 0 < α) (hpens : P.pensC 0 = (StdPen.tv solver α 0 : StdPen K R).toC)
    (outs : ℕ → Output (AOState I K R nA nB 1 J)) (h : ∀ n : ℕ, cmfAoadmm P (plain n) init = .ok (outs n)) :
    ∃ xs : Matrix (Fin K) (Fin R) ℝ, (∀ k r, Tendsto (fun n => (outs n).st.F.C k r) atTop (nhds (xs k r))) ∧ (∀ k r, Tendsto (fun n => (outs n).st.auxC 0 k r) atTop (nhds (xs k r))) ∧
      ∀ Y : Matrix (Fin K) (Fin R) ℝ, (∀ r, TVColumn α (fun k => gradC P.X P.l2.2.2 init.F Y k r) fun k => Y k r) ↔ Y = xs := by
  obtain ⟨xs, h1, h2, h3⟩ := C68_C P hsvd hN hA hB hC hl init hw hsol (fun _ => .tv solver α 0) (fun _ => ⟨hs, hα, le_rfl⟩) (fun q => by rw [Subsingleton.elim q 0]; exact hpens) 0 0 (Set.mem_univ _)
    (fun q hq => absurd (Subsingleton.elim q 0) hq) outs h
  exact ⟨xs, h2, h3 0, fun Y => (tv_minC P.X hl init.F solver hα.le Y).symm.trans (h1 Y)⟩

end Verif.Props
