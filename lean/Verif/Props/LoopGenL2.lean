import Verif.Props.LoopLasso

/-!
# C141: factors with a generalised L2 penalty
-/

set_option linter.unusedSectionVars false

namespace Verif.Props

open Verif.ADMM Verif.Penalties Verif.Spec Verif.Loop Finset Matrix Filter

variable {I K R n nA nB nC : ℕ} {J : Fin I → ℕ}

/-- The column `y` with derivative `g` solves the equations `g + 2 M y = 0`. -/
def GenL2Column {m : ℕ} (M : Matrix (Fin m) (Fin m) ℝ) (g y : Fin m → ℝ) : Prop := ∀ i, g i + 2 * ∑ j, M i j * y j = 0

/-- The quadratic form of `M`. -/
def formAt {m : ℕ} (M : Matrix (Fin m) (Fin m) ℝ) (y : Fin m → ℝ) : ℝ := ∑ i, ∑ j, y i * M i j * y j

theorem formAt_expand {m : ℕ} {M : Matrix (Fin m) (Fin m) ℝ} (hM : M.transpose = M) (y z : Fin m → ℝ) :
    formAt M z = formAt M y + ∑ i, 2 * (∑ j, M i j * y j) * (z i - y i) + formAt M (fun i => z i - y i) := by
  have hs : ∀ i j, M i j = M j i := fun i j => congrFun (congrFun hM j) i
  have e1 : ∑ i, ∑ j, y i * M i j * z j = ∑ i, ∑ j, z i * M i j * y j := by
    rw [sum_comm]
    exact sum_congr rfl fun i _ => sum_congr rfl fun j _ => by rw [hs j i]; ring
  have e2 : ∑ i, 2 * (∑ j, M i j * y j) * (z i - y i) = 2 * ∑ i, ∑ j, z i * M i j * y j - 2 * ∑ i, ∑ j, y i * M i j * y j := by
    rw [mul_sum, mul_sum, ← sum_sub_distrib]
    refine sum_congr rfl fun i _ => ?_
    simp only [mul_sum, sum_mul, ← sum_sub_distrib]
    exact sum_congr rfl fun j _ => by ring
  have e3 : formAt M (fun i => z i - y i) = ∑ i, ∑ j, z i * M i j * z j - ∑ i, ∑ j, z i * M i j * y j - ∑ i, ∑ j, y i * M i j * z j + ∑ i, ∑ j, y i * M i j * y j := by
    simp only [formAt, ← sum_sub_distrib, ← sum_add_distrib]
    exact sum_congr rfl fun i _ => sum_congr rfl fun j _ => by ring
  rw [e2, e3, e1, formAt, formAt]
  ring

/-- Minimisers of a convex quadratic function plus quadratic forms of the columns. -/
theorem gen_iff {V κ : Type} [Fintype κ] [AddCommGroup V] [Module ℝ V] {m : κ → ℕ} (f : V → ℝ) (col : (p : κ) → V → Fin (m p) → ℝ) (G : V → (p : κ) → Fin (m p) → ℝ) (Q : V → ℝ)
    (hQ : ∀ v, 0 ≤ Q v) (hQs : ∀ (t : ℝ) v, Q (t • v) = t ^ 2 * Q v) (hcol : ∀ p (t : ℝ) y v i, col p (y + t • v) i = col p y i + t * col p v i)
    (hf : ∀ y z, f z = f y + ∑ p, ∑ i, G y p i * (col p z i - col p y i) + Q (z - y)) (dir : (p : κ) → (Fin (m p) → ℝ) → V) (hp1 : ∀ p u, col p (dir p u) = u)
    (hp2 : ∀ p u q, q ≠ p → ∀ i, col q (dir p u) i = 0) (M : (p : κ) → Matrix (Fin (m p)) (Fin (m p)) ℝ) (hM : ∀ p, (M p).transpose = M p) (hM0 : ∀ p y, 0 ≤ formAt (M p) y) (y : V) :
    (∀ z, f y + ∑ p, formAt (M p) (col p y) ≤ f z + ∑ p, formAt (M p) (col p z)) ↔ ∀ p, GenL2Column (M p) (G y p) (col p y) := by
  have hexp : ∀ z, f z + ∑ p, formAt (M p) (col p z) = f y + ∑ p, formAt (M p) (col p y) + ∑ p, ∑ i, (G y p i + 2 * ∑ j, M p i j * col p y j) * (col p z i - col p y i) +
      (Q (z - y) + ∑ p, formAt (M p) fun i => col p z i - col p y i) := by
    intro z
    rw [hf y z, sum_congr rfl fun p _ => formAt_expand (hM p) (col p y) (col p z)]
    simp only [add_mul, sum_add_distrib]
    ring
  constructor
  · intro h p i
    have key : ∀ t : ℝ, 0 ≤ t * (G y p i + 2 * ∑ j, M p i j * col p y j) + t ^ 2 * (Q (dir p (Pi.single i 1)) + formAt (M p) (Pi.single i 1)) := by
      intro t
      have h1 := h (y + t • dir p (Pi.single i 1))
      rw [hexp (y + t • dir p (Pi.single i 1)), add_sub_cancel_left, hQs] at h1
      have e1 : ∑ q, ∑ k, (G y q k + 2 * ∑ j, M q k j * col q y j) * (col q (y + t • dir p (Pi.single i 1)) k - col q y k) = t * (G y p i + 2 * ∑ j, M p i j * col p y j) := by
        rw [sum_eq_single p, sum_eq_single i]
        · rw [hcol, hp1, Pi.single_eq_same]
          ring
        · intro k _ hk
          rw [hcol, hp1, Pi.single_eq_of_ne hk]
          ring
        · intro hi
          exact absurd (mem_univ i) hi
        · intro q _ hq
          simp [hcol, hp2 p _ q hq]
        · intro hp
          exact absurd (mem_univ p) hp
      have e2 : ∑ q, formAt (M q) (fun k => col q (y + t • dir p (Pi.single i 1)) k - col q y k) = t ^ 2 * formAt (M p) (Pi.single i 1) := by
        rw [sum_eq_single p]
        · simp only [formAt, hcol, hp1, add_sub_cancel_left, mul_sum]
          exact sum_congr rfl fun a _ => sum_congr rfl fun b _ => by ring
        · intro q _ hq
          simp [formAt, hcol, hp2 p _ q hq]
        · intro hp
          exact absurd (mem_univ p) hp
      rw [e1, e2] at h1
      linarith
    refine le_antisymm ?_ (nonneg_of_small fun t _ _ => key t)
    have := nonneg_of_small (a := -(G y p i + 2 * ∑ j, M p i j * col p y j)) (b := Q (dir p (Pi.single i 1)) + formAt (M p) (Pi.single i 1)) fun t _ _ => by
      have := key (-t)
      linarith
    linarith
  · intro h z
    rw [hexp z]
    have e1 : ∑ p, ∑ i, (G y p i + 2 * ∑ j, M p i j * col p y j) * (col p z i - col p y i) = 0 := sum_eq_zero fun p _ => sum_eq_zero fun i _ => by rw [h p i, zero_mul]
    rw [e1]
    have : 0 ≤ ∑ p, formAt (M p) fun i => col p z i - col p y i := sum_nonneg fun p _ => hM0 p _
    linarith [hQ (z - y)]

theorem gen_minA (X : Ragged I K J) {l : ℝ} (hl : 0 ≤ l) (F : Factors I K R J) {M : Matrix (Fin I) (Fin I) ℝ} (hM : M.transpose = M) (hM0 : ∀ y, 0 ≤ formAt M y) (d : SVD I I I)
    (Y : Matrix (Fin I) (Fin R) ℝ) :
    IsMinOver (fitA X l F) (fun _ : Fin 1 => (StdPen.genL2 M d : StdPen I R).feasible) (fun _ => (StdPen.genL2 M d : StdPen I R).fn) Y ↔
      ∀ r, GenL2Column M (fun i => gradA X l F Y i r) fun i => Y i r := by
  have key := gen_iff (m := fun _ : Fin R => I) (fitA X l F) (fun r Z i => Z i r) (fun Z r i => gradA X l F Z i r) (quadA l F)
    (fun v => add_nonneg (mul_nonneg (by norm_num) (sum_nonneg fun _ _ => sum_nonneg fun _ _ => sum_nonneg fun _ _ => sq_nonneg _)) (mul_nonneg (by linarith) (sqNorm_nonneg _)))
    (fun t v => quadA_smul l F t v) (fun p t y z i => by simp) (fun y z => by rw [fitA_expand X l F y z, sum_comm]) (fun r u => Matrix.of fun i s => if s = r then u i else 0)
    (fun p u => by funext i; simp) (fun p u q hq i => by simp [hq]) (fun _ => M) (fun _ => hM) (fun _ => hM0) Y
  rw [← key]
  simp only [IsMinOver, univ_unique, sum_singleton, forall_const, StdPen.feasible, StdPen.fn, Set.mem_univ, true_and, formAt]

theorem gen_minB (X : Ragged I K J) {l : ℝ} (hl : 0 ≤ l) (F : Factors I K R J) {M : (i : Fin I) → Matrix (Fin (J i)) (Fin (J i)) ℝ} (hM : ∀ i, (M i).transpose = M i) (hM0 : ∀ i y, 0 ≤ formAt (M i) y)
    (d : (i : Fin I) → SVD (J i) (J i) (J i)) (Y : Ragged I R J) :
    IsMinOver (fitB X l F) (fun _ : Fin 1 => {Z : Ragged I R J | ∀ i, Z i ∈ (StdPen.genL2 (M i) (d i) : StdPen (J i) R).feasible})
      (fun _ Z => ∑ i, (StdPen.genL2 (M i) (d i) : StdPen (J i) R).fn (Z i)) Y ↔ ∀ i r, GenL2Column (M i) (fun j => gradB X l F Y i j r) fun j => Y i j r := by
  have key := gen_iff (m := fun p : Fin I × Fin R => J p.1) (fitB X l F) (fun p Z j => Z p.1 j p.2) (fun Z p j => gradB X l F Z p.1 j p.2) (quadB l F)
    (fun v => add_nonneg (mul_nonneg (by norm_num) (sum_nonneg fun _ _ => sum_nonneg fun _ _ => sum_nonneg fun _ _ => sq_nonneg _))
      (mul_nonneg (by linarith) (sum_nonneg fun _ _ => sqNorm_nonneg _)))
    (fun t v => quadB_smul l F t v) (fun p t y z i => by simp)
    (fun y z => by rw [fitB_expand X l F y z, Fintype.sum_prod_type]; congr 2; exact sum_congr rfl fun i _ => sum_comm)
    (fun p u i => if h : i = p.1 then Matrix.of fun j s => if s = p.2 then u (h ▸ j) else 0 else 0)
    (fun p u => by funext i; simp) (fun p u q hq i => by
      by_cases h : q.1 = p.1
      · have h2 : q.2 ≠ p.2 := fun h2 => hq (Prod.ext h h2)
        simp [h, h2]
      · simp [h]) (fun p => M p.1) (fun p => hM p.1) (fun p => hM0 p.1) Y
  simp only [Prod.forall, Fintype.sum_prod_type] at key
  rw [← key]
  simp only [IsMinOver, univ_unique, sum_singleton, forall_const, StdPen.feasible, StdPen.fn, Set.mem_univ, Set.mem_ofPred_eq, implies_true, true_and, formAt]

theorem gen_minC (X : Ragged I K J) {l : ℝ} (hl : 0 ≤ l) (F : Factors I K R J) {M : Matrix (Fin K) (Fin K) ℝ} (hM : M.transpose = M) (hM0 : ∀ y, 0 ≤ formAt M y) (d : SVD K K K)
    (Y : Matrix (Fin K) (Fin R) ℝ) :
    IsMinOver (fitC X l F) (fun _ : Fin 1 => (StdPen.genL2 M d : StdPen K R).feasible) (fun _ => (StdPen.genL2 M d : StdPen K R).fn) Y ↔
      ∀ r, GenL2Column M (fun k => gradC X l F Y k r) fun k => Y k r := by
  have key := gen_iff (m := fun _ : Fin R => K) (fitC X l F) (fun r Z k => Z k r) (fun Z r k => gradC X l F Z k r) (quadC l F)
    (fun v => add_nonneg (mul_nonneg (by norm_num) (sum_nonneg fun _ _ => sum_nonneg fun _ _ => sum_nonneg fun _ _ => sq_nonneg _)) (mul_nonneg (by linarith) (sqNorm_nonneg _)))
    (fun t v => quadC_smul l F t v) (fun p t y z i => by simp) (fun y z => by rw [fitC_expand X l F y z, sum_comm]) (fun r u => Matrix.of fun k s => if s = r then u k else 0)
    (fun p u => by funext i; simp) (fun p u q hq i => by simp [hq]) (fun _ => M) (fun _ => hM) (fun _ => hM0) Y
  rw [← key]
  simp only [IsMinOver, univ_unique, sum_singleton, forall_const, StdPen.feasible, StdPen.fn, Set.mem_univ, true_and, formAt]

/-- C141, A: if only this factor is updated and has a generalised L2 penalty, then its iterates and auxiliary variables converge to the only matrix whose columns solve the
equations of `GenL2Column`. -/
theorem C141_A (P : Problem I K R 1 nB nC J) (hsvd : ValidSVD P.params) (hN : 0 < P.params.nInner) (hA : P.updA = true) (hB : P.updB = false)
    (hC : P.updC = false) (hl : 0 ≤ P.l2.1) (init : AOState I K R 1 nB nC J) (hw : ∀ i, 0 < weightA P.params.scale init.F i) (hsol : SolvableA init.F P.l2.1)
    (M : Matrix (Fin I) (Fin I) ℝ) (hM : M.transpose = M) (hM0 : ∀ y, 0 ≤ formAt M y) (d : SVD I I I) (hd : d.Valid M) (hpens : P.pensA 0 = (StdPen.genL2 M d : StdPen I R).toA)
    (outs : ℕ → Output (AOState I K R 1 nB nC J)) (h : ∀ n : ℕ, cmfAoadmm P (plain n) init = .ok (outs n)) :
    ∃ xs : Matrix (Fin I) (Fin R) ℝ, (∀ i r, Tendsto (fun n => (outs n).st.F.A i r) atTop (nhds (xs i r))) ∧ (∀ i r, Tendsto (fun n => (outs n).st.auxA 0 i r) atTop (nhds (xs i r))) ∧
      ∀ Y : Matrix (Fin I) (Fin R) ℝ, (∀ r, GenL2Column M (fun i => gradA P.X P.l2.1 init.F Y i r) fun i => Y i r) ↔ Y = xs := by
  obtain ⟨xs, h1, h2, h3⟩ := C68_A P hsvd hN hA hB hC hl init hw hsol (fun _ => .genL2 M d) (fun _ => ⟨hM, hM0, hd⟩) (fun q => by rw [Subsingleton.elim q 0]; exact hpens) 0 0 (Set.mem_univ _)
    (fun q hq => absurd (Subsingleton.elim q 0) hq) outs h
  exact ⟨xs, h2, h3 0, fun Y => (gen_minA P.X hl init.F hM hM0 d Y).symm.trans (h1 Y)⟩

/-- C141, the B factor matrices: if only this factor is updated and has a generalised L2 penalty, then its iterates and auxiliary variables converge to the only matrix whose columns solve the
equations of `GenL2Column`. -/
theorem C141_B (P : Problem I K R nA 1 nC J) (hsvd : ValidSVD P.params) (hN : 0 < P.params.nInner) (hA : P.updA = false) (hB : P.updB = true)
    (hC : P.updC = false) (hl : 0 ≤ P.l2.2.1) (init : AOState I K R nA 1 nC J) (hw : ∀ i, 0 < weightB P.params.scale init.F i) (hsol : SolvableB init.F P.l2.2.1)
    (M : (i : Fin I) → Matrix (Fin (J i)) (Fin (J i)) ℝ) (hM : ∀ i, (M i).transpose = M i) (hM0 : ∀ i y, 0 ≤ formAt (M i) y)
    (d : (i : Fin I) → SVD (J i) (J i) (J i)) (hd : ∀ i, (d i).Valid (M i)) (hpens : P.pensB 0 = StdPen.toB fun i => (StdPen.genL2 (M i) (d i) : StdPen (J i) R))
    (outs : ℕ → Output (AOState I K R nA 1 nC J)) (h : ∀ n : ℕ, cmfAoadmm P (plain n) init = .ok (outs n)) :
    ∃ xs : Ragged I R J, (∀ i j r, Tendsto (fun n => (outs n).st.F.B i j r) atTop (nhds (xs i j r))) ∧ (∀ i j r, Tendsto (fun n => ((outs n).st.auxB 0).toMats i j r) atTop (nhds (xs i j r))) ∧
      ∀ Y : Ragged I R J, (∀ i r, GenL2Column (M i) (fun j => gradB P.X P.l2.2.1 init.F Y i j r) fun j => Y i j r) ↔ Y = xs := by
  obtain ⟨xs, h1, h2, h3⟩ := C68_B P hsvd hN hA hB hC hl init hw hsol (fun _ i => .genL2 (M i) (d i)) (fun _ i => ⟨hM i, hM0 i, hd i⟩) (fun q => by rw [Subsingleton.elim q 0]; exact hpens) 0 0 (fun _ => Set.mem_univ _)
    (fun q hq => absurd (Subsingleton.elim q 0) hq) outs h
  exact ⟨xs, h2, h3 0, fun Y => (gen_minB P.X hl init.F hM hM0 d Y).symm.trans (h1 Y)⟩

/-- C141, C: if only this factor is updated and has a generalised L2 penalty, then its iterates and auxiliary variables converge to the only matrix whose columns solve the
equations of `GenL2Column`. -/
theorem C141_C (P : Problem I K R nA nB 1 J) (hsvd : ValidSVD P.params) (hN : 0 < P.params.nInner) (hA : P.updA = false) (hB : P.updB = false)
    (hC : P.updC = true) (hl : 0 ≤ P.l2.2.2) (init : AOState I K R nA nB 1 J) (hw : 0 < weightC P.params.scale init.F) (hsol : SolvableC init.F P.l2.2.2)
    (M : Matrix (Fin K) (Fin K) ℝ) (hM : M.transpose = M) (hM0 : ∀ y, 0 ≤ formAt M y) (d : SVD K K K) (hd : d.Valid M) (hpens : P.pensC 0 = (StdPen.genL2 M d : StdPen K R).toC)
    (outs : ℕ → Output (AOState I K R nA nB 1 J)) (h : ∀ n : ℕ, cmfAoadmm P (plain n) init = .ok (outs n)) :
    ∃ xs : Matrix (Fin K) (Fin R) ℝ, (∀ k r, Tendsto (fun n => (outs n).st.F.C k r) atTop (nhds (xs k r))) ∧ (∀ k r, Tendsto (fun n => (outs n).st.auxC 0 k r) atTop (nhds (xs k r))) ∧
      ∀ Y : Matrix (Fin K) (Fin R) ℝ, (∀ r, GenL2Column M (fun k => gradC P.X P.l2.2.2 init.F Y k r) fun k => Y k r) ↔ Y = xs := by
  obtain ⟨xs, h1, h2, h3⟩ := C68_C P hsvd hN hA hB hC hl init hw hsol (fun _ => .genL2 M d) (fun _ => ⟨hM, hM0, hd⟩) (fun q => by rw [Subsingleton.elim q 0]; exact hpens) 0 0 (Set.mem_univ _)
    (fun q hq => absurd (Subsingleton.elim q 0) hq) outs h
  exact ⟨xs, h2, h3 0, fun Y => (gen_minC P.X hl init.F hM hM0 d Y).symm.trans (h1 Y)⟩

/-- The data matrix `[[6]]`, A and B equal to 1, the norm matrix `[[1]]` for C: C tends to 2, not to the 3 of an L2 penalty of strength 1. -/
theorem C141_example : ∃ (P : Problem 1 1 1 0 0 1 fun _ => 1) (init : AOState 1 1 1 0 0 1 fun _ => 1) (outs : ℕ → Output (AOState 1 1 1 0 0 1 fun _ => 1)) (d : SVD 1 1 1),
    (∀ n : ℕ, cmfAoadmm P (plain n) init = .ok (outs n)) ∧ P.pensC 0 = (StdPen.genL2 !![1] d : StdPen 1 1).toC ∧ init.F.C = !![7] ∧
      Tendsto (fun n => (outs n).st.F.C 0 0) atTop (nhds 2) := by
  obtain ⟨prm, hP, hN, -, hscale⟩ := exists_params 1 3 none 2
  obtain ⟨svd, hsvd⟩ := exists_svd_fun 1
  let P : Problem 1 1 1 0 0 1 fun _ => 1 :=
    ⟨fun _ => !![6], Fin.elim0, Fin.elim0, fun _ => (StdPen.genL2 !![1] (svd !![1]) : StdPen 1 1).toC, (0, 0, 0), prm, false, false, false, false, true⟩
  let init : AOState 1 1 1 0 0 1 fun _ => 1 := ⟨none, ⟨ones.A, ones.B, !![7]⟩, Fin.elim0, Fin.elim0, Fin.elim0, Fin.elim0, fun _ => !![5], fun _ => !![4]⟩
  choose outs ho using fun n : ℕ => C61 P one_pos (fun _ p => p.elim0) (plain n) (by simp [plain, truthy]) init
  refine ⟨P, init, outs, svd !![1], ho, rfl, rfl, ?_⟩
  obtain ⟨xs, h1, -, h3⟩ := C141_C P hP (by show 0 < prm.nInner; omega) rfl rfl rfl le_rfl init
    (by show 0 < weightC prm.scale _; rw [hscale]; simp [weightC, init, ones]) solvable_ones.2.2 !![1] (by ext i j; fin_cases i; fin_cases j; rfl)
    (fun y => by simp [formAt]; exact mul_self_nonneg _) (svd !![1]) (hsvd _) rfl outs ho
  have h5 : !![2] = xs := (h3 _).1 (by
    intro r i
    fin_cases r; fin_cases i
    simp [gradC, Factors.entry, P, init, ones]
    norm_num)
  have := h1 0 0
  rw [← h5] at this
  exact this

end Verif.Props
