import Verif.Props.LoopFalse
import Mathlib.Analysis.InnerProductSpace.PiL2

/-!
# C107: the documented stopping conditions

Inner loop: `docs/optimization.rst` (stopping conditions) compares the new factor with the previous auxiliary variable, the code (`decomposition.py` lines 92-116) with the previous factor.
Outer loop: the docstring (`decomposition.py` lines 775-782) compares the previous loss with `absolute_tol`, the code (line 1040) and `docs/optimization.rst` the current one.
-/

namespace Verif.Props

open Verif.Loop Verif.ADMM Verif.Penalties Verif.Spec Finset

variable {I K R n : ℕ} {J : Fin I → ℕ}

/-! ### Triangle inequalities -/

theorem sqrt_sum_add_le {ι : Type} [Fintype ι] (f g : ι → ℝ) : √(∑ i, (f i + g i) ^ 2) ≤ √(∑ i, f i ^ 2) + √(∑ i, g i ^ 2) := by
  have h := norm_add_le (WithLp.toLp 2 f : EuclideanSpace ℝ ι) (WithLp.toLp 2 g)
  simpa only [EuclideanSpace.norm_eq, Real.norm_eq_abs, sq_abs, PiLp.add_apply] using h

theorem sqNorm_flat {m k : ℕ} (X : Matrix (Fin m) (Fin k) ℝ) : sqNorm X = ∑ p : Fin m × Fin k, X p.1 p.2 ^ 2 := by
  rw [Fintype.sum_prod_type]; rfl

theorem raggedSq_flat (X : Ragged I R J) : raggedSq X = ∑ p : Σ i, Fin (J i) × Fin R, X p.1 p.2.1 p.2.2 ^ 2 := by
  rw [Fintype.sum_sigma]
  exact sum_congr rfl fun i _ => sqNorm_flat (X i)

theorem matTriangle {m k : ℕ} (X Y Z : Matrix (Fin m) (Fin k) ℝ) : √(sqNorm (X - Z)) ≤ √(sqNorm (X - Y)) + √(sqNorm (Y - Z)) := by
  simp only [sqNorm_flat]
  have := sqrt_sum_add_le (fun p : Fin m × Fin k => (X - Y) p.1 p.2) fun p => (Y - Z) p.1 p.2
  simpa only [Matrix.sub_apply, sub_add_sub_cancel] using this

theorem ragTriangle (X Y Z : Ragged I R J) : √(raggedSq (X - Z)) ≤ √(raggedSq (X - Y)) + √(raggedSq (Y - Z)) := by
  simp only [raggedSq_flat]
  have := sqrt_sum_add_le (fun p : Σ i, Fin (J i) × Fin R => (X - Y) p.1 p.2.1 p.2.2) fun p => (Y - Z) p.1 p.2.1 p.2.2
  simpa only [Pi.sub_apply, Matrix.sub_apply, sub_add_sub_cancel] using this

theorem sqNorm_sub_zero {m k : ℕ} (X : Matrix (Fin m) (Fin k) ℝ) : sqNorm (X - 0) = sqNorm X := by rw [sub_zero]

theorem raggedSq_sub_zero (X : Ragged I R J) : raggedSq (X - 0) = raggedSq X := by rw [sub_zero]

/-! ### Inner loop -/

/-- The two documented conditions of the inner loop, for a factor of norm `x`, at distance `gap` of the new auxiliary variable of norm `z`, and at distance `old` of the previous one. -/
def DocInner (ε x gap z old : ℝ) : Prop := gap < ε * x ∧ old < ε * z

theorem docBound {ε x xp change gap old z gp γ : ℝ} (hε : 0 < ε) (hγ : 0 ≤ γ) (hc : change ≤ ε * x) (hg : gap < ε * x) (hp : gp ≤ γ * xp) (h1 : old ≤ change + gp)
    (h2 : x ≤ gap + z) (h3 : xp ≤ change + x) (_ : 0 ≤ x) : old * (1 - ε) ≤ (ε + γ * (1 + ε)) * z ∨ 1 < ε := by
  rcases lt_or_ge 1 ε with h | h
  · exact .inr h
  left
  have e1 : old ≤ (ε + γ * (1 + ε)) * x := by nlinarith
  have e2 : x * (1 - ε) ≤ z := by nlinarith
  have e3 : 0 ≤ ε + γ * (1 + ε) := by positivity
  calc old * (1 - ε) ≤ (ε + γ * (1 + ε)) * x * (1 - ε) := mul_le_mul_of_nonneg_right e1 (by linarith)
    _ = (ε + γ * (1 + ε)) * (x * (1 - ε)) := by ring
    _ ≤ _ := mul_le_mul_of_nonneg_left e2 e3

theorem docMat {m : ℕ} {ε : ℝ} {x x' : Matrix (Fin m) (Fin R) ℝ} {z' : Fin n → Matrix (Fin m) (Fin R) ℝ} (h : MatDone (some ε) x x' z') (p : Fin n) :
    √(sqNorm (x' - z' p)) < ε * √(sqNorm x') ∧ ∀ (z : Matrix (Fin m) (Fin R) ℝ) (γ : ℝ), 0 ≤ γ → √(sqNorm (x - z)) ≤ γ * √(sqNorm x) →
      √(sqNorm (x' - z)) * (1 - ε) ≤ (ε + γ * (1 + ε)) * √(sqNorm (z' p)) ∨ 1 < ε := by
  obtain ⟨t, ht, hε, hc, hg⟩ := h
  obtain rfl := Option.some.inj ht
  refine ⟨hg p, fun z γ hγ hz => docBound hε hγ hc (hg p) hz (matTriangle x' x z) ?_ ?_ (Real.sqrt_nonneg _)⟩
  · have := matTriangle x' (z' p) 0
    rwa [sqNorm_sub_zero, sqNorm_sub_zero] at this
  · have := matTriangle x x' 0
    rwa [sqNorm_sub_zero, sqNorm_sub_zero, sqNorm_sub_comm x] at this

theorem docRag {ε : ℝ} {x x' : Ragged I R J} {z' : Fin n → Ragged I R J} (h : RagDone (some ε) x x' z') (p : Fin n) :
    √(raggedSq (x' - z' p)) < ε * √(raggedSq x') ∧ ∀ (z : Ragged I R J) (γ : ℝ), 0 ≤ γ → √(raggedSq (x - z)) ≤ γ * √(raggedSq x) →
      √(raggedSq (x' - z)) * (1 - ε) ≤ (ε + γ * (1 + ε)) * √(raggedSq (z' p)) ∨ 1 < ε := by
  obtain ⟨t, ht, hε, hc, hg⟩ := h
  obtain rfl := Option.some.inj ht
  refine ⟨hg p, fun z γ hγ hz => docBound hε hγ hc (hg p) hz (ragTriangle x' x z) ?_ ?_ (Real.sqrt_nonneg _)⟩
  · have := ragTriangle x' (z' p) 0
    rwa [raggedSq_sub_zero, raggedSq_sub_zero] at this
  · have := ragTriangle x x' 0
    rwa [raggedSq_sub_zero, raggedSq_sub_zero, raggedSq_sub_comm x] at this

/-- C107, inner loop of A: an update is a number of single inner iterations. If it stops before the limit, the last one meets the first documented condition, and if the gaps before it were at
most `γ` it meets the second one with `(ε + γ (1 + ε)) / (1 - ε)` for `ε`. Missing: the second condition itself, which is false (`C107_false`). -/
theorem C107_A_partial (P : Params R) (X : Ragged I K J) (pens : Fin n → PenA I R) (l2 : ℝ) (constant : Bool) (F : Factors I K R J)
    (aux dual : Fin n → Matrix (Fin I) (Fin R) ℝ) (s : MatState I R n) (h : admmUpdateA P X pens l2 constant F aux dual = .ok s) (ε : ℝ) (hε : P.innerTol = some ε) (hε1 : ε ≤ 1) :
    ∃ M ≤ P.nInner, ∃ seq : ℕ → MatState I R n, seq 0 = ⟨F.A, aux, dual⟩ ∧ s = seq M ∧
      (∀ k < M, admmUpdateA (once P) X pens l2 constant ⟨(seq k).x, F.B, F.C⟩ (seq k).aux (seq k).dual = .ok (seq (k + 1))) ∧
      (M < P.nInner → ∃ k, M = k + 1 ∧ ∀ p, √(sqNorm (s.x - s.aux p)) < ε * √(sqNorm s.x) ∧
        ∀ γ, 0 ≤ γ → √(sqNorm ((seq k).x - (seq k).aux p)) ≤ γ * √(sqNorm (seq k).x) →
          √(sqNorm (s.x - (seq k).aux p)) * (1 - ε) ≤ (ε + γ * (1 + ε)) * √(sqNorm (s.aux p))) := by
  obtain ⟨M, hM, seq, h0, hs, h1, -, h2, -⟩ := C33_A P X pens l2 constant F aux dual s h
  refine ⟨M, hM, seq, h0, hs, h1, fun hlt => ?_⟩
  obtain ⟨k, rfl, hk⟩ := h2 hlt
  rw [hε] at hk
  subst hs
  exact ⟨k, rfl, fun p => ⟨(docMat hk p).1, fun γ hγ hz => ((docMat hk p).2 _ γ hγ hz).resolve_right (not_lt.2 hε1)⟩⟩

/-- C107, inner loop of the B matrices, as `C107_A_partial`. -/
theorem C107_B_partial (P : Params R) (X : Ragged I K J) (pens : Fin n → PenB I R J) (l2 : ℝ) (constant : Bool) (F : Factors I K R J)
    (aux : Fin n → AuxB I R J) (dual : Fin n → Ragged I R J) (s : RagState I R n J) (h : admmUpdateB P X pens l2 constant F aux dual = .ok s) (ε : ℝ) (hε : P.innerTol = some ε) (hε1 : ε ≤ 1) :
    ∃ M ≤ P.nInner, ∃ seq : ℕ → RagState I R n J, seq 0 = ⟨F.B, aux, dual⟩ ∧ s = seq M ∧
      (∀ k < M, admmUpdateB (once P) X pens l2 constant ⟨F.A, (seq k).x, F.C⟩ (seq k).aux (seq k).dual = .ok (seq (k + 1))) ∧
      (M < P.nInner → ∃ k, M = k + 1 ∧ ∀ p, √(raggedSq (s.x - (s.aux p).toMats)) < ε * √(raggedSq s.x) ∧
        ∀ γ, 0 ≤ γ → √(raggedSq ((seq k).x - ((seq k).aux p).toMats)) ≤ γ * √(raggedSq (seq k).x) →
          √(raggedSq (s.x - ((seq k).aux p).toMats)) * (1 - ε) ≤ (ε + γ * (1 + ε)) * √(raggedSq (s.aux p).toMats)) := by
  obtain ⟨M, hM, seq, h0, hs, h1, -, h2, -⟩ := C33_B P X pens l2 constant F aux dual s h
  refine ⟨M, hM, seq, h0, hs, h1, fun hlt => ?_⟩
  obtain ⟨k, rfl, hk⟩ := h2 hlt
  rw [hε] at hk
  subst hs
  exact ⟨k, rfl, fun p => ⟨(docRag hk p).1, fun γ hγ hz => ((docRag hk p).2 _ γ hγ hz).resolve_right (not_lt.2 hε1)⟩⟩

/-- C107, inner loop of C, as `C107_A_partial`. -/
theorem C107_C_partial (P : Params R) (X : Ragged I K J) (pens : Fin n → PenC K R) (l2 : ℝ) (F : Factors I K R J) (aux dual : Fin n → Matrix (Fin K) (Fin R) ℝ)
    (ε : ℝ) (hε : P.innerTol = some ε) (hε1 : ε ≤ 1) (s : MatState K R n) (h : admmUpdateC P X pens l2 F aux dual = s) :
    ∃ M ≤ P.nInner, ∃ seq : ℕ → MatState K R n, seq 0 = ⟨F.C, aux, dual⟩ ∧ s = seq M ∧
      (∀ k < M, admmUpdateC (once P) X pens l2 ⟨F.A, F.B, (seq k).x⟩ (seq k).aux (seq k).dual = seq (k + 1)) ∧
      (M < P.nInner → ∃ k, M = k + 1 ∧ ∀ p, √(sqNorm (s.x - s.aux p)) < ε * √(sqNorm s.x) ∧
        ∀ γ, 0 ≤ γ → √(sqNorm ((seq k).x - (seq k).aux p)) ≤ γ * √(sqNorm (seq k).x) →
          √(sqNorm (s.x - (seq k).aux p)) * (1 - ε) ≤ (ε + γ * (1 + ε)) * √(sqNorm (s.aux p))) := by
  obtain ⟨M, hM, seq, h0, hs, h1, -, h2, -⟩ := C33_C P X pens l2 F aux dual
  rw [h] at hs
  refine ⟨M, hM, seq, h0, hs, h1, fun hlt => ?_⟩
  obtain ⟨k, rfl, hk⟩ := h2 hlt
  rw [hε] at hk
  subst hs
  exact ⟨k, rfl, fun p => ⟨(docMat hk p).1, fun γ hγ hz => ((docMat hk p).2 _ γ hγ hz).resolve_right (not_lt.2 hε1)⟩⟩

/-! ### Counterexamples -/

theorem updateA_stop {prm : Params 1} (hP : ValidSVD prm) (hN : prm.nInner = 1) (hs : prm.scale = 1) :
    admmUpdateA prm (scX 3) (fun _ : Fin 1 => StdPen.nonNeg.toA) 0 false (scF 10 1 1) (fun _ => sc 24) (fun _ => sc 0) = .ok ⟨sc 10, fun _ => sc 10, fun _ => sc 0⟩ := by
  have h := updateA_sc (n := 1) prm hP hN hs 3 0 10 le_rfl (fun _ => StdPen.nonNeg.toA) (fun _ => nonNegRow 1) (fun _ => rfl) (fun _ => 24) fun _ => 0
  have e : ((1 / 2 * (∑ p : Fin 1, ((24 : ℝ) - 0)) + 3) / (1 + (1 / 2 * ((1 : ℕ) : ℝ) + 0)) : ℝ) = 10 := by norm_num
  rw [h, e]
  have hc : ∀ z, nonNegRow 1 (fun _ => (10 : ℝ) + 0) (1 / 2) z = fun _ => 10 := fun z => by
    funext r; norm_num [nonNegRow, clip]
  simp only [hc]
  congr 2
  funext _; congr 1; norm_num

/-- C107 is false for the inner loop: data 3, factors 1, non-negative A with initial value 10 and auxiliary variable 24, at most five inner iterations, tolerance 1/10. The update stops after the
first inner iteration with A = 10, although the second documented ratio is 14/10, and A = 3 fits exactly. -/
theorem C107_false : ∃ (P : Params 1) (s : MatState 1 1 1), ValidSVD P ∧ P.nInner = 5 ∧ P.innerTol = some (1 / 10) ∧
    admmUpdateA P (scX 3) (fun _ : Fin 1 => StdPen.nonNeg.toA) 0 false (scF 10 1 1) (fun _ => sc 24) (fun _ => sc 0) = .ok s ∧
    admmUpdateA (once P) (scX 3) (fun _ : Fin 1 => StdPen.nonNeg.toA) 0 false (scF 10 1 1) (fun _ => sc 24) (fun _ => sc 0) = .ok s ∧
    ¬ DocInner (1 / 10) √(sqNorm s.x) √(sqNorm (s.x - s.aux 0)) √(sqNorm (s.aux 0)) √(sqNorm (s.x - sc 24)) ∧
    sse (scX 3) ⟨sc 3, fun _ => sc 1, sc 1⟩ = 0 ∧ sse (scX 3) ⟨s.x, fun _ => sc 1, sc 1⟩ = 49 := by
  obtain ⟨P, hP, hN, ht, hs⟩ := exists_params 1 5 (some (1 / 10)) 1
  have h1 : admmUpdateA (once P) (scX 3) (fun _ : Fin 1 => StdPen.nonNeg.toA) 0 false (scF 10 1 1) (fun _ => sc 24) (fun _ => sc 0) = .ok ⟨sc 10, fun _ => sc 10, fun _ => sc 0⟩ :=
    updateA_stop (prm := once P) hP rfl hs
  have h5 : ∃ s, admmUpdateA P (scX 3) (fun _ : Fin 1 => StdPen.nonNeg.toA) 0 false (scF 10 1 1) (fun _ => sc 24) (fun _ => sc 0) = .ok s := by
    unfold admmUpdateA
    have hf : feasPenalties P.scale false (crossA (scF 10 1 1)) = .ok (none, fun _ => 1 / 2) := by
      simp only [feasPenalties, crossA_sc, feasPenalty_sc, hs]
      norm_num
    rw [hf]
    simp only [Except.bind]
    have hrow : (List.ofFn fun _ : Fin 1 => (StdPen.nonNeg.toA : PenA 1 1)).any (fun p => p.row.isNone) = false := by rfl
    rw [hrow]
    simp only [Bool.and_false, Bool.false_eq_true, if_false]
    exact ⟨_, rfl⟩
  obtain ⟨s, h5⟩ := h5
  obtain ⟨M, hM, seq, e0, es, e1, -, e2, e3⟩ := C33_A P _ _ _ _ _ _ _ s h5
  have hM0 : 0 < M := by
    rcases Nat.eq_zero_or_pos M with rfl | h
    · obtain ⟨k, hk, -⟩ := e2 (by omega)
      omega
    · exact h
  have s1 : seq 1 = ⟨sc 10, fun _ => sc 10, fun _ => sc 0⟩ := by
    have := e1 0 hM0
    rw [e0] at this
    exact Except.ok.inj (this.symm.trans h1)
  have hd : MatDone P.innerTol (seq 0).x (seq (0 + 1)).x (seq (0 + 1)).aux := by
    rw [s1, e0, ht]
    refine ⟨1 / 10, rfl, by norm_num, ?_, fun p => ?_⟩
    · simp [scF, sqNorm]
    · simp [sqNorm, sc]
  have hM1 : M = 1 := by
    by_contra hne
    exact e3 0 (by omega) hd
  have hss : s = ⟨sc 10, fun _ => sc 10, fun _ => sc 0⟩ := by rw [es, hM1, s1]
  refine ⟨P, s, hP, hN, ht, h5, by rw [h1, hss], ?_, ?_, ?_⟩
  · rintro ⟨-, h⟩
    rw [hss] at h
    simp only [sqNorm, sc, Matrix.sub_apply, univ_unique, sum_singleton, Real.sqrt_sq_eq_abs] at h
    norm_num at h
  · simp [sse, scX, sc, Factors.entry]
  · rw [hss]
    simp [sse, scX, sc, Factors.entry]
    norm_num

/-- C107 is false for the outer loop as the docstring has it: data 1, only A is updated, from 0 to 1. The call stops after the first of three iterations, because the loss 0 is below `absolute_tol`;
the previous loss 1/2 is not, and the relative change is 1. -/
theorem C107_loss_false : ∃ (P : Problem 1 1 1 1 0 0 (fun _ => 1)) (init : AOState 1 1 1 1 0 0 fun _ => 1) (out : Output _) (d : Diagnostics),
    ValidSVD P.params ∧ 0 < P.params.nInner ∧ cmfAoadmm P ⟨3, some (1 / 10), some (1 / 1000), some (1 / 2), true, 0⟩ init = .ok out ∧ out.diag = some d ∧
    d.nIter = 1 ∧ d.stopping = some true ∧ ∃ l l' : ℝ, d.losses = [.fin l, .fin l'] ∧ ¬ (|l - l'| / l < 1 / 10 ∨ l < 1 / 1000) := by
  obtain ⟨prm, hP, hN, -, hs⟩ := exists_params 1 1 none 1
  obtain ⟨i1, h1⟩ := sweep_nonNeg hP hN hs 0 1 0 1 (by norm_num) (by norm_num)
  have hX : (scP prm 1 0 fun _ : Fin 1 => StdPen.nonNeg.toA).X ≠ 0 := fun h => by
    have := congrFun (congrFun (congrFun h 0) 0) 0
    simp [scP, scX, sc] at this
  set P := scP prm 1 0 fun _ : Fin 1 => StdPen.nonNeg.toA with hPdef
  have c1 := check_scS 1 (1 + 0) 0 (1 / 2) (by norm_num)
  rw [show decide (|1 + 0 - (1 : ℝ)| / |(1 : ℝ)| < 1 / 2) = true from by norm_num] at c1
  let a : Args := ⟨3, some (1 / 10), some (1 / 1000), some (1 / 2), true, 0⟩
  let init := scS (n := 1) 0 (fun _ => 1) fun _ => 0
  have l0 : (initAcc (aoOps P) a none init).losses = [.fin (1 / 2)] := by
    simp only [initAcc, relError_none hX, lossOf, penalty_eq]
    rw [show 1 / 2 * relErr P.X init ^ 2 + regValue P init.F = lossValue P init from rfl, hPdef, lossValue_scS]
    norm_num
  have v1 : lossValue P (scS (n := 1) 1 (fun _ => 1 + 0) fun _ => 0) = 0 := by
    rw [hPdef, lossValue_scS, sq_abs]; norm_num
  obtain ⟨s1, b1, st1, ls1, hst⟩ := body_eval hX (a := a) (tol := 1 / 10) (abs := 1 / 1000) (ft := 1 / 2)
    ⟨rfl, by norm_num⟩ rfl ⟨rfl, by norm_num⟩ (s := initAcc (aoOps P) a none init) h1 (.inl rfl) (p := .fin (1 / 2)) (by rw [l0]; rfl)
  have k1 : decide ((0 : ℝ) < 1 / 1000) = true := by norm_num
  rw [c1, v1, k1, Bool.or_true, Bool.and_true] at b1 hst
  rw [l0, v1] at ls1
  have r1 : run (aoOps P) a 3 (initAcc (aoOps P) a none init) = .ok s1 := by
    rw [run, b1]
  have hcall : cmfAoadmm P a init = .ok ⟨s1.st, some (diagnostics (aoOps P) a s1), s1.log⟩ := by
    unfold cmfAoadmm fit
    rw [show a.nIterMax.toNat = 3 from rfl, r1]
    rfl
  refine ⟨P, init, _, diagnostics (aoOps P) a s1, hP, by show 0 < prm.nInner; omega, hcall, rfl, ?_, ?_, 1 / 2, 0, ls1, by norm_num⟩
  · obtain ⟨d, hd, -, -, hlen, -⟩ := C37 P hX a rfl init _ hcall
    obtain rfl := Option.some.inj hd
    have : s1.losses.length = (diagnostics (aoOps P) a s1).nIter + 1 := hlen
    rw [ls1] at this
    simpa using this.symm
  · have := hst rfl
    simp only [diagnostics]
    split
    · simpa using this
    · rename_i hno
      simp [hno] at this

/-- `C107_A_partial` has instances: the call of `C107_false`. -/
example : ∃ (P : Params 1) (s : MatState 1 1 1) (ε : ℝ), P.innerTol = some ε ∧ ε ≤ 1 ∧
    admmUpdateA P (scX 3) (fun _ : Fin 1 => StdPen.nonNeg.toA) 0 false (scF 10 1 1) (fun _ => sc 24) (fun _ => sc 0) = .ok s := by
  obtain ⟨P, s, -, -, ht, h, -⟩ := C107_false
  exact ⟨P, s, 1 / 10, ht, by norm_num, h⟩

end Verif.Props
