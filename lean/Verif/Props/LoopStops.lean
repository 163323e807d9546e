import Verif.Props.LoopStop
import Verif.Props.LoopWarm
import Mathlib.Topology.Instances.Matrix

/-!
# C83: a convergent run meets its stopping criteria
-/

namespace Verif.Props

open Verif.Loop Verif.ADMM Verif.Penalties Verif.Spec Finset Matrix Filter Topology

variable {I K R nA nB nC : ℕ} {J : Fin I → ℕ}

/-- The factors tend to `G`, and so do all their auxiliary variables. -/
structure TendsTo (st : ℕ → AOState I K R nA nB nC J) (G : Factors I K R J) : Prop where
  A : ∀ i r, Tendsto (fun n => (st n).F.A i r) atTop (𝓝 (G.A i r))
  B : ∀ i j r, Tendsto (fun n => (st n).F.B i j r) atTop (𝓝 (G.B i j r))
  C : ∀ k r, Tendsto (fun n => (st n).F.C k r) atTop (𝓝 (G.C k r))
  auxA : ∀ p i r, Tendsto (fun n => (st n).auxA p i r) atTop (𝓝 (G.A i r))
  auxB : ∀ p i j r, Tendsto (fun n => ((st n).auxB p).toMats i j r) atTop (𝓝 (G.B i j r))
  auxC : ∀ p k r, Tendsto (fun n => (st n).auxC p k r) atTop (𝓝 (G.C k r))

/-- The values the penalties report are continuous. -/
structure ContinuousValues (P : Problem I K R nA nB nC J) : Prop where
  A : ∀ p, Continuous (P.pensA p).value
  B : ∀ p, Continuous (P.pensB p).value
  C : ∀ p, Continuous (P.pensC p).value

theorem tendsto_mat {m n : ℕ} {x : ℕ → Matrix (Fin m) (Fin n) ℝ} {y : Matrix (Fin m) (Fin n) ℝ} (h : ∀ i r, Tendsto (fun k => x k i r) atTop (𝓝 (y i r))) :
    Tendsto x atTop (𝓝 y) := tendsto_pi_nhds.2 fun i => tendsto_pi_nhds.2 fun r => h i r

theorem tendsto_rag {n : ℕ} {x : ℕ → Ragged I n J} {y : Ragged I n J} (h : ∀ i j r, Tendsto (fun k => x k i j r) atTop (𝓝 (y i j r))) :
    Tendsto x atTop (𝓝 y) := tendsto_pi_nhds.2 fun i => tendsto_mat fun j r => h i j r

theorem tendsto_sqNorm {m n : ℕ} {x : ℕ → Matrix (Fin m) (Fin n) ℝ} {y : Matrix (Fin m) (Fin n) ℝ} (h : ∀ i r, Tendsto (fun k => x k i r) atTop (𝓝 (y i r))) :
    Tendsto (fun k => sqNorm (x k)) atTop (𝓝 (sqNorm y)) :=
  tendsto_finsetSum _ fun i _ => tendsto_finsetSum _ fun r _ => (h i r).pow 2

theorem tendsto_raggedSq {n : ℕ} {x : ℕ → Ragged I n J} {y : Ragged I n J} (h : ∀ i j r, Tendsto (fun k => x k i j r) atTop (𝓝 (y i j r))) :
    Tendsto (fun k => raggedSq (x k)) atTop (𝓝 (raggedSq y)) :=
  tendsto_finsetSum _ fun i _ => tendsto_sqNorm fun j r => h i j r

theorem sweep_weights_upd {P : Problem I K R nA nB nC J} {s t : AOState I K R nA nB nC J} {i : Option (Inter I R)}
    (hu : P.updA = true ∨ P.updB = true ∨ P.updC = true) (h : sweep P s = .ok (t, i)) : t.weights = none := by
  obtain ⟨u, hB, hA⟩ := sweep_ok h
  obtain ⟨-, -, b1, b2⟩ := sweepB_frame hB
  obtain ⟨-, -, c1, c2⟩ := sweepC_frame P u
  obtain ⟨-, -, a1, a2⟩ := sweepA_frame hA
  cases ha : P.updA with
  | true => exact (a2 ha).1
  | false =>
    rw [(a1 ha).1]
    cases hc : P.updC with
    | true => exact c2 hc
    | false => rw [c1 hc]; exact b2 (by simpa [ha, hc] using hu)

theorem sweep_idle {P : Problem I K R nA nB nC J} {s t : AOState I K R nA nB nC J} {i : Option (Inter I R)}
    (hu : ¬ (P.updA = true ∨ P.updB = true ∨ P.updC = true)) (h : sweep P s = .ok (t, i)) : t = s := by
  simp only [not_or, Bool.not_eq_true] at hu
  obtain ⟨u, hB, hA⟩ := sweep_ok h
  rw [((sweepA_frame hA).2.2.1 hu.1).1, (sweepC_frame P u).2.2.1 hu.2.2, (sweepB_frame hB).2.2.1 hu.2.1]

/-- From the first iteration on the weights do not change any more. -/
theorem weights_const {P : Problem I K R nA nB nC J} {init : AOState I K R nA nB nC J} {outs : ℕ → Output (AOState I K R nA nB nC J)}
    (h : ∀ n : ℕ, cmfAoadmm P (plain n) init = .ok (outs n)) : ∀ n, (outs (n + 1)).st.weights = (outs 1).st.weights := by
  obtain ⟨-, hs⟩ := outs_succ h
  by_cases hu : P.updA = true ∨ P.updB = true ∨ P.updC = true
  · have : ∀ n, (outs (n + 1)).st.weights = none := by
      intro n
      obtain ⟨i, hi⟩ := hs n
      exact sweep_weights_upd hu hi
    intro n
    rw [this n, this 0]
  · have : ∀ n, (outs (n + 1)).st = (outs n).st := by
      intro n
      obtain ⟨i, hi⟩ := hs n
      exact sweep_idle hu hi
    intro n
    induction n with
    | zero => rfl
    | succ n ih => rw [this (n + 1), ih]

/-- The reported loss of a convergent run converges. -/
theorem lossValue_tendsto {P : Problem I K R nA nB nC J} (hP : ContinuousValues P) {init : AOState I K R nA nB nC J}
    {outs : ℕ → Output (AOState I K R nA nB nC J)} (h : ∀ n : ℕ, cmfAoadmm P (plain n) init = .ok (outs n)) {G : Factors I K R J}
    (hG : TendsTo (fun n => (outs n).st) G) :
    Tendsto (fun n => lossValue P (outs n).st) atTop
      (𝓝 (1 / 2 * (√(sse P.X (absorb (outs 1).st.weights G)) / √(raggedSq P.X)) ^ 2 + regValue P G)) := by
  have hF : ∀ i j k, Tendsto (fun n => (absorb (outs 1).st.weights (outs n).st.F).entry i j k) atTop (𝓝 ((absorb (outs 1).st.weights G).entry i j k)) :=
    fun i j k => tendsto_finsetSum _ fun r _ => (((hG.A i r).mul_const _).mul (hG.B i j r)).mul (hG.C k r)
  have hsse : Tendsto (fun n => sse P.X (absorb (outs 1).st.weights (outs n).st.F)) atTop (𝓝 (sse P.X (absorb (outs 1).st.weights G))) :=
    tendsto_finsetSum _ fun i _ => tendsto_finsetSum _ fun j _ => tendsto_finsetSum _ fun k _ => (tendsto_const_nhds.sub (hF i j k)).pow 2
  have hreg : Tendsto (fun n => regValue P (outs n).st.F) atTop (𝓝 (regValue P G)) :=
    (((((tendsto_sqNorm hG.A).const_mul _).add ((tendsto_raggedSq hG.B).const_mul _)).add ((tendsto_sqNorm hG.C).const_mul _)).const_mul _).add
      (((tendsto_finsetSum _ fun p _ => ((hP.A p).tendsto G.A).comp (tendsto_mat hG.A)).add
        (tendsto_finsetSum _ fun p _ => ((hP.B p).tendsto G.B).comp (tendsto_rag hG.B))).add
        (tendsto_finsetSum _ fun p _ => ((hP.C p).tendsto G.C).comp (tendsto_mat hG.C)))
  refine ((((hsse.sqrt.div_const _).pow 2).const_mul _).add hreg).congr' ?_
  filter_upwards [eventually_ge_atTop 1] with n hn
  obtain ⟨k, rfl⟩ := Nat.exists_eq_succ_of_ne_zero (by omega : n ≠ 0)
  unfold lossValue relErr
  rw [weights_const h k]

theorem sqNorm_pos {m n : ℕ} {x : Matrix (Fin m) (Fin n) ℝ} (h : x ≠ 0) : 0 < sqNorm x :=
  (sum_nonneg fun _ _ => sum_nonneg fun _ _ => sq_nonneg _).lt_of_ne' fun h0 => h (sqNorm_eq_zero h0)

theorem raggedSq_pos {n : ℕ} {x : Ragged I n J} (h : x ≠ 0) : 0 < raggedSq x := by
  obtain ⟨i, hi⟩ := Function.ne_iff.1 h
  exact sum_pos' (fun _ _ => sum_nonneg fun _ _ => sum_nonneg fun _ _ => sq_nonneg _) ⟨i, mem_univ _, sqNorm_pos hi⟩

theorem gap_mat {m n N : ℕ} {x : ℕ → Matrix (Fin m) (Fin n) ℝ} {a : ℕ → Fin N → Matrix (Fin m) (Fin n) ℝ} {y : Matrix (Fin m) (Fin n) ℝ} {t : ℝ} (ht : 0 < t)
    (hx : ∀ i r, Tendsto (fun k => x k i r) atTop (𝓝 (y i r))) (ha : ∀ p i r, Tendsto (fun k => a k p i r) atTop (𝓝 (y i r))) (hy : 0 < N → y ≠ 0) :
    ∀ᶠ k in atTop, (0 < N → x k ≠ 0) ∧ ∀ p, √(sqNorm (x k - a k p)) < t * √(sqNorm (x k)) := by
  rcases Nat.eq_zero_or_pos N with rfl | hN
  · exact .of_forall fun k => ⟨fun h => absurd h (lt_irrefl _), fun p => p.elim0⟩
  have hpos : 0 < sqNorm y := sqNorm_pos (hy hN)
  have h1 : ∀ᶠ k in atTop, 0 < sqNorm (x k) := (tendsto_sqNorm hx).eventually (lt_mem_nhds hpos)
  have h2 : ∀ᶠ k in atTop, ∀ p, √(sqNorm (x k - a k p)) < t * √(sqNorm (x k)) := by
    rw [eventually_all]
    intro p
    have e1 : Tendsto (fun k => √(sqNorm (x k - a k p))) atTop (𝓝 √(sqNorm (y - y))) :=
      (tendsto_sqNorm fun i r => (hx i r).sub (ha p i r)).sqrt
    have e2 := (tendsto_sqNorm hx).sqrt.const_mul t
    refine e1.eventually_lt e2 ?_
    rw [sub_self, show sqNorm (0 : Matrix (Fin m) (Fin n) ℝ) = 0 by simp [sqNorm], Real.sqrt_zero]
    positivity
  filter_upwards [h1, h2] with k hk1 hk2
  refine ⟨fun _ h0 => ?_, hk2⟩
  rw [h0] at hk1
  simp [sqNorm] at hk1

theorem gap_rag {n N : ℕ} {x : ℕ → Ragged I n J} {a : ℕ → Fin N → Ragged I n J} {y : Ragged I n J} {t : ℝ} (ht : 0 < t)
    (hx : ∀ i j r, Tendsto (fun k => x k i j r) atTop (𝓝 (y i j r))) (ha : ∀ p i j r, Tendsto (fun k => a k p i j r) atTop (𝓝 (y i j r)))
    (hy : 0 < N → y ≠ 0) : ∀ᶠ k in atTop, (0 < N → x k ≠ 0) ∧ ∀ p, √(raggedSq (x k - a k p)) < t * √(raggedSq (x k)) := by
  rcases Nat.eq_zero_or_pos N with rfl | hN
  · exact .of_forall fun k => ⟨fun h => absurd h (lt_irrefl _), fun p => p.elim0⟩
  have hpos : 0 < raggedSq y := raggedSq_pos (hy hN)
  have h1 : ∀ᶠ k in atTop, 0 < raggedSq (x k) := (tendsto_raggedSq hx).eventually (lt_mem_nhds hpos)
  have h2 : ∀ᶠ k in atTop, ∀ p, √(raggedSq (x k - a k p)) < t * √(raggedSq (x k)) := by
    rw [eventually_all]
    intro p
    have e1 : Tendsto (fun k => √(raggedSq (x k - a k p))) atTop (𝓝 √(raggedSq (y - y))) :=
      (tendsto_raggedSq fun i j r => (hx i j r).sub (ha p i j r)).sqrt
    have e2 := (tendsto_raggedSq hx).sqrt.const_mul t
    refine e1.eventually_lt e2 ?_
    rw [sub_self, show raggedSq (0 : Ragged I n J) = 0 by simp [raggedSq, sqNorm], Real.sqrt_zero]
    positivity
  filter_upwards [h1, h2] with k hk1 hk2
  refine ⟨fun _ h0 => ?_, hk2⟩
  rw [h0] at hk1
  simp [raggedSq, sqNorm] at hk1

theorem gaps_eventually {st : ℕ → AOState I K R nA nB nC J} {G : Factors I K R J} (hG : TendsTo st G) (hA : 0 < nA → G.A ≠ 0) (hB : 0 < nB → G.B ≠ 0)
    (hC : 0 < nC → G.C ≠ 0) {t : ℝ} (ht : 0 < t) : ∀ᶠ n in atTop, NonzeroFactors (st n) ∧ GapsBelow t (st n) := by
  filter_upwards [gap_mat ht hG.A hG.auxA hA, gap_rag ht hG.B hG.auxB hB, gap_mat ht hG.C hG.auxC hC] with n h1 h2 h3
  exact ⟨⟨h1.1, h2.1, h3.1⟩, h1.2, h2.2, h3.2⟩

/-- C83: if the iterates and their auxiliary variables converge, to nonzero factors where there are penalties, then for all positive tolerances there is a number of
iterations within which every call with these tolerances reports that the stopping conditions are satisfied. -/
theorem C83 (P : Problem I K R nA nB nC J) (hX : P.X ≠ 0) (hP : ContinuousValues P) (init : AOState I K R nA nB nC J)
    (outs : ℕ → Output (AOState I K R nA nB nC J)) (h : ∀ n : ℕ, cmfAoadmm P (plain n) init = .ok (outs n)) (G : Factors I K R J)
    (hG : TendsTo (fun n => (outs n).st) G) (hA : 0 < nA → G.A ≠ 0) (hB : 0 < nB → G.B ≠ 0) (hC : 0 < nC → G.C ≠ 0)
    (tol abs ft : ℝ) (h1 : 0 < tol) (h2 : 0 < abs) (h3 : 0 < ft) :
    ∃ N : ℕ, ∀ a out, a.tol = some tol → a.absTol = some abs → a.feasTol = some ft → a.returnErrors = true → (N : ℤ) ≤ a.nIterMax →
      cmfAoadmm P a init = .ok out → ∃ d, out.diag = some d ∧ d.stopping = some true ∧ d.nIter ≤ N := by
  have hL := lossValue_tendsto hP h hG
  set L := 1 / 2 * (√(sse P.X (absorb (outs 1).st.weights G)) / √(raggedSq P.X)) ^ 2 + regValue P G
  have hcrit : ∀ᶠ k in atTop, |lossValue P (outs k).st - lossValue P (outs (k + 1)).st| < tol * lossValue P (outs k).st ∨ lossValue P (outs (k + 1)).st < abs := by
    have hL' := hL.comp (tendsto_add_atTop_nat 1)
    rcases lt_or_ge L abs with hlt | hge
    · filter_upwards [hL'.eventually (gt_mem_nhds hlt)] with k hk
      exact .inr hk
    · have e1 : Tendsto (fun k => |lossValue P (outs k).st - lossValue P (outs (k + 1)).st|) atTop (𝓝 |L - L|) := (hL.sub hL').abs
      have e2 := hL.const_mul tol
      filter_upwards [e1.eventually_lt e2 (by rw [sub_self, abs_zero]; have : 0 < L := h2.trans_le hge; positivity)] with k hk
      exact .inl hk
  have hgap := (gaps_eventually hG hA hB hC h3)
  obtain ⟨k, hk, hk'⟩ := (hcrit.and ((tendsto_add_atTop_nat 1).eventually hgap)).exists
  refine ⟨k + 1, fun a out ht hab hft hr hN hout => ?_⟩
  obtain ⟨d, hd, hall⟩ := C41_partial P hX a tol abs ft ⟨ht, h1.ne'⟩ hab ⟨hft, h3.ne'⟩ hr init out hout
  obtain ⟨d', hd', -, -, hmax, -⟩ := report P a hr init out hout
  obtain rfl : d' = d := Option.some.inj (hd'.symm.trans hd)
  refine ⟨d', hd, ?_⟩
  rcases Nat.lt_or_ge k d'.nIter with hlt | hge
  · obtain ⟨o, o', ho, ho', hiff⟩ := hall k hlt
    obtain rfl : o = outs k := Except.ok.inj (ho.symm.trans (h k))
    obtain rfl : o' = outs (k + 1) := Except.ok.inj (ho'.symm.trans (by exact_mod_cast h (k + 1)))
    obtain ⟨e1, e2⟩ := (hiff hk'.1).1 ⟨hk'.2, hk⟩
    exact ⟨e2, e1.ge⟩
  · refine ⟨by_contra fun hs => ?_, by omega⟩
    have := (hmax hs).1
    omega

end Verif.Props
