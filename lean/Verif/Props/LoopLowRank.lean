import Mathlib.LinearAlgebra.Matrix.Rank
import Verif.Spec.LowRank
import Verif.Props.LoopExplained
import Verif.Props.LoopBound
import Verif.Props.LoopStops

/-!
# C136: factorizations of the stacked matrix
-/

set_option linter.unusedSectionVars false

namespace Verif.Props

open Verif.Loop Verif.ADMM Verif.Penalties Verif.Spec Finset Matrix

variable {I K R nA nB nC : ℕ} {J : Fin I → ℕ}

/-- All matrices on top of each other (`docs/coupled_matrix_factorization.rst`, lines 58-66). -/
def stacked (X : Ragged I K J) : Matrix ((i : Fin I) × Fin (J i)) (Fin K) ℝ := Matrix.of fun p k => X p.1 p.2 k

/-- C136, interpretation: the matrices represented by coupled matrix factorizations with `R` components are those whose stacked matrix has rank at most `R`. A can always be filled
with ones. -/
theorem C136_stacked (Y : Ragged I K J) : ((∃ F : Factors I K R J, F.recon = Y) ↔ (stacked Y).rank ≤ R) ∧
    ((stacked Y).rank ≤ R → ∃ F : Factors I K R J, F.recon = Y ∧ ∀ i r, F.A i r = 1) := by
  have back : (stacked Y).rank ≤ R → ∃ F : Factors I K R J, F.recon = Y ∧ ∀ i r, F.A i r = 1 := by
    intro hR
    let W : Submodule ℝ (Fin K → ℝ) := Submodule.span ℝ (Set.range (stacked Y).row)
    let b := Module.finBasis ℝ W
    have hd : Module.finrank ℝ W ≤ R := by
      rw [Matrix.rank_eq_finrank_span_row] at hR
      exact hR
    have hm : ∀ i j, (stacked Y).row ⟨i, j⟩ ∈ W := fun i j => Submodule.subset_span ⟨⟨i, j⟩, rfl⟩
    refine ⟨⟨fun _ _ => 1, fun i => Matrix.of fun j r => if h : r.val < Module.finrank ℝ W then b.repr ⟨_, hm i j⟩ ⟨r, h⟩ else 0,
      Matrix.of fun k r => if h : r.val < Module.finrank ℝ W then (b ⟨r, h⟩ : Fin K → ℝ) k else 0⟩, ?_, fun _ _ => rfl⟩
    funext i
    ext j k
    have h := congrArg (fun w : W => (w : Fin K → ℝ) k) (b.sum_repr ⟨_, hm i j⟩)
    simp only [Submodule.coe_sum, Submodule.coe_smul, Finset.sum_apply, Pi.smul_apply, smul_eq_mul] at h
    have h2 : ((stacked Y).row ⟨i, j⟩ : Fin K → ℝ) k = Y i j k := rfl
    rw [h2] at h
    rw [← h]
    symm
    refine Fintype.sum_of_injective (Fin.castLE hd) (Fin.castLE_injective hd) _ _ ?_ ?_
    · intro r hr
      have : ¬ r.val < Module.finrank ℝ W := fun hlt => hr ⟨⟨r, hlt⟩, rfl⟩
      simp [this]
    · intro l
      simp
  refine ⟨⟨?_, fun h => (back h).imp fun F hF => hF.1⟩, back⟩
  rintro ⟨F, rfl⟩
  have e : stacked F.recon = (Matrix.of fun p r => F.A p.1 r * F.B p.1 p.2 r : Matrix ((i : Fin I) × Fin (J i)) (Fin R) ℝ) * F.Cᵀ := by
    ext p k
    simp [stacked, Factors.recon, Factors.entry, Matrix.mul_apply]
  rw [e]
  exact (Matrix.rank_mul_le_left _ _).trans ((Matrix.rank_le_card_width _).trans (Fintype.card_fin R).le)

/-- C136: whatever the penalties, parameters and initial values are, no call records or returns a smaller error than that of the best approximation of rank `R` of the stacked matrix,
given by its singular values (whose squares are `lam`). -/
theorem C136 (P : Problem I K R nA nB nC J) (hX : P.X ≠ 0) {U : Matrix (Fin K) (Fin K) ℝ} {lam : Fin K → ℝ} (hs : Spectral (gram P.X) U lam) (a : Args) (hr : a.returnErrors = true)
    (init : AOState I K R nA nB nC J) (out : Output (AOState I K R nA nB nC J)) (h : cmfAoadmm P a init = .ok out) :
    rest lam R ≤ sse P.X (absorb out.st.weights out.st.F) ∧
    ∃ d, out.diag = some d ∧ d.recErrors.length = d.nIter + 1 ∧ ∀ t ≤ d.nIter, ∃ e, d.recErrors[t]? = some (.fin e) ∧ √(rest lam R / ∑ k, lam k) ≤ e := by
  refine ⟨rest_le_sse hs _, ?_⟩
  obtain ⟨d, h1, h2, -, -, h3⟩ := C37 P hX a hr init out h
  refine ⟨d, h1, h2, fun t ht => ?_⟩
  obtain ⟨o, -, -, o2, -⟩ := h3 t ht
  refine ⟨_, o2, ?_⟩
  rw [relErr, ← raggedSq_eq_sum hs, Real.sqrt_div' _ (show 0 ≤ raggedSq P.X from sum_nonneg fun i _ => sqNorm_nonneg _)]
  exact div_le_div_of_nonneg_right (Real.sqrt_le_sqrt (rest_le_sse hs _)) (Real.sqrt_nonneg _)

/-- The first B-update is at least as good as every choice of B. -/
theorem sweep_best_B {P : Problem I K R 0 0 0 J} (hsvd : ValidSVD P.params) (hN : 0 < P.params.nInner) (hu : P.updB = true) {s t : AOState I K R 0 0 0 J}
    {i : Option (Inter I R)} (hs : Invertible P s) (h : sweep P s = .ok (t, i)) (Y : Ragged I R J) : ridgeObj P.X P.l2 t.F ≤ ridgeObj P.X P.l2 ⟨s.F.A, Y, s.F.C⟩ := by
  obtain ⟨u, hB, hA⟩ := sweep_ok h
  have e1 : ridgeObj P.X P.l2 u.F ≤ ridgeObj P.X P.l2 ⟨s.F.A, Y, s.F.C⟩ := by
    have hB' := hB
    unfold sweepB at hB'
    rw [if_pos hu] at hB'
    cases hw : admmUpdateB P.params P.X P.pensB P.l2.2.1 P.constB s.F s.auxB s.dualB with
    | error e => rw [hw] at hB'; cases hB'
    | ok w =>
      rw [hw] at hB'; cases hB'
      by_cases hne : Y = w.x
      · rw [hne]
      · exact (C27_B P.params hsvd hN P.X P.l2 P.constB s.F P.pensB s.auxB s.dualB (hs.1 hu) w hw Y hne).le
  refine le_trans ?_ e1
  refine sweep_descent (P := { P with updB := false }) (s := u) (i := i) hsvd hN ⟨(fun h => by cases h), fun v hv => ?_⟩ ?_
  · cases hv
    exact hs.2 u hB
  · exact hA

/-- The last iteration. -/
theorem plain_before {P : Problem I K R nA nB nC J} {init : AOState I K R nA nB nC J} {n : ℕ} {o : Output (AOState I K R nA nB nC J)}
    (h : cmfAoadmm P (plain (n + 1 : ℕ)) init = .ok o) : ∃ o' i, cmfAoadmm P (plain (n : ℕ)) init = .ok o' ∧ sweep P o'.st = .ok (o.st, i) := by
  have h2 := plain_sweeps h
  rw [sweeps] at h2
  cases h1 : sweeps (aoOps P) n init with
  | error e => rw [h1] at h2; cases h2
  | ok s =>
    rw [h1] at h2
    simp only [Except.bind] at h2
    rw [show (aoOps P).sweep = sweep P from rfl] at h2
    obtain ⟨o', ho', hs'⟩ := fit_plain (aoOps P) none init s n h1
    cases hs : sweep P s with
    | error e => rw [hs] at h2; cases h2
    | ok x =>
      rw [hs] at h2
      refine ⟨o', x.2, ho', ?_⟩
      rw [hs', hs, ← Except.ok.inj h2]

/-- C136, SVD initialisation: without penalties and started with A filled with ones and the leading right singular vectors of the stacked matrix as C, as `init="svd"` does (whatever B
is), the best possible error is reached in the first iteration and kept. -/
theorem C136_svd (P : Problem I K R 0 0 0 J) (hsvd : ValidSVD P.params) (hN : 0 < P.params.nInner) (hl : P.l2 = (0, 0, 0)) (hu : P.updB = true)
    {U : Matrix (Fin K) (Fin K) ℝ} {lam : Fin K → ℝ} (hs : Spectral (gram P.X) U lam) (hR : R ≤ K) (init : AOState I K R 0 0 0 J) (hA : init.F.A = fun _ _ => 1)
    (hC : init.F.C = lead U hR) : ∀ (n : ℕ), (∀ t ≤ n, ∀ o, cmfAoadmm P (plain (t : ℕ)) init = .ok o → Invertible P o.st) →
    ∀ o, cmfAoadmm P (plain (n + 1 : ℕ)) init = .ok o → sse P.X o.st.F = rest lam R := by
  have obj : ∀ F : Factors I K R J, ridgeObj P.X P.l2 F = 1 / 2 * sse P.X F := by
    intro F
    rw [hl]
    simp [ridgeObj]
  intro n
  induction n with
  | zero =>
    intro hinv o ho
    obtain ⟨o₀, i, h0, hw⟩ := plain_before ho
    have hi := hinv 0 le_rfl o₀ h0
    have e0 : o₀.st = init := by
      have := plain_sweeps h0
      rw [sweeps] at this
      exact (Except.ok.inj this).symm
    rw [e0] at hi hw
    have := sweep_best_B hsvd hN hu hi hw (fun i => P.X i * lead U hR)
    rw [obj, obj, hA, hC, sse_lead hs hR] at this
    exact le_antisymm (by linarith) (rest_le_sse hs _)
  | succ n ih =>
    intro hinv o ho
    obtain ⟨o₀, i, h0, hw⟩ := plain_before ho
    have e := ih (fun t ht => hinv t (by omega)) o₀ h0
    have := sweep_descent hsvd hN (hinv (n + 1) le_rfl o₀ h0) hw
    rw [obj, obj, e] at this
    exact le_antisymm (by linarith) (rest_le_sse hs _)

/-! ### The systems that are met -/

/-- What the SVD initialisation leads to: the singular vectors, and the projections of the data as B. -/
def svdFit (X : Ragged I K J) (U : Matrix (Fin K) (Fin K) ℝ) (hR : R ≤ K) : Factors I K R J := ⟨fun _ _ => 1, fun i => X i * lead U hR, lead U hR⟩

theorem lead_ortho {U : Matrix (Fin K) (Fin K) ℝ} (hU : Uᵀ * U = 1) (hR : R ≤ K) : (lead U hR)ᵀ * lead U hR = 1 := by
  have : (lead U hR)ᵀ * lead U hR = (Uᵀ * U).submatrix (Fin.castLE hR) (Fin.castLE hR) := by
    ext r r'
    simp [lead, Matrix.mul_apply]
  rw [this, hU]
  ext r r'
  simp [Matrix.one_apply, Fin.castLE_inj]

theorem sum_sq_ortho {m R : ℕ} {V : Matrix (Fin m) (Fin R) ℝ} (hV : Vᵀ * V = 1) (v : Fin R → ℝ) : ∑ k, (∑ r, v r * V k r) ^ 2 = ∑ r, v r ^ 2 := by
  have h1 : ∑ k, (∑ r, v r * V k r) ^ 2 = ∑ k, ∑ r, ∑ q, v r * v q * (V k r * V k q) := by
    refine sum_congr rfl fun k _ => ?_
    rw [sq, sum_mul_sum]
    exact sum_congr rfl fun r _ => sum_congr rfl fun q _ => by ring
  have h2 : ∀ r q, ∑ k, V k r * V k q = if r = q then 1 else 0 := by
    intro r q
    have := congrFun (congrFun hV r) q
    rw [Matrix.mul_apply, Matrix.one_apply] at this
    exact this
  rw [h1, sum_comm]
  refine sum_congr rfl fun r _ => ?_
  rw [sum_comm]
  simp only [← mul_sum, h2]
  simp [sq]

theorem solvableB_lead {U : Matrix (Fin K) (Fin K) ℝ} (hU : Uᵀ * U = 1) (hR : R ≤ K) (B : Ragged I R J) : SolvableB ⟨fun _ _ => 1, B, lead U hR⟩ 0 := by
  intro i v hv
  simp only [one_mul, zero_mul, add_zero]
  rw [sum_sq_ortho (lead_ortho hU hR)]
  exact pos_sq hv

theorem solvableC_lead {X : Ragged I K J} {U : Matrix (Fin K) (Fin K) ℝ} {lam : Fin K → ℝ} (hs : Spectral (gram X) U lam) (hR : R ≤ K) (hp : ∀ r, 0 < lam (Fin.castLE hR r)) :
    SolvableC (svdFit X U hR) 0 := by
  intro v hv
  simp only [zero_mul, add_zero]
  obtain ⟨r₀, hr₀⟩ : ∃ r, v r ≠ 0 := by
    by_contra hc; push Not at hc; exact hv (funext hc)
  let w : Matrix (Fin K) (Fin 1) ℝ := Matrix.of fun k _ => ∑ r, lead U hR k r * v r
  have e : ∑ i, ∑ j, (∑ r, (svdFit X U hR).A i r * (svdFit X U hR).B i j r * v r) ^ 2 = ∑ i, sqNorm (X i * w) := by
    refine sum_congr rfl fun i _ => sum_congr rfl fun j _ => ?_
    rw [Fin.sum_univ_one]
    congr 1
    simp only [svdFit, one_mul, Matrix.mul_apply, w, Matrix.of_apply, mul_sum, sum_mul]
    rw [sum_comm]
    exact sum_congr rfl fun k _ => sum_congr rfl fun r _ => by ring
  have hw : ∀ k, (Uᵀ * w) k 0 = ∑ r, if k = Fin.castLE hR r then v r else 0 := by
    intro k
    simp only [Matrix.mul_apply, w, Matrix.of_apply, mul_sum, Matrix.transpose_apply]
    rw [sum_comm]
    refine sum_congr rfl fun r _ => ?_
    have := congrFun (congrFun hs.ortho k) (Fin.castLE hR r)
    rw [Matrix.mul_apply, Matrix.one_apply] at this
    simp only [Matrix.transpose_apply] at this
    have h2 : ∑ x, U x k * (lead U hR x r * v r) = (∑ x, U x k * U x (Fin.castLE hR r)) * v r := by
      rw [sum_mul]
      exact sum_congr rfl fun x _ => by simp only [lead, Matrix.submatrix_apply, id_eq]; ring
    rw [h2, this]
    split <;> ring
  rw [e, sum_sqNorm_mul hs w]
  refine sum_pos' (fun k _ => mul_nonneg (spectral_nonneg hs k) (sum_nonneg fun _ _ => sq_nonneg _)) ⟨Fin.castLE hR r₀, mem_univ _, mul_pos (hp r₀) ?_⟩
  rw [Fin.sum_univ_one, hw]
  have : (∑ r, if Fin.castLE hR r₀ = Fin.castLE hR r then v r else 0) = v r₀ := by
    simp [Fin.castLE_inj]
  rw [this]
  positivity

theorem solvableA_lead {X : Ragged I K J} {U : Matrix (Fin K) (Fin K) ℝ} (hU : Uᵀ * U = 1) (hR : R ≤ K) (hp : ∀ i r, ∃ j, (X i * lead U hR) j r ≠ 0) :
    SolvableA (svdFit X U hR) 0 := by
  intro i v hv
  simp only [zero_mul, add_zero]
  obtain ⟨r₀, hr₀⟩ : ∃ r, v r ≠ 0 := by
    by_contra hc; push Not at hc; exact hv (funext hc)
  obtain ⟨j₀, hj₀⟩ := hp i r₀
  simp only [fun j => sum_sq_ortho (lead_ortho hU hR) (fun r => v r * (svdFit X U hR).B i j r), show (svdFit X U hR).C = lead U hR from rfl]
  refine sum_pos' (fun j _ => sum_nonneg fun _ _ => sq_nonneg _) ⟨j₀, mem_univ _, sum_pos' (fun _ _ => sq_nonneg _) ⟨r₀, mem_univ _, ?_⟩⟩
  have : v r₀ * (svdFit X U hR).B i j₀ r₀ ≠ 0 := mul_ne_zero hr₀ hj₀
  positivity

/-- C136, SVD initialisation, in terms of the data: if the first `R` singular values are positive (needed if C is updated) and no matrix has a zero projection on one of the singular
vectors (needed if A is updated), then the factors after every iteration are the singular vectors and the projections, with the best possible error. -/
theorem C136_exact (P : Problem I K R 0 0 0 J) (hsvd : ValidSVD P.params) (hN : 0 < P.params.nInner) (hl : P.l2 = (0, 0, 0)) (hu : P.updB = true)
    {U : Matrix (Fin K) (Fin K) ℝ} {lam : Fin K → ℝ} (hs : Spectral (gram P.X) U lam) (hR : R ≤ K) (pC : P.updC = true → ∀ r, 0 < lam (Fin.castLE hR r))
    (pA : P.updA = true → ∀ i r, ∃ j, (P.X i * lead U hR) j r ≠ 0) (init : AOState I K R 0 0 0 J) (hA : init.F.A = fun _ _ => 1)
    (hC : init.F.C = lead U hR) (n : ℕ) (o : Output (AOState I K R 0 0 0 J)) (ho : cmfAoadmm P (plain (n + 1 : ℕ)) init = .ok o) :
    o.st.F = svdFit P.X U hR ∧ sse P.X o.st.F = rest lam R := by
  have obj : ∀ F : Factors I K R J, ridgeObj P.X P.l2 F = 1 / 2 * sse P.X F := by
    intro F
    rw [hl]
    simp [ridgeObj]
  have best : ∀ F : Factors I K R J, ridgeObj P.X P.l2 (svdFit P.X U hR) ≤ ridgeObj P.X P.l2 F := by
    intro F
    rw [obj, obj, show sse P.X (svdFit P.X U hR) = rest lam R from sse_lead hs hR]
    have := rest_le_sse hs F
    linarith
  have step : ∀ (s t : AOState I K R 0 0 0 J) i, s.F.A = (fun _ _ => 1) → s.F.C = lead U hR → sweep P s = .ok (t, i) → t.F = svdFit P.X U hR := by
    intro s t i h1 h2 hw
    obtain ⟨u, hB, hA'⟩ := sweep_ok hw
    have eB : u.F = svdFit P.X U hR := by
      have hB' := hB
      unfold sweepB at hB'
      rw [if_pos hu] at hB'
      have sol : SolvableB s.F P.l2.2.1 := by
        rw [hl]
        have := solvableB_lead (J := J) hs.ortho hR s.F.B
        rwa [← h1, ← h2] at this
      cases hw : admmUpdateB P.params P.X P.pensB P.l2.2.1 P.constB s.F s.auxB s.dualB with
      | error e => rw [hw] at hB'; cases hB'
      | ok w =>
        rw [hw] at hB'; cases hB'
        by_cases hne : (fun i => P.X i * lead U hR) = w.x
        · show Factors.mk s.F.A w.x s.F.C = _
          rw [← hne, h1, h2]
          rfl
        · exfalso
          have := C27_B P.params hsvd hN P.X P.l2 P.constB s.F P.pensB s.auxB s.dualB sol w hw _ hne
          rw [h1, h2] at this
          exact absurd (best ⟨fun _ _ => 1, w.x, lead U hR⟩) (not_le.2 this)
    have eC : (sweepC P u).F = svdFit P.X U hR := by
      unfold sweepC
      split
      · rename_i hc
        have sol : SolvableC u.F P.l2.2.2 := by
          rw [hl, eB]
          exact solvableC_lead hs hR (pC hc)
        by_cases hne : lead U hR = (admmUpdateC P.params P.X P.pensC P.l2.2.2 u.F u.auxC u.dualC).x
        · show Factors.mk u.F.A u.F.B (admmUpdateC P.params P.X P.pensC P.l2.2.2 u.F u.auxC u.dualC).x = _
          rw [← hne, eB]
          rfl
        · exfalso
          have := C27_C P.params hsvd hN P.X P.l2 u.F P.pensC u.auxC u.dualC sol _ hne
          have e : (⟨u.F.A, u.F.B, lead U hR⟩ : Factors I K R J) = svdFit P.X U hR := by rw [eB]; rfl
          rw [e] at this
          exact absurd (best _) (not_le.2 this)
      · exact eB
    unfold sweepA at hA'
    split at hA'
    · rename_i ha
      have sol : SolvableA (sweepC P u).F P.l2.1 := by
        rw [hl, eC]
        exact solvableA_lead hs.ortho hR (pA ha)
      cases hv : admmUpdateA P.params P.X P.pensA P.l2.1 P.constA (sweepC P u).F (sweepC P u).auxA (sweepC P u).dualA with
      | error e => rw [hv] at hA'; cases hA'
      | ok w =>
        rw [hv] at hA'; cases hA'
        by_cases hne : (fun _ _ => 1 : Matrix (Fin I) (Fin R) ℝ) = w.x
        · show Factors.mk w.x (sweepC P u).F.B (sweepC P u).F.C = _
          rw [← hne, eC]
          rfl
        · exfalso
          have := C27_A P.params hsvd hN P.X P.l2 P.constA (sweepC P u).F P.pensA _ _ sol w hv _ hne
          have e : (⟨fun _ _ => 1, (sweepC P u).F.B, (sweepC P u).F.C⟩ : Factors I K R J) = svdFit P.X U hR := by rw [eC]; rfl
          rw [e] at this
          exact absurd (best _) (not_le.2 this)
    · cases hA'
      exact eC
  have key : ∀ (n : ℕ) (o : Output (AOState I K R 0 0 0 J)), cmfAoadmm P (plain (n + 1 : ℕ)) init = .ok o → o.st.F = svdFit P.X U hR := by
    intro n
    induction n with
    | zero =>
      intro o ho
      obtain ⟨o₀, i, h0, hw⟩ := plain_before ho
      have e0 : o₀.st = init := by
        have := plain_sweeps h0
        rw [sweeps] at this
        exact (Except.ok.inj this).symm
      rw [e0] at hw
      exact step _ _ _ hA hC hw
    | succ n ih =>
      intro o ho
      obtain ⟨o₀, i, h0, hw⟩ := plain_before ho
      have e := ih o₀ h0
      exact step _ _ _ (by rw [e]; rfl) (by rw [e]; rfl) hw
  exact ⟨key n o ho, by rw [key n o ho]; exact sse_lead hs hR⟩

/-- C136, the whole call from the SVD initialisation: with positive tolerances (as by default) it stops after at most two iterations and returns the singular vectors and the projections;
all errors recorded after the initial one are the best possible one. -/
theorem C136_stops (P : Problem I K R 0 0 0 J) (hX : P.X ≠ 0) (hsvd : ValidSVD P.params) (hN : 0 < P.params.nInner) (hl : P.l2 = (0, 0, 0)) (hu : P.updB = true)
    {U : Matrix (Fin K) (Fin K) ℝ} {lam : Fin K → ℝ} (hs : Spectral (gram P.X) U lam) (hR : R ≤ K) (pC : P.updC = true → ∀ r, 0 < lam (Fin.castLE hR r))
    (pA : P.updA = true → ∀ i r, ∃ j, (P.X i * lead U hR) j r ≠ 0) (init : AOState I K R 0 0 0 J) (hA : init.F.A = fun _ _ => 1)
    (hC : init.F.C = lead U hR) (a : Args) (tol abs ft : ℝ) (ht : a.tol = some tol) (hab : a.absTol = some abs) (hft : IsSet a.feasTol ft) (h0 : 0 < tol) (h1 : 0 < abs)
    (hr : a.returnErrors = true) (hm : 2 ≤ a.nIterMax) (out : Output (AOState I K R 0 0 0 J)) (h : cmfAoadmm P a init = .ok out) :
    out.st.weights = none ∧ out.st.F = svdFit P.X U hR ∧ ∃ d, out.diag = some d ∧ d.stopping = some true ∧ d.nIter ≤ 2 ∧
      ∀ t, 1 ≤ t → t ≤ d.nIter → d.recErrors[t]? = some (.fin √(rest lam R / ∑ k, lam k)) := by
  have exact : ∀ (n : ℕ) (o : Output (AOState I K R 0 0 0 J)), cmfAoadmm P (plain (n + 1 : ℕ)) init = .ok o → o.st.weights = none ∧ o.st.F = svdFit P.X U hR ∧
      relErr P.X o.st = √(rest lam R / ∑ k, lam k) := by
    intro n o ho
    obtain ⟨e1, e2⟩ := C136_exact P hsvd hN hl hu hs hR pC pA init hA hC n o ho
    obtain ⟨o', i, -, hw⟩ := plain_before ho
    have e3 := sweep_weights_upd (.inr (.inl hu)) hw
    refine ⟨e3, e1, ?_⟩
    rw [relErr, e3, ← raggedSq_eq_sum hs, Real.sqrt_div' _ (show 0 ≤ raggedSq P.X from sum_nonneg fun i _ => sqNorm_nonneg _)]
    have : absorb none o.st.F = o.st.F := by simp [absorb]
    rw [this, e2]
  obtain ⟨d, hd, -, -, -, hent⟩ := C37 P hX a hr init out h
  obtain ⟨d', hd', hall⟩ := C41_partial P hX a tol abs ft ⟨ht, h0.ne'⟩ hab hft hr init out h
  obtain rfl : d' = d := Option.some.inj (hd'.symm.trans hd)
  obtain ⟨d'', hd'', -, hpos, hend, -⟩ := report P a hr init out h
  obtain rfl : d'' = d' := Option.some.inj (hd''.symm.trans hd)
  have hstop : d''.stopping = some true ∧ d''.nIter ≤ 2 := by
    rcases Nat.lt_or_ge 1 d''.nIter with hlt | hge
    · obtain ⟨o, o', ho, ho', hiff⟩ := hall 1 hlt
      obtain ⟨-, f1, r1⟩ := exact 0 o (by exact_mod_cast ho)
      obtain ⟨-, f2, r2⟩ := exact 1 o' (by exact_mod_cast ho')
      have e : ∀ s : AOState I K R 0 0 0 J, lossValue P s = 1 / 2 * relErr P.X s ^ 2 := by
        intro s
        simp [lossValue, regValue, hl]
      have := (hiff (no_gaps ft _).1).1 ⟨(no_gaps ft _).2, ?_⟩
      · exact ⟨this.2, this.1.ge⟩
      · rw [e, e, r1, r2, sub_self, abs_zero]
        rcases (sq_nonneg √(rest lam R / ∑ k, lam k)).eq_or_lt with hz | hz
        · right; rw [← hz]; linarith
        · left; positivity
    · by_contra hc
      have hns : d''.stopping ≠ some true := fun hh => hc ⟨hh, by omega⟩
      have := (hend hns).1
      omega
  obtain ⟨n, hn⟩ : ∃ n, d''.nIter = n + 1 := ⟨d''.nIter - 1, by have := (hpos hstop.1).1; omega⟩
  obtain ⟨o, ho, hst, -⟩ := hent d''.nIter le_rfl
  rw [hn] at ho
  obtain ⟨w1, w2, -⟩ := exact n o ho
  rw [hst rfl] at w1 w2
  refine ⟨w1, w2, d'', hd, hstop.1, hstop.2, fun t h1t h2t => ?_⟩
  obtain ⟨o, ho, -, hrec, -⟩ := hent t h2t
  obtain ⟨m, rfl⟩ : ∃ m, t = m + 1 := ⟨t - 1, by omega⟩
  rw [hrec, (exact m o ho).2.2]

/-- A 2 x 3 and a 3 x 3 matrix with 3, 2 and 1 on the diagonal. -/
def lrX : Ragged 2 3 ![2, 3] := fun _ => Matrix.of fun j k => if j.val = k.val then ![3, 2, 1] k else 0

/-- The corresponding problem without penalties. -/
def lrP (prm : Params 2) : Problem 2 3 2 0 0 0 ![2, 3] := ⟨lrX, Fin.elim0, Fin.elim0, Fin.elim0, (0, 0, 0), prm, false, false, true, true, true⟩

theorem lrX_spectral : Spectral (gram lrX) 1 ![18, 8, 1] := by
  have g2 : ∀ k l : Fin 3, ∑ j : Fin 2, (if j.val = k.val then (![3, 2, 1] : Fin 3 → ℝ) k else 0) * (if j.val = l.val then (![3, 2, 1] : Fin 3 → ℝ) l else 0) =
      if k = l then (![9, 4, 0] : Fin 3 → ℝ) k else 0 := by
    intro k l
    fin_cases k <;> fin_cases l <;> simp [Fin.sum_univ_two] <;> norm_num
  have g3 : ∀ k l : Fin 3, ∑ j : Fin 3, (if j.val = k.val then (![3, 2, 1] : Fin 3 → ℝ) k else 0) * (if j.val = l.val then (![3, 2, 1] : Fin 3 → ℝ) l else 0) =
      if k = l then (![9, 4, 1] : Fin 3 → ℝ) k else 0 := by
    intro k l
    fin_cases k <;> fin_cases l <;> simp [Fin.sum_univ_three] <;> norm_num
  have hg : gram lrX = Matrix.diagonal ![18, 8, 1] := by
    ext k l
    simp only [gram, Fin.sum_univ_two, Matrix.add_apply, Matrix.mul_apply]
    refine (congrArg₂ (· + ·) (g2 k l) (g3 k l)).trans ?_
    fin_cases k <;> fin_cases l <;> simp <;> norm_num
  refine ⟨by simp, by rw [hg]; simp, ?_⟩
  intro a b hab
  fin_cases a <;> fin_cases b <;> simp at hab ⊢; norm_num

/-- Two matrices whose stacked matrix has the squared singular values 18, 8 and 1: with two components, the squared error is 1 after every iteration from the SVD initialisation, and never
smaller for other initial values or penalties. -/
theorem C136_example (prm : Params 2) (hsvd : ValidSVD prm) (hN : 0 < prm.nInner) :
    (∀ (init : AOState 2 3 2 0 0 0 ![2, 3]), init.F.A = (fun _ _ => 1) → init.F.C = !![1, 0; 0, 1; 0, 0] → ∀ (n : ℕ) (o : Output (AOState 2 3 2 0 0 0 ![2, 3])),
      cmfAoadmm (lrP prm) (plain (n + 1 : ℕ)) init = .ok o → sse lrX o.st.F = 1) ∧
    (∀ (init : AOState 2 3 2 0 0 0 ![2, 3]), init.F.A = (fun _ _ => 1) → init.F.C = !![1, 0; 0, 1; 0, 0] → ∀ (o : Output (AOState 2 3 2 0 0 0 ![2, 3])),
      cmfAoadmm (lrP prm) ⟨1000, some (1 / 100000000), some (1 / 10000000000), some (1 / 10000), true, 0⟩ init = .ok o →
        ∃ d, o.diag = some d ∧ d.stopping = some true ∧ d.nIter ≤ 2 ∧ d.recErrors[1]? = some (.fin √(1 / 27))) ∧
    ∀ F : Factors 2 3 2 ![2, 3], 1 ≤ sse lrX F := by
  have hs := lrX_spectral
  have hrest : rest ![(18 : ℝ), 8, 1] 2 = 1 := by
    simp [rest, Fin.sum_univ_three]
  have hR : 2 ≤ 3 := by norm_num
  have hlead : lead (1 : Matrix (Fin 3) (Fin 3) ℝ) hR = !![1, 0; 0, 1; 0, 0] := by
    ext k r
    fin_cases k <;> fin_cases r <;> simp [lead, Matrix.one_apply, Fin.ext_iff]
  have hcol : ∀ (i : Fin 2) (r : Fin 2), ∃ j, (lrX i * lead 1 hR) j r ≠ 0 := by
    intro i r
    have e : ∀ j, (lrX i * lead 1 hR) j r = lrX i j (Fin.castLE hR r) := by
      intro j
      simp [Matrix.mul_apply, lead, Matrix.one_apply]
    have hj : r.val < (![2, 3] : Fin 2 → ℕ) i := by
      have := r.isLt
      fin_cases i <;> simp <;> omega
    refine ⟨⟨r.val, hj⟩, ?_⟩
    rw [e]
    simp only [lrX, Matrix.of_apply, Fin.val_castLE, if_true]
    fin_cases r <;> simp [Fin.castLE]
  refine ⟨?_, ?_, ?_⟩
  · intro init hA hC n o ho
    have := (C136_exact (lrP prm) hsvd hN rfl rfl hs hR (fun _ r => ?_) (fun _ => hcol) init hA (hC.trans hlead.symm) n o ho).2
    · rw [hrest] at this
      exact this
    · fin_cases r <;> simp [Fin.castLE]
  · intro init hA hC o ho
    have hX : lrX ≠ 0 := by
      intro h
      obtain ⟨j, hj⟩ := hcol 0 0
      rw [h] at hj
      exact hj (by rw [show (0 : Ragged 2 3 ![2, 3]) 0 = 0 from rfl, Matrix.zero_mul]; rfl)
    obtain ⟨-, -, d, h1, h2, h3, h4⟩ := C136_stops (lrP prm) hX hsvd hN rfl rfl hs hR (fun _ r => by fin_cases r <;> simp [Fin.castLE]) (fun _ => hcol) init hA (hC.trans hlead.symm) _
      _ _ (1 / 10000) rfl rfl ⟨rfl, by norm_num⟩ (by norm_num) (by norm_num) rfl (by norm_num) o ho
    obtain ⟨d', e1, -, e2, -⟩ := report _ _ rfl _ _ ho
    obtain rfl : d' = d := Option.some.inj (e1.symm.trans h1)
    refine ⟨d', h1, h2, h3, ?_⟩
    have e27 : ∑ k, (![18, 8, 1] : Fin 3 → ℝ) k = 27 := by
      simp [Fin.sum_univ_three]
      norm_num
    rw [h4 1 le_rfl (e2 h2).1, hrest, e27]
  · intro F
    have := rest_le_sse hs F
    rwa [hrest] at this

end Verif.Props
