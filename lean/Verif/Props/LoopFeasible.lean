import Verif.Penalties.UnimodalPen
import Verif.ADMM.Concrete
import Verif.Props.ADMMStep
import Verif.Props.Loop
import Verif.Props.Parafac2

/-!
# C39: a satisfied feasibility condition certifies nearly feasible factors
-/

namespace Verif.Props

open Verif.Loop Verif.ADMM Verif.Penalties Verif.Spec Finset Matrix

variable {I K R nA nB nC : ℕ} {J : Fin I → ℕ}

/-! ### Updates that return feasible values -/

/-- Every update of a mode-0 penalty returns an element of `S`. -/
def _root_.Verif.ADMM.PenA.Into (p : PenA I R) (S : Set (Matrix (Fin I) (Fin R) ℝ)) : Prop :=
  (∀ Y ρ aux, p.mat Y ρ aux ∈ S) ∧ ∀ u, p.row = some u → ∀ (Y : Matrix (Fin I) (Fin R) ℝ) (ρ : Fin I → ℝ) (aux : Matrix (Fin I) (Fin R) ℝ),
    (fun i => u (Y i) (ρ i) (aux i)) ∈ S

/-- Every update of a mode-2 penalty returns an element of `S`. -/
def _root_.Verif.ADMM.PenC.Into (p : PenC K R) (S : Set (Matrix (Fin K) (Fin R) ℝ)) : Prop := ∀ Y ρ aux, p.mat Y ρ aux ∈ S

/-- Every update of a mode-1 penalty, from an auxiliary variable that satisfies `Q`, returns one that satisfies `Q` and represents an element of `S`. -/
def _root_.Verif.ADMM.PenB.Into (p : PenB I R J) (Q : AuxB I R J → Prop) (S : Set (Ragged I R J)) : Prop :=
  ∀ Y ρ aux, Q aux → Q (p.update Y ρ aux) ∧ (p.update Y ρ aux).toMats ∈ S

/-- The hard constraints on single matrices. -/
inductive HardPen
  | nonNeg
  | box (lo hi : Option ℝ)
  | l2Ball (b : ℝ) (nonNeg : Bool)
  | unimodal (nonNeg : Bool)

/-- Matrix update. -/
noncomputable def HardPen.mat (m n : ℕ) : HardPen → MatUpdate m n
  | .nonNeg => nonNegMat m n
  | .box lo hi => boxMat lo hi m n
  | .l2Ball b nn => l2BallMat b nn m n
  | .unimodal nn => unimodalMat nn m n

/-- Row update. -/
noncomputable def HardPen.row (n : ℕ) : HardPen → Option (RowUpdate n)
  | .nonNeg => some (nonNegRow n)
  | .box lo hi => some (boxRow lo hi n)
  | _ => none

/-- The constraint set. -/
def HardPen.set (m n : ℕ) : HardPen → Set (Matrix (Fin m) (Fin n) ℝ)
  | .nonNeg => {Z | ∀ i r, 0 ≤ Z i r}
  | .box lo hi => {Z | ∀ i r, (∀ l, lo = some l → l ≤ Z i r) ∧ ∀ u, hi = some u → Z i r ≤ u}
  | .l2Ball b nn => {Z | (∀ r, √(∑ i, Z i r ^ 2) ≤ b) ∧ (nn → ∀ i r, 0 ≤ Z i r)}
  | .unimodal nn => {Z | ∀ r, IsUnimodal (fun i => Z i r) ∧ (nn → ∀ i, 0 ≤ Z i r)}

/-- Accepted parameters; for unimodality, matrices that are not empty. -/
def HardPen.Valid (m n : ℕ) : HardPen → Prop
  | .nonNeg => True
  | .box lo hi => ∀ l u, lo = some l → hi = some u → l ≤ u
  | .l2Ball b _ => 0 < b
  | .unimodal _ => 0 < m ∧ 0 < n

theorem HardPen.mat_mem {m n : ℕ} (p : HardPen) (h : p.Valid m n) (Y : Matrix (Fin m) (Fin n) ℝ) (ρ : ℝ) (aux) : p.mat m n Y ρ aux ∈ p.set m n := by
  cases p with
  | nonNeg => exact (C15_nonneg Y ρ aux).1
  | box lo hi => exact (C16_box lo hi h Y ρ aux).1
  | l2Ball b nn => exact (C18_l2ball ((C18_init b b).2 ⟨rfl, h⟩) nn Y ρ aux).1
  | unimodal nn =>
    obtain ⟨u, hu, -, -, hn⟩ := C03_matrix_columns h.1 h.2 (Equiv.refl (Fin n)) (fun i r => Y i r) nn
    have e : HardPen.mat m n (.unimodal nn) Y ρ aux = fun i r => u i r := by
      show unimodalMat nn m n Y ρ aux = _
      unfold unimodalMat
      rw [show Unimodal.unimodalRegressionN id (Equiv.refl (Fin n)) Y nn = _ from hu]
      rfl
    rw [e]
    intro r
    exact ⟨(hn.1 r).1, fun hnn i => (hn.1 r).2 hnn i⟩

/-- As a penalty on modes 0 and 2. -/
noncomputable def HardPen.toA (p : HardPen) : PenA I R := ⟨p.mat I R, p.row R, fun _ => 0⟩

/-- As a penalty on mode 2. -/
noncomputable def HardPen.toC (p : HardPen) : PenC K R := ⟨p.mat K R, fun _ => 0⟩

/-- As a penalty on mode 1. -/
noncomputable def HardPen.toB (p : HardPen) : PenB I R J := .ofMat (fun i => p.mat (J i) R) fun _ => 0

theorem HardPen.intoA (p : HardPen) (h : p.Valid I R) : (p.toA : PenA I R).Into (p.set I R) := by
  refine ⟨fun Y ρ aux => p.mat_mem h Y ρ aux, fun u hu Y ρ aux => ?_⟩
  cases p with
  | nonNeg => cases hu; exact fun i => (C15_nonneg_row (Y i) (ρ i) (aux i)).1
  | box lo hi => cases hu; exact fun i => (C16_box_row lo hi h (Y i) (ρ i) (aux i)).1
  | l2Ball b nn => cases hu
  | unimodal nn => cases hu

theorem HardPen.intoC (p : HardPen) (h : p.Valid K R) : (p.toC : PenC K R).Into (p.set K R) := fun Y ρ aux => p.mat_mem h Y ρ aux

theorem HardPen.intoB (p : HardPen) (h : ∀ i, p.Valid (J i) R) :
    (p.toB : PenB I R J).Into (fun _ => True) {Z | ∀ i, Z i ∈ p.set (J i) R} :=
  fun _ _ _ _ => ⟨trivial, fun i => p.mat_mem (h i) _ _ _⟩

/-- The PARAFAC2 constraint: all matrices have the same cross product. -/
def SameCross (I R : ℕ) (J : Fin I → ℕ) : Set (Ragged I R J) := {Z | ∀ i j, (Z i).transpose * Z i = (Z j).transpose * Z j}

/-- Auxiliary variables of PARAFAC2 with orthonormal bases. -/
def P2Feasible : AuxB I R J → Prop
  | .p2 a => ∀ i, Orthonormal (a.bases i)
  | .mats _ => False

theorem parafac2_into (svd : (i : Fin I) → Matrix (Fin (J i)) (Fin R) ℝ → SVD (J i) R R) (hsvd : SVDFun svd) (n : ℕ) (uB uC : Bool) :
    (PenB.parafac2 svd n uB uC).Into P2Feasible (SameCross I R J) := by
  intro Y ρ aux hQ
  cases aux with
  | mats _ => exact hQ.elim
  | p2 a => exact C23_constraint svd hsvd uB uC Y ρ n a (.inr hQ)

/-- When the bases are updated, any PARAFAC2 auxiliary variable will do. -/
theorem parafac2_into_updated (svd : (i : Fin I) → Matrix (Fin (J i)) (Fin R) ℝ → SVD (J i) R R) (hsvd : SVDFun svd) (n : ℕ) (hn : 0 < n) (uC : Bool) :
    (PenB.parafac2 svd n true uC).Into (fun a => ∃ b, a = .p2 b) (SameCross I R J) := by
  intro Y ρ aux hQ
  obtain ⟨a, rfl⟩ := hQ
  exact ⟨⟨_, rfl⟩, (C23_constraint svd hsvd true uC Y ρ n a (.inl ⟨rfl, hn⟩)).2⟩

/-! ### After a round of updates -/

theorem updateA_into {P : Params R} (hN : 0 < P.nInner) {X : Ragged I K J} {pens : Fin nA → PenA I R} {l2 : ℝ} {constant : Bool} {F : Factors I K R J}
    {aux dual : Fin nA → Matrix (Fin I) (Fin R) ℝ} {s : MatState I R nA} (h : admmUpdateA P X pens l2 constant F aux dual = .ok s)
    {S : Fin nA → Set (Matrix (Fin I) (Fin R) ℝ)} (hS : ∀ p, (pens p).Into (S p)) (p : Fin nA) : s.aux p ∈ S p := by
  obtain ⟨o, ρ, -, h1, h2, h3, rfl⟩ := admmUpdateA_ok h
  obtain ⟨s₀, hs⟩ := innerLoop_last (stepA pens o ρ (fun i => P.svd (addRidge (crossA F i) (ρ i) nA l2)) (rhsA X F)) (matStop P.innerTol) P.nInner
    ⟨F.A, aux, dual⟩ hN
  rw [hs]
  simp only [stepA, auxA]
  cases hc : constant with
  | true =>
    obtain ⟨m, rfl, -⟩ := h2 hc
    exact (hS p).1 _ _ _
  | false =>
    rw [h1 hc]
    cases hr : (pens p).row with
    | some u => exact (hS p).2 u hr _ _ _
    | none =>
      rcases Nat.eq_zero_or_pos I with rfl | hI
      · have e : ∀ Z Z' : Matrix (Fin 0) (Fin R) ℝ, Z = Z' := fun Z Z' => funext fun i => i.elim0
        have := (hS p).1 0 0 0
        rw [e ((pens p).mat 0 0 0)] at this
        exact this
      · have := h3 hc hN hI p
        rw [hr] at this; cases this

theorem updateC_into {P : Params R} (hN : 0 < P.nInner) {X : Ragged I K J} {pens : Fin nC → PenC K R} {l2 : ℝ} {F : Factors I K R J}
    {aux dual : Fin nC → Matrix (Fin K) (Fin R) ℝ} {S : Fin nC → Set (Matrix (Fin K) (Fin R) ℝ)} (hS : ∀ p, (pens p).Into (S p)) (p : Fin nC) :
    (admmUpdateC P X pens l2 F aux dual).aux p ∈ S p := by
  unfold admmUpdateC
  obtain ⟨s₀, hs⟩ := innerLoop_last (stepC pens (feasPenalty P.scale (crossC F)) (P.svd (addRidge (crossC F) (feasPenalty P.scale (crossC F)) nC l2))
    (rhsC X F)) (matStop P.innerTol) P.nInner ⟨F.C, aux, dual⟩ hN
  rw [hs]
  exact hS p _ _ _

theorem innerLoop_inv {σ : Type} {step : σ → σ} {stop : σ → σ → Bool} {Q : σ → Prop} (hQ : ∀ s, Q s → Q (step s)) : ∀ (N : ℕ) (s : σ), Q s →
    Q (innerLoop step stop N s)
  | 0, _, h => h
  | N + 1, s, h => by
    rw [innerLoop]
    split
    · exact hQ s h
    · exact innerLoop_inv hQ N _ (hQ s h)

theorem innerLoop_last_inv {σ : Type} {step : σ → σ} {stop : σ → σ → Bool} {Q : σ → Prop} (hQ : ∀ s, Q s → Q (step s)) : ∀ (N : ℕ) (s : σ), 0 < N → Q s →
    ∃ s₀, Q s₀ ∧ innerLoop step stop N s = step s₀
  | N + 1, s, _, h => by
    rw [innerLoop]
    split
    · exact ⟨s, h, rfl⟩
    · rcases Nat.eq_zero_or_pos N with rfl | hN
      · exact ⟨s, h, rfl⟩
      · exact innerLoop_last_inv hQ N _ hN (hQ s h)

theorem updateB_into {P : Params R} {X : Ragged I K J} {pens : Fin nB → PenB I R J} {l2 : ℝ} {constant : Bool} {F : Factors I K R J}
    {aux : Fin nB → AuxB I R J} {dual : Fin nB → Ragged I R J} {s : RagState I R nB J} (h : admmUpdateB P X pens l2 constant F aux dual = .ok s)
    {Q : Fin nB → AuxB I R J → Prop} {S : Fin nB → Set (Ragged I R J)} (hS : ∀ p, (pens p).Into (Q p) (S p)) (h0 : ∀ p, Q p (aux p)) :
    (∀ p, Q p (s.aux p)) ∧ (0 < P.nInner → ∀ p, (s.aux p).toMats ∈ S p) := by
  obtain ⟨ρ, -, rfl⟩ := admmUpdateB_ok h
  have hstep : ∀ t : RagState I R nB J, (∀ p, Q p (t.aux p)) →
      ∀ p, Q p ((stepB pens ρ (fun i => P.svd (addRidge (crossB F i) (ρ i) nB l2)) (rhsB X F) t).aux p) :=
    fun t ht p => (hS p _ _ _ (ht p)).1
  refine ⟨innerLoop_inv (Q := fun t : RagState I R nB J => ∀ p, Q p (t.aux p)) hstep _ _ h0, fun hN p => ?_⟩
  obtain ⟨s₀, hq, hs⟩ := innerLoop_last_inv (stop := ragStop P.innerTol) (Q := fun t : RagState I R nB J => ∀ p, Q p (t.aux p)) hstep P.nInner
    ⟨F.B, aux, dual⟩ hN h0
  rw [hs]
  exact (hS p _ _ _ (hq p)).2

/-- After a round of updates all auxiliary variables are feasible. -/
theorem sweep_into {P : Problem I K R nA nB nC J} (hN : 0 < P.params.nInner) (hupd : (0 < nA → P.updA = true) ∧ (0 < nB → P.updB = true) ∧ (0 < nC → P.updC = true))
    {SA : Fin nA → Set (Matrix (Fin I) (Fin R) ℝ)} {SB : Fin nB → Set (Ragged I R J)} {SC : Fin nC → Set (Matrix (Fin K) (Fin R) ℝ)}
    {Q : Fin nB → AuxB I R J → Prop} (hA : ∀ p, (P.pensA p).Into (SA p)) (hB : ∀ p, (P.pensB p).Into (Q p) (SB p)) (hC : ∀ p, (P.pensC p).Into (SC p))
    {s t : AOState I K R nA nB nC J} {i : Option (Inter I R)} (h : sweep P s = .ok (t, i)) (h0 : ∀ p, Q p (s.auxB p)) :
    (∀ p, t.auxA p ∈ SA p) ∧ (∀ p, (t.auxB p).toMats ∈ SB p) ∧ (∀ p, t.auxC p ∈ SC p) ∧ ∀ p, Q p (t.auxB p) := by
  obtain ⟨u, h1, h2⟩ := sweep_ok h
  have hu : (∀ p, Q p (u.auxB p)) ∧ ∀ p, (u.auxB p).toMats ∈ SB p := by
    unfold sweepB at h1
    split at h1
    · cases hw : admmUpdateB P.params P.X P.pensB P.l2.2.1 P.constB s.F s.auxB s.dualB with
      | error e => rw [hw] at h1; cases h1
      | ok w =>
        rw [hw] at h1; cases h1
        obtain ⟨g1, g2⟩ := updateB_into hw hB h0
        exact ⟨g1, g2 hN⟩
    · rename_i hb
      have hz : ∀ p : Fin nB, False := fun p => hb (hupd.2.1 (Fin.pos p))
      exact ⟨fun p => (hz p).elim, fun p => (hz p).elim⟩
  have hv : (sweepC P u).auxB = u.auxB ∧ ∀ p, (sweepC P u).auxC p ∈ SC p := by
    unfold sweepC
    split
    · exact ⟨rfl, fun p => updateC_into hN hC p⟩
    · rename_i hc
      exact ⟨rfl, fun p => absurd (hupd.2.2 (Fin.pos p)) hc⟩
  have ht : t.auxB = (sweepC P u).auxB ∧ t.auxC = (sweepC P u).auxC ∧ ∀ p, t.auxA p ∈ SA p := by
    unfold sweepA at h2
    split at h2
    · cases hw : admmUpdateA P.params P.X P.pensA P.l2.1 P.constA (sweepC P u).F (sweepC P u).auxA (sweepC P u).dualA with
      | error e => rw [hw] at h2; cases h2
      | ok w =>
        rw [hw] at h2; cases h2
        exact ⟨rfl, rfl, fun p => updateA_into hN hw hA p⟩
    · rename_i ha
      cases h2
      exact ⟨rfl, rfl, fun p => absurd (hupd.1 (Fin.pos p)) ha⟩
  refine ⟨ht.2.2, fun p => ?_, fun p => ?_, fun p => ?_⟩
  · rw [ht.1, hv.1]; exact hu.2 p
  · rw [ht.2.1]; exact hv.2 p
  · rw [ht.1, hv.1]; exact hu.1 p

/-- C39, for final factors that are not zero (needed: `C39_false`): if the feasibility condition is reported as satisfied, every factor is within
`feasibility_tol` times its norm of an element of every constraint set. `HardPen.intoA/intoB/intoC` and `parafac2_into` give the contracts for
the hard constraints of the package; a penalty that is not a hard constraint has the contract with the set of all matrices. -/
theorem C39_partial (P : Problem I K R nA nB nC J) (hN : 0 < P.params.nInner)
    (hupd : (0 < nA → P.updA = true) ∧ (0 < nB → P.updB = true) ∧ (0 < nC → P.updC = true))
    (SA : Fin nA → Set (Matrix (Fin I) (Fin R) ℝ)) (SB : Fin nB → Set (Ragged I R J)) (SC : Fin nC → Set (Matrix (Fin K) (Fin R) ℝ))
    (Q : Fin nB → AuxB I R J → Prop) (hA : ∀ p, (P.pensA p).Into (SA p)) (hB : ∀ p, (P.pensB p).Into (Q p) (SB p)) (hC : ∀ p, (P.pensC p).Into (SC p))
    (a : Args) (hn : 0 < a.nIterMax) (t : ℝ) (ht : IsSet a.feasTol t) (init : AOState I K R nA nB nC J) (h0 : ∀ p, Q p (init.auxB p))
    (out : Output (AOState I K R nA nB nC J)) (h : cmfAoadmm P a init = .ok out) (d : Diagnostics) (hd : out.diag = some d)
    (hf : d.feasible = some true) (hnz : NonzeroFactors out.st) :
    (∀ p, ∃ Z ∈ SA p, √(sqNorm (out.st.F.A - Z)) < t * √(sqNorm out.st.F.A)) ∧
    (∀ p, ∃ Z ∈ SB p, √(raggedSq (out.st.F.B - Z)) < t * √(raggedSq out.st.F.B)) ∧
    ∀ p, ∃ Z ∈ SC p, √(sqNorm (out.st.F.C - Z)) < t * √(sqNorm out.st.F.C) := by
  obtain ⟨s, -, hst, hdiag⟩ := fit_ok h
  have hg : GapsBelow t out.st := by
    rw [hd] at hdiag
    split at hdiag
    · obtain rfl := Option.some.inj hdiag
      simp only [diagnostics] at hf
      rw [if_pos (truthy_iff.2 ⟨t, ht⟩), ht.getD] at hf
      rw [← checkFeasibility_iff hnz, hst]
      exact Option.some.inj hf
    · cases hdiag
  obtain ⟨l, hl, -, hlen⟩ := fit_hist h
  have hlast : ∃ s₀ i, (∀ p, Q p (s₀.auxB p)) ∧ sweep P s₀ = .ok (out.st, i) := by
    generalize out.st = x at hl
    cases hl with
    | zero => have := hlen hn; simp at this
    | @snoc l s s' i hl hsw =>
      exact ⟨s, i, hist_inv hl (Q := fun s => ∀ p, Q p (s.auxB p)) h0 fun s s' i hs hsw => (sweep_into hN hupd hA hB hC hsw hs).2.2.2, hsw⟩
  obtain ⟨s₀, i, hq, hsw⟩ := hlast
  obtain ⟨i1, i2, i3, -⟩ := sweep_into hN hupd hA hB hC hsw hq
  exact ⟨fun p => ⟨_, i1 p, hg.1 p⟩, fun p => ⟨_, i2 p, hg.2.1 p⟩, fun p => ⟨_, i3 p, hg.2.2 p⟩⟩

end Verif.Props
