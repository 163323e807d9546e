import Verif.Loop.Continue
import Verif.Props.Divisors
import Verif.Props.LoopFalse
import Verif.Props.Parafac2

/-!
# C92: the SVD function does not matter
-/

namespace Verif.Props

open Verif.Loop Verif.ADMM Verif.Penalties Verif.Spec Finset Matrix

variable {I K R nA nB nC n : ℕ} {J : Fin I → ℕ}

/-! ### The solution of a system -/

theorem addRidge_symm {κ : Type} [Fintype κ] (M : Matrix κ (Fin R) ℝ) (ρ : ℝ) (n : ℕ) (l2 : ℝ) :
    (addRidge (M.transpose * M) ρ n l2).transpose = addRidge (M.transpose * M) ρ n l2 := by
  rw [addRidge, transpose_add, transpose_mul, transpose_transpose, transpose_smul, transpose_one]

theorem svdSolve_unique {G : Matrix (Fin R) (Fin R) ℝ} {d d' : SVD R R R} (hd : d.Valid G) (hd' : d'.Valid G) (hs : G.transpose = G) (hu : IsUnit G) {m : ℕ}
    (rhs : Matrix (Fin m) (Fin R) ℝ) : svdSolve d rhs = svdSolve d' rhs := by
  have h1 := svdSolve_mul hd hs (svd_ne_zero hd hu) rhs
  have h2 := svdSolve_mul hd' hs (svd_ne_zero hd' hu) rhs
  obtain ⟨H, hH⟩ := hu.exists_right_inv
  rw [← Matrix.mul_one (svdSolve d rhs), ← Matrix.mul_one (svdSolve d' rhs), ← hH, ← Matrix.mul_assoc, ← Matrix.mul_assoc, h1, h2]

theorem svdSolveRow_unique {G : Matrix (Fin R) (Fin R) ℝ} {d d' : SVD R R R} (hd : d.Valid G) (hd' : d'.Valid G) (hs : G.transpose = G) (hu : IsUnit G)
    (v : Fin R → ℝ) : svdSolveRow d v = svdSolveRow d' v := by
  have := svdSolve_unique hd hd' hs hu (rowMat v)
  rw [← svdSolveRow_eq, ← svdSolveRow_eq] at this
  exact congrFun this 0

/-! ### The updates -/

/-- The factor of a mode is determined: by the ridge penalty, by penalties with a positive feasibility penalty, or by the matrices. -/
def FixedA (P : Problem I K R nA nB nC J) (F : Factors I K R J) : Prop :=
  ∀ ρ, IsWeights P.constA (weightA P.params.scale F) ρ → ∀ i, 0 < P.l2.1 ∨ (0 < nA ∧ 0 < ρ i) ∨ DeterminesA F i

/-- The same for mode 1. -/
def FixedB (P : Problem I K R nA nB nC J) (F : Factors I K R J) : Prop :=
  ∀ ρ, IsWeights P.constB (weightB P.params.scale F) ρ → ∀ i, 0 < P.l2.2.1 ∨ (0 < nB ∧ 0 < ρ i) ∨ DeterminesB F i

/-- The same for mode 2. -/
def FixedC (P : Problem I K R nA nB nC J) (F : Factors I K R J) : Prop :=
  0 < P.l2.2.2 ∨ (0 < nC ∧ 0 < weightC P.params.scale F) ∨ DeterminesC F

/-- In the round of updates that starts from `s`, the factors to be updated are determined. -/
def Fixed (P : Problem I K R nA nB nC J) (s : AOState I K R nA nB nC J) : Prop :=
  (P.updB = true → FixedB P s.F) ∧
    ∀ u, sweepB P s = .ok u → (P.updC = true → FixedC P u.F) ∧ (P.updA = true → FixedA P (sweepC P u).F)

/-- The problem with another SVD function. -/
def withSvd (P : Problem I K R nA nB nC J) (svd : Matrix (Fin R) (Fin R) ℝ → SVD R R R) : Problem I K R nA nB nC J :=
  { P with params := { P.params with svd := svd } }

theorem bind_congr_ok {α β : Type} {e : Except PyErr α} {f g : α → Except PyErr β} (h : ∀ x, e = .ok x → f x = g x) : e.bind f = e.bind g := by
  cases e with
  | error e => rfl
  | ok x => exact h x rfl

theorem updateA_svd (p : Params R) (svd : Matrix (Fin R) (Fin R) ℝ → SVD R R R) (X : Ragged I K J) (pens : Fin n → PenA I R) (l2 : ℝ) (c : Bool)
    (F : Factors I K R J) (aux dual : Fin n → Matrix (Fin I) (Fin R) ℝ)
    (h : ∀ o ρ, feasPenalties p.scale c (crossA F) = .ok (o, ρ) → ∀ i v,
      svdSolveRow (svd (addRidge (crossA F i) (ρ i) n l2)) v = svdSolveRow (p.svd (addRidge (crossA F i) (ρ i) n l2)) v) :
    admmUpdateA { p with svd := svd } X pens l2 c F aux dual = admmUpdateA p X pens l2 c F aux dual := by
  unfold admmUpdateA
  refine bind_congr_ok fun x hfp => ?_
  obtain ⟨o, ρ⟩ := x
  have : stepA pens o ρ (fun i => svd (addRidge (crossA F i) (ρ i) n l2)) (rhsA X F) =
      stepA pens o ρ (fun i => p.svd (addRidge (crossA F i) (ρ i) n l2)) (rhsA X F) := by
    funext t
    simp only [stepA, h o ρ hfp]
  dsimp only
  rw [this]

theorem updateB_svd (p : Params R) (svd : Matrix (Fin R) (Fin R) ℝ → SVD R R R) (X : Ragged I K J) (pens : Fin n → PenB I R J) (l2 : ℝ) (c : Bool)
    (F : Factors I K R J) (aux : Fin n → AuxB I R J) (dual : Fin n → Ragged I R J)
    (h : ∀ o ρ, feasPenalties p.scale c (crossB F) = .ok (o, ρ) → ∀ i (Y : Matrix (Fin (J i)) (Fin R) ℝ),
      svdSolve (svd (addRidge (crossB F i) (ρ i) n l2)) Y = svdSolve (p.svd (addRidge (crossB F i) (ρ i) n l2)) Y) :
    admmUpdateB { p with svd := svd } X pens l2 c F aux dual = admmUpdateB p X pens l2 c F aux dual := by
  unfold admmUpdateB
  refine bind_congr_ok fun x hfp => ?_
  obtain ⟨o, ρ⟩ := x
  have : stepB pens ρ (fun i => svd (addRidge (crossB F i) (ρ i) n l2)) (rhsB X F) =
      stepB pens ρ (fun i => p.svd (addRidge (crossB F i) (ρ i) n l2)) (rhsB X F) := by
    funext t
    simp only [stepB, h o ρ hfp]
  dsimp only
  rw [this]

theorem updateC_svd (p : Params R) (svd : Matrix (Fin R) (Fin R) ℝ → SVD R R R) (X : Ragged I K J) (pens : Fin n → PenC K R) (l2 : ℝ)
    (F : Factors I K R J) (aux dual : Fin n → Matrix (Fin K) (Fin R) ℝ)
    (h : ∀ Y : Matrix (Fin K) (Fin R) ℝ, svdSolve (svd (addRidge (crossC F) (feasPenalty p.scale (crossC F)) n l2)) Y =
      svdSolve (p.svd (addRidge (crossC F) (feasPenalty p.scale (crossC F)) n l2)) Y) :
    admmUpdateC { p with svd := svd } X pens l2 F aux dual = admmUpdateC p X pens l2 F aux dual := by
  unfold admmUpdateC
  dsimp only
  have : stepC pens (feasPenalty p.scale (crossC F)) (svd (addRidge (crossC F) (feasPenalty p.scale (crossC F)) n l2)) (rhsC X F) =
      stepC pens (feasPenalty p.scale (crossC F)) (p.svd (addRidge (crossC F) (feasPenalty p.scale (crossC F)) n l2)) (rhsC X F) := by
    funext t
    simp only [stepC, h]
  rw [this]

theorem sweepB_svd (P : Problem I K R nA nB nC J) (hv : ValidSVD P.params) (hs : 0 ≤ P.params.scale) (hl : 0 ≤ P.l2.2.1)
    (svd : Matrix (Fin R) (Fin R) ℝ → SVD R R R) (hsvd : ∀ G, (svd G).Valid G) (s : AOState I K R nA nB nC J) (hf : P.updB = true → FixedB P s.F) :
    sweepB (withSvd P svd) s = sweepB P s := by
  unfold sweepB
  by_cases hb : P.updB = true
  · rw [if_pos (show (withSvd P svd).updB = true from hb), if_pos hb]
    refine congrArg _ (updateB_svd P.params svd P.X P.pensB P.l2.2.1 P.constB s.F s.auxB s.dualB fun o ρ hfp i Y => ?_)
    have hw := (feasPenalties_ok hfp).1
    simp only [feasPenalty_B] at hw
    have hu : IsUnit (addRidge (crossB s.F i) (ρ i) nB P.l2.2.1) :=
      isUnit_of_svd (hv _) ((C34_exact P.params hv hs s.F hl nB).2.1 P.constB ρ hw i |>.2 (hf hb ρ hw i))
    exact svdSolve_unique (hsvd _) (hv _) (by rw [crossB_eq]; exact addRidge_symm _ _ _ _) hu Y
  · rw [if_neg (show ¬ (withSvd P svd).updB = true from hb), if_neg hb]

theorem sweepC_svd (P : Problem I K R nA nB nC J) (hv : ValidSVD P.params) (hs : 0 ≤ P.params.scale) (hl : 0 ≤ P.l2.2.2)
    (svd : Matrix (Fin R) (Fin R) ℝ → SVD R R R) (hsvd : ∀ G, (svd G).Valid G) (s : AOState I K R nA nB nC J) (hf : P.updC = true → FixedC P s.F) :
    sweepC (withSvd P svd) s = sweepC P s := by
  unfold sweepC
  by_cases hc : P.updC = true
  · rw [if_pos (show (withSvd P svd).updC = true from hc), if_pos hc]
    have hun : IsUnit (addRidge (crossC s.F) (weightC P.params.scale s.F) nC P.l2.2.2) :=
      isUnit_of_svd (hv _) ((C34_exact P.params hv hs s.F hl nC).2.2.2 (hf hc))
    have := updateC_svd P.params svd P.X P.pensC P.l2.2.2 s.F s.auxC s.dualC fun Y => by
      rw [feasPenalty_C]
      exact svdSolve_unique (hsvd _) (hv _) (by rw [crossC_eq]; exact addRidge_symm _ _ _ _) hun Y
    exact congrArg (fun t : MatState K R nC => { s with weights := none, F := ⟨s.F.A, s.F.B, t.x⟩, auxC := t.aux, dualC := t.dual }) this
  · rw [if_neg (show ¬ (withSvd P svd).updC = true from hc), if_neg hc]

theorem sweepA_svd (P : Problem I K R nA nB nC J) (hv : ValidSVD P.params) (hs : 0 ≤ P.params.scale) (hl : 0 ≤ P.l2.1)
    (svd : Matrix (Fin R) (Fin R) ℝ → SVD R R R) (hsvd : ∀ G, (svd G).Valid G) (s : AOState I K R nA nB nC J) (hf : P.updA = true → FixedA P s.F) :
    sweepA (withSvd P svd) s = sweepA P s := by
  unfold sweepA
  by_cases ha : P.updA = true
  · rw [if_pos (show (withSvd P svd).updA = true from ha), if_pos ha]
    refine congrArg _ (updateA_svd P.params svd P.X P.pensA P.l2.1 P.constA s.F s.auxA s.dualA fun o ρ hfp i v => ?_)
    have hw := (feasPenalties_ok hfp).1
    simp only [feasPenalty_A] at hw
    have hun : IsUnit (addRidge (crossA s.F i) (ρ i) nA P.l2.1) :=
      isUnit_of_svd (hv _) ((C34_exact P.params hv hs s.F hl nA).1 P.constA ρ hw i |>.2 (hf ha ρ hw i))
    exact svdSolveRow_unique (hsvd _) (hv _) (by rw [crossA_eq]; exact addRidge_symm _ _ _ _) hun v
  · rw [if_neg (show ¬ (withSvd P svd).updA = true from ha), if_neg ha]

theorem sweep_svd (P : Problem I K R nA nB nC J) (hv : ValidSVD P.params) (hs : 0 ≤ P.params.scale) (hl : 0 ≤ P.l2.1 ∧ 0 ≤ P.l2.2.1 ∧ 0 ≤ P.l2.2.2)
    (svd : Matrix (Fin R) (Fin R) ℝ → SVD R R R) (hsvd : ∀ G, (svd G).Valid G) (s : AOState I K R nA nB nC J) (hf : Fixed P s) :
    sweep (withSvd P svd) s = sweep P s := by
  unfold sweep
  rw [sweepB_svd P hv hs hl.2.1 svd hsvd s hf.1]
  refine bind_congr_ok fun u hu => ?_
  obtain ⟨hC, hA⟩ := hf.2 u hu
  rw [sweepC_svd P hv hs hl.2.2 svd hsvd u hC, sweepA_svd P hv hs hl.1 svd hsvd _ hA]

/-! ### The loop -/

theorem body_congr {σ ι : Type} {O O' : Ops σ ι} (hg : O'.gaps = O.gaps) (hr : O'.relError = O.relError) (hp : O'.penalty = O.penalty) (a : Args) (s : Acc σ)
    (h : O'.sweep s.st = O.sweep s.st) : body O' a s = body O a s := by
  unfold body
  rw [h, hg, hr, hp]

theorem run_congr {σ ι : Type} {O O' : Ops σ ι} (hg : O'.gaps = O.gaps) (hr : O'.relError = O.relError) (hp : O'.penalty = O.penalty) (a : Args) :
    ∀ (n : ℕ) (s : Acc σ), (∀ t < n, ∀ st, sweeps' O t s.st = .ok st → O'.sweep st = O.sweep st) → run O' a n s = run O a n s
  | 0, s, h => rfl
  | n + 1, s, h => by
    rw [run, run, body_congr hg hr hp a s (h 0 (by omega) _ rfl)]
    cases hb : body O a s with
    | error e => rfl
    | ok x =>
      obtain ⟨s', b⟩ := x
      cases b
      · obtain ⟨i, hi, -⟩ := body_ok hb
        refine run_congr hg hr hp a n s' fun t ht st hst => h (t + 1) (by omega) st ?_
        rw [sweeps', hi]
        exact hst
      · rfl

theorem fit_congr {σ ι : Type} {O O' : Ops σ ι} (hg : O'.gaps = O.gaps) (hr : O'.relError = O.relError) (hp : O'.penalty = O.penalty) (a : Args) (i : ι) (st : σ)
    (h : ∀ t < a.nIterMax.toNat, ∀ s, sweeps' O t st = .ok s → O'.sweep s = O.sweep s) : fit O' a i st = fit O a i st := by
  have hi : initAcc O' a i st = initAcc O a i st := by unfold initAcc; rw [hg, hr, hp]
  have hd : ∀ s, diagnostics O' a s = diagnostics O a s := fun s => by unfold diagnostics; rw [hg]
  unfold fit
  rw [hi, run_congr hg hr hp a a.nIterMax.toNat (initAcc O a i st) h]
  simp only [hd]

/-- C92: two SVD functions that meet their contract give the same result — factorization, auxiliary and dual variables, diagnostics, output, exception — if the factors
are determined in every iteration. -/
theorem C92 (P : Problem I K R nA nB nC J) (hv : ValidSVD P.params) (hs : 0 ≤ P.params.scale) (hl : 0 ≤ P.l2.1 ∧ 0 ≤ P.l2.2.1 ∧ 0 ≤ P.l2.2.2)
    (svd : Matrix (Fin R) (Fin R) ℝ → SVD R R R) (hsvd : ∀ G, (svd G).Valid G) (a : Args) (init : AOState I K R nA nB nC J)
    (hf : ∀ t : ℕ, (t : ℤ) < a.nIterMax → ∀ o, cmfAoadmm P (plain t) init = .ok o → Fixed P o.st) :
    cmfAoadmm (withSvd P svd) a init = cmfAoadmm P a init := by
  refine fit_congr (O := aoOps P) (O' := aoOps (withSvd P svd)) rfl rfl rfl a none init fun t ht st hst => ?_
  obtain ⟨o, ho, hos⟩ := fit_plain (aoOps P) none init st t (by rw [sweeps_eq']; exact hst)
  have := hf t (by omega) o ho
  rw [hos] at this
  exact sweep_svd P hv hs hl svd hsvd st this

/-- With ridge penalties on the factors that are updated, there is nothing to assume. -/
theorem C92_ridge (P : Problem I K R nA nB nC J) (hv : ValidSVD P.params) (hs : 0 ≤ P.params.scale) (hl : 0 ≤ P.l2.1 ∧ 0 ≤ P.l2.2.1 ∧ 0 ≤ P.l2.2.2)
    (hA : P.updA = true → 0 < P.l2.1) (hB : P.updB = true → 0 < P.l2.2.1) (hC : P.updC = true → 0 < P.l2.2.2)
    (svd : Matrix (Fin R) (Fin R) ℝ → SVD R R R) (hsvd : ∀ G, (svd G).Valid G) (a : Args) (init : AOState I K R nA nB nC J) :
    cmfAoadmm (withSvd P svd) a init = cmfAoadmm P a init :=
  C92 P hv hs hl svd hsvd a init fun _ _ _ _ =>
    ⟨fun h _ _ _ => .inl (hB h), fun _ _ => ⟨fun h => .inl (hC h), fun h _ _ _ => .inl (hA h)⟩⟩

/-- Other signs of the singular vectors are as good. -/
theorem valid_neg {m k n : ℕ} {d : SVD m k n} {M : Matrix (Fin m) (Fin n) ℝ} (h : d.Valid M) : (⟨-d.U, d.s, -d.Vh⟩ : SVD m k n).Valid M where
  eq := by simp only [Matrix.neg_mul, Matrix.mul_neg, neg_neg]; exact h.eq
  left := by simp only [transpose_neg, Matrix.neg_mul, Matrix.mul_neg, neg_neg]; exact h.left
  right := by simp only [transpose_neg, Matrix.neg_mul, Matrix.mul_neg, neg_neg]; exact h.right
  nonneg := h.nonneg

/-- A concrete case: the singular vectors of one function are the negatives of those of the other; data 1, ridge penalty and non-negativity on A. -/
theorem C92_example : ∃ (P : Problem 1 1 1 1 0 0 (fun _ => 1)) (svd : Matrix (Fin 1) (Fin 1) ℝ → SVD 1 1 1), ValidSVD P.params ∧ (∀ G, (svd G).Valid G) ∧
    (∀ G, (svd G).U ≠ (P.params.svd G).U) ∧ P.X ≠ 0 ∧ P.updA = true ∧ ∀ a init, cmfAoadmm (withSvd P svd) a init = cmfAoadmm P a init := by
  obtain ⟨svd, hsvd⟩ := exists_svd_fun 1
  refine ⟨scP ⟨svd, 1, none, 1⟩ 1 1 fun _ => (StdPen.nonNeg).toA, fun G => ⟨-(svd G).U, (svd G).s, -(svd G).Vh⟩, hsvd, fun G => valid_neg (hsvd G), fun G h => ?_, ?_,
    rfl, fun a init => ?_⟩
  · have h0 : (svd G).U = 0 := by
      have : -(svd G).U = (svd G).U := h
      ext i j
      have := congrFun (congrFun this i) j
      rw [Matrix.neg_apply] at this
      rw [Matrix.zero_apply]
      linarith
    have := (hsvd G).left
    rw [h0, Matrix.mul_zero] at this
    exact zero_ne_one this
  · intro h
    have := congrFun (congrFun (congrFun h 0) 0) 0
    simp [scP, scX, sc] at this
  · exact C92_ridge (scP ⟨svd, 1, none, 1⟩ 1 1 fun _ => (StdPen.nonNeg).toA) hsvd zero_le_one ⟨zero_le_one, le_rfl, le_rfl⟩ (fun _ => zero_lt_one) (fun h => by cases h) (fun h => by cases h) _ (fun G => valid_neg (hsvd G)) a init

/-! ### The SVDs of the PARAFAC2 penalty -/

theorem polar_unique {m : ℕ} {M : Matrix (Fin m) (Fin R) ℝ} {d d' : SVD m R R} (hd : d.Valid M) (hd' : d'.Valid M)
    (hM : ∀ v : Fin R → ℝ, M.mulVec v = 0 → v = 0) : d.U * d.Vh = d'.U * d'.Vh := by
  -- M = (U Vh) H with H = Vhᵀ diag(s) Vh
  have fac : ∀ {e : SVD m R R}, e.Valid M → M = e.U * e.Vh * (e.Vh.transpose * diagonal e.s * e.Vh) ∧
      (e.Vh.transpose * diagonal e.s * e.Vh) * (e.Vh.transpose * diagonal e.s * e.Vh) = M.transpose * M ∧
      (e.Vh.transpose * diagonal e.s * e.Vh).transpose = e.Vh.transpose * diagonal e.s * e.Vh ∧
      (∀ v : Fin R → ℝ, 0 ≤ v ⬝ᵥ (e.Vh.transpose * diagonal e.s * e.Vh).mulVec v) ∧
      ∀ v : Fin R → ℝ, v ⬝ᵥ (e.Vh.transpose * diagonal e.s * e.Vh).mulVec v = 0 → M.mulVec v = 0 := by
    intro e he
    have hq : ∀ v : Fin R → ℝ, v ⬝ᵥ (e.Vh.transpose * diagonal e.s * e.Vh).mulVec v = ∑ r, e.s r * (e.Vh.mulVec v r) ^ 2 := by
      intro v
      rw [← mulVec_mulVec, ← mulVec_mulVec, dotProduct_mulVec, vecMul_transpose]
      simp only [dotProduct, mulVec_diagonal]
      exact sum_congr rfl fun r _ => by ring
    refine ⟨?_, ?_, ?_, fun v => ?_, fun v hv => ?_⟩
    · conv_lhs => rw [← he.eq]
      calc e.U * diagonal e.s * e.Vh = e.U * ((e.Vh * e.Vh.transpose) * diagonal e.s) * e.Vh := by rw [he.right, Matrix.one_mul]
        _ = _ := by simp only [Matrix.mul_assoc]
    · conv_rhs => rw [← he.eq]
      rw [transpose_mul, transpose_mul, diagonal_transpose]
      calc _ = e.Vh.transpose * (diagonal e.s * ((e.Vh * e.Vh.transpose) * (diagonal e.s * e.Vh))) := by simp only [Matrix.mul_assoc]
        _ = e.Vh.transpose * (diagonal e.s * ((e.U.transpose * e.U) * (diagonal e.s * e.Vh))) := by rw [he.right, he.left]
        _ = _ := by simp only [Matrix.mul_assoc]
    · rw [transpose_mul, transpose_mul, diagonal_transpose, transpose_transpose, Matrix.mul_assoc]
    · rw [hq]; exact sum_nonneg fun r _ => mul_nonneg (he.nonneg r) (sq_nonneg _)
    · rw [hq, sum_eq_zero_iff_of_nonneg fun r _ => mul_nonneg (he.nonneg r) (sq_nonneg _)] at hv
      rw [← he.eq, ← mulVec_mulVec, ← mulVec_mulVec]
      have : (diagonal e.s).mulVec (e.Vh.mulVec v) = 0 := by
        funext r
        rw [mulVec_diagonal]
        rcases mul_eq_zero.1 (hv r (mem_univ r)) with h | h
        · rw [h, zero_mul]; rfl
        · rw [pow_eq_zero_iff two_ne_zero |>.1 h, mul_zero]; rfl
      rw [this, mulVec_zero]
  obtain ⟨f1, f2, f3, f4, f5⟩ := fac hd
  obtain ⟨g1, g2, g3, g4, -⟩ := fac hd'
  set H := d.Vh.transpose * diagonal d.s * d.Vh with hH
  set H' := d'.Vh.transpose * diagonal d'.s * d'.Vh with hH'
  have hEq : H = H' := by
    have h0 : H * (H - H') + (H - H') * H' = 0 := by
      rw [Matrix.mul_sub, Matrix.sub_mul, f2, g2]; abel
    have hsym : (H - H').transpose = H - H' := by rw [transpose_sub, f3, g3]
    have ht : ((H - H') * (H * (H - H'))).trace + ((H - H') * (H' * (H - H'))).trace = 0 := by
      have e1 : ((H - H') * (H' * (H - H'))).trace = ((H - H') * ((H - H') * H')).trace := by
        rw [← Matrix.mul_assoc, trace_mul_comm]
      rw [e1, ← trace_add, ← Matrix.mul_add, h0, Matrix.mul_zero, trace_zero]
    have hcol : ∀ N : Matrix (Fin R) (Fin R) ℝ, ((H - H') * (N * (H - H'))).trace = ∑ r, (fun i => (H - H') i r) ⬝ᵥ N.mulVec fun i => (H - H') i r := by
      intro N
      refine sum_congr rfl fun r _ => ?_
      rw [Matrix.diag_apply, mul_apply]
      refine sum_congr rfl fun i _ => ?_
      rw [← Matrix.transpose_apply (H - H') i r, hsym]
      rfl
    have hp : ∑ r, (fun i => (H - H') i r) ⬝ᵥ H.mulVec (fun i => (H - H') i r) = 0 := by
      rw [hcol, hcol] at ht
      have a1 : 0 ≤ ∑ r, (fun i => (H - H') i r) ⬝ᵥ H.mulVec (fun i => (H - H') i r) := sum_nonneg fun r _ => f4 _
      have a2 : 0 ≤ ∑ r, (fun i => (H - H') i r) ⬝ᵥ H'.mulVec (fun i => (H - H') i r) := sum_nonneg fun r _ => g4 _
      linarith
    rw [sum_eq_zero_iff_of_nonneg fun r _ => f4 _] at hp
    ext i r
    have := congrFun (hM _ (f5 _ (hp r (mem_univ r)))) i
    simpa [sub_eq_zero] using this
  have hinj : ∀ v : Fin R → ℝ, H.mulVec v = 0 → v = 0 := by
    intro v hv
    exact hM v (f5 v (by rw [hv, dotProduct_zero]))
  have hu : IsUnit H := by
    rw [← Matrix.mulVec_injective_iff_isUnit]
    intro v w hvw
    have := hinj (v - w) (by rw [mulVec_sub, hvw, sub_self])
    exact sub_eq_zero.1 this
  obtain ⟨G, hG⟩ := hu.exists_right_inv
  rw [← hEq] at g1
  have e : d.U * d.Vh * H = d'.U * d'.Vh * H := f1.symm.trans g1
  calc d.U * d.Vh = d.U * d.Vh * H * G := by rw [Matrix.mul_assoc (d.U * d.Vh), hG, Matrix.mul_one]
    _ = d'.U * d'.Vh * H * G := by rw [e]
    _ = d'.U * d'.Vh := by rw [Matrix.mul_assoc (d'.U * d'.Vh), hG, Matrix.mul_one]

/-- The bases computed by the PARAFAC2 penalty do not depend on the SVD function if the matrices it is applied to have full column rank. -/
theorem C92_bases (svd svd' : (i : Fin I) → Matrix (Fin (J i)) (Fin R) ℝ → SVD (J i) R R) (hv : ∀ i M, (svd i M).Valid M) (hv' : ∀ i M, (svd' i M).Valid M)
    (X : Ragged I R J) (D : Matrix (Fin R) (Fin R) ℝ) (h : ∀ i (v : Fin R → ℝ), (X i * D.transpose).mulVec v = 0 → v = 0) :
    p2Bases svd X D = p2Bases svd' X D :=
  funext fun i => polar_unique (hv i _) (hv' i _) (h i)

end Verif.Props
