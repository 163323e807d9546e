import Verif.Props.LoopFalse
import Verif.Props.PenaltyLaws
import Verif.Props.Parafac2
import Verif.ADMM.SaddleModes

/-!
# C132: a feasible factorization that reproduces the data is kept
-/

set_option linter.unusedSectionVars false

namespace Verif.Props

open Verif.Loop Verif.ADMM Verif.Penalties Verif.Spec Finset Matrix

variable {I K R n nA nB nC : ℕ} {J : Fin I → ℕ}

/-! ### Linear systems -/

theorem svdSolve_back {m : ℕ} {G : Matrix (Fin R) (Fin R) ℝ} {d : SVD R R R} (hd : d.Valid G) (hs : G.transpose = G) (hu : IsUnit G) (M : Matrix (Fin m) (Fin R) ℝ) :
    svdSolve d (M * G) = M := by
  have h := svdSolve_mul hd hs (svd_ne_zero hd hu) (M * G)
  obtain ⟨H, hH⟩ := hu.exists_right_inv
  have := congrArg (· * H) h
  simpa only [Matrix.mul_assoc, hH, Matrix.mul_one] using this

theorem rowMat_inj {v w : Fin R → ℝ} (h : rowMat v = rowMat w) : v = w := congrFun h 0

theorem svdSolveRow_back {G : Matrix (Fin R) (Fin R) ℝ} {d : SVD R R R} (hd : d.Valid G) (hs : G.transpose = G) (hu : IsUnit G) {v a : Fin R → ℝ}
    (hv : rowMat v = rowMat a * G) : svdSolveRow d v = a := by
  apply rowMat_inj
  rw [svdSolveRow_eq, hv, svdSolve_back hd hs hu]

theorem gram_symm {κ : Type} [Fintype κ] (M : Matrix κ (Fin R) ℝ) : (M.transpose * M).transpose = M.transpose * M := by
  rw [transpose_mul, transpose_transpose]

/-- The systems are invertible if there are penalties with positive feasibility penalties, or none and the fit determines the factor. -/
theorem isUnit_well {κ : Type} [Fintype κ] (M : Matrix κ (Fin R) ℝ) {ρ : ℝ}
    (h : (0 < n ∧ 0 < ρ) ∨ (n = 0 ∧ ∀ v : Fin R → ℝ, v ≠ 0 → 0 < ∑ k, (∑ r, M k r * v r) ^ 2 + 0 * ∑ r, v r ^ 2)) : IsUnit (addRidge (M.transpose * M) ρ n 0) := by
  rcases h with ⟨hn, hρ⟩ | ⟨rfl, h⟩
  · exact isUnit_system M hρ.le le_rfl (.inl ⟨hn, hρ⟩)
  · have : addRidge (M.transpose * M) ρ 0 0 = addRidge (M.transpose * M) 0 0 0 := by simp [addRidge]
    rw [this]
    exact isUnit_system M le_rfl le_rfl (.inr h)

/-! ### Data that are reproduced -/

/-- The factors reproduce the data. -/
def Reproduces (X : Ragged I K J) (F : Factors I K R J) : Prop := ∀ i j k, X i j k = F.entry i j k

variable {X : Ragged I K J} {F : Factors I K R J}

theorem rhsA_exact (h : Reproduces X F) (i : Fin I) : rowMat (rhsA X F i) = rowMat (F.A i) * crossA F i := by
  have e : dataA X i = rowMat (F.A i) * (designA F i).transpose := by
    ext z jk
    show X i jk.1 jk.2 = _
    rw [h, mul_apply]
    exact sum_congr rfl fun r _ => mul_assoc _ _ _
  rw [rhsA_eq, crossA_eq, e, Matrix.mul_assoc]

theorem rhsB_exact (h : Reproduces X F) (i : Fin I) : rhsB X F i = F.B i * crossB F i := by
  have e : X i = F.B i * (designB F i).transpose := by
    ext j k
    rw [h, mul_apply]
    exact sum_congr rfl fun r _ => by simp only [designB, transpose_apply, of_apply]; ring
  rw [rhsB_eq, crossB_eq, ← Matrix.mul_assoc, ← e]

theorem rhsC_exact (h : Reproduces X F) : rhsC X F = F.C * crossC F := by
  have e : dataC X = F.C * (designC F).transpose := by
    ext k ij
    show X ij.1 ij.2 k = _
    rw [h, mul_apply]
    exact sum_congr rfl fun r _ => by simp only [designC, transpose_apply, of_apply]; ring
  rw [rhsC_eq, crossC_eq, e, Matrix.mul_assoc]

theorem mul_addRidge {m : ℕ} (M : Matrix (Fin m) (Fin R) ℝ) (G : Matrix (Fin R) (Fin R) ℝ) (ρ : ℝ) (n : ℕ) :
    M * addRidge G ρ n 0 = (ρ * n) • M + M * G := by
  rw [addRidge, Matrix.mul_add, Matrix.mul_smul, Matrix.mul_one, add_zero, add_comm]

/-! ### Penalties that keep a factor -/

/-- The penalty returns A if it is given A, as a matrix and row by row. -/
structure KeepsA (A : Matrix (Fin I) (Fin R) ℝ) (p : PenA I R) : Prop where
  mat : ∀ ρ, 0 < ρ → p.mat A ρ A = A
  row : ∀ u, p.row = some u → ∀ i ρ, 0 < ρ → u (A i) ρ (A i) = A i

/-- The auxiliary variables in `G` represent the B factor matrices, and the penalty returns one of them if it is given the B factor matrices and one of them. -/
structure KeepsB (B : Ragged I R J) (p : PenB I R J) (G : Set (AuxB I R J)) : Prop where
  mats : ∀ a ∈ G, a.toMats = B
  update : ∀ ρ : Fin I → ℝ, (∀ i, 0 < ρ i) → ∀ a ∈ G, p.update B ρ a ∈ G

/-- The penalty returns C if it is given C. -/
def KeepsC (C : Matrix (Fin K) (Fin R) ℝ) (p : PenC K R) : Prop := ∀ ρ, 0 < ρ → p.mat C ρ C = C

/-- The situation of C132: no L2 penalty, the factors reproduce the data; every updated mode has penalties that keep its factor, with positive feasibility penalties, or it has none
and the fit determines the factor. -/
structure Rests (P : Problem I K R nA nB nC J) (F : Factors I K R J) (G : Fin nB → Set (AuxB I R J)) : Prop where
  pos : 0 < I
  svd : ValidSVD P.params
  l2 : P.l2 = (0, 0, 0)
  exact : Reproduces P.X F
  keepsA : P.updA = true → ∀ p, KeepsA F.A (P.pensA p)
  rows : P.updA = true → P.constA = false → ∀ p, (P.pensA p).row.isSome = true
  wellA : P.updA = true → (0 < nA ∧ ∀ i, 0 < weightA P.params.scale F i) ∨ (nA = 0 ∧ SolvableA F 0)
  keepsB : P.updB = true → ∀ p, KeepsB F.B (P.pensB p) (G p)
  wellB : P.updB = true → (0 < nB ∧ ∀ i, 0 < weightB P.params.scale F i) ∨ (nB = 0 ∧ SolvableB F 0)
  keepsC : P.updC = true → ∀ p, KeepsC F.C (P.pensC p)
  wellC : P.updC = true → (0 < nC ∧ 0 < weightC P.params.scale F) ∨ (nC = 0 ∧ SolvableC F 0)

/-- The variables: the factors, auxiliary variables equal to them, zero dual variables. -/
structure RestsAt (F : Factors I K R J) (G : Fin nB → Set (AuxB I R J)) (s : AOState I K R nA nB nC J) : Prop where
  weights : s.weights = none
  factors : s.F = F
  auxA : ∀ p, s.auxA p = F.A
  dualA : ∀ p, s.dualA p = 0
  auxB : ∀ p, s.auxB p ∈ G p ∧ (s.auxB p).toMats = F.B
  dualB : ∀ p, s.dualB p = 0
  auxC : ∀ p, s.auxC p = F.C
  dualC : ∀ p, s.dualC p = 0

/-! ### The updates -/

theorem innerLoop_keeps {S : Type} {step : S → S} {stop : S → S → Bool} {inv : S → Prop} (h : ∀ s, inv s → inv (step s)) : ∀ (n : ℕ) (s : S), inv s → inv (innerLoop step stop n s)
  | 0, _, hs => hs
  | n + 1, s, hs => by
    rw [innerLoop]
    split
    · exact h s hs
    · exact innerLoop_keeps h n _ (h s hs)

theorem updateA_rests {P : Problem I K R nA nB nC J} {G} (h : Rests P F G) (hu : P.updA = true) (aux dual : Fin nA → Matrix (Fin I) (Fin R) ℝ) (ha : ∀ p, aux p = F.A)
    (hd : ∀ p, dual p = 0) : ∃ s, admmUpdateA P.params P.X P.pensA 0 P.constA F aux dual = .ok s ∧ s.x = F.A ∧ (∀ p, s.aux p = F.A) ∧ ∀ p, s.dual p = 0 := by
  obtain ⟨⟨o, ρ⟩, hρ⟩ := feasPenalties_exists P.params.scale P.constA (crossA F) fun _ => h.pos
  obtain ⟨hw, hc0, hc1⟩ := feasPenalties_ok hρ
  simp only [feasPenalty_A] at hw
  unfold admmUpdateA
  rw [hρ]
  simp only [Except.bind]
  have hnone : (!P.constA && decide (0 < P.params.nInner) && decide (0 < I) && (List.ofFn P.pensA).any fun p => p.row.isNone) = false := by
    cases hc : P.constA
    · have : (List.ofFn P.pensA).any (fun p => p.row.isNone) = false := by
        rw [List.any_eq_false]
        intro q hq
        obtain ⟨p, rfl⟩ := List.mem_ofFn.1 hq
        simp [Option.isSome_iff_ne_none.1 (h.rows hu hc p)]
      rw [this, Bool.and_false]
    · rfl
  rw [hnone]
  simp only [Bool.false_eq_true, if_false]
  refine ⟨_, rfl, ?_⟩
  refine innerLoop_keeps (inv := fun s : MatState I R nA => s.x = F.A ∧ (∀ p, s.aux p = F.A) ∧ ∀ p, s.dual p = 0) (fun s hs => ?_) _ _ ⟨rfl, ha, hd⟩
  obtain ⟨-, h1, h2⟩ := hs
  have hx : (stepA P.pensA o ρ (fun i => P.params.svd (addRidge (crossA F i) (ρ i) nA 0)) (rhsA P.X F) s).x = F.A := by
    funext i
    refine svdSolveRow_back (h.svd _) (addRidge_symm (by rw [crossA_eq, gram_symm]) _ _ _) ?_ ?_
    · rw [crossA_eq]
      refine isUnit_well _ ?_
      rcases h.wellA hu with ⟨hn, hp⟩ | ⟨hn, hp⟩
      · exact .inl ⟨hn, hw.pos hp i⟩
      · refine .inr ⟨hn, fun v hv => ?_⟩
        have := hp i v hv
        rw [Fintype.sum_prod_type]
        simpa only [designA, of_apply, mul_comm, mul_left_comm, mul_assoc] using this
    · rw [mul_addRidge]
      rw [← rhsA_exact h.exact]
      ext z r
      simp only [h1, h2, sub_zero, sum_const, card_univ, Fintype.card_fin]
      simp [rowMat, mul_assoc]
  have haux : ∀ p, (stepA P.pensA o ρ (fun i => P.params.svd (addRidge (crossA F i) (ρ i) nA 0)) (rhsA P.X F) s).aux p = F.A := by
    intro p
    show ADMM.auxA (P.pensA p) o ρ ((stepA P.pensA o ρ (fun i => P.params.svd (addRidge (crossA F i) (ρ i) nA 0)) (rhsA P.X F) s).x + s.dual p) (s.aux p) = F.A
    rw [hx, h1, h2, add_zero]
    have hpos : ∀ i, 0 < ρ i := by
      rcases h.wellA hu with ⟨hn, hp⟩ | ⟨hn, -⟩
      · exact hw.pos hp
      · exact absurd p.isLt (by omega)
    have hk := h.keepsA hu p
    unfold ADMM.auxA
    cases hc : P.constA with
    | false =>
      rw [hc0 hc]
      obtain ⟨u, hu'⟩ := Option.isSome_iff_exists.1 (h.rows hu hc p)
      rw [hu']
      funext i
      exact hk.row u hu' i (ρ i) (hpos i)
    | true =>
      obtain ⟨m, hm, hm'⟩ := hc1 hc
      rw [hm]
      exact hk.mat m (by rw [← hm' ⟨0, h.pos⟩]; exact hpos _)
  refine ⟨hx, haux, fun p => ?_⟩
  show (stepA P.pensA o ρ (fun i => P.params.svd (addRidge (crossA F i) (ρ i) nA 0)) (rhsA P.X F) s).x -
    ((stepA P.pensA o ρ (fun i => P.params.svd (addRidge (crossA F i) (ρ i) nA 0)) (rhsA P.X F) s).aux p - s.dual p) = 0
  rw [hx, haux p, h2, sub_zero, sub_self]

theorem subtract_rest (a : AuxB I R J) : a.subtract 0 = a.toMats := by
  cases a with
  | mats Y => funext i; exact sub_zero _
  | p2 b => funext i; exact sub_zero _

theorem updateB_rests {P : Problem I K R nA nB nC J} {G} (h : Rests P F G) (hu : P.updB = true) (aux : Fin nB → AuxB I R J) (dual : Fin nB → Ragged I R J)
    (ha : ∀ p, aux p ∈ G p) (hd : ∀ p, dual p = 0) :
    ∃ s, admmUpdateB P.params P.X P.pensB 0 P.constB F aux dual = .ok s ∧ s.x = F.B ∧ (∀ p, s.aux p ∈ G p) ∧ ∀ p, s.dual p = 0 := by
  obtain ⟨⟨o, ρ⟩, hρ⟩ := feasPenalties_exists P.params.scale P.constB (crossB F) fun _ => h.pos
  obtain ⟨hw, -, -⟩ := feasPenalties_ok hρ
  simp only [feasPenalty_B] at hw
  unfold admmUpdateB
  rw [hρ]
  simp only [Except.bind]
  refine ⟨_, rfl, ?_⟩
  refine innerLoop_keeps (inv := fun s : RagState I R nB J => s.x = F.B ∧ (∀ p, s.aux p ∈ G p) ∧ ∀ p, s.dual p = 0) (fun s hs => ?_) _ _ ⟨rfl, ha, hd⟩
  obtain ⟨-, h1, h2⟩ := hs
  have hx : (stepB P.pensB ρ (fun i => P.params.svd (addRidge (crossB F i) (ρ i) nB 0)) (rhsB P.X F) s).x = F.B := by
    funext i
    have e : ρ i • (∑ p, (s.aux p).subtract (s.dual p) i) + rhsB P.X F i = F.B i * addRidge (crossB F i) (ρ i) nB 0 := by
      rw [mul_addRidge, rhsB_exact h.exact]
      congr 1
      have : ∀ p, (s.aux p).subtract (s.dual p) i = F.B i := fun p => by rw [h2, subtract_rest, (h.keepsB hu p).mats _ (h1 p)]
      simp only [this, sum_const, card_univ, Fintype.card_fin]
      rw [← Nat.cast_smul_eq_nsmul ℝ, smul_smul]
    show svdSolve _ (ρ i • (∑ p, (s.aux p).subtract (s.dual p) i) + rhsB P.X F i) = F.B i
    rw [e]
    refine svdSolve_back (h.svd _) (addRidge_symm (by rw [crossB_eq, gram_symm]) _ _ _) ?_ _
    rw [crossB_eq]
    refine isUnit_well _ ?_
    rcases h.wellB hu with ⟨hn, hp⟩ | ⟨hn, hp⟩
    · exact .inl ⟨hn, hw.pos hp i⟩
    · refine .inr ⟨hn, fun v hv => ?_⟩
      have := hp i v hv
      simpa only [designB, of_apply, mul_comm, mul_left_comm, mul_assoc] using this
  have haux : ∀ p, (stepB P.pensB ρ (fun i => P.params.svd (addRidge (crossB F i) (ρ i) nB 0)) (rhsB P.X F) s).aux p ∈ G p := by
    intro p
    have hpos : ∀ i, 0 < ρ i := by
      rcases h.wellB hu with ⟨hn, hp⟩ | ⟨hn, -⟩
      · exact hw.pos hp
      · exact absurd p.isLt (by omega)
    have : (fun i => (stepB P.pensB ρ (fun i => P.params.svd (addRidge (crossB F i) (ρ i) nB 0)) (rhsB P.X F) s).x i + s.dual p i) = F.B := by
      rw [hx, h2]
      funext i
      exact add_zero _
    show (P.pensB p).update (fun i => (stepB P.pensB ρ (fun i => P.params.svd (addRidge (crossB F i) (ρ i) nB 0)) (rhsB P.X F) s).x i + s.dual p i) ρ (s.aux p) ∈ G p
    rw [this]
    exact (h.keepsB hu p).update ρ hpos _ (h1 p)
  refine ⟨hx, haux, fun p => ?_⟩
  funext i
  show (stepB P.pensB ρ (fun i => P.params.svd (addRidge (crossB F i) (ρ i) nB 0)) (rhsB P.X F) s).x i -
    ((stepB P.pensB ρ (fun i => P.params.svd (addRidge (crossB F i) (ρ i) nB 0)) (rhsB P.X F) s).aux p).subtract (s.dual p) i = 0
  rw [hx, h2, subtract_rest, (h.keepsB hu p).mats _ (haux p), sub_self]

theorem updateC_rests {P : Problem I K R nA nB nC J} {G} (h : Rests P F G) (hu : P.updC = true) (aux dual : Fin nC → Matrix (Fin K) (Fin R) ℝ) (ha : ∀ p, aux p = F.C)
    (hd : ∀ p, dual p = 0) : (admmUpdateC P.params P.X P.pensC 0 F aux dual).x = F.C ∧ (∀ p, (admmUpdateC P.params P.X P.pensC 0 F aux dual).aux p = F.C) ∧
      ∀ p, (admmUpdateC P.params P.X P.pensC 0 F aux dual).dual p = 0 := by
  unfold admmUpdateC
  refine innerLoop_keeps (inv := fun s : MatState K R nC => s.x = F.C ∧ (∀ p, s.aux p = F.C) ∧ ∀ p, s.dual p = 0) (fun s hs => ?_) _ _ ⟨rfl, ha, hd⟩
  obtain ⟨-, h1, h2⟩ := hs
  set ρ := feasPenalty P.params.scale (crossC F) with hρ
  have hw : ρ = weightC P.params.scale F := feasPenalty_C _ _
  have hx : (stepC P.pensC ρ (P.params.svd (addRidge (crossC F) ρ nC 0)) (rhsC P.X F) s).x = F.C := by
    have e : ρ • (∑ p, (s.aux p - s.dual p)) + rhsC P.X F = F.C * addRidge (crossC F) ρ nC 0 := by
      rw [mul_addRidge, rhsC_exact h.exact]
      congr 1
      simp only [h1, h2, sub_zero, sum_const, card_univ, Fintype.card_fin]
      rw [← Nat.cast_smul_eq_nsmul ℝ, smul_smul]
    show svdSolve _ (ρ • (∑ p, (s.aux p - s.dual p)) + rhsC P.X F) = F.C
    rw [e]
    refine svdSolve_back (h.svd _) (addRidge_symm (by rw [crossC_eq, gram_symm]) _ _ _) ?_ _
    rw [crossC_eq]
    refine isUnit_well _ ?_
    rcases h.wellC hu with ⟨hn, hp⟩ | ⟨hn, hp⟩
    · exact .inl ⟨hn, by rw [hw]; exact hp⟩
    · refine .inr ⟨hn, fun v hv => ?_⟩
      have := hp v hv
      rw [Fintype.sum_sigma]
      simpa only [designC, of_apply, mul_comm, mul_left_comm, mul_assoc] using this
  have haux : ∀ p, (stepC P.pensC ρ (P.params.svd (addRidge (crossC F) ρ nC 0)) (rhsC P.X F) s).aux p = F.C := by
    intro p
    show (P.pensC p).mat ((stepC P.pensC ρ (P.params.svd (addRidge (crossC F) ρ nC 0)) (rhsC P.X F) s).x + s.dual p) ρ (s.aux p) = F.C
    rw [hx, h1, h2, add_zero]
    refine h.keepsC hu p ρ ?_
    rcases h.wellC hu with ⟨hn, hp⟩ | ⟨hn, -⟩
    · rw [hw]; exact hp
    · exact absurd p.isLt (by omega)
  refine ⟨hx, haux, fun p => ?_⟩
  show (stepC P.pensC ρ (P.params.svd (addRidge (crossC F) ρ nC 0)) (rhsC P.X F) s).x -
    ((stepC P.pensC ρ (P.params.svd (addRidge (crossC F) ρ nC 0)) (rhsC P.X F) s).aux p - s.dual p) = 0
  rw [hx, haux p, h2, sub_zero, sub_self]

theorem sweep_rests {P : Problem I K R nA nB nC J} {G} (h : Rests P F G) {s : AOState I K R nA nB nC J} (hs : RestsAt F G s) :
    ∃ t j, sweep P s = .ok (t, j) ∧ RestsAt F G t := by
  have eB : ∃ t, sweepB P s = .ok t ∧ RestsAt F G t := by
    unfold sweepB
    cases hu : P.updB
    · exact ⟨s, rfl, hs⟩
    · obtain ⟨t, h1, h2, h3, h4⟩ := updateB_rests h hu s.auxB s.dualB (fun p => (hs.auxB p).1) hs.dualB
      rw [hs.factors, h.l2]
      simp only [if_true]
      rw [h1]
      exact ⟨_, rfl, rfl, by beta_reduce; rw [h2], hs.auxA, hs.dualA, fun p => ⟨h3 p, (h.keepsB hu p).mats _ (h3 p)⟩, h4, hs.auxC, hs.dualC⟩
  have eC : ∀ u, RestsAt F G u → RestsAt F G (sweepC P u) := by
    intro u hu'
    unfold sweepC
    cases hu : P.updC
    · exact hu'
    · obtain ⟨h2, h3, h4⟩ := updateC_rests h hu u.auxC u.dualC hu'.auxC hu'.dualC
      rw [hu'.factors, h.l2]
      simp only [if_true]
      exact ⟨rfl, by rw [h2], hu'.auxA, hu'.dualA, hu'.auxB, hu'.dualB, h3, h4⟩
  have eA : ∀ u, RestsAt F G u → ∃ t j, sweepA P u = .ok (t, j) ∧ RestsAt F G t := by
    intro u hu'
    unfold sweepA
    cases hu : P.updA
    · exact ⟨u, none, rfl, hu'⟩
    · obtain ⟨t, h1, h2, h3, h4⟩ := updateA_rests h hu u.auxA u.dualA hu'.auxA hu'.dualA
      rw [hu'.factors, h.l2]
      simp only [if_true]
      rw [h1]
      exact ⟨_, _, rfl, rfl, by rw [h2], h3, h4, hu'.auxB, hu'.dualB, hu'.auxC, hu'.dualC⟩
  obtain ⟨t, h1, h2⟩ := eB
  obtain ⟨t', j, h3, h4⟩ := eA _ (eC t h2)
  refine ⟨t', j, ?_, h4⟩
  unfold sweep
  rw [h1]
  exact h3

/-! ### C132 -/

theorem body_st {σ ι : Type} {O : Ops σ ι} {a : Args} (ha : truthy a.tol = true → a.absTol ≠ none) {s : Acc σ} {t : σ} {i : ι} (h : O.sweep s.st = .ok (t, i)) :
    ∃ s' b, body O a s = .ok (s', b) ∧ s'.st = t := by
  unfold body
  rw [h]
  dsimp only
  split
  · split
    · exact ⟨_, _, rfl, rfl⟩
    · unfold checkStop
      split
      · rename_i ht
        cases hb : a.absTol with
        | none => exact absurd hb (ha ht)
        | some b =>
          dsimp only
          split
          · exact ⟨_, _, rfl, rfl⟩
          · split
            · exact ⟨_, _, rfl, rfl⟩
            · exact ⟨_, _, rfl, rfl⟩
      · exact ⟨_, _, rfl, rfl⟩
  · exact ⟨_, _, rfl, rfl⟩

theorem run_rests {P : Problem I K R nA nB nC J} {G} (h : Rests P F G) {a : Args} (ha : truthy a.tol = true → a.absTol ≠ none) :
    ∀ (n : ℕ) (s : Acc (AOState I K R nA nB nC J)), RestsAt F G s.st → ∃ s', run (aoOps P) a n s = .ok s' ∧ RestsAt F G s'.st
  | 0, s, hs => ⟨_, rfl, hs⟩
  | n + 1, s, hs => by
    obtain ⟨t, j, h1, h2⟩ := sweep_rests h hs
    obtain ⟨s', b, h3, h4⟩ := body_st (O := aoOps P) ha h1
    rw [run, h3]
    cases b
    · exact run_rests h ha n s' (by rw [h4]; exact h2)
    · exact ⟨s', rfl, by rw [h4]; exact h2⟩

/-- C132: started from factors that reproduce the data and that the penalties keep, with auxiliary variables equal to them and zero dual variables, `cmf_aoadmm` returns these
factors and variables, whatever the number of iterations, of inner iterations, and the tolerances (`absolute_tol=None` with `tol` set raises, see C38). -/
theorem C132 (P : Problem I K R nA nB nC J) (F : Factors I K R J) (G : Fin nB → Set (AuxB I R J)) (h : Rests P F G) (init : AOState I K R nA nB nC J)
    (hi : RestsAt F G init) (a : Args) (ha : truthy a.tol = true → a.absTol ≠ none) : ∃ out, cmfAoadmm P a init = .ok out ∧ RestsAt F G out.st := by
  obtain ⟨s, h1, h2⟩ := run_rests h ha a.nIterMax.toNat (initAcc (aoOps P) a none init) hi
  exact ⟨_, by unfold cmfAoadmm fit; rw [h1], h2⟩

theorem relErr_rests {P : Problem I K R nA nB nC J} {G : Fin nB → Set (AuxB I R J)} (h : Reproduces P.X F) {s : AOState I K R nA nB nC J} (hs : RestsAt F G s) :
    relErr P.X s = 0 := by
  unfold relErr
  have : sse P.X (absorb s.weights s.F) = 0 := by
    have e : absorb s.weights s.F = F := by rw [hs.weights, hs.factors]; simp [absorb]
    rw [e]
    refine sum_eq_zero fun i _ => sum_eq_zero fun j _ => sum_eq_zero fun k _ => ?_
    rw [h, sub_self, zero_pow two_ne_zero]
  rw [this, Real.sqrt_zero, zero_div]

theorem nonzero_rests {X : Ragged I K J} (hX : X ≠ 0) (h : Reproduces X F) : F.A ≠ 0 ∧ F.B ≠ 0 ∧ F.C ≠ 0 := by
  refine ⟨fun e => hX ?_, fun e => hX ?_, fun e => hX ?_⟩ <;>
  · funext i
    ext j k
    rw [h, Factors.entry, e]
    simp

theorem gaps_rests (hA : F.A ≠ 0) (hB : F.B ≠ 0) (hC : F.C ≠ 0) {G : Fin nB → Set (AuxB I R J)} {s : AOState I K R nA nB nC J} (hs : RestsAt F G s) :
    feasibilityGaps s.F s.auxA s.auxB s.auxC = ⟨List.replicate nA (.fin 0), List.replicate nB (.fin 0), List.replicate nC (.fin 0)⟩ := by
  rw [hs.factors]
  obtain ⟨⟨gA, a1, -, a3⟩, ⟨gB, b1, -, b3⟩, gC, c1, -, c3⟩ := C36 F s.auxA s.auxB s.auxC hA hB hC
  have e1 : gA = fun _ => 0 := funext fun p => (a3 p).2 (hs.auxA p).symm
  have e2 : gB = fun _ => 0 := funext fun p => (b3 p).2 (hs.auxB p).2.symm
  have e3 : gC = fun _ => 0 := funext fun p => (c3 p).2 (hs.auxC p).symm
  rw [e1, List.ofFn_const] at a1
  rw [e2, List.ofFn_const] at b1
  rw [e3, List.ofFn_const] at c1
  rw [← a1, ← b1, ← c1]

/-- C132, the diagnostics: all reconstruction errors and feasibility gaps are 0, all losses are the value of the penalties. -/
theorem C132_diagnostics (P : Problem I K R nA nB nC J) (hX : P.X ≠ 0) (F : Factors I K R J) (G : Fin nB → Set (AuxB I R J)) (h : Rests P F G)
    (init : AOState I K R nA nB nC J) (hi : RestsAt F G init) (a : Args) (ha : truthy a.tol = true → a.absTol ≠ none) (hr : a.returnErrors = true) :
    ∃ out d, cmfAoadmm P a init = .ok out ∧ out.diag = some d ∧ d.recErrors = List.replicate (d.nIter + 1) (.fin 0) ∧
      d.losses = List.replicate (d.nIter + 1) (.fin (regValue P F)) ∧
      d.gaps = List.replicate (d.nIter + 1) ⟨List.replicate nA (.fin 0), List.replicate nB (.fin 0), List.replicate nC (.fin 0)⟩ := by
  obtain ⟨out, h1, -⟩ := C132 P F G h init hi a ha
  obtain ⟨d, h2, l1, l2, l3, h3⟩ := C37 P hX a hr init out h1
  obtain ⟨nA', nB', nC'⟩ := nonzero_rests hX h.exact
  have key : ∀ {α : Type} {l : List α} {x : α}, l.length = d.nIter + 1 → (∀ t ≤ d.nIter, l[t]? = some x) → l = List.replicate (d.nIter + 1) x := by
    intro α l x hl hx
    refine List.eq_replicate_iff.2 ⟨hl, fun b hb => ?_⟩
    obtain ⟨t, ht, rfl⟩ := List.getElem_of_mem hb
    have := hx t (by omega)
    rw [List.getElem?_eq_getElem ht] at this
    exact Option.some.inj this
  have hst : ∀ t ≤ d.nIter, ∃ o : Output (AOState I K R nA nB nC J), RestsAt F G o.st ∧ d.recErrors[t]? = some (.fin (relErr P.X o.st)) ∧
      d.losses[t]? = some (.fin (1 / 2 * relErr P.X o.st ^ 2 + regValue P o.st.F)) ∧ d.gaps[t]? = some (feasibilityGaps o.st.F o.st.auxA o.st.auxB o.st.auxC) := by
    intro t ht
    obtain ⟨o, o1, -, o2, o3, o4⟩ := h3 t ht
    obtain ⟨o', p1, p2⟩ := C132 P F G h init hi (plain t) (fun h => by cases h)
    rw [o1] at p1
    cases p1
    exact ⟨o, p2, o2, o3, o4⟩
  refine ⟨out, d, h1, h2, key l1 fun t ht => ?_, key l3 fun t ht => ?_, key l2 fun t ht => ?_⟩ <;> obtain ⟨o, o1, o2, o3, o4⟩ := hst t ht
  · rw [o2, relErr_rests h.exact o1]
  · rw [o3, relErr_rests h.exact o1, o1.factors]; norm_num
  · rw [o4, gaps_rests nA' nB' nC' o1]

theorem regValue_eq (P : Problem I K R nA nB nC J) (s : AOState I K R nA nB nC J) : (aoOps P).penalty s = regValue P s.F := by
  show l2Penalty P.l2 s.F + _ = _
  rw [l2Penalty_eq, regValue]

/-- C132, stopping: with all tolerances positive, the call stops after one iteration if the value of the penalties is positive (by the relative criterion), or if it is not and
below `absolute_tol` (by the absolute criterion). -/
theorem C132_stops (P : Problem I K R nA nB nC J) (hX : P.X ≠ 0) (F : Factors I K R J) (G : Fin nB → Set (AuxB I R J)) (h : Rests P F G)
    (init : AOState I K R nA nB nC J) (hi : RestsAt F G init) (a : Args) {tol abs feas : ℝ} (ht : a.tol = some tol) (h0 : 0 < tol) (hb : a.absTol = some abs)
    (hf : a.feasTol = some feas) (f0 : 0 < feas) (hr : a.returnErrors = true) (hn : 1 ≤ a.nIterMax) :
    (0 < regValue P F → ∃ out d, cmfAoadmm P a init = .ok out ∧ out.diag = some d ∧ d.nIter = 1 ∧ d.stopping = some true ∧ d.message = .relative) ∧
    (regValue P F ≤ 0 → regValue P F < abs →
      ∃ out d, cmfAoadmm P a init = .ok out ∧ out.diag = some d ∧ d.nIter = 1 ∧ d.stopping = some true ∧ d.message = .absolute) := by
  obtain ⟨n, hn'⟩ : ∃ n, a.nIterMax.toNat = n + 1 := ⟨a.nIterMax.toNat - 1, by omega⟩
  obtain ⟨t, j, h1, h2⟩ := sweep_rests h hi
  obtain ⟨nA', nB', nC'⟩ := nonzero_rests hX h.exact
  have fin : ∀ s : AOState I K R nA nB nC J, RestsAt F G s → PyF.div √(sse P.X (absorb s.weights s.F)) (rootSumSq P.X) = .fin 0 := by
    intro s hs
    rw [rootSumSq_eq, PyF.div, if_neg (C35_direct P.X hX s.weights s.F).2.ne']
    exact congrArg _ (relErr_rests h.exact hs)
  have r0 : (aoOps P).relError init none = .fin 0 := by
    show PyF.div (recError _ _ _ _ _) _ = _
    rw [recError_direct, fin init hi]
  have r1 : (aoOps P).relError t j = .fin 0 := by
    show PyF.div (recError _ _ _ _ _) _ = _
    rw [sweep_recError h1, fin t h2]
  have g1 : checkFeasibility ((aoOps P).gaps t) feas = true := by
    refine (checkFeasibility_iff (s := t) ?_ feas).2 ?_
    · rw [NonzeroFactors, h2.factors]
      exact ⟨fun _ => nA', fun _ => nB', fun _ => nC'⟩
    · rw [GapsBelow, h2.factors]
      refine ⟨fun p => ?_, fun p => ?_, fun p => ?_⟩
      · rw [h2.auxA, sub_self]
        simpa [sqNorm] using mul_pos f0 (matGap_eq nA' F.A).2
      · rw [(h2.auxB p).2, sub_self]
        simpa [raggedSq, sqNorm] using mul_pos f0 (raggedGap_eq nB' (.mats F.B)).2
      · rw [h2.auxC, sub_self]
        simpa [sqNorm] using mul_pos f0 (matGap_eq nC' F.C).2
  have hsw : (aoOps P).sweep init = .ok (t, j) := h1
  have tt : truthy (some tol) = true := by simp [truthy, h0.ne']
  have tf : truthy (some feas) = true := by simp [truthy, f0.ne']
  have p0 : (aoOps P).penalty init = regValue P F := by rw [regValue_eq, hi.factors]
  have p1 : (aoOps P).penalty t = regValue P F := by rw [regValue_eq, h2.factors]
  refine ⟨fun hv => ?_, fun hv hv' => ?_⟩
  · have hc : relCriterion (.fin (1 / 2 * 0 ^ 2 + regValue P F)) (.fin (1 / 2 * 0 ^ 2 + regValue P F)) tol = true := by
      simpa [relCriterion] using mul_pos h0 hv
    unfold cmfAoadmm fit
    rw [hn', run]
    unfold body
    rw [show (initAcc (aoOps P) a none init).st = init from rfl, hsw]
    simp only [tt, tf, hf, g1, hr, ht, hb, r1, p1, initAcc, r0, p0, lossOf, checkStop, hc, Option.getD_some, Bool.true_or, Bool.and_self, Bool.not_true, Bool.and_false,
      Bool.false_eq_true, if_true, if_false, List.getLastD_cons, List.getLastD_nil]
    exact ⟨_, _, rfl, rfl, rfl, rfl, rfl⟩
  · have hc : relCriterion (.fin (1 / 2 * 0 ^ 2 + regValue P F)) (.fin (1 / 2 * 0 ^ 2 + regValue P F)) tol = false := by
      simpa [relCriterion] using mul_nonpos_of_nonneg_of_nonpos h0.le hv
    have hl : (PyF.fin (1 / 2 * 0 ^ 2 + regValue P F)).lt abs = true := by simpa [PyF.lt] using hv'
    unfold cmfAoadmm fit
    rw [hn', run]
    unfold body
    rw [show (initAcc (aoOps P) a none init).st = init from rfl, hsw]
    simp only [tt, tf, hf, g1, hr, ht, hb, r1, p1, initAcc, r0, p0, lossOf, checkStop, hc, hl, Option.getD_some, Bool.true_or, Bool.and_self, Bool.not_true, Bool.and_false,
      Bool.false_eq_true, if_true, if_false, List.getLastD_cons, List.getLastD_nil]
    exact ⟨_, _, rfl, rfl, rfl, rfl, rfl⟩

/-- C132, not stopping: if the value of the penalties is not positive and not below `absolute_tol` (a perfect fit with hard constraints and `absolute_tol=0`), neither criterion
ever holds, and all iterations are performed. -/
theorem C132_endless (P : Problem I K R nA nB nC J) (hX : P.X ≠ 0) (F : Factors I K R J) (G : Fin nB → Set (AuxB I R J)) (h : Rests P F G)
    (init : AOState I K R nA nB nC J) (hi : RestsAt F G init) (a : Args) {tol abs : ℝ} (ht : a.tol = some tol) (h0 : 0 < tol) (hb : a.absTol = some abs)
    (hv : regValue P F ≤ 0) (hv' : abs ≤ regValue P F) (hr : a.returnErrors = true) :
    ∃ out d, cmfAoadmm P a init = .ok out ∧ out.diag = some d ∧ (d.nIter : ℤ) = max a.nIterMax 0 ∧ d.message = .maxIter := by
  obtain ⟨out, d, h1, h2, -, h3, -⟩ := C132_diagnostics P hX F G h init hi a (fun _ => by rw [hb]; simp) hr
  obtain ⟨d', h2', -, r1, r2, -⟩ := report P a hr init out h1
  rw [h2] at h2'
  cases h2'
  refine ⟨out, d, h1, h2, r2 fun hs => ?_⟩
  obtain ⟨-, hc, -⟩ := r1 hs
  have mem : ∀ q, PyF.fin q ∈ d.losses → q = regValue P F := by
    intro q hq
    rw [h3] at hq
    exact PyF.fin.inj (List.eq_of_mem_replicate hq)
  rcases hc with ⟨-, t, ls, p, q, hset, hl, hlt⟩ | ⟨-, t, ls, q, hset, hl, hlt⟩
  · have e1 := mem p (by rw [hl]; simp)
    have e2 := mem q (by rw [hl]; simp)
    obtain rfl : tol = t := Option.some.inj (ht.symm.trans hset.1)
    rw [e1, e2, sub_self, abs_zero] at hlt
    exact absurd hlt (not_lt.2 (mul_nonpos_of_nonneg_of_nonpos h0.le hv))
  · have e1 := mem q (by rw [hl]; simp)
    obtain rfl : abs = t := Option.some.inj (hb.symm.trans hset)
    rw [e1] at hlt
    exact absurd hlt (not_lt.2 hv')

/-! ### The penalties of the package -/

theorem keepsA_std {p : StdPen I R} (h : p.Valid) {A : Matrix (Fin I) (Fin R) ℝ} (hA : A ∈ p.feasible) (h0 : p.value A = 0) : KeepsA A p.toA where
  mat ρ hρ := (C79_updates p h hρ A A).2.2.2 ⟨hA, h0⟩
  row u hu i ρ hρ := by
    obtain ⟨h1, h2⟩ := (p.proxA h).row u hu (fun _ => ρ) (fun _ => hρ) A A
    by_contra hne
    have := h2 A hA fun e => hne (congrFun e i).symm
    rw [p.value_eq h] at h0
    simp only [h0, sub_self, ne_eq, OfNat.ofNat_ne_zero, not_false_eq_true, zero_pow, sum_const_zero, mul_zero, add_zero] at this
    refine absurd this (not_lt.2 (add_nonneg (p.fn_nonneg h _) ?_))
    exact sum_nonneg fun i _ => mul_nonneg (by linarith) (sum_nonneg fun r _ => sq_nonneg _)

theorem keepsC_std {p : StdPen K R} (h : p.Valid) {C : Matrix (Fin K) (Fin R) ℝ} (hC : C ∈ p.feasible) (h0 : p.value C = 0) : KeepsC C p.toC :=
  fun _ hρ => (C79_updates p h hρ C C).2.2.2 ⟨hC, h0⟩

theorem keepsB_ofMat {B : Ragged I R J} {u : (i : Fin I) → MatUpdate (J i) R} {v} (h : ∀ i ρ, 0 < ρ → u i (B i) ρ (B i) = B i) :
    KeepsB B (.ofMat u v) {a | a.toMats = B} where
  mats _ ha := ha
  update ρ hρ a ha := by
    show (fun i => u i (B i) (ρ i) (a.toMats i)) = B
    rw [show a.toMats = B from ha]
    exact funext fun i => h i (ρ i) (hρ i)

theorem keepsB_std {p : (i : Fin I) → StdPen (J i) R} (h : ∀ i, (p i).Valid) {B : Ragged I R J} (hB : ∀ i, B i ∈ (p i).feasible) (h0 : ∀ i, (p i).value (B i) = 0) :
    KeepsB B (StdPen.toB p) {a | a.toMats = B} :=
  keepsB_ofMat fun i _ hρ => (C79_updates (p i) (h i) hρ (B i) (B i)).2.2.2 ⟨hB i, h0 i⟩

/-- Unimodality, not a convex constraint. -/
theorem keepsB_unimodal (nn : Bool) (hJ : ∀ i, 0 < J i) (hR : 0 < R) {B : Ragged I R J} {v}
    (hB : ∀ i r, IsUnimodal (fun j => B i j r) ∧ (nn → ∀ j, 0 ≤ B i j r)) : KeepsB B (.ofMat (fun i => unimodalMat nn (J i) R) v) {a | a.toMats = B} :=
  keepsB_ofMat fun i ρ _ => (C79_unimodal nn (hJ i) hR ρ (B i) (B i)).2 (hB i)

/-- `Parafac2`: the auxiliary variables with orthonormal bases that represent the B factor matrices. The bases and the coordinate matrix may change, their products do not. -/
theorem keepsB_parafac2 (hI : 0 < I) {svd : (i : Fin I) → Matrix (Fin (J i)) (Fin R) ℝ → SVD (J i) R R} (hsvd : SVDFun svd) (m : ℕ) (ub uc : Bool) (B : Ragged I R J) :
    KeepsB B (.parafac2 svd m ub uc) {a | ∃ b : P2Aux I J R, a = .p2 b ∧ (∀ i, Orthonormal (b.bases i)) ∧ p2Matrices b = B} where
  mats := by
    rintro a ⟨b, rfl, -, hb⟩
    exact hb
  update := by
    rintro ρ hρ a ⟨b, rfl, ho, rfl⟩
    exact ⟨_, rfl, update_orthonormal hsvd ub uc _ ρ m b (.inr ho), C24_fixed svd hsvd hI ub uc ρ hρ b ho m⟩

/-! ### An example -/

/-- Rank 1, two 2 × 2 matrices with a common cross product of the B factor matrices. -/
noncomputable def keptF : Factors 2 2 1 (fun _ => 2) := ⟨fun i _ => ![1, 2] i, fun i j _ => ![![6 / 5, 8 / 5], ![0, 2]] i j, fun k _ => ![1, -1] k⟩

/-- Orthonormal bases with coordinate matrix 2. -/
noncomputable def keptAux : P2Aux 2 (fun _ => 2) 1 := ⟨fun i j _ => ![![3 / 5, 4 / 5], ![0, 1]] i j, fun _ _ => 2⟩

/-- The data that `keptF` represents; A is non-negative, the B factor matrices satisfy the Parafac2 constraint, C has no penalty. -/
noncomputable def keptP (prm : Params 1) (svd : Fin 2 → Matrix (Fin 2) (Fin 1) ℝ → SVD 2 1 1) : Problem 2 2 1 1 1 0 (fun _ => 2) :=
  ⟨fun i j k => keptF.entry i j k, fun _ => StdPen.nonNeg.toA, fun _ => .parafac2 svd 5 true true, Fin.elim0, (0, 0, 0), prm, false, false, true, true, true⟩

/-- The initial values. -/
noncomputable def keptS : AOState 2 2 1 1 1 0 (fun _ => 2) := ⟨none, keptF, fun _ => keptF.A, fun _ => 0, fun _ => .p2 keptAux, fun _ => 0, Fin.elim0, Fin.elim0⟩

theorem keptAux_ok : (∀ i, Orthonormal (keptAux.bases i)) ∧ p2Matrices keptAux = keptF.B := by
  refine ⟨fun i => ?_, ?_⟩
  · unfold Orthonormal
    ext a b
    rw [Subsingleton.elim a b, Subsingleton.elim b 0]
    rw [Matrix.mul_apply, Fin.sum_univ_two]
    simp only [Matrix.transpose_apply]
    fin_cases i <;> norm_num [keptAux]
  · funext i
    ext j r
    show (keptAux.bases i * keptAux.coord) j r = _
    rw [Matrix.mul_apply, Fin.sum_univ_one]
    fin_cases i <;> fin_cases j <;> norm_num [keptAux, keptF]

theorem kept_rests {prm : Params 1} (hP : ValidSVD prm) (hs : prm.scale = 1) {svd : Fin 2 → Matrix (Fin 2) (Fin 1) ℝ → SVD 2 1 1} (hsvd : SVDFun svd) :
    Rests (keptP prm svd) keptF fun _ => {a | ∃ b : P2Aux 2 (fun _ => 2) 1, a = .p2 b ∧ (∀ i, Orthonormal (b.bases i)) ∧ p2Matrices b = keptF.B} where
  pos := two_pos
  svd := hP
  l2 := rfl
  exact _ _ _ := rfl
  keepsA _ _ := keepsA_std (p := .nonNeg) trivial (fun i r => by fin_cases i <;> simp [keptF]) (by simp [StdPen.value, hardPenalty])
  rows _ _ _ := rfl
  wellA _ := .inl ⟨one_pos, fun i => by
    show 0 < weightA prm.scale keptF i
    rw [hs]
    fin_cases i <;> norm_num [weightA, keptF, Fin.sum_univ_two]⟩
  keepsB _ _ := keepsB_parafac2 two_pos hsvd 5 true true keptF.B
  wellB _ := .inl ⟨one_pos, fun i => by
    show 0 < weightB prm.scale keptF i
    rw [hs]
    fin_cases i <;> norm_num [weightB, keptF, Fin.sum_univ_two]⟩
  keepsC _ p := p.elim0
  wellC _ := .inr ⟨rfl, fun v hv => by
    have h0 : v 0 ≠ 0 := fun e => hv (funext fun r => by rw [Subsingleton.elim r 0, e]; rfl)
    have := pow_pos (abs_pos.2 h0) 2
    rw [sq_abs] at this
    norm_num [keptF, Fin.sum_univ_two]
    nlinarith⟩

/-- Whatever the SVD routines, this factorization is returned unchanged after 100 iterations; with the default tolerances the call stops after one. -/
theorem C132_example {prm : Params 1} (hP : ValidSVD prm) (hs : prm.scale = 1) {svd : Fin 2 → Matrix (Fin 2) (Fin 1) ℝ → SVD 2 1 1} (hsvd : SVDFun svd) :
    (∃ out, cmfAoadmm (keptP prm svd) (plain 100) keptS = .ok out ∧ out.st.F = keptF) ∧
    ∃ out d, cmfAoadmm (keptP prm svd) ⟨1000, some (1 / 10 ^ 8), some (1 / 10 ^ 10), some (1 / 10 ^ 4), true, 0⟩ keptS = .ok out ∧ out.diag = some d ∧ d.nIter = 1 ∧
      d.stopping = some true ∧ d.message = .absolute := by
  have hi : RestsAt keptF (fun _ => {a | ∃ b : P2Aux 2 (fun _ => 2) 1, a = .p2 b ∧ (∀ i, Orthonormal (b.bases i)) ∧ p2Matrices b = keptF.B}) keptS :=
    ⟨rfl, rfl, fun _ => rfl, fun _ => rfl, fun _ => ⟨⟨keptAux, rfl, keptAux_ok.1, keptAux_ok.2⟩, keptAux_ok.2⟩, fun _ => rfl, fun p => p.elim0, fun p => p.elim0⟩
  have hv : regValue (keptP prm svd) keptF = 0 := by simp [regValue, keptP, StdPen.toA, StdPen.value, hardPenalty, PenB.parafac2]
  have hX : (keptP prm svd).X ≠ 0 := fun h => by
    have := congrFun (congrFun (congrFun h 0) 0) 0
    norm_num [keptP, keptF, Factors.entry] at this
  refine ⟨?_, (C132_stops _ hX keptF _ (kept_rests hP hs hsvd) keptS hi _ (tol := 1 / 10 ^ 8) (abs := 1 / 10 ^ 10) (feas := 1 / 10 ^ 4) rfl (by positivity) rfl rfl
    (by positivity) rfl (by norm_num)).2 hv.le (by rw [hv]; positivity)⟩
  obtain ⟨out, h1, h2⟩ := C132 _ keptF _ (kept_rests hP hs hsvd) keptS hi (plain 100) (fun h => by cases h)
  exact ⟨out, h1, h2.factors⟩


/-- The auxiliary variables matter: with auxiliary variable 0 for the non-negative factor A = 1 (the data are 1), the factors reproduce the data and are feasible, and one
iteration changes A to 2/3. -/
theorem C132_aux_false : ∃ (P : Problem 1 1 1 1 0 0 fun _ => 1) (init : AOState 1 1 1 1 0 0 fun _ => 1) (out : Output _), ValidSVD P.params ∧ P.l2 = (0, 0, 0) ∧
    Reproduces P.X init.F ∧ P.pensA = (fun _ => StdPen.nonNeg.toA) ∧ init.F.A ∈ (StdPen.nonNeg (m := 1) (R := 1)).feasible ∧ init.weights = none ∧ init.dualA = 0 ∧
    cmfAoadmm P (plain 1) init = .ok out ∧ out.st.F.A 0 0 = 2 / 3 := by
  obtain ⟨prm, hP, hN, -, hs⟩ := exists_params 1 1 none 1
  obtain ⟨i, hsw⟩ := sweep_scP (n := 1) (x := 1) (l2 := 0) (pens := fun _ => StdPen.nonNeg.toA) (u := fun _ => nonNegRow 1) (v := fun _ y => clip (some 0) none y) hP hN hs le_rfl
    (fun _ => rfl) (fun p y ρ aux => by funext r; rw [Subsingleton.elim r 0]; rfl) 1 (fun _ => 0) (fun _ => 0)
  obtain ⟨out, h1, h2⟩ := fit_exists _ (plain 1) rfl _ _ (sweeps_one hsw)
  refine ⟨_, _, out, hP, rfl, fun a b c => ?_, rfl, fun a b => ?_, rfl, ?_, h1, ?_⟩
  · simp [scP, scX, scS, scF, sc, Factors.entry]
  · simp [scS, scF, sc]
  · funext p; ext a b; simp [scS, sc]
  · rw [h2]
    norm_num [scS, scF, sc, scY]

end Verif.Props
