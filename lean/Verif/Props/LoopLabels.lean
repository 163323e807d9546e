import Verif.Props.LoopIso
import Verif.Props.LoopSvd

/-!
# C95: the labels and signs of the components
-/

namespace Verif.Props

open Verif.Loop Verif.ADMM Verif.Penalties Verif.Spec Finset Matrix

variable {I K R nA nB nC n m : ℕ} {J : Fin I → ℕ}

/-! ### The same components under other labels -/

/-- Component `r` is the former component `π r`; its columns in A, the B factor matrices and C are multiplied with signs whose product is 1. -/
structure Labels (R : ℕ) where
  π : Equiv.Perm (Fin R)
  a : Fin R → ℝ
  b : Fin R → ℝ
  c : Fin R → ℝ
  sqA : ∀ r, a r * a r = 1
  sqB : ∀ r, b r * b r = 1
  sqC : ∀ r, c r * c r = 1
  prod : ∀ r, a r * b r * c r = 1

/-- A row under the new labels. -/
def relRow (π : Equiv.Perm (Fin R)) (s : Fin R → ℝ) (v : Fin R → ℝ) : Fin R → ℝ := fun r => v (π r) * s r

/-- A matrix under the new labels of its columns. -/
def relMat (π : Equiv.Perm (Fin R)) (s : Fin R → ℝ) (M : Matrix (Fin m) (Fin R) ℝ) : Matrix (Fin m) (Fin R) ℝ := Matrix.of fun i => relRow π s (M i)

/-- The factorization under the new labels. -/
def relF (L : Labels R) (F : Factors I K R J) : Factors I K R J := ⟨relMat L.π L.a F.A, fun i => relMat L.π L.b (F.B i), relMat L.π L.c F.C⟩

/-- Auxiliary variables of mode 1 under the new labels. -/
def relAux (L : Labels R) : AuxB I R J → AuxB I R J
  | .mats X => .mats fun i => relMat L.π L.b (X i)
  | .p2 a => .p2 ⟨a.bases, relMat L.π L.b a.coord⟩

/-- All variables under the new labels. -/
def relS (L : Labels R) (s : AOState I K R nA nB nC J) : AOState I K R nA nB nC J where
  weights := s.weights.map fun w r => w (L.π r)
  F := relF L s.F
  auxA := fun p => relMat L.π L.a (s.auxA p)
  dualA := fun p => relMat L.π L.a (s.dualA p)
  auxB := fun p => relAux L (s.auxB p)
  dualB := fun p i => relMat L.π L.b (s.dualB p i)
  auxC := fun p => relMat L.π L.c (s.auxC p)
  dualC := fun p => relMat L.π L.c (s.dualC p)

/-- A penalty on mode 0 that treats all components and signs alike. The matrix update is used if the feasibility penalty is constant, the row update otherwise. -/
def LabelFreeA (L : Labels R) (constant : Bool) (p : PenA I R) : Prop :=
  (∀ X, p.value (relMat L.π L.a X) = p.value X) ∧
    (constant = true → ∀ X ρ aux, p.mat (relMat L.π L.a X) ρ (relMat L.π L.a aux) = relMat L.π L.a (p.mat X ρ aux)) ∧
    (constant = false → ∀ u, p.row = some u → ∀ y ρ aux, u (relRow L.π L.a y) ρ (relRow L.π L.a aux) = relRow L.π L.a (u y ρ aux))

/-- The same for mode 1. -/
def LabelFreeB (L : Labels R) (p : PenB I R J) : Prop :=
  (∀ X : Ragged I R J, p.value (fun i => relMat L.π L.b (X i)) = p.value X) ∧
    ∀ (X : Ragged I R J) (ρ : Fin I → ℝ) (aux : AuxB I R J), p.update (fun i => relMat L.π L.b (X i)) ρ (relAux L aux) = relAux L (p.update X ρ aux)

/-- The same for mode 2. -/
def LabelFreeC (L : Labels R) (p : PenC K R) : Prop :=
  (∀ X, p.value (relMat L.π L.c X) = p.value X) ∧ ∀ X ρ aux, p.mat (relMat L.π L.c X) ρ (relMat L.π L.c aux) = relMat L.π L.c (p.mat X ρ aux)

/-! ### Norms and systems -/

/-- Relabelling as a product. -/
def relT (π : Equiv.Perm (Fin R)) (s : Fin R → ℝ) : Matrix (Fin R) (Fin R) ℝ := Matrix.of fun q r => if q = π r then s r else 0

theorem relMat_eq (π : Equiv.Perm (Fin R)) (s : Fin R → ℝ) (M : Matrix (Fin m) (Fin R) ℝ) : relMat π s M = M * relT π s := by
  ext i r
  rw [Matrix.mul_apply]
  simp [relT, relMat, relRow]

theorem relT_orth (π : Equiv.Perm (Fin R)) {s : Fin R → ℝ} (h : ∀ r, s r * s r = 1) : (relT π s).transpose * relT π s = 1 := by
  ext q r
  rw [← relMat_eq, one_apply]
  simp only [relMat, relRow, of_apply, transpose_apply, relT, EmbeddingLike.apply_eq_iff_eq]
  by_cases hq : q = r
  · subst hq; simp [h]
  · simp [hq, Ne.symm hq]

theorem relT_orth' (π : Equiv.Perm (Fin R)) {s : Fin R → ℝ} (h : ∀ r, s r * s r = 1) : relT π s * (relT π s).transpose = 1 := mul_eq_one_comm.1 (relT_orth π h)

theorem relMat_sumSq (π : Equiv.Perm (Fin R)) {s : Fin R → ℝ} (h : ∀ r, s r * s r = 1) (M : Matrix (Fin m) (Fin R) ℝ) :
    ∑ i, ∑ r, relMat π s M i r ^ 2 = ∑ i, ∑ r, M i r ^ 2 := by
  refine sum_congr rfl fun i _ => ?_
  rw [← Equiv.sum_comp π fun r => M i r ^ 2]
  refine sum_congr rfl fun r _ => ?_
  show (M i (π r) * s r) ^ 2 = _
  rw [mul_pow, sq (s r), h, mul_one]

theorem relMat_norm (π : Equiv.Perm (Fin R)) {s : Fin R → ℝ} (h : ∀ r, s r * s r = 1) (M : Matrix (Fin m) (Fin R) ℝ) : matNorm (relMat π s M) = matNorm M := by
  unfold matNorm
  rw [relMat_sumSq π h]

theorem relMat_sub (π : Equiv.Perm (Fin R)) (s : Fin R → ℝ) (M N : Matrix (Fin m) (Fin R) ℝ) : relMat π s M - relMat π s N = relMat π s (M - N) := by
  rw [relMat_eq, relMat_eq, relMat_eq, Matrix.sub_mul]

theorem relMat_add (π : Equiv.Perm (Fin R)) (s : Fin R → ℝ) (M N : Matrix (Fin m) (Fin R) ℝ) : relMat π s M + relMat π s N = relMat π s (M + N) := by
  rw [relMat_eq, relMat_eq, relMat_eq, Matrix.add_mul]

theorem relMat_gap (π : Equiv.Perm (Fin R)) {s : Fin R → ℝ} (h : ∀ r, s r * s r = 1) (X Z : Matrix (Fin m) (Fin R) ℝ) :
    matGap (relMat π s X) (relMat π s Z) = matGap X Z := by
  unfold matGap
  rw [relMat_sub, relMat_norm π h, relMat_norm π h]

theorem rootSumSq_rel (L : Labels R) (X : Ragged I R J) : rootSumSq (fun i => relMat L.π L.b (X i)) = rootSumSq X := by
  unfold rootSumSq
  exact congrArg Real.sqrt (sum_congr rfl fun i _ => relMat_sumSq L.π L.sqB (X i))

theorem subtract_rel (L : Labels R) (x : AuxB I R J) (d : Ragged I R J) :
    (relAux L x).subtract (fun i => relMat L.π L.b (d i)) = fun i => relMat L.π L.b (x.subtract d i) := by
  cases x with
  | mats X => funext i; exact relMat_sub _ _ _ _
  | p2 a =>
    funext i
    show a.bases i * relMat L.π L.b a.coord - relMat L.π L.b (d i) = relMat L.π L.b (a.bases i * a.coord - d i)
    rw [relMat_eq, relMat_eq, relMat_eq, Matrix.sub_mul, Matrix.mul_assoc]

theorem raggedGap_rel (L : Labels R) (X : Ragged I R J) (Z : AuxB I R J) : raggedGap (fun i => relMat L.π L.b (X i)) (relAux L Z) = raggedGap X Z := by
  unfold raggedGap
  rw [subtract_rel, rootSumSq_rel, rootSumSq_rel]

/-- A matrix of the linear systems under the new labels. -/
def relG (π : Equiv.Perm (Fin R)) (s : Fin R → ℝ) (G : Matrix (Fin R) (Fin R) ℝ) : Matrix (Fin R) (Fin R) ℝ := (relT π s).transpose * G * relT π s

theorem relG_apply (π : Equiv.Perm (Fin R)) (s : Fin R → ℝ) (G : Matrix (Fin R) (Fin R) ℝ) (q r : Fin R) : relG π s G q r = s q * s r * G (π q) (π r) := by
  have h : ∀ (G : Matrix (Fin R) (Fin R) ℝ) (q r : Fin R), ((relT π s).transpose * G) q r = s q * G (π q) r := by
    intro G q r
    have := congrFun (congrFun (relMat_eq π s G.transpose) r) q
    rw [← transpose_apply (_ * G), transpose_mul, transpose_transpose, ← this]
    simp [relMat, relRow, mul_comm]
  rw [relG, Matrix.mul_assoc, h, ← relMat_eq]
  simp only [relMat, relRow, of_apply]
  ring

theorem relG_gram (π : Equiv.Perm (Fin R)) (s : Fin R → ℝ) {k : ℕ} (M : Matrix (Fin k) (Fin R) ℝ) :
    (relMat π s M).transpose * relMat π s M = relG π s (M.transpose * M) := by
  rw [relMat_eq, transpose_mul, relG]
  simp only [Matrix.mul_assoc]

theorem relG_trace (π : Equiv.Perm (Fin R)) {s : Fin R → ℝ} (h : ∀ r, s r * s r = 1) (G : Matrix (Fin R) (Fin R) ℝ) : (relG π s G).trace = G.trace := by
  rw [relG, Matrix.trace_mul_comm, ← Matrix.mul_assoc, relT_orth' π h, Matrix.one_mul]

theorem relG_ridge (π : Equiv.Perm (Fin R)) {s : Fin R → ℝ} (h : ∀ r, s r * s r = 1) (G : Matrix (Fin R) (Fin R) ℝ) (ρ : ℝ) (n : ℕ) (l2 : ℝ) :
    addRidge (relG π s G) ρ n l2 = relG π s (addRidge G ρ n l2) := by
  simp only [addRidge, relG, Matrix.mul_add, Matrix.add_mul, Matrix.mul_smul, Matrix.smul_mul, Matrix.mul_one, relT_orth π h]

theorem feasPenalties_rel (π : Equiv.Perm (Fin R)) {s : Fin R → ℝ} (h : ∀ r, s r * s r = 1) (scale : ℝ) (c : Bool) (G : Fin I → Matrix (Fin R) (Fin R) ℝ) :
    feasPenalties scale c (fun i => relG π s (G i)) = feasPenalties scale c G := by
  unfold feasPenalties feasPenalty
  simp only [relG_trace π h]

/-- The solution of a uniquely solvable system under the new labels. -/
theorem svdSolve_rel (π : Equiv.Perm (Fin R)) {s : Fin R → ℝ} (h : ∀ r, s r * s r = 1) {svd : Matrix (Fin R) (Fin R) ℝ → SVD R R R} (hv : ∀ G, (svd G).Valid G)
    {G : Matrix (Fin R) (Fin R) ℝ} (hs : G.transpose = G) (hu : IsUnit G) (Y : Matrix (Fin m) (Fin R) ℝ) :
    svdSolve (svd (relG π s G)) (relMat π s Y) = relMat π s (svdSolve (svd G) Y) := by
  have h1 := relT_orth π h
  have h2 := relT_orth' π h
  set T := relT π s with hT
  have hd : (⟨T.transpose * (svd G).U, (svd G).s, (svd G).Vh * T⟩ : SVD R R R).Valid (relG π s G) := by
    refine ⟨?_, ?_, ?_, (hv G).nonneg⟩
    · have := (hv G).eq
      simp only [relG, ← hT]
      conv_rhs => rw [← this]
      simp only [Matrix.mul_assoc]
    · show (T.transpose * (svd G).U).transpose * (T.transpose * (svd G).U) = 1
      rw [transpose_mul, transpose_transpose, Matrix.mul_assoc, ← Matrix.mul_assoc T, h2, Matrix.one_mul, (hv G).left]
    · show (svd G).Vh * T * ((svd G).Vh * T).transpose = 1
      rw [transpose_mul, Matrix.mul_assoc, ← Matrix.mul_assoc T, h2, Matrix.one_mul, (hv G).right]
  have hsym : (relG π s G).transpose = relG π s G := by
    simp only [relG, transpose_mul, transpose_transpose, hs, Matrix.mul_assoc]
  have hun : IsUnit (relG π s G) := by
    have i1 : IsUnit T := ⟨⟨T, T.transpose, h2, h1⟩, rfl⟩
    have i2 : IsUnit T.transpose := ⟨⟨T.transpose, T, h1, h2⟩, rfl⟩
    exact (i2.mul hu).mul i1
  rw [svdSolve_unique (hv _) hd hsym hun, relMat_eq, relMat_eq, ← hT]
  have hc : ∀ U : Matrix (Fin R) (Fin R) ℝ, ∀ t : Fin R → ℝ, colDiv U t = U * Matrix.diagonal fun r => (t r)⁻¹ := by
    intro U t
    ext i r
    rw [Matrix.mul_diagonal]
    rfl
  simp only [svdSolve, hc]
  calc Y * T * (T.transpose * (svd G).U * Matrix.diagonal fun r => ((svd G).s r)⁻¹) * ((svd G).Vh * T)
      = Y * (T * T.transpose) * ((svd G).U * Matrix.diagonal fun r => ((svd G).s r)⁻¹) * ((svd G).Vh * T) := by simp only [Matrix.mul_assoc]
    _ = _ := by rw [h2, Matrix.mul_one]; simp only [Matrix.mul_assoc]

theorem svdSolveRow_rel (π : Equiv.Perm (Fin R)) {s : Fin R → ℝ} (h : ∀ r, s r * s r = 1) {svd : Matrix (Fin R) (Fin R) ℝ → SVD R R R} (hv : ∀ G, (svd G).Valid G)
    {G : Matrix (Fin R) (Fin R) ℝ} (hs : G.transpose = G) (hu : IsUnit G) (v : Fin R → ℝ) :
    svdSolveRow (svd (relG π s G)) (relRow π s v) = relRow π s (svdSolveRow (svd G) v) := by
  have := svdSolve_rel π h hv hs hu (rowMat v)
  rw [← svdSolveRow_eq] at this
  rw [show relMat π s (rowMat v) = rowMat (relRow π s v) from rfl, ← svdSolveRow_eq] at this
  exact congrFun this 0

theorem Labels.bc (L : Labels R) (r : Fin R) : L.b r * L.c r = L.a r := by
  have h1 := L.prod r
  have h2 := L.sqA r
  calc L.b r * L.c r = L.a r * L.a r * (L.b r * L.c r) := by rw [h2, one_mul]
    _ = L.a r * (L.a r * L.b r * L.c r) := by ring
    _ = L.a r := by rw [h1, mul_one]

theorem Labels.ac (L : Labels R) (r : Fin R) : L.a r * L.c r = L.b r := by
  have h1 := L.prod r
  have h2 := L.sqB r
  calc L.a r * L.c r = L.b r * L.b r * (L.a r * L.c r) := by rw [h2, one_mul]
    _ = L.b r * (L.a r * L.b r * L.c r) := by ring
    _ = L.b r := by rw [h1, mul_one]

theorem Labels.ab (L : Labels R) (r : Fin R) : L.a r * L.b r = L.c r := by
  have h1 := L.prod r
  have h2 := L.sqC r
  calc L.a r * L.b r = L.c r * L.c r * (L.a r * L.b r) := by rw [h2, one_mul]
    _ = L.c r * (L.a r * L.b r * L.c r) := by ring
    _ = L.c r := by rw [h1, mul_one]

theorem crossA_rel (L : Labels R) (F : Factors I K R J) : crossA (relF L F) = fun i => relG L.π L.a (crossA F i) := by
  funext i
  ext q r
  simp only [crossA, relF, relG_gram, relG_apply, of_apply]
  rw [← L.bc q, ← L.bc r]
  ring

theorem crossB_rel (L : Labels R) (F : Factors I K R J) : crossB (relF L F) = fun i => relG L.π L.b (crossB F i) := by
  funext i
  ext q r
  simp only [crossB, relF, relG_gram, relG_apply, of_apply]
  simp only [relMat, relRow, of_apply]
  rw [← L.ac q, ← L.ac r]
  ring

theorem scaledB_rel (L : Labels R) (F : Factors I K R J) (i : Fin I) : scaledB (relF L F) i = relMat L.π L.c (scaledB F i) := by
  ext j r
  simp only [scaledB, relF, relMat, relRow, of_apply]
  rw [← L.ab r]
  ring

theorem crossC_rel (L : Labels R) (F : Factors I K R J) : crossC (relF L F) = relG L.π L.c (crossC F) := by
  simp only [crossC, scaledB_rel, relG_gram]
  simp only [relG, Matrix.mul_sum, Matrix.sum_mul]

theorem rhsA_rel (L : Labels R) (X : Ragged I K J) (F : Factors I K R J) (i : Fin I) : rhsA X (relF L F) i = relRow L.π L.a (rhsA X F i) := by
  have e : ∀ (F : Factors I K R J) (r : Fin R), rhsA X F i r = ∑ j, ∑ k, F.B i j r * X i j k * F.C k r := by
    intro F r
    have : rhsA X F i r = ((F.B i).transpose * (X i * F.C)) r r := by
      unfold rhsA
      split
      · rw [Matrix.mul_assoc]
      · rfl
    rw [this, Matrix.mul_apply]
    refine sum_congr rfl fun j _ => ?_
    rw [Matrix.mul_apply, mul_sum]
    exact sum_congr rfl fun k _ => by rw [transpose_apply]; ring
  funext r
  rw [relRow, e, e, sum_mul]
  refine sum_congr rfl fun j _ => ?_
  rw [sum_mul]
  refine sum_congr rfl fun k _ => ?_
  simp only [relF, relMat, relRow, of_apply]
  rw [← L.bc r]
  ring

theorem rhsB_rel (L : Labels R) (X : Ragged I K J) (F : Factors I K R J) (i : Fin I) : rhsB X (relF L F) i = relMat L.π L.b (rhsB X F i) := by
  rw [relMat_eq]
  simp only [rhsB]
  rw [Matrix.mul_assoc, ← relMat_eq]
  congr 1
  ext k r
  simp only [relF, relMat, relRow, of_apply]
  rw [← L.ac r]
  ring

theorem rhsC_rel (L : Labels R) (X : Ragged I K J) (F : Factors I K R J) : rhsC X (relF L F) = relMat L.π L.c (rhsC X F) := by
  rw [relMat_eq]
  simp only [rhsC, scaledB_rel, relMat_eq, Matrix.sum_mul, Matrix.mul_assoc]

/-! ### The updates -/

/-- Variables of the A-update or the C-update under the new labels. -/
def relM (π : Equiv.Perm (Fin R)) (s : Fin R → ℝ) (t : MatState m R n) : MatState m R n :=
  ⟨relMat π s t.x, fun p => relMat π s (t.aux p), fun p => relMat π s (t.dual p)⟩

/-- Variables of the B-update under the new labels. -/
def relR (L : Labels R) (t : RagState I R n J) : RagState I R n J :=
  ⟨fun i => relMat L.π L.b (t.x i), fun p => relAux L (t.aux p), fun p i => relMat L.π L.b (t.dual p i)⟩

theorem matStop_rel (π : Equiv.Perm (Fin R)) {s : Fin R → ℝ} (h : ∀ r, s r * s r = 1) (tol : Option ℝ) (t t' : MatState m R n) :
    matStop tol (relM π s t) (relM π s t') = matStop tol t t' := by
  unfold matStop
  simp only [relM]
  rw [relMat_sub, relMat_norm π h, relMat_norm π h]
  congr 2
  funext p
  exact relMat_gap π h _ _

theorem ragStop_rel (L : Labels R) (tol : Option ℝ) (t t' : RagState I R n J) : ragStop tol (relR L t) (relR L t') = ragStop tol t t' := by
  unfold ragStop
  have e : (fun i => (relR L t').x i - (relR L t).x i) = fun i => relMat L.π L.b (t'.x i - t.x i) := funext fun i => relMat_sub _ _ _ _
  rw [e, rootSumSq_rel L (fun i => t'.x i - t.x i), show (relR L t').x = fun i => relMat L.π L.b (t'.x i) from rfl, rootSumSq_rel L t'.x]
  congr 2
  funext p
  exact raggedGap_rel L _ _

theorem relMat_sum (π : Equiv.Perm (Fin R)) (s : Fin R → ℝ) (f : Fin n → Matrix (Fin m) (Fin R) ℝ) : ∑ p, relMat π s (f p) = relMat π s (∑ p, f p) := by
  simp only [relMat_eq, Matrix.sum_mul]

theorem relMat_smul (π : Equiv.Perm (Fin R)) (s : Fin R → ℝ) (ρ : ℝ) (M : Matrix (Fin m) (Fin R) ℝ) : ρ • relMat π s M = relMat π s (ρ • M) := by
  simp only [relMat_eq, Matrix.smul_mul]

theorem admmUpdateA_rel (L : Labels R) (prm : Params R) (hv : ValidSVD prm) (X : Ragged I K J) (pens : Fin n → PenA I R) (l2 : ℝ) (co : Bool)
    (hp : ∀ p, LabelFreeA L co (pens p)) (F : Factors I K R J) (aux dual : Fin n → Matrix (Fin I) (Fin R) ℝ)
    (hu : ∀ o ρ, feasPenalties prm.scale co (crossA F) = .ok (o, ρ) → ∀ i, IsUnit (addRidge (crossA F i) (ρ i) n l2)) :
    admmUpdateA prm X pens l2 co (relF L F) (fun p => relMat L.π L.a (aux p)) (fun p => relMat L.π L.a (dual p)) =
      (admmUpdateA prm X pens l2 co F aux dual).map (relM L.π L.a) := by
  unfold admmUpdateA
  rw [crossA_rel, feasPenalties_rel L.π L.sqA]
  cases hf : feasPenalties prm.scale co (crossA F) with
  | error e => rfl
  | ok ρ =>
    have hun := hu ρ.1 ρ.2 hf
    simp only [Except.map, Except.bind]
    split
    · rfl
    · have hnone : ρ.1 = none → co = false := by
        intro h
        cases co
        · rfl
        · obtain ⟨m, hm, -⟩ := (feasPenalties_ok (o := ρ.1) (ρ := ρ.2) hf).2.2 rfl
          rw [h] at hm; cases hm
      have hsome : ∀ m, ρ.1 = some m → co = true := by
        intro m h
        cases co
        · have := (feasPenalties_ok (o := ρ.1) (ρ := ρ.2) hf).2.1 rfl
          rw [h] at this; cases this
        · rfl
      refine congrArg Except.ok (innerLoop_map (f := relM L.π L.a) (s := ⟨F.A, aux, dual⟩) (fun s => ?_) (matStop_rel L.π L.sqA _) _)
      set t := stepA pens ρ.1 ρ.2 (fun i => prm.svd (addRidge (crossA F i) (ρ.2 i) n l2)) (rhsA X F) s with ht
      set t' := stepA pens ρ.1 ρ.2 (fun i => prm.svd (addRidge (relG L.π L.a (crossA F i)) (ρ.2 i) n l2)) (rhsA X (relF L F)) (relM L.π L.a s) with ht'
      have hx : t'.x = relMat L.π L.a t.x := by
        funext i
        show svdSolveRow (prm.svd (addRidge (relG L.π L.a (crossA F i)) (ρ.2 i) n l2))
          (ρ.2 i • (∑ p, (relMat L.π L.a (s.aux p) - relMat L.π L.a (s.dual p)) i) + rhsA X (relF L F) i) =
          relRow L.π L.a (svdSolveRow (prm.svd (addRidge (crossA F i) (ρ.2 i) n l2)) (ρ.2 i • (∑ p, (s.aux p - s.dual p) i) + rhsA X F i))
        rw [relG_ridge L.π L.sqA, rhsA_rel, ← svdSolveRow_rel L.π L.sqA hv (by rw [crossA_eq]; exact addRidge_symm _ _ _ _) (hun i)]
        congr 1
        funext r
        simp only [relRow, Pi.add_apply, Pi.smul_apply, smul_eq_mul, Finset.sum_apply, Matrix.sub_apply, add_mul]
        congr 1
        rw [mul_assoc, sum_mul]
        congr 1
        refine sum_congr rfl fun p _ => ?_
        simp only [relMat, relRow, of_apply]
        ring
      have haux : ∀ p, t'.aux p = relMat L.π L.a (t.aux p) := by
        intro p
        show auxA (pens p) ρ.1 ρ.2 (t'.x + relMat L.π L.a (s.dual p)) (relMat L.π L.a (s.aux p)) = relMat L.π L.a (auxA (pens p) ρ.1 ρ.2 (t.x + s.dual p) (s.aux p))
        rw [hx, relMat_add]
        cases h1 : ρ.1 with
        | some m => exact (hp p).2.1 (hsome m h1) _ _ _
        | none =>
          cases h2 : (pens p).row with
          | none => simp only [auxA, h2]
          | some u =>
            simp only [auxA, h2]
            funext i
            exact (hp p).2.2 (hnone h1) u h2 _ _ _
      have hdual : ∀ p, t'.dual p = relMat L.π L.a (t.dual p) := by
        intro p
        show t'.x - (t'.aux p - relMat L.π L.a (s.dual p)) = relMat L.π L.a (t.x - (t.aux p - s.dual p))
        rw [haux p, hx, relMat_sub, relMat_sub]
      exact matState_ext hx (funext haux) (funext hdual)

theorem admmUpdateB_rel (L : Labels R) (prm : Params R) (hv : ValidSVD prm) (X : Ragged I K J) (pens : Fin n → PenB I R J) (l2 : ℝ) (co : Bool)
    (hp : ∀ p, LabelFreeB L (pens p)) (F : Factors I K R J) (aux : Fin n → AuxB I R J) (dual : Fin n → Ragged I R J)
    (hu : ∀ o ρ, feasPenalties prm.scale co (crossB F) = .ok (o, ρ) → ∀ i, IsUnit (addRidge (crossB F i) (ρ i) n l2)) :
    admmUpdateB prm X pens l2 co (relF L F) (fun p => relAux L (aux p)) (fun p i => relMat L.π L.b (dual p i)) =
      (admmUpdateB prm X pens l2 co F aux dual).map (relR L) := by
  unfold admmUpdateB
  rw [crossB_rel, feasPenalties_rel L.π L.sqB]
  cases hf : feasPenalties prm.scale co (crossB F) with
  | error e => rfl
  | ok ρ =>
    have hun := hu ρ.1 ρ.2 hf
    simp only [Except.map, Except.bind]
    refine congrArg Except.ok (innerLoop_map (f := relR L) (s := ⟨F.B, aux, dual⟩) (fun s => ?_) (ragStop_rel L _) _)
    set t := stepB pens ρ.2 (fun i => prm.svd (addRidge (crossB F i) (ρ.2 i) n l2)) (rhsB X F) s with ht
    set t' := stepB pens ρ.2 (fun i => prm.svd (addRidge (relG L.π L.b (crossB F i)) (ρ.2 i) n l2)) (rhsB X (relF L F)) (relR L s) with ht'
    have hx : t'.x = fun i => relMat L.π L.b (t.x i) := by
      funext i
      show svdSolve (prm.svd (addRidge (relG L.π L.b (crossB F i)) (ρ.2 i) n l2))
        (ρ.2 i • (∑ p, ((relR L s).aux p).subtract ((relR L s).dual p) i) + rhsB X (relF L F) i) = relMat L.π L.b (svdSolve _ _)
      have : ∀ p, ((relR L s).aux p).subtract ((relR L s).dual p) i = relMat L.π L.b ((s.aux p).subtract (s.dual p) i) :=
        fun p => congrFun (subtract_rel L (s.aux p) (s.dual p)) i
      simp only [this]
      rw [rhsB_rel, relMat_sum, relMat_smul, relMat_add, relG_ridge L.π L.sqB,
        svdSolve_rel L.π L.sqB hv (by rw [crossB_eq]; exact addRidge_symm _ _ _ _) (hun i)]
    have haux : ∀ p, t'.aux p = relAux L (t.aux p) := by
      intro p
      show (pens p).update (fun i => t'.x i + (relR L s).dual p i) ρ.2 ((relR L s).aux p) = _
      have e : (fun i => t'.x i + (relR L s).dual p i) = fun i => relMat L.π L.b (t.x i + s.dual p i) := by
        funext i
        rw [hx, ← relMat_add]
        rfl
      rw [e]
      exact (hp p).2 _ _ _
    have hdual : ∀ p, t'.dual p = fun i => relMat L.π L.b (t.dual p i) := by
      intro p
      funext i
      show t'.x i - (t'.aux p).subtract ((relR L s).dual p) i = relMat L.π L.b (t.x i - (t.aux p).subtract (s.dual p) i)
      rw [haux p, hx, ← relMat_sub, show (relAux L (t.aux p)).subtract ((relR L s).dual p) i = _ from congrFun (subtract_rel L _ (s.dual p)) i]
    exact ragState_ext hx (funext haux) (funext hdual)

theorem admmUpdateC_rel (L : Labels R) (prm : Params R) (hv : ValidSVD prm) (X : Ragged I K J) (pens : Fin n → PenC K R) (l2 : ℝ)
    (hp : ∀ p, LabelFreeC L (pens p)) (F : Factors I K R J) (aux dual : Fin n → Matrix (Fin K) (Fin R) ℝ)
    (hu : IsUnit (addRidge (crossC F) (feasPenalty prm.scale (crossC F)) n l2)) :
    admmUpdateC prm X pens l2 (relF L F) (fun p => relMat L.π L.c (aux p)) (fun p => relMat L.π L.c (dual p)) =
      relM L.π L.c (admmUpdateC prm X pens l2 F aux dual) := by
  unfold admmUpdateC
  have hρ : feasPenalty prm.scale (relG L.π L.c (crossC F)) = feasPenalty prm.scale (crossC F) := by
    unfold feasPenalty
    rw [relG_trace L.π L.sqC]
  rw [crossC_rel, rhsC_rel, hρ]
  dsimp only
  rw [relG_ridge L.π L.sqC]
  refine innerLoop_map (f := relM L.π L.c) (s := ⟨F.C, aux, dual⟩) (fun s => ?_) (matStop_rel L.π L.sqC _) _
  set ρ := feasPenalty prm.scale (crossC F)
  set t := stepC pens ρ (prm.svd (addRidge (crossC F) ρ n l2)) (rhsC X F) s with ht
  set t' := stepC pens ρ (prm.svd (relG L.π L.c (addRidge (crossC F) ρ n l2))) (relMat L.π L.c (rhsC X F)) (relM L.π L.c s) with ht'
  have hx : t'.x = relMat L.π L.c t.x := by
    show svdSolve _ (ρ • (∑ p, (relMat L.π L.c (s.aux p) - relMat L.π L.c (s.dual p))) + relMat L.π L.c (rhsC X F)) = relMat L.π L.c (svdSolve _ _)
    simp only [relMat_sub]
    rw [relMat_sum, relMat_smul, relMat_add, svdSolve_rel L.π L.sqC hv (by rw [crossC_eq]; exact addRidge_symm _ _ _ _) hu]
  have haux : ∀ p, t'.aux p = relMat L.π L.c (t.aux p) := by
    intro p
    show (pens p).mat (t'.x + relMat L.π L.c (s.dual p)) ρ (relMat L.π L.c (s.aux p)) = _
    rw [hx, relMat_add]
    exact (hp p).2 _ _ _
  have hdual : ∀ p, t'.dual p = relMat L.π L.c (t.dual p) := by
    intro p
    show t'.x - (t'.aux p - relMat L.π L.c (s.dual p)) = relMat L.π L.c (t.x - (t.aux p - s.dual p))
    rw [haux p, hx, relMat_sub, relMat_sub]
  exact matState_ext hx (funext haux) (funext hdual)

/-! ### The loop -/

theorem sweep_rel (L : Labels R) (P : Problem I K R nA nB nC J) (hv : ValidSVD P.params) (hs : 0 ≤ P.params.scale)
    (hl : 0 ≤ P.l2.1 ∧ 0 ≤ P.l2.2.1 ∧ 0 ≤ P.l2.2.2) (hA : ∀ p, LabelFreeA L P.constA (P.pensA p)) (hB : ∀ p, LabelFreeB L (P.pensB p))
    (hC : ∀ p, LabelFreeC L (P.pensC p)) (s : AOState I K R nA nB nC J) (hf : Fixed P s) :
    (sweep P (relS L s)).map Prod.fst = (sweep P s).map fun x => relS L x.1 := by
  have eB : sweepB P (relS L s) = (sweepB P s).map (relS L) := by
    unfold sweepB
    by_cases hb : P.updB = true
    · rw [if_pos hb, if_pos hb]
      have := admmUpdateB_rel L P.params hv P.X P.pensB P.l2.2.1 P.constB hB s.F s.auxB s.dualB fun o ρ hfp i => by
        have hw := (feasPenalties_ok hfp).1
        simp only [feasPenalty_B] at hw
        exact isUnit_of_svd (hv _) ((C34_exact P.params hv hs s.F hl.2.1 nB).2.1 P.constB ρ hw i |>.2 (hf.1 hb ρ hw i))
      rw [show admmUpdateB P.params P.X P.pensB P.l2.2.1 P.constB (relS L s).F (relS L s).auxB (relS L s).dualB = _ from this]
      cases admmUpdateB P.params P.X P.pensB P.l2.2.1 P.constB s.F s.auxB s.dualB <;> rfl
    · rw [if_neg hb, if_neg hb]; rfl
  have eC : ∀ u, (P.updC = true → FixedC P u.F) → sweepC P (relS L u) = relS L (sweepC P u) := by
    intro u hc
    unfold sweepC
    by_cases h : P.updC = true
    · rw [if_pos h, if_pos h]
      have := admmUpdateC_rel L P.params hv P.X P.pensC P.l2.2.2 hC u.F u.auxC u.dualC (by
        rw [feasPenalty_C]
        exact isUnit_of_svd (hv _) ((C34_exact P.params hv hs u.F hl.2.2 nC).2.2.2 (hc h)))
      rw [show admmUpdateC P.params P.X P.pensC P.l2.2.2 (relS L u).F (relS L u).auxC (relS L u).dualC = _ from this]
      rfl
    · rw [if_neg h, if_neg h]
  have eA : ∀ u, (P.updA = true → FixedA P u.F) → (sweepA P (relS L u)).map Prod.fst = (sweepA P u).map fun x => relS L x.1 := by
    intro u ha
    unfold sweepA
    by_cases h : P.updA = true
    · rw [if_pos h, if_pos h]
      have := admmUpdateA_rel L P.params hv P.X P.pensA P.l2.1 P.constA hA u.F u.auxA u.dualA fun o ρ hfp i => by
        have hw := (feasPenalties_ok hfp).1
        simp only [feasPenalty_A] at hw
        exact isUnit_of_svd (hv _) ((C34_exact P.params hv hs u.F hl.1 nA).1 P.constA ρ hw i |>.2 (ha h ρ hw i))
      rw [show admmUpdateA P.params P.X P.pensA P.l2.1 P.constA (relS L u).F (relS L u).auxA (relS L u).dualA = _ from this]
      cases admmUpdateA P.params P.X P.pensA P.l2.1 P.constA u.F u.auxA u.dualA <;> rfl
    · rw [if_neg h, if_neg h]; rfl
  unfold sweep
  rw [eB]
  cases hb : sweepB P s with
  | error e => rfl
  | ok u =>
    obtain ⟨h1, h2⟩ := hf.2 u hb
    simp only [Except.map, Except.bind]
    rw [eC u h1]
    exact eA _ h2

theorem sse_rel (L : Labels R) (X : Ragged I K J) (F : Factors I K R J) : sse X (relF L F) = sse X F := by
  have : ∀ i j k, (relF L F).entry i j k = F.entry i j k := by
    intro i j k
    unfold Factors.entry
    rw [← Equiv.sum_comp L.π fun r => F.A i r * F.B i j r * F.C k r]
    refine sum_congr rfl fun r _ => ?_
    simp only [relF, relMat, relRow, of_apply]
    calc F.A i (L.π r) * L.a r * (F.B i j (L.π r) * L.b r) * (F.C k (L.π r) * L.c r)
        = F.A i (L.π r) * F.B i j (L.π r) * F.C k (L.π r) * (L.a r * L.b r * L.c r) := by ring
      _ = _ := by rw [L.prod, mul_one]
  simp only [sse, this]

theorem absorb_rel (L : Labels R) (w : Option (Fin R → ℝ)) (F : Factors I K R J) : absorb (w.map fun w r => w (L.π r)) (relF L F) = relF L (absorb w F) := by
  cases w with
  | none =>
    simp only [absorb, relF, Option.map_none, Option.getD_none, mul_one]
  | some w =>
    simp only [absorb, relF, Option.map_some, Option.getD_some]
    congr 1
    ext i r
    show F.A i (L.π r) * L.a r * w (L.π r) = F.A i (L.π r) * w (L.π r) * L.a r
    ring

theorem ops_rel (L : Labels R) (P : Problem I K R nA nB nC J) (hv : ValidSVD P.params) (hs : 0 ≤ P.params.scale)
    (hl : 0 ≤ P.l2.1 ∧ 0 ≤ P.l2.2.1 ∧ 0 ≤ P.l2.2.2) (hA : ∀ p, LabelFreeA L P.constA (P.pensA p)) (hB : ∀ p, LabelFreeB L (P.pensB p))
    (hC : ∀ p, LabelFreeC L (P.pensC p)) :
    OpsMap (aoOps P) (aoOps P) none none (relS L) id fun k s => ∀ t < k, ∀ st, sweeps' (aoOps P) t s = .ok st → Fixed P st := by
  have hrel : ∀ s, (aoOps P).relError (relS L s) none = (aoOps P).relError s none := by
    intro s
    rw [relError_direct, relError_direct, show absorb (relS L s).weights (relS L s).F = _ from absorb_rel L s.weights s.F, sse_rel]
  have hsw := fun s h => sweep_rel L P hv hs hl hA hB hC s h
  refine ⟨fun k s hf x i hx => ⟨fun t ht st hst => hf (t + 1) (by omega) st ?_, ?_⟩, fun k s hf e he => ?_, fun _ s _ => ?_, fun _ s _ tol => rfl, fun _ s _ => hrel s,
    fun _ s _ => ?_⟩
  · rw [sweeps', hx]; exact hst
  · have := hsw s (hf 0 (by omega) s rfl)
    rw [show sweep P s = .ok (x, i) from hx] at this
    cases h : sweep P (relS L s) with
    | error e => rw [h] at this; cases this
    | ok y =>
      obtain ⟨y, j⟩ := y
      rw [h] at this
      simp only [Except.map, Except.ok.injEq] at this
      subst this
      exact ⟨j, h, by rw [relError_round h, hrel, relError_round hx]⟩
  · have := hsw s (hf 0 (by omega) s rfl)
    rw [show sweep P s = .error e from he] at this
    cases h : sweep P (relS L s) with
    | error e' => rw [h] at this; simp only [Except.map, Except.error.injEq] at this; rw [← this]; exact h
    | ok y => rw [h] at this; cases this
  · simp only [aoOps, feasibilityGaps, id]
    congr 2
    · funext p; exact relMat_gap L.π L.sqA _ _
    · funext p; exact raggedGap_rel L _ _
    · funext p; exact relMat_gap L.π L.sqC _ _
  · simp only [aoOps, l2Penalty_eq]
    have e1 : sqNorm (relS L s).F.A = sqNorm s.F.A := relMat_sumSq L.π L.sqA s.F.A
    have e2 : raggedSq (relS L s).F.B = raggedSq s.F.B := sum_congr rfl fun i _ => relMat_sumSq L.π L.sqB (s.F.B i)
    have e3 : sqNorm (relS L s).F.C = sqNorm s.F.C := relMat_sumSq L.π L.sqC s.F.C
    have e4 : ∀ p, (P.pensA p).value (relS L s).F.A = (P.pensA p).value s.F.A := fun p => (hA p).1 _
    have e5 : ∀ p, (P.pensB p).value (relS L s).F.B = (P.pensB p).value s.F.B := fun p => (hB p).1 _
    have e6 : ∀ p, (P.pensC p).value (relS L s).F.C = (P.pensC p).value s.F.C := fun p => (hC p).1 _
    simp only [e1, e2, e3, e4, e5, e6]

/-- C95: from initial values whose components have other labels and signs, a call returns the factorization, auxiliary and dual variables with these labels and signs,
with the same diagnostics and the same output, or raises the same exception, if the factors are determined in every iteration. -/
theorem C95 (L : Labels R) (P : Problem I K R nA nB nC J) (hv : ValidSVD P.params) (hs : 0 ≤ P.params.scale)
    (hl : 0 ≤ P.l2.1 ∧ 0 ≤ P.l2.2.1 ∧ 0 ≤ P.l2.2.2) (hA : ∀ p, LabelFreeA L P.constA (P.pensA p)) (hB : ∀ p, LabelFreeB L (P.pensB p))
    (hC : ∀ p, LabelFreeC L (P.pensC p)) (a : Args) (init : AOState I K R nA nB nC J)
    (hf : ∀ t : ℕ, (t : ℤ) < a.nIterMax → ∀ o, cmfAoadmm P (plain t) init = .ok o → Fixed P o.st) :
    cmfAoadmm P a (relS L init) = (cmfAoadmm P a init).map fun o => ⟨relS L o.st, o.diag, o.log⟩ := by
  have := fit_map (ops_rel L P hv hs hl hA hB hC) a init fun t ht st hst => by
    obtain ⟨o, ho, hos⟩ := fit_plain (aoOps P) none init st t (by rw [sweeps_eq']; exact hst)
    rw [← hos]
    exact hf t (by omega) o ho
  rw [show (Output.map (relS L) id : Output (AOState I K R nA nB nC J) → _) = fun o => ⟨relS L o.st, o.diag, o.log⟩ from
    funext (Output.map_id (relS L))] at this
  exact this

/-- With ridge penalties on the factors that are updated, the factors are always determined. -/
theorem C95_ridge (L : Labels R) (P : Problem I K R nA nB nC J) (hv : ValidSVD P.params) (hs : 0 ≤ P.params.scale)
    (hl : 0 ≤ P.l2.1 ∧ 0 ≤ P.l2.2.1 ∧ 0 ≤ P.l2.2.2) (rA : P.updA = true → 0 < P.l2.1) (rB : P.updB = true → 0 < P.l2.2.1) (rC : P.updC = true → 0 < P.l2.2.2)
    (hA : ∀ p, LabelFreeA L P.constA (P.pensA p)) (hB : ∀ p, LabelFreeB L (P.pensB p)) (hC : ∀ p, LabelFreeC L (P.pensC p)) (a : Args)
    (init : AOState I K R nA nB nC J) :
    cmfAoadmm P a (relS L init) = (cmfAoadmm P a init).map fun o => ⟨relS L o.st, o.diag, o.log⟩ :=
  C95 L P hv hs hl hA hB hC a init fun _ _ _ _ =>
    ⟨fun h _ _ _ => .inl (rB h), fun _ _ => ⟨fun h => .inl (rC h), fun h _ _ _ => .inl (rA h)⟩⟩

/-! ### The penalties of the package -/

/-- Signs may change for L1 penalties and L2 balls without non-negativity, for bounds symmetric around 0 and for generalized L2 penalties; labels may change for all
penalties. The solver of the total variation penalty has to treat all rows alike. -/
def SignsOK (π : Equiv.Perm (Fin R)) (s : Fin R → ℝ) : StdPen m R → Prop
  | .nonNeg => s = 1
  | .box lo hi => s = 1 ∨ (lo = none ∧ hi = none) ∨ ∃ b, 0 ≤ b ∧ lo = some (-b) ∧ hi = some b
  | .l1 _ nn => s = 1 ∨ nn = false
  | .l2Ball _ nn => s = 1 ∨ nn = false
  | .genL2 _ _ => True
  | .tv solver _ _ => ∀ Y t, solver (Matrix.of fun r => s r • Y (π r)) t = Matrix.of fun r => s r • solver Y t (π r)

theorem sign_cases {s : Fin R → ℝ} (h : ∀ r, s r * s r = 1) (r : Fin R) : s r = 1 ∨ s r = -1 := mul_self_eq_one_iff.1 (h r)

theorem clip_sign {lo hi : Option ℝ} (hb : (lo = none ∧ hi = none) ∨ ∃ b, 0 ≤ b ∧ lo = some (-b) ∧ hi = some b) {e : ℝ} (he : e = 1 ∨ e = -1) (x : ℝ) :
    clip lo hi (x * e) = clip lo hi x * e := by
  rcases he with rfl | rfl
  · simp
  · rcases hb with ⟨rfl, rfl⟩ | ⟨b, hb, rfl, rfl⟩
    · rfl
    · simp only [clip, mul_neg, mul_one]
      rcases le_total x (-b) with h | h
      · rw [max_eq_right h, max_eq_left (by linarith : -b ≤ -x), min_eq_right (by linarith : b ≤ -x), min_eq_left (by linarith : -b ≤ b), neg_neg]
      · rw [max_eq_left h]
        rcases le_total x b with h' | h'
        · rw [min_eq_left h', max_eq_left (by linarith : -b ≤ -x), min_eq_left (by linarith : -x ≤ b)]
        · rw [min_eq_right h', max_eq_right (by linarith : -x ≤ -b), min_eq_left (by linarith : -b ≤ b)]

theorem sgn_sign {e : ℝ} (he : e = 1 ∨ e = -1) (x : ℝ) : sgn (x * e) = sgn x * e := by
  rcases he with rfl | rfl
  · simp
  · simp only [mul_neg, mul_one, sgn]
    rcases lt_trichotomy x 0 with h | h | h
    · simp [h, h.le, h.ne]
    · simp [h]
    · simp [h, h.ne', not_lt.2 h.le]

theorem abs_sign {e : ℝ} (he : e = 1 ∨ e = -1) (x : ℝ) : |x * e| = |x| := by
  rcases he with rfl | rfl <;> simp

theorem absSum_rel (π : Equiv.Perm (Fin R)) {s : Fin R → ℝ} (h : ∀ r, s r * s r = 1) (X : Matrix (Fin m) (Fin R) ℝ) :
    ∑ i, ∑ r, |relMat π s X i r| = ∑ i, ∑ r, |X i r| := by
  refine sum_congr rfl fun i _ => ?_
  rw [← Equiv.sum_comp π fun r => |X i r|]
  exact sum_congr rfl fun r _ => abs_sign (sign_cases h r) _

theorem std_value_rel (π : Equiv.Perm (Fin R)) {s : Fin R → ℝ} (h : ∀ r, s r * s r = 1) (p : StdPen m R) (X : Matrix (Fin m) (Fin R) ℝ) :
    p.value (relMat π s X) = p.value X := by
  cases p with
  | nonNeg => rfl
  | box => rfl
  | l2Ball => rfl
  | l1 γ nn => show l1Penalty γ _ = l1Penalty γ X; rw [l1Penalty, absSum_rel π h, l1Penalty]
  | genL2 M d =>
    show genL2Penalty M _ = genL2Penalty M X
    rw [genL2Penalty, genL2Penalty, relMat_eq, transpose_mul, Matrix.trace_mul_comm, Matrix.mul_assoc (relT π s).transpose, ← Matrix.mul_assoc, Matrix.mul_assoc X, relT_orth' π h, Matrix.mul_one,
      Matrix.trace_mul_comm]
  | tv solver α β =>
    show tvPenalty α β _ = tvPenalty α β X
    simp only [tvPenalty]
    rw [absSum_rel π h]
    have : ∑ i : Fin (m - 1), ∑ r, |relMat π s X ⟨i + 1, by omega⟩ r - relMat π s X ⟨i, by omega⟩ r| =
        ∑ i : Fin (m - 1), ∑ r, |X ⟨i + 1, by omega⟩ r - X ⟨i, by omega⟩ r| := by
      refine sum_congr rfl fun i _ => ?_
      rw [← Equiv.sum_comp π fun r => |X ⟨i + 1, by omega⟩ r - X ⟨i, by omega⟩ r|]
      refine sum_congr rfl fun r _ => ?_
      rw [← abs_sign (sign_cases h r) (X ⟨i + 1, by omega⟩ (π r) - X ⟨i, by omega⟩ (π r)), sub_mul]
      rfl
    rw [this]

theorem std_mat_rel (π : Equiv.Perm (Fin R)) {s : Fin R → ℝ} (h : ∀ r, s r * s r = 1) (p : StdPen m R) (hp : SignsOK π s p) (X : Matrix (Fin m) (Fin R) ℝ) (ρ : ℝ)
    (aux : Matrix (Fin m) (Fin R) ℝ) : p.mat (relMat π s X) ρ (relMat π s aux) = relMat π s (p.mat X ρ aux) := by
  cases p with
  | nonNeg =>
    obtain rfl : s = 1 := hp
    funext i r
    show clip (some 0) none (X i (π r) * (1 : Fin R → ℝ) r) = clip (some 0) none (X i (π r)) * (1 : Fin R → ℝ) r
    rw [Pi.one_apply, mul_one, mul_one]
  | box lo hi =>
    funext i r
    show clip _ _ (X i (π r) * s r) = clip _ _ (X i (π r)) * s r
    rcases hp with rfl | hp
    · rw [Pi.one_apply, mul_one, mul_one]
    · exact clip_sign hp (sign_cases h r) _
  | l1 γ nn =>
    funext i r
    show (if nn = true then clip _ _ (X i (π r) * s r - _) else sgn (X i (π r) * s r) * clip _ _ (|X i (π r) * s r| - _)) =
      (if nn = true then clip _ _ (X i (π r) - _) else sgn (X i (π r)) * clip _ _ (|X i (π r)| - _)) * s r
    rcases hp with rfl | rfl
    · simp only [Pi.one_apply, mul_one]
    · simp only [Bool.false_eq_true, if_false]
      rw [sgn_sign (sign_cases h r), abs_sign (sign_cases h r)]
      ring
  | l2Ball b nn =>
    funext i r
    show l2BallMat b nn m R (relMat π s X) ρ (relMat π s aux) i r = l2BallMat b nn m R X ρ aux i (π r) * s r
    simp only [l2BallMat, relMat, relRow, of_apply]
    rcases hp with rfl | rfl
    · simp only [Pi.one_apply, mul_one]
    · simp only [Bool.false_eq_true, if_false, mul_pow, sq (s r), h, mul_one]
      ring
  | genL2 M d =>
    show genL2Mat d R (relMat π s X) ρ (relMat π s aux) = relMat π s (genL2Mat d R X ρ aux)
    have e : ∀ Y : Matrix (Fin m) (Fin R) ℝ, (fun i r => 1 / 2 * ρ * Y i r : Matrix (Fin m) (Fin R) ℝ) = (1 / 2 * ρ) • Y := fun Y => rfl
    simp only [genL2Mat, e, relMat_eq]
    rw [← Matrix.smul_mul]
    simp only [Matrix.mul_assoc]
  | tv solver α β =>
    funext i r
    have e : ∀ t, solver (relMat π s X).transpose t r i = solver X.transpose t (π r) i * s r := by
      intro t
      have := congrFun (congrFun (hp X.transpose t) r) i
      simp only [of_apply, Pi.smul_apply, smul_eq_mul] at this
      rw [mul_comm, ← this]
      congr 1
      funext q j
      simp only [relMat, relRow, of_apply, transpose_apply, Pi.smul_apply, smul_eq_mul]
      rw [mul_comm]
    show (if β ≠ 0 then sgn (solver (relMat π s X).transpose _ r i) * clip _ _ (|solver (relMat π s X).transpose _ r i| - _) else solver (relMat π s X).transpose _ r i) =
      (if β ≠ 0 then sgn (solver X.transpose _ (π r) i) * clip _ _ (|solver X.transpose _ (π r) i| - _) else solver X.transpose _ (π r) i) * s r
    simp only [e]
    split
    · rw [sgn_sign (sign_cases h r), abs_sign (sign_cases h r)]
      ring
    · rfl

theorem std_row_rel (π : Equiv.Perm (Fin R)) {s : Fin R → ℝ} (h : ∀ r, s r * s r = 1) (p : StdPen m R) (hp : SignsOK π s p) (u : RowUpdate R) (hu : p.row = some u)
    (y : Fin R → ℝ) (ρ : ℝ) (aux : Fin R → ℝ) : u (relRow π s y) ρ (relRow π s aux) = relRow π s (u y ρ aux) := by
  cases p with
  | nonNeg =>
    cases hu
    exact congrFun (std_mat_rel (m := 1) π h .nonNeg hp (fun _ => y) ρ fun _ => aux) 0
  | box lo hi =>
    cases hu
    exact congrFun (std_mat_rel (m := 1) π h (.box lo hi) hp (fun _ => y) ρ fun _ => aux) 0
  | l1 γ nn =>
    cases hu
    exact congrFun (std_mat_rel (m := 1) π h (.l1 γ nn) hp (fun _ => y) ρ fun _ => aux) 0
  | l2Ball b nn => cases hu
  | genL2 M d => cases hu
  | tv so α β => cases hu

theorem labelFreeA_std (L : Labels R) (co : Bool) (p : StdPen I R) (hp : SignsOK L.π L.a p) : LabelFreeA L co p.toA :=
  ⟨std_value_rel L.π L.sqA p, fun _ => std_mat_rel L.π L.sqA p hp, fun _ u hu => std_row_rel L.π L.sqA p hp u hu⟩

theorem labelFreeC_std (L : Labels R) (p : StdPen K R) (hp : SignsOK L.π L.c p) : LabelFreeC L p.toC :=
  ⟨std_value_rel L.π L.sqC p, std_mat_rel L.π L.sqC p hp⟩

theorem labelFreeB_std (L : Labels R) (p : (i : Fin I) → StdPen (J i) R) (hp : ∀ i, SignsOK L.π L.b (p i)) : LabelFreeB L (StdPen.toB p) := by
  refine ⟨fun X => ?_, fun X ρ aux => ?_⟩
  · show ∑ i, (p i).value (relMat L.π L.b (X i)) = ∑ i, (p i).value (X i)
    exact sum_congr rfl fun i _ => std_value_rel L.π L.sqB (p i) (X i)
  · have e : (relAux L aux).toMats = fun i => relMat L.π L.b (aux.toMats i) := by
      cases aux with
      | mats Y => rfl
      | p2 a =>
        funext i
        show a.bases i * relMat L.π L.b a.coord = relMat L.π L.b (a.bases i * a.coord)
        rw [relMat_eq, relMat_eq, Matrix.mul_assoc]
    show AuxB.mats (fun i => (p i).mat (relMat L.π L.b (X i)) (ρ i) ((relAux L aux).toMats i)) = _
    rw [e]
    exact congrArg AuxB.mats (funext fun i => std_mat_rel L.π L.sqB (p i) (hp i) (X i) (ρ i) (aux.toMats i))

/-- PARAFAC2 treats all components and signs alike: the bases stay, the columns of the coordinate matrix change. -/
theorem labelFreeB_parafac2 (L : Labels R) (svd : (i : Fin I) → Matrix (Fin (J i)) (Fin R) ℝ → SVD (J i) R R) (n : ℕ) (ub uc : Bool) :
    LabelFreeB L (.parafac2 svd n ub uc) := by
  refine ⟨fun X => rfl, fun X ρ aux => ?_⟩
  have hb : ∀ D, p2Bases svd (fun i => relMat L.π L.b (X i)) (relMat L.π L.b D) = p2Bases svd X D := by
    intro D
    funext i
    have e : relMat L.π L.b (X i) * (relMat L.π L.b D).transpose = X i * D.transpose := by
      rw [relMat_eq, relMat_eq, transpose_mul, Matrix.mul_assoc, ← Matrix.mul_assoc (relT L.π L.b), relT_orth' L.π L.sqB, Matrix.one_mul]
    simp only [p2Bases, e]
  have hc : ∀ P, p2Coord (fun i => relMat L.π L.b (X i)) ρ P = relMat L.π L.b (p2Coord X ρ P) := by
    intro P
    simp only [p2Coord, relMat_eq, Matrix.smul_mul, Matrix.sum_mul, Matrix.mul_assoc]
  have hu : ∀ (k : ℕ) (a : P2Aux I J R), p2Update svd ub uc (fun i => relMat L.π L.b (X i)) ρ k ⟨a.bases, relMat L.π L.b a.coord⟩ =
      ⟨(p2Update svd ub uc X ρ k a).bases, relMat L.π L.b (p2Update svd ub uc X ρ k a).coord⟩ := by
    intro k
    induction k with
    | zero => intro a; rfl
    | succ k ih =>
      intro a
      cases ub <;> cases uc <;> simp only [p2Update, hb, hc, if_true, if_false, Bool.not_true, Bool.not_false, Bool.or_true, Bool.or_false, Bool.or_self,
        Bool.false_eq_true]
      exact ih ⟨p2Bases svd X a.coord, p2Coord X ρ (p2Bases svd X a.coord)⟩
  cases aux with
  | mats Y => rfl
  | p2 a => exact congrArg AuxB.p2 (hu n a)

/-- A case of C95: penalties of the package and ridge penalties. -/
theorem C95_package (L : Labels R) (P : Problem I K R nA nB nC J) (hv : ValidSVD P.params) (hs : 0 ≤ P.params.scale)
    (hl : 0 ≤ P.l2.1 ∧ 0 ≤ P.l2.2.1 ∧ 0 ≤ P.l2.2.2) (rA : P.updA = true → 0 < P.l2.1) (rB : P.updB = true → 0 < P.l2.2.1) (rC : P.updC = true → 0 < P.l2.2.2)
    (pA : Fin nA → StdPen I R) (pB : Fin nB → PkgB I R J) (pC : Fin nC → StdPen K R) (hA : P.pensA = fun p => (pA p).toA) (hB : P.pensB = fun p => (pB p).pen)
    (hC : P.pensC = fun p => (pC p).toC) (sA : ∀ p, SignsOK L.π L.a (pA p)) (sB : ∀ p q, pB p = .std q → ∀ i, SignsOK L.π L.b (q i))
    (sC : ∀ p, SignsOK L.π L.c (pC p)) (a : Args) (init : AOState I K R nA nB nC J) :
    cmfAoadmm P a (relS L init) = (cmfAoadmm P a init).map fun o => ⟨relS L o.st, o.diag, o.log⟩ := by
  refine C95_ridge L P hv hs hl rA rB rC (fun p => ?_) (fun p => ?_) (fun p => ?_) a init
  · rw [hA]; exact labelFreeA_std L _ _ (sA p)
  · rw [hB]
    cases h : pB p with
    | std q => simp only [h]; exact labelFreeB_std L q (sB p q h)
    | parafac2 svd n ub uc => simp only [h]; exact labelFreeB_parafac2 L svd n ub uc
  · rw [hC]; exact labelFreeC_std L _ (sC p)

/-- Components 0 and 1 change places, and the columns of the first in the B factor matrices and C change their signs. -/
def swapLabels : Labels 2 where
  π := Equiv.swap 0 1
  a := 1
  b := ![-1, 1]
  c := ![-1, 1]
  sqA := by simp
  sqB := by simp [Fin.forall_fin_two]
  sqC := by simp [Fin.forall_fin_two]
  prod := by simp [Fin.forall_fin_two]

/-- A concrete case: two components, data 1, non-negativity on A, PARAFAC2 on B and an L1 penalty on C, all updated with ridge penalties. -/
theorem C95_example : ∃ P : Problem 1 1 2 1 1 1 (fun _ => 2), ValidSVD P.params ∧ P.updA = true ∧ P.updB = true ∧ P.updC = true ∧ P.X ≠ 0 ∧
    ∀ a init, cmfAoadmm P a (relS swapLabels init) = (cmfAoadmm P a init).map fun o => ⟨relS swapLabels o.st, o.diag, o.log⟩ := by
  obtain ⟨svd, hsvd⟩ := exists_svd_fun 2
  let P : Problem 1 1 2 1 1 1 (fun _ => 2) :=
    { X := fun _ => fun _ _ => 1, pensA := fun _ => StdPen.toA .nonNeg, pensB := fun _ => .parafac2 (fun _ => svd) 5 true true,
      pensC := fun _ => StdPen.toC (.l1 1 false), l2 := (1, 1, 1), params := ⟨svd, 5, none, 1⟩, constA := false, constB := false, updA := true, updB := true, updC := true }
  refine ⟨P, hsvd, rfl, rfl, rfl, fun h => one_ne_zero (congrFun (congrFun (congrFun h 0) 0) 0), fun a init => ?_⟩
  exact C95_package swapLabels P hsvd zero_le_one ⟨zero_le_one, zero_le_one, zero_le_one⟩ (fun _ => zero_lt_one) (fun _ => zero_lt_one) (fun _ => zero_lt_one)
    (fun _ => .nonNeg) (fun _ => .parafac2 (fun _ => svd) 5 true true) (fun _ => .l1 1 false) rfl rfl rfl (fun _ => rfl) (fun _ _ h => by cases h) (fun _ => .inr rfl) a init

end Verif.Props
