import Verif.Props.LoopLabels

/-!
# C96: the units of the data and the scale of the factors
-/

namespace Verif.Props

open Verif.Loop Verif.ADMM Verif.Penalties Verif.Spec Finset Matrix

variable {I K R nA nB nC n m : ℕ} {J : Fin I → ℕ}

/-! ### The same problem in other units -/

/-- Units: A is multiplied with `a`, the B factor matrices with `b` and C with `c`. -/
structure Units where
  a : ℝ
  b : ℝ
  c : ℝ
  posA : 0 < a
  posB : 0 < b
  posC : 0 < c

/-- The factor of the data. -/
def Units.data (u : Units) : ℝ := u.a * u.b * u.c

/-- The factorization in other units. -/
def unitF (u : Units) (F : Factors I K R J) : Factors I K R J := ⟨u.a • F.A, fun i => u.b • F.B i, u.c • F.C⟩

/-- Auxiliary variables of mode 1 in other units. -/
def unitAux (u : Units) : AuxB I R J → AuxB I R J
  | .mats X => .mats fun i => u.b • X i
  | .p2 a => .p2 ⟨a.bases, u.b • a.coord⟩

/-- All variables in other units. -/
def unitS (u : Units) (s : AOState I K R nA nB nC J) : AOState I K R nA nB nC J where
  weights := s.weights
  F := unitF u s.F
  auxA := fun p => u.a • s.auxA p
  dualA := fun p => u.a • s.dualA p
  auxB := fun p => unitAux u (s.auxB p)
  dualB := fun p i => u.b • s.dualB p i
  auxC := fun p => u.c • s.auxC p
  dualC := fun p => u.c • s.dualC p

/-- `q` is the penalty `p` on mode 0 in other units: the feasibility penalties are multiplied with `(b c)²`. -/
def UnitsA (u : Units) (constant : Bool) (p q : PenA I R) : Prop :=
  (∀ X, q.value (u.a • X) = p.value X) ∧
    (constant = true → ∀ X ρ aux, q.mat (u.a • X) ((u.b * u.c) ^ 2 * ρ) (u.a • aux) = u.a • p.mat X ρ aux) ∧
    (constant = false → match p.row, q.row with
      | none, none => True
      | some f, some g => ∀ y ρ aux, g (u.a • y) ((u.b * u.c) ^ 2 * ρ) (u.a • aux) = u.a • f y ρ aux
      | _, _ => False)

/-- The same for mode 1. -/
def UnitsB (u : Units) (p q : PenB I R J) : Prop :=
  (∀ X : Ragged I R J, q.value (fun i => u.b • X i) = p.value X) ∧
    ∀ (X : Ragged I R J) (ρ : Fin I → ℝ) (aux : AuxB I R J), q.update (fun i => u.b • X i) (fun i => (u.a * u.c) ^ 2 * ρ i) (unitAux u aux) = unitAux u (p.update X ρ aux)

/-- The same for mode 2. -/
def UnitsC (u : Units) (p q : PenC K R) : Prop :=
  (∀ X, q.value (u.c • X) = p.value X) ∧ ∀ X ρ aux, q.mat (u.c • X) ((u.a * u.b) ^ 2 * ρ) (u.c • aux) = u.c • p.mat X ρ aux

/-- The problem in other units: the data, the penalties and the strengths of the ridge penalties. -/
def unitP (u : Units) (P : Problem I K R nA nB nC J) (pensA : Fin nA → PenA I R) (pensB : Fin nB → PenB I R J) (pensC : Fin nC → PenC K R) :
    Problem I K R nA nB nC J :=
  { P with X := fun i => u.data • P.X i, pensA := pensA, pensB := pensB, pensC := pensC,
           l2 := ((u.b * u.c) ^ 2 * P.l2.1, (u.a * u.c) ^ 2 * P.l2.2.1, (u.a * u.b) ^ 2 * P.l2.2.2) }

/-! ### Norms and systems -/

theorem matNorm_smul {c : ℝ} (hc : 0 < c) (M : Matrix (Fin m) (Fin n) ℝ) : matNorm (c • M) = c * matNorm M := by
  unfold matNorm
  rw [show ∑ i, ∑ j, (c • M) i j ^ 2 = c ^ 2 * ∑ i, ∑ j, M i j ^ 2 by
    simp only [mul_sum]
    exact sum_congr rfl fun i _ => sum_congr rfl fun j _ => mul_pow c (M i j) 2, Real.sqrt_mul (sq_nonneg c), Real.sqrt_sq hc.le]

theorem rootSumSq_smul {c : ℝ} (hc : 0 < c) (X : Ragged I n J) : rootSumSq (fun i => c • X i) = c * rootSumSq X := by
  unfold rootSumSq
  rw [show ∑ i, ∑ j, ∑ k, (c • X i) j k ^ 2 = c ^ 2 * ∑ i, ∑ j, ∑ k, X i j k ^ 2 by
    simp only [mul_sum]
    exact sum_congr rfl fun i _ => sum_congr rfl fun j _ => sum_congr rfl fun k _ => mul_pow c (X i j k) 2, Real.sqrt_mul (sq_nonneg c), Real.sqrt_sq hc.le]

theorem div_units {c : ℝ} (hc : 0 < c) (x y : ℝ) : PyF.div (c * x) (c * y) = PyF.div x y := by
  unfold PyF.div
  by_cases hy : y = 0
  · simp [hy, hc.ne']
  · rw [if_neg (mul_ne_zero hc.ne' hy), if_neg hy, mul_div_mul_left _ _ hc.ne']

theorem matGap_units {c : ℝ} (hc : 0 < c) (X Z : Matrix (Fin m) (Fin n) ℝ) : matGap (c • X) (c • Z) = matGap X Z := by
  unfold matGap
  rw [← smul_sub, matNorm_smul hc, matNorm_smul hc, div_units hc]

theorem subtract_units (u : Units) (x : AuxB I R J) (d : Ragged I R J) : (unitAux u x).subtract (fun i => u.b • d i) = fun i => u.b • x.subtract d i := by
  cases x with
  | mats X => funext i; exact (smul_sub _ _ _).symm
  | p2 a =>
    funext i
    show a.bases i * (u.b • a.coord) - u.b • d i = u.b • (a.bases i * a.coord - d i)
    rw [Matrix.mul_smul, smul_sub]

theorem raggedGap_units (u : Units) (X : Ragged I R J) (Z : AuxB I R J) : raggedGap (fun i => u.b • X i) (unitAux u Z) = raggedGap X Z := by
  unfold raggedGap
  rw [subtract_units, rootSumSq_smul u.posB, rootSumSq_smul u.posB, div_units u.posB]

theorem innerConverged_units {c : ℝ} (hc : 0 < c) (tol : Option ℝ) (norm change : ℝ) (gaps : List PyF) :
    innerConverged tol (c * norm) (c * change) gaps = innerConverged tol norm change gaps := by
  cases tol with
  | none => rfl
  | some t =>
    simp only [innerConverged]
    have : (c * change > t * (c * norm)) ↔ change > t * norm := by
      rw [show t * (c * norm) = c * (t * norm) by ring]
      exact mul_lt_mul_iff_right₀ hc
    simp only [this]

theorem feasPenalty_units (scale κ : ℝ) (G : Matrix (Fin R) (Fin R) ℝ) : feasPenalty scale (κ • G) = κ * feasPenalty scale G := by
  unfold feasPenalty
  rw [Matrix.trace_smul, smul_eq_mul]
  ring

theorem foldl_max_units {κ : ℝ} (hκ : 0 ≤ κ) : ∀ (l : List ℝ) (x : ℝ), (l.map (κ * ·)).foldl max (κ * x) = κ * l.foldl max x
  | [], x => rfl
  | y :: l, x => by
    rw [List.map_cons, List.foldl_cons, List.foldl_cons, ← mul_max_of_nonneg _ _ hκ, foldl_max_units hκ l]

theorem feasPenalties_units (scale : ℝ) {κ : ℝ} (hκ : 0 ≤ κ) (co : Bool) (G : Fin I → Matrix (Fin R) (Fin R) ℝ) :
    feasPenalties scale co (fun i => κ • G i) = (feasPenalties scale co G).map fun x => (x.1.map (κ * ·), fun i => κ * x.2 i) := by
  unfold feasPenalties
  cases co
  · simp only [feasPenalty_units]
    rfl
  · simp only [feasPenalty_units, if_true]
    have : (List.ofFn fun i => κ * feasPenalty scale (G i)) = (List.ofFn fun i => feasPenalty scale (G i)).map (κ * ·) := by
      rw [List.map_ofFn]; rfl
    rw [this]
    cases List.ofFn fun i => feasPenalty scale (G i) with
    | nil => rfl
    | cons x l =>
      simp only [List.map_cons, vecMax, foldl_max_units hκ]
      rfl

theorem addRidge_units (κ : ℝ) (G : Matrix (Fin R) (Fin R) ℝ) (ρ : ℝ) (n : ℕ) (l2 : ℝ) : addRidge (κ • G) (κ * ρ) n (κ * l2) = κ • addRidge G ρ n l2 := by
  unfold addRidge
  rw [smul_add, smul_smul]
  congr 2
  ring

theorem svdSolve_units {κ : ℝ} (hκ : κ ≠ 0) {svd : Matrix (Fin R) (Fin R) ℝ → SVD R R R} (hv : ∀ G, (svd G).Valid G) {G : Matrix (Fin R) (Fin R) ℝ}
    (hs : G.transpose = G) (hu : IsUnit G) (c : ℝ) (Y : Matrix (Fin m) (Fin R) ℝ) : svdSolve (svd (κ • G)) ((κ * c) • Y) = c • svdSolve (svd G) Y := by
  have hu' : IsUnit (κ • G) := by
    obtain ⟨H, hH⟩ := hu.exists_right_inv
    have h : κ • G * κ⁻¹ • H = 1 := by rw [Matrix.smul_mul, Matrix.mul_smul, hH, smul_smul, mul_inv_cancel₀ hκ, one_smul]
    exact ⟨⟨κ • G, κ⁻¹ • H, h, mul_eq_one_comm.1 h⟩, rfl⟩
  have h1 := svdSolve_mul (hv (κ • G)) (by rw [transpose_smul, hs]) (svd_ne_zero (hv _) hu') ((κ * c) • Y)
  have h2 := svdSolve_mul (hv G) hs (svd_ne_zero (hv _) hu) Y
  have h3 : (c • svdSolve (svd G) Y) * (κ • G) = (κ * c) • Y := by
    rw [Matrix.mul_smul, Matrix.smul_mul, h2, smul_smul]
  obtain ⟨H, hH⟩ := hu'.exists_right_inv
  calc svdSolve (svd (κ • G)) ((κ * c) • Y) = svdSolve (svd (κ • G)) ((κ * c) • Y) * (κ • G) * H := by rw [Matrix.mul_assoc, hH, Matrix.mul_one]
    _ = (c • svdSolve (svd G) Y) * (κ • G) * H := by rw [h1, h3]
    _ = c • svdSolve (svd G) Y := by rw [Matrix.mul_assoc, hH, Matrix.mul_one]

theorem svdSolveRow_units {κ : ℝ} (hκ : κ ≠ 0) {svd : Matrix (Fin R) (Fin R) ℝ → SVD R R R} (hv : ∀ G, (svd G).Valid G) {G : Matrix (Fin R) (Fin R) ℝ}
    (hs : G.transpose = G) (hu : IsUnit G) (c : ℝ) (v : Fin R → ℝ) : svdSolveRow (svd (κ • G)) ((κ * c) • v) = c • svdSolveRow (svd G) v := by
  have := svdSolve_units hκ hv hs hu c (rowMat v)
  rw [show (κ * c) • rowMat v = rowMat ((κ * c) • v) from rfl, ← svdSolveRow_eq, ← svdSolveRow_eq] at this
  exact congrFun this 0

theorem crossA_units (u : Units) (F : Factors I K R J) : crossA (unitF u F) = fun i => (u.b * u.c) ^ 2 • crossA F i := by
  funext i
  ext q r
  simp only [crossA, unitF, of_apply, transpose_smul, Matrix.smul_mul, Matrix.mul_smul, Matrix.smul_apply, smul_eq_mul]
  ring

theorem rhsA_units (u : Units) (X : Ragged I K J) (F : Factors I K R J) (i : Fin I) :
    rhsA (fun i => u.data • X i) (unitF u F) i = ((u.b * u.c) ^ 2 * u.a) • rhsA X F i := by
  funext r
  unfold rhsA
  split
  · simp only [unitF, transpose_smul, Matrix.smul_mul, Matrix.mul_smul, Matrix.smul_apply, Pi.smul_apply, smul_eq_mul, Units.data]
    ring
  · simp only [unitF, transpose_smul, Matrix.smul_mul, Matrix.mul_smul, Matrix.smul_apply, Pi.smul_apply, smul_eq_mul, Units.data]
    ring

theorem crossB_units (u : Units) (F : Factors I K R J) : crossB (unitF u F) = fun i => (u.a * u.c) ^ 2 • crossB F i := by
  funext i
  ext q r
  simp only [crossB, unitF, of_apply, transpose_smul, Matrix.smul_mul, Matrix.mul_smul, Matrix.smul_apply, smul_eq_mul]
  ring

theorem rhsB_units (u : Units) (X : Ragged I K J) (F : Factors I K R J) (i : Fin I) :
    rhsB (fun i => u.data • X i) (unitF u F) i = ((u.a * u.c) ^ 2 * u.b) • rhsB X F i := by
  unfold rhsB
  have : (Matrix.of fun k r => (unitF u F).C k r * (unitF u F).A i r) = (u.a * u.c) • Matrix.of fun k r => F.C k r * F.A i r := by
    ext k r
    simp only [unitF, of_apply, Matrix.smul_apply, smul_eq_mul]
    ring
  rw [this, Matrix.smul_mul, Matrix.mul_smul, smul_smul]
  congr 1
  simp only [Units.data]
  ring

theorem scaledB_units (u : Units) (F : Factors I K R J) (i : Fin I) : scaledB (unitF u F) i = (u.a * u.b) • scaledB F i := by
  ext j r
  simp only [scaledB, unitF, of_apply, Matrix.smul_apply, smul_eq_mul]
  ring

theorem crossC_units (u : Units) (F : Factors I K R J) : crossC (unitF u F) = (u.a * u.b) ^ 2 • crossC F := by
  unfold crossC
  rw [smul_sum]
  refine sum_congr rfl fun i _ => ?_
  rw [scaledB_units, transpose_smul, Matrix.smul_mul, Matrix.mul_smul, smul_smul, sq]

theorem rhsC_units (u : Units) (X : Ragged I K J) (F : Factors I K R J) :
    rhsC (fun i => u.data • X i) (unitF u F) = ((u.a * u.b) ^ 2 * u.c) • rhsC X F := by
  unfold rhsC
  rw [smul_sum]
  refine sum_congr rfl fun i _ => ?_
  rw [scaledB_units, transpose_smul, Matrix.smul_mul, Matrix.mul_smul, smul_smul]
  congr 1
  simp only [Units.data]
  ring

/-! ### The updates -/

/-- Variables of the A-update or the C-update in other units. -/
def unitM (c : ℝ) (t : MatState m R n) : MatState m R n := ⟨c • t.x, fun p => c • t.aux p, fun p => c • t.dual p⟩

/-- Variables of the B-update in other units. -/
def unitR (u : Units) (t : RagState I R n J) : RagState I R n J := ⟨fun i => u.b • t.x i, fun p => unitAux u (t.aux p), fun p i => u.b • t.dual p i⟩

theorem matStop_units {c : ℝ} (hc : 0 < c) (tol : Option ℝ) (t t' : MatState m R n) : matStop tol (unitM c t) (unitM c t') = matStop tol t t' := by
  unfold matStop
  simp only [unitM]
  rw [← smul_sub, matNorm_smul hc, matNorm_smul hc, innerConverged_units hc]
  simp only [matGap_units hc]

theorem ragStop_units (u : Units) (tol : Option ℝ) (t t' : RagState I R n J) : ragStop tol (unitR u t) (unitR u t') = ragStop tol t t' := by
  unfold ragStop
  have e : (fun i => (unitR u t').x i - (unitR u t).x i) = fun i => u.b • (t'.x i - t.x i) := funext fun i => (smul_sub _ _ _).symm
  rw [e, rootSumSq_smul u.posB fun i => t'.x i - t.x i, show (unitR u t').x = fun i => u.b • t'.x i from rfl, rootSumSq_smul u.posB t'.x, innerConverged_units u.posB]
  congr 2
  funext p
  exact raggedGap_units u _ _

theorem admmUpdateA_units (u : Units) (prm : Params R) (hv : ValidSVD prm) (X : Ragged I K J) (pens pens' : Fin n → PenA I R) (l2 : ℝ) (co : Bool)
    (hp : ∀ p, UnitsA u co (pens p) (pens' p)) (F : Factors I K R J) (aux dual : Fin n → Matrix (Fin I) (Fin R) ℝ)
    (hu : ∀ o ρ, feasPenalties prm.scale co (crossA F) = .ok (o, ρ) → ∀ i, IsUnit (addRidge (crossA F i) (ρ i) n l2)) :
    admmUpdateA prm (fun i => u.data • X i) pens' ((u.b * u.c) ^ 2 * l2) co (unitF u F) (fun p => u.a • aux p) (fun p => u.a • dual p) =
      (admmUpdateA prm X pens l2 co F aux dual).map (unitM u.a) := by
  have hκ : (u.b * u.c) ^ 2 ≠ 0 := pow_ne_zero 2 (mul_ne_zero u.posB.ne' u.posC.ne')
  unfold admmUpdateA
  rw [crossA_units, feasPenalties_units _ (sq_nonneg _)]
  cases hf : feasPenalties prm.scale co (crossA F) with
  | error e => rfl
  | ok ρ =>
    have hun := hu ρ.1 ρ.2 hf
    simp only [Except.map, Except.bind]
    have hnone : ρ.1 = none → co = false := by
      intro h
      cases co
      · rfl
      · obtain ⟨m, hm, -⟩ := (feasPenalties_ok (o := ρ.1) (ρ := ρ.2) hf).2.2 rfl
        rw [h] at hm; cases hm
    have hsome : ∀ m, ρ.1 = some m → co = true := by
      intro m h
      cases co
      · have := (feasPenalties_ok (o := ρ.1) (ρ := ρ.2) hf).2.1 rfl
        rw [h] at this; cases this
      · rfl
    have hany : co = false → (List.ofFn pens').any (fun p => p.row.isNone) = (List.ofFn pens).any (fun p => p.row.isNone) := by
      intro hco
      have : ∀ p, (pens' p).row.isNone = (pens p).row.isNone := by
        intro p
        have := (hp p).2.2 hco
        cases h1 : (pens p).row <;> cases h2 : (pens' p).row <;> rw [h1, h2] at this <;> first | rfl | exact this.elim
      rw [Bool.eq_iff_iff]
      simp only [List.any_eq_true, List.mem_ofFn]
      constructor
      · rintro ⟨_, ⟨p, rfl⟩, h⟩; exact ⟨_, ⟨p, rfl⟩, by rw [← this]; exact h⟩
      · rintro ⟨_, ⟨p, rfl⟩, h⟩; exact ⟨_, ⟨p, rfl⟩, by rw [this]; exact h⟩
    have hcond : (!co && decide (0 < prm.nInner) && decide (0 < I) && (List.ofFn pens').any fun p => p.row.isNone) =
        (!co && decide (0 < prm.nInner) && decide (0 < I) && (List.ofFn pens).any fun p => p.row.isNone) := by
      cases co
      · rw [hany rfl]
      · rfl
    rw [hcond]
    split
    · rfl
    · refine congrArg Except.ok (innerLoop_map (f := unitM u.a) (s := ⟨F.A, aux, dual⟩) (fun s => ?_) (matStop_units u.posA _) _)
      set t := stepA pens ρ.1 ρ.2 (fun i => prm.svd (addRidge (crossA F i) (ρ.2 i) n l2)) (rhsA X F) s with ht
      set t' := stepA pens' (ρ.1.map ((u.b * u.c) ^ 2 * ·)) (fun i => (u.b * u.c) ^ 2 * ρ.2 i)
        (fun i => prm.svd (addRidge ((u.b * u.c) ^ 2 • crossA F i) ((u.b * u.c) ^ 2 * ρ.2 i) n ((u.b * u.c) ^ 2 * l2))) (rhsA (fun i => u.data • X i) (unitF u F))
        (unitM u.a s) with ht'
      have hx : t'.x = u.a • t.x := by
        funext i
        show svdSolveRow (prm.svd (addRidge ((u.b * u.c) ^ 2 • crossA F i) ((u.b * u.c) ^ 2 * ρ.2 i) n ((u.b * u.c) ^ 2 * l2)))
          (((u.b * u.c) ^ 2 * ρ.2 i) • (∑ p, (u.a • s.aux p - u.a • s.dual p) i) + rhsA (fun i => u.data • X i) (unitF u F) i) =
          u.a • svdSolveRow (prm.svd (addRidge (crossA F i) (ρ.2 i) n l2)) (ρ.2 i • (∑ p, (s.aux p - s.dual p) i) + rhsA X F i)
        rw [addRidge_units, rhsA_units, ← svdSolveRow_units hκ hv (by rw [crossA_eq]; exact addRidge_symm _ _ _ _) (hun i)]
        congr 1
        rw [smul_add]
        congr 1
        simp only [← smul_sub]
        rw [show ∑ p, (u.a • (s.aux p - s.dual p)) i = u.a • ∑ p, (s.aux p - s.dual p) i by rw [smul_sum]; rfl, smul_smul, smul_smul]
        congr 1
        ring
      have haux : ∀ p, t'.aux p = u.a • t.aux p := by
        intro p
        show auxA (pens' p) (ρ.1.map ((u.b * u.c) ^ 2 * ·)) (fun i => (u.b * u.c) ^ 2 * ρ.2 i) (t'.x + u.a • s.dual p) (u.a • s.aux p) =
          u.a • auxA (pens p) ρ.1 ρ.2 (t.x + s.dual p) (s.aux p)
        rw [hx, ← smul_add]
        cases h1 : ρ.1 with
        | some m => exact (hp p).2.1 (hsome m h1) _ _ _
        | none =>
          have := (hp p).2.2 (hnone h1)
          cases h2 : (pens p).row with
          | none =>
            rw [h2] at this
            cases h3 : (pens' p).row with
            | none => simp only [auxA, h2, h3, Option.map_none]
            | some g => rw [h3] at this; exact this.elim
          | some f =>
            rw [h2] at this
            cases h3 : (pens' p).row with
            | none => rw [h3] at this; exact this.elim
            | some g =>
              rw [h3] at this
              simp only [auxA, h2, h3, Option.map_none]
              funext i
              exact this _ _ _
      have hdual : ∀ p, t'.dual p = u.a • t.dual p := by
        intro p
        show t'.x - (t'.aux p - u.a • s.dual p) = u.a • (t.x - (t.aux p - s.dual p))
        rw [haux p, hx, ← smul_sub, ← smul_sub]
      exact matState_ext hx (funext haux) (funext hdual)

theorem admmUpdateB_units (u : Units) (prm : Params R) (hv : ValidSVD prm) (X : Ragged I K J) (pens pens' : Fin n → PenB I R J) (l2 : ℝ) (co : Bool)
    (hp : ∀ p, UnitsB u (pens p) (pens' p)) (F : Factors I K R J) (aux : Fin n → AuxB I R J) (dual : Fin n → Ragged I R J)
    (hu : ∀ o ρ, feasPenalties prm.scale co (crossB F) = .ok (o, ρ) → ∀ i, IsUnit (addRidge (crossB F i) (ρ i) n l2)) :
    admmUpdateB prm (fun i => u.data • X i) pens' ((u.a * u.c) ^ 2 * l2) co (unitF u F) (fun p => unitAux u (aux p)) (fun p i => u.b • dual p i) =
      (admmUpdateB prm X pens l2 co F aux dual).map (unitR u) := by
  have hκ : (u.a * u.c) ^ 2 ≠ 0 := pow_ne_zero 2 (mul_ne_zero u.posA.ne' u.posC.ne')
  unfold admmUpdateB
  rw [crossB_units, feasPenalties_units _ (sq_nonneg _)]
  cases hf : feasPenalties prm.scale co (crossB F) with
  | error e => rfl
  | ok ρ =>
    have hun := hu ρ.1 ρ.2 hf
    simp only [Except.map, Except.bind]
    refine congrArg Except.ok (innerLoop_map (f := unitR u) (s := ⟨F.B, aux, dual⟩) (fun s => ?_) (ragStop_units u _) _)
    set t := stepB pens ρ.2 (fun i => prm.svd (addRidge (crossB F i) (ρ.2 i) n l2)) (rhsB X F) s with ht
    set t' := stepB pens' (fun i => (u.a * u.c) ^ 2 * ρ.2 i)
      (fun i => prm.svd (addRidge ((u.a * u.c) ^ 2 • crossB F i) ((u.a * u.c) ^ 2 * ρ.2 i) n ((u.a * u.c) ^ 2 * l2))) (rhsB (fun i => u.data • X i) (unitF u F))
      (unitR u s) with ht'
    have hx : t'.x = fun i => u.b • t.x i := by
      funext i
      show svdSolve (prm.svd (addRidge ((u.a * u.c) ^ 2 • crossB F i) ((u.a * u.c) ^ 2 * ρ.2 i) n ((u.a * u.c) ^ 2 * l2)))
        (((u.a * u.c) ^ 2 * ρ.2 i) • (∑ p, ((unitR u s).aux p).subtract ((unitR u s).dual p) i) + rhsB (fun i => u.data • X i) (unitF u F) i) =
        u.b • svdSolve (prm.svd (addRidge (crossB F i) (ρ.2 i) n l2)) (ρ.2 i • (∑ p, (s.aux p).subtract (s.dual p) i) + rhsB X F i)
      have : ∀ p, ((unitR u s).aux p).subtract ((unitR u s).dual p) i = u.b • (s.aux p).subtract (s.dual p) i :=
        fun p => congrFun (subtract_units u (s.aux p) (s.dual p)) i
      simp only [this]
      rw [addRidge_units, rhsB_units, ← svdSolve_units hκ hv (by rw [crossB_eq]; exact addRidge_symm _ _ _ _) (hun i), ← smul_sum, smul_add, smul_smul, smul_smul]
      congr 3
      ring
    have haux : ∀ p, t'.aux p = unitAux u (t.aux p) := by
      intro p
      show (pens' p).update (fun i => t'.x i + (unitR u s).dual p i) (fun i => (u.a * u.c) ^ 2 * ρ.2 i) ((unitR u s).aux p) = _
      have e : (fun i => t'.x i + (unitR u s).dual p i) = fun i => u.b • (t.x i + s.dual p i) := by
        funext i
        rw [hx, smul_add]
        rfl
      rw [e]
      exact (hp p).2 _ _ _
    have hdual : ∀ p, t'.dual p = fun i => u.b • t.dual p i := by
      intro p
      funext i
      show t'.x i - (t'.aux p).subtract ((unitR u s).dual p) i = u.b • (t.x i - (t.aux p).subtract (s.dual p) i)
      rw [haux p, hx, smul_sub, show (unitAux u (t.aux p)).subtract ((unitR u s).dual p) i = _ from congrFun (subtract_units u _ (s.dual p)) i]
    exact ragState_ext hx (funext haux) (funext hdual)

theorem admmUpdateC_units (u : Units) (prm : Params R) (hv : ValidSVD prm) (X : Ragged I K J) (pens pens' : Fin n → PenC K R) (l2 : ℝ)
    (hp : ∀ p, UnitsC u (pens p) (pens' p)) (F : Factors I K R J) (aux dual : Fin n → Matrix (Fin K) (Fin R) ℝ)
    (hu : IsUnit (addRidge (crossC F) (feasPenalty prm.scale (crossC F)) n l2)) :
    admmUpdateC prm (fun i => u.data • X i) pens' ((u.a * u.b) ^ 2 * l2) (unitF u F) (fun p => u.c • aux p) (fun p => u.c • dual p) =
      unitM u.c (admmUpdateC prm X pens l2 F aux dual) := by
  have hκ : (u.a * u.b) ^ 2 ≠ 0 := pow_ne_zero 2 (mul_ne_zero u.posA.ne' u.posB.ne')
  unfold admmUpdateC
  rw [crossC_units, feasPenalty_units]
  dsimp only
  refine innerLoop_map (f := unitM u.c) (s := ⟨F.C, aux, dual⟩) (fun s => ?_) (matStop_units u.posC _) _
  set ρ := feasPenalty prm.scale (crossC F)
  set t := stepC pens ρ (prm.svd (addRidge (crossC F) ρ n l2)) (rhsC X F) s with ht
  set t' := stepC pens' ((u.a * u.b) ^ 2 * ρ) (prm.svd (addRidge ((u.a * u.b) ^ 2 • crossC F) ((u.a * u.b) ^ 2 * ρ) n ((u.a * u.b) ^ 2 * l2)))
    (rhsC (fun i => u.data • X i) (unitF u F)) (unitM u.c s) with ht'
  have hx : t'.x = u.c • t.x := by
    show svdSolve (prm.svd (addRidge ((u.a * u.b) ^ 2 • crossC F) ((u.a * u.b) ^ 2 * ρ) n ((u.a * u.b) ^ 2 * l2)))
      (((u.a * u.b) ^ 2 * ρ) • (∑ p, (u.c • s.aux p - u.c • s.dual p)) + rhsC (fun i => u.data • X i) (unitF u F)) =
      u.c • svdSolve (prm.svd (addRidge (crossC F) ρ n l2)) (ρ • (∑ p, (s.aux p - s.dual p)) + rhsC X F)
    simp only [← smul_sub]
    rw [addRidge_units, rhsC_units, ← svdSolve_units hκ hv (by rw [crossC_eq]; exact addRidge_symm _ _ _ _) hu, ← smul_sum, smul_add, smul_smul, smul_smul]
    congr 3
    ring
  have haux : ∀ p, t'.aux p = u.c • t.aux p := by
    intro p
    show (pens' p).mat (t'.x + u.c • s.dual p) ((u.a * u.b) ^ 2 * ρ) (u.c • s.aux p) = _
    rw [hx, ← smul_add]
    exact (hp p).2 _ _ _
  have hdual : ∀ p, t'.dual p = u.c • t.dual p := by
    intro p
    show t'.x - (t'.aux p - u.c • s.dual p) = u.c • (t.x - (t.aux p - s.dual p))
    rw [haux p, hx, ← smul_sub, ← smul_sub]
  exact matState_ext hx (funext haux) (funext hdual)

/-! ### The loop -/

variable {pensA : Fin nA → PenA I R} {pensB : Fin nB → PenB I R J} {pensC : Fin nC → PenC K R}

theorem unitS_F (u : Units) (s : AOState I K R nA nB nC J) : (unitS u s).F = unitF u s.F := rfl
theorem unitS_auxA (u : Units) (s : AOState I K R nA nB nC J) : (unitS u s).auxA = fun p => u.a • s.auxA p := rfl
theorem unitS_dualA (u : Units) (s : AOState I K R nA nB nC J) : (unitS u s).dualA = fun p => u.a • s.dualA p := rfl
theorem unitS_auxB (u : Units) (s : AOState I K R nA nB nC J) : (unitS u s).auxB = fun p => unitAux u (s.auxB p) := rfl
theorem unitS_dualB (u : Units) (s : AOState I K R nA nB nC J) : (unitS u s).dualB = fun p i => u.b • s.dualB p i := rfl
theorem unitS_auxC (u : Units) (s : AOState I K R nA nB nC J) : (unitS u s).auxC = fun p => u.c • s.auxC p := rfl
theorem unitS_dualC (u : Units) (s : AOState I K R nA nB nC J) : (unitS u s).dualC = fun p => u.c • s.dualC p := rfl

theorem sweep_units (u : Units) (P : Problem I K R nA nB nC J) (hv : ValidSVD P.params) (hs : 0 ≤ P.params.scale)
    (hl : 0 ≤ P.l2.1 ∧ 0 ≤ P.l2.2.1 ∧ 0 ≤ P.l2.2.2) (hA : ∀ p, UnitsA u P.constA (P.pensA p) (pensA p)) (hB : ∀ p, UnitsB u (P.pensB p) (pensB p))
    (hC : ∀ p, UnitsC u (P.pensC p) (pensC p)) (s : AOState I K R nA nB nC J) (hf : Fixed P s) :
    (sweep (unitP u P pensA pensB pensC) (unitS u s)).map Prod.fst = (sweep P s).map fun x => unitS u x.1 := by
  obtain ⟨Q, hQ⟩ : ∃ Q, Q = unitP u P pensA pensB pensC := ⟨_, rfl⟩
  have eXu : Q.X = fun i => u.data • P.X i := by rw [hQ]; rfl
  have eprm : Q.params = P.params := by rw [hQ]; rfl
  have el2 : Q.l2 = ((u.b * u.c) ^ 2 * P.l2.1, (u.a * u.c) ^ 2 * P.l2.2.1, (u.a * u.b) ^ 2 * P.l2.2.2) := by rw [hQ]; rfl
  have epA : Q.pensA = pensA := by rw [hQ]; rfl
  have epB : Q.pensB = pensB := by rw [hQ]; rfl
  have epC : Q.pensC = pensC := by rw [hQ]; rfl
  have ecA : Q.constA = P.constA := by rw [hQ]; rfl
  have ecB : Q.constB = P.constB := by rw [hQ]; rfl
  have euA : Q.updA = P.updA := by rw [hQ]; rfl
  have euB : Q.updB = P.updB := by rw [hQ]; rfl
  have euC : Q.updC = P.updC := by rw [hQ]; rfl
  rw [← hQ]
  have eB : sweepB Q (unitS u s) = (sweepB P s).map (unitS u) := by
    unfold sweepB
    by_cases hb : P.updB = true
    · rw [if_pos (euB.trans hb), if_pos hb]
      have := admmUpdateB_units u P.params hv P.X P.pensB pensB P.l2.2.1 P.constB hB s.F s.auxB s.dualB fun o ρ hfp i => by
        have hw := (feasPenalties_ok hfp).1
        simp only [feasPenalty_B] at hw
        exact isUnit_of_svd (hv _) ((C34_exact P.params hv hs s.F hl.2.1 nB).2.1 P.constB ρ hw i |>.2 (hf.1 hb ρ hw i))
      rw [eXu, eprm, epB, el2, ecB]
      simp only [unitS_F, unitS_auxB, unitS_dualB]
      rw [this]
      cases admmUpdateB P.params P.X P.pensB P.l2.2.1 P.constB s.F s.auxB s.dualB <;> simp only [Except.map, unitR, unitS, unitF]
    · rw [if_neg (euB ▸ hb), if_neg hb]; simp only [Except.map]
  have eC : ∀ t, (P.updC = true → FixedC P t.F) → sweepC Q (unitS u t) = unitS u (sweepC P t) := by
    intro t hc
    unfold sweepC
    by_cases h : P.updC = true
    · rw [if_pos (euC.trans h), if_pos h]
      have := admmUpdateC_units u P.params hv P.X P.pensC pensC P.l2.2.2 hC t.F t.auxC t.dualC (by
        rw [feasPenalty_C]
        exact isUnit_of_svd (hv _) ((C34_exact P.params hv hs t.F hl.2.2 nC).2.2.2 (hc h)))
      rw [eXu, eprm, epC, el2]
      simp only [unitS_F, unitS_auxC, unitS_dualC]
      rw [this]
      simp only [unitM, unitS, unitF]
    · rw [if_neg (euC ▸ h), if_neg h]
  have eA : ∀ t, (P.updA = true → FixedA P t.F) → (sweepA Q (unitS u t)).map Prod.fst = (sweepA P t).map fun x => unitS u x.1 := by
    intro t ha
    unfold sweepA
    by_cases h : P.updA = true
    · rw [if_pos (euA.trans h), if_pos h]
      have := admmUpdateA_units u P.params hv P.X P.pensA pensA P.l2.1 P.constA hA t.F t.auxA t.dualA fun o ρ hfp i => by
        have hw := (feasPenalties_ok hfp).1
        simp only [feasPenalty_A] at hw
        exact isUnit_of_svd (hv _) ((C34_exact P.params hv hs t.F hl.1 nA).1 P.constA ρ hw i |>.2 (ha h ρ hw i))
      rw [eXu, eprm, epA, el2, ecA]
      simp only [unitS_F, unitS_auxA, unitS_dualA]
      rw [this]
      cases admmUpdateA P.params P.X P.pensA P.l2.1 P.constA t.F t.auxA t.dualA <;> simp only [Except.map, unitM, unitS, unitF]
    · rw [if_neg (euA ▸ h), if_neg h]; simp only [Except.map]
  unfold sweep
  rw [eB]
  cases hb : sweepB P s with
  | error e => simp only [Except.map, Except.bind]
  | ok t =>
    obtain ⟨h1, h2⟩ := hf.2 t hb
    simp only [Except.map, Except.bind]
    rw [eC t h1]
    exact eA _ h2

theorem sse_units (u : Units) (X : Ragged I K J) (F : Factors I K R J) : sse (fun i => u.data • X i) (unitF u F) = u.data ^ 2 * sse X F := by
  have : ∀ i j k, (unitF u F).entry i j k = u.data * F.entry i j k := by
    intro i j k
    unfold Factors.entry
    rw [mul_sum]
    refine sum_congr rfl fun r _ => ?_
    simp only [unitF, Matrix.smul_apply, smul_eq_mul, Units.data]
    ring
  simp only [sse, this, mul_sum]
  refine sum_congr rfl fun i _ => sum_congr rfl fun j _ => sum_congr rfl fun k _ => ?_
  show (u.data * X i j k - _) ^ 2 = _
  ring

theorem Units.data_pos (u : Units) : 0 < u.data := mul_pos (mul_pos u.posA u.posB) u.posC

theorem absorb_units (u : Units) (w : Option (Fin R → ℝ)) (F : Factors I K R J) : absorb w (unitF u F) = unitF u (absorb w F) := by
  simp only [absorb, unitF]
  congr 1
  ext i r
  show u.a * F.A i r * _ = u.a * (F.A i r * _)
  ring

theorem sqNorm_smul' (c : ℝ) (M : Matrix (Fin m) (Fin n) ℝ) : sqNorm (c • M) = c ^ 2 * sqNorm M := by
  simp only [sqNorm, mul_sum, Matrix.smul_apply, smul_eq_mul, mul_pow]

theorem ops_units (u : Units) (P : Problem I K R nA nB nC J) (hv : ValidSVD P.params) (hs : 0 ≤ P.params.scale)
    (hl : 0 ≤ P.l2.1 ∧ 0 ≤ P.l2.2.1 ∧ 0 ≤ P.l2.2.2) (ht : u.data = 1 ∨ P.l2 = (0, 0, 0)) (hA : ∀ p, UnitsA u P.constA (P.pensA p) (pensA p))
    (hB : ∀ p, UnitsB u (P.pensB p) (pensB p)) (hC : ∀ p, UnitsC u (P.pensC p) (pensC p)) :
    OpsMap (aoOps P) (aoOps (unitP u P pensA pensB pensC)) none none (unitS u) id fun k s => ∀ t < k, ∀ st, sweeps' (aoOps P) t s = .ok st → Fixed P st := by
  have hrel : ∀ s, (aoOps (unitP u P pensA pensB pensC)).relError (unitS u s) none = (aoOps P).relError s none := by
    intro s
    rw [relError_direct, relError_direct, show absorb (unitS u s).weights (unitS u s).F = _ from absorb_units u s.weights s.F,
      show sse (unitP u P pensA pensB pensC).X _ = _ from sse_units u P.X _, show rootSumSq (unitP u P pensA pensB pensC).X = _ from rootSumSq_smul u.data_pos P.X,
      Real.sqrt_mul (sq_nonneg _), Real.sqrt_sq u.data_pos.le, div_units u.data_pos]
  have hsw := fun s h => sweep_units u P hv hs hl hA hB hC s h
  refine ⟨fun k s hf x i hx => ⟨fun t ht st hst => hf (t + 1) (by omega) st ?_, ?_⟩, fun k s hf e he => ?_, fun _ s _ => ?_, fun _ s _ tol => rfl, fun _ s _ => hrel s,
    fun _ s _ => ?_⟩
  · rw [sweeps', hx]; exact hst
  · have := hsw s (hf 0 (by omega) s rfl)
    rw [show sweep P s = .ok (x, i) from hx] at this
    cases h : sweep (unitP u P pensA pensB pensC) (unitS u s) with
    | error e => rw [h] at this; cases this
    | ok y =>
      obtain ⟨y, j⟩ := y
      rw [h] at this
      simp only [Except.map, Except.ok.injEq] at this
      subst this
      exact ⟨j, h, by rw [relError_round h, hrel, relError_round hx]⟩
  · have := hsw s (hf 0 (by omega) s rfl)
    rw [show sweep P s = .error e from he] at this
    cases h : sweep (unitP u P pensA pensB pensC) (unitS u s) with
    | error e' => rw [h] at this; simp only [Except.map, Except.error.injEq] at this; rw [← this]; exact h
    | ok y => rw [h] at this; cases this
  · simp only [aoOps, feasibilityGaps, id]
    congr 2
    · funext p; exact matGap_units u.posA _ _
    · funext p; exact raggedGap_units u _ _
    · funext p; exact matGap_units u.posC _ _
  · simp only [aoOps, l2Penalty_eq]
    have e1 : sqNorm (unitS u s).F.A = u.a ^ 2 * sqNorm s.F.A := sqNorm_smul' u.a s.F.A
    have e2 : raggedSq (unitS u s).F.B = u.b ^ 2 * raggedSq s.F.B := by
      show ∑ i, sqNorm (u.b • s.F.B i) = u.b ^ 2 * ∑ i, sqNorm (s.F.B i)
      rw [mul_sum]
      exact sum_congr rfl fun i _ => sqNorm_smul' u.b _
    have e3 : sqNorm (unitS u s).F.C = u.c ^ 2 * sqNorm s.F.C := sqNorm_smul' u.c s.F.C
    have e4 : ∀ p, (pensA p).value (unitS u s).F.A = (P.pensA p).value s.F.A := fun p => (hA p).1 _
    have e5 : ∀ p, (pensB p).value (unitS u s).F.B = (P.pensB p).value s.F.B := fun p => (hB p).1 _
    have e6 : ∀ p, (pensC p).value (unitS u s).F.C = (P.pensC p).value s.F.C := fun p => (hC p).1 _
    have k1 : (u.b * u.c) ^ 2 * P.l2.1 * (u.a ^ 2 * sqNorm s.F.A) = P.l2.1 * sqNorm s.F.A := by
      rcases ht with h | h
      · calc _ = u.data ^ 2 * (P.l2.1 * sqNorm s.F.A) := by simp only [Units.data]; ring
          _ = _ := by rw [h]; ring
      · rw [h]; ring
    have k2 : (u.a * u.c) ^ 2 * P.l2.2.1 * (u.b ^ 2 * raggedSq s.F.B) = P.l2.2.1 * raggedSq s.F.B := by
      rcases ht with h | h
      · calc _ = u.data ^ 2 * (P.l2.2.1 * raggedSq s.F.B) := by simp only [Units.data]; ring
          _ = _ := by rw [h]; ring
      · rw [h]; ring
    have k3 : (u.a * u.b) ^ 2 * P.l2.2.2 * (u.c ^ 2 * sqNorm s.F.C) = P.l2.2.2 * sqNorm s.F.C := by
      rcases ht with h | h
      · calc _ = u.data ^ 2 * (P.l2.2.2 * sqNorm s.F.C) := by simp only [Units.data]; ring
          _ = _ := by rw [h]; ring
      · rw [h]; ring
    simp only [unitP, e1, e2, e3, e4, e5, e6, k1, k2, k3]

/-- C96: in other units a call returns the factorization, auxiliary and dual variables in these units, with the same diagnostics and the same output, or raises the
same exception, if the factors are determined in every iteration. Without ridge penalties all units are allowed; otherwise those that do not change the data. -/
theorem C96 (u : Units) (P : Problem I K R nA nB nC J) (hv : ValidSVD P.params) (hs : 0 ≤ P.params.scale)
    (hl : 0 ≤ P.l2.1 ∧ 0 ≤ P.l2.2.1 ∧ 0 ≤ P.l2.2.2) (ht : u.data = 1 ∨ P.l2 = (0, 0, 0)) (hA : ∀ p, UnitsA u P.constA (P.pensA p) (pensA p))
    (hB : ∀ p, UnitsB u (P.pensB p) (pensB p)) (hC : ∀ p, UnitsC u (P.pensC p) (pensC p)) (a : Args) (init : AOState I K R nA nB nC J)
    (hf : ∀ t : ℕ, (t : ℤ) < a.nIterMax → ∀ o, cmfAoadmm P (plain t) init = .ok o → Fixed P o.st) :
    cmfAoadmm (unitP u P pensA pensB pensC) a (unitS u init) = (cmfAoadmm P a init).map fun o => ⟨unitS u o.st, o.diag, o.log⟩ := by
  have := fit_map (ops_units u P hv hs hl ht hA hB hC) a init fun t ht st hst => by
    obtain ⟨o, ho, hos⟩ := fit_plain (aoOps P) none init st t (by rw [sweeps_eq']; exact hst)
    rw [← hos]
    exact hf t (by omega) o ho
  rw [show (Output.map (unitS u) id : Output (AOState I K R nA nB nC J) → _) = fun o => ⟨unitS u o.st, o.diag, o.log⟩ from
    funext (Output.map_id (unitS u))] at this
  exact this

/-! ### The penalties of the package -/

/-- A penalty in other units: `c` is the factor of the matrix, `κ` that of the feasibility penalty. Bounds and radii are multiplied with `c`, strengths of L1 and total
variation penalties with `c κ`, the matrix of a generalized L2 penalty with `κ`. -/
noncomputable def stdUnits (c κ : ℝ) : StdPen m R → StdPen m R
  | .nonNeg => .nonNeg
  | .box lo hi => .box (lo.map (c * ·)) (hi.map (c * ·))
  | .l1 γ nn => .l1 (c * κ * γ) nn
  | .l2Ball b nn => .l2Ball (c * b) nn
  | .genL2 M d => .genL2 (κ • M) ⟨d.U, κ • d.s, d.Vh⟩
  | .tv solver α β => .tv solver (c * κ * α) (c * κ * β)

/-- Penalties that are not constraints appear in the reported loss without the factor of the data, so this factor has to be 1; the solver of the total variation penalty
has to be homogeneous. -/
def UnitsOK (c κ : ℝ) : StdPen m R → Prop
  | .l1 γ _ => c ^ 2 * κ = 1 ∨ γ = 0
  | .genL2 _ _ => c ^ 2 * κ = 1
  | .tv solver _ _ => c ^ 2 * κ = 1 ∧ ∀ Y t, solver (c • Y) (c * t) = c • solver Y t
  | _ => True

theorem clip_units {c : ℝ} (hc : 0 < c) (lo hi : Option ℝ) (x : ℝ) : clip (lo.map (c * ·)) (hi.map (c * ·)) (c * x) = c * clip lo hi x := by
  cases lo <;> cases hi <;> simp only [clip, Option.map_none, Option.map_some]
  · rw [mul_min_of_nonneg _ _ hc.le]
  · rw [mul_max_of_nonneg _ _ hc.le]
  · rw [mul_min_of_nonneg _ _ hc.le, mul_max_of_nonneg _ _ hc.le]

theorem clip0_units {c : ℝ} (hc : 0 < c) (x : ℝ) : clip (some 0) none (c * x) = c * clip (some 0) none x := by
  have := clip_units hc (some 0) none x
  simpa only [Option.map_some, Option.map_none, mul_zero] using this

theorem sgn_units {c : ℝ} (hc : 0 < c) (x : ℝ) : sgn (c * x) = sgn x := by
  unfold sgn
  simp only [mul_neg_iff, hc, not_lt.2 hc.le, true_and, false_and, or_false, mul_eq_zero, hc.ne', false_or]

theorem soft_units {c : ℝ} (hc : 0 < c) (x t : ℝ) : sgn (c * x) * clip (some 0) none (|c * x| - c * t) = c * (sgn x * clip (some 0) none (|x| - t)) := by
  rw [sgn_units hc, abs_mul, abs_of_pos hc, ← mul_sub, clip0_units hc]
  ring

theorem std_value_units {c κ : ℝ} (hc : 0 < c) (p : StdPen m R) (hp : UnitsOK c κ p) (X : Matrix (Fin m) (Fin R) ℝ) :
    (stdUnits c κ p).value (c • X) = p.value X := by
  have habs : ∀ x : ℝ, |c * x| = c * |x| := fun x => by rw [abs_mul, abs_of_pos hc]
  cases p with
  | nonNeg => rfl
  | box => rfl
  | l2Ball => rfl
  | l1 γ nn =>
    show (∑ i, ∑ r, |c * X i r|) * (c * κ * γ) = (∑ i, ∑ r, |X i r|) * γ
    simp only [habs, ← mul_sum]
    rcases hp with h | h
    · calc _ = (∑ i, ∑ r, |X i r|) * γ * (c ^ 2 * κ) := by ring
        _ = _ := by rw [h, mul_one]
    · rw [h]; ring
  | genL2 M d =>
    show ((c • X).transpose * (κ • M) * (c • X)).trace = (X.transpose * M * X).trace
    simp only [transpose_smul, Matrix.smul_mul, Matrix.mul_smul, smul_smul, Matrix.trace_smul, smul_eq_mul]
    rw [show c * (κ * c) = 1 by rw [← show c ^ 2 * κ = 1 from hp]; ring, one_mul]
  | tv solver α β =>
    have hk : c ^ 2 * κ = 1 := hp.1
    have hne : c * κ ≠ 0 := fun h => by
      have : c * (c * κ) = 1 := by rw [← hk]; ring
      rw [h, mul_zero] at this
      exact zero_ne_one this
    show (if c * κ * β ≠ 0 then c * κ * α * (∑ i : Fin (m - 1), ∑ r, |c * X ⟨i + 1, by omega⟩ r - c * X ⟨i, by omega⟩ r|) + c * κ * β * ∑ i, ∑ r, |c * X i r|
      else c * κ * α * (∑ i : Fin (m - 1), ∑ r, |c * X ⟨i + 1, by omega⟩ r - c * X ⟨i, by omega⟩ r|)) =
      (if β ≠ 0 then α * (∑ i : Fin (m - 1), ∑ r, |X ⟨i + 1, by omega⟩ r - X ⟨i, by omega⟩ r|) + β * ∑ i, ∑ r, |X i r|
      else α * ∑ i : Fin (m - 1), ∑ r, |X ⟨i + 1, by omega⟩ r - X ⟨i, by omega⟩ r|)
    simp only [← mul_sub, habs, ← mul_sum, ne_eq, mul_eq_zero, mul_eq_zero.not.1 hne, false_or]
    have k : ∀ y s : ℝ, c * κ * y * (c * s) = y * s := fun y s => by
      calc _ = y * s * (c ^ 2 * κ) := by ring
        _ = _ := by rw [hk, mul_one]
    simp only [k]

theorem std_mat_units {c κ : ℝ} (hc : 0 < c) (hκ : 0 < κ) (p : StdPen m R) (hp : UnitsOK c κ p) (X : Matrix (Fin m) (Fin R) ℝ) (ρ : ℝ) (aux : Matrix (Fin m) (Fin R) ℝ) :
    (stdUnits c κ p).mat (c • X) (κ * ρ) (c • aux) = c • p.mat X ρ aux := by
  have hdiv : ∀ y, c * κ * y / (κ * ρ) = c * (y / ρ) := fun y => by
    rw [show c * κ * y = κ * (c * y) by ring, mul_div_mul_left _ _ hκ.ne', mul_div_assoc]
  cases p with
  | nonNeg => funext i r; exact clip0_units hc (X i r)
  | box lo hi => funext i r; exact clip_units hc lo hi (X i r)
  | l1 γ nn =>
    funext i r
    show (if nn = true then clip _ _ (c * X i r - c * κ * γ / (κ * ρ)) else sgn (c * X i r) * clip _ _ (|c * X i r| - c * κ * γ / (κ * ρ))) =
      c * (if nn = true then clip _ _ (X i r - γ / ρ) else sgn (X i r) * clip _ _ (|X i r| - γ / ρ))
    rw [hdiv]
    cases nn
    · exact soft_units hc _ _
    · simp only [if_true]
      rw [← mul_sub, clip0_units hc]
  | l2Ball b nn =>
    funext i r
    have e : ∀ i r, (if nn = true then clip (some 0) none (c * X i r) else c * X i r) = c * (if nn = true then clip (some 0) none (X i r) else X i r) := by
      intro i r
      cases nn
      · rfl
      · exact clip0_units hc _
    show (if nn = true then clip (some 0) none (c * X i r) else c * X i r) * (c * b) /
        clip (some (c * b)) none (√(∑ i, (if nn = true then clip (some 0) none (c * X i r) else c * X i r) ^ 2)) =
      c * ((if nn = true then clip (some 0) none (X i r) else X i r) * b / clip (some b) none (√(∑ i, (if nn = true then clip (some 0) none (X i r) else X i r) ^ 2)))
    simp only [e, mul_pow, ← mul_sum]
    rw [Real.sqrt_mul (sq_nonneg c), Real.sqrt_sq hc.le, show clip (some (c * b)) none (c * _) = c * clip (some b) none _ from clip_units hc (some b) none _, mul_assoc,
      mul_div_mul_left _ _ hc.ne']
    ring
  | genL2 M d =>
    show Matrix.of (fun i j => d.U i j * (1 / (κ * d.s j + 1 / 2 * (κ * ρ)))) * (d.U.transpose * ((1 / 2 * (κ * ρ)) • (c • X))) =
      c • (Matrix.of (fun i j => d.U i j * (1 / (d.s j + 1 / 2 * ρ))) * (d.U.transpose * ((1 / 2 * ρ) • X)))
    have e : (Matrix.of fun i j => d.U i j * (1 / (κ * d.s j + 1 / 2 * (κ * ρ)))) = κ⁻¹ • Matrix.of fun i j => d.U i j * (1 / (d.s j + 1 / 2 * ρ)) := by
      ext i j
      simp only [of_apply, Matrix.smul_apply, smul_eq_mul]
      rw [show κ * d.s j + 1 / 2 * (κ * ρ) = κ * (d.s j + 1 / 2 * ρ) by ring, one_div, mul_inv, one_div]
      ring
    rw [e]
    simp only [Matrix.smul_mul, Matrix.mul_smul, smul_smul]
    congr 1
    field_simp
  | tv solver α β =>
    have hk : c ^ 2 * κ = 1 := hp.1
    have e : ∀ i r, solver (c • X).transpose (c * κ * α * 2 / (κ * ρ)) r i = c * solver X.transpose (α * 2 / ρ) r i := by
      intro i r
      rw [show c * κ * α * 2 / (κ * ρ) = c * (α * 2 / ρ) by rw [mul_assoc (c * κ)]; exact hdiv _, transpose_smul, hp.2]
      rfl
    have hz : c * κ * β ≠ 0 ↔ β ≠ 0 := by
      rw [ne_eq, mul_eq_zero, or_iff_right (mul_ne_zero hc.ne' hκ.ne')]
    funext i r
    show (if c * κ * β ≠ 0 then sgn (solver (c • X).transpose (c * κ * α * 2 / (κ * ρ)) r i) *
        clip _ _ (|solver (c • X).transpose (c * κ * α * 2 / (κ * ρ)) r i| - c * κ * β / (κ * ρ)) else solver (c • X).transpose (c * κ * α * 2 / (κ * ρ)) r i) =
      c * (if β ≠ 0 then sgn (solver X.transpose (α * 2 / ρ) r i) * clip _ _ (|solver X.transpose (α * 2 / ρ) r i| - β / ρ) else solver X.transpose (α * 2 / ρ) r i)
    rw [e, hdiv]
    by_cases hb : β ≠ 0
    · rw [if_pos (hz.2 hb), if_pos hb]
      exact soft_units hc _ _
    · rw [if_neg (hz.not.2 hb), if_neg hb]

theorem unitsA_std (u : Units) (co : Bool) (p : StdPen I R) (hp : UnitsOK u.a ((u.b * u.c) ^ 2) p) : UnitsA u co p.toA (stdUnits u.a ((u.b * u.c) ^ 2) p).toA := by
  have hκ : 0 < (u.b * u.c) ^ 2 := pow_pos (mul_pos u.posB u.posC) 2
  refine ⟨std_value_units u.posA p hp, fun _ => std_mat_units u.posA hκ p hp, fun _ => ?_⟩
  cases p with
  | nonNeg => exact fun y ρ aux => congrFun (std_mat_units (m := 1) u.posA hκ .nonNeg hp (fun _ => y) ρ fun _ => aux) 0
  | box lo hi => exact fun y ρ aux => congrFun (std_mat_units (m := 1) u.posA hκ (.box lo hi) hp (fun _ => y) ρ fun _ => aux) 0
  | l1 γ nn => exact fun y ρ aux => congrFun (std_mat_units (m := 1) u.posA hκ (.l1 γ nn) hp (fun _ => y) ρ fun _ => aux) 0
  | l2Ball b nn => trivial
  | genL2 M d => trivial
  | tv so α β => trivial

theorem unitsC_std (u : Units) (p : StdPen K R) (hp : UnitsOK u.c ((u.a * u.b) ^ 2) p) : UnitsC u p.toC (stdUnits u.c ((u.a * u.b) ^ 2) p).toC :=
  ⟨std_value_units u.posC p hp, std_mat_units u.posC (pow_pos (mul_pos u.posA u.posB) 2) p hp⟩

theorem unitsB_std (u : Units) (p : (i : Fin I) → StdPen (J i) R) (hp : ∀ i, UnitsOK u.b ((u.a * u.c) ^ 2) (p i)) :
    UnitsB u (StdPen.toB p) (StdPen.toB fun i => stdUnits u.b ((u.a * u.c) ^ 2) (p i)) := by
  refine ⟨fun X => ?_, fun X ρ aux => ?_⟩
  · show ∑ i, (stdUnits u.b ((u.a * u.c) ^ 2) (p i)).value (u.b • X i) = ∑ i, (p i).value (X i)
    exact sum_congr rfl fun i _ => std_value_units u.posB (p i) (hp i) (X i)
  · have e : (unitAux u aux).toMats = fun i => u.b • aux.toMats i := by
      cases aux with
      | mats Y => rfl
      | p2 a => funext i; exact Matrix.mul_smul _ _ _
    show AuxB.mats (fun i => (stdUnits u.b ((u.a * u.c) ^ 2) (p i)).mat (u.b • X i) ((u.a * u.c) ^ 2 * ρ i) ((unitAux u aux).toMats i)) = _
    rw [e]
    exact congrArg AuxB.mats (funext fun i => std_mat_units u.posB (pow_pos (mul_pos u.posA u.posC) 2) (p i) (hp i) (X i) (ρ i) (aux.toMats i))

/-- PARAFAC2 in other units is PARAFAC2, if multiples of a matrix have the same singular vectors: the bases stay. -/
theorem unitsB_parafac2 (u : Units) (svd : (i : Fin I) → Matrix (Fin (J i)) (Fin R) ℝ → SVD (J i) R R)
    (hsvd : ∀ i (c : ℝ) M, 0 < c → (svd i (c • M)).U * (svd i (c • M)).Vh = (svd i M).U * (svd i M).Vh) (n : ℕ) (ub uc : Bool) :
    UnitsB u (.parafac2 svd n ub uc) (.parafac2 svd n ub uc) := by
  refine ⟨fun X => rfl, fun X ρ aux => ?_⟩
  have hκ : (u.a * u.c) ^ 2 ≠ 0 := pow_ne_zero 2 (mul_ne_zero u.posA.ne' u.posC.ne')
  have hb : ∀ D, p2Bases svd (fun i => u.b • X i) (u.b • D) = p2Bases svd X D := by
    intro D
    funext i
    simp only [p2Bases]
    rw [transpose_smul, Matrix.mul_smul, Matrix.smul_mul, smul_smul, hsvd i _ _ (mul_pos u.posB u.posB)]
  have hc : ∀ P, p2Coord (fun i => u.b • X i) (fun i => (u.a * u.c) ^ 2 * ρ i) P = u.b • p2Coord X ρ P := by
    intro P
    simp only [p2Coord, mul_smul, Matrix.mul_smul, Matrix.smul_mul, ← smul_sum, ← mul_sum]
    rw [smul_smul, smul_smul, smul_smul]
    congr 1
    rw [one_div, mul_inv, one_div]
    linear_combination (u.b * (∑ i, ρ i)⁻¹) * inv_mul_cancel₀ hκ
  have hu : ∀ (k : ℕ) (a : P2Aux I J R), p2Update svd ub uc (fun i => u.b • X i) (fun i => (u.a * u.c) ^ 2 * ρ i) k ⟨a.bases, u.b • a.coord⟩ =
      ⟨(p2Update svd ub uc X ρ k a).bases, u.b • (p2Update svd ub uc X ρ k a).coord⟩ := by
    intro k
    induction k with
    | zero => intro a; rfl
    | succ k ih =>
      intro a
      cases ub <;> cases uc <;> simp only [p2Update, hb, hc, if_true, if_false, Bool.not_true, Bool.not_false, Bool.or_true, Bool.or_false, Bool.or_self,
        Bool.false_eq_true]
      exact ih ⟨p2Bases svd X a.coord, p2Coord X ρ (p2Bases svd X a.coord)⟩
  cases aux with
  | mats Y => rfl
  | p2 a => exact congrArg AuxB.p2 (hu n a)

/-- Every SVD function can be replaced by one with this property: decompose the matrix divided by its norm. -/
theorem exists_homogeneous_svd {m k n : ℕ} (svd : Matrix (Fin m) (Fin n) ℝ → SVD m k n) (hv : ∀ M, (svd M).Valid M) :
    ∃ svd' : Matrix (Fin m) (Fin n) ℝ → SVD m k n, (∀ M, (svd' M).Valid M) ∧
      ∀ (c : ℝ) M, 0 < c → (svd' (c • M)).U * (svd' (c • M)).Vh = (svd' M).U * (svd' M).Vh := by
  refine ⟨fun M => ⟨(svd ((matNorm M)⁻¹ • M)).U, matNorm M • (svd ((matNorm M)⁻¹ • M)).s, (svd ((matNorm M)⁻¹ • M)).Vh⟩, fun M => ⟨?_, ?_, ?_, fun i => ?_⟩, fun c M hc => ?_⟩
  · have h : (svd ((matNorm M)⁻¹ • M)).U * Matrix.diagonal (matNorm M • (svd ((matNorm M)⁻¹ • M)).s) * (svd ((matNorm M)⁻¹ • M)).Vh = matNorm M • ((matNorm M)⁻¹ • M) := by
      rw [Matrix.diagonal_smul, Matrix.mul_smul, Matrix.smul_mul, (hv _).eq]
    refine h.trans ?_
    by_cases h0 : matNorm M = 0
    · have hM : M = 0 := by
        apply sqNorm_eq_zero
        exact (Real.sqrt_eq_zero (sum_nonneg fun i _ => sum_nonneg fun j _ => sq_nonneg _)).1 h0
      rw [hM, smul_zero, smul_zero]
    · rw [smul_smul, mul_inv_cancel₀ h0, one_smul]
  · exact (hv _).left
  · exact (hv _).right
  · exact mul_nonneg (Real.sqrt_nonneg _) ((hv _).nonneg i)
  · have : (matNorm (c • M))⁻¹ • (c • M) = (matNorm M)⁻¹ • M := by
      rw [matNorm_smul hc, smul_smul, mul_inv, mul_comm c⁻¹, mul_assoc, inv_mul_cancel₀ hc.ne', mul_one]
    simp only [this]

/-- A penalty of the package on mode 1 in other units. -/
noncomputable def pkgUnits (u : Units) : PkgB I R J → PkgB I R J
  | .std p => .std fun i => stdUnits u.b ((u.a * u.c) ^ 2) (p i)
  | .parafac2 svd n ub uc => .parafac2 svd n ub uc

/-- The conditions for penalties of the package on mode 1. -/
def PkgUnitsOK (u : Units) : PkgB I R J → Prop
  | .std p => ∀ i, UnitsOK u.b ((u.a * u.c) ^ 2) (p i)
  | .parafac2 svd _ _ _ => ∀ i (c : ℝ) M, 0 < c → (svd i (c • M)).U * (svd i (c • M)).Vh = (svd i M).U * (svd i M).Vh

/-- A case of C96: penalties of the package. -/
theorem C96_package (u : Units) (P : Problem I K R nA nB nC J) (hv : ValidSVD P.params) (hs : 0 ≤ P.params.scale)
    (hl : 0 ≤ P.l2.1 ∧ 0 ≤ P.l2.2.1 ∧ 0 ≤ P.l2.2.2) (ht : u.data = 1 ∨ P.l2 = (0, 0, 0)) (pA : Fin nA → StdPen I R) (pB : Fin nB → PkgB I R J)
    (pC : Fin nC → StdPen K R) (hA : P.pensA = fun p => (pA p).toA) (hB : P.pensB = fun p => (pB p).pen) (hC : P.pensC = fun p => (pC p).toC)
    (oA : ∀ p, UnitsOK u.a ((u.b * u.c) ^ 2) (pA p)) (oB : ∀ p, PkgUnitsOK u (pB p)) (oC : ∀ p, UnitsOK u.c ((u.a * u.b) ^ 2) (pC p)) (a : Args)
    (init : AOState I K R nA nB nC J) (hf : ∀ t : ℕ, (t : ℤ) < a.nIterMax → ∀ o, cmfAoadmm P (plain t) init = .ok o → Fixed P o.st) :
    cmfAoadmm (unitP u P (fun p => (stdUnits u.a ((u.b * u.c) ^ 2) (pA p)).toA) (fun p => (pkgUnits u (pB p)).pen) fun p => (stdUnits u.c ((u.a * u.b) ^ 2) (pC p)).toC) a
      (unitS u init) = (cmfAoadmm P a init).map fun o => ⟨unitS u o.st, o.diag, o.log⟩ := by
  refine C96 u P hv hs hl ht (fun p => ?_) (fun p => ?_) (fun p => ?_) a init hf
  · rw [hA]; exact unitsA_std u _ _ (oA p)
  · rw [hB]
    have := oB p
    cases h : pB p with
    | std q => rw [h] at this; simp only [h]; exact unitsB_std u q this
    | parafac2 svd n ub uc => rw [h] at this; simp only [h]; exact unitsB_parafac2 u svd this n ub uc
  · rw [hC]; exact unitsC_std u _ (oC p)

/-- A case of C96: data in other units with non-negative factors. The same problem is solved with the data multiplied with `x`, and C is multiplied with `x`. -/
theorem C96_data {x : ℝ} (hx : 0 < x) (P : Problem I K R nA nB nC J) (hv : ValidSVD P.params) (hs : 0 ≤ P.params.scale) (hl : P.l2 = (0, 0, 0))
    (hA : P.pensA = fun _ => StdPen.nonNeg.toA) (hB : P.pensB = fun _ => StdPen.toB fun _ => .nonNeg) (hC : P.pensC = fun _ => StdPen.nonNeg.toC) (a : Args)
    (init : AOState I K R nA nB nC J) (hf : ∀ t : ℕ, (t : ℤ) < a.nIterMax → ∀ o, cmfAoadmm P (plain t) init = .ok o → Fixed P o.st) :
    cmfAoadmm { P with X := fun i => x • P.X i } a { init with F := ⟨init.F.A, init.F.B, x • init.F.C⟩, auxC := fun p => x • init.auxC p, dualC := fun p => x • init.dualC p } =
      (cmfAoadmm P a init).map fun o =>
        ⟨{ o.st with F := ⟨o.st.F.A, o.st.F.B, x • o.st.F.C⟩, auxC := fun p => x • o.st.auxC p, dualC := fun p => x • o.st.dualC p }, o.diag, o.log⟩ := by
  have h := C96_package ⟨1, 1, x, one_pos, one_pos, hx⟩ P hv hs (by rw [hl]; exact ⟨le_rfl, le_rfl, le_rfl⟩) (.inr hl) (fun _ => .nonNeg) (fun _ => .std fun _ => .nonNeg)
    (fun _ => .nonNeg) hA hB hC (fun _ => trivial) (fun _ _ => trivial) (fun _ => trivial) a init hf
  have eS : ∀ s : AOState I K R nA nB nC J, unitS ⟨1, 1, x, one_pos, one_pos, hx⟩ s =
      { s with F := ⟨s.F.A, s.F.B, x • s.F.C⟩, auxC := fun p => x • s.auxC p, dualC := fun p => x • s.dualC p } := by
    intro s
    have eB : ∀ y : AuxB I R J, unitAux ⟨1, 1, x, one_pos, one_pos, hx⟩ y = y := by
      intro y
      cases y <;> simp only [unitAux, one_smul]
    simp only [unitS, unitF, one_smul, eB]
  have eP : unitP ⟨1, 1, x, one_pos, one_pos, hx⟩ P (fun _ => StdPen.nonNeg.toA) (fun _ => StdPen.toB fun _ => .nonNeg) (fun _ => StdPen.nonNeg.toC) =
      { P with X := fun i => x • P.X i } := by
    simp only [unitP, Units.data, one_mul, hl, mul_zero, ← hA, ← hB, ← hC]
  rw [← eS, ← eP]
  exact h.trans (by simp only [eS])

/-- A concrete case: two components, PARAFAC2, non-negativity on A, ridge penalties and an L1 penalty on C; A is multiplied with 2 and C with 1/2. Then the
strength of the L1 penalty is doubled. -/
theorem C96_example : ∃ (P : Problem 1 1 2 1 1 1 (fun _ => 2)) (u : Units) (q : Fin 1 → PenC 1 2), ValidSVD P.params ∧ P.updA = true ∧ P.updB = true ∧ P.updC = true ∧ P.X ≠ 0 ∧
    u.a = 2 ∧ P.pensC = (fun _ => StdPen.toC (.l1 1 false)) ∧ q = (fun _ => StdPen.toC (.l1 2 false)) ∧
    ∀ a init, cmfAoadmm (unitP u P P.pensA P.pensB q) a (unitS u init) = (cmfAoadmm P a init).map fun o => ⟨unitS u o.st, o.diag, o.log⟩ := by
  obtain ⟨svd, hsvd⟩ := exists_svd_fun 2
  obtain ⟨svd', hsvd', hom⟩ := exists_homogeneous_svd svd hsvd
  let P : Problem 1 1 2 1 1 1 (fun _ => 2) :=
    { X := fun _ => fun _ _ => 1, pensA := fun _ => StdPen.toA .nonNeg, pensB := fun _ => .parafac2 (fun _ => svd') 5 true true,
      pensC := fun _ => StdPen.toC (.l1 1 false), l2 := (1, 1, 1), params := ⟨svd, 5, none, 1⟩, constA := false, constB := false, updA := true, updB := true, updC := true }
  refine ⟨P, ⟨2, 1, 1 / 2, two_pos, one_pos, by norm_num⟩, fun _ => StdPen.toC (.l1 2 false), hsvd, rfl, rfl, rfl,
    fun h => one_ne_zero (congrFun (congrFun (congrFun h 0) 0) 0), rfl, rfl, rfl, fun a init => ?_⟩
  have h := C96_package ⟨2, 1, 1 / 2, two_pos, one_pos, by norm_num⟩ P hsvd zero_le_one ⟨zero_le_one, zero_le_one, zero_le_one⟩ (.inl (by norm_num [Units.data]))
    (fun _ => .nonNeg) (fun _ => .parafac2 (fun _ => svd') 5 true true) (fun _ => .l1 1 false) rfl rfl rfl (fun _ => trivial) (fun _ _ c M hc => hom c M hc)
    (fun _ => .inl (by norm_num)) a init
    fun _ _ _ _ => ⟨fun _ _ _ _ => .inl one_pos, fun _ _ => ⟨fun _ => .inl one_pos, fun _ _ _ _ => .inl one_pos⟩⟩
  have e : (fun _ : Fin 1 => StdPen.toC (stdUnits (m := 1) (R := 2) (1 / 2 : ℝ) ((2 * 1) ^ 2) (.l1 1 false))) = fun _ => StdPen.toC (.l1 2 false) := by
    funext _
    rw [stdUnits]
    norm_num
  rw [← e]
  exact h

end Verif.Props
