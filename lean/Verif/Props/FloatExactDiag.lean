import Mathlib.Algebra.BigOperators.Fin
import Verif.Props.FloatExact
import Verif.Props.FloatRun

/-!
# The exact linear systems and diagnostics as a case of those with floating-point numbers

With the exact operations of the real numbers as library, the formulas of `Verif/FloatFit/Full.lean` are those of the exact model.
-/

namespace Verif.Props

open Verif.ADMM Verif.FloatFit Verif.Loop Verif.Penalties Verif.Raise Verif.Spec Finset

/-- The exact library, with a given function for the singular value decomposition. -/
noncomputable def exactLib (svd : (n : ℕ) → Matrix (Fin n) (Fin n) ℝ → SVD n n n) : Lib ℝ where
  lit n := n
  half := 1 / 2
  negInf := 0
  abs x := |x|
  sqrt := Real.sqrt
  sumV _ v := ∑ i, v i
  sumM _ _ X := ∑ i, ∑ j, X i j
  dot _ _ _ X Y := fun i j => ∑ l, X i l * Y l j
  dotV _ _ v Y := fun j => ∑ l, v l * Y l j
  trace _ X := ∑ i, X i i
  norm _ _ X := matNorm (Matrix.of X)
  svd n G := .ok ((svd n G).U, (svd n G).s, (svd n G).Vh)

theorem foldl_add_eq : ∀ (l : List ℝ) (a : ℝ), l.foldl (· + ·) a = a + l.sum
  | [], a => by simp
  | x :: l, a => by rw [List.foldl_cons, foldl_add_eq l, List.sum_cons, add_assoc]

theorem pySum_eq {n : ℕ} (f : Fin n → ℝ) : pySum f = ∑ i, f i := by
  unfold pySum
  rw [foldl_add_eq, zero_add, List.sum_ofFn]

theorem pyMaxF_eq : ∀ (l : List ℝ) (a : ℝ), pyMaxF a l = l.foldl max a
  | [], a => rfl
  | x :: l, a => by
    unfold pyMaxF
    rw [List.foldl_cons, List.foldl_cons]
    have : (if a < x then x else a) = max a x := by
      split
      · rename_i h; exact (max_eq_right h.le).symm
      · rename_i h; exact (max_eq_left (not_lt.1 h)).symm
    rw [this]
    exact pyMaxF_eq l _

section
variable {I K R n nA nB nC : ℕ} {J : Fin I → ℕ} (svd : (n : ℕ) → Matrix (Fin n) (Fin n) ℝ → SVD n n n)

theorem crossAF_exact (F : FFact ℝ I K R J) (i : Fin I) : crossAF (exactLib svd) F i = crossA (ofFF F) i := by
  rfl

theorem crossBF_exact (F : FFact ℝ I K R J) (i : Fin I) : crossBF (exactLib svd) F i = crossB (ofFF F) i := by
  rfl

theorem crossCF_exact (F : FFact ℝ I K R J) : crossCF (exactLib svd) F = crossC (ofFF F) := by
  funext r s
  simp only [crossCF, pySum_eq, crossC, Matrix.sum_apply]
  rfl

theorem rhsAF_exact (X : Ragged I K J) (F : FFact ℝ I K R J) (i : Fin I) : rhsAF (exactLib svd) X F i = rhsA X (ofFF F) i := by
  unfold rhsAF rhsA
  split
  · rfl
  · rfl

theorem rhsBF_exact (X : Ragged I K J) (F : FFact ℝ I K R J) (i : Fin I) : rhsBF (exactLib svd) X F i = rhsB X (ofFF F) i := by
  rfl

theorem rhsCF_exact (X : Ragged I K J) (F : FFact ℝ I K R J) : rhsCF (exactLib svd) X F = rhsC X (ofFF F) := by
  funext l r
  simp only [rhsCF, pySum_eq, rhsC, Matrix.sum_apply]
  rfl

theorem ridgeF_exact (G : Matrix (Fin R) (Fin R) ℝ) (ρ : ℝ) (n : ℕ) (l2 : ℝ) : ridgeF (exactLib svd) G ρ n l2 = addRidge G ρ n l2 := by
  funext r s
  simp only [ridgeF, eyeF, exactLib, addRidge, Matrix.add_apply, Matrix.smul_apply, Matrix.one_apply, smul_eq_mul]
  ring

theorem feasPensF_exact (scale : ℝ) (const : Bool) (G : Fin I → Matrix (Fin R) (Fin R) ℝ) : feasPensF (exactLib svd) scale const G = feasPenalties scale const G := by
  unfold feasPensF feasPenalties
  have : (fun i => (exactLib svd).half * (exactLib svd).trace R (G i) * scale) = fun i => feasPenalty scale (G i) := rfl
  rw [this]
  cases const with
  | false => rfl
  | true =>
    simp only [if_true]
    unfold vecMax
    cases List.ofFn fun i => feasPenalty scale (G i) with
    | nil => rfl
    | cons a l => simp only [pyMaxF_eq]; rfl

/-- The linear systems of the A-update. -/
theorem prepAF_exact (P : RProblem I K R nA nB nC J) (a : Args) (hsvd : P.params.svd = svd R) (F : FFact ℝ I K R J) :
    prepAF (exactLib svd) P.X P.params.scale P.l2.1 P.constA F = (exactEnv P a).prepA F := by
  unfold prepAF exactEnv
  simp only
  rw [funext fun i => crossAF_exact svd F i, feasPensF_exact, hsvd]
  cases feasPenalties P.params.scale P.constA (crossA (ofFF F)) with
  | error e => rfl
  | ok ρ =>
    simp only [Except.map]
    have : (fun i => (exactLib svd).svd R (ridgeF (exactLib svd) (crossA (ofFF F) i) (ρ.2 i) nA P.l2.1))
        = fun i => .ok ((svd R (addRidge (crossA (ofFF F) i) (ρ.2 i) nA P.l2.1)).U, (svd R (addRidge (crossA (ofFF F) i) (ρ.2 i) nA P.l2.1)).s,
          (svd R (addRidge (crossA (ofFF F) i) (ρ.2 i) nA P.l2.1)).Vh) := funext fun i => by rw [ridgeF_exact]; rfl
    rw [this, seqPi_of_ok fun i => rfl]
    simp only [Except.ok.injEq, Prod.mk.injEq, true_and]
    funext z
    congr 1
    funext i s
    simp only [rhsAF_exact svd, pySum_eq]
    simp only [exactLib, svdSolveRow, colDiv, Matrix.vecMul, dotProduct, Matrix.of_apply, Pi.add_apply, Pi.smul_apply, smul_eq_mul, Finset.sum_apply]

/-- The linear systems of the B-update. -/
theorem prepBF_exact (P : RProblem I K R nA nB nC J) (a : Args) (hsvd : P.params.svd = svd R) (F : FFact ℝ I K R J) :
    prepBF (exactLib svd) P.X P.params.scale P.l2.2.1 P.constB F = (exactEnv P a).prepB F := by
  unfold prepBF exactEnv
  simp only
  rw [funext fun i => crossBF_exact svd F i, feasPensF_exact, hsvd]
  cases feasPenalties P.params.scale P.constB (crossB (ofFF F)) with
  | error e => rfl
  | ok ρ =>
    simp only [Except.map]
    have : (fun i => (exactLib svd).svd R (ridgeF (exactLib svd) (crossB (ofFF F) i) (ρ.2 i) nB P.l2.2.1))
        = fun i => .ok ((svd R (addRidge (crossB (ofFF F) i) (ρ.2 i) nB P.l2.2.1)).U, (svd R (addRidge (crossB (ofFF F) i) (ρ.2 i) nB P.l2.2.1)).s,
          (svd R (addRidge (crossB (ofFF F) i) (ρ.2 i) nB P.l2.2.1)).Vh) := funext fun i => by rw [ridgeF_exact]; rfl
    rw [this, seqPi_of_ok fun i => rfl]
    simp only [Except.ok.injEq, Prod.mk.injEq, true_and]
    funext z
    congr 1
    funext i j s
    simp only [rhsBF_exact svd, pySum_eq]
    simp only [exactLib, svdSolve, colDiv, Matrix.mul_apply, Matrix.of_apply, Matrix.add_apply, Matrix.smul_apply, smul_eq_mul, Matrix.sum_apply]

/-- The linear system of the C-update. -/
theorem prepCF_exact (P : RProblem I K R nA nB nC J) (a : Args) (hsvd : P.params.svd = svd R) (F : FFact ℝ I K R J) :
    prepCF (exactLib svd) P.X P.params.scale P.l2.2.2 F = (exactEnv P a).prepC F := by
  unfold prepCF exactEnv
  simp only
  rw [crossCF_exact svd F, hsvd]
  have : (exactLib svd).half * (exactLib svd).trace R (crossC (ofFF F)) * P.params.scale = feasPenalty P.params.scale (crossC (ofFF F)) := rfl
  rw [this, ridgeF_exact]
  simp only [rhsCF_exact svd, pySum_eq]
  simp only [exactLib, Except.ok.injEq, Prod.mk.injEq, true_and]
  funext z
  congr 1
  funext l s
  simp only [svdSolve, colDiv, Matrix.mul_apply, Matrix.of_apply, Matrix.add_apply, Matrix.smul_apply, smul_eq_mul, Matrix.sum_apply,
    mul_comm (∑ p, z p _ _)]

/-- The reconstruction error, with and without the intermediate results of the A-update. -/
theorem rootF_exact (X : Ragged I K J) (F : FFact ℝ I K R J) (normX : ℝ) (inter : Option (FFact ℝ I K R J)) :
    rootF (exactLib svd) (sqErrorF (exactLib svd) X F normX inter)
      = recError X F.weights (ofFF F) normX (inter.map fun G => ⟨rhsA X (ofFF G), crossA (ofFF G)⟩) := by
  have hmax : ∀ x : ℝ, rootF (exactLib svd) x = √(max 0 x) := fun x => by
    unfold rootF
    have : (if 0 < x then x else 0) = max 0 x := by
      split
      · rename_i h; exact (max_eq_right h.le).symm
      · rename_i h; exact (max_eq_left (not_lt.1 h)).symm
    rw [this]
    rfl
  rw [hmax]
  unfold sqErrorF recError
  have hA : weightedAF F = scaleA F.weights (ofFF F).A := by
    unfold weightedAF scaleA
    cases F.weights <;> rfl
  rw [hA]
  generalize scaleA F.weights (ofFF F).A = A
  congr 2
  cases inter with
  | none =>
    simp only [Option.map_none, pySum_eq, exactLib, Nat.cast_ofNat]
    congr 1
  | some G =>
    simp only [Option.map_some, pySum_eq, rhsAF_exact, crossAF_exact]
    simp only [exactLib, Nat.cast_ofNat]
    congr 1

theorem truthyF_exact (t : Option ℝ) : truthyF t = truthy t := by
  cases t with
  | none => rfl
  | some t =>
    unfold truthyF truthy
    by_cases h : t = 0
    · subst h; simp
    · simp only
      rcases lt_or_gt_of_ne h with h | h
      · simp [h.le, not_le.2 h, h.ne, h.ne']
      · simp [h.le, not_le.2 h, h.ne, h.ne']

/-- The L2 terms. -/
theorem l2PenaltyF_exact (l : ℝ × ℝ × ℝ) (F : FFact ℝ I K R J) : l2PenaltyF (exactLib svd) l (L := K) F = l2Penalty l (ofFF F) := by
  unfold l2PenaltyF l2Penalty
  simp only [truthyF_exact, truthy, decide_eq_true_eq, pySum_eq]
  simp only [exactLib, ofFF]
  by_cases h1 : l.1 = 0 <;> by_cases h2 : l.2.1 = 0 <;> by_cases h3 : l.2.2 = 0 <;> simp [h1, h2, h3]

/-- C105, the exact model: with the exact library the linear systems, the reconstruction error and the L2 terms are those of the exact model. -/
theorem C105_exact (P : RProblem I K R nA nB nC J) (a : Args) (hsvd : P.params.svd = svd R) (F : FFact ℝ I K R J) (normX : ℝ) (inter : Option (FFact ℝ I K R J)) :
    prepAF (exactLib svd) P.X P.params.scale P.l2.1 P.constA F = (exactEnv P a).prepA F ∧
    prepBF (exactLib svd) P.X P.params.scale P.l2.2.1 P.constB F = (exactEnv P a).prepB F ∧
    prepCF (exactLib svd) P.X P.params.scale P.l2.2.2 F = (exactEnv P a).prepC F ∧
    rootF (exactLib svd) (sqErrorF (exactLib svd) P.X F normX inter)
      = recError P.X F.weights (ofFF F) normX (inter.map fun G => ⟨rhsA P.X (ofFF G), crossA (ofFF G)⟩) ∧
    l2PenaltyF (exactLib svd) P.l2 F = l2Penalty P.l2 (ofFF F) :=
  ⟨prepAF_exact svd P a hsvd F, prepBF_exact svd P a hsvd F, prepCF_exact svd P a hsvd F, rootF_exact svd P.X F normX inter, l2PenaltyF_exact svd P.l2 F⟩

/-! ### Stopping rules, for gaps and losses that are numbers -/

theorem pyMaxF_fin : ∀ (l : List ℝ) (a : ℝ), pyMax (.fin a) (l.map PyF.fin) = .fin (pyMaxF a l)
  | [], _ => rfl
  | x :: l, a => by
    have h := pyMaxF_fin l (if a < x then x else a)
    unfold pyMax pyMaxF at h ⊢
    rw [List.map_cons, List.foldl_cons, List.foldl_cons, ← h]
    congr 1
    simp only [PyF.gt, decide_eq_true_eq]
    split <;> rfl

/-- The inner stopping test. -/
theorem innerStopF_exact (tol : Option ℝ) (norm change : ℝ) (gaps : List ℝ) : innerStopF tol norm change gaps = innerConverged tol norm change (gaps.map PyF.fin) := by
  unfold innerStopF innerConverged
  cases tol with
  | none => rfl
  | some t =>
    simp only [truthyF_exact, truthy, Bool.or_eq_true, Bool.not_eq_true', decide_eq_false_iff_not, not_not, decide_eq_true_eq, gt_iff_lt]
    split
    · rfl
    · split
      · rfl
      · cases gaps with
        | nil => rfl
        | cons g gs =>
          simp only [gapsBelow, List.map_cons, pyMaxF_fin]
          rfl

theorem pyMaxF_nonneg : ∀ (l : List ℝ) (a : ℝ), 0 ≤ a → (∀ x ∈ l, 0 ≤ x) → 0 ≤ pyMaxF a l
  | [], _, ha, _ => ha
  | x :: l, a, ha, hl => by
    unfold pyMaxF
    rw [List.foldl_cons]
    refine pyMaxF_nonneg l _ ?_ fun y hy => hl y (List.mem_cons_of_mem _ hy)
    split
    · exact hl x List.mem_cons_self
    · exact ha

/-- The largest gap, starting with zero in place of `-inf`. -/
theorem maxGapF_exact (g : List ℝ) (hg : ∀ x ∈ g, 0 ≤ x) (m : ℝ) (o : Option PyF) (hm : (o = none ∧ m = 0) ∨ o = some (.fin m)) :
    (maxGap (g.map PyF.fin) o = none ∧ maxGapF g m = 0 ∧ g = []) ∨ maxGap (g.map PyF.fin) o = some (.fin (maxGapF g m)) := by
  cases g with
  | nil =>
    rcases hm with ⟨rfl, rfl⟩ | rfl
    · exact .inl ⟨rfl, rfl, rfl⟩
    · exact .inr rfl
  | cons a l =>
    refine .inr ?_
    unfold maxGap maxGapF
    simp only [List.map_cons, pyMaxF_fin]
    rcases hm with ⟨rfl, rfl⟩ | rfl
    · rw [if_neg]
      exact not_lt.2 (pyMaxF_nonneg l a (hg a List.mem_cons_self) fun x hx => hg x (List.mem_cons_of_mem _ hx))
    · simp only [PyF.gt, decide_eq_true_eq]
      split <;> rfl

/-- The feasibility check. -/
theorem checkFeasF_exact (g : List ℝ × List ℝ × List ℝ) (h0 : ∀ x, x ∈ g.1 ∨ x ∈ g.2.1 ∨ x ∈ g.2.2 → 0 ≤ x) (tol : ℝ) (ht : 0 < tol) :
    checkFeasF (exactLib svd) g tol = checkFeasibility ⟨g.1.map PyF.fin, g.2.1.map PyF.fin, g.2.2.map PyF.fin⟩ tol := by
  unfold checkFeasF checkFeasibility
  simp only
  have hA := maxGapF_exact g.1 (fun x hx => h0 x (.inl hx)) (exactLib svd).negInf none (.inl ⟨rfl, rfl⟩)
  have hB := maxGapF_exact g.2.1 (fun x hx => h0 x (.inr (.inl hx))) _ _ (hA.imp (fun h => ⟨h.1, h.2.1⟩) id)
  have hC := maxGapF_exact g.2.2 (fun x hx => h0 x (.inr (.inr hx))) _ _ (hB.imp (fun h => ⟨h.1, h.2.1⟩) id)
  rcases hC with ⟨h1, h2, -⟩ | h
  · rw [h1, h2]
    exact decide_eq_true ht
  · rw [h]
    rfl

/-- The reason to stop in both models. -/
def toStopF : Option Message → FStop
  | none => .maxIter
  | some .maxIter => .maxIter
  | some .relative => .relative
  | some .absolute => .absolute

/-- The decision to stop. -/
theorem decideF_exact {α : Type} (c : FCall ℝ α I K R nA nB nC J) (a : Args) (htol : a.tol = c.tol) (habs : a.absTol = c.absTol) (feasible : Bool) (prev new : ℝ) (m : FAcc ℝ)
    {σ : Type} (s : Acc σ) (hs : m.stop = toStopF s.stop) :
    (decideF (exactLib svd) c feasible prev new m).map (fun x => (x.1.stop, x.2)) = (checkStop a feasible (.fin prev) (.fin new) s).map fun x => (toStopF x.1.stop, x.2) := by
  unfold decideF checkStop
  rw [htol, habs]
  cases c.tol with
  | none => simp only [truthy, Bool.false_eq_true, if_false, Except.map, hs]
  | some tol =>
    simp only [truthyF_exact]
    by_cases ht : truthy (some tol) = true
    · rw [if_pos ht, if_pos ht]
      cases c.absTol with
      | none => simp only [Except.map]
      | some t =>
        simp only [relCriterion, Option.getD_some, PyF.lt]
        have : (exactLib svd).abs (prev - new) = |prev - new| := rfl
        rw [this]
        simp only [Bool.and_eq_true, decide_eq_true_eq]
        by_cases h1 : feasible = true ∧ |prev - new| < tol * prev
        · rw [if_pos h1, if_pos h1]
          rfl
        · rw [if_neg h1, if_neg h1]
          by_cases h2 : feasible = true ∧ new < t
          · rw [if_pos h2, if_pos h2]
            rfl
          · rw [if_neg h2, if_neg h2]
            simp only [Except.map, hs]
    · rw [if_neg ht, if_neg ht]
      simp only [Except.map, hs]

theorem rootSumSqF_exact {n : ℕ} (X : Ragged I n J) : rootSumSqF (exactLib svd) X = rootSumSq X := by
  unfold rootSumSqF rootSumSq
  rw [pySum_eq]
  rfl

/-- The feasibility gaps, for factors that are not zero; the auxiliary variables of penalties on the B matrices are those of the exact model in another representation. -/
theorem gapsF_exact {α : Type} (subB : Fin nB → FAuxB ℝ α I R J → Ragged I R J → Ragged I R J) (s : FState ℝ α I K R nA nB nC J) (auxB : Fin nB → AuxB I R J)
    (hsub : ∀ p, subB p (s.auxB p) s.F.B = (auxB p).subtract s.F.B) (hA : matNorm (Matrix.of s.F.A) ≠ 0) (hB : rootSumSq (ofFF s.F).B ≠ 0) (hC : matNorm (Matrix.of s.F.C) ≠ 0) :
    let g := gapsF (exactLib svd) subB s
    (⟨g.1.map PyF.fin, g.2.1.map PyF.fin, g.2.2.map PyF.fin⟩ : Gaps) = feasibilityGaps (ofFF s.F) (fun p => Matrix.of (s.auxA p)) auxB (fun p => Matrix.of (s.auxC p)) := by
  have hdiv : ∀ x y : ℝ, y ≠ 0 → PyF.div x y = .fin (x / y) := fun x y hy => if_neg hy
  unfold gapsF feasibilityGaps
  simp only [List.map_ofFn, Gaps.mk.injEq]
  refine ⟨congrArg List.ofFn (funext fun p => ?_), congrArg List.ofFn (funext fun p => ?_), congrArg List.ofFn (funext fun p => ?_)⟩
  · exact (hdiv _ _ hA).symm
  · refine Eq.trans ?_ (hdiv _ _ hB).symm
    simp only [Function.comp_apply, hsub, rootSumSqF_exact]
    have : rootSumSqF (exactLib svd) s.F.B = rootSumSq (ofFF s.F).B := rootSumSqF_exact svd (ofFF s.F).B
    rw [this]
    rfl
  · exact (hdiv _ _ hC).symm

/-- C105, the exact model: so are the feasibility gaps, for factors that are not zero. -/
theorem C105_gaps {α : Type} (subB : Fin nB → FAuxB ℝ α I R J → Ragged I R J → Ragged I R J) (s : FState ℝ α I K R nA nB nC J) (auxB : Fin nB → AuxB I R J)
    (hsub : ∀ p, subB p (s.auxB p) s.F.B = (auxB p).subtract s.F.B) (hA : matNorm (Matrix.of s.F.A) ≠ 0) (hB : rootSumSq (ofFF s.F).B ≠ 0) (hC : matNorm (Matrix.of s.F.C) ≠ 0)
    (tol : ℝ) (ht : 0 < tol) :
    feasibleF (exactLib svd) (some tol) (gapsF (exactLib svd) subB s)
      = checkFeasibility (feasibilityGaps (ofFF s.F) (fun p => Matrix.of (s.auxA p)) auxB (fun p => Matrix.of (s.auxC p))) tol := by
  have hg := gapsF_exact svd subB s auxB hsub hA hB hC
  simp only at hg
  rw [← hg, ← checkFeasF_exact svd _ ?_ tol ht]
  · have : truthyF (some tol) = true := by
      rw [truthyF_exact]
      simp [truthy, ht.ne']
    simp only [feasibleF, this, Bool.true_and]
  · rintro x (h | h | h) <;> obtain ⟨p, rfl⟩ := List.mem_ofFn.1 h
    · exact div_nonneg (Real.sqrt_nonneg _) (Real.sqrt_nonneg _)
    · exact div_nonneg (Real.sqrt_nonneg _) (Real.sqrt_nonneg _)
    · exact div_nonneg (Real.sqrt_nonneg _) (Real.sqrt_nonneg _)

/-- C105, the exact model: so are the tests that stop the inner loops, for new factors that are not zero. -/
theorem C105_inner {α : Type} (c : FCall ℝ α I K R nA nB nC J) :
    (∀ s t : FMatState ℝ I R nA, matNorm (Matrix.of t.x) ≠ 0 → (c.env (exactLib svd)).stopA s t
      = innerConverged c.innerTol (matNorm (Matrix.of t.x)) (matNorm (Matrix.of t.x - Matrix.of s.x)) (List.ofFn fun p => matGap (Matrix.of t.x) (Matrix.of (t.aux p)))) ∧
    (∀ (s t : FRagState ℝ α I R nB J) (aux : Fin nB → AuxB I R J), rootSumSq (J := J) (fun i => Matrix.of (t.x i)) ≠ 0 →
      (∀ p, (c.pensB p).subtract (t.aux p) t.x = (aux p).subtract fun i => Matrix.of (t.x i)) → (c.env (exactLib svd)).stopB s t
      = innerConverged c.innerTol (rootSumSq (J := J) fun i => Matrix.of (t.x i)) (rootSumSq (J := J) fun i => Matrix.of (t.x i) - Matrix.of (s.x i))
        (List.ofFn fun p => raggedGap (fun i => Matrix.of (t.x i)) (aux p))) ∧
    ∀ s t : FMatState ℝ K R nC, matNorm (Matrix.of t.x) ≠ 0 → (c.env (exactLib svd)).stopC s t
      = innerConverged c.innerTol (matNorm (Matrix.of t.x)) (matNorm (Matrix.of t.x - Matrix.of s.x)) (List.ofFn fun p => matGap (Matrix.of t.x) (Matrix.of (t.aux p))) := by
  have hdiv : ∀ x y : ℝ, y ≠ 0 → PyF.div x y = .fin (x / y) := fun x y hy => if_neg hy
  refine ⟨fun s t h => ?_, fun s t aux h hs => ?_, fun s t h => ?_⟩
  · simp only [FCall.env]
    rw [innerStopF_exact, List.map_ofFn]
    refine congrArg _ (congrArg List.ofFn (funext fun p => (hdiv _ _ h).symm))
  · simp only [FCall.env]
    have hx : rootSumSqF (exactLib svd) t.x = rootSumSq (J := J) fun i => Matrix.of (t.x i) := rootSumSqF_exact svd fun i => Matrix.of (t.x i)
    have hd : rootSumSqF (exactLib svd) (J := J) (fun i j r => t.x i j r - s.x i j r) = rootSumSq (J := J) fun i => Matrix.of (t.x i) - Matrix.of (s.x i) :=
      rootSumSqF_exact svd fun i => Matrix.of (t.x i) - Matrix.of (s.x i)
    rw [innerStopF_exact, List.map_ofFn, hx, hd]
    refine congrArg _ (congrArg List.ofFn (funext fun p => ?_))
    refine Eq.trans ?_ (hdiv _ _ h).symm
    simp only [Function.comp_apply, hs, rootSumSqF_exact]
  · simp only [FCall.env]
    rw [innerStopF_exact, List.map_ofFn]
    refine congrArg _ (congrArg List.ofFn (funext fun p => (hdiv _ _ h).symm))

/-- C105, the exact model: so are the stopping rules, for norms, gaps and losses that are numbers (gaps are not negative). -/
theorem C105_stops {α : Type} (c : FCall ℝ α I K R nA nB nC J) (a : Args) (htol : a.tol = c.tol) (habs : a.absTol = c.absTol) :
    (∀ tol norm change gaps, innerStopF tol norm change gaps = innerConverged tol norm change (gaps.map PyF.fin)) ∧
    (∀ g : List ℝ × List ℝ × List ℝ, (∀ x, x ∈ g.1 ∨ x ∈ g.2.1 ∨ x ∈ g.2.2 → 0 ≤ x) → ∀ tol, 0 < tol →
      checkFeasF (exactLib svd) g tol = checkFeasibility ⟨g.1.map PyF.fin, g.2.1.map PyF.fin, g.2.2.map PyF.fin⟩ tol) ∧
    ∀ (feasible : Bool) (prev new : ℝ) (m : FAcc ℝ) (s : Acc Unit), m.stop = toStopF s.stop →
      (decideF (exactLib svd) c feasible prev new m).map (fun x => (x.1.stop, x.2)) = (checkStop a feasible (.fin prev) (.fin new) s).map fun x => (toStopF x.1.stop, x.2) :=
  ⟨innerStopF_exact, fun g h0 tol ht => checkFeasF_exact svd g h0 tol ht, fun f p q m s hs => decideF_exact svd c a htol habs f p q m s hs⟩

end

/-- C105_stops applies: gaps 1/2 (A), 1/4 and 3/4 (C) are not all below 2/3. -/
example (svd : (n : ℕ) → Matrix (Fin n) (Fin n) ℝ → SVD n n n) : checkFeasibility ⟨[.fin (1 / 2)], [], [.fin (1 / 4), .fin (3 / 4)]⟩ (2 / 3) = false := by
  have h := checkFeasF_exact svd ([1 / 2], [], [1 / 4, 3 / 4]) (by rintro x (h | h | h) <;> simp at h <;> (try rcases h with rfl | rfl) <;> (try subst h) <;> norm_num) (2 / 3)
    (by norm_num)
  simp only [List.map_cons, List.map_nil] at h
  rw [← h]
  simp only [checkFeasF, maxGapF, pyMaxF, List.foldl_cons, List.foldl_nil, exactLib]
  norm_num

/-- C105_gaps applies: A = 2, auxiliary variable 3, so the gap is 1/2. -/
example (svd : (n : ℕ) → Matrix (Fin n) (Fin n) ℝ → SVD n n n) :
    let s : FState ℝ Unit 1 1 1 1 0 0 (fun _ => 1) := ⟨⟨none, fun _ _ => 2, fun _ _ _ => 1, fun _ _ => 1⟩, fun _ _ _ => 3, fun _ _ _ => 0, Fin.elim0, Fin.elim0, Fin.elim0, Fin.elim0⟩
    feasibleF (exactLib svd) (some 1) (gapsF (exactLib svd) (fun p => p.elim0) s) = true ∧
    feasibleF (exactLib svd) (some 1) (gapsF (exactLib svd) (fun p => p.elim0) s)
      = checkFeasibility (feasibilityGaps (ofFF s.F) (fun p => Matrix.of (s.auxA p)) Fin.elim0 (fun p => Matrix.of (s.auxC p))) 1 := by
  intro s
  have h2 : √((2 : ℝ) ^ 2) = 2 := Real.sqrt_sq (by norm_num)
  refine ⟨?_, C105_gaps svd _ s Fin.elim0 (fun p => p.elim0) ?_ ?_ ?_ 1 one_pos⟩
  · have : gapsF (exactLib svd) (fun p => p.elim0) s = ([1 / 2], [], []) := by
      simp only [gapsF, exactLib, s, matNorm, List.ofFn_succ, List.ofFn_zero, Finset.univ_unique, Finset.sum_singleton, Matrix.of_apply, h2]
      norm_num
    rw [this]
    simp only [feasibleF, checkFeasF, maxGapF, pyMaxF, List.foldl_nil, exactLib, truthyF]
    norm_num
  · simp [matNorm, s]
  · simp [rootSumSq, ofFF, s]
  · simp [matNorm, s]

end Verif.Props
