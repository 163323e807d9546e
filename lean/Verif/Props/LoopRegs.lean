import Verif.Props.LoopPerm

/-!
# C93: the order of the penalties
-/

namespace Verif.Props

open Verif.Loop Verif.ADMM Verif.Penalties Verif.Spec Finset Matrix

variable {I K R nA nB nC n : ℕ} {J : Fin I → ℕ}

/-- Orders of the penalties of the three modes. -/
structure RegOrder (nA nB nC : ℕ) where
  A : Equiv.Perm (Fin nA)
  B : Equiv.Perm (Fin nB)
  C : Equiv.Perm (Fin nC)

/-- The auxiliary and dual variables in the order of the penalties. -/
def regsS (π : RegOrder nA nB nC) (s : AOState I K R nA nB nC J) : AOState I K R nA nB nC J where
  weights := s.weights
  F := s.F
  auxA := fun p => s.auxA (π.A p)
  dualA := fun p => s.dualA (π.A p)
  auxB := fun p => s.auxB (π.B p)
  dualB := fun p => s.dualB (π.B p)
  auxC := fun p => s.auxC (π.C p)
  dualC := fun p => s.dualC (π.C p)

/-- The problem with the penalties in another order. -/
def regsP (π : RegOrder nA nB nC) (P : Problem I K R nA nB nC J) : Problem I K R nA nB nC J :=
  { P with pensA := fun p => P.pensA (π.A p), pensB := fun p => P.pensB (π.B p), pensC := fun p => P.pensC (π.C p) }

/-- A list in another order. -/
def regsList (π : Equiv.Perm (Fin n)) (l : List PyF) : List PyF := List.ofFn fun p => l.getD (π p) .nan

/-- The feasibility gaps in the order of the penalties. -/
def regsG (π : RegOrder nA nB nC) (g : Gaps) : Gaps := ⟨regsList π.A g.A, regsList π.B g.B, regsList π.C g.C⟩

theorem regsList_ofFn (π : Equiv.Perm (Fin n)) (f : Fin n → PyF) : regsList π (List.ofFn f) = List.ofFn fun p => f (π p) := by
  unfold regsList
  congr 1
  funext p
  simp

/-! ### The feasibility check -/

theorem pyMax_finite {f : Fin (n + 1) → ℝ} : ∃ m, pyMax (.fin (f 0)) (List.ofFn fun p : Fin n => PyF.fin (f p.succ)) = .fin m ∧ ∀ t, m < t ↔ ∀ p, f p < t := by
  obtain ⟨m, h1, h2⟩ := pyMax_fin (List.ofFn fun p : Fin n => f p.succ) (f 0)
  rw [List.map_ofFn] at h1
  refine ⟨m, h1, fun t => ?_⟩
  rw [h2, Fin.forall_fin_succ]
  simp only [List.forall_mem_ofFn_iff]

theorem maxGap_regs (π : Equiv.Perm (Fin n)) (num : Fin n → ℝ) (den : ℝ) (h : n ≤ 1 ∨ den ≠ 0) (m : Option PyF) :
    maxGap (List.ofFn fun p => PyF.div (num (π p)) den) m = maxGap (List.ofFn fun p => PyF.div (num p) den) m := by
  by_cases hn : n ≤ 1
  · have : ∀ p, π p = p := fun p => by
      have := (π p).isLt
      have := p.isLt
      exact Fin.ext (by omega)
    simp only [this]
  · have hd := h.resolve_left hn
    obtain ⟨k, rfl⟩ : ∃ k, n = k + 1 := ⟨n - 1, by omega⟩
    have e : ∀ x, PyF.div x den = .fin (x / den) := fun x => by rw [PyF.div, if_neg hd]
    simp only [e, List.ofFn_succ, maxGap]
    obtain ⟨a, ha, ha'⟩ := pyMax_finite (f := fun p => num (π p) / den)
    obtain ⟨b, hb, hb'⟩ := pyMax_finite (f := fun p => num p / den)
    rw [ha, hb]
    have : a = b := by
      refine eq_of_forall_gt_iff fun t => ?_
      rw [ha', hb']
      exact ⟨fun h p => by simpa using h (π.symm p), fun h p => h (π p)⟩
    rw [this]

theorem check_regs (π : Equiv.Perm (Fin n)) (num : Fin n → ℝ) (den : ℝ) (m : Option PyF) (tol : ℝ) :
    (match maxGap (List.ofFn fun p => PyF.div (num (π p)) den) m with | none => true | some x => x.lt tol) =
      match maxGap (List.ofFn fun p => PyF.div (num p) den) m with | none => true | some x => x.lt tol := by
  by_cases hd : den = 0
  · obtain rfl | ⟨k, rfl⟩ : n = 0 ∨ ∃ k, n = k + 1 := by
      cases n with
      | zero => exact .inl rfl
      | succ k => exact .inr ⟨k, rfl⟩
    · simp
    · have key : ∀ f : Fin (k + 1) → ℝ, (match maxGap (List.ofFn fun p => PyF.div (f p) den) m with | none => true | some x => x.lt tol) = false := by
        intro f
        have hne : ∀ x y, PyF.div x den ≠ .fin y := fun x y => by
          rw [PyF.div, if_pos hd]
          split <;> simp
        have := pyMax_nonfinite (List.ofFn fun p : Fin k => PyF.div (f p.succ) den) _ (hne (f 0)) fun b hb => by
          obtain ⟨p, rfl⟩ := List.mem_ofFn.mp hb
          exact hne _
        simp only [List.ofFn_succ, maxGap]
        cases hm : pyMax (PyF.div (f 0) den) (List.ofFn fun p : Fin k => PyF.div (f p.succ) den) with
        | fin x => exact absurd hm (this x)
        | nan =>
          cases m with
          | none => rfl
          | some y => cases y <;> rfl
        | inf =>
          cases m with
          | none => rfl
          | some y => cases y <;> rfl
      rw [key fun p => num (π p), key num]
  · rw [maxGap_regs π num den (.inr hd)]

theorem gapsBelow_regs (π : Equiv.Perm (Fin n)) {num : Fin n → ℝ} (hg : ∀ p, 0 ≤ num p) {den : ℝ} (hd : 0 ≤ den) (t : ℝ) :
    gapsBelow (List.ofFn fun p => PyF.div (num (π p)) den) t = gapsBelow (List.ofFn fun p => PyF.div (num p) den) t := by
  rw [Bool.eq_iff_iff, gapsBelow_iff (fun p => hg _) hd, gapsBelow_iff hg hd]
  exact ⟨fun h p => by simpa using h (π.symm p), fun h p => h (π p)⟩

theorem innerConverged_regs (π : Equiv.Perm (Fin n)) {num : Fin n → ℝ} (hg : ∀ p, 0 ≤ num p) {den : ℝ} (hd : 0 ≤ den) (tol : Option ℝ) (ch : ℝ) :
    innerConverged tol den ch (List.ofFn fun p => PyF.div (num (π p)) den) = innerConverged tol den ch (List.ofFn fun p => PyF.div (num p) den) := by
  unfold innerConverged
  cases tol with
  | none => rfl
  | some t => simp only [gapsBelow_regs π hg hd]

/-! ### The updates -/

/-- Variables of the updates of modes 0 and 2 in the order of the penalties. -/
def regsM (π : Equiv.Perm (Fin n)) {m : ℕ} (s : MatState m R n) : MatState m R n := ⟨s.x, fun p => s.aux (π p), fun p => s.dual (π p)⟩

/-- Variables of the update of mode 1 in the order of the penalties. -/
def regsR (π : Equiv.Perm (Fin n)) (s : RagState I R n J) : RagState I R n J := ⟨s.x, fun p => s.aux (π p), fun p => s.dual (π p)⟩

theorem matStop_regs (π : Equiv.Perm (Fin n)) {m : ℕ} (tol : Option ℝ) (s s' : MatState m R n) : matStop tol (regsM π s) (regsM π s') = matStop tol s s' :=
  innerConverged_regs π (num := fun p => matNorm (s'.aux p - s'.x)) (fun _ => Real.sqrt_nonneg _) (Real.sqrt_nonneg _) tol _

theorem ragStop_regs (π : Equiv.Perm (Fin n)) (tol : Option ℝ) (s s' : RagState I R n J) : ragStop tol (regsR π s) (regsR π s') = ragStop tol s s' :=
  innerConverged_regs π (num := fun p => rootSumSq ((s'.aux p).subtract s'.x)) (fun _ => Real.sqrt_nonneg _) (Real.sqrt_nonneg _) tol _

theorem stepA_regs (π : Equiv.Perm (Fin n)) (pens : Fin n → PenA I R) (o : Option ℝ) (ρ : Fin I → ℝ) (svds : Fin I → SVD R R R) (rhs : Fin I → Fin R → ℝ)
    (s : MatState I R n) : stepA (fun p => pens (π p)) o ρ svds rhs (regsM π s) = regsM π (stepA pens o ρ svds rhs s) := by
  have : ∀ i, (∑ p, (s.aux (π p) - s.dual (π p)) i) = ∑ p, (s.aux p - s.dual p) i := fun i => Equiv.sum_comp π fun p => (s.aux p - s.dual p) i
  simp only [stepA, regsM, this]

theorem stepB_regs (π : Equiv.Perm (Fin n)) (pens : Fin n → PenB I R J) (ρ : Fin I → ℝ) (svds : Fin I → SVD R R R) (rhs : Ragged I R J)
    (s : RagState I R n J) : stepB (fun p => pens (π p)) ρ svds rhs (regsR π s) = regsR π (stepB pens ρ svds rhs s) := by
  have : ∀ i, (∑ p, (s.aux (π p)).subtract (s.dual (π p)) i) = ∑ p, (s.aux p).subtract (s.dual p) i :=
    fun i => Equiv.sum_comp π fun p => (s.aux p).subtract (s.dual p) i
  simp only [stepB, regsR, this]

theorem stepC_regs (π : Equiv.Perm (Fin n)) (pens : Fin n → PenC K R) (ρ : ℝ) (svd : SVD R R R) (rhs : Matrix (Fin K) (Fin R) ℝ)
    (s : MatState K R n) : stepC (fun p => pens (π p)) ρ svd rhs (regsM π s) = regsM π (stepC pens ρ svd rhs s) := by
  have : (∑ p, (s.aux (π p) - s.dual (π p))) = ∑ p, (s.aux p - s.dual p) := Equiv.sum_comp π fun p => s.aux p - s.dual p
  simp only [stepC, regsM, this]

theorem any_regs (π : Equiv.Perm (Fin n)) (pens : Fin n → PenA I R) :
    (List.ofFn fun p => pens (π p)).any (fun p => p.row.isNone) = (List.ofFn pens).any fun p => p.row.isNone := by
  rw [Bool.eq_iff_iff, List.any_eq_true, List.any_eq_true]
  constructor
  · rintro ⟨x, hx, h⟩
    obtain ⟨p, rfl⟩ := List.mem_ofFn.mp hx
    exact ⟨_, List.mem_ofFn.mpr ⟨π p, rfl⟩, h⟩
  · rintro ⟨x, hx, h⟩
    obtain ⟨p, rfl⟩ := List.mem_ofFn.mp hx
    exact ⟨_, List.mem_ofFn.mpr ⟨π.symm p, by rw [π.apply_symm_apply]⟩, h⟩

theorem admmUpdateA_regs (π : Equiv.Perm (Fin n)) (prm : Params R) (X : Ragged I K J) (pens : Fin n → PenA I R) (l2 : ℝ) (c : Bool)
    (F : Factors I K R J) (aux dual : Fin n → Matrix (Fin I) (Fin R) ℝ) :
    admmUpdateA prm X (fun p => pens (π p)) l2 c F (fun p => aux (π p)) (fun p => dual (π p)) = (admmUpdateA prm X pens l2 c F aux dual).map (regsM π) := by
  unfold admmUpdateA
  cases feasPenalties prm.scale c (crossA F) with
  | error e => rfl
  | ok ρ =>
    simp only [Except.bind, any_regs]
    split
    · rfl
    · exact congrArg Except.ok (innerLoop_map (f := regsM π) (s := ⟨F.A, aux, dual⟩) (stepA_regs π pens ρ.1 ρ.2 _ _) (matStop_regs π _) _)

theorem admmUpdateB_regs (π : Equiv.Perm (Fin n)) (prm : Params R) (X : Ragged I K J) (pens : Fin n → PenB I R J) (l2 : ℝ) (c : Bool)
    (F : Factors I K R J) (aux : Fin n → AuxB I R J) (dual : Fin n → Ragged I R J) :
    admmUpdateB prm X (fun p => pens (π p)) l2 c F (fun p => aux (π p)) (fun p => dual (π p)) = (admmUpdateB prm X pens l2 c F aux dual).map (regsR π) := by
  unfold admmUpdateB
  cases feasPenalties prm.scale c (crossB F) with
  | error e => rfl
  | ok ρ =>
    simp only [Except.bind]
    exact congrArg Except.ok (innerLoop_map (f := regsR π) (s := ⟨F.B, aux, dual⟩) (stepB_regs π pens ρ.2 _ _) (ragStop_regs π _) _)

theorem admmUpdateC_regs (π : Equiv.Perm (Fin n)) (prm : Params R) (X : Ragged I K J) (pens : Fin n → PenC K R) (l2 : ℝ)
    (F : Factors I K R J) (aux dual : Fin n → Matrix (Fin K) (Fin R) ℝ) :
    admmUpdateC prm X (fun p => pens (π p)) l2 F (fun p => aux (π p)) (fun p => dual (π p)) = regsM π (admmUpdateC prm X pens l2 F aux dual) := by
  unfold admmUpdateC
  exact innerLoop_map (f := regsM π) (s := ⟨F.C, aux, dual⟩) (stepC_regs π pens _ _ _) (matStop_regs π _) _

/-! ### The loop -/

theorem sweepB_regs (π : RegOrder nA nB nC) (P : Problem I K R nA nB nC J) (s : AOState I K R nA nB nC J) :
    sweepB (regsP π P) (regsS π s) = (sweepB P s).map (regsS π) := by
  unfold sweepB
  rw [show (regsP π P).updB = P.updB from rfl]
  cases P.updB
  · rfl
  · simp only [if_true]
    have := admmUpdateB_regs π.B P.params P.X P.pensB P.l2.2.1 P.constB s.F s.auxB s.dualB
    rw [show admmUpdateB (regsP π P).params (regsP π P).X (regsP π P).pensB (regsP π P).l2.2.1 (regsP π P).constB
      (regsS π s).F (regsS π s).auxB (regsS π s).dualB = _ from this]
    cases admmUpdateB P.params P.X P.pensB P.l2.2.1 P.constB s.F s.auxB s.dualB <;> rfl

theorem sweepC_regs (π : RegOrder nA nB nC) (P : Problem I K R nA nB nC J) (s : AOState I K R nA nB nC J) :
    sweepC (regsP π P) (regsS π s) = regsS π (sweepC P s) := by
  unfold sweepC
  rw [show (regsP π P).updC = P.updC from rfl]
  cases P.updC
  · rfl
  · simp only [if_true]
    have := admmUpdateC_regs π.C P.params P.X P.pensC P.l2.2.2 s.F s.auxC s.dualC
    rw [show admmUpdateC (regsP π P).params (regsP π P).X (regsP π P).pensC (regsP π P).l2.2.2
      (regsS π s).F (regsS π s).auxC (regsS π s).dualC = _ from this]
    rfl

theorem sweepA_regs (π : RegOrder nA nB nC) (P : Problem I K R nA nB nC J) (s : AOState I K R nA nB nC J) :
    sweepA (regsP π P) (regsS π s) = (sweepA P s).map fun x => (regsS π x.1, x.2) := by
  unfold sweepA
  rw [show (regsP π P).updA = P.updA from rfl]
  cases P.updA
  · rfl
  · simp only [if_true]
    have := admmUpdateA_regs π.A P.params P.X P.pensA P.l2.1 P.constA s.F s.auxA s.dualA
    rw [show admmUpdateA (regsP π P).params (regsP π P).X (regsP π P).pensA (regsP π P).l2.1 (regsP π P).constA
      (regsS π s).F (regsS π s).auxA (regsS π s).dualA = _ from this]
    cases admmUpdateA P.params P.X P.pensA P.l2.1 P.constA s.F s.auxA s.dualA <;> rfl

theorem sweep_regs (π : RegOrder nA nB nC) (P : Problem I K R nA nB nC J) (s : AOState I K R nA nB nC J) :
    sweep (regsP π P) (regsS π s) = (sweep P s).map fun x => (regsS π x.1, x.2) := by
  unfold sweep
  rw [sweepB_regs]
  cases sweepB P s with
  | error e => rfl
  | ok u =>
    simp only [Except.map, Except.bind]
    rw [sweepC_regs]
    exact sweepA_regs π P _

/-- The factors of modes 0 and 1 are not zero if they have several penalties. -/
def RegsNonzero (s : AOState I K R nA nB nC J) : Prop := (nA ≤ 1 ∨ s.F.A ≠ 0) ∧ (nB ≤ 1 ∨ s.F.B ≠ 0)

theorem matNorm_ne {m k : ℕ} {X : Matrix (Fin m) (Fin k) ℝ} (h : X ≠ 0) : matNorm X ≠ 0 := (matGap_eq h 0).2.ne'

theorem rootSumSq_ne {X : Ragged I R J} (h : X ≠ 0) : rootSumSq X ≠ 0 := (raggedGap_eq h (.mats X)).2.ne'

theorem feasible_regs (π : RegOrder nA nB nC) {s : AOState I K R nA nB nC J} (h : RegsNonzero s) (tol : ℝ) :
    checkFeasibility (regsG π (feasibilityGaps s.F s.auxA s.auxB s.auxC)) tol = checkFeasibility (feasibilityGaps s.F s.auxA s.auxB s.auxC) tol := by
  unfold checkFeasibility regsG feasibilityGaps
  simp only [regsList_ofFn]
  have eA := maxGap_regs π.A (fun p => matNorm (s.auxA p - s.F.A)) (matNorm s.F.A) (h.1.imp_right matNorm_ne) none
  have eB := fun m => maxGap_regs π.B (fun p => rootSumSq ((s.auxB p).subtract s.F.B)) (rootSumSq s.F.B) (h.2.imp_right rootSumSq_ne) m
  have eC := fun m => check_regs π.C (fun p => matNorm (s.auxC p - s.F.C)) (matNorm s.F.C) m tol
  simp only [matGap, raggedGap]
  rw [eA, eB]
  exact eC _

theorem ops_regs (π : RegOrder nA nB nC) (P : Problem I K R nA nB nC J) :
    OpsMap (aoOps P) (aoOps (regsP π P)) none none (regsS π) (regsG π) fun k s => ∀ t ≤ k, ∀ st, sweeps' (aoOps P) t s = .ok st → RegsNonzero st := by
  refine ⟨fun k s hs x i hx => ⟨fun t hk st ht => hs (t + 1) (by omega) st ?_, i, ?_, rfl⟩, fun _ s _ e he => ?_, fun _ s _ => ?_, fun k s hs tol => ?_, fun _ s _ => rfl, fun _ s _ => ?_⟩
  · rw [sweeps', hx]; exact ht
  · show sweep (regsP π P) (regsS π s) = _
    rw [sweep_regs, show sweep P s = .ok (x, i) from hx]; rfl
  · show sweep (regsP π P) (regsS π s) = _
    rw [sweep_regs, show sweep P s = .error e from he]; rfl
  · simp only [aoOps, feasibilityGaps, regsG, regsList_ofFn]; rfl
  · exact feasible_regs π (hs 0 (Nat.zero_le k) s rfl) tol
  · simp only [aoOps]
    congr 1
    congr 1
    · congr 1
      · exact Equiv.sum_comp π.A fun p => (P.pensA p).value s.F.A
      · exact Equiv.sum_comp π.B fun p => (P.pensB p).value s.F.B
    · exact Equiv.sum_comp π.C fun p => (P.pensC p).value s.F.C

/-- C93, if no factor of modes 0 and 1 with several penalties becomes zero: with the penalties in another order, from the initial auxiliary and dual variables in that order,
the same factorization is returned, the auxiliary and dual variables and the feasibility gaps come in that order, and everything else is the same. -/
theorem C93_partial (π : RegOrder nA nB nC) (P : Problem I K R nA nB nC J) (a : Args) (init : AOState I K R nA nB nC J)
    (h : ∀ t ≤ a.nIterMax.toNat, ∀ o, cmfAoadmm P (plain t) init = .ok o → RegsNonzero o.st) :
    cmfAoadmm (regsP π P) a (regsS π init) = (cmfAoadmm P a init).map (Output.map (regsS π) (regsG π)) := by
  refine fit_map (ops_regs π P) a init fun t ht st hst => ?_
  obtain ⟨o, ho, hos⟩ := fit_plain (aoOps P) none init st t (by rw [sweeps_eq']; exact hst)
  rw [← hos]
  exact h t ht o ho

/-- With at most one penalty on each of modes 0 and 1 and any number on mode 2, nothing has to be assumed. -/
theorem C93_modeC (π : RegOrder nA nB nC) (hA : nA ≤ 1) (hB : nB ≤ 1) (P : Problem I K R nA nB nC J) (a : Args) (init : AOState I K R nA nB nC J) :
    cmfAoadmm (regsP π P) a (regsS π init) = (cmfAoadmm P a init).map (Output.map (regsS π) (regsG π)) :=
  C93_partial π P a init fun _ _ _ _ => ⟨.inl hA, .inl hB⟩

theorem state_sweeps (P : Problem I K R nA nB nC J) (a : Args) (ht : truthy a.tol = false) (s : AOState I K R nA nB nC J) :
    (cmfAoadmm P a s).map (fun o => o.st) = sweeps' (aoOps P) a.nIterMax.toNat s := by
  have := run_plain (O := aoOps P) (a := a) ht a.nIterMax.toNat (initAcc (aoOps P) a none s)
  unfold cmfAoadmm fit
  cases h1 : run (aoOps P) a a.nIterMax.toNat (initAcc (aoOps P) a none s) <;>
    cases h2 : sweeps' (aoOps P) a.nIterMax.toNat s <;> rw [h1, show (initAcc (aoOps P) a none s).st = s from rfl, h2] at this <;>
    simp only [Except.map, Except.ok.injEq, Except.error.injEq, Prod.mk.injEq, reduceCtorEq] at this ⊢
  · exact this
  · exact this.1

/-- Without relative tolerance (when no iteration is left out, C41) the order never matters for the factorization and the auxiliary and dual variables. -/
theorem C93_states (π : RegOrder nA nB nC) (P : Problem I K R nA nB nC J) (a : Args) (ht : ∀ t, ¬ IsSet a.tol t) (init : AOState I K R nA nB nC J) :
    (cmfAoadmm (regsP π P) a (regsS π init)).map (fun o => o.st) = (cmfAoadmm P a init).map fun o => regsS π o.st := by
  have hf := truthy_false_iff.2 ht
  have key : ∀ (k : ℕ) (s : AOState I K R nA nB nC J), sweeps' (aoOps (regsP π P)) k (regsS π s) = (sweeps' (aoOps P) k s).map (regsS π) := by
    intro k
    induction k with
    | zero => intro s; rfl
    | succ k ih =>
      intro s
      rw [sweeps', sweeps', show (aoOps (regsP π P)).sweep (regsS π s) = _ from sweep_regs π P s]
      cases h : sweep P s with
      | error e => rw [show (aoOps P).sweep s = _ from h]; rfl
      | ok x => rw [show (aoOps P).sweep s = _ from h]; exact ih x.1
  rw [state_sweeps _ a hf, key, ← state_sweeps P a hf]
  cases cmfAoadmm P a init <;> rfl

/-! ### A factor that becomes zero -/

/-- The two penalties on A in the other order. -/
def swapA : RegOrder 2 1 0 := ⟨Equiv.swap 0 1, 1, 1⟩

theorem check_swap {t : ℝ} : checkFeasibility (feasibilityGaps (regsS swapA (zS 0 1 ![0, 2] (fun _ => 0) (fun _ => 1) fun _ => 0)).F
    (regsS swapA (zS 0 1 ![0, 2] (fun _ => 0) (fun _ => 1) fun _ => 0)).auxA (regsS swapA (zS 0 1 ![0, 2] (fun _ => 0) (fun _ => 1) fun _ => 0)).auxB
    (regsS swapA (zS 0 1 ![0, 2] (fun _ => 0) (fun _ => 1) fun _ => 0)).auxC) t = false := by
  have h1 : matGap (sc 0) (sc 0) = .nan := by simp [matGap, matNorm, sc, PyF.div]
  have h2 : matGap (sc 0) (sc 2) = .inf := by simp [matGap, matNorm, sc, PyF.div]
  have h3 : raggedGap (J := fun _ : Fin 1 => 1) (fun _ => sc 1) (.mats fun _ => sc 1) = .fin 0 := by
    simp [raggedGap, rootSumSq, AuxB.subtract, sc, PyF.div]
  have hg : feasibilityGaps (regsS swapA (zS 0 1 ![0, 2] (fun _ => 0) (fun _ => 1) fun _ => 0)).F
      (regsS swapA (zS 0 1 ![0, 2] (fun _ => 0) (fun _ => 1) fun _ => 0)).auxA (regsS swapA (zS 0 1 ![0, 2] (fun _ => 0) (fun _ => 1) fun _ => 0)).auxB
      (regsS swapA (zS 0 1 ![0, 2] (fun _ => 0) (fun _ => 1) fun _ => 0)).auxC = ⟨[.inf, .nan], [.fin 0], []⟩ := by
    simp only [feasibilityGaps, regsS, zS, scF, List.ofFn_succ, List.ofFn_zero, h3]
    rw [show matGap (sc 0) (sc (![(0 : ℝ), 2] (swapA.A 0))) = .inf from h2, show matGap (sc 0) (sc (![(0 : ℝ), 2] (swapA.A (Fin.succ 0)))) = .nan from h1]
  rw [hg]
  simp [checkFeasibility, maxGap, pyMax, PyF.gt, PyF.lt]

/-- C93 is false if a factor becomes zero: with non-negativity before the bounds, the gaps of A are `nan`, `inf`, the check ignores them and the call reports success; with the
bounds before non-negativity they are `inf`, `nan`, and it does not. -/
theorem C93_false : ∃ (π : RegOrder 2 1 0) (P : Problem 1 1 1 2 1 0 (fun _ => 1)) (a : Args) (init : AOState 1 1 1 2 1 0 fun _ => 1) (o o' : Output _)
    (d d' : Diagnostics), ValidSVD P.params ∧ 0 < P.params.nInner ∧ cmfAoadmm P a init = .ok o ∧ cmfAoadmm (regsP π P) a (regsS π init) = .ok o' ∧
    o.diag = some d ∧ o'.diag = some d' ∧ d.stopping = some true ∧ d'.stopping = some false := by
  obtain ⟨prm, hP, hN, -, hs⟩ := exists_params 1 1 none 1
  obtain ⟨out, d, h, hd, -, h1, -⟩ := run_zP_of hP hN hs
  obtain ⟨i, hsw⟩ := sweep_zP hP hN hs
  have hX : (regsP swapA (zP prm)).X ≠ 0 := fun h => by
    have := congrFun (congrFun (congrFun h 0) 0) 0
    simp [regsP, zP, scX, sc] at this
  set a : Args := ⟨1, some 1, some 1, some (1 / 10000), true, 0⟩ with ha
  set init := zS 1 1 (fun _ => 0) ![0, 2] (fun _ => 1) fun _ => 0 with hinit
  have hsw' : sweep (regsP swapA (zP prm)) (regsS swapA init) = .ok (regsS swapA (zS 0 1 ![0, 2] (fun _ => 0) (fun _ => 1) fun _ => 0), i) := by
    rw [sweep_regs, hsw]; rfl
  obtain ⟨s', hb, hst, -⟩ := body_eval hX (a := a) (tol := 1) (abs := 1) (ft := 1 / 10000)
    ⟨rfl, one_ne_zero⟩ rfl ⟨rfl, by norm_num⟩ (s := initAcc (aoOps (regsP swapA (zP prm))) a none (regsS swapA init)) hsw' (.inl rfl) rfl
  rw [check_swap, Bool.false_and] at hb
  have hrun : run (aoOps (regsP swapA (zP prm))) a 1 (initAcc (aoOps (regsP swapA (zP prm))) a none (regsS swapA init)) =
      .ok { s' with log := s'.log ++ [] } := by
    rw [run, hb]
    rfl
  have h' : cmfAoadmm (regsP swapA (zP prm)) a (regsS swapA init) = .ok ⟨s'.st, some (diagnostics (aoOps (regsP swapA (zP prm))) a { s' with log := s'.log ++ [] }), s'.log ++ []⟩ := by
    unfold cmfAoadmm fit
    rw [show a.nIterMax.toNat = 1 from rfl, hrun]
    rfl
  obtain ⟨d', hd', -, r1, -, r3⟩ := report _ a rfl _ _ h'
  refine ⟨swapA, zP prm, a, init, out, _, d, d', hP, by show 0 < prm.nInner; omega, h, h', hd, hd', h1, ?_⟩
  cases hd'
  have hn : (diagnostics (aoOps (regsP swapA (zP prm))) a { s' with log := s'.log ++ [] }).stopping ≠ some true := by
    intro hc
    obtain ⟨-, -, t, -, ht⟩ := r1 hc
    rw [show (Output.st _) = _ from hst, check_swap] at ht
    cases ht
  have hn2 : (diagnostics (aoOps (regsP swapA (zP prm))) a { s' with log := s'.log ++ [] }).stopping ≠ none := fun hc => (r3.1 hc).1 1 ⟨rfl, one_ne_zero⟩
  cases hx : (diagnostics (aoOps (regsP swapA (zP prm))) a { s' with log := s'.log ++ [] }).stopping with
  | none => exact absurd hx hn2
  | some b =>
    cases b
    · rfl
    · exact absurd hx hn

end Verif.Props
