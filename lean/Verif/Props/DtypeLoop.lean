import Verif.Dtype.Loop
import Verif.Props.DtypeTensor
import Verif.Props.LoopFalse
import Verif.Props.LoopSvd

/-!
# C101: integer arrays as initial values of `cmf_aoadmm`

Integer arrays are accepted as initial values. The first mode and its auxiliary variables are updated in place, so that an
integer array stays an integer array for the whole call and all updates are truncated.
-/

namespace Verif.Props

open Verif.ADMM Verif.Loop Verif.NumType Verif.Penalties Verif.Spec Finset Matrix

section
variable {I K R n nA nB nC : ℕ} {J : Fin I → ℕ}

/-- All entries are integers. -/
def IntMat {m k : ℕ} (M : Matrix (Fin m) (Fin k) ℝ) : Prop := ∀ i r, IsInt (M i r)

theorem stepAD_float {dP : Fin n → Dtype} {pens : Fin n → PenA I R} {o : Option ℝ} (h : o = none → ∀ p, dP p = .float) (ρ : Fin I → ℝ)
    (svds : Fin I → SVD R R R) (rhs : Fin I → Fin R → ℝ) (s : MatState I R n) : stepAD .float dP pens o ρ svds rhs s = stepA pens o ρ svds rhs s := by
  have e : ∀ p Y aux, auxAD (dP p) (pens p) o ρ Y aux = auxA (pens p) o ρ Y aux := by
    intro p Y aux
    unfold auxAD auxA
    cases o with
    | some m => rfl
    | none =>
      cases (pens p).row with
      | none => rfl
      | some u => simp only [h rfl p]; rfl
  unfold stepAD stepA
  simp only [e]
  rfl

theorem admmUpdateAD_float {dP : Fin n → Dtype} {constant : Bool} (h : constant = false → ∀ p, dP p = .float) (P : Params R) (X : Ragged I K J)
    (pens : Fin n → PenA I R) (l2 : ℝ) (F : Factors I K R J) (aux dual : Fin n → Matrix (Fin I) (Fin R) ℝ) :
    admmUpdateAD .float dP P X pens l2 constant F aux dual = admmUpdateA P X pens l2 constant F aux dual := by
  unfold admmUpdateAD admmUpdateA
  cases hf : feasPenalties P.scale constant (crossA F) with
  | error e => simp only [Except.bind]
  | ok ρ =>
    have ho : ρ.1 = none → ∀ p, dP p = .float := by
      intro h0
      refine h ?_
      cases constant with
      | false => rfl
      | true =>
        simp only [feasPenalties, if_true] at hf
        cases hv : vecMax (List.ofFn fun i => feasPenalty P.scale (crossA F i)) with
        | error e => rw [hv] at hf; cases hf
        | ok m =>
          rw [hv] at hf
          simp only [Except.map, Except.ok.injEq] at hf
          rw [← hf] at h0
          cases h0
    have : ∀ svds rhs, stepAD .float dP pens ρ.1 ρ.2 svds rhs = stepA pens ρ.1 ρ.2 svds rhs := fun svds rhs =>
      funext fun s => stepAD_float ho ρ.2 svds rhs s
    simp only [Except.bind]
    rw [this]

/-- Floating-point arrays: the call is the one of the model without types. The auxiliary variables may be integer arrays if they are replaced as a whole. -/
theorem C101_float_partial (P : Problem I K R nA nB nC J) (dP : Fin nA → Dtype) (h : P.constA = false → ∀ p, dP p = .float) (a : Args)
    (init : AOState I K R nA nB nC J) : cmfAoadmmD .float dP P a init = cmfAoadmm P a init := by
  have : aoOpsD .float dP P = aoOps P := by
    unfold aoOpsD aoOps sweep
    have : sweepAD .float dP P = sweepA P := by
      funext s
      unfold sweepAD sweepA
      rw [admmUpdateAD_float h]
    rw [this]
  unfold cmfAoadmmD cmfAoadmm
  rw [this]

/-- What the A-update keeps. -/
theorem admmUpdateAD_keep {dA : Dtype} {dP : Fin n → Dtype} {P : Params R} {X : Ragged I K J} {pens : Fin n → PenA I R} {l2 : ℝ} {constant : Bool}
    {F : Factors I K R J} {aux dual : Fin n → Matrix (Fin I) (Fin R) ℝ} {t : MatState I R n}
    (h : admmUpdateAD dA dP P X pens l2 constant F aux dual = .ok t) {Q : MatState I R n → Prop} (h0 : Q ⟨F.A, aux, dual⟩)
    (hs : ∀ o ρ svds rhs s, (constant = false → o = none) → Q s → Q (stepAD dA dP pens o ρ svds rhs s)) : Q t := by
  unfold admmUpdateAD at h
  cases hf : feasPenalties P.scale constant (crossA F) with
  | error e => rw [hf] at h; cases h
  | ok ρ =>
    rw [hf] at h
    simp only [Except.bind] at h
    split at h
    · cases h
    · cases h
      have ho : constant = false → ρ.1 = none := by
        rintro rfl
        simp only [feasPenalties, Bool.false_eq_true, if_false, Except.ok.injEq] at hf
        rw [← hf]
      have key : ∀ N s, Q s → Q (innerLoop (stepAD dA dP pens ρ.1 ρ.2 (fun i => P.svd (addRidge (crossA F i) (ρ.2 i) n l2)) (rhsA X F))
          (matStop P.innerTol) N s) := by
        intro N
        induction N with
        | zero => exact fun s h => h
        | succ N ih =>
          intro s h
          rw [innerLoop]
          split
          · exact hs _ _ _ _ _ ho h
          · exact ih _ (hs _ _ _ _ _ ho h)
      exact key _ _ h0

theorem sweepB_keepA {P : Problem I K R nA nB nC J} {s t : AOState I K R nA nB nC J} (h : sweepB P s = .ok t) :
    t.F.A = s.F.A ∧ t.auxA = s.auxA := by
  unfold sweepB at h
  split at h
  · cases hb : admmUpdateB P.params P.X P.pensB P.l2.2.1 P.constB s.F s.auxB s.dualB with
    | error e => rw [hb] at h; cases h
    | ok x =>
      rw [hb] at h
      simp only [Except.map, Except.ok.injEq] at h
      subst h
      exact ⟨rfl, rfl⟩
  · cases h; exact ⟨rfl, rfl⟩

theorem sweepC_keepA (P : Problem I K R nA nB nC J) (s : AOState I K R nA nB nC J) : (sweepC P s).F.A = s.F.A ∧ (sweepC P s).auxA = s.auxA := by
  unfold sweepC
  split
  · exact ⟨rfl, rfl⟩
  · exact ⟨rfl, rfl⟩

/-- What the call keeps about A and its auxiliary variables. -/
theorem cmfAoadmmD_keep {dA : Dtype} {dP : Fin nA → Dtype} {P : Problem I K R nA nB nC J} {a : Args} {init : AOState I K R nA nB nC J} {out : Output _}
    (h : cmfAoadmmD dA dP P a init = .ok out) {Q : Matrix (Fin I) (Fin R) ℝ → (Fin nA → Matrix (Fin I) (Fin R) ℝ) → Prop}
    (h0 : Q init.F.A init.auxA)
    (hs : ∀ o ρ svds rhs (s : MatState I R nA), (P.constA = false → o = none) → Q s.x s.aux →
      Q (stepAD dA dP P.pensA o ρ svds rhs s).x (stepAD dA dP P.pensA o ρ svds rhs s).aux) : Q out.st.F.A out.st.auxA := by
  obtain ⟨l, hl⟩ := fit_hist h
  refine hist_inv hl.1 (Q := fun s => Q s.F.A s.auxA) h0 ?_
  intro s s' i hQ hsw
  change (sweepB P s).bind (fun t => sweepAD dA dP P (sweepC P t)) = _ at hsw
  cases hb : sweepB P s with
  | error e => rw [hb] at hsw; cases hsw
  | ok t =>
    rw [hb] at hsw
    simp only [Except.bind] at hsw
    obtain ⟨e1, e2⟩ := sweepB_keepA hb
    obtain ⟨e3, e4⟩ := sweepC_keepA P t
    have hQ' : Q (sweepC P t).F.A (sweepC P t).auxA := by rw [e3, e4, e1, e2]; exact hQ
    unfold sweepAD at hsw
    split at hsw
    · cases hu : admmUpdateAD dA dP P.params P.X P.pensA P.l2.1 P.constA (sweepC P t).F (sweepC P t).auxA (sweepC P t).dualA with
      | error e => rw [hu] at hsw; cases hsw
      | ok u =>
        rw [hu] at hsw
        simp only [Except.map, Except.ok.injEq, Prod.mk.injEq] at hsw
        rw [← hsw.1]
        exact admmUpdateAD_keep (Q := fun s => Q s.x s.aux) hu hQ' fun o ρ svds rhs s ho hs' => hs o ρ svds rhs s ho hs'
    · simp only [Except.ok.injEq, Prod.mk.injEq] at hsw
      rw [← hsw.1]; exact hQ'

/-- An integer array for A: all entries of the returned A are integers, whatever the data. -/
theorem C101_integer (P : Problem I K R nA nB nC J) (dP : Fin nA → Dtype) (a : Args) (init : AOState I K R nA nB nC J) (hA : IntMat init.F.A)
    (out : Output _) (h : cmfAoadmmD .int dP P a init = .ok out) : IntMat out.st.F.A :=
  cmfAoadmmD_keep h (Q := fun A _ => IntMat A) hA fun _ _ _ _ _ _ _ _ _ => store_int _

/-- An integer array for an auxiliary variable of the first mode, and no constant feasibility penalty: all entries of the returned auxiliary variable are integers. -/
theorem C101_aux_integer (P : Problem I K R nA nB nC J) (dA : Dtype) (dP : Fin nA → Dtype) (p : Fin nA) (hp : dP p = .int) (hc : P.constA = false) (a : Args)
    (init : AOState I K R nA nB nC J) (hA : IntMat (init.auxA p)) (out : Output _) (h : cmfAoadmmD dA dP P a init = .ok out) : IntMat (out.st.auxA p) := by
  refine cmfAoadmmD_keep h (Q := fun _ aux => IntMat (aux p)) hA ?_
  intro o ρ svds rhs s ho hs i r
  obtain rfl := ho hc
  simp only [stepAD, auxAD]
  cases (P.pensA p).row with
  | none => exact hs i r
  | some u => simp only [hp]; exact store_int _

/-! ### Calls with one 1 × 1 matrix -/

theorem cmfAoadmmD_scP {n : ℕ} (dA : Dtype) (dP : Fin n → Dtype) (prm : Params 1) (x l2 : ℝ) {pens : Fin n → PenA 1 1} (hu : ∀ p, (pens p).row.isSome = true)
    (init : AOState 1 1 1 n 0 0 fun _ => 1) : ∃ out, cmfAoadmmD dA dP (scP prm x l2 pens) (plain 1) init = .ok out := by
  have hany : (List.ofFn pens).any (fun p => p.row.isNone) = false := by
    rw [List.any_eq_false]
    intro q hq
    obtain ⟨p, rfl⟩ := (List.mem_ofFn' _ _).1 hq
    have := hu p
    cases hr : (pens p).row with
    | none => rw [hr] at this; cases this
    | some _ => simp
  have hup : ∀ X l2 F aux dual, ∃ t, admmUpdateAD dA dP prm (J := fun _ : Fin 1 => 1) (K := 1) X pens l2 false F aux dual = .ok t := by
    intro X l2 F aux dual
    unfold admmUpdateAD
    rw [hany]
    simp only [Bool.and_false, Bool.false_eq_true, if_false, feasPenalties, Except.bind]
    exact ⟨_, rfl⟩
  have hsw : ∃ r, (aoOpsD dA dP (scP prm x l2 pens)).sweep init = .ok r := by
    obtain ⟨t, ht⟩ := hup (scX x) l2 init.F init.auxA init.dualA
    have e : sweepAD dA dP (scP prm x l2 pens) init
        = .ok ({ init with weights := none, F := ⟨t.x, init.F.B, init.F.C⟩, auxA := t.aux, dualA := t.dual }, some ⟨rhsA (scX x) init.F, crossA init.F⟩) := by
      unfold sweepAD
      simp only [scP, if_true, ht, Except.map]
    have e' : (aoOpsD dA dP (scP prm x l2 pens)).sweep init = sweepAD dA dP (scP prm x l2 pens) init := rfl
    exact ⟨_, e'.trans e⟩
  obtain ⟨⟨s, i⟩, hsw⟩ := hsw
  have h1 : sweeps (aoOpsD dA dP (scP prm x l2 pens)) 1 init = .ok s := by
    rw [sweeps, sweeps]; simp only [Except.bind, hsw, Except.map]
  obtain ⟨o, ho, -⟩ := fit_plain (aoOpsD dA dP (scP prm x l2 pens)) none init s 1 h1
  rw [Nat.cast_one] at ho
  exact ⟨o, ho⟩

theorem half_not_int : ¬IsInt (1 / 2 : ℝ) := by
  rintro ⟨z, hz⟩
  have h : (2 * z : ℤ) = 1 := by
    have : (2 * z : ℝ) = 1 := by rw [← hz]; norm_num
    exact_mod_cast this
  omega

/-- C101 is false: the same initial values, as integers and as floating-point numbers, give different results — with the data 1, B = C = 1, `l2_penalty = 1`, the first
update of A is 1/2. -/
theorem C101_false : ∃ (P : Problem 1 1 1 0 0 0 fun _ => 1) (init : AOState 1 1 1 0 0 0 fun _ => 1) (out out' : Output _), ValidSVD P.params ∧
    IntMat init.F.A ∧ cmfAoadmmD .float Fin.elim0 P (plain 1) init = .ok out ∧ cmfAoadmmD .int Fin.elim0 P (plain 1) init = .ok out' ∧
    out.st.F.A 0 0 = 1 / 2 ∧ out'.st.F.A ≠ out.st.F.A := by
  obtain ⟨prm, hP, hN, -, hs⟩ := exists_params 1 1 none 1
  obtain ⟨i, hsw⟩ := sweep_scP (n := 0) (x := 1) (l2 := 1) (pens := Fin.elim0) (u := Fin.elim0) (v := Fin.elim0) hP hN hs zero_le_one
    (fun p => p.elim0) (fun p => p.elim0) 1 Fin.elim0 Fin.elim0
  obtain ⟨out, ho, hst⟩ := fit_exists (scP prm 1 1 (n := 0) Fin.elim0) (plain 1) rfl _ _ (sweeps_one hsw)
  obtain ⟨out', ho'⟩ := cmfAoadmmD_scP .int (n := 0) Fin.elim0 prm 1 1 (pens := Fin.elim0) (fun p => p.elim0) (scS 1 Fin.elim0 Fin.elim0)
  have hA : IntMat (scS (n := 0) 1 Fin.elim0 Fin.elim0).F.A := fun _ _ => ⟨1, by simp [scS, scF, sc]⟩
  have hval : out.st.F.A 0 0 = 1 / 2 := by
    rw [hst]
    simp only [scS, scF, sc, scY]
    norm_num
  refine ⟨scP prm 1 1 Fin.elim0, scS 1 Fin.elim0 Fin.elim0, out, out', hP, hA, ?_, ho', hval, fun h => ?_⟩
  · rw [C101_float_partial _ _ (fun _ p => p.elim0)]; exact ho
  · obtain ⟨z, hz⟩ := C101_integer _ _ _ _ hA out' ho' 0 0
    rw [h, hval] at hz
    exact half_not_int ⟨z, hz⟩

/-- A box constraint without integers is satisfied by the auxiliary variable of a call with floating-point arrays, and violated in the same call with an integer array for
the initial auxiliary variable, even if A is a floating-point array. -/
theorem C101_box_false : ∃ (P : Problem 1 1 1 1 0 0 fun _ => 1) (init : AOState 1 1 1 1 0 0 fun _ => 1) (out out' : Output _), ValidSVD P.params ∧
    (P.pensA 0 = (StdPen.box (some (1 / 4)) (some (3 / 4))).toA) ∧ IntMat (init.auxA 0) ∧
    cmfAoadmmD .float (fun _ => .float) P (plain 1) init = .ok out ∧ cmfAoadmmD .float (fun _ => .int) P (plain 1) init = .ok out' ∧
    (1 / 4 ≤ out.st.auxA 0 0 0 ∧ out.st.auxA 0 0 0 ≤ 3 / 4) ∧ ¬(1 / 4 ≤ out'.st.auxA 0 0 0 ∧ out'.st.auxA 0 0 0 ≤ 3 / 4) := by
  obtain ⟨prm, hP, hN, -, hs⟩ := exists_params 1 1 none 1
  obtain ⟨i, hsw⟩ := sweep_scP (n := 1) (x := 1) (l2 := 1) (pens := fun _ => (StdPen.box (some (1 / 4)) (some (3 / 4))).toA)
    (u := fun _ => boxRow (some (1 / 4)) (some (3 / 4)) 1) (v := fun _ => clip (some (1 / 4)) (some (3 / 4))) hP hN hs zero_le_one
    (fun p => rfl) (fun p y ρ aux => by funext r; obtain rfl : r = 0 := Subsingleton.elim _ _; rfl) 1 0 0
  obtain ⟨out, ho, hst⟩ := fit_exists (scP prm 1 1 (n := 1) fun _ => (StdPen.box (some (1 / 4)) (some (3 / 4))).toA) (plain 1) rfl _ _ (sweeps_one hsw)
  obtain ⟨out', ho'⟩ := cmfAoadmmD_scP .float (n := 1) (fun _ => .int) prm 1 1 (pens := fun _ => (StdPen.box (some (1 / 4)) (some (3 / 4))).toA)
    (fun p => rfl) (scS 1 0 0)
  have hA : IntMat ((scS (n := 1) 1 0 0).auxA 0) := fun _ _ => ⟨0, by simp [scS, sc]⟩
  refine ⟨scP prm 1 1 _, scS 1 0 0, out, out', hP, rfl, hA, ?_, ho', ?_, ?_⟩
  · rw [C101_float_partial _ _ (fun _ p => rfl)]; exact ho
  · rw [hst]
    simp only [scS, sc, scY, clip]
    norm_num
  · obtain ⟨z, hz⟩ := C101_aux_integer _ .float (fun _ => .int) 0 rfl rfl _ _ hA out' ho' 0 0
    rw [hz]
    rintro ⟨h1, h2⟩
    have h3 : 0 < z := by
      have : (0 : ℝ) < z := by linarith
      exact_mod_cast this
    have h4 : z < 1 := by
      have : (z : ℝ) < 1 := by linarith
      exact_mod_cast this
    omega

end

end Verif.Props
