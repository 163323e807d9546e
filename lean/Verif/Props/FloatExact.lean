import Verif.Props.FloatFit

/-!
# The exact model as a case of the model with floating-point numbers

C102 leaves much of the computation open. Here the open parts are filled with those of the exact model, and the result is the exact model: the order of the updates and what
they read and write is the same in both.
-/

namespace Verif.Props

open Verif.ADMM Verif.FloatFit Verif.Loop Verif.Penalties Verif.Raise Verif.Spec Finset

section
variable {I K R n nA nB nC : ℕ} {J : Fin I → ℕ}

/-- Auxiliary variables of mode 1 in both models. -/
def toAuxF : AuxB I R J → FAuxB ℝ (P2Aux I J R) I R J
  | .mats X => .mats X
  | .p2 a => .other a

def ofAuxF : FAuxB ℝ (P2Aux I J R) I R J → AuxB I R J
  | .mats X => .mats X
  | .other a => .p2 a

theorem ofAuxF_toAuxF (a : AuxB I R J) : ofAuxF (toAuxF a) = a := by cases a <;> rfl

/-- Factors. -/
def toFF (w : Option (Fin R → ℝ)) (F : Factors I K R J) : FFact ℝ I K R J := ⟨w, F.A, F.B, F.C⟩

def ofFF (F : FFact ℝ I K R J) : Factors I K R J := ⟨F.A, F.B, F.C⟩

/-- States. -/
def toFS (s : AOState I K R nA nB nC J) : FState ℝ (P2Aux I J R) I K R nA nB nC J :=
  ⟨toFF s.weights s.F, s.auxA, s.dualA, fun p => toAuxF (s.auxB p), s.dualB, s.auxC, s.dualC⟩

def ofFS (s : FState ℝ (P2Aux I J R) I K R nA nB nC J) : AOState I K R nA nB nC J :=
  ⟨s.F.weights, ofFF s.F, s.auxA, s.dualA, fun p => ofAuxF (s.auxB p), s.dualB, s.auxC, s.dualC⟩

theorem ofFS_toFS (s : AOState I K R nA nB nC J) : ofFS (toFS s) = s := by
  simp only [ofFS, toFS, toFF, ofFF, ofAuxF_toAuxF]

def toMS {m : ℕ} (s : MatState m R n) : FMatState ℝ m R n := ⟨s.x, s.aux, s.dual⟩

def ofMS {m : ℕ} (s : FMatState ℝ m R n) : MatState m R n := ⟨s.x, s.aux, s.dual⟩

def toRS (s : RagState I R n J) : FRagState ℝ (P2Aux I J R) I R n J := ⟨s.x, fun p => toAuxF (s.aux p), s.dual⟩

def ofRS (s : FRagState ℝ (P2Aux I J R) I R n J) : RagState I R n J := ⟨s.x, fun p => ofAuxF (s.aux p), s.dual⟩

theorem ofRS_toRS (s : RagState I R n J) : ofRS (toRS s) = s := by
  simp only [ofRS, toRS, ofAuxF_toAuxF]

/-- The open parts as in the exact model. After an iteration everything is done that `bodyR` does with the new state. -/
noncomputable def exactEnv (P : RProblem I K R nA nB nC J) (a : Args) : Env ℝ (P2Aux I J R) (Acc (AOState I K R nA nB nC J)) I K R nA nB nC J where
  pensA p := ⟨(P.pensA p).mat, (P.pensA p).row⟩
  pensB p := ⟨fun X ρ aux => ((P.pensB p).update X ρ (ofAuxF aux)).map toAuxF, fun aux dual => (ofAuxF aux).subtract dual⟩
  pensC p := ⟨(P.pensC p).mat⟩
  prepA F := (feasPenalties P.params.scale P.constA (crossA (ofFF F))).map fun ρ =>
    (ρ, fun d => .ok fun i => svdSolveRow (P.params.svd (addRidge (crossA (ofFF F) i) (ρ.2 i) nA P.l2.1)) (ρ.2 i • (∑ p, d p i) + rhsA P.X (ofFF F) i))
  prepB F := (feasPenalties P.params.scale P.constB (crossB (ofFF F))).map fun ρ =>
    (ρ.2, fun d => .ok fun i => svdSolve (P.params.svd (addRidge (crossB (ofFF F) i) (ρ.2 i) nB P.l2.2.1)) (ρ.2 i • (∑ p, Matrix.of (d p i)) + rhsB P.X (ofFF F) i))
  prepC F := .ok (feasPenalty P.params.scale (crossC (ofFF F)), fun d =>
    .ok (svdSolve (P.params.svd (addRidge (crossC (ofFF F)) (feasPenalty P.params.scale (crossC (ofFF F))) nC P.l2.2.2))
      (feasPenalty P.params.scale (crossC (ofFF F)) • (∑ p, Matrix.of (d p)) + rhsC P.X (ofFF F))))
  stopA s t := matStop P.params.innerTol (ofMS s) (ofMS t)
  stopB s t := ragStop P.params.innerTol (ofRS s) (ofRS t)
  stopC s t := matStop P.params.innerTol (ofMS s) (ofMS t)
  observe m u v := bodyR { aoOpsR P with
    sweep := fun _ => .ok (ofFS v, if P.updA then some ⟨rhsA P.X (ofFF u.F), crossA (ofFF u.F)⟩ else none) } a m
  nInner := P.params.nInner
  updA := P.updA
  updB := P.updB
  updC := P.updC

theorem innerLoopR_map {σ τ : Type} (f : σ → τ) {step : σ → Except PyErr σ} {step' : τ → Except PyErr τ} {stop : σ → σ → Bool} {stop' : τ → τ → Bool}
    (h : ∀ s, step' (f s) = (step s).map f) (hs : ∀ s t, stop' (f s) (f t) = stop s t) : ∀ (N : ℕ) (s : σ),
    innerLoopR step' stop' N (f s) = (innerLoopR step stop N s).map f
  | 0, s => rfl
  | N + 1, s => by
    unfold innerLoopR
    rw [h]
    cases hst : step s with
    | error e => simp only [Except.map]
    | ok s' =>
      simp only [Except.map, hs]
      by_cases hb : stop s s' = true
      · rw [if_pos hb, if_pos hb]
      · rw [if_neg hb, if_neg hb]
        exact innerLoopR_map f h hs N s'

theorem seqPi_map {n : ℕ} {β γ : Type} (φ : β → γ) (f : Fin n → Except PyErr β) :
    seqPi n (fun i => (f i).map φ) = (seqPi n f).map fun g i => φ (g i) := by
  cases h : seqPi n f with
  | ok g =>
    refine seqPi_of_ok fun i => ?_
    rw [seqPi_ok h i]
    rfl
  | error e =>
    obtain ⟨i, hi, hj⟩ := seqPi_error h
    refine seqPi_of_error (i := i) ?_ fun j hji => ?_
    · rw [hi]; rfl
    · obtain ⟨x, hx⟩ := hj j hji
      exact ⟨φ x, by rw [hx]; rfl⟩

theorem matchMap {β γ : Type} (y : Except PyErr β) (f : β → γ) :
    (match y with
      | .error e => .error e
      | .ok a => .ok (f a)) = y.map f := by
  cases y <;> rfl

theorem map_map_exc {β γ δ : Type} (y : Except PyErr β) (f : β → γ) (g : γ → δ) : (y.map f).map g = y.map fun a => g (f a) := by
  cases y <;> rfl

theorem auxAF_exact (pen : RPenA I R) (o : Option ℝ) (ρ : Fin I → ℝ) (Y aux : Matrix (Fin I) (Fin R) ℝ) :
    auxAF ⟨pen.mat, pen.row⟩ o ρ Y aux = auxAR pen o ρ Y aux := by
  unfold auxAF auxAR
  cases o with
  | some m => rfl
  | none =>
    cases h : pen.row with
    | some u => simp only
    | none => simp only

theorem stepAF_exact (pens : Fin n → RPenA I R) (o : Option ℝ) (ρ : Fin I → ℝ) (svds : Fin I → SVD R R R) (rhs : Fin I → Fin R → ℝ) (s : MatState I R n) :
    stepAF (fun p => ⟨(pens p).mat, (pens p).row⟩) o ρ (fun d => .ok fun i => svdSolveRow (svds i) (ρ i • (∑ p, d p i) + rhs i)) (toMS s)
      = (stepAR pens o ρ svds rhs s).map toMS := by
  let x : Matrix (Fin I) (Fin R) ℝ := fun i => svdSolveRow (svds i) (ρ i • (∑ p, (s.aux p - s.dual p) i) + rhs i)
  have h1 : stepAF (fun p => ⟨(pens p).mat, (pens p).row⟩) o ρ (fun d => .ok fun i => svdSolveRow (svds i) (ρ i • (∑ p, d p i) + rhs i)) (toMS s)
      = (seqPi n fun p => auxAF ⟨(pens p).mat, (pens p).row⟩ o ρ (x + s.dual p) (s.aux p)).map
        fun aux => (⟨x, aux, fun p i r => x i r - (aux p i r - s.dual p i r)⟩ : FMatState ℝ I R n) := by
    unfold stepAF
    simp only
    split
    · rename_i e he
      rw [show (seqPi n fun p => auxAF ⟨(pens p).mat, (pens p).row⟩ o ρ (x + s.dual p) (s.aux p)) = .error e from he]
      rfl
    · rename_i aux he
      rw [show (seqPi n fun p => auxAF ⟨(pens p).mat, (pens p).row⟩ o ρ (x + s.dual p) (s.aux p)) = .ok aux from he]
      rfl
  have h2 : stepAR pens o ρ svds rhs s = (seqPi n fun p => auxAR (pens p) o ρ (x + s.dual p) (s.aux p)).map
      fun aux => (⟨x, aux, fun p => x - (aux p - s.dual p)⟩ : MatState I R n) := by
    unfold stepAR
    simp only
    split
    · rename_i e he
      rw [show (seqPi n fun p => auxAR (pens p) o ρ (x + s.dual p) (s.aux p)) = .error e from he]
      rfl
    · rename_i aux he
      rw [show (seqPi n fun p => auxAR (pens p) o ρ (x + s.dual p) (s.aux p)) = .ok aux from he]
      rfl
  rw [h1, h2, map_map_exc]
  simp only [auxAF_exact]
  rfl

theorem stepCF_exact (pens : Fin n → RPenC K R) (ρ : ℝ) (svd : SVD R R R) (rhs : Matrix (Fin K) (Fin R) ℝ) (s : MatState K R n) :
    stepCF (fun p => ⟨(pens p).mat⟩) ρ (fun d => .ok (svdSolve svd (ρ • (∑ p, Matrix.of (d p)) + rhs))) (toMS s) = (stepCR pens ρ svd rhs s).map toMS := by
  let x : Matrix (Fin K) (Fin R) ℝ := svdSolve svd (ρ • (∑ p, (s.aux p - s.dual p)) + rhs)
  have h1 : stepCF (fun p => ⟨(pens p).mat⟩) ρ (fun d => .ok (svdSolve svd (ρ • (∑ p, Matrix.of (d p)) + rhs))) (toMS s)
      = (seqPi n fun p => (pens p).mat (x + s.dual p) ρ (s.aux p)).map
        fun aux => (⟨x, aux, fun p i r => x i r - (aux p i r - s.dual p i r)⟩ : FMatState ℝ K R n) := by
    unfold stepCF
    simp only
    split
    · rename_i e he
      rw [show (seqPi n fun p => (pens p).mat (x + s.dual p) ρ (s.aux p)) = .error e from he]
      rfl
    · rename_i aux he
      rw [show (seqPi n fun p => (pens p).mat (x + s.dual p) ρ (s.aux p)) = .ok aux from he]
      rfl
  have h2 : stepCR pens ρ svd rhs s = (seqPi n fun p => (pens p).mat (x + s.dual p) ρ (s.aux p)).map
      fun aux => (⟨x, aux, fun p => x - (aux p - s.dual p)⟩ : MatState K R n) := by
    unfold stepCR
    simp only
    split
    · rename_i e he
      rw [show (seqPi n fun p => (pens p).mat (x + s.dual p) ρ (s.aux p)) = .error e from he]
      rfl
    · rename_i aux he
      rw [show (seqPi n fun p => (pens p).mat (x + s.dual p) ρ (s.aux p)) = .ok aux from he]
      rfl
  rw [h1, h2, map_map_exc]
  rfl

theorem stepBF_exact (pens : Fin n → RPenB I R J) (ρ : Fin I → ℝ) (svds : Fin I → SVD R R R) (rhs : Ragged I R J) (s : RagState I R n J) :
    stepBF (fun p => ⟨fun X ρ aux => ((pens p).update X ρ (ofAuxF aux)).map toAuxF, fun aux dual => (ofAuxF aux).subtract dual⟩) ρ
      (fun d => .ok fun i => svdSolve (svds i) (ρ i • (∑ p, Matrix.of (d p i)) + rhs i)) (toRS s) = (stepBR pens ρ svds rhs s).map toRS := by
  let x : Ragged I R J := fun i => svdSolve (svds i) (ρ i • (∑ p, (s.aux p).subtract (s.dual p) i) + rhs i)
  let y : Ragged I R J := fun i => svdSolve (svds i) (ρ i • (∑ p, Matrix.of ((ofAuxF (toAuxF (s.aux p))).subtract (s.dual p) i)) + rhs i)
  have hy : y = x := by
    funext i
    have : ∀ p, (Matrix.of ((ofAuxF (toAuxF (s.aux p))).subtract (s.dual p) i)) = (s.aux p).subtract (s.dual p) i := fun p => by
      rw [ofAuxF_toAuxF]; rfl
    simp only [x, y]
    rw [Finset.sum_congr rfl fun p _ => this p]
  have h1 : stepBF (fun p => ⟨fun X ρ aux => ((pens p).update X ρ (ofAuxF aux)).map toAuxF, fun aux dual => (ofAuxF aux).subtract dual⟩) ρ
      (fun d => .ok fun i => svdSolve (svds i) (ρ i • (∑ p, Matrix.of (d p i)) + rhs i)) (toRS s)
      = (seqPi n fun p => ((pens p).update (fun i => y i + s.dual p i) ρ (ofAuxF (toAuxF (s.aux p)))).map toAuxF).map
        fun aux => (⟨y, aux, fun p i j r => y i j r - (ofAuxF (aux p)).subtract (s.dual p) i j r⟩ : FRagState ℝ (P2Aux I J R) I R n J) := by
    unfold stepBF
    simp only
    split
    · rename_i e he
      rw [show (seqPi n fun p => ((pens p).update (fun i => y i + s.dual p i) ρ (ofAuxF (toAuxF (s.aux p)))).map toAuxF) = .error e from he]
      rfl
    · rename_i aux he
      rw [show (seqPi n fun p => ((pens p).update (fun i => y i + s.dual p i) ρ (ofAuxF (toAuxF (s.aux p)))).map toAuxF) = .ok aux from he]
      rfl
  have h2 : stepBR pens ρ svds rhs s = (seqPi n fun p => (pens p).update (fun i => x i + s.dual p i) ρ (s.aux p)).map
      fun aux => (⟨x, aux, fun p i => x i - (aux p).subtract (s.dual p) i⟩ : RagState I R n J) := by
    unfold stepBR
    simp only
    split
    · rename_i e he
      rw [show (seqPi n fun p => (pens p).update (fun i => x i + s.dual p i) ρ (s.aux p)) = .error e from he]
      rfl
    · rename_i aux he
      rw [show (seqPi n fun p => (pens p).update (fun i => x i + s.dual p i) ρ (s.aux p)) = .ok aux from he]
      rfl
  rw [h1, h2, hy, seqPi_map, map_map_exc, map_map_exc]
  simp only [ofAuxF_toAuxF]
  rfl

theorem sweepBF_exact (P : RProblem I K R nA nB nC J) (a : Args) (s : AOState I K R nA nB nC J) : sweepBF (exactEnv P a) (toFS s) = (sweepBR P s).map toFS := by
  unfold sweepBF sweepBR
  rw [show (exactEnv P a).updB = P.updB from rfl]
  cases P.updB with
  | false => simp only [Bool.false_eq_true, if_false, Except.map]
  | true =>
    simp only [if_true]
    rw [show (exactEnv P a).prepB (toFS s).F = (feasPenalties P.params.scale P.constB (crossB s.F)).map fun ρ =>
      (ρ.2, fun d => .ok fun i => svdSolve (P.params.svd (addRidge (crossB s.F i) (ρ.2 i) nB P.l2.2.1)) (ρ.2 i • (∑ p, Matrix.of (d p i)) + rhsB P.X s.F i)) from rfl]
    unfold admmUpdateBR
    cases hf : feasPenalties P.params.scale P.constB (crossB s.F) with
    | error e => simp only [Except.map]
    | ok ρ =>
      simp only [Except.map]
      have key := innerLoopR_map toRS (step := stepBR P.pensB ρ.2 (fun i => P.params.svd (addRidge (crossB s.F i) (ρ.2 i) nB P.l2.2.1)) (rhsB P.X s.F))
        (stop := ragStop P.params.innerTol) (stop' := (exactEnv P a).stopB)
        (fun s' => stepBF_exact P.pensB ρ.2 (fun i => P.params.svd (addRidge (crossB s.F i) (ρ.2 i) nB P.l2.2.1)) (rhsB P.X s.F) s')
        (fun s' t' => by show ragStop _ (ofRS (toRS s')) (ofRS (toRS t')) = _; rw [ofRS_toRS, ofRS_toRS]) P.params.nInner ⟨s.F.B, s.auxB, s.dualB⟩
      have key' : innerLoopR (stepBF (exactEnv P a).pensB ρ.2 fun d => .ok fun i =>
          svdSolve (P.params.svd (addRidge (crossB s.F i) (ρ.2 i) nB P.l2.2.1)) (ρ.2 i • (∑ p, Matrix.of (d p i)) + rhsB P.X s.F i)) (exactEnv P a).stopB
          (exactEnv P a).nInner ⟨(toFS s).F.B, (toFS s).auxB, (toFS s).dualB⟩ = _ := key
      rw [key']
      cases innerLoopR (stepBR P.pensB ρ.2 (fun i => P.params.svd (addRidge (crossB s.F i) (ρ.2 i) nB P.l2.2.1)) (rhsB P.X s.F)) (ragStop P.params.innerTol)
        P.params.nInner ⟨s.F.B, s.auxB, s.dualB⟩ with
      | error e => simp only [Except.map]
      | ok t => simp only [Except.map]; rfl

theorem sweepCF_exact (P : RProblem I K R nA nB nC J) (a : Args) (s : AOState I K R nA nB nC J) : sweepCF (exactEnv P a) (toFS s) = (sweepCR P s).map toFS := by
  unfold sweepCF sweepCR
  rw [show (exactEnv P a).updC = P.updC from rfl]
  cases P.updC with
  | false => simp only [Bool.false_eq_true, if_false, Except.map]
  | true =>
    simp only [if_true]
    unfold admmUpdateCR
    have key := innerLoopR_map toMS (step := stepCR P.pensC (feasPenalty P.params.scale (crossC s.F))
        (P.params.svd (addRidge (crossC s.F) (feasPenalty P.params.scale (crossC s.F)) nC P.l2.2.2)) (rhsC P.X s.F))
      (stop := matStop P.params.innerTol) (stop' := (exactEnv P a).stopC)
      (fun s' => stepCF_exact P.pensC _ _ (rhsC P.X s.F) s')
      (fun s' t' => rfl) P.params.nInner ⟨s.F.C, s.auxC, s.dualC⟩
    simp only
    change Except.map _ (innerLoopR _ (exactEnv P a).stopC P.params.nInner (toMS ⟨s.F.C, s.auxC, s.dualC⟩)) = _
    erw [key]
    cases innerLoopR (stepCR P.pensC (feasPenalty P.params.scale (crossC s.F))
        (P.params.svd (addRidge (crossC s.F) (feasPenalty P.params.scale (crossC s.F)) nC P.l2.2.2)) (rhsC P.X s.F)) (matStop P.params.innerTol)
        P.params.nInner ⟨s.F.C, s.auxC, s.dualC⟩ with
    | error e => simp only [Except.map]
    | ok t => simp only [Except.map]; rfl

/-- The A-update, with the intermediate results that the loop keeps. -/
theorem sweepAF_exact (P : RProblem I K R nA nB nC J) (a : Args) (s : AOState I K R nA nB nC J) :
    sweepAR P s = (sweepAF (exactEnv P a) (toFS s)).map fun v => (ofFS v, if P.updA then some ⟨rhsA P.X s.F, crossA s.F⟩ else none) := by
  unfold sweepAF sweepAR
  rw [show (exactEnv P a).updA = P.updA from rfl]
  cases P.updA with
  | false => simp only [Bool.false_eq_true, if_false, Except.map, ofFS_toFS]
  | true =>
    simp only [if_true]
    rw [show (exactEnv P a).prepA (toFS s).F = (feasPenalties P.params.scale P.constA (crossA s.F)).map fun ρ =>
      (ρ, fun d => .ok fun i => svdSolveRow (P.params.svd (addRidge (crossA s.F i) (ρ.2 i) nA P.l2.1)) (ρ.2 i • (∑ p, d p i) + rhsA P.X s.F i)) from rfl]
    unfold admmUpdateAR
    cases hf : feasPenalties P.params.scale P.constA (crossA s.F) with
    | error e => simp only [Except.map]
    | ok ρ =>
      simp only [Except.map]
      have key := innerLoopR_map toMS (step := stepAR P.pensA ρ.1 ρ.2 (fun i => P.params.svd (addRidge (crossA s.F i) (ρ.2 i) nA P.l2.1)) (rhsA P.X s.F))
        (stop := matStop P.params.innerTol) (stop' := (exactEnv P a).stopA)
        (fun s' => stepAF_exact P.pensA ρ.1 ρ.2 (fun i => P.params.svd (addRidge (crossA s.F i) (ρ.2 i) nA P.l2.1)) (rhsA P.X s.F) s')
        (fun s' t' => rfl) P.params.nInner ⟨s.F.A, s.auxA, s.dualA⟩
      have key' : innerLoopR (stepAF (exactEnv P a).pensA ρ.1 ρ.2 fun d => .ok fun i =>
          svdSolveRow (P.params.svd (addRidge (crossA s.F i) (ρ.2 i) nA P.l2.1)) (ρ.2 i • (∑ p, d p i) + rhsA P.X s.F i)) (exactEnv P a).stopA (exactEnv P a).nInner
          ⟨(toFS s).F.A, (toFS s).auxA, (toFS s).dualA⟩ = _ := key
      rw [key']
      cases innerLoopR (stepAR P.pensA ρ.1 ρ.2 (fun i => P.params.svd (addRidge (crossA s.F i) (ρ.2 i) nA P.l2.1)) (rhsA P.X s.F)) (matStop P.params.innerTol)
        P.params.nInner ⟨s.F.A, s.auxA, s.dualA⟩ with
      | error e => simp only [Except.map]
      | ok t =>
        simp only [Except.map]
        have : ofFS { toFS s with F := ⟨none, (toMS t).x, (toFS s).F.B, (toFS s).F.C⟩, auxA := (toMS t).aux, dualA := (toMS t).dual }
            = { s with weights := none, F := ⟨t.x, s.F.B, s.F.C⟩, auxA := t.aux, dualA := t.dual } := by
          simp only [ofFS, toFS, toMS, ofAuxF_toAuxF, ofFF, toFF]
        rw [this]

theorem checkStop_st {σ : Type} {a : Args} {f : Bool} {p q : PyF} {s m' : Acc σ} {b : Bool} (h : checkStop a f p q s = .ok (m', b)) : m'.st = s.st := by
  unfold checkStop at h
  split at h
  · split at h
    · cases h
    · split at h
      · injection h with h; injection h with h1 _; rw [← h1]
      · split at h
        · injection h with h; injection h with h1 _; rw [← h1]
        · injection h with h; injection h with h1 _; rw [← h1]
  · injection h with h; injection h with h1 _; rw [← h1]

/-- The state after an iteration is the result of the updates. -/
theorem bodyR_st {σ ι : Type} {O : ROps σ ι} {a : Args} {m m' : Acc σ} {b : Bool} (h : bodyR O a m = .ok (m', b)) : ∃ i, O.sweep m.st = .ok (m'.st, i) := by
  unfold bodyR at h
  cases hs : O.sweep m.st with
  | error e => rw [hs] at h; cases h
  | ok y =>
    obtain ⟨st, i⟩ := y
    rw [hs] at h
    simp only at h
    refine ⟨i, ?_⟩
    split at h
    · split at h
      · injection h with h; injection h with h1 _; rw [← h1]
      · split at h
        · cases h
        · rw [checkStop_st h]
    · injection h with h; injection h with h1 _; rw [← h1]

theorem toAuxF_ofAuxF (a : FAuxB ℝ (P2Aux I J R) I R J) : toAuxF (ofAuxF a) = a := by cases a <;> rfl

theorem toFS_ofFS (s : FState ℝ (P2Aux I J R) I K R nA nB nC J) : toFS (ofFS s) = s := by
  simp only [ofFS, toFS, toFF, ofFF, toAuxF_ofAuxF]

/-- An iteration uses the updates only through their result. -/
theorem bodyR_congr {σ ι : Type} (O : ROps σ ι) (a : Args) (m : Acc σ) {y : σ × ι} (h : O.sweep m.st = .ok y) :
    bodyR O a m = bodyR { O with sweep := fun _ => .ok y } a m := by
  unfold bodyR
  rw [h]

/-- All updates of an iteration. -/
theorem sweepF_exact (P : RProblem I K R nA nB nC J) (a : Args) (s : AOState I K R nA nB nC J) :
    sweepR P s = (sweepF (exactEnv P a) (toFS s)).map fun x => (ofFS x.2, if P.updA then some ⟨rhsA P.X (ofFF x.1.F), crossA (ofFF x.1.F)⟩ else none) := by
  unfold sweepF sweepR
  rw [sweepBF_exact]
  cases sweepBR P s with
  | error e => simp only [Except.map]
  | ok t =>
    simp only [Except.map]
    rw [sweepCF_exact]
    cases sweepCR P t with
    | error e => simp only [Except.map]
    | ok u =>
      simp only [Except.map]
      rw [sweepAF_exact P a u]
      cases sweepAF (exactEnv P a) (toFS u) with
      | error e => simp only [Except.map]
      | ok v => simp only [Except.map]; rfl

/-- C102, the exact model: with the open parts filled in as there, the loop returns the states that the exact loop returns, and raises what that raises. -/
theorem C102_exact (P : RProblem I K R nA nB nC J) (a : Args) : ∀ (n : ℕ) (m : Acc (AOState I K R nA nB nC J)),
    (runR (aoOpsR P) a n m).map (·.st) = (runF (exactEnv P a) n m (toFS m.st)).map fun x => ofFS x.2
  | 0, m => by simp only [runR, runF, Except.map, ofFS_toFS]
  | n + 1, m => by
    unfold runR runF
    have hs : (aoOpsR P).sweep m.st = _ := sweepF_exact P a m.st
    cases h : sweepF (exactEnv P a) (toFS m.st) with
    | error e =>
      rw [h] at hs
      simp only [Except.map] at hs
      have : bodyR (aoOpsR P) a m = .error e := by unfold bodyR; rw [hs]
      rw [this]
      simp only [Except.map]
    | ok x =>
      obtain ⟨u, v⟩ := x
      rw [h] at hs
      simp only [Except.map] at hs
      have hb : bodyR (aoOpsR P) a m = (exactEnv P a).observe m u v := bodyR_congr _ a m hs
      rw [hb]
      simp only
      cases ho : (exactEnv P a).observe m u v with
      | error e => simp only [Except.map]
      | ok y =>
        obtain ⟨m', b⟩ := y
        rw [ho] at hb
        obtain ⟨i, hi⟩ := bodyR_st hb
        rw [hs] at hi
        have hv : ofFS v = m'.st := congrArg Prod.fst ((Except.ok.injEq _ _).mp hi)
        cases b with
        | true => simp only [Except.map, hv]
        | false =>
          simp only
          rw [C102_exact P a n m', ← hv, toFS_ofFS]

end

end Verif.Props
