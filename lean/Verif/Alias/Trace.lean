import Verif.Alias.Model

/-!
# Model of the array objects of `cmf_aoadmm` while a call runs

`src/matcouply/decomposition.py` lines 18-28, 120-344, 870-1095. The functions of `Verif/Alias/Model.lean`, with a record of the heap after every single
operation that creates or changes an object, and with exceptions at the place where the code raises them. A call that is cut off (by an exception of a
penalty or of the SVD, by Ctrl-C, by a failing comparison of tolerances) leaves one of the recorded heaps. Simplification: a penalty update, like in
`Verif/Alias/Model.lean`, does not change existing objects; the objects it creates are recorded in one step.
-/

namespace Verif.Alias

open Verif.ADMM Verif.Spec Verif.Penalties Verif.Loop Finset

/-- A computation: the heaps in the order in which they occur, and the result or exception. -/
structure Tr (α : Type) where
  heaps : List Heap
  out : Except PyErr α

namespace Tr
variable {α β σ : Type}

/-- No operation on objects. -/
def ret (a : α) : Tr α := ⟨[], .ok a⟩

/-- `raise`. -/
def raise (e : PyErr) : Tr α := ⟨[], .error e⟩

/-- One operation, which leaves the heap `h`. -/
def ev (h : Heap) (a : α) : Tr α := ⟨[h], .ok a⟩

/-- One computation after the other; an exception ends both. -/
def bind (m : Tr α) (f : α → Tr β) : Tr β :=
  match m.out with
  | .error e => ⟨m.heaps, .error e⟩
  | .ok a => ⟨m.heaps ++ (f a).heaps, (f a).out⟩

/-- A computation on values. -/
def lift (x : Except PyErr α) : Tr α := ⟨[], x⟩

/-- `for x in l:` -/
def forIn (f : σ → α → Tr σ) : List α → σ → Tr σ
  | [], s => ret s
  | x :: l, s => (f s x).bind (forIn f l)

end Tr

section
variable {I K R n : ℕ} {J : Fin I → ℕ}

/-! ### Mode 0 -/

/-- Lines 184-195. -/
def writeRowsT (h : Heap) (a : ℕ) (f : Fin I → Fin R → ℝ) : Tr Heap :=
  Tr.forIn (fun h (i : Fin I) => .ev (h.setRow a i (f i)) (h.setRow a i (f i))) (List.finRange I) h

/-- Lines 203-211: `single_reg.factor_matrix_row_update` raises AttributeError if the penalty does not have this method. -/
def auxStepAT (pen : PenA I R) (ρmax : Option ℝ) (ρ : Fin I → ℝ) (Y : Matrix (Fin I) (Fin R) ℝ) (h : Heap) (a : ℕ) : Tr (Heap × ℕ) :=
  match ρmax with
  | some m => .ev (h.newArr (pen.mat Y m (h.mat I R a))).1 (h.newArr (pen.mat Y m (h.mat I R a)))
  | none =>
    (Tr.forIn (fun h (i : Fin I) =>
      match pen.row with
      | none => .raise .attributeError
      | some u => .ev (h.setRow a i (u (Y i) (ρ i) (h.mat I R a i))) (h.setRow a i (u (Y i) (ρ i) (h.mat I R a i)))) (List.finRange I) h).bind
      fun h => .ret (h, a)

/-- Lines 198-213. -/
def penStepAT (pens : Fin n → PenA I R) (ρmax : Option ℝ) (ρ : Fin I → ℝ) (st : Heap × LoopMat n) (p : Fin n) : Tr (Heap × LoopMat n) :=
  let t := st.2
  (auxStepAT (pens p) ρmax ρ (st.1.mat I R t.cur + st.1.mat I R (t.dual p)) st.1 (t.aux p)).bind fun h₁ =>
    let d := h₁.1.newArr (h₁.1.mat I R t.cur - (h₁.1.mat I R h₁.2 - h₁.1.mat I R (t.dual p)))
    .ev d.1 (d.1, { t with aux := Function.update t.aux p h₁.2, dual := Function.update t.dual p d.2 })

/-- Lines 177-213. -/
noncomputable def stepAT (pens : Fin n → PenA I R) (ρmax : Option ℝ) (ρ : Fin I → ℝ) (svds : Fin I → SVD R R R)
    (rhs : Fin I → Fin R → ℝ) (st : Heap × LoopMat n) : Tr (Heap × LoopMat n) :=
  let h := st.1
  let t := st.2
  let rows := fun i => svdSolveRow (svds i) (ρ i • (∑ p, (h.mat I R (t.aux p) - h.mat I R (t.dual p)) i) + rhs i)
  (writeRowsT h t.old rows).bind fun h => Tr.forIn (penStepAT pens ρmax ρ) (List.finRange n) (h, ⟨t.old, t.cur, t.aux, t.dual⟩)

/-- The inner loops (lines 177-217, 260-290, 326-342). -/
def innerLoopT {σ : Type} (step : σ → Tr σ) (stop : σ → Bool) : ℕ → σ → Tr σ
  | 0, s => .ret s
  | k + 1, s => (step s).bind fun s' => if stop s' then .ret s' else innerLoopT step stop k s'

/-! ### Mode 1 -/

/-- Lines 266-273: a new array, then the assignment to the list. -/
def writeItemsT (h : Heap) (l : ℕ) (X : Ragged I R J) : Tr Heap :=
  Tr.forIn (fun h (i : Fin I) => (Tr.ev (h.newArr (X i)).1 (h.newArr (X i))).bind fun a => .ev (a.1.setItem l i a.2) (a.1.setItem l i a.2))
    (List.finRange I) h

/-- Lines 276-285. -/
def penStepBT (pens : Fin n → PenB I R J) (ρ : Fin I → ℝ) (st : Heap × LoopRag n) (p : Fin n) : Tr (Heap × LoopRag n) :=
  let t := st.2
  let X := st.1.ragged R J t.cur
  let dual := st.1.ragged R J (t.dual p)
  let h₁ := st.1.newAuxB ((pens p).update (fun i => X i + dual i) ρ (st.1.auxB R J (t.aux p)))
  (Tr.ev h₁.1 h₁).bind fun h₁ =>
    let shifted := (h₁.1.auxB R J h₁.2).subtract (h₁.1.ragged R J (t.dual p))
    let d := h₁.1.newRagged (fun i => h₁.1.ragged R J t.cur i - shifted i)
    .ev d.1 (d.1, { t with aux := Function.update t.aux p h₁.2, dual := Function.update t.dual p d.2 })

/-- Lines 260-285. -/
noncomputable def stepBT (pens : Fin n → PenB I R J) (ρ : Fin I → ℝ) (svds : Fin I → SVD R R R) (rhs : Ragged I R J)
    (st : Heap × LoopRag n) : Tr (Heap × LoopRag n) :=
  let h := st.1
  let t := st.2
  let X : Ragged I R J := fun i =>
    svdSolve (svds i) (ρ i • (∑ p, (h.auxB R J (t.aux p)).subtract (h.ragged R J (t.dual p)) i) + rhs i)
  (writeItemsT h t.old X).bind fun h => Tr.forIn (penStepBT pens ρ) (List.finRange n) (h, ⟨t.old, t.cur, t.aux, t.dual⟩)

/-! ### Mode 2 -/

/-- Lines 333-338. -/
def penStepCT (pens : Fin n → PenC K R) (ρ : ℝ) (st : Heap × LoopMat n) (p : Fin n) : Tr (Heap × LoopMat n) :=
  let t := st.2
  let h₁ := st.1.newArr ((pens p).mat (st.1.mat K R t.cur + st.1.mat K R (t.dual p)) ρ (st.1.mat K R (t.aux p)))
  (Tr.ev h₁.1 h₁).bind fun h₁ =>
    let d := h₁.1.newArr (h₁.1.mat K R t.cur - (h₁.1.mat K R h₁.2 - h₁.1.mat K R (t.dual p)))
    .ev d.1 (d.1, { t with aux := Function.update t.aux p h₁.2, dual := Function.update t.dual p d.2 })

/-- Lines 326-338. -/
noncomputable def stepCT (pens : Fin n → PenC K R) (ρ : ℝ) (svd : SVD R R R) (rhs : Matrix (Fin K) (Fin R) ℝ)
    (st : Heap × LoopMat n) : Tr (Heap × LoopMat n) :=
  let h := st.1
  let t := st.2
  let c := h.newArr (svdSolve svd (ρ • (∑ p, (h.mat K R (t.aux p) - h.mat K R (t.dual p))) + rhs))
  (Tr.ev c.1 c).bind fun c => Tr.forIn (penStepCT pens ρ) (List.finRange n) (c.1, ⟨c.2, t.cur, t.aux, t.dual⟩)

end

/-! ### The outer loop -/

section
variable {I K R nA nB nC : ℕ} {J : Fin I → ℕ}

/-- `admm_update_A` (lines 120-219). -/
noncomputable def admmUpdateAT (P : Params R) (pens : Fin nA → PenA I R) (l2 : ℝ) (constant : Bool) (K : ℕ) (J : Fin I → ℕ)
    (st : Heap × Refs I R nA nB nC) : Tr (Heap × Refs I R nA nB nC) :=
  let h := st.1
  let r := st.2
  let X := h.data K J r.X
  let F := h.factors K J r
  (Tr.lift (feasPenalties P.scale constant (crossA F))).bind fun ρ =>
    let old := h.newArr (h.mat I R r.A)
    (Tr.ev old.1 old).bind fun old =>
      (innerLoopT (stepAT pens ρ.1 ρ.2 (fun i => P.svd (addRidge (crossA F i) (ρ.2 i) nA l2)) (rhsA X F))
        (stopMatH I R P.innerTol) P.nInner (old.1, ⟨r.A, old.2, r.auxA, r.dualA⟩)).bind fun e =>
        .ret (e.1, { r with weights := none, A := e.2.cur, auxA := e.2.aux, dualA := e.2.dual })

/-- `admm_update_B` (lines 222-292). -/
noncomputable def admmUpdateBT (P : Params R) (pens : Fin nB → PenB I R J) (l2 : ℝ) (constant : Bool) (K : ℕ)
    (st : Heap × Refs I R nA nB nC) : Tr (Heap × Refs I R nA nB nC) :=
  let h := st.1
  let r := st.2
  let X := h.data K J r.X
  let F := h.factors K J r
  (Tr.lift (feasPenalties P.scale constant (crossB F))).bind fun ρ =>
    let old := h.newRagged (h.ragged R J r.B)
    (Tr.ev old.1 old).bind fun old =>
      (innerLoopT (stepBT pens ρ.2 (fun i => P.svd (addRidge (crossB F i) (ρ.2 i) nB l2)) (rhsB X F))
        (stopRagH R J P.innerTol) P.nInner (old.1, ⟨r.B, old.2, r.auxB, r.dualB⟩)).bind fun e =>
        .ret (e.1, { r with weights := none, B := e.2.cur, auxB := e.2.aux, dualB := e.2.dual })

/-- `admm_update_C` (lines 295-344). -/
noncomputable def admmUpdateCT (P : Params R) (pens : Fin nC → PenC K R) (l2 : ℝ) (J : Fin I → ℕ)
    (st : Heap × Refs I R nA nB nC) : Tr (Heap × Refs I R nA nB nC) :=
  let h := st.1
  let r := st.2
  let X := h.data K J r.X
  let F := h.factors K J r
  let ρ := feasPenalty P.scale (crossC F)
  let old := h.newArr (h.mat K R r.C)
  (Tr.ev old.1 old).bind fun old =>
    (innerLoopT (stepCT pens ρ (P.svd (addRidge (crossC F) ρ nC l2)) (rhsC X F))
      (stopMatH K R P.innerTol) P.nInner (old.1, ⟨r.C, old.2, r.auxC, r.dualC⟩)).bind fun e =>
      .ret (e.1, { r with weights := none, C := e.2.cur, auxC := e.2.aux, dualC := e.2.dual })

/-- Lines 948-961. -/
noncomputable def sweepBT (P : Problem I K R nA nB nC J) (st : Heap × Refs I R nA nB nC) : Tr (Heap × Refs I R nA nB nC) :=
  if P.updB then admmUpdateBT P.params P.pensB P.l2.2.1 P.constB K st else .ret st

/-- Lines 962-974. -/
noncomputable def sweepCT (P : Problem I K R nA nB nC J) (st : Heap × Refs I R nA nB nC) : Tr (Heap × Refs I R nA nB nC) :=
  if P.updC then admmUpdateCT P.params P.pensC P.l2.2.2 J st else .ret st

/-- Lines 946, 975-988. -/
noncomputable def sweepAT (P : Problem I K R nA nB nC J) (st : Heap × Refs I R nA nB nC) :
    Tr ((Heap × Refs I R nA nB nC) × Option (Inter I R)) :=
  if P.updA then
    (admmUpdateAT P.params P.pensA P.l2.1 P.constA K J st).bind fun t =>
      .ret (t, some ⟨rhsA (st.1.data K J st.2.X) (st.1.factors K J st.2), crossA (st.1.factors K J st.2)⟩)
  else .ret (st, none)

/-- Lines 946-988. -/
noncomputable def sweepT (P : Problem I K R nA nB nC J) (st : Heap × Refs I R nA nB nC) :
    Tr ((Heap × Refs I R nA nB nC) × Option (Inter I R)) :=
  (sweepBT P st).bind fun t => (sweepCT P t).bind (sweepAT P)

/-- One iteration (lines 946-1056): after the updates, no object is created or changed (the diagnostics are values), but comparing with an `absolute_tol`
of `None` raises. -/
noncomputable def bodyT (P : Problem I K R nA nB nC J) (a : Args) (s : Acc (Heap × Refs I R nA nB nC)) :
    Tr (Acc (Heap × Refs I R nA nB nC) × Bool) :=
  (sweepT P s.st).bind fun t => .lift (body { heapOps P with sweep := fun _ => .ok t } a s)

/-- The `for` loop with `k` iterations left (lines 945, 1057-1059). -/
noncomputable def runT (P : Problem I K R nA nB nC J) (a : Args) :
    ℕ → Acc (Heap × Refs I R nA nB nC) → Tr (Acc (Heap × Refs I R nA nB nC))
  | 0, s => .ret { s with log := s.log ++ if a.verbose ≠ 0 then [.reachedMax] else [] }
  | k + 1, s => (bodyT P a s).bind fun t => if t.2 then .ret t.1 else runT P a k t.1

/-- `initialize_cmf` for a given factorization (lines 22-28). -/
def initT (I : ℕ) {R nA nB nC : ℕ} (st : Heap × Refs I R nA nB nC) : Tr (Heap × Refs I R nA nB nC) :=
  match st.2.weights with
  | none => .ret st
  | some w =>
    let a := st.1.newArr (scaleCols w (st.1.mat I R st.2.A))
    .ev a.1 (a.1, { st.2 with weights := none, A := a.2 })

/-- `cmf_aoadmm` with a factorization given as `init` (lines 870-1095). -/
noncomputable def cmfAoadmmT (P : Problem I K R nA nB nC J) (a : Args) (st : Heap × Refs I R nA nB nC) :
    Tr (Output (Heap × Refs I R nA nB nC)) :=
  (initT I st).bind fun st =>
    (runT P a a.nIterMax.toNat (initAcc (heapOps P) a none st)).bind fun s =>
      .ret ⟨s.st, if a.returnErrors then some (diagnostics (heapOps P) a s) else .none, s.log⟩

end

end Verif.Alias
