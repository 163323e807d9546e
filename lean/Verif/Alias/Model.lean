import Verif.Loop.Init

/-!
# Model of the array objects of `cmf_aoadmm`

`src/matcouply/decomposition.py` lines 18-28, 120-344, 870-1095, with a heap: arrays and lists are objects with an address, `A[i, :] = v` and
`l[i] = x` change the object for everyone who holds it, everything else makes new objects. The numbers written are those of `Verif/ADMM`; what
this model adds is *where* they are written. Simplifications:

* An array object holds entries for all pairs of indices; a reader with a shape reads the entries of its shape.
* Results of array arithmetic that are never stored (shifted variables, cross products, right-hand sides) are values.
* Penalty updates return new objects (so do all penalties of the library, except for `Parafac2` with fixed basis matrices, which returns
  the old list of basis matrices; nobody writes to it).
* `A_aux_list` etc. are the lists made by `initialize_aux` and `initialize_dual`, which the caller cannot hold; they are functions.
* An `init` with a tuple of B factor matrices (whose entries cannot be assigned) is not modelled.
-/

namespace Verif.Alias

open Verif.ADMM Verif.Spec Verif.Penalties Verif.Loop Finset

/-- Arrays and lists by address; addresses from `next` on are free. -/
structure Heap where
  arr : ℕ → ℕ → ℕ → ℝ
  lst : ℕ → ℕ → ℕ
  next : ℕ

/-- Entries of a new array. -/
def entries {m n : ℕ} (M : Matrix (Fin m) (Fin n) ℝ) : ℕ → ℕ → ℝ :=
  fun i j => if h : i < m ∧ j < n then M ⟨i, h.1⟩ ⟨j, h.2⟩ else 0

namespace Heap

/-- The array at `a`, read as `m × n` matrix. -/
def mat (h : Heap) (m n a : ℕ) : Matrix (Fin m) (Fin n) ℝ := Matrix.of fun i j => h.arr a i j

/-- A new array. -/
def newArr {m n : ℕ} (h : Heap) (M : Matrix (Fin m) (Fin n) ℝ) : Heap × ℕ :=
  ({ h with arr := Function.update h.arr h.next (entries M), next := h.next + 1 }, h.next)

/-- `tl.index_update(a, tl.index[i, :], v)`: numpy's `a[i, :] = v`. -/
def setRow {n : ℕ} (h : Heap) (a i : ℕ) (v : Fin n → ℝ) : Heap :=
  { h with arr := Function.update h.arr a (Function.update (h.arr a) i fun j => if hj : j < n then v ⟨j, hj⟩ else 0) }

/-- `l[i] = a`. -/
def setItem (h : Heap) (l i a : ℕ) : Heap := { h with lst := Function.update h.lst l (Function.update (h.lst l) i a) }

/-- The list of arrays at `l`, read as list of matrices. -/
def ragged {I : ℕ} (h : Heap) (n : ℕ) (J : Fin I → ℕ) (l : ℕ) : Ragged I n J := fun i => h.mat (J i) n (h.lst l i)

/-- A new list of new arrays. -/
def newRagged {I n : ℕ} {J : Fin I → ℕ} (h : Heap) (X : Ragged I n J) : Heap × ℕ :=
  ({ arr := fun a => if ha : h.next ≤ a ∧ a - h.next < I then entries (X ⟨a - h.next, ha.2⟩) else h.arr a
     lst := Function.update h.lst (h.next + I) fun i => h.next + i
     next := h.next + I + 1 }, h.next + I)

end Heap

/-- Reference to an auxiliary variable of mode 1: a list of arrays, or a tuple of a list of basis matrices and a coordinate matrix. -/
inductive AuxRef
  | mats (l : ℕ)
  | p2 (bases coord : ℕ)

namespace Heap
variable {I R : ℕ} {J : Fin I → ℕ}

/-- The auxiliary variable behind a reference. -/
def auxB (h : Heap) (R : ℕ) (J : Fin I → ℕ) : AuxRef → AuxB I R J
  | .mats l => .mats (h.ragged R J l)
  | .p2 b c => .p2 ⟨h.ragged R J b, h.mat R R c⟩

/-- A new auxiliary variable. -/
def newAuxB (h : Heap) : AuxB I R J → Heap × AuxRef
  | .mats X => ((h.newRagged X).1, .mats (h.newRagged X).2)
  | .p2 a =>
    let b := h.newRagged (J := J) a.bases
    ((b.1.newArr a.coord).1, .p2 b.2 (b.1.newArr a.coord).2)

end Heap

section
variable {I K R n : ℕ} {J : Fin I → ℕ}

/-! ### Mode 0 -/

/-- Variables of the inner loop for `A` and for `C`: the two buffers, auxiliary and dual variables. -/
structure LoopMat (n : ℕ) where
  cur : ℕ
  old : ℕ
  aux : Fin n → ℕ
  dual : Fin n → ℕ

/-- The rows of `A` are assigned one after the other (lines 184-195). -/
def writeRows (h : Heap) (a : ℕ) (f : Fin I → Fin R → ℝ) : Heap := (List.finRange I).foldl (fun h (i : Fin I) => h.setRow a i (f i)) h

/-- The rows of `A_aux` are assigned one after the other; the update of a row gets the old row (lines 206-211). -/
def rowUpdates (u : RowUpdate R) (Y : Matrix (Fin I) (Fin R) ℝ) (ρ : Fin I → ℝ) (a : ℕ) (h : Heap) : Heap :=
  (List.finRange I).foldl (fun h (i : Fin I) => h.setRow a i (u (Y i) (ρ i) (h.mat I R a i))) h

/-- Update of the auxiliary variable of penalty `p` (lines 203-211): a new array with a constant feasibility penalty, otherwise in place. -/
def auxStepA (pen : PenA I R) (ρmax : Option ℝ) (ρ : Fin I → ℝ) (Y : Matrix (Fin I) (Fin R) ℝ) (h : Heap) (a : ℕ) : Heap × ℕ :=
  match ρmax, pen.row with
  | some m, _ => h.newArr (pen.mat Y m (h.mat I R a))
  | none, some u => (rowUpdates u Y ρ a h, a)
  | none, none => (h, a)

/-- Updates of auxiliary and dual variable of penalty `p` (lines 198-213). -/
def penStepA (pens : Fin n → PenA I R) (ρmax : Option ℝ) (ρ : Fin I → ℝ) (st : Heap × LoopMat n) (p : Fin n) : Heap × LoopMat n :=
  let t := st.2
  let h₁ := auxStepA (pens p) ρmax ρ (st.1.mat I R t.cur + st.1.mat I R (t.dual p)) st.1 (t.aux p)
  let d := h₁.1.newArr (h₁.1.mat I R t.cur - (h₁.1.mat I R h₁.2 - h₁.1.mat I R (t.dual p)))
  (d.1, { t with aux := Function.update t.aux p h₁.2, dual := Function.update t.dual p d.2 })

/-- One inner iteration (lines 177-213): the buffers are swapped, the rows are written to the older one. -/
noncomputable def stepAH (pens : Fin n → PenA I R) (ρmax : Option ℝ) (ρ : Fin I → ℝ) (svds : Fin I → SVD R R R)
    (rhs : Fin I → Fin R → ℝ) (st : Heap × LoopMat n) : Heap × LoopMat n :=
  let h := st.1
  let t := st.2
  let rows := fun i => svdSolveRow (svds i) (ρ i • (∑ p, (h.mat I R (t.aux p) - h.mat I R (t.dual p)) i) + rhs i)
  (List.finRange n).foldl (penStepA pens ρmax ρ) (writeRows h t.old rows, ⟨t.old, t.cur, t.aux, t.dual⟩)

/-- `_check_inner_convergence(A, old_A, …)` at the end of an iteration (lines 216, 340). -/
noncomputable def stopMatH (m : ℕ) (R : ℕ) (tol : Option ℝ) (st : Heap × LoopMat n) : Bool :=
  innerConverged tol (matNorm (st.1.mat m R st.2.cur)) (matNorm (st.1.mat m R st.2.cur - st.1.mat m R st.2.old))
    (List.ofFn fun p => matGap (st.1.mat m R st.2.cur) (st.1.mat m R (st.2.aux p)))

/-! ### Mode 1 -/

/-- Variables of the inner loop for the B factor matrices: the two lists, auxiliary and dual variables. -/
structure LoopRag (n : ℕ) where
  cur : ℕ
  old : ℕ
  aux : Fin n → AuxRef
  dual : Fin n → ℕ

/-- The entries of the list are assigned one after the other, each with a new array (lines 266-273). -/
def writeItems (h : Heap) (l : ℕ) (X : Ragged I R J) : Heap :=
  (List.finRange I).foldl (fun h (i : Fin I) => (h.newArr (X i)).1.setItem l i (h.newArr (X i)).2) h

/-- Updates of auxiliary and dual variable of penalty `p` (lines 276-285). -/
def penStepB (pens : Fin n → PenB I R J) (ρ : Fin I → ℝ) (st : Heap × LoopRag n) (p : Fin n) : Heap × LoopRag n :=
  let t := st.2
  let X := st.1.ragged R J t.cur
  let dual := st.1.ragged R J (t.dual p)
  let h₁ := st.1.newAuxB ((pens p).update (fun i => X i + dual i) ρ (st.1.auxB R J (t.aux p)))
  let shifted := (h₁.1.auxB R J h₁.2).subtract (h₁.1.ragged R J (t.dual p))
  let d := h₁.1.newRagged (fun i => h₁.1.ragged R J t.cur i - shifted i)
  (d.1, { t with aux := Function.update t.aux p h₁.2, dual := Function.update t.dual p d.2 })

/-- One inner iteration (lines 260-285): the lists are swapped, the entries of the older one are replaced. -/
noncomputable def stepBH (pens : Fin n → PenB I R J) (ρ : Fin I → ℝ) (svds : Fin I → SVD R R R) (rhs : Ragged I R J)
    (st : Heap × LoopRag n) : Heap × LoopRag n :=
  let h := st.1
  let t := st.2
  let X : Ragged I R J := fun i =>
    svdSolve (svds i) (ρ i • (∑ p, (h.auxB R J (t.aux p)).subtract (h.ragged R J (t.dual p)) i) + rhs i)
  (List.finRange n).foldl (penStepB pens ρ) (writeItems h t.old X, ⟨t.old, t.cur, t.aux, t.dual⟩)

/-- `_check_inner_convergence(B_is, old_B_is, …)` (line 289). -/
noncomputable def stopRagH (R : ℕ) (J : Fin I → ℕ) (tol : Option ℝ) (st : Heap × LoopRag n) : Bool :=
  innerConverged tol (rootSumSq (st.1.ragged R J st.2.cur))
    (rootSumSq fun i => st.1.ragged R J st.2.cur i - st.1.ragged R J st.2.old i)
    (List.ofFn fun p => raggedGap (st.1.ragged R J st.2.cur) (st.1.auxB R J (st.2.aux p)))

/-! ### Mode 2 -/

/-- Updates of auxiliary and dual variable of penalty `p` (lines 333-338). -/
def penStepC (pens : Fin n → PenC K R) (ρ : ℝ) (st : Heap × LoopMat n) (p : Fin n) : Heap × LoopMat n :=
  let t := st.2
  let h₁ := st.1.newArr ((pens p).mat (st.1.mat K R t.cur + st.1.mat K R (t.dual p)) ρ (st.1.mat K R (t.aux p)))
  let d := h₁.1.newArr (h₁.1.mat K R t.cur - (h₁.1.mat K R h₁.2 - h₁.1.mat K R (t.dual p)))
  (d.1, { t with aux := Function.update t.aux p h₁.2, dual := Function.update t.dual p d.2 })

/-- One inner iteration (lines 326-338): the buffers are swapped, then the name `C` gets a new array. -/
noncomputable def stepCH (pens : Fin n → PenC K R) (ρ : ℝ) (svd : SVD R R R) (rhs : Matrix (Fin K) (Fin R) ℝ)
    (st : Heap × LoopMat n) : Heap × LoopMat n :=
  let h := st.1
  let t := st.2
  let c := h.newArr (svdSolve svd (ρ • (∑ p, (h.mat K R (t.aux p) - h.mat K R (t.dual p))) + rhs))
  (List.finRange n).foldl (penStepC pens ρ) (c.1, ⟨c.2, t.cur, t.aux, t.dual⟩)

end

/-! ### The outer loop -/

/-- The objects held by `cmf_aoadmm`: data, factors (`B` is a list), auxiliary and dual variables. -/
structure Refs (I R nA nB nC : ℕ) where
  weights : Option (Fin R → ℝ)
  X : Fin I → ℕ
  A : ℕ
  B : ℕ
  C : ℕ
  auxA : Fin nA → ℕ
  dualA : Fin nA → ℕ
  auxB : Fin nB → AuxRef
  dualB : Fin nB → ℕ
  auxC : Fin nC → ℕ
  dualC : Fin nC → ℕ

section
variable {I K R nA nB nC : ℕ} {J : Fin I → ℕ}

/-- The data matrices. -/
def Heap.data (h : Heap) (K : ℕ) (J : Fin I → ℕ) (X : Fin I → ℕ) : Ragged I K J := fun i => h.mat (J i) K (X i)

/-- The factors. -/
def Heap.factors (h : Heap) (K : ℕ) (J : Fin I → ℕ) (r : Refs I R nA nB nC) : Factors I K R J :=
  ⟨h.mat I R r.A, h.ragged R J r.B, h.mat K R r.C⟩

/-- The values of all objects. -/
def Heap.state (h : Heap) (K : ℕ) (J : Fin I → ℕ) (r : Refs I R nA nB nC) : AOState I K R nA nB nC J where
  weights := r.weights
  F := h.factors K J r
  auxA p := h.mat I R (r.auxA p)
  dualA p := h.mat I R (r.dualA p)
  auxB p := h.auxB R J (r.auxB p)
  dualB p := h.ragged R J (r.dualB p)
  auxC p := h.mat K R (r.auxC p)
  dualC p := h.mat K R (r.dualC p)

/-- `admm_update_A` (lines 120-219). As in `admmUpdateA`, a missing row update is found before the loop (the code finds it after some writes). -/
noncomputable def admmUpdateAH (P : Params R) (pens : Fin nA → PenA I R) (l2 : ℝ) (constant : Bool) (K : ℕ) (J : Fin I → ℕ)
    (st : Heap × Refs I R nA nB nC) : Except PyErr (Heap × Refs I R nA nB nC) :=
  let h := st.1
  let r := st.2
  let X := h.data K J r.X
  let F := h.factors K J r
  (feasPenalties P.scale constant (crossA F)).bind fun ρ =>
    if !constant && decide (0 < P.nInner) && decide (0 < I) && (List.ofFn pens).any (fun p => p.row.isNone) then
      .error .attributeError
    else
      let old := h.newArr (h.mat I R r.A)
      let e := innerLoop (stepAH pens ρ.1 ρ.2 (fun i => P.svd (addRidge (crossA F i) (ρ.2 i) nA l2)) (rhsA X F))
        (fun _ s => stopMatH I R P.innerTol s) P.nInner (old.1, ⟨r.A, old.2, r.auxA, r.dualA⟩)
      .ok (e.1, { r with weights := none, A := e.2.cur, auxA := e.2.aux, dualA := e.2.dual })

/-- `admm_update_B` (lines 222-292). -/
noncomputable def admmUpdateBH (P : Params R) (pens : Fin nB → PenB I R J) (l2 : ℝ) (constant : Bool) (K : ℕ)
    (st : Heap × Refs I R nA nB nC) : Except PyErr (Heap × Refs I R nA nB nC) :=
  let h := st.1
  let r := st.2
  let X := h.data K J r.X
  let F := h.factors K J r
  (feasPenalties P.scale constant (crossB F)).bind fun ρ =>
    let old := h.newRagged (h.ragged R J r.B)
    let e := innerLoop (stepBH pens ρ.2 (fun i => P.svd (addRidge (crossB F i) (ρ.2 i) nB l2)) (rhsB X F))
      (fun _ s => stopRagH R J P.innerTol s) P.nInner (old.1, ⟨r.B, old.2, r.auxB, r.dualB⟩)
    .ok (e.1, { r with weights := none, B := e.2.cur, auxB := e.2.aux, dualB := e.2.dual })

/-- `admm_update_C` (lines 295-344). -/
noncomputable def admmUpdateCH (P : Params R) (pens : Fin nC → PenC K R) (l2 : ℝ) (J : Fin I → ℕ)
    (st : Heap × Refs I R nA nB nC) : Heap × Refs I R nA nB nC :=
  let h := st.1
  let r := st.2
  let X := h.data K J r.X
  let F := h.factors K J r
  let ρ := feasPenalty P.scale (crossC F)
  let old := h.newArr (h.mat K R r.C)
  let e := innerLoop (stepCH pens ρ (P.svd (addRidge (crossC F) ρ nC l2)) (rhsC X F))
    (fun _ s => stopMatH K R P.innerTol s) P.nInner (old.1, ⟨r.C, old.2, r.auxC, r.dualC⟩)
  (e.1, { r with weights := none, C := e.2.cur, auxC := e.2.aux, dualC := e.2.dual })

/-- The B-update of an iteration (lines 948-961). -/
noncomputable def sweepBH (P : Problem I K R nA nB nC J) (st : Heap × Refs I R nA nB nC) : Except PyErr (Heap × Refs I R nA nB nC) :=
  if P.updB then admmUpdateBH P.params P.pensB P.l2.2.1 P.constB K st else .ok st

/-- The C-update of an iteration (lines 962-974). -/
noncomputable def sweepCH (P : Problem I K R nA nB nC J) (st : Heap × Refs I R nA nB nC) : Heap × Refs I R nA nB nC :=
  if P.updC then admmUpdateCH P.params P.pensC P.l2.2.2 J st else st

/-- The A-update of an iteration (lines 946, 975-988). -/
noncomputable def sweepAH (P : Problem I K R nA nB nC J) (st : Heap × Refs I R nA nB nC) :
    Except PyErr ((Heap × Refs I R nA nB nC) × Option (Inter I R)) :=
  if P.updA then
    (admmUpdateAH P.params P.pensA P.l2.1 P.constA K J st).map fun t =>
      (t, some ⟨rhsA (st.1.data K J st.2.X) (st.1.factors K J st.2), crossA (st.1.factors K J st.2)⟩)
  else .ok (st, none)

/-- One round of updates (lines 946-988). -/
noncomputable def sweepH (P : Problem I K R nA nB nC J) (st : Heap × Refs I R nA nB nC) :
    Except PyErr ((Heap × Refs I R nA nB nC) × Option (Inter I R)) :=
  (sweepBH P st).bind fun t => sweepAH P (sweepCH P t)

/-- The operations of the loop. The diagnostics read the objects. -/
noncomputable def heapOps (P : Problem I K R nA nB nC J) : Ops (Heap × Refs I R nA nB nC) (Option (Inter I R)) where
  sweep := sweepH P
  gaps st := (aoOps P).gaps (st.1.state K J st.2)
  relError st inter := (aoOps { P with X := st.1.data K J st.2.X }).relError (st.1.state K J st.2) inter
  penalty st := (aoOps P).penalty (st.1.state K J st.2)

/-- `initialize_cmf` for a given factorization (lines 22-28): `weights * A` is a new array, everything else is the caller's. -/
def initH (I : ℕ) {R nA nB nC : ℕ} (st : Heap × Refs I R nA nB nC) : Heap × Refs I R nA nB nC :=
  match st.2.weights with
  | none => st
  | some w =>
    let a := st.1.newArr (scaleCols w (st.1.mat I R st.2.A))
    (a.1, { st.2 with weights := none, A := a.2 })

/-- `cmf_aoadmm` with a factorization given as `init` (lines 870-1095); the references are those to the caller's data matrices and initial
factors, and to the initial auxiliary and dual variables (the caller's, or new ones made by the penalties). `P.X` is not used. -/
noncomputable def cmfAoadmmH (P : Problem I K R nA nB nC J) (a : Args) (st : Heap × Refs I R nA nB nC) :
    Except PyErr (Output (Heap × Refs I R nA nB nC)) :=
  fit (heapOps P) a none (initH I st)

end

end Verif.Alias
