import Verif.Loop.Init
import Verif.Parse.Call
import Verif.Parse.Front

/-!
# Model of `cmf_aoadmm` as a whole

`src/matcouply/decomposition.py` lines 662-1100: initial factorization, parsing, initial auxiliary and dual variables, and the loop, in that order, with the
keyword arguments as input. The parts are those of `Verif/Loop/Init`, `Verif/Parse/Model`, `Verif/Parse/Front` and `Verif/Loop/Model`.

The data, `rank`, a given `init` and the random state are valid (typed layer). The values for the penalties are arbitrary (`Arg`), but a penalty object whose
parameters are not the documented ones (flags, numbers, square matrices) gets numbers from `Leaf.real`, `Leaf.bound` and `Leaf.flag`; theorems assume
documented values.
-/

namespace Verif.Whole

open Verif.ADMM Verif.Penalties Verif.Loop Verif.Parse Verif.Spec

variable {I K R : ℕ} {J : Fin I → ℕ}

/-- `[f(x) for x in l]` with `l` given by its entries: the first exception ends it. -/
def seqFin {β : Type} : (n : ℕ) → (Fin n → Except PyErr β) → Except PyErr (Fin n → β)
  | 0, _ => .ok fun p => p.elim0
  | n + 1, f => do
    let x ← f 0
    let xs ← seqFin n fun p => f p.succ
    return Fin.cons x xs

/-- Arrays drawn for one penalty: for mode 0, mode 1, the coordinate matrix of `Parafac2`, mode 2. -/
structure Drawn (I K R : ℕ) (J : Fin I → ℕ) where
  A : Matrix (Fin I) (Fin R) ℝ
  B : Ragged I R J
  coord : Matrix (Fin R) (Fin R) ℝ
  C : Matrix (Fin K) (Fin R) ℝ

/-- A penalty object of the caller: its operations in each mode (absent if an operation raises for matrices of this shape) and its initial variables. -/
structure UserPen (I K R : ℕ) (J : Fin I → ℕ) where
  penA : Except PyErr (PenA I R)
  penB : Except PyErr (PenB I R J)
  penC : Except PyErr (PenC K R)
  auxA : Except PyErr (Matrix (Fin I) (Fin R) ℝ)
  auxB : Except PyErr (AuxB I R J)
  auxC : Except PyErr (Matrix (Fin K) (Fin R) ℝ)
  dualA : Except PyErr (Matrix (Fin I) (Fin R) ℝ)
  dualB : Except PyErr (Ragged I R J)
  dualC : Except PyErr (Matrix (Fin K) (Fin R) ℝ)

/-- What the call gets from outside. `negEig`, `hasTV`: see `Verif/Parse/Model`. `knownSvd`: the names `get_svd` accepts. `svdSq` and `svdThin` are the SVD function on
square matrices and on matrices with `R` columns, `tv` is `condat_tv.tv_denoise_matrix`. `draw dual normal p` are the arrays drawn for penalty `p` of a mode: for
its auxiliary or dual variable, from the uniform or normal distribution. `user id` are the caller's penalties. -/
structure World (I K R : ℕ) (J : Fin I → ℕ) where
  negEig : (m : ℕ) → Matrix (Fin m) (Fin m) ℝ → Bool
  hasTV : Bool
  knownSvd : String → Bool
  svdSq : (n : ℕ) → Matrix (Fin n) (Fin n) ℝ → SVD n n n
  svdThin : (i : Fin I) → Matrix (Fin (J i)) (Fin R) ℝ → SVD (J i) R R
  tv : (m n : ℕ) → Matrix (Fin n) (Fin m) ℝ → ℝ → Matrix (Fin n) (Fin m) ℝ
  init : InitExt I K R J
  draw : (dual normal : Bool) → ℕ → Drawn I K R J
  user : ℕ → UserPen I K R J

/-- The arguments of `cmf_aoadmm` (lines 662-696), without `rank` and `random_state`. -/
structure Call (I K R : ℕ) (J : Fin I → ℕ) where
  X : Ragged I K J
  init : InitArg I K R J
  l2 : Arg
  args : AllArgs
  regs : Option (Val String)
  scale : ℝ
  constFeas : ConstFeas
  auxInit : String
  dualInit : String
  svd : String
  innerTol : Option ℝ
  nInner : ℕ
  updA : Bool
  updB : Bool
  updC : Bool
  loop : Args

namespace World

variable (W : World I K R J)

/-! ### Penalty objects -/

/-- `factor_matrix_update` of a built penalty on a `m × n` matrix; `none` if it raises (a norm matrix of another size) or does not exist (`Parafac2`). -/
noncomputable def matUpdate (m n : ℕ) : Kind → Option (MatUpdate m n)
  | .parafac2 => none
  | .genL2 k M => if h : k = m then some (genL2Mat (W.svdSq m (M.submatrix (Fin.cast h.symm) (Fin.cast h.symm))) n) else none
  | .tv a b => some (tvMat (W.tv m n) a.real b.real)
  | k => k.update m n

/-- `factor_matrix_row_update`, which the subclasses of `RowVectorPenalty` have (`penalties.py` lines 488, 511, 545). -/
noncomputable def rowUpdate (n : ℕ) : Kind → Option (RowUpdate n)
  | .nonNegativity => some (nonNegRow n)
  | .box lo hi => some (boxRow lo.bound hi.bound n)
  | .l1 g nn => some (l1Row g.real nn.flag n)
  | _ => none

/-- A built penalty on mode 0. -/
noncomputable def kindA (k : Kind) : Option (PenA I R) := (W.matUpdate I R k).map fun u => ⟨u, rowUpdate R k, fun X => k.value X⟩

/-- A built penalty on mode 1. `Parafac2` is built with `n_iter=1` and both updates (line 572, `penalties.py` lines 1090-1109). -/
noncomputable def kindB : Kind → Option (PenB I R J)
  | .parafac2 => some (.parafac2 W.svdThin 1 true true)
  | k =>
    if h : ∀ i, (W.matUpdate (J i) R k).isSome then some (.ofMat (fun i => (W.matUpdate (J i) R k).get (h i)) fun X => k.valueList X)
    else none

/-- A built penalty on mode 2. -/
noncomputable def kindC (k : Kind) : Option (PenC K R) := (W.matUpdate K R k).map fun u => ⟨u, fun X => k.value X⟩

/-- A penalty object on mode 0. One that cannot be applied raises ValueError when the first loss is computed (line 917). -/
noncomputable def penA : Pen String → Except PyErr (PenA I R)
  | .built k _ _ _ => match W.kindA k with | some p => .ok p | none => .error .valueError
  | .user id => (W.user id).penA

/-- A penalty object on mode 1 (line 918). -/
noncomputable def penB : Pen String → Except PyErr (PenB I R J)
  | .built k _ _ _ => match W.kindB k with | some p => .ok p | none => .error .valueError
  | .user id => (W.user id).penB

/-- A penalty object on mode 2 (line 919). -/
noncomputable def penC : Pen String → Except PyErr (PenC K R)
  | .built k _ _ _ => match W.kindC k with | some p => .ok p | none => .error .valueError
  | .user id => (W.user id).penC

/-! ### Initial variables -/

/-- A named scheme (`penalties.py` lines 129-151, 239-253, 1161-1175): ValueError for another name. -/
def scheme {β : Type} (s : String) (uniform normal zeros : β) : Except PyErr β :=
  if s = "random_uniform" then .ok uniform
  else if s = "random_standard_normal" then .ok normal
  else if s = "zeros" then .ok zeros
  else .error .valueError

/-- `init_aux` in mode 0 (`penalties.py` lines 37-151; lines 1158-1159: `Parafac2` raises ValueError unless the mode is 1). `p` is the position of the penalty. -/
def auxA (p : ℕ) : Pen String → Except PyErr (Matrix (Fin I) (Fin R) ℝ)
  | .built .parafac2 _ _ _ => .error .valueError
  | .built _ aux _ _ => scheme aux (W.draw false false p).A (W.draw false true p).A 0
  | .user id => (W.user id).auxA

/-- `tl.eye(m, n)`. -/
def eyeMat (m n : ℕ) : Matrix (Fin m) (Fin n) ℝ := fun i j => if i.val = j.val then 1 else 0

/-- `init_aux` in mode 1; for `Parafac2` identity bases and a drawn coordinate matrix (`penalties.py` lines 1161-1175). -/
def auxB (p : ℕ) : Pen String → Except PyErr (AuxB I R J)
  | .built .parafac2 aux _ _ =>
    scheme aux (.p2 ⟨fun i => eyeMat (J i) R, (W.draw false false p).coord⟩) (.p2 ⟨fun i => eyeMat (J i) R, (W.draw false true p).coord⟩)
      (.p2 ⟨fun i => eyeMat (J i) R, 0⟩)
  | .built _ aux _ _ => scheme aux (.mats (W.draw false false p).B) (.mats (W.draw false true p).B) (.mats fun _ => 0)
  | .user id => (W.user id).auxB

/-- `init_aux` in mode 2. -/
def auxC (p : ℕ) : Pen String → Except PyErr (Matrix (Fin K) (Fin R) ℝ)
  | .built .parafac2 _ _ _ => .error .valueError
  | .built _ aux _ _ => scheme aux (W.draw false false p).C (W.draw false true p).C 0
  | .user id => (W.user id).auxC

/-- `init_dual` in mode 0 (`penalties.py` lines 153-253, for all penalties). -/
def dualA (p : ℕ) : Pen String → Except PyErr (Matrix (Fin I) (Fin R) ℝ)
  | .built _ _ dual _ => scheme dual (W.draw true false p).A (W.draw true true p).A 0
  | .user id => (W.user id).dualA

/-- `init_dual` in mode 1. -/
def dualB (p : ℕ) : Pen String → Except PyErr (Ragged I R J)
  | .built _ _ dual _ => scheme dual (W.draw true false p).B (W.draw true true p).B fun _ => 0
  | .user id => (W.user id).dualB

/-- `init_dual` in mode 2. -/
def dualC (p : ℕ) : Pen String → Except PyErr (Matrix (Fin K) (Fin R) ℝ)
  | .built _ _ dual _ => scheme dual (W.draw true false p).C (W.draw true true p).C 0
  | .user id => (W.user id).dualC

end World

/-! ### The call -/

/-- What is returned: the final state of the loop (factorization, auxiliary and dual variables) and the diagnostics. -/
structure Result (I K R : ℕ) (J : Fin I → ℕ) where
  nA : ℕ
  nB : ℕ
  nC : ℕ
  out : Output (AOState I K R nA nB nC J)

/-- The penalties of one mode in the list of lists that the parser returned. -/
def readMode (h : Heap String) (out m : ℕ) : Except PyErr (List (Pen String)) :=
  match h[out]? with
  | some (.list L) =>
    match L[m]? with
    | some (.ref b) =>
      match h[b]? with
      | some (.list l) => l.mapM fun v => match v with | .pen p => .ok p | _ => .error .typeError
      | _ => .error .typeError
    | _ => .error .typeError
  | _ => .error .typeError

/-- The problem the loop works on: the penalty objects of the modes, the L2 parameters, the flags of lines 937-942 and the arguments. -/
noncomputable def Call.problem (W : World I K R J) (c : Call I K R J) {nA nB nC : ℕ} (l2 : ℝ × ℝ × ℝ) (flags : Bool × Bool) (pensA : Fin nA → PenA I R)
    (pensB : Fin nB → PenB I R J) (pensC : Fin nC → PenC K R) : Problem I K R nA nB nC J where
  X := c.X
  pensA := pensA
  pensB := pensB
  pensC := pensC
  l2 := l2
  params := ⟨W.svdSq R, c.nInner, c.innerTol, c.scale⟩
  constA := flags.1
  constB := flags.2
  updA := c.updA
  updB := c.updB
  updC := c.updC

/-- Lines 896-1100 for the parsed penalties: drops the penalties of modes that are not updated, sets up the auxiliary and dual variables (78-89, 904-905), computes the
first loss, checks `constant_feasibility_penalty` (933-942) and runs the loop. -/
noncomputable def solve (W : World I K R J) (c : Call I K R J) (start : Start I K R J) (l2 : ℝ × ℝ × ℝ) (regsA regsB regsC : List (Pen String)) :
    Except PyErr (Result I K R J) := do
  let rA := dropRegs c.updA regsA
  let rB := dropRegs c.updB regsB
  let rC := dropRegs c.updC regsC
  let auxA ← seqFin rA.length fun p => W.auxA p (rA.get p)
  let auxB ← seqFin rB.length fun p => W.auxB p (rB.get p)
  let auxC ← seqFin rC.length fun p => W.auxC p (rC.get p)
  let dualA ← seqFin rA.length fun p => W.dualA p (rA.get p)
  let dualB ← seqFin rB.length fun p => W.dualB p (rB.get p)
  let dualC ← seqFin rC.length fun p => W.dualC p (rC.get p)
  let pensA ← seqFin rA.length fun p => W.penA (rA.get p)
  let pensB ← seqFin rB.length fun p => W.penB (rB.get p)
  let pensC ← seqFin rC.length fun p => W.penC (rC.get p)
  let flags ← constFlags c.constFeas
  let out ← cmfAoadmm (c.problem W l2 flags pensA pensB pensC) c.loop ⟨start.weights, start.F, auxA, dualA, auxB, dualB, auxC, dualC⟩
  return ⟨rA.length, rB.length, rC.length, out⟩

/-- `cmf_aoadmm` (lines 871-1100), from the heap that holds the caller's lists of penalties. -/
noncomputable def call (W : World I K R J) (c : Call I K R J) (h : Heap String) : Heap String × Except PyErr (Result I K R J) :=
  -- line 872
  if !W.knownSvd c.svd then (h, .error .valueError) else
  -- line 873
  match initializeCmf W.init c.init with
  | .error e => (h, .error e)
  | .ok start =>
    -- lines 876-877
    match l2List (γ := Arg) id (.user c.l2) with
    | .error e => (h, .error e)
    | .ok l2 =>
      -- lines 879-894
      match parseAll W.negEig ⟨c.svd, c.auxInit, c.dualInit, W.hasTV⟩ c.args c.regs h with
      | (h', .error e) => (h', .error e)
      | (h', .ok out) =>
        (h', do
          let rA ← readMode h' out 0
          let rB ← readMode h' out 1
          let rC ← readMode h' out 2
          solve W c start ((l2.getD 0 .none).real, (l2.getD 1 .none).real, (l2.getD 2 .none).real) rA rB rC)

end Verif.Whole
