import Verif.FloatFit.Model

/-!
# Model of all of AO-ADMM with floating-point numbers

`src/matcouply/decomposition.py` lines 92-452, 617-640, 906-1059. Where `Verif/FloatFit/Model.lean` leaves the linear systems, the diagnostics and the decisions to stop open, they are
written out here, with the operations in the order of the code. What remains open is how the library adds many numbers (`Lib`): sums, products of matrices, traces, norms and singular
value decompositions are arbitrary functions, since their order of summation is not specified. Printing is not modelled. An empty list of matrices is not covered by the C-update
(`tl.trace(0)` raises there).
-/

namespace Verif.FloatFit

open Verif.Raise Verif.Spec Verif.Unimodal

/-- The functions of the library. `lit` are the integers that occur in formulas, `half` is `0.5`, `negInf` is `-float("inf")`. `dotV` is the product of a vector with a matrix, `sumV` and
`sumM` are `tl.sum` of a vector and of a matrix. `svd` is the argument `svd_fun`; it may raise. -/
structure Lib (K : Type) where
  lit : ℕ → K
  half : K
  negInf : K
  abs : K → K
  sqrt : K → K
  sumV : (n : ℕ) → (Fin n → K) → K
  sumM : (m n : ℕ) → Mat K m n → K
  dot : (m k n : ℕ) → Mat K m k → Mat K k n → Mat K m n
  dotV : (k n : ℕ) → (Fin k → K) → Mat K k n → Fin n → K
  trace : (n : ℕ) → Mat K n n → K
  norm : (m n : ℕ) → Mat K m n → K
  svd : (n : ℕ) → Mat K n n → Except PyErr (Mat K n n × (Fin n → K) × Mat K n n)

/-- `tl.transpose`. -/
def tr {K : Type} {m n : ℕ} (X : Mat K m n) : Mat K n m := fun j i => X i j

section
variable {K : Type} [Zero K] [One K] [Add K] [Sub K] [Mul K] [Div K] [Pow K ℕ] [LE K] [LT K] [DecidableLE K] [DecidableLT K]

/-- `sum` of Python: starts with the integer 0 and adds from the left. -/
def pySum {n : ℕ} (f : Fin n → K) : K := (List.ofFn f).foldl (· + ·) 0

/-- `max` of Python for a sequence with first element `a`: an element replaces the current one if it is greater. -/
def pyMaxF (a : K) (l : List K) : K := l.foldl (fun m x => if m < x then x else m) a

/-- `if x:` for `None` or a number. -/
def truthyF : Option K → Bool
  | none => false
  | some t => !(decide (t ≤ 0) && decide (0 ≤ t))

/-- The elements of `tl.eye(n)`. -/
def eyeF {n : ℕ} (r s : Fin n) : K := if r = s then 1 else 0

/-- `tl.diag` of a vector. -/
def diagF {n : ℕ} (v : Fin n → K) : Mat K n n := fun r s => if r = s then v r else 0

/-- `_root_sum_squared_list` (lines 347-348). -/
def rootSumSqF (lib : Lib K) {I R : ℕ} {J : Fin I → ℕ} (X : Rag K I R J) : K :=
  lib.sqrt (pySum fun i => lib.sumM (J i) R fun j r => X i j r ^ 2)

/-! ### Linear systems -/

/-- The feasibility penalties, all equal to the largest one, also returned, if requested (lines 162-165, 247-250). -/
def feasPensF (lib : Lib K) {I R : ℕ} (scale : K) (const : Bool) (G : Fin I → Mat K R R) : Except PyErr (Option K × (Fin I → K)) :=
  let ρ := fun i => lib.half * lib.trace R (G i) * scale
  if const then
    match List.ofFn ρ with
    | [] => .error .valueError
    | a :: l => .ok (some (pyMaxF a l), fun _ => pyMaxF a l)
  else .ok (none, ρ)

/-- `lhs + eye(R) * (feasibility_penalty * len(reg) + l2_penalty)` (lines 169, 253, 320). -/
def ridgeF (lib : Lib K) {R : ℕ} (G : Mat K R R) (ρ : K) (n : ℕ) (l2 : K) : Mat K R R := fun r s => G r s + eyeF r s * (ρ * lib.lit n + l2)

section
variable {I L R : ℕ} {J : Fin I → ℕ}

/-- Cross products for mode 0 (lines 138, 155). -/
def crossAF (lib : Lib K) (F : FFact K I L R J) (i : Fin I) : Mat K R R := fun r s =>
  lib.dot R (J i) R (tr (F.B i)) (F.B i) r s * lib.dot R L R (tr F.C) F.C r s

/-- Right-hand sides for mode 0 (lines 140-158). -/
def rhsAF (lib : Lib K) (X : Rag K I L J) (F : FFact K I L R J) (i : Fin I) : Fin R → K :=
  if J i > L then fun r => lib.dot R L R (lib.dot R (J i) L (tr (F.B i)) (X i)) F.C r r
  else fun r => lib.dot R (J i) R (tr (F.B i)) (lib.dot (J i) L R (X i) F.C) r r

/-- Left-hand sides for mode 1 (lines 240, 243): `(CtC * a_row)` and its transpose are multiplied with the row of `A`. -/
def crossBF (lib : Lib K) (F : FFact K I L R J) (i : Fin I) : Mat K R R := fun r s => lib.dot R L R (tr F.C) F.C r s * F.A i s * F.A i r

/-- Right-hand sides for mode 1 (line 242). -/
def rhsBF (lib : Lib K) (X : Rag K I L J) (F : FFact K I L R J) (i : Fin I) : Mat K (J i) R :=
  lib.dot (J i) L R (X i) fun l r => F.C l r * F.A i r

/-- `B_i * A_i` (line 313). -/
def scaledBF (F : FFact K I L R J) (i : Fin I) : Mat K (J i) R := fun j r => F.B i j r * F.A i r

/-- Left-hand side for mode 2 (lines 310, 314). -/
def crossCF (lib : Lib K) (F : FFact K I L R J) : Mat K R R := fun r s =>
  pySum fun i => lib.dot R (J i) R (tr (scaledBF F i)) (scaledBF F i) r s

/-- Right-hand side for mode 2 (lines 311, 315). -/
def rhsCF (lib : Lib K) (X : Rag K I L J) (F : FFact K I L R J) : Mat K L R := fun l r =>
  pySum fun i => lib.dot L (J i) R (tr (X i)) (scaledBF F i) l r

/-- Everything before the inner loop of `admm_update_A` (lines 137-172), and the solution of the linear systems (lines 183-195). -/
def prepAF (lib : Lib K) {n : ℕ} (X : Rag K I L J) (scale l2 : K) (const : Bool) (F : FFact K I L R J) :
    Except PyErr ((Option K × (Fin I → K)) × ((Fin n → Mat K I R) → Except PyErr (Mat K I R))) :=
  match feasPensF lib scale const (crossAF lib F) with
  | .error e => .error e
  | .ok ρ =>
    match seqPi I fun i => lib.svd R (ridgeF lib (crossAF lib F i) (ρ.2 i) n l2) with
    | .error e => .error e
    | .ok d => .ok (ρ, fun z => .ok fun i =>
        lib.dotV R R (lib.dotV R R (fun r => ρ.2 i * (pySum fun p => z p i r) + rhsAF lib X F i r) fun r s => (d i).1 r s / (d i).2.1 s) (d i).2.2)

/-- The same for `admm_update_B` (lines 238-255, 266-273). -/
def prepBF (lib : Lib K) {n : ℕ} (X : Rag K I L J) (scale l2 : K) (const : Bool) (F : FFact K I L R J) :
    Except PyErr ((Fin I → K) × ((Fin n → Rag K I R J) → Except PyErr (Rag K I R J))) :=
  match feasPensF lib scale const (crossBF lib F) with
  | .error e => .error e
  | .ok ρ =>
    match seqPi I fun i => lib.svd R (ridgeF lib (crossBF lib F i) (ρ.2 i) n l2) with
    | .error e => .error e
    | .ok d => .ok (ρ.2, fun z => .ok fun i =>
        lib.dot (J i) R R (lib.dot (J i) R R (fun j r => ρ.2 i * (pySum fun p => z p i j r) + rhsBF lib X F i j r) fun r s => (d i).1 r s / (d i).2.1 s) (d i).2.2)

/-- The same for `admm_update_C` (lines 309-322, 328-331). -/
def prepCF (lib : Lib K) {n : ℕ} (X : Rag K I L J) (scale l2 : K) (F : FFact K I L R J) :
    Except PyErr (K × ((Fin n → Mat K L R) → Except PyErr (Mat K L R))) :=
  let ρ := lib.half * lib.trace R (crossCF lib F) * scale
  match lib.svd R (ridgeF lib (crossCF lib F) ρ n l2) with
  | .error e => .error e
  | .ok d => .ok (ρ, fun z => .ok (lib.dot L R R (lib.dot L R R (fun l r => (pySum fun p => z p l r) * ρ + rhsCF lib X F l r) fun r s => d.1 r s / d.2.1 s) d.2.2))

/-! ### Diagnostics -/

/-- `A * weights` if there are weights (lines 427-428). -/
def weightedAF (F : FFact K I L R J) : Mat K I R :=
  match F.weights with
  | none => F.A
  | some w => fun i r => F.A i r * w r

/-- `norm_X_sq - 2 * inner_product + norm_cmf_sq` (lines 420-450), with the data norm given; the intermediate results of the A-update are those for the factors `G`. -/
def sqErrorF (lib : Lib K) (X : Rag K I L J) (F : FFact K I L R J) (normX : K) (inter : Option (FFact K I L R J)) : K :=
  let A := weightedAF F
  let p : K × K := match inter with
    | none =>
      let B : Rag K I R J := fun i j r => F.B i j r * A i r
      (pySum fun i => if J i > L then lib.trace R (lib.dot R L R (lib.dot R (J i) L (tr (B i)) (X i)) F.C)
          else lib.trace R (lib.dot R (J i) R (tr (B i)) (lib.dot (J i) L R (X i) F.C)),
        pySum fun i => lib.sumM R R fun r s => lib.dot R (J i) R (tr (B i)) (B i) r s * lib.dot R L R (tr F.C) F.C r s)
    | some G =>
      (pySum fun i => lib.sumV R fun r => rhsAF lib X G i r * A i r,
        pySum fun i => lib.sumM R R (lib.dot R R R (lib.dot R R R (diagF (A i)) (crossAF lib G i)) (diagF (A i))))
  normX ^ 2 - lib.lit 2 * p.1 + p.2

/-- `np.sqrt(max(0, x))` (line 452). `max(0, x)` of Python is `x` if `x > 0`, otherwise `0`; in particular if `x` is NaN. -/
def rootF (lib : Lib K) (x : K) : K := lib.sqrt (if 0 < x then x else 0)

/-- `_compute_l2_penalty` (lines 617-627). -/
def l2PenaltyF (lib : Lib K) (l : K × K × K) (F : FFact K I L R J) : K :=
  let a := if truthyF (some l.1) then 0 + lib.half * l.1 * lib.sumM I R fun i r => F.A i r ^ 2 else 0
  let b := if truthyF (some l.2.1) then a + lib.half * l.2.1 * pySum fun i => lib.sumM (J i) R fun j r => F.B i j r ^ 2 else a
  if truthyF (some l.2.2) then b + lib.half * l.2.2 * lib.sumM L R fun l r => F.C l r ^ 2 else b

/-- `_check_inner_convergence` (lines 92-116). -/
def innerStopF (tol : Option K) (norm change : K) (gaps : List K) : Bool :=
  match tol with
  | none => false
  | some t =>
    if !truthyF (some t) || decide (t < 0) then false
    else if t * norm < change then false
    else match gaps with
      | [] => true
      | g :: gs => decide (pyMaxF g gs < t)

/-- One of the lines 633-638: the largest gap so far and the gaps of the next mode. -/
def maxGapF (gaps : List K) (m : K) : K :=
  match gaps with
  | [] => m
  | g :: gs => if pyMaxF g gs < m then m else pyMaxF g gs

/-- `_check_feasibility` (lines 630-640). -/
def checkFeasF (lib : Lib K) (g : List K × List K × List K) (tol : K) : Bool :=
  decide (maxGapF g.2.2 (maxGapF g.2.1 (maxGapF g.1 lib.negInf)) < tol)

/-- `compute_feasibility_gaps` (lines 351-417). -/
def gapsF (lib : Lib K) {α : Type} {nA nB nC : ℕ} (subB : Fin nB → FAuxB K α I R J → Rag K I R J → Rag K I R J) (s : FState K α I L R nA nB nC J) :
    List K × List K × List K :=
  (List.ofFn fun p => lib.norm I R (fun i r => s.auxA p i r - s.F.A i r) / lib.norm I R s.F.A,
    List.ofFn fun p => rootSumSqF lib (subB p (s.auxB p) s.F.B) / rootSumSqF lib s.F.B,
    List.ofFn fun p => lib.norm L R (fun l r => s.auxC p l r - s.F.C l r) / lib.norm L R s.F.C)

/-! ### The loop -/

/-- The call: data, their norm (line 906), the `l2_penalty`, tolerances, and the sum of the values of the penalties (lines 916-920, 1016-1020), which may raise. -/
structure FCall (K α : Type) (I L R nA nB nC : ℕ) (J : Fin I → ℕ) where
  X : Rag K I L J
  pensA : Fin nA → FPenA K I R
  pensB : Fin nB → FPenB K α I R J
  pensC : Fin nC → FPenC K L R
  value : FFact K I L R J → Except PyErr K
  l2 : K × K × K
  scale : K
  constA : Bool
  constB : Bool
  innerTol : Option K
  tol : Option K
  absTol : Option K
  feasTol : Option K
  returnErrors : Bool
  nInner : ℕ
  updA : Bool
  updB : Bool
  updC : Bool

/-- Why the loop was left (lines 932, 1044, 1050). -/
inductive FStop
  | maxIter
  | relative
  | absolute
  deriving DecidableEq

/-- What the loop remembers: reconstruction errors, losses, feasibility gaps, number of iterations, satisfied stopping condition. -/
structure FAcc (K : Type) where
  recErrors : List K
  losses : List K
  gaps : List (List K × List K × List K)
  nIter : ℕ
  stop : FStop

variable {α : Type} {nA nB nC : ℕ}

/-- Lines 1037-1053: the decision after the loss has been appended. -/
def decideF (lib : Lib K) (c : FCall K α I L R nA nB nC J) (feasible : Bool) (prev new : K) (m : FAcc K) : Except PyErr (FAcc K × Bool) :=
  match c.tol with
  | none => .ok (m, false)
  | some tol =>
    if truthyF (some tol) then
      match c.absTol with
      | none => .error .typeError
      | some abs =>
        if feasible && decide (lib.abs (prev - new) < tol * prev) then .ok ({ m with stop := .relative }, true)
        else if feasible && decide (new < abs) then .ok ({ m with stop := .absolute }, true)
        else .ok (m, false)
    else .ok (m, false)

/-- `feasibility_tol and _check_feasibility(curr_feasibility_gaps, feasibility_tol)` (line 996). -/
def feasibleF (lib : Lib K) (tol : Option K) (g : List K × List K × List K) : Bool :=
  match tol with
  | none => false
  | some t => truthyF (some t) && checkFeasF lib g t

/-- The rest of an iteration, after the updates (lines 989-1056). `u` is the state before the A-update, `v` the one after it. `losses` is never empty in the loop. -/
def observeF (lib : Lib K) (c : FCall K α I L R nA nB nC J) (m : FAcc K) (u v : FState K α I L R nA nB nC J) : Except PyErr (FAcc K × Bool) :=
  let m := { m with nIter := m.nIter + 1 }
  if truthyF c.tol || truthyF c.absTol || c.returnErrors then
    let g := gapsF lib (fun p => (c.pensB p).subtract) v
    let m := { m with gaps := m.gaps ++ [g] }
    let feasible := feasibleF lib c.feasTol g
    if (truthyF c.tol || truthyF c.absTol) && !feasible && !c.returnErrors then .ok (m, false)
    else
      let norm := rootSumSqF lib c.X
      let err := rootF lib (sqErrorF lib c.X v.F norm (if c.updA then some u.F else none)) / norm
      match c.value v.F with
      | .error e => .error e
      | .ok p =>
        let loss := lib.half * err ^ 2 + l2PenaltyF lib c.l2 v.F + p
        decideF lib c feasible (m.losses.getLastD 0) loss { m with recErrors := m.recErrors ++ [err], losses := m.losses ++ [loss] }
  else .ok (m, false)

/-- The environment of a call. -/
def FCall.env (lib : Lib K) (c : FCall K α I L R nA nB nC J) : Env K α (FAcc K) I L R nA nB nC J where
  pensA := c.pensA
  pensB := c.pensB
  pensC := c.pensC
  prepA := prepAF lib c.X c.scale c.l2.1 c.constA
  prepB := prepBF lib c.X c.scale c.l2.2.1 c.constB
  prepC := prepCF lib c.X c.scale c.l2.2.2
  stopA s t := innerStopF c.innerTol (lib.norm I R t.x) (lib.norm I R fun i r => t.x i r - s.x i r)
    (List.ofFn fun p => lib.norm I R (fun i r => t.aux p i r - t.x i r) / lib.norm I R t.x)
  stopB s t := innerStopF c.innerTol (rootSumSqF lib t.x) (rootSumSqF lib (J := J) fun i j r => t.x i j r - s.x i j r)
    (List.ofFn fun p => rootSumSqF lib ((c.pensB p).subtract (t.aux p) t.x) / rootSumSqF lib t.x)
  stopC s t := innerStopF c.innerTol (lib.norm L R t.x) (lib.norm L R fun l r => t.x l r - s.x l r)
    (List.ofFn fun p => lib.norm L R (fun l r => t.aux p l r - t.x l r) / lib.norm L R t.x)
  observe := observeF lib c
  nInner := c.nInner
  updA := c.updA
  updB := c.updB
  updC := c.updC

/-- The values before the loop (lines 906-932). -/
def startF (lib : Lib K) (c : FCall K α I L R nA nB nC J) (s : FState K α I L R nA nB nC J) : Except PyErr (FAcc K) :=
  let norm := rootSumSqF lib c.X
  let err := rootF lib (sqErrorF lib c.X s.F norm none) / norm
  match c.value s.F with
  | .error e => .error e
  | .ok p => .ok ⟨[err], [lib.half * err ^ 2 + l2PenaltyF lib c.l2 s.F + p], [gapsF lib (fun p => (c.pensB p).subtract) s], 0, .maxIter⟩

/-- `cmf_aoadmm` from line 906 on, started with the given factors, auxiliary and dual variables: what it remembers, and the state whose factors, auxiliary and dual variables it returns. -/
def fitF (lib : Lib K) (c : FCall K α I L R nA nB nC J) (N : ℕ) (s : FState K α I L R nA nB nC J) : Except PyErr (FAcc K × FState K α I L R nA nB nC J) :=
  match startF lib c s with
  | .error e => .error e
  | .ok m => runF (c.env lib) N m s

end

end

end Verif.FloatFit
