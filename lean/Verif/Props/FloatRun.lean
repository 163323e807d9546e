import Mathlib.Algebra.Order.Ring.Rat
import Mathlib.Tactic.FinCases
import Mathlib.Tactic.NormNum
import Verif.Props.FloatDiag

/-!
# C102-C105: calls in floating-point arithmetic; examples in an arithmetic with NaN and infinities
-/

set_option linter.unusedSectionVars false

namespace Verif.Props

open Verif.FloatFit Verif.Raise Verif.Spec Verif.Unimodal

/-- Rational numbers with the infinities and NaN of IEEE 754 (without rounding, and with one zero). -/
inductive QF
  | nan
  | neg
  | pos
  | fin (q : ℚ)
  deriving DecidableEq

namespace QF

instance : Zero QF := ⟨.fin 0⟩
instance : One QF := ⟨.fin 1⟩

def add : QF → QF → QF
  | .fin a, .fin b => .fin (a + b)
  | .nan, _ => .nan
  | _, .nan => .nan
  | .pos, .neg => .nan
  | .neg, .pos => .nan
  | .pos, _ => .pos
  | .neg, _ => .neg
  | _, .pos => .pos
  | _, .neg => .neg

def opp : QF → QF
  | .fin a => .fin (-a)
  | .nan => .nan
  | .pos => .neg
  | .neg => .pos

/-- An infinity times a number of the sign of `a`. -/
def infSign (a : ℚ) : QF := if 0 < a then .pos else if a < 0 then .neg else .nan

def mul : QF → QF → QF
  | .fin a, .fin b => .fin (a * b)
  | .nan, _ => .nan
  | _, .nan => .nan
  | .pos, .pos => .pos
  | .neg, .neg => .pos
  | .pos, .neg => .neg
  | .neg, .pos => .neg
  | .pos, .fin a => infSign a
  | .fin a, .pos => infSign a
  | .neg, .fin a => opp (infSign a)
  | .fin a, .neg => opp (infSign a)

def div : QF → QF → QF
  | .fin a, .fin b => if b = 0 then infSign a else .fin (a / b)
  | .nan, _ => .nan
  | _, .nan => .nan
  | .fin _, _ => .fin 0
  | .pos, .fin b => if b < 0 then .neg else .pos
  | .neg, .fin b => if b < 0 then .pos else .neg
  | _, _ => .nan

instance : Add QF := ⟨add⟩
instance : Sub QF := ⟨fun x y => add x (opp y)⟩
instance : Mul QF := ⟨mul⟩
instance : Div QF := ⟨div⟩
instance : Pow QF ℕ := ⟨fun x k => k.rec 1 fun _ r => r * x⟩

def leb : QF → QF → Bool
  | .fin a, .fin b => decide (a ≤ b)
  | .nan, _ => false
  | _, .nan => false
  | .neg, _ => true
  | _, .pos => true
  | _, _ => false

instance : LE QF := ⟨fun x y => leb x y = true⟩
instance : LT QF := ⟨fun x y => (leb x y && !leb y x) = true⟩
instance : DecidableLE QF := fun x y => inferInstanceAs (Decidable (leb x y = true))
instance : DecidableLT QF := fun x y => inferInstanceAs (Decidable ((leb x y && !leb y x) = true))

theorem le_def (x y : QF) : x ≤ y ↔ leb x y = true := Iff.rfl

theorem isNaN_iff (x : QF) : IsNaN x ↔ x = .nan := by
  unfold IsNaN
  rw [le_def]
  cases x <;> simp [leb]

theorem nan_isNaN : IsNaN nan := (isNaN_iff _).2 rfl

instance : FloatOrder QF where
  left := fun {x y} h => by rw [isNaN_iff]; rintro rfl; exact absurd h (by rw [le_def]; simp [leb])
  right := fun {x y} h => by rw [isNaN_iff]; rintro rfl; rw [le_def] at h; cases x <;> simp [leb] at h
  trans := fun {x y z} h h' => by
    rw [le_def] at *
    cases x <;> cases y <;> cases z <;> simp [leb] at * <;> exact le_trans h h'
  total := fun {x y} hx hy => by
    rw [isNaN_iff] at hx hy
    simp only [le_def]
    cases x <;> cases y <;> simp [leb] at * <;> exact le_total _ _
  lt_iff := fun {x y} => by
    change (leb x y && !leb y x) = true ↔ leb x y = true ∧ ¬ leb y x = true
    simp
  zero := by rw [isNaN_iff]; exact fun h => by cases h

instance : FloatConst QF where
  inf := .pos
  nan := .nan
  le_inf := fun {x} h => by rw [isNaN_iff] at h; rw [le_def]; cases x <;> simp [leb] at *
  nan_isNaN := by rw [isNaN_iff]

/-- The square root: exact for squares of rational numbers, otherwise rounded. -/
def sqrt : QF → QF
  | .fin q => if q < 0 then .nan else .fin (Nat.sqrt q.num.toNat / Nat.sqrt q.den)
  | .pos => .pos
  | _ => .nan

def abs : QF → QF
  | .fin q => .fin |q|
  | .nan => .nan
  | _ => .pos

theorem add_nan (x : QF) : x + .nan = .nan := by cases x <;> rfl
theorem nan_add (x : QF) : .nan + x = .nan := by cases x <;> rfl
theorem mul_nan (x : QF) : x * .nan = .nan := by cases x <;> rfl
theorem nan_mul (x : QF) : .nan * x = .nan := by cases x <;> rfl

/-- The library: sums from left to right. The decomposition of 1 × 1 matrices is computed, larger ones are refused. -/
def lib : Lib QF where
  lit n := .fin n
  half := .fin (1 / 2)
  negInf := .neg
  abs := abs
  sqrt := sqrt
  sumV _ v := pySum v
  sumM _ _ X := pySum fun i => pySum fun j => X i j
  dot _ _ _ X Y := fun i j => pySum fun l => X i l * Y l j
  dotV _ _ v Y := fun j => pySum fun l => v l * Y l j
  trace _ X := pySum fun i => X i i
  norm _ _ X := sqrt (pySum fun i => pySum fun j => X i j ^ 2)
  svd n G := match n, G with
    | 1, G => if G 0 0 ≤ G 0 0 then .ok (fun _ _ => if G 0 0 < 0 then .fin (-1) else 1, fun _ => abs (G 0 0), fun _ _ => 1) else .error .valueError
    | _, _ => .error .valueError

theorem sum_nan {n : ℕ} {f : Fin n → QF} {i : Fin n} (h : IsNaN (f i)) : IsNaN (pySum f) :=
  foldl_add_nan (fun {x} y hx => by rw [isNaN_iff] at *; rw [hx, nan_add]) (fun x {y} hy => by rw [isNaN_iff] at *; rw [hy, add_nan]) _ _
    (.inr ⟨f i, List.mem_ofFn.2 ⟨i, rfl⟩, h⟩)

theorem sq_nan : (.nan : QF) ^ 2 = .nan := by
  change (1 * .nan : QF) * .nan = .nan
  rw [mul_nan]

/-- NaN propagates. -/
theorem nanLib : NaNLib lib where
  add_left {x} y h := by rw [(isNaN_iff x).1 h, nan_add]; exact nan_isNaN
  add_right x {y} h := by rw [(isNaN_iff y).1 h, add_nan]; exact nan_isNaN
  sub_left {x} y h := by rw [(isNaN_iff x).1 h, isNaN_iff]; exact nan_add _
  sub_right x {y} h := by rw [(isNaN_iff y).1 h, isNaN_iff]; exact add_nan _
  mul_left {x} y h := by rw [(isNaN_iff x).1 h, nan_mul]; exact nan_isNaN
  mul_right x {y} h := by rw [(isNaN_iff y).1 h, mul_nan]; exact nan_isNaN
  div_right x {y} h := by rw [(isNaN_iff y).1 h, isNaN_iff]; cases x <;> rfl
  sq {x} h := by rw [(isNaN_iff x).1 h, sq_nan]; exact nan_isNaN
  abs {x} h := by rw [(isNaN_iff x).1 h]; exact nan_isNaN
  sqrt {x} h := by rw [(isNaN_iff x).1 h]; exact nan_isNaN
  sumV h := sum_nan h
  sumM {m n X i j} h := sum_nan (i := i) (sum_nan (i := j) h)
  norm {m n X i j} h := by
    have : IsNaN (pySum fun i => pySum fun j => X i j ^ 2) := sum_nan (i := i) (sum_nan (i := j) (by rw [(isNaN_iff _).1 h, sq_nan]; exact nan_isNaN))
    change IsNaN (sqrt (pySum fun i => pySum fun j => X i j ^ 2))
    rw [(isNaN_iff _).1 this]
    exact nan_isNaN
  dot_left {m k n X} Y {i l} j h := sum_nan (i := l) (by rw [(isNaN_iff _).1 h, nan_mul]; exact nan_isNaN)
  dot_right {m k n} X {Y} i {l j} h := sum_nan (i := l) (by rw [(isNaN_iff _).1 h, mul_nan]; exact nan_isNaN)

end QF

/-! ### A fit that loses NaN -/

theorem QF.sqrt_nonneg : ∀ x : QF, 0 ≤ x → 0 ≤ QF.lib.sqrt x := by
  intro x h
  cases x with
  | nan => exact absurd h (by decide +kernel)
  | neg => exact absurd h (by decide +kernel)
  | pos => decide +kernel
  | fin q =>
    have hq : (0 : ℚ) ≤ q := of_decide_eq_true h
    change QF.leb (.fin 0) (if q < 0 then .nan else .fin (Nat.sqrt q.num.toNat / Nat.sqrt q.den)) = true
    rw [if_neg (not_lt.2 hq)]
    exact decide_eq_true (div_nonneg (Nat.cast_nonneg _) (Nat.cast_nonneg _))

theorem QF.div_nonneg : ∀ x y : QF, 0 ≤ x → 0 < y → y < FloatConst.inf → 0 ≤ x / y := by
  intro x y hx hy hi
  cases y with
  | nan => exact absurd hy (by decide +kernel)
  | neg => exact absurd hy (by decide +kernel)
  | pos => exact absurd hi (by decide +kernel)
  | fin b =>
    have hb : (0 : ℚ) < b := by
      have := (FloatOrder.lt_iff.1 hy).2
      exact not_le.1 fun h => this (decide_eq_true h)
    cases x with
    | nan => exact absurd hx (by decide +kernel)
    | neg => exact absurd hx (by decide +kernel)
    | pos =>
      change QF.leb (.fin 0) (if b < 0 then .neg else .pos) = true
      rw [if_neg (not_lt.2 hb.le)]
      rfl
    | fin a =>
      have ha : (0 : ℚ) ≤ a := of_decide_eq_true hx
      change QF.leb (.fin 0) (if b = 0 then QF.infSign a else .fin (a / b)) = true
      rw [if_neg hb.ne']
      exact decide_eq_true (_root_.div_nonneg ha hb.le)

/-- `cmf_aoadmm([[[1.0]]], 1, init=(None, ([[a]], [[[b]]], [[1.0]])), l2_penalty=[0, l2, 0], update_A=False, update_C=False, return_errors=True)`, with the default tolerances. -/
def oneCall (l2 : ℚ) : FCall QF Unit 1 1 1 0 0 0 fun _ => 1 where
  X _ _ _ := 1
  pensA p := p.elim0
  pensB p := p.elim0
  pensC p := p.elim0
  value _ := .ok 0
  l2 := (0, .fin l2, 0)
  scale := 1
  constA := false
  constB := false
  innerTol := none
  tol := some (.fin (1 / 10 ^ 8))
  absTol := some (.fin (1 / 10 ^ 10))
  feasTol := some (.fin (1 / 10 ^ 4))
  returnErrors := true
  nInner := 5
  updA := false
  updB := true
  updC := false

/-- The initial factors. -/
def oneStart (a b : ℚ) : FState QF Unit 1 1 1 0 0 0 fun _ => 1 :=
  ⟨⟨none, fun _ _ => .fin a, fun _ _ _ => .fin b, fun _ _ => 1⟩, fun p => p.elim0, fun p => p.elim0, fun p => p.elim0, fun p => p.elim0, fun p => p.elim0, fun p => p.elim0⟩

/-- What such a call returns: the reason to stop, errors, losses, number of iterations and the factor of mode 1. -/
def oneResult (l2 a b : ℚ) : Option (FStop × List QF × List QF × ℕ × QF) :=
  match fitF QF.lib (oneCall l2) 1000 (oneStart a b) with
  | .error _ => none
  | .ok (m, s) => some (m.stop, m.recErrors, m.losses, m.nIter, s.F.B 0 0 0)

theorem oneResult_zero : decide (oneResult 0 0 1 = some (.absolute, [1, 0], [.fin (1 / 2), 0], 1, .nan)) = true := by decide +kernel

theorem oneResult_ridge : decide (oneResult 1 1 1 = some (.relative, [0, .fin (1 / 2), .fin (1 / 2)], [.fin (1 / 2), .fin (1 / 4), .fin (1 / 4)], 2, .fin (1 / 2))) = true := by
  decide +kernel

theorem oneResult_run {l2 a b : ℚ} {x : FStop × List QF × List QF × ℕ × QF} (h : decide (oneResult l2 a b = some x) = true) :
    ∃ m s', fitF QF.lib (oneCall l2) 1000 (oneStart a b) = .ok (m, s') ∧ (m.stop, m.recErrors, m.losses, m.nIter, s'.F.B 0 0 0) = x := by
  have h := of_decide_eq_true h
  unfold oneResult at h
  cases hr : fitF QF.lib (oneCall l2) 1000 (oneStart a b) with
  | error e => rw [hr] at h; cases h
  | ok y =>
    obtain ⟨m, s'⟩ := y
    rw [hr] at h
    exact ⟨m, s', rfl, Option.some.inj h⟩

/-- C103 is false: the data matrix `[[1]]` is fitted with the fixed factors `A = [[0]]` and `C = [[1]]`. The returned `B` is NaN, yet the call reports that it has converged, with
reconstruction error 0. -/
theorem C103_false : ∃ (c : FCall QF Unit 1 1 1 0 0 0 fun _ => 1) (s : FState QF Unit 1 1 1 0 0 0 fun _ => 1) (m : FAcc QF) (s' : FState QF Unit 1 1 1 0 0 0 fun _ => 1),
    ¬ HasNaN s.F ∧ fitF QF.lib c 1000 s = .ok (m, s') ∧ m.stop = .absolute ∧ HasNaN s'.F ∧ m.recErrors = [1, 0] ∧ m.losses = [.fin (1 / 2), 0] := by
  obtain ⟨m, s', hr, h⟩ := oneResult_run oneResult_zero
  injection h with h1 h
  injection h with h2 h
  injection h with h3 h
  injection h with h4 h5
  refine ⟨oneCall 0, oneStart 0 1, m, s', ?_, hr, h1, .inr (.inl ⟨0, 0, 0, by rw [h5]; exact QF.nan_isNaN⟩), h2, h3⟩
  have hn : ∀ q : ℚ, ¬ IsNaN (QF.fin q) := fun q => by rw [QF.isNaN_iff]; exact fun h => by cases h
  rintro (⟨_, _, h⟩ | ⟨_, _, _, h⟩ | ⟨_, _, h⟩)
  · exact hn _ h
  · exact hn _ h
  · exact hn _ h

/-- C103_hidden and C104 apply to that call. -/
example : ∃ m s', fitF QF.lib (oneCall 0) 1000 (oneStart 0 1) = .ok (m, s') ∧ m.recErrors.getLast? = some (QF.lib.sqrt 0 / rootSumSqF QF.lib (oneCall 0).X) ∧
    ∀ e ∈ m.recErrors, 0 ≤ e ∧ ¬ IsNaN e := by
  obtain ⟨m, s', hr, h⟩ := oneResult_run oneResult_zero
  refine ⟨m, s', hr, C103_hidden QF.nanLib (by decide) (fun _ => by decide) (oneCall 0) rfl 1000 _ s' m hr ?_,
    C104 QF.sqrt_nonneg QF.div_nonneg (oneCall 0) (by decide +kernel) 1000 _ s' m hr⟩
  injection h with _ h
  injection h with _ h
  injection h with _ h
  injection h with _ h
  exact .inr (.inl ⟨0, 0, 0, by rw [h]; exact QF.nan_isNaN⟩)

/-- C103_partial applies to a call with an L2 penalty, which converges to 1/2. -/
example : ∃ m s', fitF QF.lib (oneCall 1) 1000 (oneStart 1 1) = .ok (m, s') ∧ m.stop = .relative ∧ ∀ i j r, ¬ IsNaN (s'.F.B i j r) := by
  obtain ⟨m, s', hr, h⟩ := oneResult_run oneResult_ridge
  injection h with h1 _
  exact ⟨m, s', hr, h1, (C103_partial QF.nanLib (oneCall 1) 1000 _ s' m hr (by rw [h1]; exact fun h => by cases h)).2.1 (by decide +kernel)⟩

/-! ### Whole calls -/

section
variable {K : Type} [Zero K] [One K] [Add K] [Sub K] [Mul K] [Div K] [Pow K ℕ] [LE K] [LT K] [DecidableLE K] [DecidableLT K]
variable {α : Type} {I L R nA nB nC : ℕ} {J : Fin I → ℕ} {lib : Lib K}

/-- C102 for calls with the linear systems, diagnostics and stopping rules of the code. -/
theorem C102_fit [FloatOrder K] [FloatConst K] (c : FCall K α I L R nA nB nC J) (hN : 0 < c.nInner) {N : ℕ} (hn : 0 < N) (m : FAcc K) (s s' : FState K α I L R nA nB nC J)
    (h : fitF lib c N s = .ok (m, s')) (q : ElemPen K) (hq : ValidF q) :
    (c.updA = true → ∀ p, c.pensA p = q.onA I R → SatF (s'.auxA p) q) ∧
    (c.updB = true → ∀ p toMats, c.pensB p = q.onB toMats → ∃ Z, s'.auxB p = .mats Z ∧ ∀ i, SatF (Z i) q) ∧
    (c.updC = true → ∀ p, c.pensC p = q.onC L R → SatF (s'.auxC p) q) := by
  unfold fitF at h
  cases hst : startF lib c s with
  | error e => rw [hst] at h; cases h
  | ok m₀ =>
    rw [hst] at h
    exact C102 (c.env lib) hN hn m₀ m s s' h q hq

/-- `s'` is the state after `k` rounds of updates. -/
def After (E : Env K α (FAcc K) I L R nA nB nC J) : ℕ → FState K α I L R nA nB nC J → FState K α I L R nA nB nC J → Prop
  | 0, s, s' => s' = s
  | k + 1, s, s' => ∃ t, After E k s t ∧ ∃ u, sweepF E t = .ok (u, s')

/-- It is determined by the first state. -/
theorem After.unique {E : Env K α (FAcc K) I L R nA nB nC J} : ∀ {k : ℕ} {s t t' : FState K α I L R nA nB nC J}, After E k s t → After E k s t' → t = t'
  | 0, _, _, _, h, h' => h.trans h'.symm
  | k + 1, s, t, t', ⟨a, ha, u, hu⟩, ⟨b, hb, v, hv⟩ => by
    have := After.unique ha hb
    subst this
    rw [hu] at hv
    exact (Prod.mk.inj (Except.ok.inj hv)).2

theorem runF_after {lib : Lib K} {c : FCall K α I L R nA nB nC J} {s : FState K α I L R nA nB nC J} : ∀ (N : ℕ) (m m' : FAcc K) (t s' : FState K α I L R nA nB nC J),
    After (c.env lib) m.nIter s t → m.stop = .maxIter → runF (c.env lib) N m t = .ok (m', s') →
    After (c.env lib) m'.nIter s s' ∧ m'.nIter ≤ m.nIter + N ∧ (m'.stop = .maxIter → m'.nIter = m.nIter + N) ∧ (m'.stop ≠ .maxIter → m.nIter < m'.nIter)
  | 0, m, m', t, s', h, hm, hr => by
    cases hr
    exact ⟨h, le_refl _, fun _ => rfl, fun h => absurd hm h⟩
  | N + 1, m, m', t, s', h, hm, hr => by
    unfold runF at hr
    cases hs : sweepF (c.env lib) t with
    | error e => rw [hs] at hr; cases hr
    | ok x =>
      obtain ⟨u, v⟩ := x
      rw [hs] at hr
      simp only at hr
      cases ho : (c.env lib).observe m u v with
      | error e => rw [ho] at hr; cases hr
      | ok y =>
        obtain ⟨m₁, b⟩ := y
        rw [ho] at hr
        obtain ⟨hn, hf, ht⟩ := observeF_nIter (lib := lib) ho
        have ha : After (c.env lib) m₁.nIter s v := by
          rw [hn]
          exact ⟨t, h, u, hs⟩
        cases b with
        | true =>
          cases hr
          exact ⟨ha, by omega, fun hx => absurd hx (ht rfl), fun _ => by omega⟩
        | false =>
          obtain ⟨k1, k2, k3, k4⟩ := runF_after N m₁ m' v s' ha ((hf rfl).trans hm) hr
          exact ⟨k1, by omega, fun hx => by rw [k3 hx]; omega, fun hx => by have := k4 hx; omega⟩

/-- C105. The state that is returned after `n` iterations is the result of `n` rounds of updates: diagnostics, tolerances and penalty values decide when to stop and nothing else.
All iterations are made unless a criterion is satisfied. -/
theorem C105 (c : FCall K α I L R nA nB nC J) (N : ℕ) (s s' : FState K α I L R nA nB nC J) (m : FAcc K) (h : fitF lib c N s = .ok (m, s')) :
    After (c.env lib) m.nIter s s' ∧ m.nIter ≤ N ∧ (m.stop = .maxIter → m.nIter = N) ∧ (m.stop ≠ .maxIter → 0 < m.nIter) := by
  unfold fitF at h
  cases hst : startF lib c s with
  | error e => rw [hst] at h; cases h
  | ok m₀ =>
    rw [hst] at h
    unfold startF at hst
    simp only at hst
    split at hst
    · cases hst
    · cases hst
      obtain ⟨h1, h2, h3, h4⟩ := runF_after N _ m s s' (c := c) (lib := lib) (s := s) (show After _ 0 s s from rfl) rfl h
      exact ⟨h1, by simpa using h2, fun h => by simpa using h3 h, h4⟩

/-- C105, two calls: with the same data, penalties, initial values and parameters of the updates, and the same number of iterations, two calls return the same state, bit for bit, whatever
their tolerances, requested diagnostics and penalty values. -/
theorem C105_same (c : FCall K α I L R nA nB nC J) (tol absTol feasTol : Option K) (errs : Bool) (value : FFact K I L R J → Except PyErr K) (N N' : ℕ)
    (s s₁ s₂ : FState K α I L R nA nB nC J) (m₁ m₂ : FAcc K) (h₁ : fitF lib c N s = .ok (m₁, s₁))
    (h₂ : fitF lib { c with tol := tol, absTol := absTol, feasTol := feasTol, returnErrors := errs, value := value } N' s = .ok (m₂, s₂)) (hn : m₁.nIter = m₂.nIter) : s₁ = s₂ := by
  have k₁ := (C105 c N s s₁ m₁ h₁).1
  have k₂ := (C105 _ N' s s₂ m₂ h₂).1
  have key : ∀ (k : ℕ) (t : FState K α I L R nA nB nC J),
      After (FCall.env lib { c with tol := tol, absTol := absTol, feasTol := feasTol, returnErrors := errs, value := value }) k s t → After (c.env lib) k s t := by
    intro k
    induction k with
    | zero => exact fun t h => h
    | succ k ih =>
      rintro t ⟨a, ha, u, hu⟩
      exact ⟨a, ih a ha, u, hu⟩
  have := key _ _ k₂
  rw [← hn] at this
  exact After.unique k₁ this

/-- C105, modes that are not updated: factor, auxiliary and dual variables are returned as they were, bit for bit. -/
theorem C105_fixed (c : FCall K α I L R nA nB nC J) (N : ℕ) (s s' : FState K α I L R nA nB nC J) (m : FAcc K) (h : fitF lib c N s = .ok (m, s')) :
    (c.updA = false → s'.F.A = s.F.A ∧ s'.auxA = s.auxA ∧ s'.dualA = s.dualA) ∧ (c.updB = false → s'.F.B = s.F.B ∧ s'.auxB = s.auxB ∧ s'.dualB = s.dualB) ∧
    (c.updC = false → s'.F.C = s.F.C ∧ s'.auxC = s.auxC ∧ s'.dualC = s.dualC) := by
  have key : ∀ (k : ℕ) (t : FState K α I L R nA nB nC J), After (c.env lib) k s t →
      (c.updA = false → t.F.A = s.F.A ∧ t.auxA = s.auxA ∧ t.dualA = s.dualA) ∧ (c.updB = false → t.F.B = s.F.B ∧ t.auxB = s.auxB ∧ t.dualB = s.dualB) ∧
      (c.updC = false → t.F.C = s.F.C ∧ t.auxC = s.auxC ∧ t.dualC = s.dualC) := by
    intro k
    induction k with
    | zero => rintro t rfl; exact ⟨fun _ => ⟨rfl, rfl, rfl⟩, fun _ => ⟨rfl, rfl, rfl⟩, fun _ => ⟨rfl, rfl, rfl⟩⟩
    | succ k ih =>
      rintro t ⟨a, ha, u, hu⟩
      obtain ⟨iA, iB, iC⟩ := ih a ha
      obtain ⟨b, hb, hc, hd⟩ := sweepF_parts hu
      obtain ⟨b1, b2, b3, b4, b5, b6, b7⟩ := sweepBF_frame hb
      obtain ⟨c1, c2, c3, c4, c5, c6, c7⟩ := sweepCF_frame hc
      obtain ⟨d1, d2, d3, d4, d5, d6, d7⟩ := sweepAF_frame hd
      refine ⟨fun h => ?_, fun h => ?_, fun h => ?_⟩
      · rw [d7 h, c1, c3, c4, b1, b3, b4]; exact iA h
      · rw [d1, d3, d4, c2, c5, c6, b7 h]; exact iB h
      · rw [d2, d5, d6, c7 h, b2, b5, b6]; exact iC h
  exact key _ _ (C105 c N s s' m h).1

end

/-- The iterations of a call without tolerances. -/
def quietCheck : Bool :=
  match fitF QF.lib { oneCall 1 with tol := none, absTol := none, feasTol := none, returnErrors := false, value := fun _ => .ok 0 } 2 (oneStart 1 1) with
  | .error _ => false
  | .ok (m, _) => m.nIter == 2 && m.losses.length == 1

theorem quietCheck_eq : quietCheck = true := by decide +kernel

/-- C105 applies: the call that converges after two iterations returns what the call with two iterations and no tolerances returns, and leaves A and C alone. -/
example : ∃ m s' m₂, fitF QF.lib (oneCall 1) 1000 (oneStart 1 1) = .ok (m, s') ∧
    fitF QF.lib { oneCall 1 with tol := none, absTol := none, feasTol := none, returnErrors := false, value := fun _ => .ok 0 } 2 (oneStart 1 1) = .ok (m₂, s') ∧
    s'.F.A = (oneStart 1 1).F.A ∧ s'.F.B 0 0 0 = .fin (1 / 2) := by
  obtain ⟨m, s', hr, h⟩ := oneResult_run oneResult_ridge
  have hq := quietCheck_eq
  unfold quietCheck at hq
  cases hr₂ : fitF QF.lib { oneCall 1 with tol := none, absTol := none, feasTol := none, returnErrors := false, value := fun _ => .ok 0 } 2 (oneStart 1 1) with
  | error e => rw [hr₂] at hq; cases hq
  | ok y =>
    obtain ⟨m₂, s₂⟩ := y
    rw [hr₂] at hq
    simp only [Bool.and_eq_true, beq_iff_eq] at hq
    injection h with _ h
    injection h with _ h
    injection h with _ h
    injection h with h4 h5
    have := C105_same (oneCall 1) none none none false (fun _ => .ok 0) 1000 2 _ s' s₂ m m₂ hr hr₂ (h4.trans hq.1.symm)
    exact ⟨m, s', m₂, hr, by rw [this], ((C105_fixed (oneCall 1) 1000 _ s' m hr).1 rfl).1, h5⟩

end Verif.Props
