import Verif.Props.WholeBound
import Verif.Props.LoopBox

/-!
# C138 for whole calls
-/

namespace Verif.Props

open Verif.Whole Verif.Loop Verif.ADMM Verif.Penalties Verif.Parse Verif.Spec Finset Matrix Filter

variable {I K R : ℕ} {J : Fin I → ℕ}

/-- A bound as an argument. -/
def boundLeaf : Option ℝ → Leaf
  | none => .none
  | some x => .num x

/-- `lower_bound=lo, upper_bound=hi, non_negative=nn` for one mode. -/
def boundMode (nn : Bool) (lo hi : Option ℝ) : ModeArgs := { noMode with lower := boundLeaf lo, upper := boundLeaf hi, nonNeg := .bool nn }

/-- The lower bound in force. -/
noncomputable def lowest (nn : Bool) (lo : Option ℝ) : Option ℝ := if nn then some (max 0 (lo.getD 0)) else lo

theorem boundLeaf_num {o : Option ℝ} {x : ℝ} : boundLeaf o = .num x ↔ o = some x := by
  cases o <;> simp [boundLeaf]

theorem inBox_lowest (nn : Bool) (lo hi : Option ℝ) (y : ℝ) :
    InBox (lowest nn lo) hi y ↔ (nn = true → 0 ≤ y) ∧ (∀ l, lo = some l → l ≤ y) ∧ ∀ u, hi = some u → y ≤ u := by
  cases nn <;> cases lo <;> simp [InBox, lowest, and_assoc]

theorem requested_bound (nn : Bool) (lo hi : Option ℝ) {m n : ℕ} (Z : Matrix (Fin m) (Fin n) ℝ) :
    Z ∈ Requested (boundMode nn lo hi) m n ↔ ∀ i r, InBox (lowest nn lo) hi (Z i r) := by
  simp only [inBox_lowest, Requested, boundMode, noMode, Set.mem_ofPred_eq, boundLeaf_num, Leaf.bool.injEq, reduceCtorEq, false_implies, implies_true, and_true]
  exact ⟨fun h i r => ⟨fun e => h.1 e i r, fun l e => h.2.1 l e i r, fun u e => h.2.2 u e i r⟩,
    fun h => ⟨fun e i r => (h i r).1 e, fun l e i r => (h i r).2.1 l e, fun u e i r => (h i r).2.2 u e⟩⟩

theorem term_bound (nn : Bool) (lo hi : Option ℝ) {m n : ℕ} (Z : Matrix (Fin m) (Fin n) ℝ) : modeTerm (boundMode nn lo hi) Z = 0 := by
  simp [modeTerm, boundMode, noMode, genTerm, Leaf.real]

theorem askBound (nn : Bool) (lo hi : Option ℝ) {m : ℕ} : AsksConvex (boundMode nn lo hi) m := by
  refine ⟨{ noMode_scalar with lower := ?_, upper := ?_, nonNeg := ?_ }, ?_, rfl, ?_, ?_⟩
  all_goals cases lo <;> cases hi <;> simp [boundMode, boundLeaf, noMode]

theorem exists_inside {lo hi : Option ℝ} (hv : ∀ l u, lo = some l → hi = some u → l < u) : ∃ y ε : ℝ, 0 < ε ∧ ∀ z, |z - y| < ε → InBox lo hi z := by
  cases lo with
  | none =>
    cases hi with
    | none => exact ⟨0, 1, one_pos, fun z _ => ⟨fun _ h => (by cases h), fun _ h => (by cases h)⟩⟩
    | some u => exact ⟨u - 1, 1, one_pos, fun z hz => ⟨fun _ h => (by cases h), fun _ h => (by cases h; linarith [(abs_lt.1 hz).2])⟩⟩
  | some l =>
    cases hi with
    | none => exact ⟨l + 1, 1, one_pos, fun z hz => ⟨fun _ h => (by cases h; linarith [(abs_lt.1 hz).1]), fun _ h => (by cases h)⟩⟩
    | some u =>
      have := hv l u rfl rfl
      exact ⟨(l + u) / 2, (u - l) / 2, by linarith, fun z hz => ⟨fun _ h => (by cases h; linarith [(abs_lt.1 hz).1]), fun _ h => (by cases h; linarith [(abs_lt.1 hz).2])⟩⟩

theorem insideBound {nn : Bool} {lo hi : Option ℝ} (hv : ∀ l u, lowest nn lo = some l → hi = some u → l < u) {m n : ℕ} : ∃ x, InsideMat (Requested (boundMode nn lo hi) m n) x := by
  obtain ⟨y, ε, h0, h⟩ := exists_inside hv
  exact ⟨Matrix.of fun _ _ => y, ε, h0, fun Y hY => (requested_bound nn lo hi Y).2 fun i r => h _ (hY i r)⟩

theorem insideBoundB {nn : Bool} {lo hi : Option ℝ} (hv : ∀ l u, lowest nn lo = some l → hi = some u → l < u) :
    ∃ x, InsideRag {Z : Ragged I R J | ∀ i, Z i ∈ Requested (boundMode nn lo hi) (J i) R} x := by
  obtain ⟨y, ε, h0, h⟩ := exists_inside hv
  exact ⟨fun _ => Matrix.of fun _ _ => y, ε, h0, fun Y hY i => (requested_bound nn lo hi (Y i)).2 fun j r => h _ (hY i j r)⟩

/-- C138 for a call `cmf_aoadmm(..., lower_bound=[...], upper_bound=[...], non_negative=[...])` that updates A only. -/
theorem C138_call_A (W : World I K R J) (hW : GoodWorld W) (c : Call I K R J) (h : Heap String) (hregs : c.regs = none) {f : Fin 3 → ModeArgs} (hf : AllForms c.args f)
    {l2 : Fin 3 → Leaf} (hl2 : Forms c.l2 l2) (nn : Bool) (lo hi : Option ℝ) (hv : ∀ l u, lowest nn lo = some l → hi = some u → l < u) (ha : f 0 = boundMode nn lo hi)
    (hA : c.updA = true) (hB : c.updB = false) (hC : c.updC = false)
    (hN : 0 < c.nInner) (hl : 0 ≤ (l2 0).real) (hI : 0 < I) (hR : 0 < R) {start : Start I K R J} (hstart : initializeCmf W.init c.init = .ok start) (hw : ∀ i, 0 < weightA c.scale start.F i)
    (hsol : SolvableA start.F (l2 0).real) (h' : ℕ → Heap String) (res : ℕ → Result I K R J) (e : ∀ n : ℕ, call W { c with loop := plain n } h = (h' n, .ok (res n))) :
    ∃ xs : Matrix (Fin I) (Fin R) ℝ, (∀ i r, Tendsto (fun n => (res n).out.st.F.A i r) atTop (nhds (xs i r))) ∧
      ∀ Y : Matrix (Fin I) (Fin R) ℝ, (∀ i r, BoxEntry (lowest nn lo) hi (gradA c.X (l2 0).real start.F Y i r) (Y i r)) ↔ Y = xs := by
  obtain ⟨xs, h1, h2⟩ := C82_A W hW c h hregs hf hl2 (by rw [ha]; exact askBound nn lo hi) hA hB hC hN hl hI hR hstart hw hsol (by rw [ha]; exact insideBound hv) h' res e
  rw [ha] at h1
  refine ⟨xs, h2, fun Y => ?_⟩
  rw [← h1 Y, ← box_minA c.X hl start.F (lowest nn lo) hi Y]
  simp only [IsMinOver, univ_unique, forall_const, StdPen.feasible, StdPen.fn, Set.mem_ofPred_eq, requested_bound, term_bound, fitA, InBox, sum_const_zero]

/-- C138 for a call `cmf_aoadmm(..., lower_bound=[...], upper_bound=[...], non_negative=[...])` that updates the B factor matrices only. -/
theorem C138_call_B (W : World I K R J) (hW : GoodWorld W) (c : Call I K R J) (h : Heap String) (hregs : c.regs = none) {f : Fin 3 → ModeArgs} (hf : AllForms c.args f)
    {l2 : Fin 3 → Leaf} (hl2 : Forms c.l2 l2) (nn : Bool) (lo hi : Option ℝ) (hv : ∀ l u, lowest nn lo = some l → hi = some u → l < u) (ha : f 1 = boundMode nn lo hi)
    (hA : c.updA = false) (hB : c.updB = true) (hC : c.updC = false)
    (hN : 0 < c.nInner) (hl : 0 ≤ (l2 1).real) (hI : 0 < I) (hJ : ∀ i, 0 < J i) (hR : 0 < R) {start : Start I K R J} (hstart : initializeCmf W.init c.init = .ok start) (hw : ∀ i, 0 < weightB c.scale start.F i)
    (hsol : SolvableB start.F (l2 1).real) (h' : ℕ → Heap String) (res : ℕ → Result I K R J) (e : ∀ n : ℕ, call W { c with loop := plain n } h = (h' n, .ok (res n))) :
    ∃ xs : Ragged I R J, (∀ i j r, Tendsto (fun n => (res n).out.st.F.B i j r) atTop (nhds (xs i j r))) ∧
      ∀ Y : Ragged I R J, (∀ i j r, BoxEntry (lowest nn lo) hi (gradB c.X (l2 1).real start.F Y i j r) (Y i j r)) ↔ Y = xs := by
  obtain ⟨xs, h1, h2⟩ := C82_B W hW c h hregs hf hl2 (by rw [ha]; exact fun i => askBound nn lo hi) hA hB hC hN hl hI hJ hR hstart hw hsol (by rw [ha]; exact insideBoundB hv) h' res e
  rw [ha] at h1
  refine ⟨xs, h2, fun Y => ?_⟩
  rw [← h1 Y, ← box_minB c.X hl start.F (lowest nn lo) hi Y]
  simp only [IsMinOver, univ_unique, forall_const, StdPen.feasible, StdPen.fn, Set.mem_ofPred_eq, requested_bound, term_bound, fitB, raggedSq, InBox, sum_const_zero]

/-- C138 for a call `cmf_aoadmm(..., lower_bound=[...], upper_bound=[...], non_negative=[...])` that updates C only. -/
theorem C138_call_C (W : World I K R J) (hW : GoodWorld W) (c : Call I K R J) (h : Heap String) (hregs : c.regs = none) {f : Fin 3 → ModeArgs} (hf : AllForms c.args f)
    {l2 : Fin 3 → Leaf} (hl2 : Forms c.l2 l2) (nn : Bool) (lo hi : Option ℝ) (hv : ∀ l u, lowest nn lo = some l → hi = some u → l < u) (ha : f 2 = boundMode nn lo hi)
    (hA : c.updA = false) (hB : c.updB = false) (hC : c.updC = true)
    (hN : 0 < c.nInner) (hl : 0 ≤ (l2 2).real) (hK : 0 < K) (hR : 0 < R) {start : Start I K R J} (hstart : initializeCmf W.init c.init = .ok start) (hw : 0 < weightC c.scale start.F)
    (hsol : SolvableC start.F (l2 2).real) (h' : ℕ → Heap String) (res : ℕ → Result I K R J) (e : ∀ n : ℕ, call W { c with loop := plain n } h = (h' n, .ok (res n))) :
    ∃ xs : Matrix (Fin K) (Fin R) ℝ, (∀ k r, Tendsto (fun n => (res n).out.st.F.C k r) atTop (nhds (xs k r))) ∧
      ∀ Y : Matrix (Fin K) (Fin R) ℝ, (∀ k r, BoxEntry (lowest nn lo) hi (gradC c.X (l2 2).real start.F Y k r) (Y k r)) ↔ Y = xs := by
  obtain ⟨xs, h1, h2⟩ := C82_C W hW c h hregs hf hl2 (by rw [ha]; exact askBound nn lo hi) hA hB hC hN hl hK hR hstart hw hsol (by rw [ha]; exact insideBound hv) h' res e
  rw [ha] at h1
  refine ⟨xs, h2, fun Y => ?_⟩
  rw [← h1 Y, ← box_minC c.X hl start.F (lowest nn lo) hi Y]
  simp only [IsMinOver, univ_unique, forall_const, StdPen.feasible, StdPen.fn, Set.mem_ofPred_eq, requested_bound, term_bound, fitC, InBox, sum_const_zero]

/-! ### A call that meets the hypotheses -/

/-- `cmf_aoadmm([[[5]]], 1, init=..., upper_bound=2, non_negative=True, update_B_is=False, update_C=False, ...)`, A initially 7, B and C equal to 1. -/
noncomputable def exCallBound : Call 1 1 1 (fun _ => 1) :=
  { exCall4 with X := scX 5, init := .given ⟨none, scF 7 1 1⟩, l2 := .one .none, args := { noArgs with upper := .one (.num 2), nonNeg := .one (.bool true) }, updB := false, updC := false }

theorem exFormsBound : AllForms exCallBound.args fun _ => boundMode true none (some 2) := by
  exact ⟨.one _, .one _, .one _, .one _, .one _, fun m => by simp [noMode, exCallBound, noArgs, boundMode], .one _, .one _, .one _⟩

/-- C138 at work: A tends to 2. -/
theorem C138_call_example : ∃ (h' : ℕ → Heap String) (res : ℕ → Result 1 1 1 fun _ => 1), (∀ n : ℕ, call exWorldTV { exCallBound with loop := plain n } [] = (h' n, .ok (res n))) ∧
    Tendsto (fun n => (res n).out.st.F.A 0 0) atTop (nhds 2) := by
  have hok : ∀ n : ℕ, ∃ h' res, call exWorldTV { exCallBound with loop := plain n } [] = (h', .ok res) := by
    intro n
    refine C67 exWorldTV { exCallBound with loop := plain n } [] one_pos rfl (by rfl) (by intro e; cases e) (.inl rfl) (.inl rfl) (fun _ => .none) (.one _) (fun _ => boundMode true none (some 2))
      exFormsBound (fun m => ⟨(askBound (m := 1) true none (some 2)).scalar, ?_, ?_, ?_, ?_, ?_⟩) ?_ ?_ ?_ (.inr (.inl rfl)) ?_ fun ht => by simp [plain, truthy] at ht
    all_goals simp [boundMode, boundLeaf, noMode, MatrixWise, Leaf.real]
  choose h' res e using hok
  refine ⟨h', res, e, ?_⟩
  obtain ⟨xs, h1, h2⟩ := C138_call_A exWorldTV exWorldTV_good exCallBound [] rfl exFormsBound (l2 := fun _ => .none) (.one _) true none (some 2)
    (by intro l u hl hu; simp [lowest] at hl hu; subst hl hu; norm_num) rfl rfl rfl rfl two_pos (by simp [Leaf.real])
    one_pos one_pos (start := ⟨none, scF 7 1 1⟩) rfl (fun i => by simp [weightA, scF, sc, exCallBound, exCall4])
    (fun i v hv => by
      have h0 : v 0 ≠ 0 := fun h0 => hv (by funext i; obtain rfl : i = 0 := Subsingleton.elim _ _; exact h0)
      simp [scF, sc, Leaf.real]
      positivity) h' res e
  have h5 : sc 2 = xs := (h2 _).1 (by
    intro i r
    fin_cases i; fin_cases r
    have eg : gradA exCallBound.X (Leaf.none).real (scF 7 1 1) (sc 2) 0 0 = -3 := by
      simp [gradA, Factors.entry, exCallBound, scX, sc, scF, Leaf.real]
      norm_num
    show BoxEntry (lowest true none) (some 2) (gradA exCallBound.X (Leaf.none).real (scF 7 1 1) (sc 2) 0 0) 2
    rw [eg]
    norm_num [BoxEntry, InBox, lowest])
  have := h1 0 0
  rw [← h5] at this
  exact this

end Verif.Props
