import Verif.Props.WholeBound
import Verif.Props.LoopLasso

/-!
# C137 for whole calls
-/

namespace Verif.Props

open Verif.Whole Verif.Loop Verif.ADMM Verif.Penalties Verif.Parse Verif.Spec Finset Matrix Filter

variable {I K R : ℕ} {J : Fin I → ℕ}

/-- `l1_penalty=γ, non_negative=nn` for one mode. -/
def l1Mode (γ : ℝ) (nn : Bool) : ModeArgs := { noMode with l1 := .num γ, nonNeg := .bool nn }

theorem requested_l1 (γ : ℝ) (nn : Bool) {m n : ℕ} (Z : Matrix (Fin m) (Fin n) ℝ) : Z ∈ Requested (l1Mode γ nn) m n ↔ (nn = true → ∀ i r, 0 ≤ Z i r) := by
  simp [Requested, l1Mode, noMode]

theorem term_l1 (γ : ℝ) (nn : Bool) {m n : ℕ} (Z : Matrix (Fin m) (Fin n) ℝ) : modeTerm (l1Mode γ nn) Z = γ * absSum Z := by
  simp [modeTerm, l1Mode, noMode, genTerm, Leaf.real]

theorem askL1 {γ : ℝ} (nn : Bool) {m : ℕ} : AsksConvex (l1Mode γ nn) m := by
  refine ⟨{ noMode_scalar with l1 := ?_, nonNeg := ?_ }, ?_, rfl, ?_, ?_⟩
  all_goals simp [l1Mode, noMode]

theorem insideL1 (γ : ℝ) (nn : Bool) {m n : ℕ} : InsideMat (Requested (l1Mode γ nn) m n) (Matrix.of fun _ _ => 1) := by
  refine ⟨1, one_pos, fun Y hY => (requested_l1 γ nn Y).2 fun _ i r => ?_⟩
  have := (abs_lt.1 (hY i r)).1
  simp at this
  linarith

theorem insideL1B (γ : ℝ) (nn : Bool) : InsideRag {Z : Ragged I R J | ∀ i, Z i ∈ Requested (l1Mode γ nn) (J i) R} (fun _ => Matrix.of fun _ _ => 1) := by
  refine ⟨1, one_pos, fun Y hY i => (requested_l1 γ nn (Y i)).2 fun _ j r => ?_⟩
  have := (abs_lt.1 (hY i j r)).1
  simp at this
  linarith

/-- C137 for a call `cmf_aoadmm(..., l1_penalty=[...], non_negative=[...])` that updates A only. -/
theorem C137_call_A (W : World I K R J) (hW : GoodWorld W) (c : Call I K R J) (h : Heap String) (hregs : c.regs = none) {f : Fin 3 → ModeArgs} (hf : AllForms c.args f)
    {l2 : Fin 3 → Leaf} (hl2 : Forms c.l2 l2) {γ : ℝ} (hγ : 0 ≤ γ) (nn : Bool) (ha : f 0 = l1Mode γ nn) (hA : c.updA = true) (hB : c.updB = false) (hC : c.updC = false)
    (hN : 0 < c.nInner) (hl : 0 ≤ (l2 0).real) (hI : 0 < I) (hR : 0 < R) {start : Start I K R J} (hstart : initializeCmf W.init c.init = .ok start) (hw : ∀ i, 0 < weightA c.scale start.F i)
    (hsol : SolvableA start.F (l2 0).real) (h' : ℕ → Heap String) (res : ℕ → Result I K R J) (e : ∀ n : ℕ, call W { c with loop := plain n } h = (h' n, .ok (res n))) :
    ∃ xs : Matrix (Fin I) (Fin R) ℝ, (∀ i r, Tendsto (fun n => (res n).out.st.F.A i r) atTop (nhds (xs i r))) ∧
      (∀ Y : Matrix (Fin I) (Fin R) ℝ, (∀ i r, LassoEntry γ nn (gradA c.X (l2 0).real start.F Y i r) (Y i r)) ↔ Y = xs) ∧
      ((∀ i r, xs i r = 0) ↔ ∀ i r, (if nn then ∑ j, ∑ k, c.X i j k * (start.F.B i j r * start.F.C k r) else |∑ j, ∑ k, c.X i j k * (start.F.B i j r * start.F.C k r)|) ≤ γ) := by
  obtain ⟨xs, h1, h2⟩ := C82_A W hW c h hregs hf hl2 (by rw [ha]; exact askL1 nn) hA hB hC hN hl hI hR hstart hw hsol (by rw [ha]; exact ⟨_, insideL1 γ nn⟩) h' res e
  rw [ha] at h1
  have hiff : ∀ Y : Matrix (Fin I) (Fin R) ℝ, (∀ i r, LassoEntry γ nn (gradA c.X (l2 0).real start.F Y i r) (Y i r)) ↔ Y = xs := by
    intro Y
    rw [← h1 Y, ← lasso_minA c.X hl start.F hγ nn Y]
    simp only [IsMinOver, univ_unique, sum_singleton, forall_const, StdPen.feasible, StdPen.fn, Set.mem_ofPred_eq, requested_l1, term_l1, fitA]
  refine ⟨xs, h2, hiff, ?_⟩
  have e0 : (∀ i r, xs i r = 0) ↔ (0 : Matrix (Fin I) (Fin R) ℝ) = xs := ⟨fun hz => funext fun i => funext fun r => (hz i r).symm, fun hz i r => by rw [← hz]; rfl⟩
  rw [e0, ← hiff 0]
  refine forall_congr' fun i => forall_congr' fun r => ?_
  
  have eg : gradA c.X (l2 0).real start.F 0 i r = -(∑ j, ∑ k, c.X i j k * (start.F.B i j r * start.F.C k r)) := by
    simp [gradA, Factors.entry]
  rw [eg]
  exact lasso_zero nn _

/-- C137 for a call `cmf_aoadmm(..., l1_penalty=[...], non_negative=[...])` that updates the B factor matrices only. -/
theorem C137_call_B (W : World I K R J) (hW : GoodWorld W) (c : Call I K R J) (h : Heap String) (hregs : c.regs = none) {f : Fin 3 → ModeArgs} (hf : AllForms c.args f)
    {l2 : Fin 3 → Leaf} (hl2 : Forms c.l2 l2) {γ : ℝ} (hγ : 0 ≤ γ) (nn : Bool) (ha : f 1 = l1Mode γ nn) (hA : c.updA = false) (hB : c.updB = true) (hC : c.updC = false)
    (hN : 0 < c.nInner) (hl : 0 ≤ (l2 1).real) (hI : 0 < I) (hJ : ∀ i, 0 < J i) (hR : 0 < R) {start : Start I K R J} (hstart : initializeCmf W.init c.init = .ok start) (hw : ∀ i, 0 < weightB c.scale start.F i)
    (hsol : SolvableB start.F (l2 1).real) (h' : ℕ → Heap String) (res : ℕ → Result I K R J) (e : ∀ n : ℕ, call W { c with loop := plain n } h = (h' n, .ok (res n))) :
    ∃ xs : Ragged I R J, (∀ i j r, Tendsto (fun n => (res n).out.st.F.B i j r) atTop (nhds (xs i j r))) ∧
      (∀ Y : Ragged I R J, (∀ i j r, LassoEntry γ nn (gradB c.X (l2 1).real start.F Y i j r) (Y i j r)) ↔ Y = xs) ∧
      ((∀ i j r, xs i j r = 0) ↔ ∀ i j r, (if nn then ∑ k, c.X i j k * (start.F.A i r * start.F.C k r) else |∑ k, c.X i j k * (start.F.A i r * start.F.C k r)|) ≤ γ) := by
  obtain ⟨xs, h1, h2⟩ := C82_B W hW c h hregs hf hl2 (by rw [ha]; exact fun i => askL1 nn) hA hB hC hN hl hI hJ hR hstart hw hsol (by rw [ha]; exact ⟨_, insideL1B γ nn⟩) h' res e
  rw [ha] at h1
  have hiff : ∀ Y : Ragged I R J, (∀ i j r, LassoEntry γ nn (gradB c.X (l2 1).real start.F Y i j r) (Y i j r)) ↔ Y = xs := by
    intro Y
    rw [← h1 Y, ← lasso_minB c.X hl start.F hγ nn Y]
    simp only [IsMinOver, univ_unique, sum_singleton, forall_const, StdPen.feasible, StdPen.fn, Set.mem_ofPred_eq, requested_l1, term_l1, fitB, raggedSq]
  refine ⟨xs, h2, hiff, ?_⟩
  have e0 : (∀ i j r, xs i j r = 0) ↔ (0 : Ragged I R J) = xs := ⟨fun hz => funext fun i => funext fun j => funext fun r => (hz i j r).symm, fun hz i j r => by rw [← hz]; rfl⟩
  rw [e0, ← hiff 0]
  refine forall_congr' fun i => forall_congr' fun j => ?_
  refine forall_congr' fun r => ?_
  have eg : gradB c.X (l2 1).real start.F 0 i j r = -(∑ k, c.X i j k * (start.F.A i r * start.F.C k r)) := by
    simp [gradB, Factors.entry]
  rw [eg]
  exact lasso_zero nn _

/-- C137 for a call `cmf_aoadmm(..., l1_penalty=[...], non_negative=[...])` that updates C only. -/
theorem C137_call_C (W : World I K R J) (hW : GoodWorld W) (c : Call I K R J) (h : Heap String) (hregs : c.regs = none) {f : Fin 3 → ModeArgs} (hf : AllForms c.args f)
    {l2 : Fin 3 → Leaf} (hl2 : Forms c.l2 l2) {γ : ℝ} (hγ : 0 ≤ γ) (nn : Bool) (ha : f 2 = l1Mode γ nn) (hA : c.updA = false) (hB : c.updB = false) (hC : c.updC = true)
    (hN : 0 < c.nInner) (hl : 0 ≤ (l2 2).real) (hK : 0 < K) (hR : 0 < R) {start : Start I K R J} (hstart : initializeCmf W.init c.init = .ok start) (hw : 0 < weightC c.scale start.F)
    (hsol : SolvableC start.F (l2 2).real) (h' : ℕ → Heap String) (res : ℕ → Result I K R J) (e : ∀ n : ℕ, call W { c with loop := plain n } h = (h' n, .ok (res n))) :
    ∃ xs : Matrix (Fin K) (Fin R) ℝ, (∀ k r, Tendsto (fun n => (res n).out.st.F.C k r) atTop (nhds (xs k r))) ∧
      (∀ Y : Matrix (Fin K) (Fin R) ℝ, (∀ k r, LassoEntry γ nn (gradC c.X (l2 2).real start.F Y k r) (Y k r)) ↔ Y = xs) ∧
      ((∀ k r, xs k r = 0) ↔ ∀ k r, (if nn then ∑ i, ∑ j, c.X i j k * (start.F.A i r * start.F.B i j r) else |∑ i, ∑ j, c.X i j k * (start.F.A i r * start.F.B i j r)|) ≤ γ) := by
  obtain ⟨xs, h1, h2⟩ := C82_C W hW c h hregs hf hl2 (by rw [ha]; exact askL1 nn) hA hB hC hN hl hK hR hstart hw hsol (by rw [ha]; exact ⟨_, insideL1 γ nn⟩) h' res e
  rw [ha] at h1
  have hiff : ∀ Y : Matrix (Fin K) (Fin R) ℝ, (∀ k r, LassoEntry γ nn (gradC c.X (l2 2).real start.F Y k r) (Y k r)) ↔ Y = xs := by
    intro Y
    rw [← h1 Y, ← lasso_minC c.X hl start.F hγ nn Y]
    simp only [IsMinOver, univ_unique, sum_singleton, forall_const, StdPen.feasible, StdPen.fn, Set.mem_ofPred_eq, requested_l1, term_l1, fitC]
  refine ⟨xs, h2, hiff, ?_⟩
  have e0 : (∀ k r, xs k r = 0) ↔ (0 : Matrix (Fin K) (Fin R) ℝ) = xs := ⟨fun hz => funext fun k => funext fun r => (hz k r).symm, fun hz k r => by rw [← hz]; rfl⟩
  rw [e0, ← hiff 0]
  refine forall_congr' fun k => forall_congr' fun r => ?_
  
  have eg : gradC c.X (l2 2).real start.F 0 k r = -(∑ i, ∑ j, c.X i j k * (start.F.A i r * start.F.B i j r)) := by
    simp [gradC, Factors.entry]
  rw [eg]
  exact lasso_zero nn _

/-! ### A call that meets the hypotheses -/

/-- `cmf_aoadmm([[[5]]], 1, init=..., l1_penalty=2, update_B_is=False, update_C=False, ...)`, A initially 7, B and C equal to 1. -/
noncomputable def exCallL1 : Call 1 1 1 (fun _ => 1) :=
  { exCall4 with X := scX 5, init := .given ⟨none, scF 7 1 1⟩, l2 := .one .none, args := { noArgs with l1 := .one (.num 2), nonNeg := .one (.bool false) }, updB := false, updC := false }

theorem exFormsL1 : AllForms exCallL1.args fun _ => l1Mode 2 false := by
  exact ⟨.one _, .one _, .one _, .one _, .one _, fun m => by simp [noMode, exCallL1, noArgs, l1Mode], .one _, .one _, .one _⟩

/-- C137 at work: A tends to 3. -/
theorem C137_call_example : ∃ (h' : ℕ → Heap String) (res : ℕ → Result 1 1 1 fun _ => 1), (∀ n : ℕ, call exWorldTV { exCallL1 with loop := plain n } [] = (h' n, .ok (res n))) ∧
    Tendsto (fun n => (res n).out.st.F.A 0 0) atTop (nhds 3) := by
  have hok : ∀ n : ℕ, ∃ h' res, call exWorldTV { exCallL1 with loop := plain n } [] = (h', .ok res) := by
    intro n
    refine C67 exWorldTV { exCallL1 with loop := plain n } [] one_pos rfl (by rfl) (by intro e; cases e) (.inl rfl) (.inl rfl) (fun _ => .none) (.one _) (fun _ => l1Mode 2 false) exFormsL1
      (fun m => ⟨(askL1 (m := 1) false).scalar, ?_, ?_, ?_, ?_, ?_⟩) ?_ ?_ ?_ (.inr (.inl rfl)) ?_ fun ht => by simp [plain, truthy] at ht
    all_goals simp [l1Mode, noMode, MatrixWise, Leaf.real]
  choose h' res e using hok
  refine ⟨h', res, e, ?_⟩
  obtain ⟨xs, h1, h2, -⟩ := C137_call_A exWorldTV exWorldTV_good exCallL1 [] rfl exFormsL1 (l2 := fun _ => .none) (.one _) (γ := 2) (by norm_num) false rfl rfl rfl rfl two_pos (by simp [Leaf.real])
    one_pos one_pos (start := ⟨none, scF 7 1 1⟩) rfl (fun i => by simp [weightA, scF, sc, exCallL1, exCall4])
    (fun i v hv => by
      have h0 : v 0 ≠ 0 := fun h0 => hv (by funext i; obtain rfl : i = 0 := Subsingleton.elim _ _; exact h0)
      simp [scF, sc, Leaf.real]
      positivity) h' res e
  have h5 : sc 3 = xs := (h2 _).1 (by
    intro i r
    fin_cases i; fin_cases r
    have eg : gradA exCallL1.X (Leaf.none).real (scF 7 1 1) (sc 3) 0 0 = -2 := by
      simp [gradA, Factors.entry, exCallL1, scX, sc, scF, Leaf.real]
      norm_num
    show LassoEntry 2 false (gradA exCallL1.X (Leaf.none).real (scF 7 1 1) (sc 3) 0 0) 3
    rw [eg]
    norm_num [LassoEntry])
  have := h1 0 0
  rw [← h5] at this
  exact this

end Verif.Props
