import Verif.Props.WholeBound
import Verif.Props.LoopTV

/-!
# C140 for whole calls, and examples
-/

namespace Verif.Props

open Verif.Whole Verif.Loop Verif.ADMM Verif.Penalties Verif.Parse Verif.Spec Finset Matrix Filter

variable {I K R : ℕ} {J : Fin I → ℕ}

/-- `tv_penalty=α` for one mode. -/
def tvMode (α : ℝ) : ModeArgs := { noMode with tv := .num α }

theorem requested_tv (α : ℝ) {m n : ℕ} (Z : Matrix (Fin m) (Fin n) ℝ) : Z ∈ Requested (tvMode α) m n ↔ True := by
  simp [Requested, tvMode, noMode]

theorem term_tv (α : ℝ) {m n : ℕ} (Z : Matrix (Fin m) (Fin n) ℝ) : modeTerm (tvMode α) Z = α * totalVar Z := by
  simp [modeTerm, tvMode, noMode, genTerm, Leaf.real]

theorem askTV (α : ℝ) {m : ℕ} : AsksConvex (tvMode α) m := by
  refine ⟨{ noMode_scalar with tv := ?_ }, ?_, rfl, ?_, ?_⟩
  all_goals simp [tvMode, noMode]

/-- C140 for a call `cmf_aoadmm(..., tv_penalty=[...])` that updates A only. -/
theorem C140_call_A (W : World I K R J) (hW : GoodWorld W) (c : Call I K R J) (h : Heap String) (hregs : c.regs = none) {f : Fin 3 → ModeArgs} (hf : AllForms c.args f)
    {l2 : Fin 3 → Leaf} (hl2 : Forms c.l2 l2) {α : ℝ} (hα : 0 ≤ α) (ha : f 0 = tvMode α) (hA : c.updA = true) (hB : c.updB = false) (hC : c.updC = false)
    (hN : 0 < c.nInner) (hl : 0 ≤ (l2 0).real) (hI : 0 < I) (hR : 0 < R) {start : Start I K R J} (hstart : initializeCmf W.init c.init = .ok start) (hw : ∀ i, 0 < weightA c.scale start.F i)
    (hsol : SolvableA start.F (l2 0).real) (h' : ℕ → Heap String) (res : ℕ → Result I K R J) (e : ∀ n : ℕ, call W { c with loop := plain n } h = (h' n, .ok (res n))) :
    ∃ xs : Matrix (Fin I) (Fin R) ℝ, (∀ i r, Tendsto (fun n => (res n).out.st.F.A i r) atTop (nhds (xs i r))) ∧
      ∀ Y : Matrix (Fin I) (Fin R) ℝ, (∀ r, TVColumn α (fun i => gradA c.X (l2 0).real start.F Y i r) fun i => Y i r) ↔ Y = xs := by
  obtain ⟨xs, h1, h2⟩ := C82_A W hW c h hregs hf hl2 (by rw [ha]; exact askTV α) hA hB hC hN hl hI hR hstart hw hsol (by rw [ha]; exact ⟨0, 1, one_pos, fun Y _ => (requested_tv α Y).2 trivial⟩) h' res e
  rw [ha] at h1
  refine ⟨xs, h2, fun Y => ?_⟩
  rw [← h1 Y, ← tv_minA c.X hl start.F (fun Z _ => Z) hα Y]
  simp only [IsMinOver, univ_unique, sum_singleton, forall_const, StdPen.feasible, StdPen.fn, Set.mem_univ, requested_tv, term_tv, fitA, zero_mul, add_zero]

/-- C140 for a call `cmf_aoadmm(..., tv_penalty=[...])` that updates the B factor matrices only. -/
theorem C140_call_B (W : World I K R J) (hW : GoodWorld W) (c : Call I K R J) (h : Heap String) (hregs : c.regs = none) {f : Fin 3 → ModeArgs} (hf : AllForms c.args f)
    {l2 : Fin 3 → Leaf} (hl2 : Forms c.l2 l2) {α : ℝ} (hα : 0 ≤ α) (ha : f 1 = tvMode α) (hA : c.updA = false) (hB : c.updB = true) (hC : c.updC = false)
    (hN : 0 < c.nInner) (hl : 0 ≤ (l2 1).real) (hI : 0 < I) (hJ : ∀ i, 0 < J i) (hR : 0 < R) {start : Start I K R J} (hstart : initializeCmf W.init c.init = .ok start) (hw : ∀ i, 0 < weightB c.scale start.F i)
    (hsol : SolvableB start.F (l2 1).real) (h' : ℕ → Heap String) (res : ℕ → Result I K R J) (e : ∀ n : ℕ, call W { c with loop := plain n } h = (h' n, .ok (res n))) :
    ∃ xs : Ragged I R J, (∀ i j r, Tendsto (fun n => (res n).out.st.F.B i j r) atTop (nhds (xs i j r))) ∧
      ∀ Y : Ragged I R J, (∀ i r, TVColumn α (fun j => gradB c.X (l2 1).real start.F Y i j r) fun j => Y i j r) ↔ Y = xs := by
  obtain ⟨xs, h1, h2⟩ := C82_B W hW c h hregs hf hl2 (by rw [ha]; exact fun i => askTV α) hA hB hC hN hl hI hJ hR hstart hw hsol (by rw [ha]; exact ⟨0, 1, one_pos, fun Y _ i => (requested_tv α (Y i)).2 trivial⟩) h' res e
  rw [ha] at h1
  refine ⟨xs, h2, fun Y => ?_⟩
  rw [← h1 Y, ← tv_minB c.X hl start.F (fun _ Z _ => Z) hα Y]
  simp only [IsMinOver, univ_unique, sum_singleton, forall_const, StdPen.feasible, StdPen.fn, Set.mem_univ, Set.mem_ofPred_eq, implies_true, requested_tv, term_tv, fitB, raggedSq, zero_mul, add_zero]

/-- C140 for a call `cmf_aoadmm(..., tv_penalty=[...])` that updates C only. -/
theorem C140_call_C (W : World I K R J) (hW : GoodWorld W) (c : Call I K R J) (h : Heap String) (hregs : c.regs = none) {f : Fin 3 → ModeArgs} (hf : AllForms c.args f)
    {l2 : Fin 3 → Leaf} (hl2 : Forms c.l2 l2) {α : ℝ} (hα : 0 ≤ α) (ha : f 2 = tvMode α) (hA : c.updA = false) (hB : c.updB = false) (hC : c.updC = true)
    (hN : 0 < c.nInner) (hl : 0 ≤ (l2 2).real) (hK : 0 < K) (hR : 0 < R) {start : Start I K R J} (hstart : initializeCmf W.init c.init = .ok start) (hw : 0 < weightC c.scale start.F)
    (hsol : SolvableC start.F (l2 2).real) (h' : ℕ → Heap String) (res : ℕ → Result I K R J) (e : ∀ n : ℕ, call W { c with loop := plain n } h = (h' n, .ok (res n))) :
    ∃ xs : Matrix (Fin K) (Fin R) ℝ, (∀ k r, Tendsto (fun n => (res n).out.st.F.C k r) atTop (nhds (xs k r))) ∧
      ∀ Y : Matrix (Fin K) (Fin R) ℝ, (∀ r, TVColumn α (fun k => gradC c.X (l2 2).real start.F Y k r) fun k => Y k r) ↔ Y = xs := by
  obtain ⟨xs, h1, h2⟩ := C82_C W hW c h hregs hf hl2 (by rw [ha]; exact askTV α) hA hB hC hN hl hK hR hstart hw hsol (by rw [ha]; exact ⟨0, 1, one_pos, fun Y _ => (requested_tv α Y).2 trivial⟩) h' res e
  rw [ha] at h1
  refine ⟨xs, h2, fun Y => ?_⟩
  rw [← h1 Y, ← tv_minC c.X hl start.F (fun Z _ => Z) hα Y]
  simp only [IsMinOver, univ_unique, sum_singleton, forall_const, StdPen.feasible, StdPen.fn, Set.mem_univ, requested_tv, term_tv, fitC, zero_mul, add_zero]

/-! ### Examples -/

/-- The data matrix `[[0, 5]]`, A and B equal to 1, a total variation penalty of strength 1 on C: the column of C tends to (1, 4), with derivatives 1 and -1. -/
theorem C140_example : ∃ (P : Problem 1 2 1 0 0 1 fun _ => 1) (init : AOState 1 2 1 0 0 1 fun _ => 1) (outs : ℕ → Output (AOState 1 2 1 0 0 1 fun _ => 1))
    (solver : Matrix (Fin 1) (Fin 2) ℝ → ℝ → Matrix (Fin 1) (Fin 2) ℝ), (∀ n : ℕ, cmfAoadmm P (plain n) init = .ok (outs n)) ∧ P.pensC 0 = (StdPen.tv solver 1 0 : StdPen 2 1).toC ∧
      init.F.C = !![7; 9] ∧ Tendsto (fun n => (outs n).st.F.C 0 0) atTop (nhds 1) ∧ Tendsto (fun n => (outs n).st.F.C 1 0) atTop (nhds 4) := by
  obtain ⟨prm, hP, hN, -, hscale⟩ := exists_params 1 3 none 2
  obtain ⟨solver, hs⟩ := exists_tv 2 1
  let P : Problem 1 2 1 0 0 1 fun _ => 1 :=
    ⟨fun _ => !![0, 5], Fin.elim0, Fin.elim0, fun _ => (StdPen.tv solver 1 0 : StdPen 2 1).toC, (0, 0, 0), prm, false, false, false, false, true⟩
  let init : AOState 1 2 1 0 0 1 fun _ => 1 := ⟨none, ⟨!![1], fun _ => !![1], !![7; 9]⟩, Fin.elim0, Fin.elim0, Fin.elim0, Fin.elim0, fun _ => !![5; 3], fun _ => !![4; 2]⟩
  choose outs ho using fun n : ℕ => C61 P one_pos (fun _ p => p.elim0) (plain n) (by simp [plain, truthy]) init
  refine ⟨P, init, outs, solver, ho, rfl, rfl, ?_⟩
  obtain ⟨xs, h1, -, h3⟩ := C140_C P hP (by show 0 < prm.nInner; omega) rfl rfl rfl le_rfl init
    (by show 0 < weightC prm.scale _; rw [hscale]; simp [weightC, init]) (fun v hv => by
      have h0 : v 0 ≠ 0 := fun h0 => hv (by funext i; obtain rfl : i = 0 := Subsingleton.elim _ _; exact h0)
      simp [init, P]
      positivity) solver hs one_pos rfl outs ho
  have g0 : gradC P.X 0 init.F !![1; 4] 0 0 = 1 := by
    simp [gradC, Factors.entry, P, init]
  have g1 : gradC P.X 0 init.F !![1; 4] 1 0 = -1 := by
    simp [gradC, Factors.entry, P, init]
    norm_num
  have h5 : !![1; 4] = xs := (h3 _).1 (by
    intro r
    fin_cases r
    show TVColumn 1 (fun k => gradC P.X 0 init.F !![1; 4] k 0) fun k => (!![1; 4] : Matrix (Fin 2) (Fin 1) ℝ) k 0
    refine ⟨?_, fun i => ?_⟩
    · rw [Fin.sum_univ_two, g0, g1]
      norm_num
    · obtain rfl : i = ⟨0, by norm_num⟩ := Fin.ext (by have := i.2; omega)
      have : firstSum (fun k => gradC P.X 0 init.F !![1; 4] k 0) 0 = 1 := by
        simp [firstSum, g0]
      rw [this]
      norm_num)
  have := h1 0 0
  have h' := h1 1 0
  rw [← h5] at this h'
  exact ⟨this, h'⟩

/-- `cmf_aoadmm([[[5]]], 1, init=..., tv_penalty=2, update_A=False, update_B_is=False, ...)`, C initially 7, A and B equal to 1. -/
noncomputable def exCallTV : Call 1 1 1 (fun _ => 1) :=
  { exCall4 with X := scX 5, init := .given ⟨none, scF 1 1 7⟩, l2 := .one .none, args := { noArgs with tv := .one (.num 2) }, updA := false, updB := false }

theorem exFormsTV : AllForms exCallTV.args fun _ => tvMode 2 := by
  exact ⟨.one _, .one _, .one _, .one _, .one _, fun m => by simp [noMode, exCallTV, noArgs, tvMode], .one _, .one _, .one _⟩

/-- C140 at work: C tends to 5. -/
theorem C140_call_example : ∃ (h' : ℕ → Heap String) (res : ℕ → Result 1 1 1 fun _ => 1), (∀ n : ℕ, call exWorldTV { exCallTV with loop := plain n } [] = (h' n, .ok (res n))) ∧
    Tendsto (fun n => (res n).out.st.F.C 0 0) atTop (nhds 5) := by
  have hok : ∀ n : ℕ, ∃ h' res, call exWorldTV { exCallTV with loop := plain n } [] = (h', .ok res) := by
    intro n
    refine C67 exWorldTV { exCallTV with loop := plain n } [] one_pos rfl (by rfl) (by intro e; cases e) (.inl rfl) (.inl rfl) (fun _ => .none) (.one _) (fun _ => tvMode 2)
      exFormsTV (fun m => ⟨(askTV (m := 1) 2).scalar, ?_, ?_, fun _ => rfl, ?_, ?_⟩) ?_ ?_ ?_ (.inr (.inl rfl)) (fun _ h => by cases h) fun ht => by simp [plain, truthy] at ht
    all_goals simp [tvMode, noMode, Leaf.real]
  choose h' res e using hok
  refine ⟨h', res, e, ?_⟩
  obtain ⟨xs, h1, h2⟩ := C140_call_C exWorldTV exWorldTV_good exCallTV [] rfl exFormsTV (l2 := fun _ => .none) (.one _) (α := 2) zero_le_two rfl rfl rfl rfl two_pos (by simp [Leaf.real])
    one_pos one_pos (start := ⟨none, scF 1 1 7⟩) rfl (by simp [weightC, scF, sc, exCallTV, exCall4])
    (fun v hv => by
      have h0 : v 0 ≠ 0 := fun h0 => hv (by funext i; obtain rfl : i = 0 := Subsingleton.elim _ _; exact h0)
      simp [scF, sc, Leaf.real]
      positivity) h' res e
  have h5 : sc 5 = xs := (h2 _).1 (by
    intro r
    fin_cases r
    refine ⟨?_, fun i => i.elim0⟩
    simp [gradC, Factors.entry, exCallTV, scX, sc, scF, Leaf.real])
  have := h1 0 0
  rw [← h5] at this
  exact this

end Verif.Props
