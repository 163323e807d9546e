import Verif.Props.WholeBound
import Verif.Props.LoopGenL2

/-!
# C141 for whole calls
-/

namespace Verif.Props

open Verif.Whole Verif.Loop Verif.ADMM Verif.Penalties Verif.Parse Verif.Spec Finset Matrix Filter

variable {I K R : ℕ} {J : Fin I → ℕ}

/-- `generalized_l2_penalty=M` for one mode. -/
def genMode {m : ℕ} (M : Matrix (Fin m) (Fin m) ℝ) : ModeArgs := { noMode with genL2 := .mat m m M }

theorem requested_gen {m n : ℕ} (M : Matrix (Fin m) (Fin m) ℝ) (Z : Matrix (Fin m) (Fin n) ℝ) : Z ∈ Requested (genMode M) m n ↔ True := by
  simp [Requested, genMode, noMode]

theorem term_gen {m n : ℕ} (M : Matrix (Fin m) (Fin m) ℝ) (Z : Matrix (Fin m) (Fin n) ℝ) : modeTerm (genMode M) Z = ∑ r, ∑ i, ∑ j, Z i r * M i j * Z j r := by
  simp [modeTerm, genMode, noMode, genTerm, Leaf.real]

theorem askGen {m : ℕ} {M : Matrix (Fin m) (Fin m) ℝ} (hM : M.transpose = M) (hM0 : ∀ y, 0 ≤ formAt M y) : AsksConvex (genMode M) m := by
  refine ⟨{ noMode_scalar with genL2 := .inr (.inr ⟨m, M, rfl⟩) }, ?_, rfl, ?_, ?_⟩
  · simp [genMode, noMode]
  · simp [genMode, noMode]
  · intro j N e
    obtain ⟨rfl, -, e⟩ : m = j ∧ m = j ∧ HEq M N := by simpa [genMode] using e
    cases e
    exact ⟨rfl, hM, hM0⟩

/-- C141 for a call `cmf_aoadmm(..., generalized_l2_penalty=[...])` that updates A only. -/
theorem C141_call_A (W : World I K R J) (hW : GoodWorld W) (c : Call I K R J) (h : Heap String) (hregs : c.regs = none) {f : Fin 3 → ModeArgs} (hf : AllForms c.args f)
    {l2 : Fin 3 → Leaf} (hl2 : Forms c.l2 l2) (M : Matrix (Fin I) (Fin I) ℝ) (hM : M.transpose = M) (hM0 : ∀ y, 0 ≤ formAt M y) (ha : f 0 = genMode M)
    (hA : c.updA = true) (hB : c.updB = false) (hC : c.updC = false)
    (hN : 0 < c.nInner) (hl : 0 ≤ (l2 0).real) (hI : 0 < I) (hR : 0 < R) {start : Start I K R J} (hstart : initializeCmf W.init c.init = .ok start) (hw : ∀ i, 0 < weightA c.scale start.F i)
    (hsol : SolvableA start.F (l2 0).real) (h' : ℕ → Heap String) (res : ℕ → Result I K R J) (e : ∀ n : ℕ, call W { c with loop := plain n } h = (h' n, .ok (res n))) :
    ∃ xs : Matrix (Fin I) (Fin R) ℝ, (∀ i r, Tendsto (fun n => (res n).out.st.F.A i r) atTop (nhds (xs i r))) ∧
      ∀ Y : Matrix (Fin I) (Fin R) ℝ, (∀ r, GenL2Column M (fun i => gradA c.X (l2 0).real start.F Y i r) fun i => Y i r) ↔ Y = xs := by
  obtain ⟨xs, h1, h2⟩ := C82_A W hW c h hregs hf hl2 (by rw [ha]; exact askGen hM hM0) hA hB hC hN hl hI hR hstart hw hsol (by rw [ha]; exact ⟨0, 1, one_pos, fun Y _ => (requested_gen M Y).2 trivial⟩) h' res e
  rw [ha] at h1
  refine ⟨xs, h2, fun Y => ?_⟩
  rw [← h1 Y, ← gen_minA c.X hl start.F hM hM0 (W.svdSq I M) Y]
  simp only [IsMinOver, univ_unique, sum_singleton, forall_const, StdPen.feasible, StdPen.fn, Set.mem_univ, requested_gen, term_gen, fitA]

/-- C141 for a call `cmf_aoadmm(..., generalized_l2_penalty=[...])` that updates the B factor matrices only (the matrices have the same number of rows). -/
theorem C141_call_B {L : ℕ} (W : World I K R (fun _ => L)) (hW : GoodWorld W) (c : Call I K R (fun _ => L)) (h : Heap String) (hregs : c.regs = none) {f : Fin 3 → ModeArgs} (hf : AllForms c.args f)
    {l2 : Fin 3 → Leaf} (hl2 : Forms c.l2 l2) (M : Matrix (Fin L) (Fin L) ℝ) (hM : M.transpose = M) (hM0 : ∀ y, 0 ≤ formAt M y) (ha : f 1 = genMode M)
    (hA : c.updA = false) (hB : c.updB = true) (hC : c.updC = false)
    (hN : 0 < c.nInner) (hl : 0 ≤ (l2 1).real) (hI : 0 < I) (hL : 0 < L) (hR : 0 < R) {start : Start I K R (fun _ => L)} (hstart : initializeCmf W.init c.init = .ok start) (hw : ∀ i, 0 < weightB c.scale start.F i)
    (hsol : SolvableB start.F (l2 1).real) (h' : ℕ → Heap String) (res : ℕ → Result I K R (fun _ => L)) (e : ∀ n : ℕ, call W { c with loop := plain n } h = (h' n, .ok (res n))) :
    ∃ xs : Ragged I R fun _ => L, (∀ i j r, Tendsto (fun n => (res n).out.st.F.B i j r) atTop (nhds (xs i j r))) ∧
      ∀ Y : Ragged I R fun _ => L, (∀ i r, GenL2Column M (fun j => gradB c.X (l2 1).real start.F Y i j r) fun j => Y i j r) ↔ Y = xs := by
  obtain ⟨xs, h1, h2⟩ := C82_B W hW c h hregs hf hl2 (by rw [ha]; exact fun i => askGen hM hM0) hA hB hC hN hl hI (fun _ => hL) hR hstart hw hsol (by rw [ha]; exact ⟨0, 1, one_pos, fun Y _ i => (requested_gen M (Y i)).2 trivial⟩) h' res e
  rw [ha] at h1
  refine ⟨xs, h2, fun Y => ?_⟩
  rw [← h1 Y, ← gen_minB c.X hl start.F (M := fun _ => M) (fun _ => hM) (fun _ => hM0) (fun _ => W.svdSq L M) Y]
  simp only [IsMinOver, univ_unique, sum_singleton, forall_const, StdPen.feasible, StdPen.fn, Set.mem_univ, Set.mem_ofPred_eq, implies_true, requested_gen, term_gen, fitB, raggedSq]

/-- C141 for a call `cmf_aoadmm(..., generalized_l2_penalty=[...])` that updates C only. -/
theorem C141_call_C (W : World I K R J) (hW : GoodWorld W) (c : Call I K R J) (h : Heap String) (hregs : c.regs = none) {f : Fin 3 → ModeArgs} (hf : AllForms c.args f)
    {l2 : Fin 3 → Leaf} (hl2 : Forms c.l2 l2) (M : Matrix (Fin K) (Fin K) ℝ) (hM : M.transpose = M) (hM0 : ∀ y, 0 ≤ formAt M y) (ha : f 2 = genMode M)
    (hA : c.updA = false) (hB : c.updB = false) (hC : c.updC = true)
    (hN : 0 < c.nInner) (hl : 0 ≤ (l2 2).real) (hK : 0 < K) (hR : 0 < R) {start : Start I K R J} (hstart : initializeCmf W.init c.init = .ok start) (hw : 0 < weightC c.scale start.F)
    (hsol : SolvableC start.F (l2 2).real) (h' : ℕ → Heap String) (res : ℕ → Result I K R J) (e : ∀ n : ℕ, call W { c with loop := plain n } h = (h' n, .ok (res n))) :
    ∃ xs : Matrix (Fin K) (Fin R) ℝ, (∀ k r, Tendsto (fun n => (res n).out.st.F.C k r) atTop (nhds (xs k r))) ∧
      ∀ Y : Matrix (Fin K) (Fin R) ℝ, (∀ r, GenL2Column M (fun k => gradC c.X (l2 2).real start.F Y k r) fun k => Y k r) ↔ Y = xs := by
  obtain ⟨xs, h1, h2⟩ := C82_C W hW c h hregs hf hl2 (by rw [ha]; exact askGen hM hM0) hA hB hC hN hl hK hR hstart hw hsol (by rw [ha]; exact ⟨0, 1, one_pos, fun Y _ => (requested_gen M Y).2 trivial⟩) h' res e
  rw [ha] at h1
  refine ⟨xs, h2, fun Y => ?_⟩
  rw [← h1 Y, ← gen_minC c.X hl start.F hM hM0 (W.svdSq K M) Y]
  simp only [IsMinOver, univ_unique, sum_singleton, forall_const, StdPen.feasible, StdPen.fn, Set.mem_univ, requested_gen, term_gen, fitC]

/-! ### A call that meets the hypotheses -/

/-- `cmf_aoadmm([[[6]]], 1, init=..., generalized_l2_penalty=[[1]] (all modes), update_A=False, update_B_is=False, ...)`, C initially 7, A and B equal to 1. -/
noncomputable def exCallGen : Call 1 1 1 (fun _ => 1) :=
  { exCall4 with X := scX 6, init := .given ⟨none, scF 1 1 7⟩, l2 := .one .none, args := { noArgs with genL2 := .one (.mat 1 1 !![1]) }, updA := false, updB := false }

theorem exFormsGen : AllForms exCallGen.args fun _ => genMode !![1] := by
  exact ⟨.one _, .one _, .one _, .one _, .one _, fun m => by simp [noMode, exCallGen, noArgs, genMode], .one _, .one _, .one _⟩

/-- C141 at work: C tends to 2. -/
theorem C141_call_example : ∃ (h' : ℕ → Heap String) (res : ℕ → Result 1 1 1 fun _ => 1), (∀ n : ℕ, call exWorldTV { exCallGen with loop := plain n } [] = (h' n, .ok (res n))) ∧
    Tendsto (fun n => (res n).out.st.F.C 0 0) atTop (nhds 2) := by
  have hM : (!![1] : Matrix (Fin 1) (Fin 1) ℝ).transpose = !![1] := by ext i j; fin_cases i; fin_cases j; rfl
  have hM0 : ∀ y, 0 ≤ formAt (!![1] : Matrix (Fin 1) (Fin 1) ℝ) y := fun y => by simp [formAt]; exact mul_self_nonneg _
  have hu : ∀ (m : ℕ) (N : Matrix (Fin m) (Fin m) ℝ), (genMode !![1]).genL2 = .mat m m N → m = 1 := by
    intro m N e
    obtain ⟨rfl, -⟩ : 1 = m ∧ 1 = m ∧ HEq _ N := by simpa [genMode] using e
    rfl
  have hok : ∀ n : ℕ, ∃ h' res, call exWorldTV { exCallGen with loop := plain n } [] = (h', .ok res) := by
    intro n
    refine C67 exWorldTV { exCallGen with loop := plain n } [] one_pos rfl (by rfl) (by intro e; cases e) (.inl rfl) (.inl rfl) (fun _ => .none) (.one _) (fun _ => genMode !![1])
      exFormsGen (fun m => ⟨(askGen hM hM0).scalar, ?_, ?_, fun _ => rfl, ?_, ?_⟩) hu (fun m N e _ => hu m N e) hu (.inr (.inl rfl)) (fun _ h => by cases h) fun ht => by simp [plain, truthy] at ht
    · simp [genMode, noMode, Leaf.real]
    · simp [genMode, noMode, Leaf.real]
    · simp [genMode, noMode, Leaf.real]
    · intro m N e
      obtain rfl := hu m N e
      exact ⟨fun i j => by rw [Subsingleton.elim i j], rfl⟩
  choose h' res e using hok
  refine ⟨h', res, e, ?_⟩
  obtain ⟨xs, h1, h2⟩ := C141_call_C exWorldTV exWorldTV_good exCallGen [] rfl exFormsGen (l2 := fun _ => .none) (.one _) !![1] hM hM0 rfl rfl rfl rfl two_pos (by simp [Leaf.real])
    one_pos one_pos (start := ⟨none, scF 1 1 7⟩) rfl (by simp [weightC, scF, sc, exCallGen, exCall4])
    (fun v hv => by
      have h0 : v 0 ≠ 0 := fun h0 => hv (by funext i; obtain rfl : i = 0 := Subsingleton.elim _ _; exact h0)
      simp [scF, sc, Leaf.real]
      positivity) h' res e
  have h5 : sc 2 = xs := (h2 _).1 (by
    intro r i
    fin_cases r; fin_cases i
    simp [gradC, Factors.entry, exCallGen, scX, sc, scF, Leaf.real]
    norm_num)
  have := h1 0 0
  rw [← h5] at this
  exact this

end Verif.Props
