import Verif.Props.WholeBound
import Verif.Props.LoopBall

/-!
# C139 for whole calls
-/

namespace Verif.Props

open Verif.Whole Verif.Loop Verif.ADMM Verif.Penalties Verif.Parse Verif.Spec Finset Matrix Filter

variable {I K R : ℕ} {J : Fin I → ℕ}

/-- `l2_norm_bound=b, non_negative=nn` for one mode. -/
def ballMode (b : ℝ) (nn : Bool) : ModeArgs := { noMode with normBound := .num b, nonNeg := .bool nn }

theorem requested_ball {b : ℝ} (nn : Bool) {m n : ℕ} (Z : Matrix (Fin m) (Fin n) ℝ) : Z ∈ Requested (ballMode b nn) m n ↔ Z ∈ (StdPen.l2Ball b nn : StdPen m n).feasible := by
  simp only [Requested, ballMode, noMode, Set.mem_ofPred_eq, Leaf.bool.injEq, Leaf.num.injEq, reduceCtorEq, false_implies, implies_true, and_true, true_and, forall_eq', StdPen.feasible]
  exact and_comm

theorem term_ball (b : ℝ) (nn : Bool) {m n : ℕ} (Z : Matrix (Fin m) (Fin n) ℝ) : modeTerm (ballMode b nn) Z = 0 := by
  simp [modeTerm, ballMode, noMode, genTerm, Leaf.real]

theorem askBall {b : ℝ} (hb : 0 < b) (nn : Bool) {m : ℕ} : AsksConvex (ballMode b nn) m := by
  refine ⟨{ noMode_scalar with normBound := ?_, nonNeg := ?_ }, ?_, rfl, ?_, ?_⟩
  all_goals simp [ballMode, noMode, hb.ne']

theorem inBall_small {b : ℝ} (hb : 0 < b) (nn : Bool) {m M : ℕ} (hm : m ≤ M) {y : Fin m → ℝ} (h : ∀ i, |y i - b / (2 * (M + 1))| < b / (2 * (M + 1))) : InBall b nn y := by
  have hM : (0 : ℝ) < M + 1 := by positivity
  have hc : b / (2 * (M + 1)) + b / (2 * (M + 1)) = b / (M + 1) := by
    field_simp
    ring
  have h0 : ∀ i, 0 ≤ y i := fun i => by linarith [(abs_lt.1 (h i)).1]
  have h1 : ∀ i, y i ≤ b / (M + 1) := fun i => by linarith [(abs_lt.1 (h i)).2]
  refine ⟨?_, fun _ => h0⟩
  calc ∑ i, y i ^ 2 ≤ ∑ _i : Fin m, (b / (M + 1)) ^ 2 := sum_le_sum fun i _ => pow_le_pow_left₀ (h0 i) (h1 i) 2
    _ = m * (b / (M + 1)) ^ 2 := by simp
    _ ≤ b ^ 2 := by
      rw [div_pow, mul_div_assoc', div_le_iff₀ (by positivity)]
      have : (m : ℝ) ≤ M := by exact_mod_cast hm
      nlinarith [mul_le_mul_of_nonneg_right this (sq_nonneg b), sq_nonneg b, mul_nonneg (Nat.cast_nonneg (α := ℝ) M) (sq_nonneg b), mul_nonneg (sq_nonneg (M : ℝ)) (sq_nonneg b)]

theorem insideBall {b : ℝ} (hb : 0 < b) (nn : Bool) {m n : ℕ} : ∃ x, InsideMat (Requested (ballMode b nn) m n) x :=
  ⟨Matrix.of fun _ _ => b / (2 * (m + 1)), b / (2 * (m + 1)), by positivity, fun Y hY => (requested_ball nn Y).2 ((inBall_iff hb nn Y).2 fun r => inBall_small hb nn le_rfl fun i => hY i r)⟩

theorem insideBallB {b : ℝ} (hb : 0 < b) (nn : Bool) : ∃ x, InsideRag {Z : Ragged I R J | ∀ i, Z i ∈ Requested (ballMode b nn) (J i) R} x :=
  ⟨fun _ => Matrix.of fun _ _ => b / (2 * (((∑ i, J i : ℕ) : ℝ) + 1)), b / (2 * (((∑ i, J i : ℕ) : ℝ) + 1)), by positivity,
    fun Y hY i => (requested_ball nn (Y i)).2 ((inBall_iff hb nn (Y i)).2 fun r => inBall_small hb nn (single_le_sum (f := J) (fun _ _ => Nat.zero_le _) (mem_univ i)) fun j => hY i j r)⟩

/-- C139 for a call `cmf_aoadmm(..., l2_norm_bound=[...], non_negative=[...])` that updates A only. -/
theorem C139_call_A (W : World I K R J) (hW : GoodWorld W) (c : Call I K R J) (h : Heap String) (hregs : c.regs = none) {f : Fin 3 → ModeArgs} (hf : AllForms c.args f)
    {l2 : Fin 3 → Leaf} (hl2 : Forms c.l2 l2) {b : ℝ} (hb : 0 < b) (nn : Bool) (ha : f 0 = ballMode b nn) (hA : c.updA = true) (hB : c.updB = false) (hC : c.updC = false)
    (hN : 0 < c.nInner) (hl : 0 ≤ (l2 0).real) (hI : 0 < I) (hR : 0 < R) {start : Start I K R J} (hstart : initializeCmf W.init c.init = .ok start) (hw : ∀ i, 0 < weightA c.scale start.F i)
    (hsol : SolvableA start.F (l2 0).real) (h' : ℕ → Heap String) (res : ℕ → Result I K R J) (e : ∀ n : ℕ, call W { c with loop := plain n } h = (h' n, .ok (res n))) :
    ∃ xs : Matrix (Fin I) (Fin R) ℝ, (∀ i r, Tendsto (fun n => (res n).out.st.F.A i r) atTop (nhds (xs i r))) ∧
      ∀ Y : Matrix (Fin I) (Fin R) ℝ, (∀ r, BallColumn b nn (fun i => gradA c.X (l2 0).real start.F Y i r) fun i => Y i r) ↔ Y = xs := by
  obtain ⟨xs, h1, h2⟩ := C82_A W hW c h hregs hf hl2 (by rw [ha]; exact askBall hb nn) hA hB hC hN hl hI hR hstart hw hsol (by rw [ha]; exact insideBall hb nn) h' res e
  rw [ha] at h1
  refine ⟨xs, h2, fun Y => ?_⟩
  rw [← h1 Y, ← ball_minA c.X hl start.F hb nn Y]
  simp only [IsMinOver, forall_const, StdPen.fn, requested_ball, term_ball, fitA, sum_const_zero]

/-- C139 for a call `cmf_aoadmm(..., l2_norm_bound=[...], non_negative=[...])` that updates the B factor matrices only. -/
theorem C139_call_B (W : World I K R J) (hW : GoodWorld W) (c : Call I K R J) (h : Heap String) (hregs : c.regs = none) {f : Fin 3 → ModeArgs} (hf : AllForms c.args f)
    {l2 : Fin 3 → Leaf} (hl2 : Forms c.l2 l2) {b : ℝ} (hb : 0 < b) (nn : Bool) (ha : f 1 = ballMode b nn) (hA : c.updA = false) (hB : c.updB = true) (hC : c.updC = false)
    (hN : 0 < c.nInner) (hl : 0 ≤ (l2 1).real) (hI : 0 < I) (hJ : ∀ i, 0 < J i) (hR : 0 < R) {start : Start I K R J} (hstart : initializeCmf W.init c.init = .ok start) (hw : ∀ i, 0 < weightB c.scale start.F i)
    (hsol : SolvableB start.F (l2 1).real) (h' : ℕ → Heap String) (res : ℕ → Result I K R J) (e : ∀ n : ℕ, call W { c with loop := plain n } h = (h' n, .ok (res n))) :
    ∃ xs : Ragged I R J, (∀ i j r, Tendsto (fun n => (res n).out.st.F.B i j r) atTop (nhds (xs i j r))) ∧
      ∀ Y : Ragged I R J, (∀ i r, BallColumn b nn (fun j => gradB c.X (l2 1).real start.F Y i j r) fun j => Y i j r) ↔ Y = xs := by
  obtain ⟨xs, h1, h2⟩ := C82_B W hW c h hregs hf hl2 (by rw [ha]; exact fun i => askBall hb nn) hA hB hC hN hl hI hJ hR hstart hw hsol (by rw [ha]; exact insideBallB hb nn) h' res e
  rw [ha] at h1
  refine ⟨xs, h2, fun Y => ?_⟩
  rw [← h1 Y, ← ball_minB c.X hl start.F hb nn Y]
  simp only [IsMinOver, forall_const, StdPen.fn, Set.mem_ofPred_eq, requested_ball, term_ball, fitB, raggedSq, sum_const_zero]

/-- C139 for a call `cmf_aoadmm(..., l2_norm_bound=[...], non_negative=[...])` that updates C only. -/
theorem C139_call_C (W : World I K R J) (hW : GoodWorld W) (c : Call I K R J) (h : Heap String) (hregs : c.regs = none) {f : Fin 3 → ModeArgs} (hf : AllForms c.args f)
    {l2 : Fin 3 → Leaf} (hl2 : Forms c.l2 l2) {b : ℝ} (hb : 0 < b) (nn : Bool) (ha : f 2 = ballMode b nn) (hA : c.updA = false) (hB : c.updB = false) (hC : c.updC = true)
    (hN : 0 < c.nInner) (hl : 0 ≤ (l2 2).real) (hK : 0 < K) (hR : 0 < R) {start : Start I K R J} (hstart : initializeCmf W.init c.init = .ok start) (hw : 0 < weightC c.scale start.F)
    (hsol : SolvableC start.F (l2 2).real) (h' : ℕ → Heap String) (res : ℕ → Result I K R J) (e : ∀ n : ℕ, call W { c with loop := plain n } h = (h' n, .ok (res n))) :
    ∃ xs : Matrix (Fin K) (Fin R) ℝ, (∀ k r, Tendsto (fun n => (res n).out.st.F.C k r) atTop (nhds (xs k r))) ∧
      ∀ Y : Matrix (Fin K) (Fin R) ℝ, (∀ r, BallColumn b nn (fun k => gradC c.X (l2 2).real start.F Y k r) fun k => Y k r) ↔ Y = xs := by
  obtain ⟨xs, h1, h2⟩ := C82_C W hW c h hregs hf hl2 (by rw [ha]; exact askBall hb nn) hA hB hC hN hl hK hR hstart hw hsol (by rw [ha]; exact insideBall hb nn) h' res e
  rw [ha] at h1
  refine ⟨xs, h2, fun Y => ?_⟩
  rw [← h1 Y, ← ball_minC c.X hl start.F hb nn Y]
  simp only [IsMinOver, forall_const, StdPen.fn, requested_ball, term_ball, fitC, sum_const_zero]

/-! ### A call that meets the hypotheses -/

/-- `cmf_aoadmm([[[5]]], 1, init=..., l2_norm_bound=2, non_negative=True, update_A=False, update_B_is=False, ...)`, C initially 7, A and B equal to 1. -/
noncomputable def exCallBall : Call 1 1 1 (fun _ => 1) :=
  { exCall4 with X := scX 5, init := .given ⟨none, scF 1 1 7⟩, l2 := .one .none, args := { noArgs with normBound := .one (.num 2), nonNeg := .one (.bool true) }, updA := false, updB := false }

theorem exFormsBall : AllForms exCallBall.args fun _ => ballMode 2 true := by
  exact ⟨.one _, .one _, .one _, .one _, .one _, fun m => by simp [noMode, exCallBall, noArgs, ballMode], .one _, .one _, .one _⟩

/-- C139 at work: C tends to 2. -/
theorem C139_call_example : ∃ (h' : ℕ → Heap String) (res : ℕ → Result 1 1 1 fun _ => 1), (∀ n : ℕ, call exWorldTV { exCallBall with loop := plain n } [] = (h' n, .ok (res n))) ∧
    Tendsto (fun n => (res n).out.st.F.C 0 0) atTop (nhds 2) := by
  have hok : ∀ n : ℕ, ∃ h' res, call exWorldTV { exCallBall with loop := plain n } [] = (h', .ok res) := by
    intro n
    refine C67 exWorldTV { exCallBall with loop := plain n } [] one_pos rfl (by rfl) (by intro e; cases e) (.inl rfl) (.inl rfl) (fun _ => .none) (.one _) (fun _ => ballMode 2 true)
      exFormsBall (fun m => ⟨(askBall (m := 1) two_pos true).scalar, ?_, ?_, ?_, ?_, ?_⟩) ?_ ?_ ?_ (.inr (.inl rfl)) (fun _ h => by cases h) fun ht => by simp [plain, truthy] at ht
    all_goals simp [ballMode, noMode, Leaf.real]
  choose h' res e using hok
  refine ⟨h', res, e, ?_⟩
  obtain ⟨xs, h1, h2⟩ := C139_call_C exWorldTV exWorldTV_good exCallBall [] rfl exFormsBall (l2 := fun _ => .none) (.one _) two_pos true rfl rfl rfl rfl two_pos (by simp [Leaf.real])
    one_pos one_pos (start := ⟨none, scF 1 1 7⟩) rfl (by simp [weightC, scF, sc, exCallBall, exCall4])
    (fun v hv => by
      have h0 : v 0 ≠ 0 := fun h0 => hv (by funext i; obtain rfl : i = 0 := Subsingleton.elim _ _; exact h0)
      simp [scF, sc, Leaf.real]
      positivity) h' res e
  have h5 : sc 2 = xs := (h2 _).1 (by
    intro r
    fin_cases r
    have eg : gradC exCallBall.X (Leaf.none).real (scF 1 1 7) (sc 2) 0 0 = -3 := by
      simp [gradC, Factors.entry, exCallBall, scX, sc, scF, Leaf.real]
      norm_num
    refine ⟨⟨by simp [sc], fun _ i => by simp [sc]⟩, 3 / 2, by norm_num, fun h => by simp [sc] at h, fun i => ?_⟩
    fin_cases i
    show 0 ≤ gradC exCallBall.X (Leaf.none).real (scF 1 1 7) (sc 2) 0 0 + 3 / 2 * 2 ∧ ((0 : ℝ) < 2 → gradC exCallBall.X (Leaf.none).real (scF 1 1 7) (sc 2) 0 0 + 3 / 2 * 2 = 0)
    rw [eg]
    norm_num)
  have := h1 0 0
  rw [← h5] at this
  exact this

end Verif.Props
