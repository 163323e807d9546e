import Verif.Parse.Front
import Verif.Props.ParseMeaning
import Verif.ADMM.Model

/-!
# Properties C52 (the whole call) and C53
-/

namespace Verif.Props

open Verif.Parse Verif.Penalties Verif.Spec Finset

variable {α σ : Type}

/-! ### C52 -/

/-- Something wrong with the arguments, as the parser or lines 933-936 see it. -/
def Rejected (negEig : (m : ℕ) → Matrix (Fin m) (Fin m) ℝ → Bool) (s : Settings α) (a : AllArgs) (regs : Option (Val α)) (h : Heap α) (c : ConstFeas) : Prop :=
  (∃ e, (parseAll negEig s a regs h).2 = .error e) ∨ ∃ t, c = .str t ∧ t ≠ "A" ∧ t ≠ "B"

theorem constFlags_bad {t : String} (h₁ : t ≠ "A") (h₂ : t ≠ "B") : constFlags (.str t) = .error .valueError := by
  simp [constFlags, ConstFeas.isStr, ConstFeas.eqStr, h₁, h₂]

theorem step_noUpdate {e : Event} (he : ∀ m, e ≠ .update m) {x : Except PyErr Unit} {h : Heap α} {next : Heap α → Trace α σ}
    (hn : (∀ m, .update m ∉ (next h).events) ∧ ∃ err, (next h).result = .error err) :
    (∀ m, .update m ∉ (Trace.step e x h next).events) ∧ ∃ err, (Trace.step e x h next).result = .error err := by
  cases x with
  | error err => exact ⟨fun m => by simpa [Trace.step] using (he m).symm, err, rfl⟩
  | ok _ =>
    refine ⟨fun m => ?_, hn.2⟩
    simp only [Trace.step, List.mem_cons, not_or]
    exact ⟨(he m).symm, hn.1 m⟩

/-- C52, "before any factor is updated": whatever the other steps do, a call with rejected arguments raises and no factor is updated. -/
theorem C52_before (S : Steps) (negEig : (m : ℕ) → Matrix (Fin m) (Fin m) ℝ → Bool) (s : Settings α) (l2 : Arg) (a : AllArgs) (regs : Option (Val α)) (c : ConstFeas)
    (loop : ℕ → Bool × Bool → Heap α → Trace α σ) (h : Heap α) (hr : Rejected negEig s a regs h c) :
    (∀ m, .update m ∉ (cmfFront S negEig s l2 a regs c loop h).events) ∧ ∃ e, (cmfFront S negEig s l2 a regs c loop h).result = .error e := by
  unfold cmfFront
  refine step_noUpdate (by simp) (step_noUpdate (by simp) (step_noUpdate (by simp) (step_noUpdate (by simp) ?_)))
  rcases e : parseAll negEig s a regs h with ⟨h', err | out⟩
  · exact ⟨by simp, err, rfl⟩
  · refine step_noUpdate (by simp) (step_noUpdate (by simp) (step_noUpdate (by simp) (step_noUpdate (by simp) ?_)))
    rcases hr with ⟨err, h₁⟩ | ⟨t, rfl, h₁, h₂⟩
    · rw [e] at h₁; cases h₁
    · simp only [constFlags_bad h₁ h₂]
      exact ⟨by simp, _, rfl⟩

/-- The exception is the one of the parser, if the steps before it succeed. -/
theorem front_parse {S : Steps} {negEig : (m : ℕ) → Matrix (Fin m) (Fin m) ℝ → Bool} {s : Settings α} {l2 : Arg} {a : AllArgs} {regs : Option (Val α)} {c : ConstFeas}
    {loop : ℕ → Bool × Bool → Heap α → Trace α σ} {h : Heap α} (h₁ : S.randomState = .ok ()) (h₂ : S.getSvd = .ok ()) (h₃ : S.initCmf = .ok ()) (h₄ : ¬WrongLength l2)
    {e : PyErr} (he : (parseAll negEig s a regs h).2 = .error e) : (cmfFront S negEig s l2 a regs c loop h).result = .error e := by
  obtain ⟨l, hl⟩ : ∃ l, listify l2 = .ok l := by
    rcases listify_wrong l2 with ⟨-, c⟩ | ⟨l, q, -⟩
    · exact absurd c h₄
    · exact ⟨l, q⟩
  unfold cmfFront
  rcases q : parseAll negEig s a regs h with ⟨h', err | out⟩
  · rw [q] at he
    cases he
    simp only [h₁, h₂, h₃, hl, Trace.step, Except.map, q]
  · rw [q] at he; cases he

/-- C52 for the whole call, except that `condat_tv` must be installed: the data, rank, initialisation and `l2_penalty` are accepted, the keyword arguments have documented forms and
values, or infinite strengths. Then negative `l1_penalty`, `tv_penalty` or `l2_norm_bound` raise ValueError; `regs` that is not an iterable of iterables of penalties raises TypeError; and a
string other than 'A' and 'B' as `constant_feasibility_penalty` raises ValueError, if there is nothing else to raise; and no factor is updated. -/
theorem C52_partial (S : Steps) (h₁ : S.randomState = .ok ()) (h₂ : S.getSvd = .ok ()) (h₃ : S.initCmf = .ok ())
    (negEig : (m : ℕ) → Matrix (Fin m) (Fin m) ℝ → Bool) (s : Settings α) (hs : s.hasTV = true) (l2 : Arg) (h₄ : ¬WrongLength l2)
    (a : AllArgs) {f : Fin 3 → ModeArgs} (hf : AllForms a f) (hsc : ∀ m, ScalarInf (f m)) (regs : Option (Val α)) (c : ConstFeas)
    (loop : ℕ → Bool × Bool → Heap α → Trace α σ) (h : Heap α) :
    let t := cmfFront S negEig s l2 a regs c loop h
    let noUpdate := ∀ m, Event.update m ∉ t.events
    ((∃ m, IsNegative (f m).l1 ∨ IsNegative (f m).tv ∨ IsNegative (f m).normBound) →
      (regs = none ∨ ∃ r L, regs = some (.ref r) ∧ (h[r]? = some (.list L) ∨ h[r]? = some (.tuple L)) ∧ 3 ≤ L.length ∧
        ∀ v ∈ L, ∃ b l, v = .ref b ∧ h[b]? = some (.list (List.map .pen l))) → t.result = .error .valueError ∧ noUpdate) ∧
    (∀ v, regs = some v → (∀ b L, v = .ref b → h[b]? = some (.gen L) → .ref b ∉ L) → ¬ValidRegs h v → t.result = .error .typeError ∧ noUpdate) ∧
    (∀ w, c = .str w → w ≠ "A" → w ≠ "B" →
      (S.initAux = .ok () → S.initDual = .ok () → S.diagnostics = .ok () → (∃ out, (parseAll negEig s a regs h).2 = .ok out) → t.result = .error .valueError) ∧ noUpdate) := by
  refine ⟨?_, ?_, ?_⟩
  · rintro ⟨m, hm⟩ hr
    have e := C52_negative_partial negEig s hs a hf hsc ⟨m, hm⟩ regs h hr
    exact ⟨front_parse h₁ h₂ h₃ h₄ e, (C52_before S negEig s l2 a regs c loop h (.inl ⟨_, e⟩)).1⟩
  · rintro v rfl hself hbad
    have e := C52_regs negEig s a v h hself hbad
    exact ⟨front_parse h₁ h₂ h₃ h₄ e, (C52_before S negEig s l2 a (some v) c loop h (.inl ⟨_, e⟩)).1⟩
  · rintro w rfl hA hB
    refine ⟨fun h₅ h₆ h₇ ⟨out, ho⟩ => ?_, (C52_before S negEig s l2 a regs _ loop h (.inr ⟨w, rfl, hA, hB⟩)).1⟩
    obtain ⟨l, hl⟩ : ∃ l, listify l2 = .ok l := by
      rcases listify_wrong l2 with ⟨-, c⟩ | ⟨l, q, -⟩
      · exact absurd c h₄
      · exact ⟨l, q⟩
    show (cmfFront S negEig s l2 a regs (.str w) loop h).result = _
    unfold cmfFront
    rcases q : parseAll negEig s a regs h with ⟨h', err | out'⟩
    · rw [q] at ho; cases ho
    · simp only [h₁, h₂, h₃, hl, Trace.step, Except.map, q, h₅, h₆, h₇, constFlags_bad hA hB]

/-- Accepted steps. -/
def okSteps : Steps := ⟨.ok (), .ok (), .ok (), .ok (), .ok (), .ok ()⟩

/-- A call with a loop that updates all factors. -/
noncomputable def updatingCall (c : ConstFeas) : Trace String Unit := cmfFront okSteps (fun _ _ => false) someSettings (.one .none) nonNegArgs none c
  (fun _ _ h => ⟨[.update 1, .update 2, .update 0], h, .ok ()⟩) []

/-- Accepted with `"A"`, rejected with `"C"` without an update. -/
example : ((updatingCall (.str "A")).result = .ok () ∧ .update 0 ∈ (updatingCall (.str "A")).events) ∧
    ((updatingCall (.str "C")).result = .error .valueError ∧ ∀ m, .update m ∉ (updatingCall (.str "C")).events) := by
  have ho := parseAll_none_outcome (fun _ _ => false) someSettings nonNegArgs ([] : Heap String)
  have hp : ∃ h' out, parseAll (fun _ _ => false) someSettings nonNegArgs none ([] : Heap String) = (h', .ok out) := by
    rcases e : parseAll (fun _ _ => false) someSettings nonNegArgs none ([] : Heap String) with ⟨h', x | out⟩
    · rw [e] at ho
      simp [nonNegArgs, noArgs, listifyAll, listify, parseMode, Leaf.truth, genL2Regs, ballRegs, tvRegs, l1Regs, Leaf.given, Leaf.isNone, Except.map,
        pure, Except.pure, bind, Except.bind] at ho
    · exact ⟨h', out, rfl⟩
  obtain ⟨h', out, hp⟩ := hp
  refine ⟨⟨?_, ?_⟩, ?_, (C52_before _ _ _ _ _ _ _ _ _ (.inr ⟨"C", rfl, by decide, by decide⟩)).1⟩ <;>
    simp [updatingCall, cmfFront, okSteps, Trace.step, listify, Except.map, hp, constFlags, ConstFeas.isStr, ConstFeas.eqStr]

/-! ### C53 -/

/-- C53, the flags: `'A'` and `'B'` enable the constant penalty for that mode only, other values for both modes or none. -/
theorem C53_flags : constFlags (.str "A") = .ok (true, false) ∧ constFlags (.str "B") = .ok (false, true) ∧ (∀ b, constFlags (.truth b) = .ok (b, b)) := by
  refine ⟨by decide, by decide, fun b => ?_⟩
  cases b <;> rfl

section
open Verif.ADMM
variable {I K R n : ℕ} {J : Fin I → ℕ}

theorem foldl_max (l : List ℝ) (a : ℝ) : (a ≤ l.foldl max a ∧ ∀ x ∈ l, x ≤ l.foldl max a) ∧ (l.foldl max a = a ∨ l.foldl max a ∈ l) := by
  induction l generalizing a with
  | nil => simp
  | cons b l ih =>
    obtain ⟨⟨h₁, h₂⟩, h₃⟩ := ih (max a b)
    refine ⟨⟨(le_max_left a b).trans h₁, fun x hx => ?_⟩, ?_⟩
    · rcases List.mem_cons.1 hx with rfl | hx
      · exact (le_max_right a x).trans h₁
      · exact h₂ x hx
    · simp only [List.foldl_cons]
      rcases h₃ with h | h
      · rw [h]
        rcases max_choice a b with e | e <;> rw [e] <;> simp
      · exact .inr (List.mem_cons_of_mem _ h)

theorem gram_diag {m n : ℕ} (M : Matrix (Fin m) (Fin n) ℝ) (r : Fin n) : 0 ≤ (M.transpose * M) r r := by
  rw [Matrix.mul_apply]
  exact sum_nonneg fun _ _ => mul_self_nonneg _

theorem crossA_trace (F : Factors I K R J) (i : Fin I) : 0 ≤ (crossA F i).trace :=
  sum_nonneg fun r _ => mul_nonneg (gram_diag (F.B i) r) (gram_diag F.C r)

theorem crossB_trace (F : Factors I K R J) (i : Fin I) : 0 ≤ (crossB F i).trace := by
  refine sum_nonneg fun r _ => ?_
  have := mul_nonneg (gram_diag F.C r) (mul_self_nonneg (F.A i r))
  rw [← mul_assoc] at this
  exact this

/-- The penalties of the rows or matrices: individual ones, or all equal to their maximum. -/
theorem feas_spec (scale : ℝ) (G : Fin I → Matrix (Fin R) (Fin R) ℝ) :
    feasPenalties scale false G = .ok (none, fun i => (G i).trace / 2 * scale) ∧
    (I = 0 → feasPenalties scale true G = .error .valueError) ∧
    (0 < I → ∃ m, feasPenalties scale true G = .ok (some m, fun _ => m) ∧ (∀ i, (G i).trace / 2 * scale ≤ m) ∧ ∃ i, m = (G i).trace / 2 * scale) := by
  have e : ∀ i, feasPenalty scale (G i) = (G i).trace / 2 * scale := fun i => by unfold feasPenalty; ring
  refine ⟨?_, ?_, ?_⟩
  · simp [feasPenalties, e]
  · rintro rfl
    simp [feasPenalties, vecMax, Except.map]
  · intro hI
    rcases I with _ | I
    · omega
    · simp only [feasPenalties, if_true, List.ofFn_succ, vecMax, Except.map]
      obtain ⟨⟨h₁, h₂⟩, h₃⟩ := foldl_max (List.ofFn fun i => feasPenalty scale (G (Fin.succ i))) (feasPenalty scale (G 0))
      refine ⟨_, rfl, fun i => ?_, ?_⟩
      · rw [← e]
        rcases Fin.eq_zero_or_eq_succ i with rfl | ⟨j, rfl⟩
        · exact h₁
        · exact h₂ _ (by simp)
      · rcases h₃ with h | h
        · exact ⟨0, by rw [h, e]⟩
        · rw [List.mem_ofFn] at h
          obtain ⟨j, hj⟩ := h
          exact ⟨j.succ, by rw [← hj, e]⟩

/-- C53 for mode 0 (rows) and mode 1 (matrices), non-negative scale: without the option every row uses its own penalty, which is not negative; with it, all use one number,
which is the largest of the individual penalties. The individual penalty is half the trace of the normal equations' matrix, times the scale. -/
theorem C53 {scale : ℝ} (hs : 0 ≤ scale) (F : Factors I K R J) (G : Fin I → Matrix (Fin R) (Fin R) ℝ) (hG : G = crossA F ∨ G = crossB F) :
    let own := fun i => (G i).trace / 2 * scale
    (∀ i, 0 ≤ own i) ∧ feasPenalties scale false G = .ok (none, own) ∧
    (0 < I → ∃ m, feasPenalties scale true G = .ok (some m, fun _ => m) ∧ (∀ i, own i ≤ m) ∧ (∃ i, m = own i) ∧ 0 ≤ m) := by
  have hown : ∀ i, 0 ≤ (G i).trace / 2 * scale := by
    intro i
    have : 0 ≤ (G i).trace := by rcases hG with rfl | rfl; exacts [crossA_trace F i, crossB_trace F i]
    positivity
  obtain ⟨h₁, -, h₃⟩ := feas_spec scale G
  refine ⟨hown, h₁, fun hI => ?_⟩
  obtain ⟨m, e, hm, i, hi⟩ := h₃ hI
  exact ⟨m, e, hm, ⟨i, hi⟩, hi ▸ hown i⟩

/-- The trace in C53 in terms of the factors: squared column norms of `B_i` times those of `C`, or of `C` times the squared entries of `A`. -/
theorem C53_trace (F : Factors I K R J) (i : Fin I) : (crossA F i).trace = ∑ r, (∑ j, F.B i j r ^ 2) * ∑ k, F.C k r ^ 2 ∧
    (crossB F i).trace = ∑ r, (∑ k, F.C k r ^ 2) * F.A i r ^ 2 := by
  constructor <;> refine sum_congr rfl fun r _ => ?_
  · simp only [Matrix.diag, crossA, Matrix.of_apply, Matrix.mul_apply, Matrix.transpose_apply, ← pow_two]
  · simp only [Matrix.diag, crossB, Matrix.of_apply, Matrix.mul_apply, Matrix.transpose_apply, ← pow_two]
    ring

/-- C53, matrix-wise penalties on A: with the option the A-update succeeds for all penalties and calls their matrix update with the maximum for every auxiliary variable;
without it a penalty that has no row update raises AttributeError (if there is a row and an inner iteration). -/
theorem C53_matrixwise (P : Params R) (X : Ragged I K J) (pens : Fin n → PenA I R) (l2 : ℝ) (F : Factors I K R J) (aux dual : Fin n → Matrix (Fin I) (Fin R) ℝ) (hI : 0 < I) :
    (∃ s, admmUpdateA P X pens l2 true F aux dual = .ok s) ∧
    (P.nInner = 1 → ∃ s m, admmUpdateA P X pens l2 true F aux dual = .ok s ∧ (∃ i, m = (crossA F i).trace / 2 * P.scale) ∧ (∀ i, (crossA F i).trace / 2 * P.scale ≤ m) ∧
      ∀ p, s.aux p = (pens p).mat (s.x + dual p) m (aux p)) ∧
    (0 < P.nInner → (∃ p, (pens p).row = none) → admmUpdateA P X pens l2 false F aux dual = .error .attributeError) := by
  obtain ⟨h₁, -, h₃⟩ := feas_spec P.scale (crossA F)
  obtain ⟨m, e, hm, hi⟩ := h₃ hI
  refine ⟨⟨_, by unfold admmUpdateA; rw [e]; rfl⟩, fun hn => ?_, fun hn ⟨p, hp⟩ => ?_⟩
  · refine ⟨_, m, by unfold admmUpdateA; rw [e]; rfl, hi, hm, fun p => ?_⟩
    simp only [hn, innerLoop, ite_self]
    rfl
  · unfold admmUpdateA
    rw [h₁]
    have : (List.ofFn pens).any (fun p => p.row.isNone) = true := by
      rw [List.any_eq_true]
      exact ⟨pens p, by simp, by rw [hp]; rfl⟩
    simp [Except.bind, hn, hI, this]

/-- A case for C53: two matrices, one column, different individual penalties. -/
example : ∃ F : Factors 2 1 1 (fun _ => 1), (crossA F 0).trace / 2 * 1 = 1 / 2 ∧ (crossA F 1).trace / 2 * 1 = 2 ∧ (0 : ℝ) ≤ 1 := by
  refine ⟨⟨fun _ _ => 1, fun i _ _ => if i = 0 then 1 else 2, fun _ _ => 1⟩, ?_, ?_, by norm_num⟩
  · rw [(C53_trace _ _).1]; norm_num
  · rw [(C53_trace _ _).1]; norm_num

end

end Verif.Props
