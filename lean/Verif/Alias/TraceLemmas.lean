import Verif.Alias.Trace
import Verif.Alias.Refine

/-!
# The recorded computations

Helper lemmas: the results are those of `Verif/Alias/Model.lean`, and what holds for all recorded heaps.
-/

namespace Verif.Alias

open Verif.ADMM Verif.Spec Verif.Penalties Verif.Loop Finset

namespace Tr
variable {α β σ : Type}

@[simp] theorem ret_out (a : α) : (ret a).out = .ok a := rfl
@[simp] theorem ev_out (h : Heap) (a : α) : (ev h a).out = .ok a := rfl
@[simp] theorem raise_out (e : PyErr) : (raise e : Tr α).out = .error e := rfl
@[simp] theorem lift_out (x : Except PyErr α) : (lift x).out = x := rfl

theorem bind_out (m : Tr α) (f : α → Tr β) : (m.bind f).out = m.out.bind fun a => (f a).out := by
  unfold bind
  cases m.out <;> rfl

theorem bind_ok {m : Tr α} {a : α} (h : m.out = .ok a) (f : α → Tr β) : (m.bind f).out = (f a).out := by rw [bind_out, h]; rfl

theorem bind_error {m : Tr α} {e : PyErr} (h : m.out = .error e) (f : α → Tr β) : (m.bind f).out = .error e := by rw [bind_out, h]; rfl

theorem forIn_out {f : σ → α → Tr σ} {g : σ → α → σ} (h : ∀ s x, (f s x).out = .ok (g s x)) :
    ∀ (l : List α) (s : σ), (forIn f l s).out = .ok (l.foldl g s)
  | [], _ => rfl
  | x :: l, s => by rw [forIn, bind_ok (h s x), forIn_out h l, List.foldl_cons]

theorem forIn_error {f : σ → α → Tr σ} {e : PyErr} (h : ∀ s x, (∃ y, (f s x).out = .ok y) ∨ (f s x).out = .error e) :
    ∀ (l : List α), (∃ x ∈ l, ∀ s, (f s x).out = .error e) → ∀ s, (forIn f l s).out = .error e
  | [], hx, _ => by obtain ⟨x, hx, -⟩ := hx; cases hx
  | x :: l, hx, s => by
    rcases h s x with ⟨y, hy⟩ | hy
    · rw [forIn, bind_ok hy]
      refine forIn_error h l ?_ y
      obtain ⟨z, hz, h1⟩ := hx
      rcases List.mem_cons.mp hz with rfl | hz
      · rw [h1] at hy; cases hy
      · exact ⟨z, hz, h1⟩
    · rw [forIn, bind_error hy]

/-- All recorded heaps satisfy `P`, and the result, if there is one, satisfies `Q`. -/
def Sat (m : Tr α) (P : Heap → Prop) (Q : α → Prop) : Prop := (∀ h ∈ m.heaps, P h) ∧ ∀ a, m.out = .ok a → Q a

theorem Sat.ret {P : Heap → Prop} {Q : α → Prop} {a : α} (h : Q a) : (ret a).Sat P Q := by
  refine ⟨fun _ hx => absurd hx List.not_mem_nil, fun b hb => ?_⟩
  cases hb; exact h

theorem Sat.raise {P : Heap → Prop} {Q : α → Prop} (e : PyErr) : (Tr.raise e : Tr α).Sat P Q :=
  ⟨fun _ hx => absurd hx List.not_mem_nil, fun b hb => (by cases hb)⟩

theorem Sat.lift {P : Heap → Prop} {Q : α → Prop} {x : Except PyErr α} (h : ∀ a, x = .ok a → Q a) : (Tr.lift x).Sat P Q :=
  ⟨fun _ hx => absurd hx List.not_mem_nil, h⟩

theorem Sat.ev {P : Heap → Prop} {Q : α → Prop} {h : Heap} {a : α} (hp : P h) (hq : Q a) : (Tr.ev h a).Sat P Q := by
  refine ⟨fun x hx => ?_, fun b hb => ?_⟩
  · rcases List.mem_singleton.mp hx with rfl; exact hp
  · cases hb; exact hq

theorem Sat.bind {P : Heap → Prop} {Q : α → Prop} {Q' : β → Prop} {m : Tr α} {f : α → Tr β} (h : m.Sat P Q)
    (hf : ∀ a, Q a → (f a).Sat P Q') : (m.bind f).Sat P Q' := by
  unfold Tr.bind
  cases hm : m.out with
  | error e => exact ⟨h.1, fun b hb => by cases hb⟩
  | ok a =>
    have := hf a (h.2 a hm)
    refine ⟨fun x hx => ?_, this.2⟩
    rcases List.mem_append.mp hx with hx | hx
    · exact h.1 x hx
    · exact this.1 x hx

theorem Sat.mono {P P' : Heap → Prop} {Q Q' : α → Prop} {m : Tr α} (h : m.Sat P Q) (hp : ∀ x, P x → P' x) (hq : ∀ a, Q a → Q' a) : m.Sat P' Q' :=
  ⟨fun x hx => hp x (h.1 x hx), fun a ha => hq a (h.2 a ha)⟩

/-- An invariant of a loop. -/
theorem Sat.forIn {P : Heap → Prop} {Q : σ → Prop} {f : σ → α → Tr σ} (h : ∀ s x, Q s → (f s x).Sat P Q) :
    ∀ (l : List α) (s : σ), Q s → (Tr.forIn f l s).Sat P Q
  | [], _, hs => .ret hs
  | x :: l, s, hs => (h s x hs).bind fun t ht => Sat.forIn h l t ht

end Tr

/-! ### Results -/

section
variable {I K R n : ℕ} {J : Fin I → ℕ}

theorem writeRowsT_out (h : Heap) (a : ℕ) (f : Fin I → Fin R → ℝ) : (writeRowsT h a f).out = .ok (writeRows h a f) :=
  Tr.forIn_out (fun _ _ => rfl) _ _

theorem writeItemsT_out (h : Heap) (l : ℕ) (X : Ragged I R J) : (writeItemsT h l X).out = .ok (writeItems h l X) :=
  Tr.forIn_out (fun _ _ => rfl) _ _

theorem penStepBT_out (pens : Fin n → PenB I R J) (ρ : Fin I → ℝ) (st : Heap × LoopRag n) (p : Fin n) :
    (penStepBT pens ρ st p).out = .ok (penStepB pens ρ st p) := rfl

theorem penStepCT_out (pens : Fin n → PenC K R) (ρ : ℝ) (st : Heap × LoopMat n) (p : Fin n) :
    (penStepCT pens ρ st p).out = .ok (penStepC pens ρ st p) := rfl

theorem stepBT_out (pens : Fin n → PenB I R J) (ρ : Fin I → ℝ) (svds : Fin I → SVD R R R) (rhs : Ragged I R J) (st : Heap × LoopRag n) :
    (stepBT pens ρ svds rhs st).out = .ok (stepBH pens ρ svds rhs st) := by
  unfold stepBT
  rw [Tr.bind_ok (writeItemsT_out _ _ _), Tr.forIn_out (penStepBT_out pens ρ)]
  rfl

theorem stepCT_out (pens : Fin n → PenC K R) (ρ : ℝ) (svd : SVD R R R) (rhs : Matrix (Fin K) (Fin R) ℝ) (st : Heap × LoopMat n) :
    (stepCT pens ρ svd rhs st).out = .ok (stepCH pens ρ svd rhs st) := by
  unfold stepCT
  rw [Tr.bind_ok (Tr.ev_out _ _), Tr.forIn_out (penStepCT_out pens ρ)]
  rfl

theorem innerLoopT_out {σ : Type} {step : σ → Tr σ} {stepH : σ → σ} {stop : σ → Bool} (h : ∀ s, (step s).out = .ok (stepH s)) :
    ∀ (k : ℕ) (s : σ), (innerLoopT step stop k s).out = .ok (innerLoop stepH (fun _ s => stop s) k s)
  | 0, _ => rfl
  | k + 1, s => by
    rw [innerLoopT, Tr.bind_ok (h s), innerLoop]
    by_cases hc : stop (stepH s) = true
    · simp [hc]
    · simp only [hc]
      exact innerLoopT_out h k _

/-- The penalty has the method that is needed. -/
def Has (pen : PenA I R) (ρmax : Option ℝ) : Prop := ρmax.isSome = true ∨ I = 0 ∨ pen.row.isSome = true

theorem auxStepAT_out {pen : PenA I R} {ρmax : Option ℝ} (hp : Has pen ρmax) (ρ : Fin I → ℝ) (Y : Matrix (Fin I) (Fin R) ℝ) (h : Heap) (a : ℕ) :
    (auxStepAT pen ρmax ρ Y h a).out = .ok (auxStepA pen ρmax ρ Y h a) := by
  unfold auxStepAT auxStepA
  cases ρmax with
  | some m => rfl
  | none =>
    simp only
    cases hr : pen.row with
    | some u =>
      simp only
      rw [Tr.bind_ok (Tr.forIn_out (g := fun h (i : Fin I) => h.setRow a i (u (Y i) (ρ i) (h.mat I R a i))) (fun _ _ => rfl) _ _)]
      rfl
    | none =>
      rcases hp with hp | hp | hp
      · cases hp
      · subst hp
        rfl
      · rw [hr] at hp; cases hp

theorem auxStepAT_error {pen : PenA I R} {ρmax : Option ℝ} (hp : ¬ Has pen ρmax) (ρ : Fin I → ℝ) (Y : Matrix (Fin I) (Fin R) ℝ) (h : Heap) (a : ℕ) :
    (auxStepAT pen ρmax ρ Y h a).out = .error .attributeError := by
  unfold Has at hp
  push Not at hp
  obtain ⟨h1, h2, h3⟩ := hp
  unfold auxStepAT
  cases ρmax with
  | some m => simp at h1
  | none =>
    cases hr : pen.row with
    | some u => rw [hr] at h3; simp at h3
    | none =>
      simp only
      refine Tr.bind_error ?_ _
      obtain ⟨m, rfl⟩ := Nat.exists_eq_succ_of_ne_zero h2
      rw [List.finRange_succ]
      rfl

theorem penStepAT_out {pens : Fin n → PenA I R} {ρmax : Option ℝ} {p : Fin n} (hp : Has (pens p) ρmax) (ρ : Fin I → ℝ) (st : Heap × LoopMat n) :
    (penStepAT pens ρmax ρ st p).out = .ok (penStepA pens ρmax ρ st p) := by
  unfold penStepAT
  rw [Tr.bind_ok (auxStepAT_out hp _ _ _ _)]
  rfl

theorem penStepAT_error {pens : Fin n → PenA I R} {ρmax : Option ℝ} {p : Fin n} (hp : ¬ Has (pens p) ρmax) (ρ : Fin I → ℝ) (st : Heap × LoopMat n) :
    (penStepAT pens ρmax ρ st p).out = .error .attributeError := by
  unfold penStepAT
  rw [Tr.bind_error (auxStepAT_error hp _ _ _ _)]

theorem stepAT_out {pens : Fin n → PenA I R} {ρmax : Option ℝ} (hp : ∀ p, Has (pens p) ρmax) (ρ : Fin I → ℝ) (svds : Fin I → SVD R R R)
    (rhs : Fin I → Fin R → ℝ) (st : Heap × LoopMat n) : (stepAT pens ρmax ρ svds rhs st).out = .ok (stepAH pens ρmax ρ svds rhs st) := by
  unfold stepAT
  rw [Tr.bind_ok (writeRowsT_out _ _ _), Tr.forIn_out fun s p => penStepAT_out (hp p) ρ s]
  rfl

theorem stepAT_error {pens : Fin n → PenA I R} {ρmax : Option ℝ} (hp : ∃ p, ¬ Has (pens p) ρmax) (ρ : Fin I → ℝ) (svds : Fin I → SVD R R R)
    (rhs : Fin I → Fin R → ℝ) (st : Heap × LoopMat n) : (stepAT pens ρmax ρ svds rhs st).out = .error .attributeError := by
  unfold stepAT
  rw [Tr.bind_ok (writeRowsT_out _ _ _)]
  refine Tr.forIn_error (fun s p => ?_) _ ?_ _
  · by_cases hc : Has (pens p) ρmax
    · exact .inl ⟨_, penStepAT_out hc ρ s⟩
    · exact .inr (penStepAT_error hc ρ s)
  · obtain ⟨p, hp⟩ := hp
    exact ⟨p, List.mem_finRange p, fun s => penStepAT_error hp ρ s⟩

end

section
variable {I K R nA nB nC : ℕ} {J : Fin I → ℕ}

theorem feasPenalties_isSome {scale : ℝ} {constant : Bool} {G : Fin I → Matrix (Fin R) (Fin R) ℝ} {ρ : Option ℝ × (Fin I → ℝ)}
    (h : feasPenalties scale constant G = .ok ρ) : ρ.1.isSome = constant := by
  unfold feasPenalties at h
  cases constant with
  | false => cases h; rfl
  | true =>
    simp only [if_true] at h
    cases hv : vecMax (List.ofFn fun i => feasPenalty scale (G i)) with
    | error e => rw [hv] at h; cases h
    | ok m => rw [hv] at h; cases h; rfl

theorem admmUpdateAT_out (P : Params R) (pens : Fin nA → PenA I R) (l2 : ℝ) (constant : Bool) (K : ℕ) (J : Fin I → ℕ)
    (st : Heap × Refs I R nA nB nC) : (admmUpdateAT P pens l2 constant K J st).out = admmUpdateAH P pens l2 constant K J st := by
  unfold admmUpdateAT admmUpdateAH
  simp only
  rw [Tr.bind_out, Tr.lift_out]
  cases hf : feasPenalties P.scale constant (crossA (st.1.factors K J st.2)) with
  | error e => rfl
  | ok ρ =>
    have hc := feasPenalties_isSome hf
    simp only [Except.bind]
    rw [Tr.bind_ok (Tr.ev_out _ _)]
    by_cases hb : (!constant && decide (0 < P.nInner) && decide (0 < I) && (List.ofFn pens).any (fun p => p.row.isNone)) = true
    · rw [if_pos hb]
      simp only [Bool.and_eq_true, Bool.not_eq_true', decide_eq_true_eq, List.any_eq_true, List.mem_ofFn'] at hb
      obtain ⟨⟨⟨h1, h2⟩, h3⟩, p, ⟨q, rfl⟩, h4⟩ := hb
      obtain ⟨m, hm⟩ := Nat.exists_eq_succ_of_ne_zero (Nat.pos_iff_ne_zero.mp h2)
      refine Tr.bind_error ?_ _
      rw [hm, innerLoopT]
      refine Tr.bind_error (stepAT_error ⟨q, ?_⟩ _ _ _ _) _
      rintro (h | h | h)
      · rw [hc, h1] at h; cases h
      · omega
      · cases hr : (pens q).row with
        | none => rw [hr] at h; cases h
        | some u => rw [hr] at h4; cases h4
    · rw [if_neg hb]
      by_cases hN : P.nInner = 0
      · rw [hN]; rfl
      · have hp : ∀ p, Has (pens p) ρ.1 := by
          intro p
          by_contra hc'
          unfold Has at hc'
          push Not at hc'
          refine hb ?_
          simp only [Bool.and_eq_true, Bool.not_eq_true', decide_eq_true_eq, List.any_eq_true, List.mem_ofFn']
          refine ⟨⟨⟨?_, Nat.pos_of_ne_zero hN⟩, Nat.pos_of_ne_zero hc'.2.1⟩, pens p, ⟨p, rfl⟩, ?_⟩
          · rw [← hc]; simpa using hc'.1
          · have := hc'.2.2
            cases hr : (pens p).row with
            | none => rfl
            | some u => rw [hr] at this; simp at this
        rw [Tr.bind_ok (innerLoopT_out (stepAT_out hp _ _ _) _ _)]
        rfl

theorem admmUpdateBT_out (P : Params R) (pens : Fin nB → PenB I R J) (l2 : ℝ) (constant : Bool) (K : ℕ)
    (st : Heap × Refs I R nA nB nC) : (admmUpdateBT P pens l2 constant K st).out = admmUpdateBH P pens l2 constant K st := by
  unfold admmUpdateBT admmUpdateBH
  simp only
  rw [Tr.bind_out, Tr.lift_out]
  cases feasPenalties P.scale constant (crossB (st.1.factors K J st.2)) with
  | error e => rfl
  | ok ρ =>
    simp only [Except.bind]
    rw [Tr.bind_ok (Tr.ev_out _ _), Tr.bind_ok (innerLoopT_out (stepBT_out _ _ _ _) _ _)]
    rfl

theorem admmUpdateCT_out (P : Params R) (pens : Fin nC → PenC K R) (l2 : ℝ) (J : Fin I → ℕ)
    (st : Heap × Refs I R nA nB nC) : (admmUpdateCT P pens l2 J st).out = .ok (admmUpdateCH P pens l2 J st) := by
  unfold admmUpdateCT admmUpdateCH
  simp only
  rw [Tr.bind_ok (Tr.ev_out _ _), Tr.bind_ok (innerLoopT_out (stepCT_out _ _ _ _) _ _)]
  rfl

theorem sweepT_out (P : Problem I K R nA nB nC J) (st : Heap × Refs I R nA nB nC) : (sweepT P st).out = sweepH P st := by
  have hB : (sweepBT P st).out = sweepBH P st := by
    unfold sweepBT sweepBH
    split
    · exact admmUpdateBT_out _ _ _ _ _ _
    · rfl
  have hC : ∀ t, (sweepCT P t).out = .ok (sweepCH P t) := by
    intro t
    unfold sweepCT sweepCH
    split
    · exact admmUpdateCT_out _ _ _ _ _
    · rfl
  have hA : ∀ t, (sweepAT P t).out = sweepAH P t := by
    intro t
    unfold sweepAT sweepAH
    split
    · rw [Tr.bind_out, admmUpdateAT_out]
      cases admmUpdateAH P.params P.pensA P.l2.1 P.constA K J t <;> rfl
    · rfl
  unfold sweepT sweepH
  rw [Tr.bind_out, hB]
  cases sweepBH P st with
  | error e => rfl
  | ok t =>
    simp only [Except.bind]
    rw [Tr.bind_ok (hC t), hA]

theorem bodyT_out (P : Problem I K R nA nB nC J) (a : Args) (s : Acc (Heap × Refs I R nA nB nC)) :
    (bodyT P a s).out = body (heapOps P) a s := by
  have hs : (heapOps P).sweep s.st = sweepH P s.st := rfl
  unfold bodyT
  rw [Tr.bind_out, sweepT_out]
  unfold body
  rw [hs]
  cases sweepH P s.st with
  | error e => rfl
  | ok t => rfl

theorem runT_out (P : Problem I K R nA nB nC J) (a : Args) : ∀ (k : ℕ) (s : Acc (Heap × Refs I R nA nB nC)),
    (runT P a k s).out = run (heapOps P) a k s
  | 0, _ => rfl
  | k + 1, s => by
    rw [runT, Tr.bind_out, bodyT_out, run]
    cases body (heapOps P) a s with
    | error e => rfl
    | ok t =>
      obtain ⟨s', b⟩ := t
      cases b
      · exact runT_out P a k s'
      · rfl

theorem initT_out (st : Heap × Refs I R nA nB nC) : (initT I st).out = .ok (initH I st) := by
  unfold initT initH
  cases st.2.weights <;> rfl

/-- The recorded call ends like the call. -/
theorem cmfAoadmmT_out (P : Problem I K R nA nB nC J) (a : Args) (st : Heap × Refs I R nA nB nC) :
    (cmfAoadmmT P a st).out = cmfAoadmmH P a st := by
  unfold cmfAoadmmT cmfAoadmmH fit
  rw [Tr.bind_ok (initT_out st), Tr.bind_out, runT_out]
  cases run (heapOps P) a a.nIterMax.toNat (initAcc (heapOps P) a none (initH I st)) <;> rfl

end

end Verif.Alias
