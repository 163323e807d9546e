import Verif.Props.ParseRegs
import Verif.Props.Penalties
import Verif.Props.GenL2
import Verif.Props.TV
import Verif.Props.LoopFeasible

/-!
# Properties C49 to C52: keyword arguments
-/

namespace Verif.Props

open Verif.Parse Verif.Penalties Verif.Spec Finset

variable {α : Type}

/-! ### C49 -/

/-- The documented forms of an argument, with the values they give the modes. -/
inductive Forms : Arg → (Fin 3 → Leaf) → Prop
  | one (l : Leaf) : Forms (.one l) fun _ => l
  | three (x y z : Leaf) : Forms (.iter [x, y, z]) ![x, y, z]
  | dict (get : ℕ → Option Leaf) (f : Fin 3 → Leaf) (hsome : ∀ i l, get i.val = some l → f i = l) (hnone : ∀ i : Fin 3, get i.val = none → f i = .none) :
      Forms (.dict get) f

/-- C49: an argument in one of the documented forms gives every mode its value, and ValueError is raised for an iterable of another length only. -/
theorem C49 (x : Arg) : (∀ f, Forms x f → listify x = .ok [f 0, f 1, f 2]) ∧ (listify x = .error .valueError ↔ ∃ l, x = .iter l ∧ l.length ≠ 3) ∧
    ((∃ l, x = .iter l ∧ l.length ≠ 3) ∨ ∃ f, Forms x f) := by
  refine ⟨fun f hf => ?_, ?_, ?_⟩
  · cases hf with
    | one l => rfl
    | three x y z => rfl
    | dict get f hsome hnone =>
      have : ∀ i : Fin 3, (get i.val).getD .none = f i := by
        intro i
        rcases e : get i.val with _ | l
        · exact (hnone i e).symm
        · exact (hsome i l e).symm
      simp only [listify, List.range_succ, List.range_zero, List.nil_append, List.map_cons, List.map_nil, List.cons_append]
      rw [← this 0, ← this 1, ← this 2]
      rfl
  · cases x with
    | one l => simp [listify]
    | dict get => simp [listify]
    | iter l => by_cases h : l.length = 3 <;> simp [listify, h]
  · cases x with
    | one l => exact .inr ⟨_, .one l⟩
    | dict get => exact .inr ⟨fun i => (get i.val).getD .none, .dict get _ (fun i l e => by simp [e]) (fun i e => by simp [e])⟩
    | iter l =>
      by_cases h : l.length = 3
      · obtain ⟨x, y, z, rfl⟩ := List.length_eq_three.1 h
        exact .inr ⟨_, .three x y z⟩
      · exact .inl ⟨l, rfl, h⟩

/-- All arguments in documented forms, with the values for the modes. -/
structure AllForms (a : AllArgs) (f : Fin 3 → ModeArgs) : Prop where
  nonNeg : Forms a.nonNeg fun m => (f m).nonNeg
  lower : Forms a.lower fun m => (f m).lower
  upper : Forms a.upper fun m => (f m).upper
  normBound : Forms a.normBound fun m => (f m).normBound
  unimodal : Forms a.unimodal fun m => (f m).unimodal
  parafac2 : ∀ m, (f m).parafac2 = (a.parafac2 && m = 1)
  l1 : Forms a.l1 fun m => (f m).l1
  tv : Forms a.tv fun m => (f m).tv
  genL2 : Forms a.genL2 fun m => (f m).genL2

/-- C49 for all arguments: each mode is parsed with its own values; PARAFAC2 is for mode 1. -/
theorem C49_modes {a : AllArgs} {f : Fin 3 → ModeArgs} (h : AllForms a f) : ∃ args, listifyAll a = .ok args ∧ ∀ m : Fin 3, args m.val = f m := by
  simp only [listifyAll, (C49 _).1 _ h.nonNeg, (C49 _).1 _ h.lower, (C49 _).1 _ h.upper, (C49 _).1 _ h.normBound, (C49 _).1 _ h.unimodal,
    (C49 _).1 _ h.l1, (C49 _).1 _ h.tv, (C49 _).1 _ h.genL2, ok_bind, pure_eq_ok]
  refine ⟨_, rfl, fun m => ?_⟩
  have hp := h.parafac2 m
  rcases e : f m with ⟨x₁, x₂, x₃, x₄, x₅, x₆, x₇, x₈, x₉⟩
  rw [e] at hp
  simp only at hp
  subst hp
  fin_cases m <;> simp only [Fin.zero_eta, Fin.mk_one, Fin.reduceFinMk] at e <;> simp [e] <;> cases a.parafac2 <;> rfl

/-- C49: two calls whose arguments give every mode the same values are the same call. -/
theorem C49_same (negEig : (m : ℕ) → Matrix (Fin m) (Fin m) ℝ → Bool) (s : Settings α) {a b : AllArgs} {f : Fin 3 → ModeArgs} (ha : AllForms a f) (hb : AllForms b f)
    (regs : Option (Val α)) : parseAll negEig s a regs = parseAll negEig s b regs := by
  have hp : a.parafac2 = b.parafac2 := by
    have h₁ := ha.parafac2 1
    have h₂ := hb.parafac2 1
    simpa using h₁.symm.trans h₂
  have : listifyAll a = listifyAll b := by
    simp only [listifyAll, (C49 _).1 _ ha.nonNeg, (C49 _).1 _ ha.lower, (C49 _).1 _ ha.upper, (C49 _).1 _ ha.normBound, (C49 _).1 _ ha.unimodal,
      (C49 _).1 _ ha.l1, (C49 _).1 _ ha.tv, (C49 _).1 _ ha.genL2, (C49 _).1 _ hb.nonNeg, (C49 _).1 _ hb.lower, (C49 _).1 _ hb.upper, (C49 _).1 _ hb.normBound,
      (C49 _).1 _ hb.unimodal, (C49 _).1 _ hb.l1, (C49 _).1 _ hb.tv, (C49 _).1 _ hb.genL2, ok_bind, pure_eq_ok, hp]
  unfold parseAll
  rw [this]

/-- An argument of a wrong length. -/
def WrongLength (x : Arg) : Prop := ∃ l, x = .iter l ∧ l.length ≠ 3

theorem listify_wrong (x : Arg) : listify x = .error .valueError ∧ WrongLength x ∨ ∃ l, listify x = .ok l ∧ ¬WrongLength x := by
  rcases (C49 x).2.2 with h | ⟨f, hf⟩
  · exact .inl ⟨(C49 x).2.1.2 h, h⟩
  · refine .inr ⟨_, (C49 x).1 f hf, fun c => ?_⟩
    have := (C49 x).2.1.2 c
    rw [(C49 x).1 f hf] at this
    cases this

theorem listifyAll_wrong (a : AllArgs) (h : WrongLength a.nonNeg ∨ WrongLength a.lower ∨ WrongLength a.upper ∨ WrongLength a.normBound ∨ WrongLength a.unimodal ∨
    WrongLength a.l1 ∨ WrongLength a.tv ∨ WrongLength a.genL2) : listifyAll a = .error .valueError := by
  unfold listifyAll
  rcases listify_wrong a.nonNeg with ⟨e, -⟩ | ⟨x₁, e₁, n₁⟩
  · rw [e]; rfl
  rcases listify_wrong a.upper with ⟨e, -⟩ | ⟨x₂, e₂, n₂⟩
  · rw [e₁, ok_bind, e]; rfl
  rcases listify_wrong a.lower with ⟨e, -⟩ | ⟨x₃, e₃, n₃⟩
  · rw [e₁, ok_bind, e₂, ok_bind, e]; rfl
  rcases listify_wrong a.normBound with ⟨e, -⟩ | ⟨x₄, e₄, n₄⟩
  · rw [e₁, ok_bind, e₂, ok_bind, e₃, ok_bind, e]; rfl
  rcases listify_wrong a.unimodal with ⟨e, -⟩ | ⟨x₅, e₅, n₅⟩
  · rw [e₁, ok_bind, e₂, ok_bind, e₃, ok_bind, e₄, ok_bind, e]; rfl
  rcases listify_wrong a.l1 with ⟨e, -⟩ | ⟨x₆, e₆, n₆⟩
  · rw [e₁, ok_bind, e₂, ok_bind, e₃, ok_bind, e₄, ok_bind, e₅, ok_bind, e]; rfl
  rcases listify_wrong a.genL2 with ⟨e, -⟩ | ⟨x₇, e₇, n₇⟩
  · rw [e₁, ok_bind, e₂, ok_bind, e₃, ok_bind, e₄, ok_bind, e₅, ok_bind, e₆, ok_bind, e]; rfl
  rcases listify_wrong a.tv with ⟨e, -⟩ | ⟨x₈, e₈, n₈⟩
  · rw [e₁, ok_bind, e₂, ok_bind, e₃, ok_bind, e₄, ok_bind, e₅, ok_bind, e₆, ok_bind, e₇, ok_bind, e]; rfl
  · exfalso; tauto

/-- C49: an iterable of another length as any of the arguments raises ValueError, for `regs` a list or tuple of at least three lists of penalties. -/
theorem C49_error (negEig : (m : ℕ) → Matrix (Fin m) (Fin m) ℝ → Bool) (s : Settings α) (a : AllArgs) (r : ℕ) (L : List (Val α)) (h : Heap α)
    (hr : h[r]? = some (.list L) ∨ h[r]? = some (.tuple L)) (hlen : 3 ≤ L.length)
    (hL : ∀ v ∈ L, ∃ b l, v = .ref b ∧ h[b]? = some (.list (List.map .pen l)))
    (hw : WrongLength a.nonNeg ∨ WrongLength a.lower ∨ WrongLength a.upper ∨ WrongLength a.normBound ∨ WrongLength a.unimodal ∨
      WrongLength a.l1 ∨ WrongLength a.tv ∨ WrongLength a.genL2) :
    (parseAll negEig s a (some (.ref r)) h).2 = .error .valueError ∧ (parseAll negEig s a none h).2 = .error .valueError := by
  have hl := listifyAll_wrong a hw
  constructor
  · have ho := parseAll_outcome negEig s a r L h hr hlen hL
    rw [hl, error_bind] at ho
    rcases e : (parseAll negEig s a (some (.ref r)) h).2 with x | x
    · rw [e] at ho; cases ho; rfl
    · rw [e] at ho; cases ho
  · simp [parseAll, M.mapList, M.andThen, M.alloc, M.ret, M.values, M.copy, M.lift, hl]

/-- The forms differ and mean the same: `non_negative=True`, a list, and a dictionary with more keys. -/
example : (∃ f, Forms (.one (.bool true)) f ∧ Forms (.iter [.bool true, .bool true, .bool true]) f ∧ Forms (.dict fun i => if i < 5 then some (.bool true) else none) f) ∧
    WrongLength (.iter [.bool true, .none]) ∧ Forms (.dict fun i => if i = 1 then some (.num 3) else none) ![.none, .num 3, .none] := by
  refine ⟨⟨![.bool true, .bool true, .bool true], ?_, .three _ _ _, ?_⟩, ⟨_, rfl, by simp⟩, ?_⟩
  · have : (![.bool true, .bool true, .bool true] : Fin 3 → Leaf) = fun _ => .bool true := by funext i; fin_cases i <;> rfl
    rw [this]; exact .one _
  · refine .dict _ _ (fun i l e => ?_) (fun i e => ?_) <;> fin_cases i <;> simp at e ⊢ <;> exact e
  · refine .dict _ _ (fun i l e => ?_) (fun i e => ?_) <;> fin_cases i <;> simp at e ⊢; exact e

end Verif.Props
