import Verif.Parse.Heap

/-!
# The list of lists that the parser returns
-/

namespace Verif.Parse

open M

variable {α : Type}

/-- `w` is what `copy(v)` returned: another list with the same values, or the same tuple. -/
def CopyOf (h : Heap α) (v w : Val α) : Prop := ∃ b, v = .ref b ∧ ((∃ l b', h[b]? = some (.list l) ∧ w = .ref b' ∧ h[b']? = some (.list l)) ∨
  (∃ l, h[b]? = some (.tuple l) ∧ w = v))

theorem getElem?_mono {h : Heap α} {x : Heap α} {b : ℕ} {c : Cell α} (e : h[b]? = some c) : (h ++ x)[b]? = some c := by
  rw [List.getElem?_append_left (List.getElem?_eq_some_iff.1 e).1, e]

theorem CopyOf.mono {h x : Heap α} {v w : Val α} (c : CopyOf h v w) : CopyOf (h ++ x) v w := by
  obtain ⟨b, rfl, ⟨l, b', h₁, rfl, h₂⟩ | ⟨l, h₁, rfl⟩⟩ := c
  · exact ⟨b, rfl, .inl ⟨l, b', getElem?_mono h₁, rfl, getElem?_mono h₂⟩⟩
  · exact ⟨b, rfl, .inr ⟨l, getElem?_mono h₁, rfl⟩⟩

theorem copy_ref {h h' : Heap α} {b : ℕ} {w : Val α} (e : copy (.ref b) h = (h', .ok w)) : (∃ x, h' = h ++ x) ∧ CopyOf h' (.ref b) w := by
  unfold copy at e
  rcases hb : h[b]? with _ | c
  · simp [hb] at e
  · cases c with
    | list l =>
      simp only [hb, Prod.mk.injEq, Except.ok.injEq] at e
      obtain ⟨rfl, rfl⟩ := e
      exact ⟨⟨_, rfl⟩, b, rfl, .inl ⟨l, h.length, getElem?_mono hb, rfl, by simp⟩⟩
    | tuple l =>
      simp only [hb, Prod.mk.injEq, Except.ok.injEq] at e
      obtain ⟨rfl, rfl⟩ := e
      exact ⟨⟨[], by simp⟩, b, rfl, .inr ⟨l, hb, rfl⟩⟩
    | gen l => simp [hb] at e

theorem mapList_copy {L : List (Val α)} (hL : ∀ v ∈ L, ∃ b, v = .ref b) : ∀ {h h' : Heap α} {L' : List (Val α)},
    mapList copy L h = (h', .ok L') → (∃ x, h' = h ++ x) ∧ List.Forall₂ (CopyOf h') L L' := by
  induction L with
  | nil =>
    intro h h' L' e
    simp only [mapList, ret, Prod.mk.injEq, Except.ok.injEq] at e
    obtain ⟨rfl, rfl⟩ := e
    exact ⟨⟨[], by simp⟩, .nil⟩
  | cons v L ih =>
    intro h h' L' e
    rw [mapList, andThen_ok] at e
    obtain ⟨h₁, w, e₁, e⟩ := e
    rw [andThen_ok] at e
    obtain ⟨h₂, ws, e₂, e⟩ := e
    simp only [ret, Prod.mk.injEq, Except.ok.injEq] at e
    obtain ⟨rfl, rfl⟩ := e
    obtain ⟨b, rfl⟩ := hL v (by simp)
    obtain ⟨⟨x, rfl⟩, c⟩ := copy_ref e₁
    obtain ⟨⟨y, rfl⟩, cs⟩ := ih (fun v hv => hL v (by simp [hv])) e₂
    exact ⟨⟨x ++ y, by simp⟩, .cons c.mono cs⟩

theorem mapList_copy_ok {L : List (Val α)} : ∀ {h : Heap α}, (∀ v ∈ L, ∃ b l, v = .ref b ∧ h[b]? = some (.list l)) →
    ∃ h' L', mapList copy L h = (h', .ok L') := by
  induction L with
  | nil => intro h _; exact ⟨h, [], rfl⟩
  | cons v L ih =>
    intro h hL
    obtain ⟨b, l, rfl, hb⟩ := hL v (by simp)
    obtain ⟨h', L', e⟩ := ih (h := h ++ [.list l]) fun v hv => by
      obtain ⟨b, l, rfl, hb⟩ := hL v (by simp [hv])
      exact ⟨b, l, rfl, getElem?_mono hb⟩
    refine ⟨h', .ref h.length :: L', ?_⟩
    rw [mapList, andThen_ok]
    refine ⟨h ++ [.list l], .ref h.length, by simp [copy, hb], ?_⟩
    rw [andThen_ok]
    exact ⟨h', L', e, rfl⟩

section Step

variable (negEig : (m : ℕ) → Matrix (Fin m) (Fin m) ℝ → Bool) (s : Settings α) (args : ℕ → ModeArgs) (out : ℕ)

/-- One turn of the loop. -/
noncomputable def step (mode : ℕ) : M α Unit :=
  andThen (lift (parseMode negEig s (args mode))) fun parsed =>
  andThen (getItem out mode) fun v =>
  andThen (addLists parsed v) fun r =>
  setItem out mode (.ref r)

theorem modeLoop_eq : modeLoop negEig s args out [0, 1, 2] =
    andThen (step negEig s args out 0) fun _ => andThen (step negEig s args out 1) fun _ => andThen (step negEig s args out 2) fun _ => ret () := rfl

/-- The heap after one turn. -/
theorem step_ok {h h' : Heap α} {O : List (Val α)} {mode : ℕ} (ho : h[out]? = some (.list O)) :
    step negEig s args out mode h = (h', .ok ()) ↔ ∃ parsed b l, parseMode negEig s (args mode) = .ok parsed ∧ O[mode]? = some (.ref b) ∧
      h[b]? = some (.list l) ∧ h' = (h ++ [Cell.list (parsed.map Val.pen ++ l)]).set out (.list (O.set mode (.ref h.length))) := by
  have ho' : ∀ x : Heap α, (h ++ x)[out]? = some (.list O) := fun x => getElem?_mono ho
  unfold step
  constructor
  · intro e
    rw [andThen_ok] at e
    obtain ⟨h₁, parsed, e₁, e⟩ := e
    simp only [lift, Prod.mk.injEq] at e₁
    obtain ⟨rfl, hp⟩ := e₁
    rw [andThen_ok] at e
    obtain ⟨h₂, v, e₂, e⟩ := e
    rcases hv : O[mode]? with _ | w
    · simp [getItem, ho, hv] at e₂
    simp only [getItem, ho, hv, Prod.mk.injEq, Except.ok.injEq] at e₂
    obtain ⟨rfl, rfl⟩ := e₂
    rw [andThen_ok] at e
    obtain ⟨h₃, r, e₃, e⟩ := e
    cases w with
    | pen p => simp [addLists] at e₃
    | other => simp [addLists] at e₃
    | ref b =>
      rcases hb : h[b]? with _ | c
      · simp [addLists, hb] at e₃
      cases c with
      | tuple l => simp [addLists, hb] at e₃
      | gen l => simp [addLists, hb] at e₃
      | list l =>
        simp only [addLists, hb, alloc, Prod.mk.injEq, Except.ok.injEq] at e₃
        obtain ⟨rfl, rfl⟩ := e₃
        have hm : mode < O.length := (List.getElem?_eq_some_iff.1 hv).1
        simp only [setItem, ho', hm, if_true, Prod.mk.injEq, and_true] at e
        exact ⟨parsed, b, l, hp, rfl, hb, e.symm⟩
  · rintro ⟨parsed, b, l, hp, hv, hb, rfl⟩
    have hm : mode < O.length := (List.getElem?_eq_some_iff.1 hv).1
    simp only [andThen, lift, hp, getItem, ho, hv, addLists, hb, alloc, setItem, ho', hm, if_true]

/-- The heap after the loop, for an outer list `O` whose lists are older than it. -/
theorem modeLoop_ok {h h' : Heap α} {O : List (Val α)} (ho : h[out]? = some (.list O)) (hlt : ∀ m b : ℕ, O[m]? = some (.ref b) → b < out)
    (e : modeLoop negEig s args out [0, 1, 2] h = (h', .ok ())) :
    ∃ O', h'[out]? = some (.list O') ∧ O'.length = O.length ∧ ∀ m < 3, ∃ parsed b b' l, parseMode negEig s (args m) = .ok parsed ∧ O[m]? = some (.ref b) ∧
      h[b]? = some (.list l) ∧ O'[m]? = some (.ref b') ∧ h'[b']? = some (.list (parsed.map .pen ++ l)) := by
  have hout : out < h.length := (List.getElem?_eq_some_iff.1 ho).1
  rw [modeLoop_eq, andThen_ok] at e
  obtain ⟨h₁, _, e₀, e⟩ := e
  rw [step_ok negEig s args out ho] at e₀
  obtain ⟨p₀, b₀, l₀, hp₀, hO₀, hb₀, rfl⟩ := e₀
  have l₀' := hlt 0 b₀ hO₀
  rw [andThen_ok] at e
  obtain ⟨h₂, _, e₁, e⟩ := e
  rw [step_ok negEig s args out (O := O.set 0 (.ref h.length)) (by rw [List.getElem?_set_self (by simp; omega)])] at e₁
  obtain ⟨p₁, b₁, l₁, hp₁, hO₁, hb₁, rfl⟩ := e₁
  rw [List.getElem?_set_ne (by omega)] at hO₁
  have l₁' := hlt 1 b₁ hO₁
  rw [List.getElem?_set_ne (by omega), List.getElem?_append_left (by omega)] at hb₁
  rw [andThen_ok] at e
  obtain ⟨h₃, _, e₂, e⟩ := e
  rw [step_ok negEig s args out (O := (O.set 0 (.ref h.length)).set 1 (.ref (h.length + 1))) (by
    rw [List.getElem?_set_self (by simp; omega)]; simp)] at e₂
  obtain ⟨p₂, b₂, l₂, hp₂, hO₂, hb₂, rfl⟩ := e₂
  rw [List.getElem?_set_ne (by omega), List.getElem?_set_ne (by omega)] at hO₂
  have l₂' := hlt 2 b₂ hO₂
  rw [List.getElem?_set_ne (by omega), List.getElem?_append_left (by simp; omega), List.getElem?_set_ne (by omega),
    List.getElem?_append_left (by omega)] at hb₂
  simp only [ret, Prod.mk.injEq, and_true] at e
  subst e
  have n₀ := (List.getElem?_eq_some_iff.1 hO₀).1
  have n₁ := (List.getElem?_eq_some_iff.1 hO₁).1
  have n₂ := (List.getElem?_eq_some_iff.1 hO₂).1
  refine ⟨_, List.getElem?_set_self (by simp; omega), by simp, fun m hm => ?_⟩
  obtain rfl | rfl | rfl : m = 0 ∨ m = 1 ∨ m = 2 := by omega
  · refine ⟨p₀, b₀, h.length, l₀, hp₀, hO₀, hb₀, ?_, ?_⟩
    · simp [n₀]
    · rw [List.getElem?_set_ne (by omega), List.getElem?_append_left (by simp), List.getElem?_set_ne (by omega),
        List.getElem?_append_left (by simp), List.getElem?_set_ne (by omega)]
      simp
  · refine ⟨p₁, b₁, h.length + 1, l₁, hp₁, hO₁, hb₁, ?_, ?_⟩
    · simp [n₁]
    · rw [List.getElem?_set_ne (by omega), List.getElem?_append_left (by simp), List.getElem?_set_ne (by omega)]
      simp
  · refine ⟨p₂, b₂, h.length + 2, l₂, hp₂, hO₂, hb₂, ?_, ?_⟩
    · simp [n₂]
    · rw [List.getElem?_set_ne (by omega)]
      simp

/-- One turn raises what the parsing of the mode raises, and nothing else if the list of the mode exists. -/
theorem step_outcome {h : Heap α} {O : List (Val α)} {mode b : ℕ} {l : List (Val α)} (ho : h[out]? = some (.list O)) (hb : O[mode]? = some (.ref b))
    (hl : h[b]? = some (.list l)) : ∃ h', step negEig s args out mode h = (h', (parseMode negEig s (args mode)).map fun _ => ()) ∧
      ((parseMode negEig s (args mode)).isOk → ∃ x, h' = (h ++ [x]).set out (.list (O.set mode (.ref h.length)))) := by
  rcases hp : parseMode negEig s (args mode) with e | parsed
  · exact ⟨h, by simp [step, andThen, lift, hp, Except.map], by simp [Except.isOk, Except.toBool]⟩
  · exact ⟨_, (step_ok negEig s args out ho).2 ⟨parsed, b, l, hp, hb, hl, rfl⟩, fun _ => ⟨_, rfl⟩⟩

/-- The loop raises the first exception that the parsing of a mode raises, and nothing else. -/
theorem modeLoop_outcome {h : Heap α} {O : List (Val α)} (ho : h[out]? = some (.list O))
    (hO : ∀ m < 3, ∃ b l, O[m]? = some (.ref b) ∧ b < out ∧ h[b]? = some (.list l)) :
    (modeLoop negEig s args out [0, 1, 2] h).2 = (do
      let _ ← parseMode negEig s (args 0)
      let _ ← parseMode negEig s (args 1)
      let _ ← parseMode negEig s (args 2)
      return ()) := by
  have hout : out < h.length := (List.getElem?_eq_some_iff.1 ho).1
  obtain ⟨b₀, l₀, hb₀, t₀, hl₀⟩ := hO 0 (by omega)
  obtain ⟨b₁, l₁, hb₁, t₁, hl₁⟩ := hO 1 (by omega)
  obtain ⟨b₂, l₂, hb₂, t₂, hl₂⟩ := hO 2 (by omega)
  rw [modeLoop_eq]
  obtain ⟨h₁, s₀, f₀⟩ := step_outcome negEig s args out ho hb₀ hl₀
  rcases hp₀ : parseMode negEig s (args 0) with e | p₀
  · simp [andThen, s₀, hp₀, Except.map]
  obtain ⟨x₀, rfl⟩ := f₀ (by rw [hp₀]; rfl)
  obtain ⟨h₂, s₁, f₁⟩ := step_outcome negEig s args out (mode := 1) (b := b₁) (l := l₁)
    (h := (h ++ [x₀]).set out (.list (O.set 0 (.ref h.length)))) (O := O.set 0 (.ref h.length))
    (List.getElem?_set_self (by simp; omega)) (by rw [List.getElem?_set_ne (by omega), hb₁])
    (by rw [List.getElem?_set_ne (by omega)]; exact getElem?_mono hl₁)
  rcases hp₁ : parseMode negEig s (args 1) with e | p₁
  · simp [andThen, s₀, s₁, hp₀, hp₁, Except.map]
  obtain ⟨x₁, rfl⟩ := f₁ (by rw [hp₁]; rfl)
  obtain ⟨h₃, s₂, -⟩ := step_outcome negEig s args out (mode := 2) (b := b₂) (l := l₂)
    (h := (((h ++ [x₀]).set out (.list (O.set 0 (.ref h.length)))) ++ [x₁]).set out
      (.list ((O.set 0 (.ref h.length)).set 1 (.ref (((h ++ [x₀]).set out (.list (O.set 0 (.ref h.length)))).length)))))
    (O := (O.set 0 (.ref h.length)).set 1 (.ref (((h ++ [x₀]).set out (.list (O.set 0 (.ref h.length)))).length)))
    (List.getElem?_set_self (by simp; omega)) (by rw [List.getElem?_set_ne (by omega), List.getElem?_set_ne (by omega), hb₂])
    (by
      rw [List.getElem?_set_ne (by omega)]
      refine getElem?_mono ?_
      rw [List.getElem?_set_ne (by omega)]
      exact getElem?_mono hl₂)
  rcases hp₂ : parseMode negEig s (args 2) with e | p₂
  · simp only [andThen, s₀, hp₀, Except.map, s₁, hp₁, s₂, hp₂, ok_bind, error_bind]
  · simp only [andThen, s₀, hp₀, Except.map, s₁, hp₁, s₂, hp₂, ok_bind, ret, pure_eq_ok]

end Step

end Verif.Parse
