import Verif.Parse.Model

/-!
# Lemmas about the heap computations of the parser
-/

namespace Verif.Parse

open M

variable {α : Type}

theorem andThen_ok {β γ : Type} {m : M α β} {f : β → M α γ} {h h' : Heap α} {y : γ} :
    andThen m f h = (h', .ok y) ↔ ∃ h₁ x, m h = (h₁, .ok x) ∧ f x h₁ = (h', .ok y) := by
  unfold andThen
  constructor
  · intro e
    rcases hm : m h with ⟨h₁, r⟩
    rw [hm] at e
    cases r with
    | ok x => exact ⟨h₁, x, rfl, e⟩
    | error _ => cases e
  · rintro ⟨h₁, x, hm, e⟩
    rw [hm]; exact e

/-- What may become of an object that existed before: generators may be exhausted, nothing else changes. -/
def Same (x y : Option (Cell α)) : Prop := y = x ∨ ∃ l, x = some (.gen l) ∧ y = some (.gen [])

theorem Same.refl (x : Option (Cell α)) : Same x x := .inl rfl

theorem Same.trans {x y z : Option (Cell α)} (h₁ : Same x y) (h₂ : Same y z) : Same x z := by
  rcases h₁ with rfl | ⟨l, rfl, rfl⟩
  · exact h₂
  · rcases h₂ with rfl | ⟨_, _, rfl⟩ <;> exact .inr ⟨l, rfl, rfl⟩

/-- The objects with addresses below `n` stay, apart from exhausted generators. -/
def Kept (n : ℕ) (h h' : Heap α) : Prop := h.length ≤ h'.length ∧ ∀ a < n, Same h[a]? h'[a]?

theorem Kept.refl (n : ℕ) (h : Heap α) : Kept n h h := ⟨le_rfl, fun _ _ => .refl _⟩

theorem Kept.trans {n : ℕ} {h₁ h₂ h₃ : Heap α} (a : Kept n h₁ h₂) (b : Kept n h₂ h₃) : Kept n h₁ h₃ :=
  ⟨a.1.trans b.1, fun x hx => (a.2 x hx).trans (b.2 x hx)⟩

/-- A computation keeps the objects below `n`, whether it raises or not. -/
def Keeps {β : Type} (n : ℕ) (m : M α β) : Prop := ∀ h, n ≤ h.length → Kept n h (m h).1

theorem Keeps.andThen {β γ : Type} {n : ℕ} {m : M α β} {f : β → M α γ} (hm : Keeps n m)
    (hf : ∀ h h₁ x, n ≤ h.length → m h = (h₁, .ok x) → Keeps n (f x)) : Keeps n (M.andThen m f) := by
  intro h hn
  have k := hm h hn
  have hf' := hf h
  unfold M.andThen
  rcases e : m h with ⟨h₁, r⟩
  rw [e] at k
  cases r with
  | ok x => exact k.trans (hf' h₁ x hn e h₁ (hn.trans k.1))
  | error _ => exact k

theorem keeps_ret {β : Type} (n : ℕ) (x : β) : Keeps n (ret x : M α β) := fun h _ => .refl n h
theorem keeps_raise {β : Type} (n : ℕ) (e : PyErr) : Keeps n (raise e : M α β) := fun h _ => .refl n h
theorem keeps_lift {β : Type} (n : ℕ) (e : Except PyErr β) : Keeps n (lift e : M α β) := fun h _ => .refl n h

theorem kept_append {n : ℕ} {h : Heap α} (hn : n ≤ h.length) (x : Heap α) : Kept n h (h ++ x) :=
  ⟨by simp, fun a ha => .inl (List.getElem?_append_left (by omega))⟩

theorem keeps_alloc (n : ℕ) (l : List (Val α)) : Keeps n (alloc l) := fun _ hn => kept_append hn _

theorem keeps_getItem (n a i : ℕ) : Keeps n (getItem a i : M α _) := by
  intro h _
  unfold getItem
  split <;> exact .refl n h

theorem keeps_setItem {n a : ℕ} (ha : n ≤ a) (i : ℕ) (v : Val α) : Keeps n (setItem a i v) := by
  intro h _
  unfold setItem
  split
  · split
    · exact ⟨by simp, fun b hb => .inl (List.getElem?_set_ne (by omega))⟩
    · exact .refl n h
  · exact .refl n h

theorem keeps_values (n : ℕ) (v : Val α) : Keeps n (values v) := by
  intro h _
  unfold values
  split
  · rename_i a
    split
    · exact .refl n h
    · exact .refl n h
    · rename_i l hl
      refine ⟨by simp, fun b _ => ?_⟩
      by_cases hb : a = b
      · subst hb
        refine .inr ⟨l, hl, ?_⟩
        have : a < h.length := (List.getElem?_eq_some_iff.1 hl).1
        simp [this]
      · exact .inl (List.getElem?_set_ne hb)
    · exact .refl n h
  · exact .refl n h

theorem keeps_copy (n : ℕ) (v : Val α) : Keeps n (copy v) := by
  intro h hn
  unfold copy
  split
  · split
    · exact kept_append hn _
    · exact .refl n h
    · exact .refl n h
  · exact .refl n h

theorem keeps_addLists (n : ℕ) (p : List (Pen α)) (v : Val α) : Keeps n (addLists p v) := by
  intro h hn
  unfold addLists
  split
  · split
    · exact keeps_alloc n _ h hn
    · exact .refl n h
  · exact .refl n h

theorem keeps_mapList {β γ : Type} {n : ℕ} {f : β → M α γ} (hf : ∀ x, Keeps n (f x)) (l : List β) : Keeps n (mapList f l) := by
  induction l with
  | nil => exact keeps_ret n _
  | cons x l ih => exact (hf x).andThen fun _ _ _ _ _ => ih.andThen fun _ _ _ _ _ => keeps_ret n _

theorem keeps_each {β : Type} {n : ℕ} {f : β → M α Unit} (hf : ∀ x, Keeps n (f x)) (l : List β) : Keeps n (each f l) := by
  induction l with
  | nil => exact keeps_ret n _
  | cons x l ih => exact (hf x).andThen fun _ _ _ _ _ => ih

theorem keeps_checkMode (n : ℕ) (v : Val α) : Keeps n (checkMode v) :=
  (keeps_values n v).andThen fun _ _ _ _ _ => keeps_each (fun x => by
    unfold checkPen; split
    · exact keeps_ret n _
    · exact keeps_raise n _) _

theorem keeps_checkRegs (n : ℕ) (v : Val α) : Keeps n (checkRegs v) := by
  unfold checkRegs
  split
  · exact (keeps_values n _).andThen fun _ _ _ _ _ => keeps_each (keeps_checkMode n) _
  · exact keeps_ret n _

theorem keeps_parseAll (negEig : (m : ℕ) → Matrix (Fin m) (Fin m) ℝ → Bool) (s : Settings α) (a : AllArgs) (regs : Option (Val α)) (n : ℕ) :
    Keeps n (parseAll negEig s a regs) := by
  unfold parseAll
  refine Keeps.andThen ?_ fun _ _ v _ _ => ?_
  · cases regs with
    | none => exact (keeps_mapList (keeps_alloc n) _).andThen fun _ _ _ _ _ => (keeps_alloc n _).andThen fun _ _ _ _ _ => keeps_ret n _
    | some v => exact (keeps_checkRegs n v).andThen fun _ _ _ _ _ => keeps_ret n _
  refine (keeps_values n v).andThen fun _ _ l _ _ => (keeps_mapList (keeps_copy n) l).andThen fun _ _ l' _ _ => ?_
  refine (keeps_alloc n l').andThen fun h h₁ out hn ho => ?_
  have hout : n ≤ out := by
    unfold alloc at ho
    cases ho; exact hn
  refine (keeps_lift n _).andThen fun _ _ args _ _ => Keeps.andThen ?_ fun _ _ _ _ _ => keeps_ret n _
  exact keeps_each (fun mode => (keeps_lift n _).andThen fun _ _ _ _ _ => (keeps_getItem n _ _).andThen fun _ _ _ _ _ =>
    (keeps_addLists n _ _).andThen fun _ _ _ _ _ => keeps_setItem hout _ _) _

/-! ### What the checks establish -/

/-- Contents of a list, tuple or generator. -/
def Contents (h : Heap α) (a : ℕ) (l : List (Val α)) : Prop := h[a]? = some (.list l) ∨ h[a]? = some (.tuple l) ∨ h[a]? = some (.gen l)

/-- An iterable of penalties. -/
def IsModeReg (h : Heap α) (v : Val α) : Prop := ∃ b l, v = .ref b ∧ Contents h b l ∧ ∀ x ∈ l, ∃ p, x = .pen p

open Classical in
theorem each_checkPen (l : List (Val α)) (h : Heap α) :
    each checkPen l h = (h, if ∀ x ∈ l, ∃ p, x = Val.pen p then .ok () else .error .typeError) := by
  induction l with
  | nil => simp [each, ret]
  | cons x l ih =>
    cases x with
    | pen p => simp [each, andThen, checkPen, ret, ih]
    | ref a => simp [each, andThen, checkPen, raise]
    | other => simp [each, andThen, checkPen, raise]

open Classical in
/-- The check of one mode succeeds exactly on iterables of penalties and otherwise raises TypeError. -/
theorem checkMode_eq (v : Val α) (h : Heap α) :
    (IsModeReg h v → (checkMode v h).2 = .ok ()) ∧ (¬IsModeReg h v → (checkMode v h).2 = .error .typeError) := by
  have other : ∀ w : Val α, (∀ b, w ≠ .ref b) → ¬IsModeReg h w := fun w hw ⟨b, _, e, _⟩ => hw b e
  cases v with
  | pen p => exact ⟨fun c => absurd c (other _ (by simp)), fun _ => by simp [checkMode, andThen, values]⟩
  | other => exact ⟨fun c => absurd c (other _ (by simp)), fun _ => by simp [checkMode, andThen, values]⟩
  | ref a =>
    have key : ∀ l, Contents h a l → ((checkMode (.ref a) h).2 = if ∀ x ∈ l, ∃ p, x = Val.pen p then .ok () else .error .typeError) := by
      intro l hl
      unfold checkMode andThen values
      rcases hl with e | e | e <;> simp only [e, each_checkPen]
    constructor
    · rintro ⟨b, l, e, hl, hp⟩
      cases e
      rw [key l hl, if_pos hp]
    · intro hn
      rcases e : h[a]? with _ | c
      · unfold checkMode andThen values
        simp only [e]
      · obtain ⟨l, hl⟩ : ∃ l, Contents h a l := by
          cases c with
          | list l => exact ⟨l, .inl e⟩
          | tuple l => exact ⟨l, .inr (.inl e)⟩
          | gen l => exact ⟨l, .inr (.inr e)⟩
        rw [key l hl, if_neg fun hp => hn ⟨a, l, rfl, hl, hp⟩]

/-- Iterables of penalties stay so. -/
theorem IsModeReg.kept {h h' : Heap α} {v : Val α} (hk : Kept h.length h h') (hv : IsModeReg h v) : IsModeReg h' v := by
  obtain ⟨b, l, e, hl, hp⟩ := hv
  have hb : b < h.length := by
    rcases hl with e | e | e <;> exact (List.getElem?_eq_some_iff.1 e).1
  rcases hk.2 b hb with s | ⟨l', s, s'⟩
  · exact ⟨b, l, e, by unfold Contents at *; rwa [s], hp⟩
  · exact ⟨b, [], e, .inr (.inr s'), by simp⟩

/-- The check of a mode changes at most the generator that is checked. -/
theorem checkMode_ne {h h' : Heap α} {v : Val α} {b : ℕ} (e : checkMode v h = (h', .ok ())) (hvb : v ≠ .ref b) : h'[b]? = h[b]? := by
  unfold checkMode andThen at e
  cases v with
  | pen p => simp [values] at e
  | other => simp [values] at e
  | ref a =>
    have hab : a ≠ b := fun c => hvb (by rw [c])
    rcases ha : h[a]? with _ | c
    · simp [values, ha] at e
    · cases c with
      | list l => simp only [values, ha, each_checkPen, Prod.mk.injEq] at e; rw [e.1]
      | tuple l => simp only [values, ha, each_checkPen, Prod.mk.injEq] at e; rw [e.1]
      | gen l =>
        simp only [values, ha, each_checkPen, Prod.mk.injEq] at e
        rw [← e.1]
        exact List.getElem?_set_ne hab

/-- After the check of a mode every iterable of penalties was one before. -/
theorem checkMode_back {h h' : Heap α} {v w : Val α} (e : checkMode v h = (h', .ok ())) (hw : IsModeReg h' w) : IsModeReg h w := by
  have hv : IsModeReg h v := by
    by_contra c
    have := (checkMode_eq v h).2 c
    rw [e] at this
    cases this
  obtain ⟨b, l, rfl, hl, hp⟩ := hw
  by_cases hvb : v = .ref b
  · rwa [hvb] at hv
  · exact ⟨b, l, rfl, by unfold Contents at *; rwa [checkMode_ne e hvb] at hl, hp⟩

/-- The checks of all modes succeed exactly if every mode is an iterable of penalties, and raise TypeError otherwise. -/
theorem each_checkMode (L : List (Val α)) : ∀ h : Heap α,
    ((∀ v ∈ L, IsModeReg h v) → (each checkMode L h).2 = .ok ()) ∧ ((∃ v ∈ L, ¬IsModeReg h v) → (each checkMode L h).2 = .error .typeError) := by
  induction L with
  | nil => intro h; simp [each, ret]
  | cons v L ih =>
    intro h
    obtain ⟨h₁, h₂⟩ := checkMode_eq v h
    have hk := keeps_checkMode h.length v h le_rfl
    rcases e : checkMode v h with ⟨h', r⟩
    rw [e] at h₁ h₂ hk
    simp only at h₁ h₂ hk
    have hok : r = .ok () → (each checkMode (v :: L) h).2 = (each checkMode L h').2 := by
      intro hr; simp only [each, andThen, e, hr]
    have herr : ∀ x, r = .error x → (each checkMode (v :: L) h).2 = .error x := by
      intro x hr; simp only [each, andThen, e, hr]
    constructor
    · intro hall
      rw [hok (h₁ (hall v (by simp)))]
      exact (ih h').1 fun w hw => (hall w (by simp [hw])).kept hk
    · rintro ⟨w, hw, hn⟩
      by_cases hv : IsModeReg h v
      · rw [hok (h₁ hv)]
        rcases List.mem_cons.1 hw with rfl | hw
        · exact absurd hv hn
        · exact (ih h').2 ⟨w, hw, fun c => hn (checkMode_back (by rw [e, h₁ hv]) c)⟩
      · exact herr _ (h₂ hv)

end Verif.Parse
