import Verif.Parse.Result

/-!
# Property C48 and the part of C52 on `regs`

The specification talks about the objects the caller owns (addresses in the heap before the call) and about what is in them afterwards.
-/

namespace Verif.Props

open Verif.Parse Verif.Parse.M

variable {α : Type}

/-- The caller's penalties for mode `m`: `regs` is a list or tuple and `regs[m]` is a list with these penalties. -/
def UserList (h : Heap α) (regs : Val α) (m : ℕ) (l : List (Pen α)) : Prop :=
  ∃ a L b, regs = .ref a ∧ (h[a]? = some (.list L) ∨ h[a]? = some (.tuple L)) ∧ L[m]? = some (.ref b) ∧ h[b]? = some (.list (l.map .pen))

/-- The penalties in mode `m` of the list of lists at address `out`. -/
def Used (h : Heap α) (out m : ℕ) (l : List (Pen α)) : Prop :=
  ∃ L b, h[out]? = some (.list L) ∧ L[m]? = some (.ref b) ∧ h[b]? = some (.list (l.map .pen))

/-- `regs` is an iterable of iterables of penalties. -/
def ValidRegs (h : Heap α) (regs : Val α) : Prop := ∃ a L, regs = .ref a ∧ Contents h a L ∧ ∀ v ∈ L, IsModeReg h v

/-- C48, first part: no list or tuple that existed before the call is changed, whether the call raises or not. -/
theorem C48_unchanged (negEig : (m : ℕ) → Matrix (Fin m) (Fin m) ℝ → Bool) (s : Settings α) (a : AllArgs) (regs : Option (Val α)) (h : Heap α) (addr : ℕ) (l : List (Val α)) :
    (h[addr]? = some (.list l) → (parseAll negEig s a regs h).1[addr]? = some (.list l)) ∧
    (h[addr]? = some (.tuple l) → (parseAll negEig s a regs h).1[addr]? = some (.tuple l)) := by
  have hk := (keeps_parseAll negEig s a regs h.length h le_rfl).2 addr
  constructor <;> intro e <;>
  · rcases hk (List.getElem?_eq_some_iff.1 e).1 with k | ⟨_, k, _⟩
    · rw [k, e]
    · rw [e] at k; cases k

/-- Values of the outer object, and the heap after reading them. -/
theorem values_contents {h : Heap α} {a : ℕ} {L : List (Val α)} (hL : Contents h a L) :
    ∃ h₀, values (.ref a) h = (h₀, .ok L) ∧ Kept h.length h h₀ ∧ (∀ b ≠ a, h₀[b]? = h[b]?) ∧ (h[a]? ≠ some (.gen L) → h₀ = h) ∧
      (h[a]? = some (.gen L) → h₀[a]? = some (.gen [])) := by
  have hk := keeps_values h.length (.ref a) h le_rfl
  rcases hL with e | e | e
  · exact ⟨h, by simp [values, e], .refl _ h, fun _ _ => rfl, fun _ => rfl, fun c => by rw [e] at c; cases c⟩
  · exact ⟨h, by simp [values, e], .refl _ h, fun _ _ => rfl, fun _ => rfl, fun c => by rw [e] at c; cases c⟩
  · refine ⟨h.set a (.gen []), by simp [values, e], ?_, fun b hb => List.getElem?_set_ne hb.symm, fun c => absurd e c, fun _ => ?_⟩
    · simpa [values, e] using hk
    · exact List.getElem?_set_self (List.getElem?_eq_some_iff.1 e).1

/-- The check of `regs`: TypeError exactly if some mode is not an iterable of penalties. -/
theorem checkRegs_eq {h : Heap α} {a : ℕ} {L : List (Val α)} (hL : Contents h a L) (hself : h[a]? = some (.gen L) → .ref a ∉ L) :
    ((∀ v ∈ L, IsModeReg h v) → (checkRegs (.ref a) h).2 = .ok ()) ∧ ((∃ v ∈ L, ¬IsModeReg h v) → (checkRegs (.ref a) h).2 = .error .typeError) := by
  obtain ⟨h₀, e, hk, hne, hsame, -⟩ := values_contents hL
  have hiff : ∀ v ∈ L, (IsModeReg h v ↔ IsModeReg h₀ v) := by
    intro v hv
    by_cases hg : h[a]? = some (.gen L)
    · have : ∀ b l, v = .ref b → (Contents h b l ↔ Contents h₀ b l) := by
        rintro b l rfl
        have hb : b ≠ a := by rintro rfl; exact hself hg hv
        unfold Contents
        rw [hne b hb]
      constructor
      · rintro ⟨b, l, rfl, hc, hp⟩; exact ⟨b, l, rfl, (this b l rfl).1 hc, hp⟩
      · rintro ⟨b, l, rfl, hc, hp⟩; exact ⟨b, l, rfl, (this b l rfl).2 hc, hp⟩
    · rw [hsame hg]
  have hE : checkRegs (.ref a) h = each checkMode L h₀ := by simp [checkRegs, andThen, e]
  rw [hE]
  constructor
  · intro hall; exact (each_checkMode L h₀).1 fun v hv => (hiff v hv).1 (hall v hv)
  · rintro ⟨v, hv, hn⟩; exact (each_checkMode L h₀).2 ⟨v, hv, fun c => hn ((hiff v hv).2 c)⟩

/-- C52, `regs`: anything that is not an iterable of iterables of penalties raises TypeError (a generator of the outer level must not contain itself). -/
theorem C52_regs (negEig : (m : ℕ) → Matrix (Fin m) (Fin m) ℝ → Bool) (s : Settings α) (a : AllArgs) (regs : Val α) (h : Heap α)
    (hself : ∀ b L, regs = .ref b → h[b]? = some (.gen L) → .ref b ∉ L) (hbad : ¬ValidRegs h regs) :
    (parseAll negEig s a (some regs) h).2 = .error .typeError := by
  cases regs with
  | pen p => simp [parseAll, andThen, checkRegs, ret, values]
  | other => simp [parseAll, andThen, checkRegs, ret, values]
  | ref b =>
    have key : (checkRegs (.ref b) h).2 = .error .typeError := by
      rcases e : h[b]? with _ | c
      · simp [checkRegs, andThen, values, e]
      · obtain ⟨L, hL⟩ : ∃ L, Contents h b L := by
          cases c with
          | list l => exact ⟨l, .inl e⟩
          | tuple l => exact ⟨l, .inr (.inl e)⟩
          | gen l => exact ⟨l, .inr (.inr e)⟩
        refine (checkRegs_eq hL (hself b L rfl)).2 ?_
        by_contra c
        push Not at c
        exact hbad ⟨b, L, rfl, hL, c⟩
    rcases e : checkRegs (.ref b) h with ⟨h₁, r⟩
    rw [e] at key
    simp only at key
    simp [parseAll, andThen, e, key]

/-- C48, second part: the list of lists used afterwards has, in every mode, the penalties built from the keyword arguments followed by the caller's `regs[mode]` in
order. -/
theorem C48 (negEig : (m : ℕ) → Matrix (Fin m) (Fin m) ℝ → Bool) (s : Settings α) (a : AllArgs) (regs : Val α) (h h' : Heap α) (out : ℕ)
    (hself : ∀ b L, regs = .ref b → h[b]? = some (.gen L) → .ref b ∉ L)
    (e : parseAll negEig s a (some regs) h = (h', .ok out)) :
    h.length ≤ out ∧ ∃ args, listifyAll a = .ok args ∧ ∀ m < 3, ∃ parsed user, parseMode negEig s (args m) = .ok parsed ∧ UserList h regs m user ∧
      Used h' out m (parsed ++ user) := by
  have hvalid : ValidRegs h regs := by
    by_contra c
    have := C52_regs negEig s a regs h hself c
    rw [e] at this
    cases this
  obtain ⟨r, L, rfl, hL, hmodes⟩ := hvalid
  unfold parseAll at e
  rw [andThen_ok] at e
  obtain ⟨h₁, v, e₁, e⟩ := e
  simp only [andThen_ok] at e₁
  obtain ⟨h₁', _, hc, e₁⟩ := e₁
  simp only [ret, Prod.mk.injEq, Except.ok.injEq] at e₁
  obtain ⟨rfl, rfl⟩ := e₁
  rw [andThen_ok] at e
  obtain ⟨h₂, l, e₂, e⟩ := e
  rw [andThen_ok] at e
  obtain ⟨h₃, l', e₃, e⟩ := e
  rw [andThen_ok] at e
  obtain ⟨h₄, o, e₄, e⟩ := e
  simp only [alloc, Prod.mk.injEq, Except.ok.injEq] at e₄
  obtain ⟨rfl, rfl⟩ := e₄
  rw [andThen_ok] at e
  obtain ⟨h₅, args, e₅, e⟩ := e
  simp only [lift, Prod.mk.injEq] at e₅
  obtain ⟨rfl, hargs⟩ := e₅
  rw [andThen_ok] at e
  obtain ⟨h₆, _, e₆, e⟩ := e
  simp only [ret, Prod.mk.injEq, Except.ok.injEq] at e
  obtain ⟨rfl, rfl⟩ := e
  -- the heap so far
  have k₁ : Kept h.length h h₁' := by simpa [hc] using keeps_checkRegs h.length (.ref r) h le_rfl
  have k₂ : Kept h.length h₁' h₂ := by simpa [e₂] using keeps_values h.length (.ref r) h₁' k₁.1
  have k₃ : Kept h.length h₂ h₃ := by simpa [e₃] using keeps_mapList (keeps_copy h.length) l h₂ (k₁.1.trans k₂.1)
  have k : Kept h.length h h₃ := (k₁.trans k₂).trans k₃
  have hr : r < h.length := by
    rcases hL with e | e | e <;> exact (List.getElem?_eq_some_iff.1 e).1
  refine ⟨k.1, args, hargs, ?_⟩
  -- the values of the outer object are those before the call
  have hl : l = L ∧ (h[r]? = some (.list L) ∨ h[r]? = some (.tuple L)) ∨ l = [] := by
    rcases hL with e | e | e
    · left
      rcases k₁.2 r hr with q | ⟨_, q, _⟩
      · rw [e] at q; simp only [values, q, Prod.mk.injEq, Except.ok.injEq] at e₂; exact ⟨e₂.2.symm, .inl e⟩
      · rw [e] at q; cases q
    · left
      rcases k₁.2 r hr with q | ⟨_, q, _⟩
      · rw [e] at q; simp only [values, q, Prod.mk.injEq, Except.ok.injEq] at e₂; exact ⟨e₂.2.symm, .inr e⟩
      · rw [e] at q; cases q
    · right
      obtain ⟨h₀, v₀, kv, -, -, hg⟩ := values_contents (.inr (.inr e))
      have hc' : each checkMode L h₀ = (h₁', .ok ()) := by simpa [checkRegs, andThen, v₀] using hc
      have q := (keeps_each (keeps_checkMode h.length) L h₀ kv.1).2 r hr
      rw [hc', hg e] at q
      have q : h₁'[r]? = some (.gen []) := by
        rcases q with q | ⟨_, _, q⟩ <;> exact q
      simp only [values, q, Prod.mk.injEq, Except.ok.injEq] at e₂
      exact e₂.2.symm
  have href : ∀ v ∈ l, ∃ b, v = .ref b := by
    rcases hl with ⟨rfl, -⟩ | rfl
    · intro v hv
      obtain ⟨b, _, q, _⟩ := hmodes v hv
      exact ⟨b, q⟩
    · simp
  obtain ⟨-, hcopy⟩ := mapList_copy href e₃
  have hlt : ∀ m b : ℕ, l'[m]? = some (.ref b) → b < h₃.length := by
    intro m b hb
    obtain ⟨hm, hb⟩ := List.getElem?_eq_some_iff.1 hb
    have hm' : m < l.length := by rw [hcopy.length_eq]; exact hm
    have := hcopy.get hm' hm
    simp only [List.get_eq_getElem, hb] at this
    obtain ⟨b₀, q₀, ⟨x, b', -, q, hx⟩ | ⟨x, hx, q⟩⟩ := this
    · cases q; exact (List.getElem?_eq_some_iff.1 hx).1
    · rw [q₀] at q; cases q; exact (List.getElem?_eq_some_iff.1 hx).1
  obtain ⟨O', ho', -, hO⟩ := modeLoop_ok negEig s args h₃.length (O := l') (by simp) hlt e₆
  intro m hm
  obtain ⟨parsed, b, b', x, hp, hb, hx, hb', hx'⟩ := hO m hm
  obtain ⟨hm₂, hbe⟩ := List.getElem?_eq_some_iff.1 hb
  have hm₁ : m < l.length := by rw [hcopy.length_eq]; exact hm₂
  have hc₀ := hcopy.get hm₁ hm₂
  simp only [List.get_eq_getElem, hbe] at hc₀
  rcases hl with ⟨rfl, hLr⟩ | rfl
  swap
  · simp at hm₁
  have hxb : h₃[b]? = some (.list x) := by rwa [List.getElem?_append_left (hlt m b hb)] at hx
  obtain ⟨b₀, q₀, ⟨y, b₁, hy, q, hy'⟩ | ⟨y, hy, q⟩⟩ := hc₀
  · cases q
    rw [hxb] at hy'
    cases hy'
    obtain ⟨b₂, z, q₂, hz, hpens⟩ := hmodes l[m] (List.getElem_mem hm₁)
    rw [q₀] at q₂
    cases q₂
    have hb₀ : b₀ < h.length := by
      rcases hz with e | e | e <;> exact (List.getElem?_eq_some_iff.1 e).1
    have hy₀ : h[b₀]? = some (.list x) := by
      rcases k.2 b₀ hb₀ with q | ⟨_, _, q⟩
      · rw [← q, hy]
      · rw [hy] at q; cases q
    have hzx : z = x := by
      unfold Contents at hz
      rw [hy₀] at hz
      rcases hz with e | e | e <;> cases e
      rfl
    subst hzx
    obtain ⟨user, rfl⟩ : ∃ user : List (Pen α), z = user.map .pen := by
      clear * - hpens
      induction z with
      | nil => exact ⟨[], rfl⟩
      | cons x z ih =>
        obtain ⟨p, rfl⟩ := hpens x (by simp)
        obtain ⟨u, rfl⟩ := ih fun x hx => hpens x (by simp [hx])
        exact ⟨p :: u, rfl⟩
    refine ⟨parsed, user, hp, ⟨r, l, b₀, rfl, hLr, ?_, hy₀⟩, ⟨O', b', ho', hb', by rw [hx', List.map_append]⟩⟩
    rw [List.getElem?_eq_getElem hm₁, q₀]
  · rw [q₀] at q
    cases q
    rw [hxb] at hy
    cases hy

/-- What the call raises, for `regs` a list or tuple of at least three lists of penalties: the first exception from the keyword arguments, and nothing else. -/
theorem parseAll_outcome (negEig : (m : ℕ) → Matrix (Fin m) (Fin m) ℝ → Bool) (s : Settings α) (a : AllArgs) (r : ℕ) (L : List (Val α)) (h : Heap α)
    (hr : h[r]? = some (.list L) ∨ h[r]? = some (.tuple L)) (hlen : 3 ≤ L.length)
    (hL : ∀ v ∈ L, ∃ b l, v = .ref b ∧ h[b]? = some (.list (List.map .pen l)))
    : (parseAll negEig s a (some (.ref r)) h).2.map (fun _ => ()) = (do
      let args ← listifyAll a
      let _ ← parseMode negEig s (args 0)
      let _ ← parseMode negEig s (args 1)
      let _ ← parseMode negEig s (args 2)
      return ()) := by
  have hmode : ∀ v ∈ L, IsModeReg h v := fun v hv => by
    obtain ⟨b, l, rfl, hb⟩ := hL v hv
    exact ⟨b, _, rfl, .inl hb, by simp⟩
  have hcont : Contents h r L := by
    rcases hr with e | e
    · exact .inl e
    · exact .inr (.inl e)
  have hc := (checkRegs_eq hcont (fun c => by rcases hr with e | e <;> rw [e] at c <;> cases c)).1 hmode
  rcases e : checkRegs (.ref r) h with ⟨h₁, x⟩
  rw [e] at hc
  simp only at hc
  subst hc
  have k₁ : Kept h.length h h₁ := by simpa [e] using keeps_checkRegs h.length (.ref r) h le_rfl
  have keep : ∀ (b : ℕ) (c : Cell α), h[b]? = some c → (∀ l, c ≠ .gen l) → h₁[b]? = some c := by
    intro b c hb hc
    rcases k₁.2 b (List.getElem?_eq_some_iff.1 hb).1 with q | ⟨l, q, _⟩
    · rw [q, hb]
    · rw [hb] at q; cases q; exact absurd rfl (hc l)
  have hv : values (.ref r) h₁ = (h₁, .ok L) := by
    rcases hr with e | e
    · simp [values, keep r _ e (by simp)]
    · simp [values, keep r _ e (by simp)]
  have hL₁ : ∀ v ∈ L, ∃ b l, v = .ref b ∧ h₁[b]? = some (.list l) := fun v hv => by
    obtain ⟨b, l, rfl, hb⟩ := hL v hv
    exact ⟨b, _, rfl, keep b _ hb (by simp)⟩
  obtain ⟨h₂, L', e₂⟩ := mapList_copy_ok hL₁
  obtain ⟨⟨x, rfl⟩, hcopy⟩ := mapList_copy (fun v hv => by obtain ⟨b, _, q, _⟩ := hL₁ v hv; exact ⟨b, q⟩) e₂
  set h₂ := h₁ ++ x with hh₂
  -- the lists in the outer list
  have hO : ∀ m < 3, ∃ b l, L'[m]? = some (.ref b) ∧ h₂[b]? = some (.list l) := by
    intro m hm
    have m₁ : m < L.length := by omega
    have m₂ : m < L'.length := by rw [← hcopy.length_eq]; exact m₁
    have c := hcopy.get m₁ m₂
    simp only [List.get_eq_getElem] at c
    obtain ⟨b, l, q, hb⟩ := hL₁ L[m] (List.getElem_mem m₁)
    have hb₂ : h₂[b]? = some (.list l) := getElem?_mono hb
    obtain ⟨b₀, q₀, ⟨y, b₁, hy, q₁, hy'⟩ | ⟨y, hy, -⟩⟩ := c
    · exact ⟨b₁, y, by rw [List.getElem?_eq_getElem m₂, q₁], hy'⟩
    · rw [q] at q₀; cases q₀; rw [hb₂] at hy; cases hy
  rcases hargs : listifyAll a with x | args
  · simp [parseAll, andThen, e, ret, hv, e₂, alloc, lift, hargs, Except.map]
  have hloop := modeLoop_outcome negEig s args h₂.length (h := h₂ ++ [.list L']) (O := L') (by simp) fun m hm => by
    obtain ⟨b, l, hb, hl⟩ := hO m hm
    exact ⟨b, l, hb, (List.getElem?_eq_some_iff.1 hl).1, getElem?_mono hl⟩
  rw [ok_bind, ← hloop]
  have hpa : parseAll negEig s a (some (.ref r)) h = andThen (modeLoop negEig s args h₂.length [0, 1, 2]) (fun _ => ret h₂.length) (h₂ ++ [.list L']) := by
    simp only [parseAll, andThen, e, ret, hv, e₂, alloc, lift, hargs]
  rw [hpa]
  unfold andThen
  generalize modeLoop negEig s args h₂.length [0, 1, 2] (h₂ ++ [.list L']) = o
  rcases o with ⟨h', x | x⟩ <;> rfl

/-- C48, the call succeeds: `regs` a list or tuple of at least three lists of penalties, with keyword arguments that can be parsed. -/
theorem C48_success (negEig : (m : ℕ) → Matrix (Fin m) (Fin m) ℝ → Bool) (s : Settings α) (a : AllArgs) (r : ℕ) (L : List (Val α)) (h : Heap α)
    (hr : h[r]? = some (.list L) ∨ h[r]? = some (.tuple L)) (hlen : 3 ≤ L.length)
    (hL : ∀ v ∈ L, ∃ b l, v = .ref b ∧ h[b]? = some (.list (List.map .pen l)))
    {args : ℕ → ModeArgs} (hargs : listifyAll a = .ok args) (hparse : ∀ m < 3, ∃ parsed, parseMode negEig s (args m) = .ok parsed) :
    ∃ h' out, parseAll negEig s a (some (.ref r)) h = (h', .ok out) := by
  have ho := parseAll_outcome negEig s a r L h hr hlen hL
  obtain ⟨p₀, h₀⟩ := hparse 0 (by omega)
  obtain ⟨p₁, h₁⟩ := hparse 1 (by omega)
  obtain ⟨p₂, h₂⟩ := hparse 2 (by omega)
  simp only [hargs, ok_bind, h₀, h₁, h₂, pure_eq_ok] at ho
  rcases e : parseAll negEig s a (some (.ref r)) h with ⟨h', x | out⟩
  · rw [e] at ho; cases ho
  · exact ⟨h', out, rfl⟩

/-- A call without `regs` is the same as a call with three new empty lists. -/
theorem parseAll_none (negEig : (m : ℕ) → Matrix (Fin m) (Fin m) ℝ → Bool) (s : Settings α) (a : AllArgs) (h : Heap α) :
    parseAll negEig s a (some (.ref (h.length + 3))) (h ++ [.list [], .list [], .list [], .list [.ref h.length, .ref (h.length + 1), .ref (h.length + 2)]]) =
      parseAll negEig s a none h := by
  simp [parseAll, mapList, andThen, alloc, ret, checkRegs, values, each, checkMode]

/-- What the call raises without `regs`: the first exception from the keyword arguments, and nothing else. -/
theorem parseAll_none_outcome (negEig : (m : ℕ) → Matrix (Fin m) (Fin m) ℝ → Bool) (s : Settings α) (a : AllArgs) (h : Heap α) :
    (parseAll negEig s a none h).2.map (fun _ => ()) = (do
      let args ← listifyAll a
      let _ ← parseMode negEig s (args 0)
      let _ ← parseMode negEig s (args 1)
      let _ ← parseMode negEig s (args 2)
      return ()) := by
  rw [← parseAll_none]
  refine parseAll_outcome negEig s a _ [.ref h.length, .ref (h.length + 1), .ref (h.length + 2)] _ (.inl (by simp)) (by simp) fun v hv => ?_
  simp only [List.mem_cons, List.not_mem_nil, or_false] at hv
  rcases hv with rfl | rfl | rfl <;> exact ⟨_, [], rfl, by simp⟩

/-- C48, `regs` not given: every mode has the penalties built from the keyword arguments only. -/
theorem C48_default (negEig : (m : ℕ) → Matrix (Fin m) (Fin m) ℝ → Bool) (s : Settings α) (a : AllArgs) (h h' : Heap α) (out : ℕ)
    (e : parseAll negEig s a none h = (h', .ok out)) :
    h.length ≤ out ∧ ∃ args, listifyAll a = .ok args ∧ ∀ m < 3, ∃ parsed, parseMode negEig s (args m) = .ok parsed ∧ Used h' out m parsed := by
  have e' := (parseAll_none negEig s a h).trans e
  obtain ⟨hle, args, hargs, hm⟩ := C48 negEig s a _ _ h' out (by
    rintro b L q hb
    cases q
    simp at hb) e'
  refine ⟨by simp at hle; omega, args, hargs, fun m hm3 => ?_⟩
  obtain ⟨parsed, user, hp, ⟨x, L, b, q, hL, hb, hu⟩, hused⟩ := hm m hm3
  cases q
  have hL : L = [.ref h.length, .ref (h.length + 1), .ref (h.length + 2)] := by
    rcases hL with q | q <;> simp at q
    exact q.symm
  have : user = [] := by
    subst hL
    obtain rfl | rfl | rfl : m = 0 ∨ m = 1 ∨ m = 2 := by omega
    all_goals
      simp only [List.getElem?_cons_zero, List.getElem?_cons_succ, Option.some.injEq, Val.ref.injEq] at hb
      subst hb
      simp at hu
      cases user with
      | nil => rfl
      | cons _ _ => simp at hu
  subst this
  exact ⟨parsed, hp, by simpa using hused⟩

/-! ### Concrete cases -/

/-- No keyword arguments. -/
def noArgs : AllArgs := ⟨.one .none, .one .none, .one .none, .one .none, .one .none, false, .one .none, .one .none, .one .none⟩

/-- `non_negative=True`. -/
def nonNegArgs : AllArgs := { noArgs with nonNeg := .one (.bool true) }

/-- Some settings. -/
def someSettings : Settings String := ⟨"truncated_svd", "random_uniform", "random_uniform", true⟩

/-- The same inner list object with two penalties in all three modes. -/
def aliased : Heap String := [.list [.pen (.user 7), .pen (.user 8)], .list [.ref 0, .ref 0, .ref 0]]

/-- A case for C48, C48_unchanged and C48_success: `non_negative=True` with an inner list shared between the modes. -/
example : ∃ h' out, parseAll (fun _ _ => false) someSettings nonNegArgs (some (.ref 1)) aliased = (h', .ok out) ∧
    (∀ m < 3, Used h' out m [.built .nonNegativity "random_uniform" "random_uniform" none, .user 7, .user 8]) ∧
    h'[0]? = some (.list [.pen (.user 7), .pen (.user 8)]) := by
  have hp : ∀ m < 3, parseMode (fun _ _ => false) someSettings
      ⟨.bool true, .none, .none, .none, .none, [false, false, false].getD m false, .none, .none, .none⟩ =
      .ok [.built .nonNegativity "random_uniform" "random_uniform" none] := by
    intro m hm
    obtain rfl | rfl | rfl : m = 0 ∨ m = 1 ∨ m = 2 := by omega
    all_goals
      simp [parseMode, Leaf.truth, Leaf.given, Leaf.isNone, genL2Regs, ballRegs, tvRegs, l1Regs, Settings.mk1, someSettings, bind, Except.bind, pure, Except.pure]
  have hl : ∃ args, listifyAll nonNegArgs = .ok args ∧ ∀ m < 3, args m =
      ⟨.bool true, .none, .none, .none, .none, [false, false, false].getD m false, .none, .none, .none⟩ := by
    refine ⟨_, rfl, fun m hm => ?_⟩
    obtain rfl | rfl | rfl : m = 0 ∨ m = 1 ∨ m = 2 := by omega
    all_goals rfl
  obtain ⟨args, hargs, hm⟩ := hl
  obtain ⟨h', out, e⟩ := C48_success (fun _ _ => false) someSettings nonNegArgs 1 [.ref 0, .ref 0, .ref 0] aliased (.inl rfl) (by simp)
    (by intro v hv; simp at hv; subst hv; exact ⟨0, [.user 7, .user 8], rfl, rfl⟩) hargs fun m hm3 => ⟨_, by rw [hm m hm3]; exact hp m hm3⟩
  refine ⟨h', out, e, fun m hm3 => ?_, ?_⟩
  · obtain ⟨-, args', hargs', hall⟩ := C48 _ _ _ _ _ _ _ (by intro b L q hb; cases q; simp [aliased] at hb) e
    rw [hargs] at hargs'
    cases hargs'
    obtain ⟨parsed, user, hpar, ⟨a, L, b, q, hL, hb, hu⟩, hused⟩ := hall m hm3
    rw [hm m hm3, hp m hm3] at hpar
    cases hpar
    cases q
    have hL : L = [.ref 0, .ref 0, .ref 0] := by
      rcases hL with q | q <;> simp [aliased] at q
      exact q.symm
    have hb0 : b = 0 := by
      subst hL
      obtain rfl | rfl | rfl : m = 0 ∨ m = 1 ∨ m = 2 := by omega
      all_goals simpa using hb.symm
    subst hb0
    have : user = [.user 7, .user 8] := by
      simp only [aliased, List.getElem?_cons_zero, Option.some.injEq, Cell.list.injEq] at hu
      have inj : Function.Injective (Val.pen (α := String)) := fun a b e => by cases e; rfl
      exact (List.map_injective_iff.2 inj (a₁ := [.user 7, .user 8]) hu).symm
    subst this
    exact hused
  · have := (C48_unchanged (fun _ _ => false) someSettings nonNegArgs (some (.ref 1)) aliased 0 [.pen (.user 7), .pen (.user 8)]).1 rfl
    rwa [e] at this

/-- A mode given as tuple passes the check ("iterable of iterables") but raises TypeError afterwards. -/
theorem C48_tuple : ValidRegs (α := String) [.tuple [.pen (.user 7)], .list [], .list [.ref 0, .ref 1, .ref 1]] (.ref 2) ∧
    (parseAll (fun _ _ => false) someSettings noArgs (some (.ref 2)) [.tuple [.pen (.user 7)], .list [], .list [.ref 0, .ref 1, .ref 1]]).2 = .error .typeError := by
  refine ⟨⟨2, _, rfl, .inl rfl, ?_⟩, ?_⟩
  · intro v hv
    simp at hv
    rcases hv with rfl | rfl
    · exact ⟨0, _, rfl, .inr (.inl rfl), by simp⟩
    · exact ⟨1, _, rfl, .inl rfl, by simp⟩
  · simp [parseAll, andThen, checkRegs, values, each, checkMode, checkPen, ret, mapList, copy, alloc, lift, listifyAll, listify, noArgs, modeLoop, parseMode,
      Leaf.truth, Leaf.given, Leaf.isNone, genL2Regs, ballRegs, tvRegs, l1Regs, bind, Except.bind, pure, Except.pure, getItem, addLists]

/-- A generator of lists passes the check, which exhausts it, and raises IndexError afterwards. -/
theorem C48_generator : ValidRegs (α := String) [.list [.pen (.user 7)], .gen [.ref 0, .ref 0, .ref 0]] (.ref 1) ∧
    (parseAll (fun _ _ => false) someSettings noArgs (some (.ref 1)) [.list [.pen (.user 7)], .gen [.ref 0, .ref 0, .ref 0]]).2 = .error .indexError := by
  refine ⟨⟨1, _, rfl, .inr (.inr rfl), ?_⟩, ?_⟩
  · intro v hv
    simp at hv
    subst hv
    exact ⟨0, _, rfl, .inl rfl, by simp⟩
  · simp [parseAll, andThen, checkRegs, values, each, checkMode, checkPen, ret, mapList, alloc, lift, listifyAll, listify, noArgs, modeLoop, parseMode,
      Leaf.truth, Leaf.given, Leaf.isNone, genL2Regs, ballRegs, tvRegs, l1Regs, bind, Except.bind, pure, Except.pure, getItem]

/-- Fewer than three lists pass the check and raise IndexError afterwards. -/
theorem C48_short : ValidRegs (α := String) [.list [.pen (.user 7)], .list [.ref 0]] (.ref 1) ∧
    (parseAll (fun _ _ => false) someSettings noArgs (some (.ref 1)) [.list [.pen (.user 7)], .list [.ref 0]]).2 = .error .indexError := by
  refine ⟨⟨1, _, rfl, .inl rfl, ?_⟩, ?_⟩
  · intro v hv
    simp at hv
    subst hv
    exact ⟨0, _, rfl, .inl rfl, by simp⟩
  · simp [parseAll, andThen, checkRegs, values, each, checkMode, checkPen, ret, mapList, copy, alloc, lift, listifyAll, listify, noArgs, modeLoop, parseMode,
      Leaf.truth, Leaf.given, Leaf.isNone, genL2Regs, ballRegs, tvRegs, l1Regs, bind, Except.bind, pure, Except.pure, getItem, addLists, setItem]

/-- One matrix for all modes as `generalized_l2_penalty` (the docstring allows a list or dict only) always raises ValueError: an array is an iterable of its rows. -/
theorem C49_matrix (negEig : (m : ℕ) → Matrix (Fin m) (Fin m) ℝ → Bool) (s : Settings α) {m n : ℕ} (M : Matrix (Fin m) (Fin n) ℝ) (h : Heap α) :
    (parseAll negEig s { noArgs with genL2 := .iter (List.ofFn fun i => .vec n (M i)) } none h).2 = .error .valueError := by
  have ho := parseAll_none_outcome negEig s { noArgs with genL2 := .iter (List.ofFn fun i => .vec n (M i)) } h
  have key : (do
      let args ← listifyAll { noArgs with genL2 := .iter (List.ofFn fun i => .vec n (M i)) }
      let _ ← parseMode negEig s (args 0)
      let _ ← parseMode negEig s (args 1)
      let _ ← parseMode negEig s (args 2)
      return () : Except PyErr Unit) = .error .valueError := by
    by_cases hm : m = 3
    · subst hm
      simp [listifyAll, listify, noArgs, parseMode, Leaf.truth, Leaf.given, genL2Regs, genL2Init, Except.map, bind, Except.bind, pure, Except.pure]
    · simp [listifyAll, listify, noArgs, hm, bind, Except.bind]
  rw [key] at ho
  rcases e : (parseAll negEig s { noArgs with genL2 := .iter (List.ofFn fun i => .vec n (M i)) } none h).2 with x | x
  · rw [e] at ho; cases ho; rfl
  · rw [e] at ho; cases ho

end Verif.Props
