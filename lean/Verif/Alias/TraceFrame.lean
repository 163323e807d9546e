import Verif.Alias.TraceLemmas

/-!
# What all recorded heaps have in common

Helper lemmas. Nothing is assumed about which objects are used twice.
-/

namespace Verif.Alias

open Verif.ADMM Verif.Spec Verif.Penalties Verif.Loop Finset

section
variable {W WL : ℕ → Prop} {b h h' : Heap}

/-- Writing to an object that may be written to, or that is new. -/
theorem Frame.write {a : ℕ} (f : Frame W WL b h) (g : Frame (· = a) No h h') (ha : W a ∨ b.next ≤ a) : Frame W WL b h' := by
  refine f.trans g ?_ fun _ _ hc => hc.elim
  rintro x hx rfl
  rcases ha with ha | ha
  · exact ha
  · omega

theorem Frame.new (f : Frame W WL b h) (g : Frame No No h h') : Frame W WL b h' :=
  f.trans g (fun _ _ hc => hc.elim) fun _ _ hc => hc.elim

theorem frame_setItem (h : Heap) (l i a : ℕ) : Frame No (· = l) h (h.setItem l i a) := by
  refine ⟨le_refl _, fun _ _ _ => rfl, fun k _ hk => ?_⟩
  simp only [Heap.setItem]
  rw [Function.update_of_ne hk]

theorem Frame.item {l : ℕ} (f : Frame W WL b h) (g : Frame No (· = l) h h') (hl : WL l ∨ b.next ≤ l) : Frame W WL b h' := by
  refine f.trans g (fun _ _ hc => hc.elim) ?_
  rintro x hx rfl
  rcases hl with hl | hl
  · exact hl
  · omega

variable {I K R n : ℕ} {J : Fin I → ℕ}

theorem frame_newAuxB (h : Heap) (x : AuxB I R J) : Frame No No h (h.newAuxB x).1 := by
  cases x with
  | mats X => exact frame_newRagged h X
  | p2 a => exact (frame_newRagged h _).new (frame_newArr _ _)

/-! ### Mode 0 -/

theorem writeRowsT_sat (f : Frame W WL b h) {a : ℕ} (ha : W a ∨ b.next ≤ a) (v : Fin I → Fin R → ℝ) :
    (writeRowsT h a v).Sat (Frame W WL b) (Frame W WL b) :=
  .forIn (fun h i hh => .ev (hh.write (frame_setRow h a i (v i)) ha) (hh.write (frame_setRow h a i (v i)) ha)) _ _ f

theorem auxStepAT_sat (pen : PenA I R) (ρmax : Option ℝ) (ρ : Fin I → ℝ) (Y : Matrix (Fin I) (Fin R) ℝ) (f : Frame W WL b h) {a : ℕ}
    (ha : ρmax = none → W a ∨ b.next ≤ a) :
    (auxStepAT pen ρmax ρ Y h a).Sat (Frame W WL b) fun x => Frame W WL b x.1 ∧ (x.2 = a ∨ ρmax.isSome = true ∧ b.next ≤ x.2) := by
  unfold auxStepAT
  cases ρmax with
  | some m =>
    have := f.new (frame_newArr h (pen.mat Y m (h.mat I R a)))
    exact .ev this ⟨this, .inr ⟨rfl, f.next⟩⟩
  | none =>
    refine Tr.Sat.bind (Q := Frame W WL b) (.forIn (fun h i hh => ?_) _ _ f) fun x hx => .ret ⟨hx, .inl rfl⟩
    cases pen.row with
    | none => exact .raise _
    | some u => exact .ev (hh.write (frame_setRow h a i _) (ha rfl)) (hh.write (frame_setRow h a i _) (ha rfl))

/-- The references of the inner loop for `A`: the buffers, and auxiliary variables that are the original or new ones. -/
structure AddrA (b : Heap) (ρmax : Option ℝ) (aux₀ : Fin n → ℕ) (cur old : ℕ) (t : LoopMat n) : Prop where
  cur : t.cur = cur
  old : t.old = old
  aux : ∀ p, t.aux p = aux₀ p ∨ ρmax.isSome = true ∧ b.next ≤ t.aux p

theorem penStepAT_sat (pens : Fin n → PenA I R) (ρmax : Option ℝ) (ρ : Fin I → ℝ) {aux₀ : Fin n → ℕ} {cur old : ℕ}
    (hW : ρmax = none → ∀ p, W (aux₀ p)) (st : Heap × LoopMat n) (p : Fin n) (f : Frame W WL b st.1 ∧ AddrA b ρmax aux₀ cur old st.2) :
    (penStepAT pens ρmax ρ st p).Sat (Frame W WL b) fun s => Frame W WL b s.1 ∧ AddrA b ρmax aux₀ cur old s.2 := by
  obtain ⟨f, g⟩ := f
  unfold penStepAT
  refine (auxStepAT_sat (pens p) ρmax ρ _ f fun hm => ?_).bind fun x hx => ?_
  · rcases g.aux p with h1 | h1
    · rw [h1]; exact .inl (hW hm p)
    · rw [hm] at h1; cases h1.1
  · have := hx.1.new (frame_newArr x.1 (x.1.mat I R st.2.cur - (x.1.mat I R x.2 - x.1.mat I R (st.2.dual p))))
    refine .ev this ⟨this, g.cur, g.old, fun q => ?_⟩
    by_cases hq : q = p
    · subst hq
      simp only [Function.update_self]
      rcases hx.2 with h1 | h1
      · rw [h1]; exact g.aux q
      · exact .inr h1
    · simp only [Function.update_of_ne hq]
      exact g.aux q

theorem stepAT_sat (pens : Fin n → PenA I R) (ρmax : Option ℝ) (ρ : Fin I → ℝ) (svds : Fin I → SVD R R R) (rhs : Fin I → Fin R → ℝ)
    {aux₀ : Fin n → ℕ} {cur old : ℕ} (hW : ρmax = none → ∀ p, W (aux₀ p)) (ho : W old ∨ b.next ≤ old) (st : Heap × LoopMat n)
    (f : Frame W WL b st.1) (g : AddrA b ρmax aux₀ cur old st.2) :
    (stepAT pens ρmax ρ svds rhs st).Sat (Frame W WL b) fun s => Frame W WL b s.1 ∧ AddrA b ρmax aux₀ old cur s.2 := by
  unfold stepAT
  refine Tr.Sat.bind (writeRowsT_sat f (by rw [g.old]; exact ho) _) fun x hx => ?_
  exact Tr.Sat.forIn (fun s p hs => penStepAT_sat pens ρmax ρ hW s p hs) _ _ ⟨hx, g.old, g.cur, g.aux⟩

theorem loopAT_sat (pens : Fin n → PenA I R) (ρmax : Option ℝ) (ρ : Fin I → ℝ) (svds : Fin I → SVD R R R) (rhs : Fin I → Fin R → ℝ)
    (stop : Heap × LoopMat n → Bool) {aux₀ : Fin n → ℕ} (hW : ρmax = none → ∀ p, W (aux₀ p)) :
    ∀ (k : ℕ) (cur old : ℕ), (0 < k → W old ∨ b.next ≤ old) → (1 < k → W cur ∨ b.next ≤ cur) → ∀ st : Heap × LoopMat n, Frame W WL b st.1 →
    AddrA b ρmax aux₀ cur old st.2 →
    (innerLoopT (stepAT pens ρmax ρ svds rhs) stop k st).Sat (Frame W WL b)
      fun s => Frame W WL b s.1 ∧ (s.2.cur = cur ∨ s.2.cur = old) ∧ ∀ p, s.2.aux p = aux₀ p ∨ ρmax.isSome = true ∧ b.next ≤ s.2.aux p
  | 0, cur, old, _, _, st, f, g => .ret ⟨f, .inl g.cur, g.aux⟩
  | k + 1, cur, old, h1, h2, st, f, g => by
    rw [innerLoopT]
    refine (stepAT_sat pens ρmax ρ svds rhs hW (h1 (Nat.succ_pos k)) st f g).bind fun s hs => ?_
    split
    · exact .ret ⟨hs.1, .inr hs.2.cur, hs.2.aux⟩
    · exact (loopAT_sat pens ρmax ρ svds rhs stop hW k old cur (fun hk => h2 (by omega)) (fun _ => h1 (Nat.succ_pos k)) s hs.1 hs.2).mono
        (fun _ hx => hx) fun t ht => ⟨ht.1, ht.2.1.symm, ht.2.2⟩

/-! ### Mode 1 -/

theorem writeItemsT_sat (f : Frame W WL b h) {l : ℕ} (hl : WL l ∨ b.next ≤ l) (X : Ragged I R J) :
    (writeItemsT h l X).Sat (Frame W WL b) (Frame W WL b) := by
  refine .forIn (fun h i hh => ?_) _ _ f
  have h1 := hh.new (frame_newArr h (X i))
  have h2 := h1.item (frame_setItem (h.newArr (X i)).1 l i (h.newArr (X i)).2) hl
  refine Tr.Sat.bind (Q := fun a => a = h.newArr (X i)) (.ev h1 rfl) ?_
  rintro a rfl
  exact .ev h2 h2

theorem penStepBT_sat (pens : Fin n → PenB I R J) (ρ : Fin I → ℝ) {cur old : ℕ} (st : Heap × LoopRag n) (p : Fin n)
    (f : Frame W WL b st.1 ∧ st.2.cur = cur ∧ st.2.old = old) :
    (penStepBT pens ρ st p).Sat (Frame W WL b) fun s => Frame W WL b s.1 ∧ s.2.cur = cur ∧ s.2.old = old := by
  obtain ⟨f, g1, g2⟩ := f
  unfold penStepBT
  simp only
  refine Tr.Sat.bind (Q := fun x => Frame W WL b x.1) (.ev (f.new (frame_newAuxB _ _)) (f.new (frame_newAuxB _ _))) fun x hx => ?_
  have := hx.new (frame_newRagged x.1
    (fun i => x.1.ragged R J st.2.cur i - ((x.1.auxB R J x.2).subtract (x.1.ragged R J (st.2.dual p))) i))
  exact .ev this ⟨this, g1, g2⟩

theorem stepBT_sat (pens : Fin n → PenB I R J) (ρ : Fin I → ℝ) (svds : Fin I → SVD R R R) (rhs : Ragged I R J) {cur old : ℕ}
    (ho : WL old ∨ b.next ≤ old) (st : Heap × LoopRag n) (f : Frame W WL b st.1) (g1 : st.2.cur = cur) (g2 : st.2.old = old) :
    (stepBT pens ρ svds rhs st).Sat (Frame W WL b) fun s => Frame W WL b s.1 ∧ s.2.cur = old ∧ s.2.old = cur := by
  unfold stepBT
  refine Tr.Sat.bind (writeItemsT_sat f (by rw [g2]; exact ho) _) fun x hx => ?_
  exact Tr.Sat.forIn (fun s p hs => penStepBT_sat pens ρ s p hs) _ _ ⟨hx, g2, g1⟩

theorem loopBT_sat (pens : Fin n → PenB I R J) (ρ : Fin I → ℝ) (svds : Fin I → SVD R R R) (rhs : Ragged I R J)
    (stop : Heap × LoopRag n → Bool) :
    ∀ (k : ℕ) (cur old : ℕ), (0 < k → WL old ∨ b.next ≤ old) → (1 < k → WL cur ∨ b.next ≤ cur) → ∀ st : Heap × LoopRag n, Frame W WL b st.1 →
    st.2.cur = cur → st.2.old = old →
    (innerLoopT (stepBT pens ρ svds rhs) stop k st).Sat (Frame W WL b) fun s => Frame W WL b s.1 ∧ (s.2.cur = cur ∨ s.2.cur = old)
  | 0, cur, old, _, _, st, f, g1, _ => .ret ⟨f, .inl g1⟩
  | k + 1, cur, old, h1, h2, st, f, g1, g2 => by
    rw [innerLoopT]
    refine (stepBT_sat pens ρ svds rhs (h1 (Nat.succ_pos k)) st f g1 g2).bind fun s hs => ?_
    split
    · exact .ret ⟨hs.1, .inr hs.2.1⟩
    · exact (loopBT_sat pens ρ svds rhs stop k old cur (fun hk => h2 (by omega)) (fun _ => h1 (Nat.succ_pos k)) s hs.1 hs.2.1 hs.2.2).mono
        (fun _ hx => hx) fun t ht => ⟨ht.1, ht.2.symm⟩

/-! ### Mode 2 -/

theorem penStepCT_sat (pens : Fin n → PenC K R) (ρ : ℝ) (st : Heap × LoopMat n) (p : Fin n) (f : Frame W WL b st.1) :
    (penStepCT pens ρ st p).Sat (Frame W WL b) fun s => Frame W WL b s.1 := by
  unfold penStepCT
  simp only
  refine Tr.Sat.bind (Q := fun x => Frame W WL b x.1) (.ev (f.new (frame_newArr _ _)) (f.new (frame_newArr _ _))) fun x hx => ?_
  exact .ev (hx.new (frame_newArr _ _)) (hx.new (frame_newArr _ _))

theorem loopCT_sat (pens : Fin n → PenC K R) (ρ : ℝ) (svd : SVD R R R) (rhs : Matrix (Fin K) (Fin R) ℝ) (stop : Heap × LoopMat n → Bool) :
    ∀ (k : ℕ) (st : Heap × LoopMat n), Frame W WL b st.1 →
    (innerLoopT (stepCT pens ρ svd rhs) stop k st).Sat (Frame W WL b) fun s => Frame W WL b s.1
  | 0, _, f => .ret f
  | k + 1, st, f => by
    rw [innerLoopT]
    refine Tr.Sat.bind (Q := fun s => Frame W WL b s.1) ?_ fun s hs => ?_
    · unfold stepCT
      simp only
      refine Tr.Sat.bind (Q := fun x => Frame W WL b x.1) (.ev (f.new (frame_newArr _ _)) (f.new (frame_newArr _ _))) fun x hx => ?_
      exact Tr.Sat.forIn (Q := fun s => Frame W WL b s.1) (fun s p hs => penStepCT_sat pens ρ s p hs) _ (x.1, ⟨x.2, st.2.cur, st.2.aux, st.2.dual⟩) hx
    · split
      · exact .ret hs
      · exact loopCT_sat pens ρ svd rhs stop k s hs

end

/-! ### The outer loop -/

section
variable {I K R nA nB nC : ℕ} {J : Fin I → ℕ}

/-- All recorded heaps, and the result. -/
def Keeps (P : Problem I K R nA nB nC J) (h : Heap) (r : Refs I R nA nB nC) {α : Type} (m : Tr α) (get : α → Heap × Refs I R nA nB nC) : Prop :=
  m.Sat (fun x => Since P h r x r) fun a => Since P h r (get a).1 (get a).2

theorem Since.at_heap {P : Problem I K R nA nB nC J} {h x : Heap} {r r' : Refs I R nA nB nC} (e : Since P h r x r') : Since P h r x r :=
  ⟨e.frame, .inl rfl, fun _ => .inl rfl, .inl rfl, rfl⟩

theorem Since.of_frame {P : Problem I K R nA nB nC J} {h x : Heap} {r : Refs I R nA nB nC}
    (f : Frame (fun a => (a = r.A ∧ P.updA = true ∧ 2 ≤ P.params.nInner) ∨ ((∃ p, a = r.auxA p) ∧ P.updA = true ∧ P.constA = false))
      (fun l => l = r.B ∧ P.updB = true ∧ 2 ≤ P.params.nInner) h x) : Since P h r x r :=
  ⟨f, .inl rfl, fun _ => .inl rfl, .inl rfl, rfl⟩

theorem Keeps.bind {P : Problem I K R nA nB nC J} {h : Heap} {r : Refs I R nA nB nC} {α β : Type} {m : Tr α} {get : α → Heap × Refs I R nA nB nC}
    {f : α → Tr β} {get' : β → Heap × Refs I R nA nB nC} (hm : Keeps P h r m get)
    (hf : ∀ a, m.out = .ok a → Keeps P (get a).1 (get a).2 (f a) get') : Keeps P h r (m.bind f) get' := by
  refine Tr.Sat.bind (Q := fun a => m.out = .ok a ∧ Since P h r (get a).1 (get a).2) ⟨hm.1, fun a ha => ⟨ha, hm.2 a ha⟩⟩ fun a ha => ?_
  exact (hf a ha.1).mono (fun x hx => (ha.2.trans hx).at_heap) fun t ht => ha.2.trans ht

theorem admmUpdateAT_keeps (P : Problem I K R nA nB nC J) (hu : P.updA = true) (st : Heap × Refs I R nA nB nC) :
    Keeps P st.1 st.2 (admmUpdateAT P.params P.pensA P.l2.1 P.constA K J st) id := by
  unfold Keeps admmUpdateAT
  simp only
  refine Tr.Sat.bind (Q := fun ρ => ρ.1.isSome = P.constA) (.lift fun ρ hρ => feasPenalties_isSome hρ) fun ρ hρ => ?_
  set W : ℕ → Prop := fun a => (a = st.2.A ∧ P.updA = true ∧ 2 ≤ P.params.nInner) ∨ ((∃ p, a = st.2.auxA p) ∧ P.updA = true ∧ P.constA = false)
  set WL : ℕ → Prop := fun l => l = st.2.B ∧ P.updB = true ∧ 2 ≤ P.params.nInner
  have h0 : Frame W WL st.1 (st.1.newArr (st.1.mat I R st.2.A)).1 := (Frame.refl W WL st.1).new (frame_newArr _ _)
  refine Tr.Sat.bind (Q := fun x => x = st.1.newArr (st.1.mat I R st.2.A)) (.ev (.of_frame h0) rfl) ?_
  rintro old rfl
  have hW : ρ.1 = none → ∀ p, W (st.2.auxA p) := fun hn p => .inr ⟨⟨p, rfl⟩, hu, by rw [← hρ, hn]; rfl⟩
  refine Tr.Sat.bind (((loopAT_sat P.pensA ρ.1 ρ.2 _ _ _ hW P.params.nInner st.2.A st.1.next (fun _ => .inr le_rfl)
    (fun hk => .inl (.inl ⟨rfl, hu, hk⟩)) _ h0 ⟨rfl, rfl, fun p => .inl rfl⟩)).mono (fun x hx => .of_frame hx) fun s hs => hs) fun s hs => ?_
  refine .ret ⟨hs.1, ?_, fun p => ?_, .inl rfl, rfl⟩
  · rcases hs.2.1 with h1 | h1
    · exact .inl h1
    · exact .inr h1.ge
  · rcases hs.2.2 p with h1 | h1
    · exact .inl h1
    · exact .inr ⟨by rw [← hρ]; exact h1.1, h1.2⟩

theorem admmUpdateBT_keeps (P : Problem I K R nA nB nC J) (hu : P.updB = true) (st : Heap × Refs I R nA nB nC) :
    Keeps P st.1 st.2 (admmUpdateBT P.params P.pensB P.l2.2.1 P.constB K st) id := by
  unfold Keeps admmUpdateBT
  simp only
  refine Tr.Sat.bind (Q := fun _ => True) (.lift fun _ _ => trivial) fun ρ _ => ?_
  set W : ℕ → Prop := fun a => (a = st.2.A ∧ P.updA = true ∧ 2 ≤ P.params.nInner) ∨ ((∃ p, a = st.2.auxA p) ∧ P.updA = true ∧ P.constA = false)
  set WL : ℕ → Prop := fun l => l = st.2.B ∧ P.updB = true ∧ 2 ≤ P.params.nInner
  have h0 : Frame W WL st.1 (st.1.newRagged (st.1.ragged R J st.2.B)).1 := (Frame.refl W WL st.1).new (frame_newRagged _ _)
  refine Tr.Sat.bind (Q := fun x => x = st.1.newRagged (st.1.ragged R J st.2.B)) (.ev (.of_frame h0) rfl) ?_
  rintro old rfl
  refine Tr.Sat.bind ((loopBT_sat P.pensB ρ.2 _ _ _ P.params.nInner st.2.B (st.1.next + I) (fun _ => .inr (Nat.le_add_right _ _))
    (fun hk => .inl ⟨rfl, hu, hk⟩) _ h0 rfl rfl).mono (fun x hx => .of_frame hx) fun s hs => hs) fun s hs => ?_
  refine .ret ⟨hs.1, .inl rfl, fun p => .inl rfl, ?_, rfl⟩
  rcases hs.2 with h1 | h1
  · exact .inl h1
  · exact .inr ((Nat.le_add_right _ _).trans h1.ge)

theorem admmUpdateCT_keeps (P : Problem I K R nA nB nC J) (st : Heap × Refs I R nA nB nC) :
    Keeps P st.1 st.2 (admmUpdateCT P.params P.pensC P.l2.2.2 J st) id := by
  unfold Keeps admmUpdateCT
  simp only
  set W : ℕ → Prop := fun a => (a = st.2.A ∧ P.updA = true ∧ 2 ≤ P.params.nInner) ∨ ((∃ p, a = st.2.auxA p) ∧ P.updA = true ∧ P.constA = false)
  set WL : ℕ → Prop := fun l => l = st.2.B ∧ P.updB = true ∧ 2 ≤ P.params.nInner
  have h0 : Frame W WL st.1 (st.1.newArr (st.1.mat K R st.2.C)).1 := (Frame.refl W WL st.1).new (frame_newArr _ _)
  refine Tr.Sat.bind (Q := fun x => x = st.1.newArr (st.1.mat K R st.2.C)) (.ev (.of_frame h0) rfl) ?_
  rintro old rfl
  refine Tr.Sat.bind ((loopCT_sat P.pensC _ _ _ _ P.params.nInner _ h0).mono (fun x hx => .of_frame hx) fun s hs => hs) fun s hs => ?_
  exact .ret ⟨hs, .inl rfl, fun p => .inl rfl, .inl rfl, rfl⟩

theorem sweepT_keeps (P : Problem I K R nA nB nC J) (st : Heap × Refs I R nA nB nC) : Keeps P st.1 st.2 (sweepT P st) Prod.fst := by
  unfold sweepT
  refine Keeps.bind (get := id) ?_ fun t _ => Keeps.bind (get := id) ?_ fun u _ => ?_
  · unfold sweepBT
    split
    · exact admmUpdateBT_keeps P (by assumption) st
    · exact .ret (Since.refl _ _ _)
  · unfold sweepCT
    split
    · exact admmUpdateCT_keeps P t
    · exact .ret (Since.refl _ _ _)
  · unfold sweepAT
    split
    · refine Keeps.bind (get := id) (admmUpdateAT_keeps P (by assumption) u) fun v _ => .ret (Since.refl _ _ _)
    · exact .ret (Since.refl _ _ _)

theorem body_st {σ ι : Type} {O : Ops σ ι} {a : Args} {s : Acc σ} {t : σ × ι} (hs : O.sweep s.st = .ok t) {x : Acc σ × Bool}
    (h : body O a s = .ok x) : x.1.st = t.1 := by
  unfold body at h
  rw [hs] at h
  obtain ⟨st, inter⟩ := t
  simp only at h
  split at h
  · split at h
    · cases h; rfl
    · rw [checkStop_st _ _ _ _ _ h]
  · cases h; rfl

theorem bodyT_keeps (P : Problem I K R nA nB nC J) (a : Args) (s : Acc (Heap × Refs I R nA nB nC)) :
    Keeps P s.st.1 s.st.2 (bodyT P a s) fun x => x.1.st := by
  unfold bodyT
  refine Keeps.bind (sweepT_keeps P s.st) fun t _ => .lift fun x hx => ?_
  show Since P t.1.1 t.1.2 x.1.st.1 x.1.st.2
  rw [body_st (O := { heapOps P with sweep := fun _ => .ok t }) rfl hx]
  exact Since.refl _ _ _

theorem runT_keeps (P : Problem I K R nA nB nC J) (a : Args) : ∀ (k : ℕ) (s : Acc (Heap × Refs I R nA nB nC)),
    Keeps P s.st.1 s.st.2 (runT P a k s) fun x => x.st
  | 0, s => .ret (Since.refl _ _ _)
  | k + 1, s => by
    rw [runT]
    refine Keeps.bind (bodyT_keeps P a s) fun t _ => ?_
    split
    · exact .ret (Since.refl _ _ _)
    · exact runT_keeps P a k t.1

end

end Verif.Alias
