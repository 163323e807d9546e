import Verif.Alias.Model

/-!
# What the operations on the heap change

Helper lemmas.
-/

namespace Verif.Alias

open Verif.ADMM Verif.Spec Verif.Penalties Verif.Loop Finset

/-- From `h` to `h'`, of the existing objects only arrays in `W` and lists in `WL` have changed. -/
structure Frame (W WL : ℕ → Prop) (h h' : Heap) : Prop where
  next : h.next ≤ h'.next
  arr : ∀ a < h.next, ¬ W a → h'.arr a = h.arr a
  lst : ∀ l < h.next, ¬ WL l → h'.lst l = h.lst l

/-- Nothing. -/
abbrev No : ℕ → Prop := fun _ => False

theorem Frame.refl (W WL : ℕ → Prop) (h : Heap) : Frame W WL h h := ⟨le_refl _, fun _ _ _ => rfl, fun _ _ _ => rfl⟩

theorem Frame.trans {W WL W' WL' : ℕ → Prop} {h h' h'' : Heap} (f : Frame W WL h h') (g : Frame W' WL' h' h'')
    (hW : ∀ a < h.next, W' a → W a) (hL : ∀ a < h.next, WL' a → WL a) : Frame W WL h h'' := by
  refine ⟨f.next.trans g.next, fun a ha hw => ?_, fun a ha hw => ?_⟩
  · rw [g.arr a (lt_of_lt_of_le ha f.next) fun hc => hw (hW a ha hc), f.arr a ha hw]
  · rw [g.lst a (lt_of_lt_of_le ha f.next) fun hc => hw (hL a ha hc), f.lst a ha hw]

theorem Frame.mono {W WL W' WL' : ℕ → Prop} {h h' : Heap} (f : Frame W WL h h')
    (hW : ∀ a < h.next, W a → W' a) (hL : ∀ a < h.next, WL a → WL' a) : Frame W' WL' h h' :=
  ⟨f.next, fun a ha hw => f.arr a ha fun hc => hw (hW a ha hc), fun a ha hw => f.lst a ha fun hc => hw (hL a ha hc)⟩

theorem Frame.mat {W WL : ℕ → Prop} {h h' : Heap} (f : Frame W WL h h') {a : ℕ} (ha : a < h.next) (hw : ¬ W a) (m n : ℕ) :
    h'.mat m n a = h.mat m n a := by
  simp only [Heap.mat, f.arr a ha hw]

/-! ### New arrays -/

theorem entries_apply {m n : ℕ} (M : Matrix (Fin m) (Fin n) ℝ) (i : Fin m) (j : Fin n) : entries M i j = M i j := by
  simp [entries, i.2, j.2]

section
variable {m n : ℕ}

theorem frame_newArr (h : Heap) (M : Matrix (Fin m) (Fin n) ℝ) : Frame No No h (h.newArr M).1 := by
  refine ⟨Nat.le_succ _, fun a ha _ => ?_, fun _ _ _ => rfl⟩
  simp only [Heap.newArr]
  rw [Function.update_of_ne (ne_of_lt ha)]

@[simp] theorem newArr_snd (h : Heap) (M : Matrix (Fin m) (Fin n) ℝ) : (h.newArr M).2 = h.next := rfl

@[simp] theorem newArr_next (h : Heap) (M : Matrix (Fin m) (Fin n) ℝ) : (h.newArr M).1.next = h.next + 1 := rfl

@[simp] theorem newArr_mat (h : Heap) (M : Matrix (Fin m) (Fin n) ℝ) : (h.newArr M).1.mat m n h.next = M := by
  ext i j
  simp [Heap.mat, Heap.newArr, entries_apply]

theorem newArr_lst (h : Heap) (M : Matrix (Fin m) (Fin n) ℝ) : (h.newArr M).1.lst = h.lst := rfl

/-! ### Rows -/

theorem setRow_arr_ne (h : Heap) (a i : ℕ) (v : Fin n → ℝ) {b : ℕ} (hb : b ≠ a) : (h.setRow a i v).arr b = h.arr b := by
  simp only [Heap.setRow]
  rw [Function.update_of_ne hb]

theorem setRow_mat_same (h : Heap) (a : ℕ) (i : Fin m) (v : Fin n → ℝ) : (h.setRow a i v).mat m n a i = v := by
  funext j
  simp [Heap.mat, Heap.setRow]

theorem setRow_mat_ne (h : Heap) (a : ℕ) (i k : Fin m) (v : Fin n → ℝ) (hk : k ≠ i) :
    (h.setRow a i v).mat m n a k = h.mat m n a k := by
  funext j
  have : (k : ℕ) ≠ i := fun hc => hk (Fin.ext hc)
  simp [Heap.mat, Heap.setRow, Function.update_of_ne this]

theorem frame_setRow (h : Heap) (a i : ℕ) (v : Fin n → ℝ) : Frame (· = a) No h (h.setRow a i v) :=
  ⟨le_refl _, fun _ _ hb => setRow_arr_ne h a i v hb, fun _ _ _ => rfl⟩

/-- Assigning the rows in `l` one after the other, each from its old value. -/
theorem rows_fold (u : Fin m → (Fin n → ℝ) → (Fin n → ℝ)) (a : ℕ) : ∀ (l : List (Fin m)), l.Nodup → ∀ h : Heap,
    (∀ i ∈ l, (l.foldl (fun h (i : Fin m) => h.setRow a i (u i (h.mat m n a i))) h).mat m n a i = u i (h.mat m n a i)) ∧
    (∀ i ∉ l, (l.foldl (fun h (i : Fin m) => h.setRow a i (u i (h.mat m n a i))) h).mat m n a i = h.mat m n a i) ∧
    Frame (· = a) No h (l.foldl (fun h (i : Fin m) => h.setRow a i (u i (h.mat m n a i))) h) ∧
    (l.foldl (fun h (i : Fin m) => h.setRow a i (u i (h.mat m n a i))) h).next = h.next ∧
    (∀ b, b ≠ a → (l.foldl (fun h (i : Fin m) => h.setRow a i (u i (h.mat m n a i))) h).arr b = h.arr b) ∧
    (l.foldl (fun h (i : Fin m) => h.setRow a i (u i (h.mat m n a i))) h).lst = h.lst
  | [], _, h => by simp [Frame.refl]
  | k :: l, hl, h => by
    obtain ⟨hk, hl⟩ := List.nodup_cons.mp hl
    obtain ⟨h1, h2, h3, h4, h5, h6⟩ := rows_fold u a l hl (h.setRow a k (u k (h.mat m n a k)))
    simp only [List.foldl_cons]
    refine ⟨fun i hi => ?_, fun i hi => ?_, ?_, ?_, fun b hb => ?_, ?_⟩
    · rcases List.mem_cons.mp hi with rfl | hi
      · rw [h2 i hk, setRow_mat_same]
      · have : i ≠ k := fun hc => hk (hc ▸ hi)
        rw [h1 i hi, setRow_mat_ne _ _ _ _ _ this]
    · have hik : i ≠ k := fun hc => hi (hc ▸ List.mem_cons_self)
      replace hi : i ∉ l := fun hc => hi (List.mem_cons_of_mem _ hc)
      rw [h2 i hi, setRow_mat_ne _ _ _ _ _ hik]
    · exact (frame_setRow h a k _).trans h3 (fun _ _ hc => hc) (fun _ _ hc => hc)
    · rw [h4]; rfl
    · rw [h5 b hb, setRow_arr_ne _ _ _ _ hb]
    · rw [h6]; rfl

theorem mat_of_arr {h h' : Heap} {a : ℕ} (e : h'.arr a = h.arr a) (m n : ℕ) : h'.mat m n a = h.mat m n a := by
  simp only [Heap.mat, e]

theorem writeRows_spec {I R : ℕ} (h : Heap) (a : ℕ) (f : Fin I → Fin R → ℝ) :
    (writeRows h a f).mat I R a = f ∧ Frame (· = a) No h (writeRows h a f) ∧ (writeRows h a f).next = h.next ∧
    (∀ b, b ≠ a → (writeRows h a f).arr b = h.arr b) := by
  obtain ⟨h1, -, h3, h4, h5, -⟩ := rows_fold (n := R) (fun i _ => f i) a (List.finRange I) (List.nodup_finRange I) h
  refine ⟨?_, h3, h4, h5⟩
  funext i
  exact h1 i (List.mem_finRange i)

theorem rowUpdates_spec {I R : ℕ} (u : RowUpdate R) (Y : Matrix (Fin I) (Fin R) ℝ) (ρ : Fin I → ℝ) (a : ℕ) (h : Heap) :
    (rowUpdates u Y ρ a h).mat I R a = (fun i => u (Y i) (ρ i) (h.mat I R a i)) ∧ Frame (· = a) No h (rowUpdates u Y ρ a h) ∧
    (rowUpdates u Y ρ a h).next = h.next ∧ (∀ b, b ≠ a → (rowUpdates u Y ρ a h).arr b = h.arr b) := by
  obtain ⟨h1, -, h3, h4, h5, -⟩ := rows_fold (n := R) (fun i => u (Y i) (ρ i)) a (List.finRange I) (List.nodup_finRange I) h
  refine ⟨?_, h3, h4, h5⟩
  funext i
  exact h1 i (List.mem_finRange i)

end

/-! ### Lists -/

section
variable {I n : ℕ} {J : Fin I → ℕ}

/-- All objects of the list at `l` exist. -/
def Heap.ListOk (h : Heap) (I l : ℕ) : Prop := l < h.next ∧ ∀ i : Fin I, h.lst l i < h.next

/-- All objects of the list at `l` have an address from `b` on. -/
def Heap.ListFresh (h : Heap) (b I l : ℕ) : Prop := b ≤ l ∧ ∀ i : Fin I, b ≤ h.lst l i

theorem newRagged_snd (h : Heap) (X : Ragged I n J) : (h.newRagged X).2 = h.next + I := rfl

theorem newRagged_item (h : Heap) (X : Ragged I n J) (i : ℕ) : (h.newRagged X).1.lst (h.newRagged X).2 i = h.next + i := by
  simp [Heap.newRagged]

theorem frame_newRagged (h : Heap) (X : Ragged I n J) : Frame No No h (h.newRagged X).1 := by
  refine ⟨by simp only [Heap.newRagged]; omega, fun a ha _ => ?_, fun l hl _ => ?_⟩
  · simp only [Heap.newRagged]
    rw [dif_neg (by omega)]
  · simp only [Heap.newRagged]
    rw [Function.update_of_ne (by omega)]

theorem newRagged_ragged (h : Heap) (X : Ragged I n J) : (h.newRagged X).1.ragged n J (h.newRagged X).2 = X := by
  funext i
  ext j k
  simp only [Heap.ragged, Heap.mat, Matrix.of_apply, newRagged_item]
  simp only [Heap.newRagged]
  rw [dif_pos ⟨Nat.le_add_right _ _, by rw [Nat.add_sub_cancel_left]; exact i.2⟩]
  have e : ∀ i' : Fin I, i' = i → entries (X i') j k = X i j k := by
    rintro i' rfl
    exact entries_apply (X i') j k
  exact e _ (Fin.ext (Nat.add_sub_cancel_left _ _))

theorem newRagged_ok (h : Heap) (X : Ragged I n J) : (h.newRagged X).1.ListOk I (h.newRagged X).2 := by
  refine ⟨by simp [Heap.newRagged], fun i => ?_⟩
  rw [newRagged_item]
  have := i.2
  simp only [Heap.newRagged]
  omega

theorem newRagged_fresh (h : Heap) (X : Ragged I n J) : (h.newRagged X).1.ListFresh h.next I (h.newRagged X).2 :=
  ⟨Nat.le_add_right _ _, fun i => by rw [newRagged_item]; exact Nat.le_add_right _ _⟩

theorem Frame.listOk {W WL : ℕ → Prop} {h h' : Heap} (f : Frame W WL h h') {l : ℕ} (hl : h.ListOk I l) (hw : ¬ WL l) : h'.ListOk I l :=
  ⟨lt_of_lt_of_le hl.1 f.next, fun i => by rw [f.lst l hl.1 hw]; exact lt_of_lt_of_le (hl.2 i) f.next⟩

theorem Frame.ragged {W WL : ℕ → Prop} {h h' : Heap} (f : Frame W WL h h') {l : ℕ} (hl : h.ListOk I l) (hw : ¬ WL l)
    (hw' : ∀ i : Fin I, ¬ W (h.lst l i)) (n : ℕ) (J : Fin I → ℕ) : h'.ragged n J l = h.ragged n J l := by
  funext i
  simp only [Heap.ragged, f.lst l hl.1 hw]
  exact f.mat (hl.2 i) (hw' i) _ _

/-- Assigning new arrays to the entries in `s` one after the other. -/
theorem items_fold (X : Ragged I n J) (l : ℕ) : ∀ (s : List (Fin I)), s.Nodup → ∀ h : Heap, l < h.next →
    (∀ i ∈ s, h.next ≤ (s.foldl (fun h (i : Fin I) => (h.newArr (X i)).1.setItem l i (h.newArr (X i)).2) h).lst l i ∧
      (s.foldl (fun h (i : Fin I) => (h.newArr (X i)).1.setItem l i (h.newArr (X i)).2) h).lst l i <
        (s.foldl (fun h (i : Fin I) => (h.newArr (X i)).1.setItem l i (h.newArr (X i)).2) h).next ∧
      (s.foldl (fun h (i : Fin I) => (h.newArr (X i)).1.setItem l i (h.newArr (X i)).2) h).ragged n J l i = X i) ∧
    (∀ i : Fin I, i ∉ s → (s.foldl (fun h (i : Fin I) => (h.newArr (X i)).1.setItem l i (h.newArr (X i)).2) h).lst l i = h.lst l i) ∧
    Frame No (· = l) h (s.foldl (fun h (i : Fin I) => (h.newArr (X i)).1.setItem l i (h.newArr (X i)).2) h)
  | [], _, h, _ => by simp [Frame.refl]
  | k :: s, hs, h, hl => by
    obtain ⟨hk, hs⟩ := List.nodup_cons.mp hs
    set g := (h.newArr (X k)).1.setItem l k (h.newArr (X k)).2 with hg
    have hgn : g.next = h.next + 1 := rfl
    obtain ⟨h1, h2, h3⟩ := items_fold X l s hs g (by omega)
    have hfg : Frame No (· = l) h g := by
      refine ⟨by omega, fun a ha _ => (frame_newArr h (X k)).arr a ha id, fun m hm hne => ?_⟩
      simp only [hg, Heap.setItem]
      rw [Function.update_of_ne hne]
      rfl
    simp only [List.foldl_cons]
    rw [← hg]
    refine ⟨fun i hi => ?_, fun i hi => ?_, hfg.trans h3 (fun _ _ hc => hc) (fun _ _ hc => hc)⟩
    · rcases List.mem_cons.mp hi with rfl | hi
      · have hgi : g.lst l i = h.next := by simp [hg, Heap.setItem]
        have e := h2 i hk
        rw [hgi] at e
        have hlt : h.next < g.next := by omega
        refine ⟨le_of_eq e.symm, by rw [e]; exact lt_of_lt_of_le hlt h3.next, ?_⟩
        simp only [Heap.ragged, e]
        rw [h3.mat hlt id]
        exact newArr_mat h (X i)
      · obtain ⟨q1, q2, q3⟩ := h1 i hi
        exact ⟨by omega, q2, q3⟩
    · have hik : i ≠ k := fun hc => hi (hc ▸ List.mem_cons_self)
      have his : i ∉ s := fun hc => hi (List.mem_cons_of_mem _ hc)
      rw [h2 i his]
      have : (i : ℕ) ≠ k := fun hc => hik (Fin.ext hc)
      simp [hg, Heap.setItem, Function.update_of_ne this, newArr_lst]

theorem writeItems_spec (h : Heap) (l : ℕ) (X : Ragged I n J) (hl : l < h.next) :
    (writeItems h l X).ragged n J l = X ∧ Frame No (· = l) h (writeItems h l X) ∧ (writeItems h l X).ListOk I l ∧
    ∀ i : Fin I, h.next ≤ (writeItems h l X).lst l i := by
  obtain ⟨h1, -, h3⟩ := items_fold X l (List.finRange I) (List.nodup_finRange I) h hl
  exact ⟨funext fun i => (h1 i (List.mem_finRange i)).2.2, h3, ⟨lt_of_lt_of_le hl h3.next, fun i => (h1 i (List.mem_finRange i)).2.1⟩,
    fun i => (h1 i (List.mem_finRange i)).1⟩

/-! ### Auxiliary variables of mode 1 -/

/-- The list of an auxiliary variable. -/
def AuxRef.list : AuxRef → ℕ
  | .mats l => l
  | .p2 b _ => b

/-- The arrays of an auxiliary variable. -/
def Heap.auxArr (h : Heap) (I : ℕ) : AuxRef → ℕ → Prop
  | .mats l, a => ∃ i : Fin I, a = h.lst l i
  | .p2 b c, a => (∃ i : Fin I, a = h.lst b i) ∨ a = c

/-- All objects of the auxiliary variable exist. -/
def Heap.AuxOk (h : Heap) (I : ℕ) (x : AuxRef) : Prop := x.list < h.next ∧ ∀ a, h.auxArr I x a → a < h.next

/-- All objects of the auxiliary variable have an address from `b` on. -/
def Heap.AuxFresh (h : Heap) (b I : ℕ) (x : AuxRef) : Prop := b ≤ x.list ∧ ∀ a, h.auxArr I x a → b ≤ a

theorem auxArr_congr {h h' : Heap} {x : AuxRef} (e : h'.lst x.list = h.lst x.list) (I a : ℕ) : h'.auxArr I x a ↔ h.auxArr I x a := by
  cases x <;> simp only [AuxRef.list] at e <;> simp only [Heap.auxArr, e]

theorem Frame.auxOk {W WL : ℕ → Prop} {h h' : Heap} (f : Frame W WL h h') {x : AuxRef} (hx : h.AuxOk I x) (hw : ¬ WL x.list) :
    h'.AuxOk I x :=
  ⟨lt_of_lt_of_le hx.1 f.next, fun a ha => lt_of_lt_of_le (hx.2 a ((auxArr_congr (f.lst _ hx.1 hw) I a).1 ha)) f.next⟩

theorem Frame.auxB {W WL : ℕ → Prop} {h h' : Heap} (f : Frame W WL h h') {x : AuxRef} (hx : h.AuxOk I x) (hw : ¬ WL x.list)
    (hw' : ∀ a, h.auxArr I x a → ¬ W a) (n : ℕ) (J : Fin I → ℕ) : h'.auxB n J x = h.auxB n J x := by
  cases x with
  | mats l =>
    simp only [Heap.auxB]
    rw [f.ragged (l := l) ⟨hx.1, fun i => hx.2 _ ⟨i, rfl⟩⟩ hw (fun i => hw' _ ⟨i, rfl⟩)]
  | p2 b c =>
    simp only [Heap.auxB]
    rw [f.ragged (l := b) ⟨hx.1, fun i => hx.2 _ (.inl ⟨i, rfl⟩)⟩ hw (fun i => hw' _ (.inl ⟨i, rfl⟩)),
      f.mat (hx.2 c (.inr rfl)) (hw' c (.inr rfl))]

theorem newAuxB_spec (h : Heap) (x : AuxB I n J) :
    Frame No No h (h.newAuxB x).1 ∧ (h.newAuxB x).1.auxB n J (h.newAuxB x).2 = x ∧ (h.newAuxB x).1.AuxOk I (h.newAuxB x).2 ∧
    (h.newAuxB x).1.AuxFresh h.next I (h.newAuxB x).2 := by
  cases x with
  | mats X =>
    refine ⟨frame_newRagged h X, ?_, ?_, ?_⟩
    · simp only [Heap.newAuxB, Heap.auxB, newRagged_ragged]
    · refine ⟨(newRagged_ok h X).1, ?_⟩
      rintro a ⟨i, rfl⟩
      exact (newRagged_ok h X).2 i
    · refine ⟨(newRagged_fresh h X).1, ?_⟩
      rintro a ⟨i, rfl⟩
      exact (newRagged_fresh h X).2 i
  | p2 x =>
    have f1 := frame_newRagged (J := J) h x.bases
    have f2 := frame_newArr (h.newRagged (J := J) x.bases).1 x.coord
    have hb := newRagged_ok (J := J) h x.bases
    refine ⟨f1.trans f2 (fun _ _ hc => hc) (fun _ _ hc => hc), ?_, ?_, ?_⟩
    · simp only [Heap.newAuxB, Heap.auxB]
      rw [f2.ragged hb id (fun _ => id), newRagged_ragged, newArr_snd, newArr_mat]
    · refine ⟨(f2.listOk hb id).1, ?_⟩
      rintro a (⟨i, rfl⟩ | rfl)
      · exact (f2.listOk hb id).2 i
      · exact Nat.lt_succ_self _
    · refine ⟨(newRagged_fresh (J := J) h x.bases).1, ?_⟩
      rintro a (⟨i, rfl⟩ | rfl)
      · exact (newRagged_fresh (J := J) h x.bases).2 i
      · exact f1.next

end

/-! ### Loops -/

/-- Two inner loops run in step. -/
theorem innerLoop_sim {σ τ : Type} {step : σ → σ} {stop : σ → σ → Bool} {step' : τ → τ} {stop' : τ → τ → Bool} (abs : σ → τ)
    (inv : σ → Prop) (hstep : ∀ s, inv s → inv (step s) ∧ abs (step s) = step' (abs s))
    (hstop : ∀ s, inv s → stop s (step s) = stop' (abs s) (step' (abs s))) :
    ∀ (n : ℕ) (s : σ), inv s → inv (innerLoop step stop n s) ∧ abs (innerLoop step stop n s) = innerLoop step' stop' n (abs s)
  | 0, s, hs => ⟨hs, rfl⟩
  | n + 1, s, hs => by
    obtain ⟨h1, h2⟩ := hstep s hs
    have h3 := hstop s hs
    simp only [innerLoop]
    by_cases hc : stop s (step s)
    · rw [if_pos hc, if_pos (by rw [← h3]; exact hc)]
      exact ⟨h1, h2⟩
    · rw [if_neg hc, if_neg (by rw [← h3]; exact hc), ← h2]
      exact innerLoop_sim abs inv hstep hstop n _ h1

end Verif.Alias
