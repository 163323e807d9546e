import Verif.Alias.Frame

/-!
# The inner loops on the heap compute what the pure inner loops compute

Helper lemmas.
-/

namespace Verif.Alias

open Verif.ADMM Verif.Spec Verif.Penalties Verif.Loop Finset

section
variable {I K R n : ℕ} {J : Fin I → ℕ}

/-! ### Mode 0 -/

/-- The objects of the inner loop for `A` exist; those that are written to (buffers and auxiliary variables) differ from each other and from the
dual variables. -/
structure SepMat (h : Heap) (t : LoopMat n) : Prop where
  cur : t.cur < h.next
  old : t.old < h.next
  aux : ∀ p, t.aux p < h.next
  dual : ∀ p, t.dual p < h.next
  cur_old : t.cur ≠ t.old
  aux_cur : ∀ p, t.aux p ≠ t.cur
  aux_old : ∀ p, t.aux p ≠ t.old
  aux_inj : ∀ p q, t.aux p = t.aux q → p = q
  dual_cur : ∀ p, t.dual p ≠ t.cur
  dual_old : ∀ p, t.dual p ≠ t.old
  dual_aux : ∀ p q, t.dual p ≠ t.aux q

/-- The values. -/
def absMat (m R : ℕ) (st : Heap × LoopMat n) : MatState m R n :=
  ⟨st.1.mat m R st.2.cur, fun p => st.1.mat m R (st.2.aux p), fun p => st.1.mat m R (st.2.dual p)⟩

theorem auxStepA_spec (pen : PenA I R) (ρmax : Option ℝ) (ρ : Fin I → ℝ) (Y : Matrix (Fin I) (Fin R) ℝ) (h : Heap) (a : ℕ)
    (ha : a < h.next) :
    (auxStepA pen ρmax ρ Y h a).1.mat I R (auxStepA pen ρmax ρ Y h a).2 = auxA pen ρmax ρ Y (h.mat I R a) ∧
    Frame (fun b => b = a ∧ ρmax = none) No h (auxStepA pen ρmax ρ Y h a).1 ∧
    (auxStepA pen ρmax ρ Y h a).2 < (auxStepA pen ρmax ρ Y h a).1.next ∧
    ((auxStepA pen ρmax ρ Y h a).2 = a ∨ (ρmax ≠ none ∧ h.next ≤ (auxStepA pen ρmax ρ Y h a).2)) := by
  unfold auxStepA auxA
  cases ρmax with
  | some m =>
    exact ⟨newArr_mat _ _, (frame_newArr h _).mono (fun _ _ hc => hc.elim) (fun _ _ hc => hc), Nat.lt_succ_self _,
      .inr ⟨by simp, le_refl _⟩⟩
  | none =>
    cases hr : pen.row with
    | some u =>
      obtain ⟨h1, h2, h3, -⟩ := rowUpdates_spec u Y ρ a h
      exact ⟨h1, h2.mono (fun _ _ hc => ⟨hc, rfl⟩) (fun _ _ hc => hc), by rw [h3]; exact ha, .inl rfl⟩
    | none => exact ⟨rfl, Frame.refl _ _ _, ha, .inl rfl⟩

/-- What the updates of the auxiliary and dual variables in `l` do. -/
structure PenSpecA (pens : Fin n → PenA I R) (ρmax : Option ℝ) (ρ : Fin I → ℝ) (l : List (Fin n)) (h : Heap) (t : LoopMat n)
    (h' : Heap) (t' : LoopMat n) : Prop where
  cur : t'.cur = t.cur
  old : t'.old = t.old
  sep : SepMat h' t'
  frame : Frame (fun a => (∃ p, a = t.aux p) ∧ ρmax = none) No h h'
  aux_in : ∀ p ∈ l, h'.mat I R (t'.aux p) = auxA (pens p) ρmax ρ (h.mat I R t.cur + h.mat I R (t.dual p)) (h.mat I R (t.aux p))
  dual_in : ∀ p ∈ l, h'.mat I R (t'.dual p) = h.mat I R t.cur -
    (auxA (pens p) ρmax ρ (h.mat I R t.cur + h.mat I R (t.dual p)) (h.mat I R (t.aux p)) - h.mat I R (t.dual p))
  aux_out : ∀ p ∉ l, t'.aux p = t.aux p ∧ h'.mat I R (t'.aux p) = h.mat I R (t.aux p)
  dual_out : ∀ p ∉ l, t'.dual p = t.dual p ∧ h'.mat I R (t'.dual p) = h.mat I R (t.dual p)
  aux_adr : ∀ p, t'.aux p = t.aux p ∨ (ρmax ≠ none ∧ h.next ≤ t'.aux p)
  dual_adr : ∀ p, t'.dual p = t.dual p ∨ h.next ≤ t'.dual p

theorem PenSpecA.nil (pens : Fin n → PenA I R) (ρmax : Option ℝ) (ρ : Fin I → ℝ) {h : Heap} {t : LoopMat n} (hs : SepMat h t) :
    PenSpecA pens ρmax ρ [] h t h t :=
  ⟨rfl, rfl, hs, Frame.refl _ _ _, by simp, by simp, fun _ _ => ⟨rfl, rfl⟩, fun _ _ => ⟨rfl, rfl⟩, fun _ => .inl rfl, fun _ => .inl rfl⟩

theorem PenSpecA.one (pens : Fin n → PenA I R) (ρmax : Option ℝ) (ρ : Fin I → ℝ) {h : Heap} {t : LoopMat n} (hs : SepMat h t)
    (p : Fin n) : PenSpecA pens ρmax ρ [p] h t (penStepA pens ρmax ρ (h, t) p).1 (penStepA pens ρmax ρ (h, t) p).2 := by
  obtain ⟨h1, h2, h3, h4⟩ := auxStepA_spec (pens p) ρmax ρ (h.mat I R t.cur + h.mat I R (t.dual p)) h (t.aux p) (hs.aux p)
  unfold penStepA
  simp only
  generalize hg : auxStepA (pens p) ρmax ρ (h.mat I R t.cur + h.mat I R (t.dual p)) h (t.aux p) = g at h1 h2 h3 h4 ⊢
  obtain ⟨g, b⟩ := g
  simp only at h1 h2 h3 h4 ⊢
  have hcur : g.mat I R t.cur = h.mat I R t.cur := h2.mat hs.cur (fun hc => hs.aux_cur p hc.1.symm) _ _
  have hdual : ∀ q, g.mat I R (t.dual q) = h.mat I R (t.dual q) := fun q => h2.mat (hs.dual q) (fun hc => hs.dual_aux q p hc.1) _ _
  have haux : ∀ q, q ≠ p → g.mat I R (t.aux q) = h.mat I R (t.aux q) := fun q hq =>
    h2.mat (hs.aux q) (fun hc => hq (hs.aux_inj q p hc.1)) _ _
  set M := g.mat I R t.cur - (g.mat I R b - g.mat I R (t.dual p)) with hM
  have f := frame_newArr g M
  have hnext : h.next ≤ g.next := h2.next
  have hf2 : Frame (fun a => (∃ p, a = t.aux p) ∧ ρmax = none) No h (g.newArr M).1 :=
    (h2.mono (fun _ _ hc => ⟨⟨p, hc.1⟩, hc.2⟩) (fun _ _ hc => hc)).trans f (fun _ _ hc => hc.elim) (fun _ _ hc => hc)
  have hbne : ∀ x, x < h.next → x ≠ t.aux p → b ≠ x := by
    intro x hx hne
    rcases h4 with rfl | ⟨-, h4⟩
    · exact hne.symm
    · omega
  refine ⟨rfl, rfl, ?_, hf2, ?_, ?_, ?_, ?_, ?_, ?_⟩
  · have q1 := hs.cur; have q2 := hs.old; have q3 := hs.aux; have q4 := hs.dual
    refine ⟨?_, ?_, fun q => ?_, fun q => ?_, hs.cur_old, fun q => ?_, fun q => ?_, fun q q' => ?_, fun q => ?_, fun q => ?_, fun q q' => ?_⟩ <;>
      simp only [newArr_next, newArr_snd]
    · omega
    · omega
    · by_cases hq : q = p
      · subst hq; rw [Function.update_self]; omega
      · rw [Function.update_of_ne hq]; have := q3 q; omega
    · by_cases hq : q = p
      · subst hq; rw [Function.update_self]; omega
      · rw [Function.update_of_ne hq]; have := q4 q; omega
    · by_cases hq : q = p
      · subst hq; rw [Function.update_self]; exact hbne _ q1 (hs.aux_cur q).symm
      · rw [Function.update_of_ne hq]; exact hs.aux_cur q
    · by_cases hq : q = p
      · subst hq; rw [Function.update_self]; exact hbne _ q2 (hs.aux_old q).symm
      · rw [Function.update_of_ne hq]; exact hs.aux_old q
    · by_cases hq : q = p
      · by_cases hq' : q' = p
        · intro _; rw [hq, hq']
        · subst hq; rw [Function.update_self, Function.update_of_ne hq']
          exact fun hc => absurd hc (hbne _ (q3 q') fun hc => hq' (hs.aux_inj _ _ hc))
      · by_cases hq' : q' = p
        · subst hq'; rw [Function.update_self, Function.update_of_ne hq]
          exact fun hc => absurd hc.symm (hbne _ (q3 q) fun hc => hq (hs.aux_inj _ _ hc))
        · rw [Function.update_of_ne hq, Function.update_of_ne hq']; exact hs.aux_inj q q'
    · by_cases hq : q = p
      · subst hq; rw [Function.update_self]; omega
      · rw [Function.update_of_ne hq]; exact hs.dual_cur q
    · by_cases hq : q = p
      · subst hq; rw [Function.update_self]; omega
      · rw [Function.update_of_ne hq]; exact hs.dual_old q
    · by_cases hq : q = p
      · subst hq; rw [Function.update_self]
        by_cases hq' : q' = q
        · subst hq'; rw [Function.update_self]; omega
        · rw [Function.update_of_ne hq']; have := q3 q'; omega
      · rw [Function.update_of_ne hq]
        by_cases hq' : q' = p
        · subst hq'; rw [Function.update_self]; exact (hbne _ (q4 q) (hs.dual_aux q q')).symm
        · rw [Function.update_of_ne hq']; exact hs.dual_aux q q'
  · intro q hq
    obtain rfl := List.mem_singleton.mp hq
    simp only [Function.update_self]
    rw [f.mat h3 id, h1]
  · intro q hq
    obtain rfl := List.mem_singleton.mp hq
    simp only [Function.update_self, newArr_snd]
    rw [newArr_mat, hM, hcur, hdual, h1]
  · intro q hq
    have hq : q ≠ p := fun hc => hq (List.mem_singleton.mpr hc)
    simp only [Function.update_of_ne hq]
    rw [f.mat (lt_of_lt_of_le (hs.aux q) hnext) id, haux q hq]
    exact ⟨trivial, rfl⟩
  · intro q hq
    have hq : q ≠ p := fun hc => hq (List.mem_singleton.mpr hc)
    simp only [Function.update_of_ne hq]
    rw [f.mat (lt_of_lt_of_le (hs.dual q) hnext) id, hdual q]
    exact ⟨trivial, rfl⟩
  · intro q
    by_cases hq : q = p
    · subst hq; simp only [Function.update_self]; exact h4
    · simp only [Function.update_of_ne hq]; exact .inl trivial
  · intro q
    by_cases hq : q = p
    · subst hq; simp only [Function.update_self, newArr_snd]; exact .inr hnext
    · simp only [Function.update_of_ne hq]; exact .inl trivial

theorem PenSpecA.cur_mat {pens : Fin n → PenA I R} {ρmax : Option ℝ} {ρ : Fin I → ℝ} {l : List (Fin n)} {h : Heap} {t : LoopMat n}
    {h' : Heap} {t' : LoopMat n} (e : PenSpecA pens ρmax ρ l h t h' t') (hs : SepMat h t) : h'.mat I R t.cur = h.mat I R t.cur :=
  e.frame.mat hs.cur (fun hc => by obtain ⟨⟨p, hp⟩, -⟩ := hc; exact hs.aux_cur p hp.symm) _ _

theorem PenSpecA.old_mat {pens : Fin n → PenA I R} {ρmax : Option ℝ} {ρ : Fin I → ℝ} {l : List (Fin n)} {h : Heap} {t : LoopMat n}
    {h' : Heap} {t' : LoopMat n} (e : PenSpecA pens ρmax ρ l h t h' t') (hs : SepMat h t) : h'.mat I R t.old = h.mat I R t.old :=
  e.frame.mat hs.old (fun hc => by obtain ⟨⟨p, hp⟩, -⟩ := hc; exact hs.aux_old p hp.symm) _ _

theorem PenSpecA.comp {pens : Fin n → PenA I R} {ρmax : Option ℝ} {ρ : Fin I → ℝ} {l : List (Fin n)} {p : Fin n} (hp : p ∉ l)
    {h h' h'' : Heap} {t t' t'' : LoopMat n} (hs : SepMat h t) (e : PenSpecA pens ρmax ρ [p] h t h' t')
    (e' : PenSpecA pens ρmax ρ l h' t' h'' t'') : PenSpecA pens ρmax ρ (p :: l) h t h'' t'' := by
  have hn := e.frame.next
  have hc : h'.mat I R t'.cur = h.mat I R t.cur := by rw [e.cur, e.cur_mat hs]
  refine ⟨e'.cur.trans e.cur, e'.old.trans e.old, e'.sep, ?_, ?_, ?_, ?_, ?_, ?_, ?_⟩
  · refine e.frame.trans e'.frame ?_ (fun _ _ hc => hc)
    rintro a ha ⟨⟨q, hq⟩, h0⟩
    refine ⟨⟨q, ?_⟩, h0⟩
    rcases e.aux_adr q with h1 | ⟨-, h1⟩
    · rw [hq, h1]
    · omega
  · intro q hq
    rcases List.mem_cons.mp hq with rfl | hq
    · obtain ⟨h1, h2⟩ := e'.aux_out q hp
      rw [h2, e.aux_in q (List.mem_singleton.mpr rfl)]
    · have hqp : q ∉ [p] := fun hc => hp (List.mem_singleton.mp hc ▸ hq)
      rw [e'.aux_in q hq, hc, (e.dual_out q hqp).2, (e.aux_out q hqp).2]
  · intro q hq
    rcases List.mem_cons.mp hq with rfl | hq
    · obtain ⟨h1, h2⟩ := e'.dual_out q hp
      rw [h2, e.dual_in q (List.mem_singleton.mpr rfl)]
    · have hqp : q ∉ [p] := fun hc => hp (List.mem_singleton.mp hc ▸ hq)
      rw [e'.dual_in q hq, hc, (e.dual_out q hqp).2, (e.aux_out q hqp).2]
  · intro q hq
    have h1 : q ∉ [p] := fun hc => hq (List.mem_singleton.mp hc ▸ List.mem_cons_self)
    have h2 : q ∉ l := fun hc => hq (List.mem_cons_of_mem _ hc)
    exact ⟨(e'.aux_out q h2).1.trans (e.aux_out q h1).1, (e'.aux_out q h2).2.trans (e.aux_out q h1).2⟩
  · intro q hq
    have h1 : q ∉ [p] := fun hc => hq (List.mem_singleton.mp hc ▸ List.mem_cons_self)
    have h2 : q ∉ l := fun hc => hq (List.mem_cons_of_mem _ hc)
    exact ⟨(e'.dual_out q h2).1.trans (e.dual_out q h1).1, (e'.dual_out q h2).2.trans (e.dual_out q h1).2⟩
  · intro q
    rcases e'.aux_adr q with h1 | h1
    · rcases e.aux_adr q with h2 | h2
      · exact .inl (h1.trans h2)
      · exact .inr (h1 ▸ h2)
    · exact .inr ⟨h1.1, hn.trans h1.2⟩
  · intro q
    rcases e'.dual_adr q with h1 | h1
    · rcases e.dual_adr q with h2 | h2
      · exact .inl (h1.trans h2)
      · exact .inr (h1 ▸ h2)
    · exact .inr (hn.trans h1)

theorem penStepA_fold (pens : Fin n → PenA I R) (ρmax : Option ℝ) (ρ : Fin I → ℝ) : ∀ (l : List (Fin n)), l.Nodup →
    ∀ (h : Heap) (t : LoopMat n), SepMat h t →
    PenSpecA pens ρmax ρ l h t (l.foldl (penStepA pens ρmax ρ) (h, t)).1 (l.foldl (penStepA pens ρmax ρ) (h, t)).2
  | [], _, h, t, hs => PenSpecA.nil pens ρmax ρ hs
  | p :: l, hl, h, t, hs => by
    obtain ⟨hp, hl⟩ := List.nodup_cons.mp hl
    have e := PenSpecA.one pens ρmax ρ hs p
    exact e.comp hp hs (penStepA_fold pens ρmax ρ l hl _ _ e.sep)

/-- What an inner iteration for `A` does. `base`: the heap at the start of the update, in which `a₀` is `A` and `aux₀` the auxiliary variables. -/
structure EndA (base : Heap) (ρmax : Option ℝ) (aux₀ dual₀ : Fin n → ℕ) (a₀ : ℕ) (wr : Prop) (st : Heap × LoopMat n) : Prop where
  sep : SepMat st.1 st.2
  frame : Frame (fun a => (a = a₀ ∧ wr) ∨ ((∃ p, a = aux₀ p) ∧ ρmax = none)) No base st.1
  cur : st.2.cur = a₀ ∨ base.next ≤ st.2.cur
  aux : ∀ p, st.2.aux p = aux₀ p ∨ (ρmax ≠ none ∧ base.next ≤ st.2.aux p)
  dual : ∀ p, st.2.dual p = dual₀ p ∨ base.next ≤ st.2.dual p

/-- The next iteration writes to `a₀` only if `wr`. -/
structure InvA (base : Heap) (ρmax : Option ℝ) (aux₀ dual₀ : Fin n → ℕ) (a₀ : ℕ) (wr : Prop) (st : Heap × LoopMat n) : Prop
    extends EndA base ρmax aux₀ dual₀ a₀ wr st where
  old : (st.2.old = a₀ ∧ wr) ∨ base.next ≤ st.2.old

theorem stepAH_spec (pens : Fin n → PenA I R) (ρmax : Option ℝ) (ρ : Fin I → ℝ) (svds : Fin I → SVD R R R) (rhs : Fin I → Fin R → ℝ)
    (st : Heap × LoopMat n) (hs : SepMat st.1 st.2) :
    ∃ h₁ t₁, h₁ = writeRows st.1 st.2.old (stepA pens ρmax ρ svds rhs (absMat I R st)).x ∧ t₁ = ⟨st.2.old, st.2.cur, st.2.aux, st.2.dual⟩ ∧
      SepMat h₁ t₁ ∧
      PenSpecA pens ρmax ρ (List.finRange n) h₁ t₁ (stepAH pens ρmax ρ svds rhs st).1 (stepAH pens ρmax ρ svds rhs st).2 := by
  obtain ⟨h, t⟩ := st
  refine ⟨_, _, rfl, rfl, ?_, ?_⟩
  · obtain ⟨-, -, h3, -⟩ := writeRows_spec h t.old (stepA pens ρmax ρ svds rhs (absMat I R (h, t))).x
    refine ⟨?_, ?_, ?_, ?_, hs.cur_old.symm, hs.aux_old, hs.aux_cur, hs.aux_inj, hs.dual_old, hs.dual_cur, hs.dual_aux⟩ <;> rw [h3]
    · exact hs.old
    · exact hs.cur
    · exact hs.aux
    · exact hs.dual
  · refine penStepA_fold pens ρmax ρ _ (List.nodup_finRange n) _ _ ?_
    obtain ⟨-, -, h3, -⟩ := writeRows_spec h t.old (stepA pens ρmax ρ svds rhs (absMat I R (h, t))).x
    refine ⟨?_, ?_, ?_, ?_, hs.cur_old.symm, hs.aux_old, hs.aux_cur, hs.aux_inj, hs.dual_old, hs.dual_cur, hs.dual_aux⟩ <;> rw [h3]
    · exact hs.old
    · exact hs.cur
    · exact hs.aux
    · exact hs.dual

theorem stepAH_abs (pens : Fin n → PenA I R) (ρmax : Option ℝ) (ρ : Fin I → ℝ) (svds : Fin I → SVD R R R) (rhs : Fin I → Fin R → ℝ)
    (st : Heap × LoopMat n) (hs : SepMat st.1 st.2) :
    absMat I R (stepAH pens ρmax ρ svds rhs st) = stepA pens ρmax ρ svds rhs (absMat I R st) ∧
    (stepAH pens ρmax ρ svds rhs st).1.mat I R (stepAH pens ρmax ρ svds rhs st).2.old = st.1.mat I R st.2.cur := by
  obtain ⟨h₁, t₁, e₁, e₂, hs₁, e⟩ := stepAH_spec pens ρmax ρ svds rhs st hs
  obtain ⟨h, t⟩ := st
  simp only at e₁ e₂ hs e ⊢
  obtain ⟨w1, w2, w3, w4⟩ := writeRows_spec h t.old (stepA pens ρmax ρ svds rhs (absMat I R (h, t))).x
  rw [← e₁] at w1 w2 w3 w4
  have hold : h₁.mat I R t.old = (stepA pens ρmax ρ svds rhs (absMat I R (h, t))).x := w1
  have hdual : ∀ p, h₁.mat I R (t.dual p) = h.mat I R (t.dual p) := fun p => mat_of_arr (w4 _ (hs.dual_old p)) _ _
  have haux : ∀ p, h₁.mat I R (t.aux p) = h.mat I R (t.aux p) := fun p => mat_of_arr (w4 _ (hs.aux_old p)) _ _
  have hcur : h₁.mat I R t.cur = h.mat I R t.cur := mat_of_arr (w4 _ hs.cur_old) _ _
  subst e₂
  constructor
  · have hx : (stepAH pens ρmax ρ svds rhs (h, t)).1.mat I R (stepAH pens ρmax ρ svds rhs (h, t)).2.cur =
        (stepA pens ρmax ρ svds rhs (absMat I R (h, t))).x := by
      rw [e.cur, e.cur_mat hs₁]
      exact hold
    have ha : ∀ p, (stepAH pens ρmax ρ svds rhs (h, t)).1.mat I R ((stepAH pens ρmax ρ svds rhs (h, t)).2.aux p) =
        (stepA pens ρmax ρ svds rhs (absMat I R (h, t))).aux p := by
      intro p
      rw [e.aux_in p (List.mem_finRange p)]
      simp only [hold, hdual, haux]
      rfl
    have hd : ∀ p, (stepAH pens ρmax ρ svds rhs (h, t)).1.mat I R ((stepAH pens ρmax ρ svds rhs (h, t)).2.dual p) =
        (stepA pens ρmax ρ svds rhs (absMat I R (h, t))).dual p := by
      intro p
      rw [e.dual_in p (List.mem_finRange p)]
      simp only [hold, hdual, haux]
      rfl
    unfold absMat
    rw [hx, funext ha, funext hd]
    rfl
  · rw [e.old, e.old_mat hs₁]
    exact hcur

theorem stepAH_end (pens : Fin n → PenA I R) (ρmax : Option ℝ) (ρ : Fin I → ℝ) (svds : Fin I → SVD R R R) (rhs : Fin I → Fin R → ℝ)
    {base : Heap} {aux₀ dual₀ : Fin n → ℕ} {a₀ : ℕ} {wr : Prop} (st : Heap × LoopMat n) (hi : InvA base ρmax aux₀ dual₀ a₀ wr st) :
    EndA base ρmax aux₀ dual₀ a₀ wr (stepAH pens ρmax ρ svds rhs st) ∧ (stepAH pens ρmax ρ svds rhs st).2.old = st.2.cur := by
  obtain ⟨h₁, t₁, e₁, e₂, hs₁, e⟩ := stepAH_spec pens ρmax ρ svds rhs st hi.sep
  obtain ⟨h, t⟩ := st
  simp only at e₁ e₂ e ⊢
  obtain ⟨-, w2, w3, -⟩ := writeRows_spec h t.old (stepA pens ρmax ρ svds rhs (absMat I R (h, t))).x
  rw [← e₁] at w2 w3
  subst e₂
  have hb : base.next ≤ h₁.next := by rw [w3]; exact hi.frame.next
  refine ⟨⟨e.sep, ?_, ?_, fun p => ?_, fun p => ?_⟩, e.old⟩
  · refine (hi.frame.trans w2 ?_ (fun _ _ hc => hc)).trans e.frame ?_ (fun _ _ hc => hc)
    · rintro a ha rfl
      rcases hi.old with h1 | h1
      · exact .inl h1
      · simp only at h1; omega
    · rintro a ha ⟨⟨p, hp⟩, h0⟩
      refine .inr ⟨⟨p, ?_⟩, h0⟩
      rcases hi.aux p with h1 | ⟨-, h1⟩
      · exact hp.trans h1
      · simp only at h1 hp; omega
  · rw [e.cur]
    exact hi.old.imp (fun h => h.1) id
  · rcases e.aux_adr p with h1 | h1
    · rw [h1]; exact hi.aux p
    · exact .inr ⟨h1.1, hb.trans h1.2⟩
  · rcases e.dual_adr p with h1 | h1
    · rw [h1]; exact hi.dual p
    · exact .inr (hb.trans h1)

theorem stepAH_inv (pens : Fin n → PenA I R) (ρmax : Option ℝ) (ρ : Fin I → ℝ) (svds : Fin I → SVD R R R) (rhs : Fin I → Fin R → ℝ)
    {base : Heap} {aux₀ dual₀ : Fin n → ℕ} {a₀ : ℕ} {wr : Prop} (st : Heap × LoopMat n) (hi : InvA base ρmax aux₀ dual₀ a₀ wr st)
    (hw : wr) : InvA base ρmax aux₀ dual₀ a₀ wr (stepAH pens ρmax ρ svds rhs st) := by
  obtain ⟨h1, h2⟩ := stepAH_end pens ρmax ρ svds rhs st hi
  refine ⟨h1, ?_⟩
  rw [h2]
  exact hi.cur.imp (fun h => ⟨h, hw⟩) id

/-- A loop of at most one iteration. -/
theorem innerLoop_le_one {σ : Type} (step : σ → σ) (stop : σ → σ → Bool) {k : ℕ} (hk : k ≤ 1) (s : σ) :
    innerLoop step stop k s = s ∨ innerLoop step stop k s = step s := by
  match k, hk with
  | 0, _ => exact .inl rfl
  | 1, _ =>
    right
    simp only [innerLoop]
    split <;> rfl

/-- The inner loop for `A` on the heap. Of the existing objects, it changes the array `A` (if there is more than one iteration) and the auxiliary
variables (if the feasibility penalty is not constant). -/
theorem loopA_spec (pens : Fin n → PenA I R) (ρmax : Option ℝ) (ρ : Fin I → ℝ) (svds : Fin I → SVD R R R) (rhs : Fin I → Fin R → ℝ)
    (tol : Option ℝ) (k : ℕ) (base : Heap) (aux₀ dual₀ : Fin n → ℕ) (a₀ : ℕ) (st : Heap × LoopMat n)
    (hi : InvA base ρmax aux₀ dual₀ a₀ (2 ≤ k) st) :
    EndA base ρmax aux₀ dual₀ a₀ (2 ≤ k) (innerLoop (stepAH pens ρmax ρ svds rhs) (fun _ s => stopMatH I R tol s) k st) ∧
    absMat I R (innerLoop (stepAH pens ρmax ρ svds rhs) (fun _ s => stopMatH I R tol s) k st) =
      innerLoop (stepA pens ρmax ρ svds rhs) (matStop tol) k (absMat I R st) := by
  have hsim := fun wr (hw : wr) (hi : InvA base ρmax aux₀ dual₀ a₀ wr st) =>
    innerLoop_sim (step := stepAH pens ρmax ρ svds rhs) (stop := fun _ s => stopMatH I R tol s)
    (step' := stepA pens ρmax ρ svds rhs) (stop' := matStop tol) (absMat I R)
    (fun st => InvA base ρmax aux₀ dual₀ a₀ wr st)
    (fun s hs => ⟨stepAH_inv pens ρmax ρ svds rhs s hs hw, (stepAH_abs pens ρmax ρ svds rhs s hs.sep).1⟩)
    (fun s hs => by
      obtain ⟨h1, h2⟩ := stepAH_abs pens ρmax ρ svds rhs s hs.sep
      rw [← h1]
      unfold stopMatH matStop
      simp only [absMat]
      rw [h2])
    k st hi
  by_cases hk : 2 ≤ k
  · exact ⟨(hsim _ hk hi).1.toEndA, (hsim _ hk hi).2⟩
  · refine ⟨?_, (hsim True trivial ⟨⟨hi.sep, hi.frame.mono (fun _ _ hc => hc.imp (fun h => ⟨h.1, trivial⟩) id) (fun _ _ hc => hc), hi.cur,
      hi.aux, hi.dual⟩, hi.old.imp (fun h => ⟨h.1, trivial⟩) id⟩).2⟩
    rcases innerLoop_le_one (stepAH pens ρmax ρ svds rhs) (fun _ s => stopMatH I R tol s) (by omega : k ≤ 1) st with e | e
    · rw [e]; exact hi.toEndA
    · rw [e]; exact (stepAH_end pens ρmax ρ svds rhs st hi).1

end

end Verif.Alias
