import Verif.Alias.Steps

/-!
# The inner loops for the B factor matrices and for `C` on the heap

Helper lemmas.
-/

namespace Verif.Alias

open Verif.ADMM Verif.Spec Verif.Penalties Verif.Loop Finset

section
variable {I K R n : ℕ} {J : Fin I → ℕ}

/-! ### Mode 2 -/

/-- The objects of the inner loop for `C` exist. -/
structure OkMat (h : Heap) (t : LoopMat n) : Prop where
  cur : t.cur < h.next
  old : t.old < h.next
  aux : ∀ p, t.aux p < h.next
  dual : ∀ p, t.dual p < h.next

/-- What the updates of the auxiliary and dual variables in `l` do. -/
structure PenSpecC (pens : Fin n → PenC K R) (ρ : ℝ) (l : List (Fin n)) (h : Heap) (t : LoopMat n) (h' : Heap) (t' : LoopMat n) : Prop where
  cur : t'.cur = t.cur
  old : t'.old = t.old
  ok : OkMat h' t'
  frame : Frame No No h h'
  aux_in : ∀ p ∈ l, h'.mat K R (t'.aux p) = (pens p).mat (h.mat K R t.cur + h.mat K R (t.dual p)) ρ (h.mat K R (t.aux p))
  dual_in : ∀ p ∈ l, h'.mat K R (t'.dual p) = h.mat K R t.cur -
    ((pens p).mat (h.mat K R t.cur + h.mat K R (t.dual p)) ρ (h.mat K R (t.aux p)) - h.mat K R (t.dual p))
  aux_out : ∀ p ∉ l, t'.aux p = t.aux p
  dual_out : ∀ p ∉ l, t'.dual p = t.dual p
  aux_adr : ∀ p, t'.aux p = t.aux p ∨ h.next ≤ t'.aux p
  dual_adr : ∀ p, t'.dual p = t.dual p ∨ h.next ≤ t'.dual p

theorem PenSpecC.one (pens : Fin n → PenC K R) (ρ : ℝ) {h : Heap} {t : LoopMat n} (hs : OkMat h t) (p : Fin n) :
    PenSpecC pens ρ [p] h t (penStepC pens ρ (h, t) p).1 (penStepC pens ρ (h, t) p).2 := by
  unfold penStepC
  simp only
  set M := (pens p).mat (h.mat K R t.cur + h.mat K R (t.dual p)) ρ (h.mat K R (t.aux p)) with hM
  have f1 := frame_newArr h M
  set g := (h.newArr M).1 with hg
  have hgn : g.next = h.next + 1 := rfl
  have hgM : g.mat K R h.next = M := newArr_mat h M
  have hcur : g.mat K R t.cur = h.mat K R t.cur := f1.mat hs.cur id _ _
  have hdual : ∀ q, g.mat K R (t.dual q) = h.mat K R (t.dual q) := fun q => f1.mat (hs.dual q) id _ _
  simp only [newArr_snd]
  set D := g.mat K R t.cur - (g.mat K R h.next - g.mat K R (t.dual p)) with hD
  have f2 := frame_newArr g D
  have q1 := hs.cur; have q2 := hs.old; have q3 := hs.aux; have q4 := hs.dual
  refine ⟨rfl, rfl, ⟨?_, ?_, fun q => ?_, fun q => ?_⟩, f1.trans f2 (fun _ _ hc => hc) (fun _ _ hc => hc), ?_, ?_, ?_, ?_, ?_, ?_⟩
  · simp only [newArr_next]; omega
  · simp only [newArr_next]; omega
  · simp only [newArr_next]
    by_cases hq : q = p
    · subst hq; rw [Function.update_self]; omega
    · rw [Function.update_of_ne hq]; have := q3 q; omega
  · simp only [newArr_next]
    by_cases hq : q = p
    · subst hq; rw [Function.update_self]; omega
    · rw [Function.update_of_ne hq]; have := q4 q; omega
  · intro q hq
    obtain rfl := List.mem_singleton.mp hq
    simp only [Function.update_self]
    rw [f2.mat (by omega) id, hgM]
  · intro q hq
    obtain rfl := List.mem_singleton.mp hq
    simp only [Function.update_self]
    rw [newArr_mat, hD, hcur, hdual, hgM]
  · intro q hq
    exact Function.update_of_ne (fun hc => hq (List.mem_singleton.mpr hc)) _ _
  · intro q hq
    exact Function.update_of_ne (fun hc => hq (List.mem_singleton.mpr hc)) _ _
  · intro q
    by_cases hq : q = p
    · subst hq; simp only [Function.update_self]; exact .inr (le_refl _)
    · simp only [Function.update_of_ne hq]; exact .inl trivial
  · intro q
    by_cases hq : q = p
    · subst hq; simp only [Function.update_self]; exact .inr (by omega)
    · simp only [Function.update_of_ne hq]; exact .inl trivial

theorem PenSpecC.comp {pens : Fin n → PenC K R} {ρ : ℝ} {l : List (Fin n)} {p : Fin n} (hp : p ∉ l)
    {h h' h'' : Heap} {t t' t'' : LoopMat n} (hs : OkMat h t) (e : PenSpecC pens ρ [p] h t h' t')
    (e' : PenSpecC pens ρ l h' t' h'' t'') : PenSpecC pens ρ (p :: l) h t h'' t'' := by
  have hn := e.frame.next
  have hc : h'.mat K R t'.cur = h.mat K R t.cur := by rw [e.cur, e.frame.mat hs.cur id]
  refine ⟨e'.cur.trans e.cur, e'.old.trans e.old, e'.ok, e.frame.trans e'.frame (fun _ _ hc => hc) (fun _ _ hc => hc), ?_, ?_, ?_, ?_, ?_, ?_⟩
  · intro q hq
    rcases List.mem_cons.mp hq with rfl | hq
    · rw [e'.aux_out q hp, e'.frame.mat (e.ok.aux q) id, e.aux_in q (List.mem_singleton.mpr rfl)]
    · have hqp : q ∉ [p] := fun hc => hp (List.mem_singleton.mp hc ▸ hq)
      rw [e'.aux_in q hq, hc, e.dual_out q hqp, e.aux_out q hqp, e.frame.mat (hs.aux q) id, e.frame.mat (hs.dual q) id]
  · intro q hq
    rcases List.mem_cons.mp hq with rfl | hq
    · rw [e'.dual_out q hp, e'.frame.mat (e.ok.dual q) id, e.dual_in q (List.mem_singleton.mpr rfl)]
    · have hqp : q ∉ [p] := fun hc => hp (List.mem_singleton.mp hc ▸ hq)
      rw [e'.dual_in q hq, hc, e.dual_out q hqp, e.aux_out q hqp, e.frame.mat (hs.aux q) id, e.frame.mat (hs.dual q) id]
  · intro q hq
    have h1 : q ∉ [p] := fun hc => hq (List.mem_singleton.mp hc ▸ List.mem_cons_self)
    have h2 : q ∉ l := fun hc => hq (List.mem_cons_of_mem _ hc)
    exact (e'.aux_out q h2).trans (e.aux_out q h1)
  · intro q hq
    have h1 : q ∉ [p] := fun hc => hq (List.mem_singleton.mp hc ▸ List.mem_cons_self)
    have h2 : q ∉ l := fun hc => hq (List.mem_cons_of_mem _ hc)
    exact (e'.dual_out q h2).trans (e.dual_out q h1)
  · intro q
    rcases e'.aux_adr q with h1 | h1
    · rcases e.aux_adr q with h2 | h2
      · exact .inl (h1.trans h2)
      · exact .inr (h1 ▸ h2)
    · exact .inr (hn.trans h1)
  · intro q
    rcases e'.dual_adr q with h1 | h1
    · rcases e.dual_adr q with h2 | h2
      · exact .inl (h1.trans h2)
      · exact .inr (h1 ▸ h2)
    · exact .inr (hn.trans h1)

theorem penStepC_fold (pens : Fin n → PenC K R) (ρ : ℝ) : ∀ (l : List (Fin n)), l.Nodup → ∀ (h : Heap) (t : LoopMat n), OkMat h t →
    PenSpecC pens ρ l h t (l.foldl (penStepC pens ρ) (h, t)).1 (l.foldl (penStepC pens ρ) (h, t)).2
  | [], _, h, t, hs => ⟨rfl, rfl, hs, Frame.refl _ _ _, by simp, by simp, fun _ _ => rfl, fun _ _ => rfl, fun _ => .inl rfl, fun _ => .inl rfl⟩
  | p :: l, hl, h, t, hs => by
    obtain ⟨hp, hl⟩ := List.nodup_cons.mp hl
    have e := PenSpecC.one pens ρ hs p
    exact e.comp hp hs (penStepC_fold pens ρ l hl _ _ e.ok)

/-- The state of the inner loop for `C`; `base`: the heap at the start of the update. -/
structure InvC (base : Heap) (aux₀ dual₀ : Fin n → ℕ) (c₀ : ℕ) (st : Heap × LoopMat n) : Prop where
  ok : OkMat st.1 st.2
  frame : Frame No No base st.1
  cur : st.2.cur = c₀ ∨ base.next ≤ st.2.cur
  aux : ∀ p, st.2.aux p = aux₀ p ∨ base.next ≤ st.2.aux p
  dual : ∀ p, st.2.dual p = dual₀ p ∨ base.next ≤ st.2.dual p

theorem stepCH_spec (pens : Fin n → PenC K R) (ρ : ℝ) (svd : SVD R R R) (rhs : Matrix (Fin K) (Fin R) ℝ) {base : Heap}
    {aux₀ dual₀ : Fin n → ℕ} {c₀ : ℕ} (st : Heap × LoopMat n) (hi : InvC base aux₀ dual₀ c₀ st) :
    InvC base aux₀ dual₀ c₀ (stepCH pens ρ svd rhs st) ∧ absMat K R (stepCH pens ρ svd rhs st) = stepC pens ρ svd rhs (absMat K R st) ∧
    (stepCH pens ρ svd rhs st).1.mat K R (stepCH pens ρ svd rhs st).2.old = st.1.mat K R st.2.cur := by
  obtain ⟨h, t⟩ := st
  have hs := hi.ok
  have q1 := hs.cur; have q2 := hs.old; have q3 := hs.aux; have q4 := hs.dual; have q5 := hi.frame.next
  simp only at hs q1 q2 q3 q4 q5
  set M := (stepC pens ρ svd rhs (absMat K R (h, t))).x with hM
  have f := frame_newArr h M
  have hok : OkMat (h.newArr M).1 (⟨h.next, t.cur, t.aux, t.dual⟩ : LoopMat n) := by
    refine ⟨?_, ?_, fun p => ?_, fun p => ?_⟩ <;> simp only [newArr_next]
    · omega
    · omega
    · have := q3 p; omega
    · have := q4 p; omega
  have e := penStepC_fold pens ρ (List.finRange n) (List.nodup_finRange n) _ _ hok
  have hrun : (List.finRange n).foldl (penStepC pens ρ) ((h.newArr M).1, (⟨h.next, t.cur, t.aux, t.dual⟩ : LoopMat n)) =
      stepCH pens ρ svd rhs (h, t) := rfl
  rw [hrun] at e
  have hx : (h.newArr M).1.mat K R h.next = M := newArr_mat h M
  have hdual : ∀ q, (h.newArr M).1.mat K R (t.dual q) = h.mat K R (t.dual q) := fun q => f.mat (q4 q) id _ _
  have haux : ∀ q, (h.newArr M).1.mat K R (t.aux q) = h.mat K R (t.aux q) := fun q => f.mat (q3 q) id _ _
  have hn : base.next ≤ (h.newArr M).1.next := by simp only [newArr_next]; omega
  refine ⟨⟨e.ok, (hi.frame.trans f (fun _ _ hc => hc) (fun _ _ hc => hc)).trans e.frame (fun _ _ hc => hc) (fun _ _ hc => hc), ?_, ?_, ?_⟩, ?_, ?_⟩
  · rw [e.cur]; exact .inr q5
  · intro p
    rcases e.aux_adr p with h1 | h1
    · rw [h1]; exact hi.aux p
    · exact .inr (hn.trans h1)
  · intro p
    rcases e.dual_adr p with h1 | h1
    · rw [h1]; exact hi.dual p
    · exact .inr (hn.trans h1)
  · have hx' : (stepCH pens ρ svd rhs (h, t)).1.mat K R (stepCH pens ρ svd rhs (h, t)).2.cur = M := by
      rw [e.cur, e.frame.mat hok.cur id]
      exact hx
    have ha : ∀ p, (stepCH pens ρ svd rhs (h, t)).1.mat K R ((stepCH pens ρ svd rhs (h, t)).2.aux p) =
        (stepC pens ρ svd rhs (absMat K R (h, t))).aux p := by
      intro p
      rw [e.aux_in p (List.mem_finRange p)]
      simp only [hx, hdual, haux]
      rfl
    have hd : ∀ p, (stepCH pens ρ svd rhs (h, t)).1.mat K R ((stepCH pens ρ svd rhs (h, t)).2.dual p) =
        (stepC pens ρ svd rhs (absMat K R (h, t))).dual p := by
      intro p
      rw [e.dual_in p (List.mem_finRange p)]
      simp only [hx, hdual, haux]
      rfl
    change MatState.mk _ _ _ = _
    rw [hx', funext ha, funext hd]
  · rw [e.old, e.frame.mat hok.old id]
    exact f.mat q1 id _ _

/-- The inner loop for `C` on the heap. It changes no existing object. -/
theorem loopC_spec (pens : Fin n → PenC K R) (ρ : ℝ) (svd : SVD R R R) (rhs : Matrix (Fin K) (Fin R) ℝ) (tol : Option ℝ) (k : ℕ)
    (base : Heap) (aux₀ dual₀ : Fin n → ℕ) (c₀ : ℕ) (st : Heap × LoopMat n) (hi : InvC base aux₀ dual₀ c₀ st) :
    InvC base aux₀ dual₀ c₀ (innerLoop (stepCH pens ρ svd rhs) (fun _ s => stopMatH K R tol s) k st) ∧
    absMat K R (innerLoop (stepCH pens ρ svd rhs) (fun _ s => stopMatH K R tol s) k st) =
      innerLoop (stepC pens ρ svd rhs) (matStop tol) k (absMat K R st) :=
  innerLoop_sim (absMat K R) (fun st => InvC base aux₀ dual₀ c₀ st)
    (fun s hs => ⟨(stepCH_spec pens ρ svd rhs s hs).1, (stepCH_spec pens ρ svd rhs s hs).2.1⟩)
    (fun s hs => by
      obtain ⟨-, h1, h2⟩ := stepCH_spec pens ρ svd rhs s hs
      rw [← h1]
      unfold stopMatH matStop
      simp only [absMat]
      rw [h2])
    k st hi

/-! ### Mode 1 -/

/-- The objects of the inner loop for the B factor matrices exist; the lists that are written to differ from each other, and from those of the
auxiliary and dual variables. -/
structure SepRag (h : Heap) (I : ℕ) (t : LoopRag n) : Prop where
  cur : h.ListOk I t.cur
  old : h.ListOk I t.old
  aux : ∀ p, h.AuxOk I (t.aux p)
  dual : ∀ p, h.ListOk I (t.dual p)
  cur_old : t.cur ≠ t.old
  aux_cur : ∀ p, (t.aux p).list ≠ t.cur
  aux_old : ∀ p, (t.aux p).list ≠ t.old
  dual_cur : ∀ p, t.dual p ≠ t.cur
  dual_old : ∀ p, t.dual p ≠ t.old

/-- The values. -/
def absRag (R : ℕ) (J : Fin I → ℕ) (st : Heap × LoopRag n) : RagState I R n J :=
  ⟨st.1.ragged R J st.2.cur, fun p => st.1.auxB R J (st.2.aux p), fun p => st.1.ragged R J (st.2.dual p)⟩

/-- What the updates of the auxiliary and dual variables in `l` do. -/
structure PenSpecB (pens : Fin n → PenB I R J) (ρ : Fin I → ℝ) (l : List (Fin n)) (h : Heap) (t : LoopRag n) (h' : Heap) (t' : LoopRag n) :
    Prop where
  cur : t'.cur = t.cur
  old : t'.old = t.old
  sep : SepRag h' I t'
  frame : Frame No No h h'
  aux_in : ∀ p ∈ l, h'.auxB R J (t'.aux p) =
    (pens p).update (fun i => h.ragged R J t.cur i + h.ragged R J (t.dual p) i) ρ (h.auxB R J (t.aux p))
  dual_in : ∀ p ∈ l, h'.ragged R J (t'.dual p) = fun i => h.ragged R J t.cur i -
    ((pens p).update (fun i => h.ragged R J t.cur i + h.ragged R J (t.dual p) i) ρ (h.auxB R J (t.aux p))).subtract
      (h.ragged R J (t.dual p)) i
  aux_out : ∀ p ∉ l, t'.aux p = t.aux p
  dual_out : ∀ p ∉ l, t'.dual p = t.dual p
  aux_adr : ∀ p, t'.aux p = t.aux p ∨ h'.AuxFresh h.next I (t'.aux p)
  dual_adr : ∀ p, t'.dual p = t.dual p ∨ h'.ListFresh h.next I (t'.dual p)

theorem Frame.auxFresh {W WL : ℕ → Prop} {h h' : Heap} (f : Frame W WL h h') {x : AuxRef} (hx : h.AuxOk I x) (hw : ¬ WL x.list) {b : ℕ}
    (hb : h.AuxFresh b I x) : h'.AuxFresh b I x :=
  ⟨hb.1, fun a ha => hb.2 a ((auxArr_congr (f.lst _ hx.1 hw) I a).1 ha)⟩

theorem Frame.listFresh {W WL : ℕ → Prop} {h h' : Heap} (f : Frame W WL h h') {l : ℕ} (hx : h.ListOk I l) (hw : ¬ WL l) {b : ℕ}
    (hb : h.ListFresh b I l) : h'.ListFresh b I l :=
  ⟨hb.1, fun i => by rw [f.lst l hx.1 hw]; exact hb.2 i⟩

theorem AuxFresh_mono {h : Heap} {b b' : ℕ} {x : AuxRef} (hx : h.AuxFresh b I x) (hb : b' ≤ b) : h.AuxFresh b' I x :=
  ⟨hb.trans hx.1, fun a ha => hb.trans (hx.2 a ha)⟩

theorem ListFresh_mono {h : Heap} {b b' l : ℕ} (hx : h.ListFresh b I l) (hb : b' ≤ b) : h.ListFresh b' I l :=
  ⟨hb.trans hx.1, fun i => hb.trans (hx.2 i)⟩

theorem PenSpecB.one (pens : Fin n → PenB I R J) (ρ : Fin I → ℝ) {h : Heap} {t : LoopRag n} (hs : SepRag h I t) (p : Fin n) :
    PenSpecB pens ρ [p] h t (penStepB pens ρ (h, t) p).1 (penStepB pens ρ (h, t) p).2 := by
  unfold penStepB
  simp only
  set M := (pens p).update (fun i => h.ragged R J t.cur i + h.ragged R J (t.dual p) i) ρ (h.auxB R J (t.aux p)) with hM
  obtain ⟨f1, g1, g2, g3⟩ := newAuxB_spec h M
  generalize hx : (h.newAuxB M).2 = x at g1 g2 g3 ⊢
  generalize hg : (h.newAuxB M).1 = g at f1 g1 g2 g3 ⊢
  have hcur : g.ragged R J t.cur = h.ragged R J t.cur := f1.ragged hs.cur id (fun _ => id) _ _
  have hdual : ∀ q, g.ragged R J (t.dual q) = h.ragged R J (t.dual q) := fun q => f1.ragged (hs.dual q) id (fun _ => id) _ _
  set D : Ragged I R J := fun i => g.ragged R J t.cur i - (g.auxB R J x).subtract (g.ragged R J (t.dual p)) i with hD
  have f2 := frame_newRagged g D
  have k1 := newRagged_ok g D
  have k2 := newRagged_fresh g D
  have k3 := newRagged_ragged g D
  have f := f1.trans f2 (fun _ _ hc => hc) (fun _ _ hc => hc)
  have q1 := hs.cur.1; have q2 := hs.old.1; have q5 := f1.next
  have q6 := g3.1; have q7 := k2.1
  refine ⟨rfl, rfl, ⟨f.listOk hs.cur id, f.listOk hs.old id, fun q => ?_, fun q => ?_, hs.cur_old, fun q => ?_, fun q => ?_, fun q => ?_, fun q => ?_⟩,
    f, ?_, ?_, ?_, ?_, ?_, ?_⟩
  · by_cases hq : q = p
    · subst hq; simp only [Function.update_self]; exact f2.auxOk g2 id
    · simp only [Function.update_of_ne hq]; exact f.auxOk (hs.aux q) id
  · by_cases hq : q = p
    · subst hq; simp only [Function.update_self]; exact k1
    · simp only [Function.update_of_ne hq]; exact f.listOk (hs.dual q) id
  · by_cases hq : q = p
    · subst hq; simp only [Function.update_self]; omega
    · simp only [Function.update_of_ne hq]; exact hs.aux_cur q
  · by_cases hq : q = p
    · subst hq; simp only [Function.update_self]; omega
    · simp only [Function.update_of_ne hq]; exact hs.aux_old q
  · by_cases hq : q = p
    · subst hq; simp only [Function.update_self]; omega
    · simp only [Function.update_of_ne hq]; exact hs.dual_cur q
  · by_cases hq : q = p
    · subst hq; simp only [Function.update_self]; omega
    · simp only [Function.update_of_ne hq]; exact hs.dual_old q
  · intro q hq
    obtain rfl := List.mem_singleton.mp hq
    simp only [Function.update_self]
    rw [f2.auxB g2 id (fun _ _ => id), g1]
  · intro q hq
    obtain rfl := List.mem_singleton.mp hq
    simp only [Function.update_self]
    rw [k3, hD, hcur, hdual, g1]
  · intro q hq
    exact Function.update_of_ne (fun hc => hq (List.mem_singleton.mpr hc)) _ _
  · intro q hq
    exact Function.update_of_ne (fun hc => hq (List.mem_singleton.mpr hc)) _ _
  · intro q
    by_cases hq : q = p
    · subst hq; simp only [Function.update_self]; exact .inr (f2.auxFresh g2 id g3)
    · simp only [Function.update_of_ne hq]; exact .inl trivial
  · intro q
    by_cases hq : q = p
    · subst hq; simp only [Function.update_self]; exact .inr (ListFresh_mono k2 q5)
    · simp only [Function.update_of_ne hq]; exact .inl trivial

theorem PenSpecB.comp {pens : Fin n → PenB I R J} {ρ : Fin I → ℝ} {l : List (Fin n)} {p : Fin n} (hp : p ∉ l)
    {h h' h'' : Heap} {t t' t'' : LoopRag n} (hs : SepRag h I t) (e : PenSpecB pens ρ [p] h t h' t')
    (e' : PenSpecB pens ρ l h' t' h'' t'') : PenSpecB pens ρ (p :: l) h t h'' t'' := by
  have hn := e.frame.next
  have hc : h'.ragged R J t'.cur = h.ragged R J t.cur := by rw [e.cur, e.frame.ragged hs.cur id (fun _ => id)]
  refine ⟨e'.cur.trans e.cur, e'.old.trans e.old, e'.sep, e.frame.trans e'.frame (fun _ _ hc => hc) (fun _ _ hc => hc), ?_, ?_, ?_, ?_, ?_, ?_⟩
  · intro q hq
    rcases List.mem_cons.mp hq with rfl | hq
    · rw [e'.aux_out q hp, e'.frame.auxB (e.sep.aux q) id (fun _ _ => id), e.aux_in q (List.mem_singleton.mpr rfl)]
    · have hqp : q ∉ [p] := fun hc => hp (List.mem_singleton.mp hc ▸ hq)
      rw [e'.aux_in q hq, hc, e.dual_out q hqp, e.aux_out q hqp, e.frame.auxB (hs.aux q) id (fun _ _ => id),
        e.frame.ragged (hs.dual q) id (fun _ => id)]
  · intro q hq
    rcases List.mem_cons.mp hq with rfl | hq
    · rw [e'.dual_out q hp, e'.frame.ragged (e.sep.dual q) id (fun _ => id), e.dual_in q (List.mem_singleton.mpr rfl)]
    · have hqp : q ∉ [p] := fun hc => hp (List.mem_singleton.mp hc ▸ hq)
      rw [e'.dual_in q hq, hc, e.dual_out q hqp, e.aux_out q hqp, e.frame.auxB (hs.aux q) id (fun _ _ => id),
        e.frame.ragged (hs.dual q) id (fun _ => id)]
  · intro q hq
    have h1 : q ∉ [p] := fun hc => hq (List.mem_singleton.mp hc ▸ List.mem_cons_self)
    have h2 : q ∉ l := fun hc => hq (List.mem_cons_of_mem _ hc)
    exact (e'.aux_out q h2).trans (e.aux_out q h1)
  · intro q hq
    have h1 : q ∉ [p] := fun hc => hq (List.mem_singleton.mp hc ▸ List.mem_cons_self)
    have h2 : q ∉ l := fun hc => hq (List.mem_cons_of_mem _ hc)
    exact (e'.dual_out q h2).trans (e.dual_out q h1)
  · intro q
    rcases e'.aux_adr q with h1 | h1
    · rcases e.aux_adr q with h2 | h2
      · exact .inl (h1.trans h2)
      · exact .inr (h1 ▸ e'.frame.auxFresh (e.sep.aux q) id h2)
    · exact .inr (AuxFresh_mono h1 hn)
  · intro q
    rcases e'.dual_adr q with h1 | h1
    · rcases e.dual_adr q with h2 | h2
      · exact .inl (h1.trans h2)
      · exact .inr (h1 ▸ e'.frame.listFresh (e.sep.dual q) id h2)
    · exact .inr (ListFresh_mono h1 hn)

theorem penStepB_fold (pens : Fin n → PenB I R J) (ρ : Fin I → ℝ) : ∀ (l : List (Fin n)), l.Nodup → ∀ (h : Heap) (t : LoopRag n),
    SepRag h I t → PenSpecB pens ρ l h t (l.foldl (penStepB pens ρ) (h, t)).1 (l.foldl (penStepB pens ρ) (h, t)).2
  | [], _, h, t, hs => ⟨rfl, rfl, hs, Frame.refl _ _ _, by simp, by simp, fun _ _ => rfl, fun _ _ => rfl, fun _ => .inl rfl, fun _ => .inl rfl⟩
  | p :: l, hl, h, t, hs => by
    obtain ⟨hp, hl⟩ := List.nodup_cons.mp hl
    have e := PenSpecB.one pens ρ hs p
    exact e.comp hp hs (penStepB_fold pens ρ l hl _ _ e.sep)

/-- What the inner loop for the B factor matrices does. `base`: the heap at the start of the update, in which `b₀` is the list of factor matrices. -/
structure EndB (base : Heap) (I : ℕ) (aux₀ : Fin n → AuxRef) (dual₀ : Fin n → ℕ) (b₀ : ℕ) (wr : Prop) (st : Heap × LoopRag n) : Prop where
  sep : SepRag st.1 I st.2
  frame : Frame No (fun l => l = b₀ ∧ wr) base st.1
  cur : (st.2.cur = b₀ ∧ st.1.lst b₀ = base.lst b₀) ∨ ((st.2.cur = b₀ ∨ base.next ≤ st.2.cur) ∧ ∀ i : Fin I, base.next ≤ st.1.lst st.2.cur i)
  aux : ∀ p, st.2.aux p = aux₀ p ∨ st.1.AuxFresh base.next I (st.2.aux p)
  dual : ∀ p, st.2.dual p = dual₀ p ∨ st.1.ListFresh base.next I (st.2.dual p)

/-- The next iteration writes to `b₀` only if `wr`. -/
structure InvB (base : Heap) (I : ℕ) (aux₀ : Fin n → AuxRef) (dual₀ : Fin n → ℕ) (b₀ : ℕ) (wr : Prop) (st : Heap × LoopRag n) : Prop
    extends EndB base I aux₀ dual₀ b₀ wr st where
  old : (st.2.old = b₀ ∧ wr) ∨ base.next ≤ st.2.old

theorem stepBH_spec (pens : Fin n → PenB I R J) (ρ : Fin I → ℝ) (svds : Fin I → SVD R R R) (rhs : Ragged I R J) {base : Heap}
    {aux₀ : Fin n → AuxRef} {dual₀ : Fin n → ℕ} {b₀ : ℕ} {wr : Prop} (st : Heap × LoopRag n) (hi : InvB base I aux₀ dual₀ b₀ wr st) :
    EndB base I aux₀ dual₀ b₀ wr (stepBH pens ρ svds rhs st) ∧
    absRag R J (stepBH pens ρ svds rhs st) = stepB pens ρ svds rhs (absRag R J st) ∧
    (stepBH pens ρ svds rhs st).1.ragged R J (stepBH pens ρ svds rhs st).2.old = st.1.ragged R J st.2.cur ∧
    (stepBH pens ρ svds rhs st).2.old = st.2.cur := by
  obtain ⟨h, t⟩ := st
  have hs := hi.sep
  have q5 := hi.frame.next
  simp only at hs q5
  set M := (stepB pens ρ svds rhs (absRag R J (h, t))).x with hM
  obtain ⟨w1, w2, w3, w4⟩ := writeItems_spec h t.old M hs.old.1
  have hsep : SepRag (writeItems h t.old M) I (⟨t.old, t.cur, t.aux, t.dual⟩ : LoopRag n) :=
    ⟨w3, w2.listOk hs.cur hs.cur_old, fun p => w2.auxOk (hs.aux p) (hs.aux_old p), fun p => w2.listOk (hs.dual p) (hs.dual_old p),
      hs.cur_old.symm, hs.aux_old, hs.aux_cur, hs.dual_old, hs.dual_cur⟩
  have e := penStepB_fold pens ρ (List.finRange n) (List.nodup_finRange n) _ _ hsep
  have hrun : (List.finRange n).foldl (penStepB pens ρ) (writeItems h t.old M, (⟨t.old, t.cur, t.aux, t.dual⟩ : LoopRag n)) =
      stepBH pens ρ svds rhs (h, t) := rfl
  rw [hrun] at e
  have hdual : ∀ q, (writeItems h t.old M).ragged R J (t.dual q) = h.ragged R J (t.dual q) := fun q =>
    w2.ragged (hs.dual q) (hs.dual_old q) (fun _ => id) _ _
  have haux : ∀ q, (writeItems h t.old M).auxB R J (t.aux q) = h.auxB R J (t.aux q) := fun q =>
    w2.auxB (hs.aux q) (hs.aux_old q) (fun _ _ => id) _ _
  have hn : base.next ≤ (writeItems h t.old M).next := q5.trans w2.next
  refine ⟨⟨e.sep, ?_, ?_, ?_, ?_⟩, ?_, ?_, e.old⟩
  · refine (hi.frame.trans w2 (fun _ _ hc => hc) ?_).trans e.frame (fun _ _ hc => hc) (fun _ _ hc => hc.elim)
    rintro l hl rfl
    rcases hi.old with h1 | h1
    · exact h1
    · simp only at h1; omega
  · right
    rw [e.cur]
    refine ⟨hi.old.imp (fun h => h.1) id, fun i => ?_⟩
    simp only
    rw [e.frame.lst _ w3.1 id]
    exact q5.trans (w4 i)
  · intro p
    rcases e.aux_adr p with h1 | h1
    · rw [h1]
      refine (hi.aux p).imp id fun h2 => ?_
      exact e.frame.auxFresh (hsep.aux p) id (w2.auxFresh (hs.aux p) (hs.aux_old p) h2)
    · exact .inr (AuxFresh_mono h1 hn)
  · intro p
    rcases e.dual_adr p with h1 | h1
    · rw [h1]
      refine (hi.dual p).imp id fun h2 => ?_
      exact e.frame.listFresh (hsep.dual p) id (w2.listFresh (hs.dual p) (hs.dual_old p) h2)
    · exact .inr (ListFresh_mono h1 hn)
  · have hx' : (stepBH pens ρ svds rhs (h, t)).1.ragged R J (stepBH pens ρ svds rhs (h, t)).2.cur = M := by
      rw [e.cur, e.frame.ragged hsep.cur id (fun _ => id)]
      exact w1
    have ha : ∀ p, (stepBH pens ρ svds rhs (h, t)).1.auxB R J ((stepBH pens ρ svds rhs (h, t)).2.aux p) =
        (stepB pens ρ svds rhs (absRag R J (h, t))).aux p := by
      intro p
      rw [e.aux_in p (List.mem_finRange p)]
      simp only [w1, hdual, haux]
      rfl
    have hd : ∀ p, (stepBH pens ρ svds rhs (h, t)).1.ragged R J ((stepBH pens ρ svds rhs (h, t)).2.dual p) =
        (stepB pens ρ svds rhs (absRag R J (h, t))).dual p := by
      intro p
      rw [e.dual_in p (List.mem_finRange p)]
      simp only [w1, hdual, haux]
      rfl
    change RagState.mk _ _ _ = _
    rw [hx', funext ha, funext hd]
  · rw [e.old, e.frame.ragged hsep.old id (fun _ => id)]
    exact w2.ragged hs.cur hs.cur_old (fun _ => id) _ _

/-- The inner loop for the B factor matrices on the heap. Of the existing objects, it changes the list of factor matrices, if there is more than one
iteration. -/
theorem loopB_spec (pens : Fin n → PenB I R J) (ρ : Fin I → ℝ) (svds : Fin I → SVD R R R) (rhs : Ragged I R J) (tol : Option ℝ) (k : ℕ)
    (base : Heap) (aux₀ : Fin n → AuxRef) (dual₀ : Fin n → ℕ) (b₀ : ℕ) (st : Heap × LoopRag n)
    (hi : InvB base I aux₀ dual₀ b₀ (2 ≤ k) st) :
    EndB base I aux₀ dual₀ b₀ (2 ≤ k) (innerLoop (stepBH pens ρ svds rhs) (fun _ s => stopRagH R J tol s) k st) ∧
    absRag R J (innerLoop (stepBH pens ρ svds rhs) (fun _ s => stopRagH R J tol s) k st) =
      innerLoop (stepB pens ρ svds rhs) (ragStop tol) k (absRag R J st) := by
  have hsim := fun wr (hw : wr) (hi : InvB base I aux₀ dual₀ b₀ wr st) =>
    innerLoop_sim (step := stepBH pens ρ svds rhs) (stop := fun _ s => stopRagH R J tol s)
    (step' := stepB pens ρ svds rhs) (stop' := ragStop tol) (absRag R J)
    (fun st => InvB base I aux₀ dual₀ b₀ wr st)
    (fun s hs => by
      obtain ⟨h1, h2, -, h3⟩ := stepBH_spec pens ρ svds rhs s hs
      refine ⟨⟨h1, ?_⟩, h2⟩
      rw [h3]
      rcases hs.cur with h4 | h4
      · exact .inl ⟨h4.1, hw⟩
      · exact h4.1.imp (fun h => ⟨h, hw⟩) id)
    (fun s hs => by
      obtain ⟨-, h1, h2, -⟩ := stepBH_spec pens ρ svds rhs s hs
      rw [← h1]
      unfold stopRagH ragStop
      simp only [absRag]
      rw [h2])
    k st hi
  by_cases hk : 2 ≤ k
  · exact ⟨(hsim _ hk hi).1.toEndB, (hsim _ hk hi).2⟩
  · refine ⟨?_, (hsim True trivial ⟨⟨hi.sep, hi.frame.mono (fun _ _ hc => hc) (fun _ _ hc => ⟨hc.1, trivial⟩), hi.cur,
      hi.aux, hi.dual⟩, hi.old.imp (fun h => ⟨h.1, trivial⟩) id⟩).2⟩
    rcases innerLoop_le_one (stepBH pens ρ svds rhs) (fun _ s => stopRagH R J tol s) (by omega : k ≤ 1) st with e | e
    · rw [e]; exact hi.toEndB
    · rw [e]; exact (stepBH_spec pens ρ svds rhs st hi).1

end

end Verif.Alias
