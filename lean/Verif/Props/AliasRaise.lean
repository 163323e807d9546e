import Verif.Alias.TraceFrame
import Verif.Props.Alias

/-!
# C89: what a call of `cmf_aoadmm` that is cut off leaves of the caller's objects

`Verif/Alias/Trace.lean` records the objects after every single operation.
-/

namespace Verif.Props

open Verif.Loop Verif.ADMM Verif.Penalties Verif.Spec Verif.Alias Finset

/-! ### The record is complete -/

/-- One operation: a row of an array is assigned, an entry of a list is assigned, or objects are created. -/
inductive Op : Heap → Heap → Prop
  | row {n : ℕ} (h : Heap) (a i : ℕ) (v : Fin n → ℝ) : Op h (h.setRow a i v)
  | item (h : Heap) (l i a : ℕ) : Op h (h.setItem l i a)
  | new {h h' : Heap} (hn : h.next < h'.next) (ha : ∀ a < h.next, h'.arr a = h.arr a) (hl : ∀ l < h.next, h'.lst l = h.lst l) : Op h h'

/-- The heaps `l` lead from `h` to `e`, one operation at a time. -/
inductive Walk : Heap → List Heap → Heap → Prop
  | nil (h : Heap) : Walk h [] h
  | cons {h x e : Heap} {l : List Heap} : Op h x → Walk x l e → Walk h (x :: l) e

theorem Walk.append {h x e : Heap} {l l' : List Heap} (w : Walk h l x) (w' : Walk x l' e) : Walk h (l ++ l') e := by
  induction w with
  | nil h => exact w'
  | cons o _ ih => exact .cons o (ih w')

theorem Walk.last {h e : Heap} {l : List Heap} (w : Walk h l e) : l.getLastD h = e := by
  induction w with
  | nil h => rfl
  | cons o _ ih => rw [List.getLastD_cons]; exact ih

/-- The recorded heaps of a computation lead from `h` to the heap of its result. -/
def Goes {α : Type} (m : Tr α) (h : Heap) (get : α → Heap) : Prop := ∃ e, Walk h m.heaps e ∧ ∀ a, m.out = .ok a → get a = e

section
variable {α β σ : Type}

theorem Goes.ret {a : α} {h : Heap} {get : α → Heap} (ha : get a = h) : Goes (.ret a) h get := ⟨h, .nil _, fun b hb => by cases hb; exact ha⟩

theorem Goes.raise (e : PyErr) (h : Heap) (get : α → Heap) : Goes (.raise e) h get := ⟨_, .nil _, fun b hb => by cases hb⟩

theorem Goes.lift {x : Except PyErr α} {h : Heap} {get : α → Heap} (hx : ∀ a, x = .ok a → get a = h) : Goes (.lift x) h get := ⟨_, .nil _, hx⟩

theorem Goes.ev {h h' : Heap} {a : α} {get : α → Heap} (o : Op h h') (ha : get a = h') : Goes (.ev h' a) h get :=
  ⟨h', .cons o (.nil _), fun b hb => by cases hb; exact ha⟩

theorem Goes.bind {m : Tr α} {f : α → Tr β} {h : Heap} {get : α → Heap} {get' : β → Heap} (hm : Goes m h get)
    (hf : ∀ a, m.out = .ok a → Goes (f a) (get a) get') : Goes (m.bind f) h get' := by
  obtain ⟨e, w, he⟩ := hm
  unfold Tr.bind
  cases ho : m.out with
  | error x => exact ⟨e, w, fun b hb => by cases hb⟩
  | ok a =>
    obtain ⟨e', w', he'⟩ := hf a ho
    rw [he a ho] at w'
    exact ⟨e', w.append w', he'⟩

theorem Goes.forIn {f : σ → α → Tr σ} {get : σ → Heap} (hf : ∀ s x, Goes (f s x) (get s) get) :
    ∀ (l : List α) (s : σ), Goes (.forIn f l s) (get s) get
  | [], _ => .ret rfl
  | x :: l, s => (hf s x).bind fun t _ => Goes.forIn hf l t

theorem Goes.innerLoopT {step : σ → Tr σ} {stop : σ → Bool} {get : σ → Heap} (hf : ∀ s, Goes (step s) (get s) get) :
    ∀ (k : ℕ) (s : σ), Goes (innerLoopT step stop k s) (get s) get
  | 0, s => .ret rfl
  | k + 1, s => by
    rw [Alias.innerLoopT]
    refine (hf s).bind fun t _ => ?_
    split
    · exact .ret rfl
    · exact Goes.innerLoopT hf k t

end

section
variable {I K R n : ℕ} {J : Fin I → ℕ}

theorem Op.newArr {m : ℕ} (h : Heap) (M : Matrix (Fin m) (Fin n) ℝ) : Op h (h.newArr M).1 :=
  .new (Nat.lt_succ_self _) (fun a ha => (frame_newArr h M).arr a ha id) fun l hl => (frame_newArr h M).lst l hl id

theorem Op.newRagged (h : Heap) (X : Ragged I n J) : Op h (h.newRagged X).1 :=
  .new (by simp only [Heap.newRagged]; omega) (fun a ha => (frame_newRagged h X).arr a ha id) fun l hl => (frame_newRagged h X).lst l hl id

theorem Op.newAuxB (h : Heap) (x : AuxB I R J) : Op h (h.newAuxB x).1 := by
  refine .new ?_ (fun a ha => (frame_newAuxB h x).arr a ha id) fun l hl => (frame_newAuxB h x).lst l hl id
  cases x with
  | mats X => simp only [Heap.newAuxB, Heap.newRagged]; omega
  | p2 a => simp only [Heap.newAuxB, newArr_next, Heap.newRagged]; omega

theorem penStepAT_goes (pens : Fin n → PenA I R) (ρmax : Option ℝ) (ρ : Fin I → ℝ) (s : Heap × LoopMat n) (p : Fin n) :
    Goes (penStepAT pens ρmax ρ s p) s.1 Prod.fst := by
  unfold penStepAT
  refine Goes.bind (get := Prod.fst) ?_ fun x _ => .ev (.newArr _ _) rfl
  unfold auxStepAT
  cases ρmax with
  | some m => exact .ev (.newArr _ _) rfl
  | none =>
    refine Goes.bind (get := id) (Goes.forIn (get := id) (fun h i => ?_) _ _) fun x _ => .ret rfl
    cases (pens p).row with
    | none => exact .raise _ _ _
    | some u => exact .ev (.row _ _ _ _) rfl

theorem stepAT_goes (pens : Fin n → PenA I R) (ρmax : Option ℝ) (ρ : Fin I → ℝ) (svds : Fin I → SVD R R R) (rhs : Fin I → Fin R → ℝ)
    (st : Heap × LoopMat n) : Goes (stepAT pens ρmax ρ svds rhs st) st.1 Prod.fst := by
  unfold stepAT
  refine Goes.bind (get := id) (Goes.forIn (get := id) (fun h i => .ev (.row _ _ _ _) rfl) _ _) fun h _ => ?_
  exact Goes.forIn (get := Prod.fst) (penStepAT_goes pens ρmax ρ) _ _

theorem stepBT_goes (pens : Fin n → PenB I R J) (ρ : Fin I → ℝ) (svds : Fin I → SVD R R R) (rhs : Ragged I R J) (st : Heap × LoopRag n) :
    Goes (stepBT pens ρ svds rhs st) st.1 Prod.fst := by
  unfold stepBT
  refine Goes.bind (get := id) (Goes.forIn (get := id) (fun h i => ?_) _ _) fun h _ => ?_
  · exact Goes.bind (get := Prod.fst) (.ev (.newArr _ _) rfl) fun x _ => .ev (.item _ _ _ _) rfl
  · refine Goes.forIn (get := Prod.fst) (fun s p => ?_) _ _
    unfold penStepBT
    exact Goes.bind (get := Prod.fst) (.ev (.newAuxB _ _) rfl) fun x _ => .ev (.newRagged _ _) rfl

theorem stepCT_goes (pens : Fin n → PenC K R) (ρ : ℝ) (svd : SVD R R R) (rhs : Matrix (Fin K) (Fin R) ℝ) (st : Heap × LoopMat n) :
    Goes (stepCT pens ρ svd rhs st) st.1 Prod.fst := by
  unfold stepCT
  refine Goes.bind (get := Prod.fst) (.ev (.newArr _ _) rfl) fun c _ => ?_
  refine Goes.forIn (get := Prod.fst) (fun s p => ?_) _ (c.1, _)
  unfold penStepCT
  exact Goes.bind (get := Prod.fst) (.ev (.newArr _ _) rfl) fun x _ => .ev (.newArr _ _) rfl

end

section
variable {I K R nA nB nC : ℕ} {J : Fin I → ℕ}

theorem sweepT_goes (P : Problem I K R nA nB nC J) (st : Heap × Refs I R nA nB nC) : Goes (sweepT P st) st.1 fun x => x.1.1 := by
  unfold sweepT
  refine Goes.bind (get := Prod.fst) ?_ fun t _ => Goes.bind (get := Prod.fst) ?_ fun u _ => ?_
  · unfold sweepBT
    split
    · unfold admmUpdateBT
      refine Goes.bind (get := fun _ => st.1) (.lift fun _ _ => rfl) fun ρ _ => Goes.bind (get := Prod.fst) (.ev (.newRagged _ _) rfl) fun old _ => ?_
      exact Goes.bind (Goes.innerLoopT (get := Prod.fst) (stepBT_goes _ _ _ _) _ _) fun e _ => .ret rfl
    · exact .ret rfl
  · unfold sweepCT
    split
    · unfold admmUpdateCT
      refine Goes.bind (get := Prod.fst) (.ev (.newArr _ _) rfl) fun old _ => ?_
      exact Goes.bind (Goes.innerLoopT (get := Prod.fst) (stepCT_goes _ _ _ _) _ _) fun e _ => .ret rfl
    · exact .ret rfl
  · unfold sweepAT
    split
    · refine Goes.bind (get := Prod.fst) ?_ fun v _ => .ret rfl
      unfold admmUpdateAT
      refine Goes.bind (get := fun _ => u.1) (.lift fun _ _ => rfl) fun ρ _ => Goes.bind (get := Prod.fst) (.ev (.newArr _ _) rfl) fun old _ => ?_
      exact Goes.bind (Goes.innerLoopT (get := Prod.fst) (stepAT_goes _ _ _ _ _) _ _) fun e _ => .ret rfl
    · exact .ret rfl

theorem runT_goes (P : Problem I K R nA nB nC J) (a : Args) : ∀ (k : ℕ) (s : Acc (Heap × Refs I R nA nB nC)),
    Goes (runT P a k s) s.st.1 fun x => x.st.1
  | 0, s => .ret rfl
  | k + 1, s => by
    rw [runT]
    refine Goes.bind (get := fun x => x.1.st.1) ?_ fun t _ => ?_
    · unfold bodyT
      refine Goes.bind (sweepT_goes P s.st) fun t _ => .lift fun x hx => ?_
      show x.1.st.1 = t.1.1
      rw [body_st (O := { heapOps P with sweep := fun _ => .ok t }) rfl hx]
    · split
      · exact .ret rfl
      · exact runT_goes P a k t.1

/-- C89, the record. The recorded call returns the same, or raises the same exception, as the call; the recorded heaps lead from the initial heap, one
operation at a time, to the last one, which is the heap after the call if it returns. -/
theorem C89_record (P : Problem I K R nA nB nC J) (a : Args) (h : Heap) (r : Refs I R nA nB nC) :
    (cmfAoadmmT P a (h, r)).out = cmfAoadmmH P a (h, r) ∧
    Walk h (cmfAoadmmT P a (h, r)).heaps ((cmfAoadmmT P a (h, r)).heaps.getLastD h) ∧
    ∀ o, cmfAoadmmH P a (h, r) = .ok o → o.st.1 = (cmfAoadmmT P a (h, r)).heaps.getLastD h := by
  have h1 := cmfAoadmmT_out P a (h, r)
  have h2 : Goes (cmfAoadmmT P a (h, r)) h fun o => o.st.1 := by
    unfold cmfAoadmmT
    refine Goes.bind (get := Prod.fst) ?_ fun st _ => ?_
    · unfold initT
      cases r.weights with
      | none => exact .ret rfl
      | some w => exact .ev (.newArr _ _) rfl
    · exact Goes.bind (runT_goes P a _ _) fun s _ => .ret rfl
  obtain ⟨e, w, he⟩ := h2
  rw [w.last]
  exact ⟨h1, w, fun o ho => he o (by rw [h1]; exact ho)⟩

/-! ### C89 -/

/-- The objects that a call writes to, for every recorded heap; nothing is assumed about which objects are used twice. -/
theorem C89_frame (P : Problem I K R nA nB nC J) (a : Args) (h : Heap) (r : Refs I R nA nB nC) {x : Heap} (hx : x ∈ (cmfAoadmmT P a (h, r)).heaps) :
    Frame (fun x => (x = r.A ∧ r.weights = none ∧ P.updA = true ∧ 2 ≤ P.params.nInner) ∨ ((∃ p, x = r.auxA p) ∧ P.updA = true ∧ P.constA = false))
      (fun l => l = r.B ∧ P.updB = true ∧ 2 ≤ P.params.nInner) h x := by
  suffices hs : (cmfAoadmmT P a (h, r)).Sat (Frame (fun x => (x = r.A ∧ r.weights = none ∧ P.updA = true ∧ 2 ≤ P.params.nInner) ∨
      ((∃ p, x = r.auxA p) ∧ P.updA = true ∧ P.constA = false)) (fun l => l = r.B ∧ P.updB = true ∧ 2 ≤ P.params.nInner) h) fun _ => True from hs.1 x hx
  unfold cmfAoadmmT initT
  cases hw : r.weights with
  | none =>
    simp only
    refine Tr.Sat.bind (Q := fun st => st = (h, r)) (.ret rfl) ?_
    rintro st rfl
    refine Tr.Sat.bind ((runT_keeps P a _ (initAcc (heapOps P) a none (h, r))).mono (fun x hx => ?_) fun _ _ => trivial) fun _ _ => .ret trivial
    refine hx.frame.mono (fun y _ hy => ?_) fun _ _ hl => hl
    rcases hy with ⟨h1, h2⟩ | h1
    · exact .inl ⟨h1, trivial, h2⟩
    · exact .inr h1
  | some w =>
    simp only
    set M := scaleCols w (h.mat I R r.A)
    have h0 := frame_newArr h M
    refine Tr.Sat.bind (Q := fun st => st = ((h.newArr M).1, { r with weights := none, A := (h.newArr M).2 })) (.ev ?_ rfl) ?_
    · exact h0.mono (fun _ _ hc => hc.elim) fun _ _ hc => hc.elim
    · rintro st rfl
      refine Tr.Sat.bind ((runT_keeps P a _ (initAcc (heapOps P) a none ((h.newArr M).1, { r with weights := none, A := (h.newArr M).2 }))).mono
        (fun x hx => ?_) fun _ _ => trivial) fun _ _ => .ret trivial
      refine (h0.mono (fun _ _ hc => hc.elim) fun _ _ hc => hc.elim).trans hx.frame ?_ fun _ _ hl => hl
      rintro y hy (⟨h1, -⟩ | h1)
      · exact absurd hy (by rw [h1]; exact lt_irrefl _)
      · exact .inr h1

/-- C89. Wherever a call is cut off, and whatever the exception: the data matrices, the B factor matrices, `C`, the dual variables and the auxiliary
variables of modes 1 and 2 are unchanged; so is the array `A`, if there are weights, A is not updated, or there is at most one inner iteration; so is the
list of B factor matrices, if B is not updated or there is at most one inner iteration; so are the auxiliary variables of mode 0, if A is not updated or has a
constant feasibility penalty. -/
theorem C89 (P : Problem I K R nA nB nC J) (a : Args) (h : Heap) (r : Refs I R nA nB nC) (d : Distinct h r) {x : Heap}
    (hx : x ∈ (cmfAoadmmT P a (h, r)).heaps) :
    (∀ i, x.arr (r.X i) = h.arr (r.X i)) ∧ (∀ i : Fin I, x.arr (h.lst r.B i) = h.arr (h.lst r.B i)) ∧ x.arr r.C = h.arr r.C ∧
    (∀ p, x.arr (r.dualA p) = h.arr (r.dualA p)) ∧ (∀ p, ∀ i : Fin I, x.arr (h.lst (r.dualB p) i) = h.arr (h.lst (r.dualB p) i)) ∧
    (∀ p, x.lst (r.dualB p) = h.lst (r.dualB p)) ∧ (∀ p, x.arr (r.dualC p) = h.arr (r.dualC p)) ∧
    (∀ p y, h.auxArr I (r.auxB p) y → x.arr y = h.arr y) ∧ (∀ p, x.lst (r.auxB p).list = h.lst (r.auxB p).list) ∧
    (∀ p, x.arr (r.auxC p) = h.arr (r.auxC p)) ∧
    (r.weights ≠ none ∨ P.updA = false ∨ P.params.nInner ≤ 1 → x.arr r.A = h.arr r.A) ∧
    (P.updB = false ∨ P.params.nInner ≤ 1 → x.lst r.B = h.lst r.B) ∧
    (P.updA = false ∨ P.constA = true → ∀ p, x.arr (r.auxA p) = h.arr (r.auxA p)) := by
  have f := C89_frame P a h r hx
  have hro : ∀ y, ReadOnly h r y → x.arr y = h.arr y := by
    intro y hy
    refine f.arr y (d.ro_ok y hy) ?_
    rintro (⟨h1, -⟩ | ⟨⟨p, h1⟩, -⟩)
    · exact d.ro_A y hy h1
    · exact d.ro_aux y hy p h1
  refine ⟨fun i => hro _ (.inl ⟨i, rfl⟩), fun i => hro _ (.inr (.inr (.inl ⟨i, rfl⟩))), hro _ (.inr (.inl rfl)),
    fun p => hro _ (.inr (.inr (.inr (.inl ⟨p, rfl⟩)))), fun p i => hro _ (.inr (.inr (.inr (.inr (.inr (.inl ⟨p, i, rfl⟩)))))),
    fun p => f.lst _ (d.dualB_ok p) fun h1 => d.B_dual p h1.1, fun p => hro _ (.inr (.inr (.inr (.inr (.inr (.inr (.inr ⟨p, rfl⟩))))))),
    fun p y hy => hro _ (.inr (.inr (.inr (.inr (.inl ⟨p, hy⟩))))), fun p => f.lst _ (d.auxB_ok p) fun h1 => d.B_aux p h1.1,
    fun p => hro _ (.inr (.inr (.inr (.inr (.inr (.inr (.inl ⟨p, rfl⟩))))))), fun hc => ?_, fun hc => ?_, fun hc p => ?_⟩
  · refine f.arr _ d.A_ok ?_
    rintro (⟨-, h1, h2, h3⟩ | ⟨⟨p, h1⟩, -⟩)
    · rcases hc with hc | hc | hc
      · exact hc h1
      · rw [hc] at h2; exact absurd h2 (by decide)
      · omega
    · exact d.A_aux p h1.symm
  · refine f.lst _ d.B_ok ?_
    rintro ⟨-, h2, h3⟩
    rcases hc with hc | hc
    · rw [hc] at h2; exact absurd h2 (by decide)
    · omega
  · refine f.arr _ (d.aux_ok p) ?_
    rintro (⟨h1, -⟩ | ⟨-, h2, h3⟩)
    · exact d.A_aux p h1
    · rcases hc with hc | hc
      · rw [hc] at h2; exact absurd h2 (by decide)
      · rw [hc] at h3; exact absurd h3 (by decide)

end

/-! ### Calls that raise -/

theorem bind_heaps_error {α β : Type} {m : Tr α} {e : PyErr} (h : m.out = .error e) (f : α → Tr β) : (m.bind f).heaps = m.heaps := by
  unfold Tr.bind; rw [h]

theorem bind_heaps_ok {α β : Type} {m : Tr α} {a : α} (h : m.out = .ok a) (f : α → Tr β) : (m.bind f).heaps = m.heaps ++ (f a).heaps := by
  unfold Tr.bind; rw [h]

theorem getLastD_append (l l' : List Heap) (h : Heap) : (l ++ l').getLastD h = l'.getLastD (l.getLastD h) := by
  induction l generalizing h with
  | nil => rfl
  | cons x l ih => rw [List.cons_append, List.getLastD_cons, List.getLastD_cons, ih]

/-- A call that raises may have changed the caller's objects. With `tol` but without `absolute_tol`, TypeError is raised after the first iteration, in
which the caller's array A has been overwritten (1 has become 2). -/
theorem C89_typeError : ∃ (P : Problem 1 1 1 0 0 0 fun _ => 1) (a : Args) (h : Heap) (r : Refs 1 1 0 0 0), ValidSVD P.params ∧ P.params.nInner = 2 ∧
    Distinct h r ∧ (cmfAoadmmT P a (h, r)).out = .error .typeError ∧ h.mat 1 1 r.A 0 0 = 1 ∧
    ((cmfAoadmmT P a (h, r)).heaps.getLastD h).mat 1 1 r.A 0 0 = 2 := by
  obtain ⟨prm, hP, hN, ht, hs⟩ := exists_params 1 2 none 1
  obtain ⟨t, h1, h2⟩ := updateAH_two hP hN ht hs
  let P := scP prm 2 0 (Fin.elim0 : Fin 0 → PenA 1 1)
  let h := scHeap (fun k => if k = 0 then 2 else 1) 5
  let a : Args := ⟨1, some 1, none, none, true, 0⟩
  have hsw : ∃ i, sweepH P (h, scRefs 0) = .ok (t, i) := by
    refine ⟨some ⟨rhsA (h.data 1 (fun _ => 1) (scRefs 0).X) (h.factors 1 (fun _ => 1) (scRefs 0)), crossA (h.factors 1 (fun _ => 1) (scRefs 0))⟩, ?_⟩
    simp only [sweepH, sweepBH, sweepCH, sweepAH, P, scP, Bool.false_eq_true, if_false, if_true, Except.bind]
    rw [show admmUpdateAH prm (Fin.elim0 : Fin 0 → PenA 1 1) 0 false 1 (fun _ => 1) (h, scRefs 0) = .ok t from h1]
    rfl
  obtain ⟨i, hsw⟩ := hsw
  have hb : (bodyT P a (initAcc (heapOps P) a none (h, scRefs 0))).out = .error .typeError := by
    rw [bodyT_out]
    unfold body
    rw [show (heapOps P).sweep (initAcc (heapOps P) a none (h, scRefs 0)).st = .ok (t, i) from hsw]
    simp [a, truthy, checkStop]
  have hh : (cmfAoadmmT P a (h, scRefs 0)).heaps.getLastD h = t.1 := by
    have e1 : (cmfAoadmmT P a (h, scRefs 0)).heaps = (sweepT P (h, scRefs 0)).heaps := by
      unfold cmfAoadmmT
      rw [bind_heaps_ok (initT_out _)]
      refine (bind_heaps_error (e := .typeError) ?_ _).trans ?_
      · exact Tr.bind_error hb _
      · refine (bind_heaps_error hb _).trans ?_
        exact (bind_heaps_ok (by rw [sweepT_out]; exact hsw) _).trans (List.append_nil _)
    obtain ⟨e, w, he⟩ := sweepT_goes P (h, scRefs 0)
    rw [e1, w.last]
    exact (he (t, i) (by rw [sweepT_out]; exact hsw)).symm
  refine ⟨P, a, h, scRefs 0, hP, hN, scRefs_distinct _ 0, ?_, by simp [Heap.mat, h, scHeap, scRefs], ?_⟩
  · unfold cmfAoadmmT
    rw [Tr.bind_ok (initT_out _)]
    exact Tr.bind_error (Tr.bind_error hb _) _
  · rw [hh]; exact h2

/-- If the second of two penalties has no row update, the first inner iteration ends after the update of the first penalty. -/
theorem stepAT_two {R : ℕ} {pens : Fin 2 → PenA 1 R} {u : RowUpdate R} (h0 : (pens 0).row = some u) (h1 : (pens 1).row = none) (ρ : Fin 1 → ℝ)
    (svds : Fin 1 → SVD R R R) (rhs : Fin 1 → Fin R → ℝ) (st : Heap × LoopMat 2) :
    (stepAT pens none ρ svds rhs st).out = .error .attributeError ∧
    ∃ (w : Heap) (Y : Matrix (Fin 1) (Fin R) ℝ) (M : Matrix (Fin 1) (Fin R) ℝ), w.next = st.1.next ∧
      (stepAT pens none ρ svds rhs st).heaps.getLastD st.1 = ((rowUpdates u Y ρ (st.2.aux 0) w).newArr M).1 := by
  have hno : ¬ Has (pens 1) none := by
    rintro (h | h | h)
    · cases h
    · cases h
    · rw [h1] at h; cases h
  have hyes : Has (pens 0) none := .inr (.inr (by rw [h0]; rfl))
  refine ⟨stepAT_error ⟨1, hno⟩ _ _ _ _, ?_⟩
  unfold stepAT
  simp only
  rw [bind_heaps_ok (writeRowsT_out _ _ _), getLastD_append]
  set rows := fun i => svdSolveRow (svds i) (ρ i • (∑ p, (st.1.mat 1 R (st.2.aux p) - st.1.mat 1 R (st.2.dual p)) i) + rhs i)
  have hw : (writeRowsT st.1 st.2.old rows).heaps.getLastD st.1 = writeRows st.1 st.2.old rows := by
    obtain ⟨e, w, he⟩ : Goes (writeRowsT st.1 st.2.old rows) st.1 id := Goes.forIn (get := id) (fun h i => .ev (.row _ _ _ _) rfl) _ _
    rw [w.last]
    exact (he _ (writeRowsT_out _ _ _)).symm
  rw [hw, show List.finRange 2 = [0, 1] from rfl, Tr.forIn, bind_heaps_ok (penStepAT_out hyes ρ _), getLastD_append]
  set t : Heap × LoopMat 2 := (writeRows st.1 st.2.old rows, ⟨st.2.old, st.2.cur, st.2.aux, st.2.dual⟩) with ht
  have h2 : (Tr.forIn (penStepAT pens none ρ) [1] (penStepA pens none ρ t 0)).heaps = [] := by
    rw [Tr.forIn, bind_heaps_error (penStepAT_error hno ρ _)]
    unfold penStepAT
    simp only
    rw [bind_heaps_error (auxStepAT_error hno _ _ _ _)]
    unfold auxStepAT
    simp only [h1]
    rfl
  rw [h2, List.getLastD_nil]
  have h3 : (penStepAT pens none ρ t 0).heaps.getLastD (writeRows st.1 st.2.old rows) = (penStepA pens none ρ t 0).1 := by
    obtain ⟨e, w, he⟩ : Goes (penStepAT pens none ρ t 0) t.1 Prod.fst := penStepAT_goes pens none ρ t 0
    rw [show writeRows st.1 st.2.old rows = t.1 from rfl, w.last]
    exact (he _ (penStepAT_out hyes ρ _)).symm
  rw [h3]
  obtain ⟨M, hM⟩ : ∃ M : Matrix (Fin 1) (Fin R) ℝ, (penStepA pens none ρ t 0).1 =
      ((auxStepA (pens 0) none ρ (t.1.mat 1 R t.2.cur + t.1.mat 1 R (t.2.dual 0)) t.1 (t.2.aux 0)).1.newArr M).1 := ⟨_, rfl⟩
  refine ⟨writeRows st.1 st.2.old rows, t.1.mat 1 R t.2.cur + t.1.mat 1 R (t.2.dual 0), M, (writeRows_spec _ _ _).2.2.1, ?_⟩
  rw [hM]
  simp only [auxStepA, h0]
  rfl

/-- Likewise, AttributeError (of a penalty on A without row update, behind a penalty with one) is raised after the auxiliary variable of the first penalty has
been overwritten: the caller's array contained a negative number and now contains a non-negative one. -/
theorem C89_attributeError : ∃ (P : Problem 1 1 1 2 0 0 fun _ => 1) (a : Args) (h : Heap) (r : Refs 1 1 2 0 0), ValidSVD P.params ∧
    P.pensA = ![StdPen.nonNeg.toA, (StdPen.l2Ball 1 false).toA] ∧ Distinct h r ∧ (cmfAoadmmT P a (h, r)).out = .error .attributeError ∧
    h.mat 1 1 (r.auxA 0) 0 0 = -5 ∧ 0 ≤ ((cmfAoadmmT P a (h, r)).heaps.getLastD h).mat 1 1 (r.auxA 0) 0 0 := by
  obtain ⟨prm, hP, hN, -, -⟩ := exists_params 1 1 none 1
  let pens : Fin 2 → PenA 1 1 := ![StdPen.nonNeg.toA, (StdPen.l2Ball 1 false).toA]
  let P := scP prm 2 0 pens
  let h := scHeap (fun k => if k = 5 then -5 else 1) 9
  let r := scRefs 2
  have hA : (admmUpdateAT P.params P.pensA P.l2.1 P.constA 1 (fun _ => 1) (h, r)).out = .error .attributeError ∧
      0 ≤ ((admmUpdateAT P.params P.pensA P.l2.1 P.constA 1 (fun _ => 1) (h, r)).heaps.getLastD h).mat 1 1 (r.auxA 0) 0 0 := by
    unfold admmUpdateAT
    simp only
    obtain ⟨ρ, hρ⟩ : ∃ ρ : Fin 1 → ℝ, feasPenalties P.params.scale P.constA (crossA (h.factors 1 (fun _ => 1) r)) = .ok (none, ρ) := ⟨_, rfl⟩
    rw [hρ, Tr.bind_ok (Tr.lift_out _), bind_heaps_ok (Tr.lift_out _), Tr.bind_ok (Tr.ev_out _ _), bind_heaps_ok (Tr.ev_out _ _)]
    rw [show P.params.nInner = 1 from hN, show innerLoopT = innerLoopT from rfl]
    simp only [innerLoopT]
    obtain ⟨e1, w, Y, M, e2, e3⟩ := stepAT_two (pens := P.pensA) (u := nonNegRow 1) rfl rfl ρ
      (fun i => P.params.svd (addRidge (crossA (h.factors 1 (fun _ => 1) r) i) (ρ i) 2 P.l2.1))
      (rhsA (h.data 1 (fun _ => 1) r.X) (h.factors 1 (fun _ => 1) r))
      ((h.newArr (h.mat 1 1 r.A)).1, ⟨r.A, (h.newArr (h.mat 1 1 r.A)).2, r.auxA, r.dualA⟩)
    refine ⟨Tr.bind_error (Tr.bind_error e1 _) _, ?_⟩
    rw [bind_heaps_error (Tr.bind_error e1 _), bind_heaps_error e1]
    show 0 ≤ (([] ++ ([(h.newArr (h.mat 1 1 r.A)).1] ++ _) : List Heap).getLastD h).mat 1 1 (r.auxA 0) 0 0
    rw [List.nil_append, getLastD_append, show ([(h.newArr (h.mat 1 1 r.A)).1] : List Heap).getLastD h = (h.newArr (h.mat 1 1 r.A)).1 from rfl]
    rw [e3]
    obtain ⟨s1, -, s3, -⟩ := rowUpdates_spec (nonNegRow 1) Y ρ (r.auxA 0) w
    rw [(frame_newArr _ M).mat (a := r.auxA 0) ?_ id, s1]
    · simp only [nonNegRow, clip]
      simp
    · rw [s3, e2]
      show 5 + 0 < 9 + 1
      omega
  have hsw : (sweepT P (h, r)).out = .error .attributeError ∧ (sweepT P (h, r)).heaps =
      (admmUpdateAT P.params P.pensA P.l2.1 P.constA 1 (fun _ => 1) (h, r)).heaps := by
    have : sweepT P (h, r) = (Tr.ret (h, r)).bind fun t => (Tr.ret t).bind (sweepAT P) := rfl
    rw [this]
    rw [Tr.bind_ok (Tr.ret_out _), bind_heaps_ok (Tr.ret_out _), Tr.bind_ok (Tr.ret_out _), bind_heaps_ok (Tr.ret_out _)]
    have e : sweepAT P (h, r) = (admmUpdateAT P.params P.pensA P.l2.1 P.constA 1 (fun _ => 1) (h, r)).bind fun t =>
      .ret (t, some ⟨rhsA (h.data 1 (fun _ => 1) r.X) (h.factors 1 (fun _ => 1) r), crossA (h.factors 1 (fun _ => 1) r)⟩) := rfl
    rw [e, Tr.bind_error hA.1, bind_heaps_error hA.1]
    exact ⟨rfl, rfl⟩
  have hb : (bodyT P (plain 1) (initAcc (heapOps P) (plain 1) none (h, r))).out = .error .attributeError ∧
      (bodyT P (plain 1) (initAcc (heapOps P) (plain 1) none (h, r))).heaps = (sweepT P (h, r)).heaps :=
    ⟨Tr.bind_error hsw.1 _, bind_heaps_error hsw.1 _⟩
  have e : cmfAoadmmT P (plain 1) (h, r) = (Tr.ret (h, r)).bind fun st =>
      ((bodyT P (plain 1) (initAcc (heapOps P) (plain 1) none st)).bind fun t => if t.2 then .ret t.1 else runT P (plain 1) 0 t.1).bind fun s =>
      .ret ⟨s.st, if (plain 1).returnErrors then some (diagnostics (heapOps P) (plain 1) s) else .none, s.log⟩ := rfl
  have hd : Distinct h r := scRefs_distinct _ 2
  refine ⟨P, plain 1, h, r, hP, rfl, hd, ?_, by simp [Heap.mat, h, scHeap, r, scRefs], ?_⟩
  · rw [e, Tr.bind_ok (Tr.ret_out _)]
    exact Tr.bind_error (Tr.bind_error hb.1 _) _
  · rw [e, bind_heaps_ok (Tr.ret_out _), bind_heaps_error (Tr.bind_error hb.1 _), bind_heaps_error hb.1, hb.2, hsw.2]
    exact hA.2

end Verif.Props
