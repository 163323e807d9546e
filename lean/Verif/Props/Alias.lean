import Verif.Alias.Refine
import Verif.Props.LoopFalse

/-!
# C45, C46, C47, C64: which of the caller's objects `cmf_aoadmm` changes, and what the in-place updates compute

`Verif/Alias` models the array and list objects. `Distinct` is the condition that the objects written to are used only once.
-/

namespace Verif.Props

open Verif.Loop Verif.ADMM Verif.Penalties Verif.Spec Verif.Alias Finset

section
variable {I K R nA nB nC : ℕ} {J : Fin I → ℕ}

theorem distinct_initH {h : Heap} {r : Refs I R nA nB nC} (d : Distinct h r) : Distinct (initH I (h, r)).1 (initH I (h, r)).2 := by
  unfold initH
  cases hw : r.weights with
  | none => simpa only [hw] using d
  | some w =>
    simp only
    set M := scaleCols w (h.mat I R r.A)
    have f := frame_newArr h M
    have hro : ∀ a, ReadOnly (R := R) (h.newArr M).1 { r with weights := none, A := (h.newArr M).2 } a → ReadOnly h r a := by
      rintro a (h1 | h1 | h1 | h1 | h1 | h1 | h1 | h1)
      · exact .inl h1
      · exact .inr (.inl h1)
      · exact .inr (.inr (.inl h1))
      · exact .inr (.inr (.inr (.inl h1)))
      · obtain ⟨p, h1⟩ := h1
        exact .inr (.inr (.inr (.inr (.inl ⟨p, (auxArr_congr rfl I a).1 h1⟩))))
      · exact .inr (.inr (.inr (.inr (.inr (.inl h1)))))
      · exact .inr (.inr (.inr (.inr (.inr (.inr (.inl h1))))))
      · exact .inr (.inr (.inr (.inr (.inr (.inr (.inr h1))))))
    have hn := f.next
    refine ⟨fun a ha => lt_of_lt_of_le (d.ro_ok a (hro a ha)) hn, fun a ha => ?_, fun a ha => d.ro_aux a (hro a ha), Nat.lt_succ_self _,
      fun p => lt_of_lt_of_le (d.aux_ok p) hn, fun p => ?_, d.aux_inj, lt_of_lt_of_le d.B_ok hn, fun p => lt_of_lt_of_le (d.auxB_ok p) hn,
      fun p => lt_of_lt_of_le (d.dualB_ok p) hn, d.B_aux, d.B_dual⟩
    · exact ne_of_lt (d.ro_ok a (hro a ha))
    · exact ne_of_lt (d.aux_ok p)

theorem frame_initH (h : Heap) (r : Refs I R nA nB nC) : Frame No No h (initH I (h, r)).1 := by
  unfold initH
  cases hw : r.weights with
  | none => simpa only [hw] using Frame.refl _ _ h
  | some w => simp only; exact frame_newArr h _

theorem state_initH {h : Heap} {r : Refs I R nA nB nC} (d : Distinct h r) :
    (initH I (h, r)).1.state K J (initH I (h, r)).2 = { h.state K J r with weights := none, F := absorb r.weights (h.factors K J r) } ∧
    (initH I (h, r)).1.data K J (initH I (h, r)).2.X = h.data K J r.X := by
  unfold initH
  cases hw : r.weights with
  | none =>
    simp only
    refine ⟨?_, trivial⟩
    simp only [Heap.state, hw, Heap.factors, absorb, Option.getD_none, mul_one]
  | some w =>
    simp only
    set M := scaleCols w (h.mat I R r.A) with hM
    have f := frame_newArr h M
    obtain ⟨k1, k2, k3, k4, k5, k6, k7, k8⟩ := ro_values (K := K) (J := J) d f (fun _ _ => id)
    have kaux : ∀ p, (h.newArr M).1.mat I R (r.auxA p) = h.mat I R (r.auxA p) := fun p => f.mat (d.aux_ok p) id _ _
    refine ⟨?_, k1⟩
    simp only [Heap.state, Heap.factors, newArr_snd, newArr_mat, k2, k3, k4, k5, k6, k7, k8, kaux]
    congr 2
    funext i q
    simp [hM, scaleCols, mul_comm]

/-! ### C47 -/

/-- C47. If the objects written to are used only once, the implementation returns the same factors, auxiliary and dual variables (and diagnostics, and
raises the same exception) as the pure algorithm, for all numbers of outer and inner iterations. The data are not changed and the returned objects are again
distinct. -/
theorem C47 (P : Problem I K R nA nB nC J) (a : Args) (h : Heap) (r : Refs I R nA nB nC) (d : Distinct h r) (hX : h.data K J r.X = P.X) :
    ((cmfAoadmmH P a (h, r)).map fun o => (⟨o.st.1.state K J o.st.2, o.diag, o.log⟩ : Output _)) =
      cmfAoadmm P a { h.state K J r with weights := none, F := absorb r.weights (h.factors K J r) } ∧
    ∀ o, cmfAoadmmH P a (h, r) = .ok o → Distinct o.st.1 o.st.2 ∧ o.st.1.data K J o.st.2.X = P.X := by
  obtain ⟨s1, s2⟩ := state_initH (K := K) (J := J) d
  have hg : Good P (initH I (h, r)).1 (initH I (h, r)).2 (initH I (h, r)) := ⟨distinct_initH d, s2.trans hX, Since.refl _ _ _⟩
  obtain ⟨h1, h2⟩ := fit_sim (heapOps_sim P (initH I (h, r)).1 (initH I (h, r)).2) a none (initH I (h, r)) hg
  refine ⟨?_, fun o ho => ⟨(h2 o ho).1, (h2 o ho).2.1⟩⟩
  unfold cmfAoadmmH cmfAoadmm
  rw [← s1, h1]

/-- What a call that returns does to the objects. -/
theorem effects (P : Problem I K R nA nB nC J) (a : Args) (h : Heap) (r : Refs I R nA nB nC) (d : Distinct h r) (hX : h.data K J r.X = P.X)
    {o} (ho : cmfAoadmmH P a (h, r) = .ok o) :
    Frame (fun x => (x = r.A ∧ r.weights = none ∧ P.updA = true ∧ 2 ≤ P.params.nInner) ∨ ((∃ p, x = r.auxA p) ∧ P.updA = true ∧ P.constA = false))
      (fun l => l = r.B ∧ P.updB = true ∧ 2 ≤ P.params.nInner) h o.st.1 ∧
    ∀ p, P.constA = false → o.st.2.auxA p = r.auxA p := by
  obtain ⟨-, s2⟩ := state_initH (K := K) (J := J) d
  have hg : Good P (initH I (h, r)).1 (initH I (h, r)).2 (initH I (h, r)) := ⟨distinct_initH d, s2.trans hX, Since.refl _ _ _⟩
  obtain ⟨-, -, hs⟩ := (fit_sim (heapOps_sim P (initH I (h, r)).1 (initH I (h, r)).2) a none (initH I (h, r)) hg).2 o ho
  have hA : (initH I (h, r)).2.A = r.A ∧ r.weights = none ∨ h.next ≤ (initH I (h, r)).2.A := by
    unfold initH
    cases hw : r.weights with
    | none => simp only; exact .inl ⟨trivial, trivial⟩
    | some w => simp only; exact .inr (le_refl _)
  have hr : (initH I (h, r)).2.auxA = r.auxA ∧ (initH I (h, r)).2.B = r.B := by
    unfold initH
    cases hw : r.weights with
    | none => simp only; exact ⟨trivial, trivial⟩
    | some w => simp only; exact ⟨trivial, trivial⟩
  obtain ⟨hr1, hr2⟩ := hr
  constructor
  · refine (frame_initH h r).mono (fun _ _ => False.elim) (fun _ _ => False.elim) |>.trans hs.frame ?_ ?_
    · rw [hr1]
      rintro x hx (⟨h1, h2⟩ | h1)
      · rcases hA with h3 | h3
        · exact .inl ⟨h1.trans h3.1, h3.2, h2⟩
        · omega
      · exact .inr h1
    · rw [hr2]
      exact fun _ _ hl => hl
  · intro p hc
    rcases hs.aux p with h1 | h1
    · rw [h1, hr1]
    · rw [h1.1] at hc; exact absurd hc (by decide)

/-! ### C45 -/

/-- C45, restricted. A call that returns has not changed the B factor matrices and `C`; nor the array `A`, if there are weights, A is not updated, or there is
at most one inner iteration; nor the list of B factor matrices, if B is not updated or there is at most one inner iteration. -/
theorem C45_partial (P : Problem I K R nA nB nC J) (a : Args) (h : Heap) (r : Refs I R nA nB nC) (d : Distinct h r) (hX : h.data K J r.X = P.X)
    {o} (ho : cmfAoadmmH P a (h, r) = .ok o) :
    (∀ i : Fin I, o.st.1.arr (h.lst r.B i) = h.arr (h.lst r.B i)) ∧ o.st.1.arr r.C = h.arr r.C ∧
    (r.weights ≠ none ∨ P.updA = false ∨ P.params.nInner ≤ 1 → o.st.1.arr r.A = h.arr r.A) ∧
    (P.updB = false ∨ P.params.nInner ≤ 1 → o.st.1.lst r.B = h.lst r.B) := by
  obtain ⟨f, -⟩ := effects P a h r d hX ho
  have hro : ∀ x, ReadOnly h r x → o.st.1.arr x = h.arr x := by
    intro x hx
    refine f.arr x (d.ro_ok x hx) ?_
    rintro (⟨h1, -⟩ | ⟨⟨p, h1⟩, -⟩)
    · exact d.ro_A x hx h1
    · exact d.ro_aux x hx p h1
  refine ⟨fun i => hro _ (.inr (.inr (.inl ⟨i, rfl⟩))), hro _ (.inr (.inl rfl)), fun hc => ?_, fun hc => ?_⟩
  · refine f.arr _ d.A_ok ?_
    rintro (⟨-, h1, h2, h3⟩ | ⟨⟨p, h1⟩, -⟩)
    · rcases hc with hc | hc | hc
      · exact hc h1
      · rw [hc] at h2; exact absurd h2 (by decide)
      · omega
    · exact d.A_aux p h1.symm
  · refine f.lst _ d.B_ok ?_
    rintro ⟨-, h2, h3⟩
    rcases hc with hc | hc
    · rw [hc] at h2; exact absurd h2 (by decide)
    · omega

/-! ### C46 -/

/-- C46, restricted. A call that returns has not changed the arrays and lists of the auxiliary variables of modes 1 and 2; nor those of mode 0, if A is not
updated or has a constant feasibility penalty. -/
theorem C46_partial (P : Problem I K R nA nB nC J) (a : Args) (h : Heap) (r : Refs I R nA nB nC) (d : Distinct h r) (hX : h.data K J r.X = P.X)
    {o} (ho : cmfAoadmmH P a (h, r) = .ok o) :
    (∀ p, o.st.1.arr (r.auxC p) = h.arr (r.auxC p)) ∧ (∀ p x, h.auxArr I (r.auxB p) x → o.st.1.arr x = h.arr x) ∧
    (∀ p, o.st.1.lst (r.auxB p).list = h.lst (r.auxB p).list) ∧
    (P.updA = false ∨ P.constA = true → ∀ p, o.st.1.arr (r.auxA p) = h.arr (r.auxA p)) := by
  obtain ⟨f, -⟩ := effects P a h r d hX ho
  have hro : ∀ x, ReadOnly h r x → o.st.1.arr x = h.arr x := by
    intro x hx
    refine f.arr x (d.ro_ok x hx) ?_
    rintro (⟨h1, -⟩ | ⟨⟨p, h1⟩, -⟩)
    · exact d.ro_A x hx h1
    · exact d.ro_aux x hx p h1
  refine ⟨fun p => hro _ (.inr (.inr (.inr (.inr (.inr (.inr (.inl ⟨p, rfl⟩))))))), fun p x hx => hro _ (.inr (.inr (.inr (.inr (.inl ⟨p, hx⟩))))),
    fun p => ?_, fun hc p => ?_⟩
  · exact f.lst _ (d.auxB_ok p) fun h1 => d.B_aux p h1.1
  · refine f.arr _ (d.aux_ok p) ?_
    rintro (⟨h1, -⟩ | ⟨-, h2, h3⟩)
    · exact d.A_aux p h1
    · rcases hc with hc | hc
      · rw [hc] at h2; exact absurd h2 (by decide)
      · rw [hc] at h3; exact absurd h3 (by decide)

/-- Without a constant feasibility penalty for A, the array the caller passed as auxiliary variable of mode 0 is the one that is returned: after the call it
contains the final auxiliary variable. -/
theorem C46_overwritten (P : Problem I K R nA nB nC J) (a : Args) (h : Heap) (r : Refs I R nA nB nC) (d : Distinct h r) (hX : h.data K J r.X = P.X)
    (hc : P.constA = false) {s : Output _}
    (hs : cmfAoadmm P a { h.state K J r with weights := none, F := absorb r.weights (h.factors K J r) } = .ok s) :
    ∃ o, cmfAoadmmH P a (h, r) = .ok o ∧ ∀ p, o.st.1.mat I R (r.auxA p) = s.st.auxA p := by
  have h1 := (C47 P a h r d hX).1
  rw [hs] at h1
  cases ho : cmfAoadmmH P a (h, r) with
  | error e => rw [ho] at h1; cases h1
  | ok o =>
    rw [ho] at h1
    simp only [Except.map, Except.ok.injEq] at h1
    refine ⟨o, rfl, fun p => ?_⟩
    rw [← (effects P a h r d hX ho).2 p hc, ← h1]
    rfl

/-! ### C64 -/

/-- C64. A call that returns has not changed the data matrices and the dual variables the caller passed. -/
theorem C64 (P : Problem I K R nA nB nC J) (a : Args) (h : Heap) (r : Refs I R nA nB nC) (d : Distinct h r) (hX : h.data K J r.X = P.X)
    {o} (ho : cmfAoadmmH P a (h, r) = .ok o) :
    (∀ i, o.st.1.arr (r.X i) = h.arr (r.X i)) ∧ (∀ p, o.st.1.arr (r.dualA p) = h.arr (r.dualA p)) ∧
    (∀ p, ∀ i : Fin I, o.st.1.arr (h.lst (r.dualB p) i) = h.arr (h.lst (r.dualB p) i)) ∧ (∀ p, o.st.1.lst (r.dualB p) = h.lst (r.dualB p)) ∧
    ∀ p, o.st.1.arr (r.dualC p) = h.arr (r.dualC p) := by
  obtain ⟨f, -⟩ := effects P a h r d hX ho
  have hro : ∀ x, ReadOnly h r x → o.st.1.arr x = h.arr x := by
    intro x hx
    refine f.arr x (d.ro_ok x hx) ?_
    rintro (⟨h1, -⟩ | ⟨⟨p, h1⟩, -⟩)
    · exact d.ro_A x hx h1
    · exact d.ro_aux x hx p h1
  exact ⟨fun i => hro _ (.inl ⟨i, rfl⟩), fun p => hro _ (.inr (.inr (.inr (.inl ⟨p, rfl⟩)))),
    fun p i => hro _ (.inr (.inr (.inr (.inr (.inr (.inl ⟨p, i, rfl⟩)))))), fun p => f.lst _ (d.dualB_ok p) fun h1 => d.B_dual p h1.1,
    fun p => hro _ (.inr (.inr (.inr (.inr (.inr (.inr (.inr ⟨p, rfl⟩)))))))⟩

end

/-! ### Executions with one 1 × 1 matrix -/

/-- 1 × 1 arrays with the given values; every list is `[array 2]`. -/
def scHeap (v : ℕ → ℝ) (next : ℕ) : Heap := ⟨fun k _ _ => v k, fun _ _ => 2, next⟩

/-- Data 0, A 1, list of B factor matrices 4, C 3, auxiliary variables from 5 on, then the dual variables. -/
def scRefs (n : ℕ) : Refs 1 1 n 0 0 :=
  ⟨none, fun _ => 0, 1, 4, 3, fun p => 5 + p, fun p => 5 + n + p, Fin.elim0, Fin.elim0, Fin.elim0, Fin.elim0⟩

theorem scRefs_distinct (v : ℕ → ℝ) (n : ℕ) : Distinct (scHeap v (5 + 2 * n)) (scRefs n) := by
  have hro : ∀ a, ReadOnly (scHeap v (5 + 2 * n)) (scRefs n) a → a = 0 ∨ a = 3 ∨ a = 2 ∨ ∃ p : Fin n, a = 5 + n + p := by
    rintro a (⟨_, h1⟩ | h1 | ⟨_, h1⟩ | h1 | ⟨p, -⟩ | ⟨p, -⟩ | ⟨p, -⟩ | ⟨p, -⟩)
    · exact .inl (by assumption)
    · exact .inr (.inl (by assumption))
    · exact .inr (.inr (.inl (by assumption)))
    · exact .inr (.inr (.inr (by assumption)))
    · exact p.elim0
    · exact p.elim0
    · exact p.elim0
    · exact p.elim0
  refine ⟨fun a ha => ?_, fun a ha => ?_, fun a ha p => ?_, ?_, fun p => ?_, fun p => ?_, fun p q hpq => ?_, ?_, fun p => p.elim0, fun p => p.elim0,
    fun p => p.elim0, fun p => p.elim0⟩
  · rcases hro a ha with rfl | rfl | rfl | ⟨p, rfl⟩ <;> simp only [scHeap] <;> omega
  · rcases hro a ha with rfl | rfl | rfl | ⟨p, rfl⟩ <;> simp only [scRefs] <;> omega
  · rcases hro a ha with rfl | rfl | rfl | ⟨p, rfl⟩ <;> simp only [scRefs] <;> omega
  · simp only [scRefs, scHeap]; omega
  · simp only [scRefs, scHeap]; omega
  · simp only [scRefs]; omega
  · simp only [scRefs] at hpq; exact Fin.ext (by omega)
  · simp only [scRefs, scHeap]; omega

theorem scHeap_state (v : ℕ → ℝ) (next n : ℕ) (h2 : v 2 = 1) (h3 : v 3 = 1) :
    (scHeap v next).state 1 (fun _ => 1) (scRefs n) = scS (v 1) (fun p => v (5 + p)) (fun p => v (5 + n + p)) ∧
    absorb (scRefs n).weights ((scHeap v next).factors 1 (fun _ => 1) (scRefs n)) = scF (v 1) 1 1 ∧
    (scHeap v next).data 1 (fun _ => 1) (scRefs n).X = scX (v 0) := by
  have hb : (fun _ => sc (v 2) : Ragged 1 1 fun _ => 1) = fun _ => sc 1 := by rw [h2]
  have hc : sc (v 3) = sc 1 := by rw [h3]
  refine ⟨?_, ?_, rfl⟩
  · have e : (scHeap v next).state 1 (fun _ => 1) (scRefs n) =
        ⟨none, ⟨sc (v 1), fun _ => sc (v 2), sc (v 3)⟩, fun p => sc (v (5 + p)), fun p => sc (v (5 + n + p)), fun p => p.elim0, fun p => p.elim0,
          fun p => p.elim0, fun p => p.elim0⟩ := by
      unfold Heap.state
      congr 1 <;> exact funext fun p => p.elim0
    rw [e, hb, hc]
    rfl
  · have e : absorb (scRefs n).weights ((scHeap v next).factors 1 (fun _ => 1) (scRefs n)) =
        ⟨fun _ _ => v 1 * 1, fun _ => sc (v 2), sc (v 3)⟩ := rfl
    rw [e, hb, hc, mul_one]
    rfl

/-- C46 is false: without a constant feasibility penalty, the non-negativity penalty on A overwrites the caller's array (5 becomes 3). -/
theorem C46_false : ∃ (P : Problem 1 1 1 1 0 0 fun _ => 1) (a : Args) (h : Heap) (r : Refs 1 1 1 0 0) (o : Output _), ValidSVD P.params ∧
    P.params.nInner = 1 ∧ P.pensA = (fun _ => StdPen.nonNeg.toA) ∧ Distinct h r ∧ h.data 1 (fun _ => 1) r.X = P.X ∧
    cmfAoadmmH P a (h, r) = .ok o ∧ h.mat 1 1 (r.auxA 0) 0 0 = 5 ∧ o.st.1.mat 1 1 (r.auxA 0) 0 0 = 3 := by
  obtain ⟨prm, hP, hN, -, hs⟩ := exists_params 1 1 none 1
  let v : ℕ → ℝ := fun k => if k = 0 then 2 else if k = 5 then 5 else if k = 6 then 0 else 1
  have hw := scHeap_state v 7 1 (by simp [v]) (by simp [v])
  obtain ⟨i, hsw⟩ := sweep_scP (n := 1) (x := 2) (l2 := 0) (pens := fun _ => StdPen.nonNeg.toA) (u := fun _ => nonNegRow 1)
    (v := fun _ y => clip (some 0) none y) hP hN hs le_rfl (fun _ => rfl) (fun _ y _ _ => by funext r; rw [nonNegRow, Subsingleton.elim r 0])
    1 (fun _ => 5) fun _ => 0
  obtain ⟨s, hs1, hs2⟩ := fit_plain (aoOps (scP prm 2 0 fun _ : Fin 1 => StdPen.nonNeg.toA)) none _ _ 1 (sweeps_one hsw)
  have hst : (scHeap v 7).state 1 (fun _ => 1) (scRefs 1) = scS 1 (fun _ => 5) fun _ => 0 := by
    rw [hw.1]
    congr 1 <;> funext p <;> rw [Subsingleton.elim p 0] <;> simp [v]
  have hdX : (scHeap v 7).data 1 (fun _ => 1) (scRefs 1).X = (scP prm 2 0 fun _ : Fin 1 => StdPen.nonNeg.toA).X := hw.2.2.trans (by simp [v, scP])
  have hF : absorb (scRefs 1).weights ((scHeap v 7).factors 1 (fun _ => 1) (scRefs 1)) = (scS (n := 1) 1 (fun _ => 5) fun _ => 0).F := by
    rw [hw.2.1]; simp [v, scS]
  obtain ⟨o, ho, hov⟩ := C46_overwritten (scP prm 2 0 fun _ : Fin 1 => StdPen.nonNeg.toA) (plain 1) (scHeap v 7) (scRefs 1) (scRefs_distinct v 1) hdX rfl
    (s := s) (by rw [hst, hF]; exact hs1)
  refine ⟨_, _, _, _, o, hP, hN, rfl, scRefs_distinct v 1, hdX, ho, by simp [Heap.mat, scHeap, scRefs, v], ?_⟩
  rw [hov 0, hs2]
  simp only [scS, sc, scY]
  norm_num [clip]

/-- Without penalties, the second inner iteration writes to the array A had before the update. -/
theorem updateAH_two {prm : Params 1} (hP : ValidSVD prm) (hN : prm.nInner = 2) (ht : prm.innerTol = none) (hs : prm.scale = 1) :
    ∃ t, admmUpdateAH prm (Fin.elim0 : Fin 0 → PenA 1 1) 0 false 1 (fun _ => 1) (scHeap (fun k => if k = 0 then 2 else 1) 5, scRefs 0) = .ok t ∧
      t.1.mat 1 1 1 0 0 = 2 := by
  have hF : (scHeap (fun k => if k = 0 then 2 else 1) 5).factors 1 (fun _ => 1) (scRefs 0) = scF 1 1 1 := by
    refine (congrArg AOState.F (scHeap_state _ 5 0 (by norm_num) (by norm_num)).1).trans ?_
    simp [scS]
  have hX : (scHeap (fun k => if k = 0 then 2 else 1) 5).data 1 (fun _ => 1) (scRefs 0).X = scX 2 := by
    rw [(scHeap_state _ 5 0 (by norm_num) (by norm_num)).2.2]
    simp
  have hf : feasPenalties prm.scale false (crossA (scF 1 1 1)) = .ok (none, fun _ => 1 / 2) := by
    simp only [feasPenalties, crossA_sc, feasPenalty_sc, hs]
    norm_num
  have hG : ∀ i : Fin 1, addRidge (crossA (scF 1 1 1) i) (1 / 2) 0 0 0 0 = 1 := by
    intro i; rw [crossA_sc, addRidge_sc]; norm_num
  unfold admmUpdateAH
  simp only [hF, hX, hf, Except.bind, List.ofFn_zero, List.any_nil, Bool.and_false, Bool.false_eq_true, if_false, hN, innerLoop, stopMatH, ht,
    innerConverged, Except.ok.injEq, exists_eq_left', stepAH, List.finRange_zero, List.foldl_nil]
  rw [show (scRefs 0).A = 1 from rfl, (writeRows_spec _ _ _).1, svdSolveRow_one (hP _) (by rw [hG]; exact one_ne_zero), hG, rhsA_sc]
  simp

/-- Without penalties, the second inner iteration replaces the entries of the list B had before the update. -/
theorem updateBH_two {prm : Params 1} (hP : ValidSVD prm) (hN : prm.nInner = 2) (ht : prm.innerTol = none) (hs : prm.scale = 1) :
    ∃ t, admmUpdateBH prm (Fin.elim0 : Fin 0 → PenB 1 1 fun _ => 1) 0 false 1 (scHeap (fun k => if k = 0 then 2 else 1) 5, scRefs 0) = .ok t ∧
      t.1.ragged 1 (fun _ : Fin 1 => 1) 4 = (fun _ => sc 2) ∧ 5 ≤ t.1.lst 4 0 := by
  have hF : (scHeap (fun k => if k = 0 then 2 else 1) 5).factors 1 (fun _ => 1) (scRefs 0) = scF 1 1 1 := by
    refine (congrArg AOState.F (scHeap_state _ 5 0 (by norm_num) (by norm_num)).1).trans ?_
    simp [scS]
  have hX : (scHeap (fun k => if k = 0 then 2 else 1) 5).data 1 (fun _ => 1) (scRefs 0).X = scX 2 := by
    rw [(scHeap_state _ 5 0 (by norm_num) (by norm_num)).2.2]
    simp
  have hf : feasPenalties prm.scale false (crossB (scF 1 1 1)) = .ok (none, fun _ => 1 / 2) := by
    simp only [feasPenalties, crossB_sc, feasPenalty_sc, hs]
    norm_num
  have hG : ∀ i : Fin 1, addRidge (crossB (scF 1 1 1) i) (1 / 2) 0 0 0 0 = 1 := by
    intro i; rw [crossB_sc, addRidge_sc]; norm_num
  unfold admmUpdateBH
  simp only [hF, hX, hf, Except.bind, hN, innerLoop, stopRagH, ht,
    innerConverged, Bool.false_eq_true, if_false, Except.ok.injEq, exists_eq_left', stepBH, List.finRange_zero, List.foldl_nil]
  rw [show (scRefs 0).B = 4 from rfl]
  have h7 : ∀ X : Ragged 1 1 fun _ => 1, ((scHeap (fun k => if k = 0 then 2 else 1) 5).newRagged X).1.next = 7 := fun _ => rfl
  have h6 : ∀ X : Ragged 1 1 fun _ => 1, ((scHeap (fun k => if k = 0 then 2 else 1) 5).newRagged X).2 = 6 := fun _ => rfl
  rw [h6]
  have hw : ∀ X Y : Ragged 1 1 fun _ => 1, 7 ≤ (writeItems ((scHeap (fun k => if k = 0 then 2 else 1) 5).newRagged X).1 6 Y).next := by
    intro X Y
    have := (writeItems_spec ((scHeap (fun k => if k = 0 then 2 else 1) 5).newRagged X).1 6 Y (by rw [h7]; norm_num)).2.1.next
    rwa [h7] at this
  refine ⟨?_, le_trans (le_trans (by norm_num) (hw _ _)) ((writeItems_spec _ 4 _ (lt_of_lt_of_le (by norm_num) (hw _ _))).2.2.2 0)⟩
  rw [(writeItems_spec _ 4 _ (lt_of_lt_of_le (by norm_num) (hw _ _))).1]
  funext i
  rw [svdSolve_one (hP _) (by rw [hG]; exact one_ne_zero), hG, rhsB_sc]
  simp [sc]

/-- C45 is false: with two inner iterations, the caller's array of A is overwritten (1 becomes 2), and so is the entry of the caller's list of B factor
matrices (the list still exists, but its entry is a new array). -/
theorem C45_false :
    (∃ (P : Problem 1 1 1 0 0 0 fun _ => 1) (a : Args) (h : Heap) (r : Refs 1 1 0 0 0) (o : Output _), ValidSVD P.params ∧ P.params.nInner = 2 ∧
      Distinct h r ∧ h.data 1 (fun _ => 1) r.X = P.X ∧ cmfAoadmmH P a (h, r) = .ok o ∧ h.mat 1 1 r.A 0 0 = 1 ∧ o.st.1.mat 1 1 r.A 0 0 = 2) ∧
    ∃ (P : Problem 1 1 1 0 0 0 fun _ => 1) (a : Args) (h : Heap) (r : Refs 1 1 0 0 0) (o : Output _), ValidSVD P.params ∧ P.params.nInner = 2 ∧
      Distinct h r ∧ h.data 1 (fun _ => 1) r.X = P.X ∧ cmfAoadmmH P a (h, r) = .ok o ∧ h.ragged 1 (fun _ => 1) r.B = (fun _ : Fin 1 => sc 1) ∧
      o.st.1.ragged 1 (fun _ => 1) r.B = (fun _ : Fin 1 => sc 2) ∧ o.st.1.lst r.B 0 ≠ h.lst r.B 0 := by
  obtain ⟨prm, hP, hN, ht, hs⟩ := exists_params 1 2 none 1
  have hX : (scHeap (fun k => if k = 0 then 2 else 1) 5).data 1 (fun _ => 1) (scRefs 0).X = scX 2 := by
    rw [(scHeap_state _ 5 0 (by norm_num) (by norm_num)).2.2]
    simp
  constructor
  · obtain ⟨t, h1, h2⟩ := updateAH_two hP hN ht hs
    let P := scP prm 2 0 (Fin.elim0 : Fin 0 → PenA 1 1)
    obtain ⟨o, h3, h4⟩ := fit_plain (heapOps P) none (initH 1 (scHeap (fun k => if k = 0 then 2 else 1) 5, scRefs 0)) t 1 (by
      simp only [sweeps, Except.bind, heapOps, sweepH, sweepBH, sweepCH, sweepAH, P, scP, Bool.false_eq_true, if_false, if_true, initH, scRefs]
      simp only [scRefs] at h1
      rw [h1]
      rfl)
    refine ⟨P, plain 1, _, scRefs 0, o, hP, hN, scRefs_distinct _ 0, hX, h3, by simp [Heap.mat, scHeap, scRefs], ?_⟩
    rw [h4]
    exact h2
  · obtain ⟨t, h1, h2, h5⟩ := updateBH_two hP hN ht hs
    let P : Problem 1 1 1 0 0 0 fun _ => 1 := ⟨scX 2, Fin.elim0, Fin.elim0, Fin.elim0, (0, 0, 0), prm, false, false, false, true, false⟩
    obtain ⟨o, h3, h4⟩ := fit_plain (heapOps P) none (initH 1 (scHeap (fun k => if k = 0 then 2 else 1) 5, scRefs 0)) t 1 (by
      simp only [sweeps, Except.bind, heapOps, sweepH, sweepBH, sweepCH, sweepAH, P, Bool.false_eq_true, if_false, if_true, initH, scRefs]
      simp only [scRefs] at h1
      rw [h1]
      rfl)
    refine ⟨P, plain 1, _, scRefs 0, o, hP, hN, scRefs_distinct _ 0, hX, h3, ?_, ?_, ?_⟩
    · funext i j k
      simp [Heap.ragged, Heap.mat, scHeap, scRefs, sc]
    · rw [h4]; exact h2
    · rw [h4]
      simp only [scHeap, scRefs]
      omega

theorem penStepA_aux {I R n : ℕ} (pens : Fin n → PenA I R) (ρ : Fin I → ℝ) (st : Heap × LoopMat n) (p : Fin n) :
    (penStepA pens none ρ st p).2.aux = st.2.aux := by
  have h : ∀ Y h a, (auxStepA (pens p) none ρ Y h a).2 = a := by
    intro Y h a
    unfold auxStepA
    cases (pens p).row <;> rfl
  simp only [penStepA, h, Function.update_eq_self]

theorem stepAH_aux {I R n : ℕ} (pens : Fin n → PenA I R) (ρ : Fin I → ℝ) (svds : Fin I → SVD R R R) (rhs : Fin I → Fin R → ℝ)
    (st : Heap × LoopMat n) : (stepAH pens none ρ svds rhs st).2.aux = st.2.aux := by
  have h : ∀ (l : List (Fin n)) (s : Heap × LoopMat n), (l.foldl (penStepA pens none ρ) s).2.aux = s.2.aux := by
    intro l
    induction l with
    | nil => intro s; rfl
    | cons p l ih => intro s; rw [List.foldl_cons, ih, penStepA_aux]
  unfold stepAH
  rw [h]

/-- The hypothesis of C47 that no array is used twice is needed: if the caller passes one array as auxiliary variable of two penalties on A, both are
updated in this array, and the returned auxiliary variables are not those of the (pure) algorithm. -/
theorem C47_alias : ∃ (P : Problem 1 1 1 2 0 0 fun _ => 1) (a : Args) (h : Heap) (r : Refs 1 1 2 0 0) (o : Output _) (s : Output _),
    ValidSVD P.params ∧ h.data 1 (fun _ => 1) r.X = P.X ∧ r.weights = none ∧ r.auxA 0 = r.auxA 1 ∧ cmfAoadmmH P a (h, r) = .ok o ∧
    cmfAoadmm P a (h.state 1 (fun _ => 1) r) = .ok s ∧ (o.st.1.state 1 (fun _ => 1) o.st.2).auxA ≠ s.st.auxA := by
  obtain ⟨prm, hP, hN, -, hs⟩ := exists_params 1 1 none 1
  let v : ℕ → ℝ := fun k => if k = 0 then -4 else if k < 5 then 1 else 0
  let pens : Fin 2 → PenA 1 1 := ![StdPen.nonNeg.toA, (StdPen.box none (some 1)).toA]
  let r : Refs 1 1 2 0 0 := { scRefs 2 with auxA := fun _ => 5 }
  let P := scP prm (-4) 0 pens
  have hst : (scHeap v 9).state 1 (fun _ => 1) r = scS 1 (fun _ => 0) fun _ => 0 := by
    have h1 := (scHeap_state v 9 2 (by simp [v]) (by simp [v])).1
    have h2 : (scHeap v 9).state 1 (fun _ => 1) r =
        { (scHeap v 9).state 1 (fun _ => 1) (scRefs 2) with auxA := fun _ => sc (v 5) } := rfl
    rw [h2, h1]
    have e5 : v 5 = 0 := by simp [v]
    have e1 : v 1 = 1 := by simp [v]
    have ew : ∀ p : Fin 2, v (5 + 2 + p) = 0 := by intro p; simp [v]; omega
    simp only [scS, ew, e5, e1]
  have hdX : (scHeap v 9).data 1 (fun _ => 1) r.X = P.X := by
    refine (scHeap_state v 9 2 (by simp [v]) (by simp [v])).2.2.trans ?_
    simp [v, P, scP]
  obtain ⟨i, hsw⟩ := sweep_scP (n := 2) (x := -4) (l2 := 0) (pens := pens) (u := ![nonNegRow 1, boxRow none (some 1) 1])
    (v := ![fun y => clip (some 0) none y, fun y => clip none (some 1) y]) hP hN hs le_rfl (fun p => by fin_cases p <;> rfl)
    (fun p y _ _ => by fin_cases p <;> (funext r; rw [Subsingleton.elim r 0]; rfl)) 1 (fun _ => 0) fun _ => 0
  obtain ⟨s, hs1, hs2⟩ := fit_plain (aoOps P) none _ _ 1 (sweeps_one hsw)
  obtain ⟨t, ht, ha⟩ : ∃ t, admmUpdateAH prm pens 0 false 1 (fun _ => 1) (scHeap v 9, r) = .ok t ∧ t.2.auxA = r.auxA := by
    unfold admmUpdateAH
    simp only [feasPenalties, Bool.false_eq_true, if_false, Except.bind, hN, innerLoop, ite_self]
    rw [if_neg (by simp [pens, StdPen.toA, StdPen.row])]
    exact ⟨_, rfl, stepAH_aux _ _ _ _ _⟩
  obtain ⟨o, ho1, ho2⟩ := fit_plain (heapOps P) none (initH 1 (scHeap v 9, r)) t 1 (by
    have e : initH 1 (scHeap v 9, r) = (scHeap v 9, r) := rfl
    rw [e]
    simp only [sweeps, Except.bind, heapOps, sweepH, sweepBH, sweepCH, sweepAH, P, scP, Bool.false_eq_true, if_false, if_true]
    rw [ht]
    rfl)
  refine ⟨P, plain 1, scHeap v 9, r, o, s, hP, hdX, rfl, rfl, ho1, by rw [hst]; exact hs1, fun hc => ?_⟩
  have h01 : (o.st.1.state 1 (fun _ => 1) o.st.2).auxA 0 = (o.st.1.state 1 (fun _ => 1) o.st.2).auxA 1 := by
    simp only [Heap.state, ho2, ha, r]
  rw [hc, hs2] at h01
  have := congrFun (congrFun h01 0) 0
  simp only [scS, sc, scY, clip] at this
  norm_num at this

end Verif.Props
