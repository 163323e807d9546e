import Verif.Alias.Steps2

/-!
# `cmf_aoadmm` on the heap computes what the pure model computes

Helper lemmas. `Distinct` is the condition on the initial objects; it is kept by every update.
-/

namespace Verif.Alias

open Verif.ADMM Verif.Spec Verif.Penalties Verif.Loop Finset

section
variable {I K R nA nB nC : ℕ} {J : Fin I → ℕ}

/-- The arrays that are only read: data, B factor matrices, `C`, dual variables, auxiliary variables of modes 1 and 2. -/
def ReadOnly (h : Heap) (r : Refs I R nA nB nC) (a : ℕ) : Prop :=
  (∃ i, a = r.X i) ∨ a = r.C ∨ (∃ i : Fin I, a = h.lst r.B i) ∨ (∃ p, a = r.dualA p) ∨ (∃ p, h.auxArr I (r.auxB p) a) ∨
    (∃ p, ∃ i : Fin I, a = h.lst (r.dualB p) i) ∨ (∃ p, a = r.auxC p) ∨ ∃ p, a = r.dualC p

/-- All objects exist, and the ones that are written to are not used twice: `A` and the auxiliary variables of mode 0 differ from each other and
from all other arrays, the list of B factor matrices differs from the lists of the auxiliary and dual variables. -/
structure Distinct (h : Heap) (r : Refs I R nA nB nC) : Prop where
  ro_ok : ∀ a, ReadOnly h r a → a < h.next
  ro_A : ∀ a, ReadOnly h r a → a ≠ r.A
  ro_aux : ∀ a, ReadOnly h r a → ∀ p, a ≠ r.auxA p
  A_ok : r.A < h.next
  aux_ok : ∀ p, r.auxA p < h.next
  A_aux : ∀ p, r.auxA p ≠ r.A
  aux_inj : ∀ p q, r.auxA p = r.auxA q → p = q
  B_ok : r.B < h.next
  auxB_ok : ∀ p, (r.auxB p).list < h.next
  dualB_ok : ∀ p, r.dualB p < h.next
  B_aux : ∀ p, (r.auxB p).list ≠ r.B
  B_dual : ∀ p, r.dualB p ≠ r.B

/-- What has happened to the objects that existed at the start. -/
structure Since (P : Problem I K R nA nB nC J) (h₀ : Heap) (r₀ : Refs I R nA nB nC) (h : Heap) (r : Refs I R nA nB nC) : Prop where
  frame : Frame (fun a => (a = r₀.A ∧ P.updA = true ∧ 2 ≤ P.params.nInner) ∨ ((∃ p, a = r₀.auxA p) ∧ P.updA = true ∧ P.constA = false))
    (fun l => l = r₀.B ∧ P.updB = true ∧ 2 ≤ P.params.nInner) h₀ h
  A : r.A = r₀.A ∨ h₀.next ≤ r.A
  aux : ∀ p, r.auxA p = r₀.auxA p ∨ (P.constA = true ∧ h₀.next ≤ r.auxA p)
  B : r.B = r₀.B ∨ h₀.next ≤ r.B
  X : r.X = r₀.X

theorem Since.refl (P : Problem I K R nA nB nC J) (h : Heap) (r : Refs I R nA nB nC) : Since P h r h r :=
  ⟨Frame.refl _ _ _, .inl rfl, fun _ => .inl rfl, .inl rfl, rfl⟩

theorem Since.trans {P : Problem I K R nA nB nC J} {h₀ h₁ h₂ : Heap} {r₀ r₁ r₂ : Refs I R nA nB nC} (e : Since P h₀ r₀ h₁ r₁)
    (e' : Since P h₁ r₁ h₂ r₂) : Since P h₀ r₀ h₂ r₂ := by
  have hn := e.frame.next
  refine ⟨e.frame.trans e'.frame ?_ ?_, ?_, fun p => ?_, ?_, e'.X.trans e.X⟩
  · rintro a ha (⟨h1, h2⟩ | ⟨⟨p, h1⟩, h2⟩)
    · rcases e.A with h3 | h3
      · exact .inl ⟨h1.trans h3, h2⟩
      · omega
    · rcases e.aux p with h3 | ⟨-, h3⟩
      · exact .inr ⟨⟨p, h1.trans h3⟩, h2⟩
      · omega
  · rintro l hl ⟨h1, h2⟩
    rcases e.B with h3 | h3
    · exact ⟨h1.trans h3, h2⟩
    · omega
  · rcases e'.A with h1 | h1
    · rw [h1]; exact e.A
    · exact .inr (hn.trans h1)
  · rcases e'.aux p with h1 | h1
    · rw [h1]; exact e.aux p
    · exact .inr ⟨h1.1, hn.trans h1.2⟩
  · rcases e'.B with h1 | h1
    · rw [h1]; exact e.B
    · exact .inr (hn.trans h1)

section
variable {h h' : Heap} {r : Refs I R nA nB nC}

theorem Distinct.listB (d : Distinct h r) : h.ListOk I r.B := ⟨d.B_ok, fun i => d.ro_ok _ (.inr (.inr (.inl ⟨i, rfl⟩)))⟩

theorem Distinct.listDual (d : Distinct h r) (p : Fin nB) : h.ListOk I (r.dualB p) :=
  ⟨d.dualB_ok p, fun i => d.ro_ok _ (.inr (.inr (.inr (.inr (.inr (.inl ⟨p, i, rfl⟩))))))⟩

theorem Distinct.listAux (d : Distinct h r) (p : Fin nB) : h.AuxOk I (r.auxB p) :=
  ⟨d.auxB_ok p, fun _ ha => d.ro_ok _ (.inr (.inr (.inr (.inr (.inl ⟨p, ha⟩)))))⟩

/-- Values of objects that are only read, if only `A` and the auxiliary variables of mode 0 change. -/
theorem ro_values {W : ℕ → Prop} (d : Distinct h r) (f : Frame W No h h') (hW : ∀ a, ReadOnly h r a → ¬ W a) :
    h'.data K J r.X = h.data K J r.X ∧ h'.ragged R J r.B = h.ragged R J r.B ∧ h'.mat K R r.C = h.mat K R r.C ∧
    (∀ p, h'.auxB R J (r.auxB p) = h.auxB R J (r.auxB p)) ∧ (∀ p, h'.ragged R J (r.dualB p) = h.ragged R J (r.dualB p)) ∧
    (∀ p, h'.mat K R (r.auxC p) = h.mat K R (r.auxC p)) ∧ (∀ p, h'.mat K R (r.dualC p) = h.mat K R (r.dualC p)) ∧
    (∀ p, h'.mat I R (r.dualA p) = h.mat I R (r.dualA p)) := by
  have m : ∀ a, ReadOnly h r a → ∀ m n, h'.mat m n a = h.mat m n a := fun a ha m n => f.mat (d.ro_ok a ha) (hW a ha) m n
  refine ⟨funext fun i => m _ (.inl ⟨i, rfl⟩) _ _, ?_, m _ (.inr (.inl rfl)) _ _, fun p => ?_, fun p => ?_,
    fun p => m _ (.inr (.inr (.inr (.inr (.inr (.inr (.inl ⟨p, rfl⟩))))))) _ _, fun p => m _ (.inr (.inr (.inr (.inr (.inr (.inr (.inr ⟨p, rfl⟩))))))) _ _,
    fun p => m _ (.inr (.inr (.inr (.inl ⟨p, rfl⟩)))) _ _⟩
  · exact f.ragged d.listB id (fun i => hW _ (.inr (.inr (.inl ⟨i, rfl⟩)))) _ _
  · exact f.auxB (d.listAux p) id (fun a ha => hW _ (.inr (.inr (.inr (.inr (.inl ⟨p, ha⟩)))))) _ _
  · exact f.ragged (d.listDual p) id (fun i => hW _ (.inr (.inr (.inr (.inr (.inr (.inl ⟨p, i, rfl⟩))))))) _ _

end

/-! ### The updates -/

theorem feasPenalties_fst {scale : ℝ} {constant : Bool} {G : Fin I → Matrix (Fin R) (Fin R) ℝ} {ρ : Option ℝ × (Fin I → ℝ)}
    (h : feasPenalties scale constant G = .ok ρ) : ρ.1 = none ↔ constant = false := by
  cases constant
  · simp only [feasPenalties, Bool.false_eq_true, if_false, Except.ok.injEq] at h
    simp [← h]
  · simp only [feasPenalties, if_true] at h
    cases hv : vecMax (List.ofFn fun i => feasPenalty scale (G i)) with
    | error e => rw [hv] at h; exact absurd h (by simp [Except.map])
    | ok m =>
      rw [hv] at h
      simp only [Except.map, Except.ok.injEq] at h
      simp [← h]

/-- The A-update. -/
theorem sweepA_sim (P : Problem I K R nA nB nC J) (h : Heap) (r : Refs I R nA nB nC) (d : Distinct h r) (hX : h.data K J r.X = P.X) :
    match sweepAH P (h, r) with
    | .error e => sweepA P (h.state K J r) = .error e
    | .ok (st, inter) => sweepA P (h.state K J r) = .ok (st.1.state K J st.2, inter) ∧ Distinct st.1 st.2 ∧ st.1.data K J st.2.X = P.X ∧
        Since P h r st.1 st.2 := by
  unfold sweepAH sweepA
  by_cases hu : P.updA
  swap
  · simp only [hu, Bool.false_eq_true, if_false]
    exact ⟨trivial, d, hX, Since.refl P h r⟩
  simp only [hu, if_true, admmUpdateAH, admmUpdateA, hX]
  have hF : h.factors K J r = (h.state K J r).F := rfl
  rw [hF]
  cases hρ : feasPenalties P.params.scale P.constA (crossA (h.state K J r).F) with
  | error e => simp [Except.bind, Except.map]
  | ok ρ =>
    simp only [Except.bind]
    by_cases hc : (!P.constA && decide (0 < P.params.nInner) && decide (0 < I) && (List.ofFn P.pensA).any fun p => p.row.isNone) = true
    · simp only [hc, if_true, Except.map]
    · simp only [if_neg hc, Except.map]
      set M := h.mat I R r.A with hM
      have f := frame_newArr h M
      have q1 := d.A_ok
      have hinv : InvA h ρ.1 r.auxA r.dualA r.A (2 ≤ P.params.nInner) ((h.newArr M).1, (⟨r.A, h.next, r.auxA, r.dualA⟩ : LoopMat nA)) := by
        have q2 := fun p => d.aux_ok p
        have hd : ∀ p, ReadOnly h r (r.dualA p) := fun p => .inr (.inr (.inr (.inl ⟨p, rfl⟩)))
        have q3 := fun p => d.ro_ok _ (hd p)
        refine ⟨⟨⟨?_, ?_, fun p => ?_, fun p => ?_, ?_, d.A_aux, fun p => ?_, d.aux_inj, fun p => d.ro_A _ (hd p), fun p => ?_,
          fun p q => d.ro_aux _ (hd p) q⟩, f.mono (fun _ _ hc => hc.elim) (fun _ _ hc => hc), .inl rfl, fun _ => .inl rfl, fun _ => .inl rfl⟩,
          .inr (le_refl _)⟩ <;> simp only [newArr_next]
        · omega
        · omega
        · have := q2 p; omega
        · have := q3 p; omega
        · omega
        · have := q2 p; omega
        · have := q3 p; omega
      have e := loopA_spec P.pensA ρ.1 ρ.2 (fun i => P.params.svd (addRidge (crossA (h.state K J r).F i) (ρ.2 i) nA P.l2.1))
        (rhsA P.X (h.state K J r).F) P.params.innerTol P.params.nInner h r.auxA r.dualA r.A _ hinv
      have habs : absMat I R ((h.newArr M).1, (⟨r.A, h.next, r.auxA, r.dualA⟩ : LoopMat nA)) =
          ⟨(h.state K J r).F.A, (h.state K J r).auxA, (h.state K J r).dualA⟩ := by
        have h1 : (h.newArr M).1.mat I R r.A = h.mat I R r.A := f.mat q1 id _ _
        have h2 : ∀ p, (h.newArr M).1.mat I R (r.auxA p) = h.mat I R (r.auxA p) := fun p => f.mat (d.aux_ok p) id _ _
        have h3 : ∀ p, (h.newArr M).1.mat I R (r.dualA p) = h.mat I R (r.dualA p) := fun p =>
          f.mat (d.ro_ok _ (.inr (.inr (.inr (.inl ⟨p, rfl⟩))))) id _ _
        change MatState.mk _ _ _ = _
        simp only [h1, h2, h3]
        rfl
      rw [habs] at e
      simp only [newArr_snd]
      obtain ⟨e1, e2⟩ := e
      rw [← e2]
      generalize innerLoop (stepAH P.pensA ρ.1 ρ.2 (fun i => P.params.svd (addRidge (crossA (h.state K J r).F i) (ρ.2 i) nA P.l2.1))
        (rhsA P.X (h.state K J r).F)) (fun _ s => stopMatH I R P.params.innerTol s) P.params.nInner
        ((h.newArr M).1, (⟨r.A, h.next, r.auxA, r.dualA⟩ : LoopMat nA)) = g at e1 e2 ⊢
      clear e2
      obtain ⟨g, t⟩ := g
      simp only at e1 ⊢
      have es := e1.sep
      have ef := e1.frame
      have eA := e1.cur
      have eaux := e1.aux
      have edual := e1.dual
      simp only at es ef eA eaux edual
      have hn := ef.next
      have hro := ro_values (K := K) (J := J) d ef (by
        rintro a ha (⟨h1, -⟩ | ⟨⟨p, h1⟩, -⟩)
        · exact d.ro_A a ha h1
        · exact d.ro_aux a ha p h1)
      obtain ⟨k1, k2, k3, k4, k5, k6, k7, -⟩ := hro
      refine ⟨?_, ?_, k1.trans hX, ?_⟩
      · congr 2
        simp only [Heap.state, Heap.factors, absMat, k2, k3, k4, k5, k6, k7]
      · have hlB : g.lst r.B = h.lst r.B := ef.lst _ d.B_ok id
        have hlD : ∀ p, g.lst (r.dualB p) = h.lst (r.dualB p) := fun p => ef.lst _ (d.dualB_ok p) id
        have hlA : ∀ p, g.lst (r.auxB p).list = h.lst (r.auxB p).list := fun p => ef.lst _ (d.auxB_ok p) id
        have hro' : ∀ a, ReadOnly (R := R) g { r with weights := none, A := t.cur, auxA := t.aux, dualA := t.dual } a →
            ReadOnly h r a ∨ ∃ p, a = t.dual p := by
          rintro a (h1 | h1 | h1 | h1 | h1 | h1 | h1 | h1)
          · exact .inl (.inl h1)
          · exact .inl (.inr (.inl h1))
          · simp only [hlB] at h1
            exact .inl (.inr (.inr (.inl h1)))
          · exact .inr h1
          · obtain ⟨p, h1⟩ := h1
            exact .inl (.inr (.inr (.inr (.inr (.inl ⟨p, (auxArr_congr (hlA p) I a).1 h1⟩)))))
          · simp only [hlD] at h1
            exact .inl (.inr (.inr (.inr (.inr (.inr (.inl h1))))))
          · exact .inl (.inr (.inr (.inr (.inr (.inr (.inr (.inl h1)))))))
          · exact .inl (.inr (.inr (.inr (.inr (.inr (.inr (.inr h1)))))))
        refine ⟨fun a ha => ?_, fun a ha => ?_, fun a ha p => ?_, es.cur, es.aux, es.aux_cur, es.aux_inj, lt_of_lt_of_le d.B_ok hn,
          fun p => lt_of_lt_of_le (d.auxB_ok p) hn, fun p => lt_of_lt_of_le (d.dualB_ok p) hn, d.B_aux, d.B_dual⟩
        · rcases hro' a ha with h1 | ⟨p, rfl⟩
          · exact lt_of_lt_of_le (d.ro_ok a h1) hn
          · exact es.dual p
        · rcases hro' a ha with h1 | ⟨p, rfl⟩
          · rcases eA with h2 | h2
            · simp only [h2]; exact d.ro_A a h1
            · have := d.ro_ok a h1
              simp only; omega
          · exact es.dual_cur p
        · rcases hro' a ha with h1 | ⟨q, rfl⟩
          · rcases eaux p with h2 | ⟨-, h2⟩
            · simp only [h2]; exact d.ro_aux a h1 p
            · have := d.ro_ok a h1
              simp only; omega
          · exact es.dual_aux q p
      · refine ⟨ef.mono ?_ (fun _ _ hc => hc.elim), eA, fun p => (eaux p).imp id fun h2 => ⟨?_, h2.2⟩, .inl rfl, rfl⟩
        swap
        · cases hcst : P.constA
          · exact absurd ((feasPenalties_fst hρ).2 hcst) h2.1
          · rfl
        rintro a - (⟨h1, h2⟩ | ⟨h1, h2⟩)
        · exact .inl ⟨h1, hu, h2⟩
        · exact .inr ⟨h1, hu, (feasPenalties_fst hρ).1 h2⟩

/-- The C-update. -/
theorem sweepC_sim (P : Problem I K R nA nB nC J) (h : Heap) (r : Refs I R nA nB nC) (d : Distinct h r) (hX : h.data K J r.X = P.X) :
    sweepC P (h.state K J r) = (sweepCH P (h, r)).1.state K J (sweepCH P (h, r)).2 ∧ Distinct (sweepCH P (h, r)).1 (sweepCH P (h, r)).2 ∧
      (sweepCH P (h, r)).1.data K J (sweepCH P (h, r)).2.X = P.X ∧ Since P h r (sweepCH P (h, r)).1 (sweepCH P (h, r)).2 := by
  unfold sweepCH sweepC
  by_cases hu : P.updC
  swap
  · simp only [hu, Bool.false_eq_true, if_false]
    exact ⟨trivial, d, hX, Since.refl P h r⟩
  simp only [hu, if_true, admmUpdateCH, admmUpdateC, hX]
  have hF : h.factors K J r = (h.state K J r).F := rfl
  rw [hF]
  set M := h.mat K R r.C with hM
  have f := frame_newArr h M
  have hC : ReadOnly h r r.C := .inr (.inl rfl)
  have hda : ∀ p, ReadOnly h r (r.auxC p) := fun p => .inr (.inr (.inr (.inr (.inr (.inr (.inl ⟨p, rfl⟩))))))
  have hdd : ∀ p, ReadOnly h r (r.dualC p) := fun p => .inr (.inr (.inr (.inr (.inr (.inr (.inr ⟨p, rfl⟩))))))
  have hinv : InvC h r.auxC r.dualC r.C ((h.newArr M).1, (⟨r.C, h.next, r.auxC, r.dualC⟩ : LoopMat nC)) := by
    have q1 := d.ro_ok _ hC
    have q2 := fun p => d.ro_ok _ (hda p)
    have q3 := fun p => d.ro_ok _ (hdd p)
    refine ⟨⟨?_, ?_, fun p => ?_, fun p => ?_⟩, f, .inl rfl, fun _ => .inl rfl, fun _ => .inl rfl⟩ <;> simp only [newArr_next]
    · omega
    · omega
    · have := q2 p; omega
    · have := q3 p; omega
  have e := loopC_spec P.pensC (feasPenalty P.params.scale (crossC (h.state K J r).F))
    (P.params.svd (addRidge (crossC (h.state K J r).F) (feasPenalty P.params.scale (crossC (h.state K J r).F)) nC P.l2.2.2))
    (rhsC P.X (h.state K J r).F) P.params.innerTol P.params.nInner h r.auxC r.dualC r.C _ hinv
  have habs : absMat K R ((h.newArr M).1, (⟨r.C, h.next, r.auxC, r.dualC⟩ : LoopMat nC)) =
      ⟨(h.state K J r).F.C, (h.state K J r).auxC, (h.state K J r).dualC⟩ := by
    have h1 : (h.newArr M).1.mat K R r.C = h.mat K R r.C := f.mat (d.ro_ok _ hC) id _ _
    have h2 : ∀ p, (h.newArr M).1.mat K R (r.auxC p) = h.mat K R (r.auxC p) := fun p => f.mat (d.ro_ok _ (hda p)) id _ _
    have h3 : ∀ p, (h.newArr M).1.mat K R (r.dualC p) = h.mat K R (r.dualC p) := fun p => f.mat (d.ro_ok _ (hdd p)) id _ _
    change MatState.mk _ _ _ = _
    simp only [h1, h2, h3]
    rfl
  rw [habs] at e
  simp only [newArr_snd]
  obtain ⟨e1, e2⟩ := e
  rw [← e2]
  generalize innerLoop (stepCH P.pensC (feasPenalty P.params.scale (crossC (h.state K J r).F))
    (P.params.svd (addRidge (crossC (h.state K J r).F) (feasPenalty P.params.scale (crossC (h.state K J r).F)) nC P.l2.2.2))
    (rhsC P.X (h.state K J r).F)) (fun _ s => stopMatH K R P.params.innerTol s) P.params.nInner
    ((h.newArr M).1, (⟨r.C, h.next, r.auxC, r.dualC⟩ : LoopMat nC)) = g at e1 e2 ⊢
  clear e2
  obtain ⟨g, t⟩ := g
  have eo := e1.ok
  have ef := e1.frame
  have eC := e1.cur
  have eaux := e1.aux
  have edual := e1.dual
  simp only at eo ef eC eaux edual ⊢
  have hn := ef.next
  obtain ⟨k1, k2, k3, k4, k5, k6, k7, k8⟩ := ro_values (K := K) (J := J) d ef (fun _ _ => id)
  have kA : g.mat I R r.A = h.mat I R r.A := ef.mat d.A_ok id _ _
  have kaux : ∀ p, g.mat I R (r.auxA p) = h.mat I R (r.auxA p) := fun p => ef.mat (d.aux_ok p) id _ _
  refine ⟨?_, ?_, k1.trans hX, ?_⟩
  · simp only [Heap.state, Heap.factors, absMat, k2, k4, k5, k8, kA, kaux]
  · have hlB : g.lst r.B = h.lst r.B := ef.lst _ d.B_ok id
    have hlD : ∀ p, g.lst (r.dualB p) = h.lst (r.dualB p) := fun p => ef.lst _ (d.dualB_ok p) id
    have hlA : ∀ p, g.lst (r.auxB p).list = h.lst (r.auxB p).list := fun p => ef.lst _ (d.auxB_ok p) id
    have hro' : ∀ a, ReadOnly (R := R) g { r with weights := none, C := t.cur, auxC := t.aux, dualC := t.dual } a →
        ReadOnly h r a ∨ (h.next ≤ a ∧ a < g.next) := by
      rintro a (h1 | h1 | h1 | h1 | h1 | h1 | h1 | h1)
      · exact .inl (.inl h1)
      · simp only at h1
        rcases eC with h2 | h2
        · exact .inl (.inr (.inl (h1.trans h2)))
        · exact .inr (h1 ▸ ⟨h2, eo.cur⟩)
      · simp only [hlB] at h1
        exact .inl (.inr (.inr (.inl h1)))
      · exact .inl (.inr (.inr (.inr (.inl h1))))
      · obtain ⟨p, h1⟩ := h1
        exact .inl (.inr (.inr (.inr (.inr (.inl ⟨p, (auxArr_congr (hlA p) I a).1 h1⟩)))))
      · simp only [hlD] at h1
        exact .inl (.inr (.inr (.inr (.inr (.inr (.inl h1))))))
      · obtain ⟨p, h1⟩ := h1
        simp only at h1
        rcases eaux p with h2 | h2
        · exact .inl (.inr (.inr (.inr (.inr (.inr (.inr (.inl ⟨p, h1.trans h2⟩)))))))
        · exact .inr (h1 ▸ ⟨h2, eo.aux p⟩)
      · obtain ⟨p, h1⟩ := h1
        simp only at h1
        rcases edual p with h2 | h2
        · exact .inl (.inr (.inr (.inr (.inr (.inr (.inr (.inr ⟨p, h1.trans h2⟩)))))))
        · exact .inr (h1 ▸ ⟨h2, eo.dual p⟩)
    refine ⟨fun a ha => ?_, fun a ha => ?_, fun a ha p => ?_, lt_of_lt_of_le d.A_ok hn, fun p => lt_of_lt_of_le (d.aux_ok p) hn, d.A_aux, d.aux_inj,
      lt_of_lt_of_le d.B_ok hn, fun p => lt_of_lt_of_le (d.auxB_ok p) hn, fun p => lt_of_lt_of_le (d.dualB_ok p) hn, d.B_aux, d.B_dual⟩
    · rcases hro' a ha with h1 | h1
      · exact lt_of_lt_of_le (d.ro_ok a h1) hn
      · exact h1.2
    · rcases hro' a ha with h1 | h1
      · exact d.ro_A a h1
      · have := d.A_ok
        simp only; omega
    · rcases hro' a ha with h1 | h1
      · exact d.ro_aux a h1 p
      · have := d.aux_ok p
        simp only; omega
  · exact ⟨ef.mono (fun _ _ hc => hc.elim) (fun _ _ hc => hc.elim), .inl rfl, fun _ => .inl rfl, .inl rfl, rfl⟩

/-- The B-update. -/
theorem sweepB_sim (P : Problem I K R nA nB nC J) (h : Heap) (r : Refs I R nA nB nC) (d : Distinct h r) (hX : h.data K J r.X = P.X) :
    match sweepBH P (h, r) with
    | .error e => sweepB P (h.state K J r) = .error e
    | .ok st => sweepB P (h.state K J r) = .ok (st.1.state K J st.2) ∧ Distinct st.1 st.2 ∧ st.1.data K J st.2.X = P.X ∧
        Since P h r st.1 st.2 := by
  unfold sweepBH sweepB
  by_cases hu : P.updB
  swap
  · simp only [hu, Bool.false_eq_true, if_false]
    exact ⟨trivial, d, hX, Since.refl P h r⟩
  simp only [hu, if_true, admmUpdateBH, admmUpdateB, hX]
  have hF : h.factors K J r = (h.state K J r).F := rfl
  rw [hF]
  cases hρ : feasPenalties P.params.scale P.constB (crossB (h.state K J r).F) with
  | error e => simp [Except.bind, Except.map]
  | ok ρ =>
    simp only [Except.bind, Except.map]
    set M := h.ragged R J r.B with hM
    have f := frame_newRagged h M
    have q1 := d.B_ok
    have hnew : (h.newRagged M).2 = h.next + I := rfl
    have hinv : InvB h I r.auxB r.dualB r.B (2 ≤ P.params.nInner)
        ((h.newRagged M).1, (⟨r.B, (h.newRagged M).2, r.auxB, r.dualB⟩ : LoopRag nB)) := by
      refine ⟨⟨⟨f.listOk d.listB id, newRagged_ok h M, fun p => f.auxOk (d.listAux p) id, fun p => f.listOk (d.listDual p) id, ?_, d.B_aux, fun p => ?_,
        d.B_dual, fun p => ?_⟩, f.mono (fun _ _ hc => hc) (fun _ _ hc => hc.elim), .inl ⟨rfl, f.lst _ q1 id⟩, fun _ => .inl rfl, fun _ => .inl rfl⟩,
        .inr (newRagged_fresh h M).1⟩ <;> simp only [hnew]
      · omega
      · have := d.auxB_ok p; omega
      · have := d.dualB_ok p; omega
    have e := loopB_spec P.pensB ρ.2 (fun i => P.params.svd (addRidge (crossB (h.state K J r).F i) (ρ.2 i) nB P.l2.2.1))
      (rhsB P.X (h.state K J r).F) P.params.innerTol P.params.nInner h r.auxB r.dualB r.B _ hinv
    have habs : absRag R J ((h.newRagged M).1, (⟨r.B, (h.newRagged M).2, r.auxB, r.dualB⟩ : LoopRag nB)) =
        ⟨(h.state K J r).F.B, (h.state K J r).auxB, (h.state K J r).dualB⟩ := by
      have h1 : (h.newRagged M).1.ragged R J r.B = h.ragged R J r.B := f.ragged d.listB id (fun _ => id) _ _
      have h2 : ∀ p, (h.newRagged M).1.auxB R J (r.auxB p) = h.auxB R J (r.auxB p) := fun p => f.auxB (d.listAux p) id (fun _ _ => id) _ _
      have h3 : ∀ p, (h.newRagged M).1.ragged R J (r.dualB p) = h.ragged R J (r.dualB p) := fun p =>
        f.ragged (d.listDual p) id (fun _ => id) _ _
      change RagState.mk _ _ _ = _
      simp only [h1, h2, h3]
      rfl
    rw [habs] at e
    obtain ⟨e1, e2⟩ := e
    rw [← e2]
    generalize innerLoop (stepBH P.pensB ρ.2 (fun i => P.params.svd (addRidge (crossB (h.state K J r).F i) (ρ.2 i) nB P.l2.2.1))
      (rhsB P.X (h.state K J r).F)) (fun _ s => stopRagH R J P.params.innerTol s) P.params.nInner
      ((h.newRagged M).1, (⟨r.B, (h.newRagged M).2, r.auxB, r.dualB⟩ : LoopRag nB)) = g at e1 e2 ⊢
    clear e2
    obtain ⟨g, t⟩ := g
    have es := e1.sep
    have ef := e1.frame
    have eB := e1.cur
    have eaux := e1.aux
    have edual := e1.dual
    simp only at es ef eB eaux edual ⊢
    have hn := ef.next
    have kro : ∀ a, a < h.next → ∀ m n, g.mat m n a = h.mat m n a := fun a ha m n => ef.mat ha id m n
    have kA : g.mat I R r.A = h.mat I R r.A := kro _ d.A_ok _ _
    have kC : g.mat K R r.C = h.mat K R r.C := kro _ (d.ro_ok _ (.inr (.inl rfl))) _ _
    have kauxA : ∀ p, g.mat I R (r.auxA p) = h.mat I R (r.auxA p) := fun p => kro _ (d.aux_ok p) _ _
    have kdualA : ∀ p, g.mat I R (r.dualA p) = h.mat I R (r.dualA p) := fun p => kro _ (d.ro_ok _ (.inr (.inr (.inr (.inl ⟨p, rfl⟩))))) _ _
    have kauxC : ∀ p, g.mat K R (r.auxC p) = h.mat K R (r.auxC p) := fun p =>
      kro _ (d.ro_ok _ (.inr (.inr (.inr (.inr (.inr (.inr (.inl ⟨p, rfl⟩)))))))) _ _
    have kdualC : ∀ p, g.mat K R (r.dualC p) = h.mat K R (r.dualC p) := fun p =>
      kro _ (d.ro_ok _ (.inr (.inr (.inr (.inr (.inr (.inr (.inr ⟨p, rfl⟩)))))))) _ _
    have kX : g.data K J r.X = h.data K J r.X := funext fun i => kro _ (d.ro_ok _ (.inl ⟨i, rfl⟩)) _ _
    refine ⟨?_, ?_, kX.trans hX, ?_⟩
    · congr 1
      simp only [Heap.state, Heap.factors, absRag, kA, kC, kauxA, kdualA, kauxC, kdualC]
    · have hlD : ∀ p, g.lst (r.dualB p) = h.lst (r.dualB p) := fun p => ef.lst _ (d.dualB_ok p) fun hc => d.B_dual p hc.1
      have hlA : ∀ p, g.lst (r.auxB p).list = h.lst (r.auxB p).list := fun p => ef.lst _ (d.auxB_ok p) fun hc => d.B_aux p hc.1
      have hro' : ∀ a, ReadOnly (R := R) g { r with weights := none, B := t.cur, auxB := t.aux, dualB := t.dual } a →
          ReadOnly h r a ∨ (h.next ≤ a ∧ a < g.next) := by
        rintro a (h1 | h1 | h1 | h1 | h1 | h1 | h1 | h1)
        · exact .inl (.inl h1)
        · exact .inl (.inr (.inl h1))
        · obtain ⟨i, h1⟩ := h1
          simp only at h1
          rcases eB with ⟨h2, h3⟩ | ⟨-, h2⟩
          · rw [h2, h3] at h1
            exact .inl (.inr (.inr (.inl ⟨i, h1⟩)))
          · exact .inr (h1 ▸ ⟨h2 i, es.cur.2 i⟩)
        · exact .inl (.inr (.inr (.inr (.inl h1))))
        · obtain ⟨p, h1⟩ := h1
          simp only at h1
          rcases eaux p with h2 | h2
          · rw [h2] at h1
            exact .inl (.inr (.inr (.inr (.inr (.inl ⟨p, (auxArr_congr (hlA p) I a).1 h1⟩)))))
          · exact .inr ⟨h2.2 a h1, (es.aux p).2 a h1⟩
        · obtain ⟨p, i, h1⟩ := h1
          simp only at h1
          rcases edual p with h2 | h2
          · rw [h2, hlD] at h1
            exact .inl (.inr (.inr (.inr (.inr (.inr (.inl ⟨p, i, h1⟩))))))
          · exact .inr (h1 ▸ ⟨h2.2 i, (es.dual p).2 i⟩)
        · exact .inl (.inr (.inr (.inr (.inr (.inr (.inr (.inl h1)))))))
        · exact .inl (.inr (.inr (.inr (.inr (.inr (.inr (.inr h1)))))))
      refine ⟨fun a ha => ?_, fun a ha => ?_, fun a ha p => ?_, lt_of_lt_of_le d.A_ok hn, fun p => lt_of_lt_of_le (d.aux_ok p) hn, d.A_aux, d.aux_inj,
        es.cur.1, fun p => (es.aux p).1, fun p => (es.dual p).1, es.aux_cur, es.dual_cur⟩
      · rcases hro' a ha with h1 | h1
        · exact lt_of_lt_of_le (d.ro_ok a h1) hn
        · exact h1.2
      · rcases hro' a ha with h1 | h1
        · exact d.ro_A a h1
        · have := d.A_ok
          simp only; omega
      · rcases hro' a ha with h1 | h1
        · exact d.ro_aux a h1 p
        · have := d.aux_ok p
          simp only; omega
    · refine ⟨ef.mono (fun _ _ hc => hc.elim) (fun _ _ hc => ⟨hc.1, hu, hc.2⟩), .inl rfl, fun _ => .inl rfl, ?_, rfl⟩
      rcases eB with ⟨h2, -⟩ | ⟨h2, -⟩
      · exact .inl h2
      · exact h2

/-- One round of updates. -/
theorem sweep_sim (P : Problem I K R nA nB nC J) (h : Heap) (r : Refs I R nA nB nC) (d : Distinct h r) (hX : h.data K J r.X = P.X) :
    match sweepH P (h, r) with
    | .error e => sweep P (h.state K J r) = .error e
    | .ok (st, inter) => sweep P (h.state K J r) = .ok (st.1.state K J st.2, inter) ∧ Distinct st.1 st.2 ∧ st.1.data K J st.2.X = P.X ∧
        Since P h r st.1 st.2 := by
  have hB := sweepB_sim P h r d hX
  unfold sweepH sweep
  cases hb : sweepBH P (h, r) with
  | error e =>
    rw [hb] at hB
    simp only at hB
    rw [hB]
    rfl
  | ok st =>
    rw [hb] at hB
    simp only at hB
    obtain ⟨b1, b2, b3, b4⟩ := hB
    rw [b1]
    simp only [Except.bind]
    obtain ⟨h₁, r₁⟩ := st
    obtain ⟨c1, c2, c3, c4⟩ := sweepC_sim P h₁ r₁ b2 b3
    simp only at b1 b4 ⊢
    rw [c1]
    generalize sweepCH P (h₁, r₁) = st₂ at c1 c2 c3 c4 ⊢
    obtain ⟨h₂, r₂⟩ := st₂
    have hA := sweepA_sim P h₂ r₂ c2 c3
    simp only at c4 ⊢
    cases ha : sweepAH P (h₂, r₂) with
    | error e => rw [ha] at hA; exact hA
    | ok x =>
      rw [ha] at hA
      obtain ⟨a1, a2, a3, a4⟩ := hA
      exact ⟨a1, a2, a3, (b4.trans c4).trans a4⟩

end

/-! ### The outer loop -/

section
variable {σ τ ι : Type}

/-- The variables of the loop with another state. -/
def mapAcc (abs : σ → τ) (s : Acc σ) : Acc τ := ⟨abs s.st, s.recErrors, s.gaps, s.losses, s.nIter, s.stop, s.log⟩

theorem checkStop_map (abs : σ → τ) (a : Args) (b : Bool) (p q : PyF) (s : Acc σ) :
    checkStop a b p q (mapAcc abs s) = (checkStop a b p q s).map fun x => (mapAcc abs x.1, x.2) := by
  unfold checkStop
  split
  · cases a.absTol with
    | none => rfl
    | some t =>
      simp only
      split
      · rfl
      · split <;> rfl
  · rfl

theorem checkStop_st (a : Args) (b : Bool) (p q : PyF) (s : Acc σ) {x : Acc σ × Bool} (h : checkStop a b p q s = .ok x) : x.1.st = s.st := by
  unfold checkStop at h
  split at h
  · cases ha : a.absTol with
    | none => simp [ha] at h
    | some t =>
      simp only [ha] at h
      split at h
      · cases h; rfl
      · split at h
        · cases h; rfl
        · cases h; rfl
  · cases h; rfl

/-- Two loops run in step. -/
structure OpsSim (O : Ops σ ι) (O' : Ops τ ι) (abs : σ → τ) (inv : σ → Prop) : Prop where
  sweep_ok : ∀ s, inv s → ∀ x, O.sweep s = .ok x → inv x.1 ∧ O'.sweep (abs s) = .ok (abs x.1, x.2)
  sweep_err : ∀ s, inv s → ∀ e, O.sweep s = .error e → O'.sweep (abs s) = .error e
  gaps : ∀ s, inv s → O.gaps s = O'.gaps (abs s)
  relError : ∀ s, inv s → ∀ i, O.relError s i = O'.relError (abs s) i
  penalty : ∀ s, inv s → O.penalty s = O'.penalty (abs s)

theorem body_sim {O : Ops σ ι} {O' : Ops τ ι} {abs : σ → τ} {inv : σ → Prop} (e : OpsSim O O' abs inv) (a : Args) (s : Acc σ) (hs : inv s.st) :
    body O' a (mapAcc abs s) = (body O a s).map (fun x => (mapAcc abs x.1, x.2)) ∧ ∀ x, body O a s = .ok x → inv x.1.st := by
  unfold body
  cases h : O.sweep s.st with
  | error er =>
    have : O'.sweep (mapAcc abs s).st = .error er := e.sweep_err _ hs _ h
    rw [this]
    exact ⟨rfl, fun x hx => by simp at hx⟩
  | ok x =>
    obtain ⟨st, inter⟩ := x
    obtain ⟨h1, h2⟩ := e.sweep_ok _ hs _ h
    have : O'.sweep (mapAcc abs s).st = .ok (abs st, inter) := h2
    rw [this]
    simp only
    rw [← e.gaps st h1, ← e.relError st h1, ← e.penalty st h1]
    by_cases c1 : (truthy a.tol || truthy a.absTol || a.returnErrors) = true
    · rw [if_pos c1, if_pos c1]
      by_cases c2 : ((truthy a.tol || truthy a.absTol) && !(truthy a.feasTol && checkFeasibility (O.gaps st) (a.feasTol.getD 0)) && !a.returnErrors) = true
      · rw [if_pos c2, if_pos c2]
        exact ⟨rfl, fun x hx => by cases hx; exact h1⟩
      · rw [if_neg c2, if_neg c2]
        constructor
        · exact checkStop_map abs a _ _ _ { s with
            st := st, nIter := s.nIter + 1, gaps := s.gaps ++ [O.gaps st], recErrors := s.recErrors ++ [O.relError st inter]
            losses := s.losses ++ [lossOf (O.relError st inter) (O.penalty st)]
            log := s.log ++ if prints a.verbose s.nIter then [.computed s.nIter (O.relError st inter) (s.losses.getLastD .nan) (lossOf (O.relError st inter) (O.penalty st)) (O.gaps st)] else [] }
        · intro x hx
          rw [checkStop_st _ _ _ _ _ hx]
          exact h1
    · rw [if_neg c1, if_neg c1]
      exact ⟨rfl, fun x hx => by cases hx; exact h1⟩

theorem run_sim {O : Ops σ ι} {O' : Ops τ ι} {abs : σ → τ} {inv : σ → Prop} (e : OpsSim O O' abs inv) (a : Args) :
    ∀ (n : ℕ) (s : Acc σ), inv s.st →
    run O' a n (mapAcc abs s) = (run O a n s).map (mapAcc abs) ∧ ∀ x, run O a n s = .ok x → inv x.st
  | 0, s, hs => ⟨rfl, fun x hx => by cases hx; exact hs⟩
  | n + 1, s, hs => by
    obtain ⟨h1, h2⟩ := body_sim e a s hs
    unfold run
    rw [h1]
    cases hb : body O a s with
    | error er => exact ⟨rfl, fun x hx => by simp at hx⟩
    | ok x =>
      obtain ⟨s', b⟩ := x
      have hs' := h2 _ hb
      cases b
      · exact run_sim e a n s' hs'
      · exact ⟨rfl, fun x hx => by cases hx; exact hs'⟩

theorem fit_sim {O : Ops σ ι} {O' : Ops τ ι} {abs : σ → τ} {inv : σ → Prop} (e : OpsSim O O' abs inv) (a : Args) (none : ι) (st : σ) (hs : inv st) :
    fit O' a none (abs st) = (fit O a none st).map (fun o => ⟨abs o.st, o.diag, o.log⟩) ∧ ∀ o, fit O a none st = .ok o → inv o.st := by
  have hi : mapAcc abs (initAcc O a none st) = initAcc O' a none (abs st) := by
    simp only [mapAcc, initAcc, e.gaps st hs, e.relError st hs, e.penalty st hs]
  obtain ⟨h1, h2⟩ := run_sim e a a.nIterMax.toNat (initAcc O a none st) hs
  unfold fit
  rw [← hi, h1]
  cases hr : run O a a.nIterMax.toNat (initAcc O a none st) with
  | error er => exact ⟨rfl, fun x hx => by simp at hx⟩
  | ok s =>
    have hs' := h2 _ hr
    refine ⟨?_, fun x hx => by cases hx; exact hs'⟩
    simp only [Except.map, mapAcc, diagnostics, e.gaps _ hs']

end

section
variable {I K R nA nB nC : ℕ} {J : Fin I → ℕ}

/-- Invariant of the outer loop. -/
def Good (P : Problem I K R nA nB nC J) (h₀ : Heap) (r₀ : Refs I R nA nB nC) (st : Heap × Refs I R nA nB nC) : Prop :=
  Distinct st.1 st.2 ∧ st.1.data K J st.2.X = P.X ∧ Since P h₀ r₀ st.1 st.2

theorem heapOps_sim (P : Problem I K R nA nB nC J) (h₀ : Heap) (r₀ : Refs I R nA nB nC) :
    OpsSim (heapOps P) (aoOps P) (fun st => st.1.state K J st.2) (Good P h₀ r₀) := by
  refine ⟨?_, ?_, fun _ _ => rfl, ?_, fun _ _ => rfl⟩
  · rintro ⟨h, r⟩ ⟨d, hX, hS⟩ ⟨st, inter⟩ hx
    have := sweep_sim P h r d hX
    rw [show sweepH P (h, r) = _ from hx] at this
    obtain ⟨h1, h2, h3, h4⟩ := this
    exact ⟨⟨h2, h3, hS.trans h4⟩, h1⟩
  · rintro ⟨h, r⟩ ⟨d, hX, hS⟩ e hx
    have := sweep_sim P h r d hX
    rw [show sweepH P (h, r) = _ from hx] at this
    exact this
  · rintro ⟨h, r⟩ ⟨d, hX, hS⟩ i
    have : ({ P with X := h.data K J r.X } : Problem I K R nA nB nC J) = P := by
      cases P; simp only at hX; rw [hX]
    simp only [heapOps]
    rw [this]

end

end Verif.Alias
