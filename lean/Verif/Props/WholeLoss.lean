import Verif.Props.WholeFeasible

/-!
# C66: the reported losses in terms of the keyword arguments
-/

namespace Verif.Props

open Verif.Whole Verif.Loop Verif.ADMM Verif.Penalties Verif.Parse Verif.Spec Finset Matrix

variable {I K R : ℕ} {J : Fin I → ℕ}

/-- The documented terms of one mode for a matrix. -/
noncomputable def modeTerm (a : ModeArgs) {m n : ℕ} (X : Matrix (Fin m) (Fin n) ℝ) : ℝ :=
  a.l1.real * absSum X + a.tv.real * totalVar X + genTerm a.genL2 X

/-- The values the caller's own penalties report for A. -/
noncomputable def userA (W : World I K R J) (l : List (Pen String)) (X : Matrix (Fin I) (Fin R) ℝ) : ℝ :=
  (l.map fun p => match W.penA p with | .ok q => q.value X | .error _ => 0).sum

/-- The values the caller's own penalties report for the B-matrices. -/
noncomputable def userB (W : World I K R J) (l : List (Pen String)) (X : Ragged I R J) : ℝ :=
  (l.map fun p => match W.penB p with | .ok q => q.value X | .error _ => 0).sum

/-- The values the caller's own penalties report for C. -/
noncomputable def userC (W : World I K R J) (l : List (Pen String)) (X : Matrix (Fin K) (Fin R) ℝ) : ℝ :=
  (l.map fun p => match W.penC p with | .ok q => q.value X | .error _ => 0).sum

/-- The documented loss of a factorization: half the squared relative error, the L2 terms of all modes, and the terms of the modes that are updated. `l2` are the values
for the modes, `user` the caller's own penalties. -/
noncomputable def documentedLoss (W : World I K R J) (c : Call I K R J) (f : Fin 3 → ModeArgs) (l2 : Fin 3 → Leaf) (user : ℕ → List (Pen String))
    (w : Option (Fin R → ℝ)) (F : Factors I K R J) : ℝ :=
  1 / 2 * (√(sse c.X (absorb w F)) / √(raggedSq c.X)) ^ 2 + 1 / 2 * ((l2 0).real * sqNorm F.A + (l2 1).real * raggedSq F.B + (l2 2).real * sqNorm F.C) +
    ((if c.updA = true then modeTerm (f 0) F.A + userA W (user 0) F.A else 0) +
      (if c.updB = true then (∑ i, modeTerm (f 1) (F.B i)) + userB W (user 1) F.B else 0) +
      if c.updC = true then modeTerm (f 2) F.C + userC W (user 2) F.C else 0)

/-! ### Values of penalties -/

theorem parsed_built {negEig : (m : ℕ) → Matrix (Fin m) (Fin m) ℝ → Bool} {s : Settings String} {a : ModeArgs} (ha : Scalar a) {l : List (Pen String)}
    (h : parseMode negEig s a = .ok l) : ∀ p ∈ l, ∃ k x y z, p = .built k x y z := by
  obtain ⟨l1On, uni, r₃, ball, r₄, tvOn, r₅, l1On', r₆, r₇, nn, h₁, h₂, h₃, h₄, h₅, h₆, h₇, h₈, h₉, h₁₀, h₁₁, rfl⟩ := parseMode_ok.1 h
  have b₃ : ∀ p ∈ r₃, ∃ k x y z, p = .built k x y z := by
    rcases genL2Regs_ok h₃ with ⟨rfl, -⟩ | ⟨k, M, -, rfl⟩ <;> simp [Settings.mkSvd]
  have b₄ : ∀ p ∈ r₄, ∃ k x y z, p = .built k x y z := by
    rcases ballRegs_ok h₅ with ⟨-, rfl⟩ | ⟨-, -, rfl⟩ <;> simp [Settings.mk1]
  have b₅ : ∀ p ∈ r₅, ∃ k x y z, p = .built k x y z := by
    rcases tvRegs_ok h₇ with ⟨-, rfl⟩ | ⟨-, -, -, -, rfl⟩ <;> simp [Settings.mk1]
  have b₆ : ∀ p ∈ r₆, ∃ k x y z, p = .built k x y z := by
    rcases l1Regs_ok h₉ with ⟨-, rfl⟩ | ⟨-, -, rfl⟩ <;> simp [Settings.mk1]
  have b₇ : ∀ p ∈ r₇, ∃ k x y z, p = .built k x y z := by
    split at h₁₀
    · obtain ⟨lo', rfl, -⟩ := boxRegs_ok ha.lower ha.nonNeg h₁₀
      simp [Settings.mk1]
    · cases h₁₀; simp
  have b₁ : ∀ p ∈ (if a.parafac2 = true then s.mkSvd Kind.parafac2 else []), ∃ k x y z, p = .built k x y z := by
    split <;> simp [Settings.mkSvd]
  have b₂ : ∀ p ∈ (if uni = true then s.mk1 (Kind.unimodality a.nonNeg) else []), ∃ k x y z, p = .built k x y z := by
    split <;> simp [Settings.mk1]
  have b₈ : ∀ c : Bool, ∀ p ∈ (if c = true then s.mk1 Kind.nonNegativity else []), ∃ k x y z, p = .built k x y z := by
    intro c; split <;> simp [Settings.mk1]
  intro p hp
  simp only [List.mem_append] at hp
  rcases hp with ((((((hp | hp) | hp) | hp) | hp) | hp) | hp) | hp
  · exact b₁ p hp
  · exact b₂ p hp
  · exact b₃ p hp
  · exact b₄ p hp
  · exact b₅ p hp
  · exact b₆ p hp
  · exact b₇ p hp
  · exact b₈ _ p hp

theorem penA_value {W : World I K R J} {k : Kind} {x y z} {p : PenA I R} (h : W.penA (.built k x y z) = .ok p) (X : Matrix (Fin I) (Fin R) ℝ) : p.value X = k.value X := by
  simp only [World.penA, World.kindA] at h
  cases hu : W.matUpdate I R k with
  | none => simp [hu] at h
  | some u => simp only [hu, Option.map_some] at h; cases h; rfl

theorem penC_value {W : World I K R J} {k : Kind} {x y z} {p : PenC K R} (h : W.penC (.built k x y z) = .ok p) (X : Matrix (Fin K) (Fin R) ℝ) : p.value X = k.value X := by
  simp only [World.penC, World.kindC] at h
  cases hu : W.matUpdate K R k with
  | none => simp [hu] at h
  | some u => simp only [hu, Option.map_some] at h; cases h; rfl

theorem penB_value {W : World I K R J} {k : Kind} {x y z} {p : PenB I R J} (h : W.penB (.built k x y z) = .ok p) (X : Ragged I R J) : p.value X = k.valueList X := by
  cases k with
  | parafac2 =>
    cases h
    simp [PenB.parafac2, Kind.valueList, Kind.value, hardPenalty]
  | _ =>
    simp only [World.penB, World.kindB] at h
    split at h
    · rename_i q hq
      split at hq
      · cases hq; cases h; rfl
      · cases hq
    · cases h

theorem sum_get {α : Type} (l : List α) (g : Fin l.length → ℝ) (v : α → ℝ) (h : ∀ p, g p = v (l.get p)) : ∑ p, g p = (l.map v).sum := by
  rw [← List.sum_ofFn]
  congr 1
  refine List.ext_getElem (by simp) fun i h₁ h₂ => ?_
  simp [h]

/-- The value of a penalty on A, 0 if it cannot be used. -/
noncomputable def valA (W : World I K R J) (X : Matrix (Fin I) (Fin R) ℝ) (p : Pen String) : ℝ := match W.penA p with | .ok q => q.value X | .error _ => 0

/-- The value of a penalty on the B-matrices, 0 if it cannot be used. -/
noncomputable def valB (W : World I K R J) (X : Ragged I R J) (p : Pen String) : ℝ := match W.penB p with | .ok q => q.value X | .error _ => 0

/-- The value of a penalty on C, 0 if it cannot be used. -/
noncomputable def valC (W : World I K R J) (X : Matrix (Fin K) (Fin R) ℝ) (p : Pen String) : ℝ := match W.penC p with | .ok q => q.value X | .error _ => 0

/-- The values of a list of penalties: the built ones and the caller's. -/
theorem sum_split {parsed user : List (Pen String)} {v w : Pen String → ℝ} {upd : Bool} {x : ℝ} {g : Fin (dropRegs upd (parsed ++ user)).length → ℝ}
    (hg : ∀ p, g p = v ((dropRegs upd (parsed ++ user)).get p)) (hv : upd = true → ∀ p ∈ parsed, v p = w p) (hx : (parsed.map w).sum = x) :
    ∑ p, g p = if upd = true then x + (user.map v).sum else 0 := by
  rw [sum_get _ g v hg]
  cases upd with
  | false => simp [dropRegs]
  | true =>
    simp only [dropRegs, if_true, List.map_append, List.sum_append]
    rw [List.map_congr_left (hv rfl), hx]

/-- C66: a call with documented arguments that returns diagnostics reports one error and one loss per iteration and one for the start. Entry `t` is the relative error
and the documented loss of the factorization that the same call with `t` iterations (and no tolerances) returns; the last one is that of the returned factorization. -/
theorem C66 (W : World I K R J) (c : Call I K R J) (h h' : Heap String) (res : Result I K R J) (hs : NotSelf h c.regs)
    (e : call W c h = (h', .ok res)) (f : Fin 3 → ModeArgs) (hf : AllForms c.args f) (hsc : ∀ m, Scalar (f m)) (l2 : Fin 3 → Leaf) (hl2 : Forms c.l2 l2)
    (hX : c.X ≠ 0) (hr : c.loop.returnErrors = true) :
    ∃ d, res.out.diag = some d ∧ d.losses.length = d.nIter + 1 ∧ d.recErrors.length = d.nIter + 1 ∧ ∃ user : ℕ → List (Pen String),
      (∀ m < 3, Caller h c.regs m (user m)) ∧ ∀ t ≤ d.nIter, ∃ o, call W { c with loop := plain t } h = (h', .ok o) ∧
        (t = d.nIter → o.out.st.weights = res.out.st.weights ∧ o.out.st.F = res.out.st.F) ∧
        d.recErrors[t]? = some (.fin (√(sse c.X (absorb o.out.st.weights o.out.st.F)) / √(raggedSq c.X))) ∧
        d.losses[t]? = some (.fin (documentedLoss W c f l2 user o.out.st.weights o.out.st.F)) := by
  obtain ⟨start, l2', args, -, hl, hargs, parsed, user, hm, hcall⟩ := call_parts hs e
  obtain ⟨args', hargs', hf'⟩ := C49_modes hf
  rw [hargs] at hargs'
  cases hargs'
  have hsol : solve W c start _ _ _ _ = .ok res := (congrArg Prod.snd (e.symm.trans (hcall c.loop))).symm
  obtain ⟨S, out, hout, rfl⟩ := solve_ok hsol
  have p0 := (hm 0 (by omega)).1
  have p1 := (hm 1 (by omega)).1
  have p2 := (hm 2 (by omega)).1
  rw [show args 0 = f 0 from hf' 0] at p0
  rw [show args 1 = f 1 from hf' 1] at p1
  rw [show args 2 = f 2 from hf' 2] at p2
  obtain ⟨d, hd, n1, -, n3, hent⟩ := C37 (S.problem _) hX c.loop hr (S.state start) out hout
  refine ⟨d, hd, n3, n1, user, fun m hm3 => (hm m hm3).2, fun t ht => ?_⟩
  obtain ⟨o, ho, hlast, herr, hloss, -⟩ := hent t ht
  refine ⟨⟨_, _, _, o⟩, ?_, fun hn => by rw [hlast hn]; exact ⟨rfl, rfl⟩, herr, ?_⟩
  · rw [hcall (plain t)]
    refine Prod.ext rfl ?_
    show solve W { c with loop := plain t } start _ _ _ _ = _
    rw [solve_setup (S.withLoop (plain t))]
    show Except.map _ (cmfAoadmm (S.problem _) (plain t) (S.state start)) = _
    rw [ho]
    rfl
  · rw [hloss]
    have hreal : ∀ x : Leaf, (if x.isNone then Leaf.num 0 else x).real = x.real := by intro x; cases x <;> rfl
    have e2 : l2' = [l2 0, l2 1, l2 2].map fun x => if x.isNone then .num 0 else x := by
      simp only [l2List, PVal.toArg, id, (C49 _).1 _ hl2] at hl
      exact (Except.ok.inj hl).symm
    have vA : ∀ p, (S.pensA p).value o.st.F.A = valA W o.st.F.A ((dropRegs c.updA (parsed 0 ++ user 0)).get p) := fun p => by unfold valA; rw [S.pensA_ok p]
    have vB : ∀ p, (S.pensB p).value o.st.F.B = valB W o.st.F.B ((dropRegs c.updB (parsed 1 ++ user 1)).get p) := fun p => by unfold valB; rw [S.pensB_ok p]
    have vC : ∀ p, (S.pensC p).value o.st.F.C = valC W o.st.F.C ((dropRegs c.updC (parsed 2 ++ user 2)).get p) := fun p => by unfold valC; rw [S.pensC_ok p]
    have sA := sum_split vA (fun hu p hp => by
      obtain ⟨k, x, y, z, rfl⟩ := parsed_built (hsc 0) p0 p hp
      obtain ⟨i, hi⟩ := mem_get (show Pen.built k x y z ∈ dropRegs c.updA (parsed 0 ++ user 0) by simp [dropRegs, hu, hp])
      have hk := S.pensA_ok i
      rw [hi] at hk
      simp only [valA, hk]
      exact penA_value hk _) (C51 (hsc 0) p0 o.st.F.A)
    have sB := sum_split vB (fun hu p hp => by
      obtain ⟨k, x, y, z, rfl⟩ := parsed_built (hsc 1) p1 p hp
      obtain ⟨i, hi⟩ := mem_get (show Pen.built k x y z ∈ dropRegs c.updB (parsed 1 ++ user 1) by simp [dropRegs, hu, hp])
      have hk := S.pensB_ok i
      rw [hi] at hk
      simp only [valB, hk]
      exact penB_value hk _) (C51_list (hsc 1) p1 o.st.F.B)
    have sC := sum_split vC (fun hu p hp => by
      obtain ⟨k, x, y, z, rfl⟩ := parsed_built (hsc 2) p2 p hp
      obtain ⟨i, hi⟩ := mem_get (show Pen.built k x y z ∈ dropRegs c.updC (parsed 2 ++ user 2) by simp [dropRegs, hu, hp])
      have hk := S.pensC_ok i
      rw [hi] at hk
      simp only [valC, hk]
      exact penC_value hk _) (C51 (hsc 2) p2 o.st.F.C)
    unfold regValue documentedLoss modeTerm userA userB userC
    simp only [Setup.problem, Call.problem] at sA sB sC ⊢
    rw [sA, sB, sC, e2]
    simp only [List.map_cons, List.map_nil, List.getD_cons_zero, List.getD_cons_succ, hreal]
    congr 2
    rw [← add_assoc]
    rfl

end Verif.Props
