import Verif.Whole.Run
import Verif.Props.LoopFeasible
import Verif.Props.ParseMeaning

/-!
# C65: what a satisfied feasibility condition says about the requested constraints

The statements are about a call of `cmf_aoadmm` with keyword arguments.
-/

namespace Verif.Props

open Verif.Whole Verif.Loop Verif.ADMM Verif.Penalties Verif.Parse Verif.Spec Finset Matrix

variable {I K R : ℕ} {J : Fin I → ℕ}

/-! ### Requested constraints -/

/-- The constraints that can be requested for one mode. Non-negativity is merged with the others. -/
inductive Constraint
  | nonNeg
  | bounds
  | norm
  | unimodal

/-- It was requested. -/
def Constraint.Asked (a : ModeArgs) : Constraint → Prop
  | .nonNeg => a.nonNeg = .bool true
  | .bounds => a.lower ≠ .none ∨ a.upper ≠ .none
  | .norm => ∃ b, a.normBound = .num b
  | .unimodal => a.unimodal = .bool true

/-- The matrices that satisfy the request, and are non-negative if that was requested. -/
def Constraint.set (a : ModeArgs) (m n : ℕ) : Constraint → Set (Matrix (Fin m) (Fin n) ℝ)
  | .nonNeg => {Z | ∀ i r, 0 ≤ Z i r}
  | .bounds => {Z | ∀ i r, (∀ l, a.lower = .num l → l ≤ Z i r) ∧ (∀ u, a.upper = .num u → Z i r ≤ u) ∧ (a.nonNeg = .bool true → 0 ≤ Z i r)}
  | .norm => {Z | (∀ b, a.normBound = .num b → ∀ r, √(colSq Z r) ≤ b) ∧ (a.nonNeg = .bool true → ∀ i r, 0 ≤ Z i r)}
  | .unimodal => {Z | (∀ r, IsUnimodal fun i => Z i r) ∧ (a.nonNeg = .bool true → ∀ i r, 0 ≤ Z i r)}

/-- The bounds of a mode do not contradict each other. -/
def Consistent (a : ModeArgs) : Prop :=
  (∀ l u, a.lower = .num l → a.upper = .num u → l ≤ u) ∧ (a.nonNeg = .bool true → ∀ u, a.upper = .num u → 0 ≤ u)

/-! ### The updates of the built penalties -/

/-- Conditions under which the update of a built penalty returns elements of its constraint set. -/
def KindOk (m n : ℕ) : Kind → Prop
  | .box lo hi => ∀ p q, lo.bound = some p → hi.bound = some q → p ≤ q
  | .l2Ball b _ => 0 < b.real
  | .unimodality _ => 0 < m ∧ 0 < n
  | _ => True

/-- The constraint set, if the conditions are met. -/
def okSet (m n : ℕ) : Pen String → Set (Matrix (Fin m) (Fin n) ℝ)
  | .built k _ _ _ => {Z | KindOk m n k → Z ∈ kindSet m n k}
  | .user _ => Set.univ

theorem matUpdate_mem {W : World I K R J} {m n : ℕ} {k : Kind} {u : MatUpdate m n} (h : W.matUpdate m n k = some u) (hk : KindOk m n k)
    (Y : Matrix (Fin m) (Fin n) ℝ) (ρ : ℝ) (aux : Matrix (Fin m) (Fin n) ℝ) : u Y ρ aux ∈ kindSet m n k := by
  cases k with
  | parafac2 => exact trivial
  | genL2 _ _ => exact trivial
  | tv _ _ => exact trivial
  | unimodality nn =>
    cases h
    exact HardPen.mat_mem (.unimodal nn.flag) hk Y ρ aux
  | l2Ball b nn =>
    cases h
    exact HardPen.mat_mem (.l2Ball b.real nn.flag) hk Y ρ aux
  | box lo hi =>
    cases h
    exact HardPen.mat_mem (.box lo.bound hi.bound) hk Y ρ aux
  | nonNegativity =>
    cases h
    exact HardPen.mat_mem .nonNeg trivial Y ρ aux
  | l1 g nn =>
    cases h
    intro hnn i r
    simp [l1Mat, hnn, clip]

theorem kindA_into {W : World I K R J} {k : Kind} {p : PenA I R} (h : W.kindA k = some p) : p.Into {Z | KindOk I R k → Z ∈ kindSet I R k} := by
  unfold World.kindA at h
  cases hu : W.matUpdate I R k with
  | none => rw [hu] at h; cases h
  | some u =>
    rw [hu] at h
    cases h
    refine ⟨fun Y ρ aux hk => matUpdate_mem hu hk Y ρ aux, fun v hv Y ρ aux hk => ?_⟩
    cases k with
    | nonNegativity => cases hv; exact fun i => (C15_nonneg_row (Y i) (ρ i) (aux i)).1
    | box lo hi => cases hv; exact fun i => (C16_box_row lo.bound hi.bound hk (Y i) (ρ i) (aux i)).1
    | l1 g nn =>
      cases hv
      intro hnn i r
      simp [l1Row, hnn, clip]
    | _ => cases hv

theorem kindC_into {W : World I K R J} {k : Kind} {p : PenC K R} (h : W.kindC k = some p) : p.Into {Z | KindOk K R k → Z ∈ kindSet K R k} := by
  unfold World.kindC at h
  cases hu : W.matUpdate K R k with
  | none => rw [hu] at h; cases h
  | some u =>
    rw [hu] at h
    cases h
    exact fun Y ρ aux hk => matUpdate_mem hu hk Y ρ aux

/-- What is known of the auxiliary variables of mode 1. -/
def auxOk : Pen String → AuxB I R J → Prop
  | .built .parafac2 _ _ _, a => ∃ b, a = .p2 b
  | _, _ => True

/-- The constraint set in mode 1. -/
def okSetB : Pen String → Set (Ragged I R J)
  | .built .parafac2 _ _ _ => SameCross I R J
  | p => {Z | ∀ i, Z i ∈ okSet (J i) R p}

theorem penA_into {W : World I K R J} {q : Pen String} {p : PenA I R} (h : W.penA q = .ok p) : p.Into (okSet I R q) := by
  cases q with
  | user id => exact ⟨fun _ _ _ => trivial, fun _ _ _ _ _ => trivial⟩
  | built k x y z =>
    simp only [World.penA] at h
    cases hk : W.kindA k with
    | none => rw [hk] at h; cases h
    | some p' => rw [hk] at h; cases h; exact kindA_into hk

theorem penC_into {W : World I K R J} {q : Pen String} {p : PenC K R} (h : W.penC q = .ok p) : p.Into (okSet K R q) := by
  cases q with
  | user id => exact fun _ _ _ => trivial
  | built k x y z =>
    simp only [World.penC] at h
    cases hk : W.kindC k with
    | none => rw [hk] at h; cases h
    | some p' => rw [hk] at h; cases h; exact kindC_into hk

theorem penB_into {W : World I K R J} (hsvd : SVDFun W.svdThin) {q : Pen String} {p : PenB I R J} (h : W.penB q = .ok p) : p.Into (auxOk q) (okSetB q) := by
  cases q with
  | user id => exact fun _ _ _ _ => ⟨trivial, fun _ => trivial⟩
  | built k x y z =>
    simp only [World.penB] at h
    cases hk : W.kindB k with
    | none => rw [hk] at h; cases h
    | some p' =>
      rw [hk] at h
      cases h
      have gen : k ≠ .parafac2 → (hx : ∀ i, (W.matUpdate (J i) R k).isSome) → p = .ofMat (fun i => (W.matUpdate (J i) R k).get (hx i)) (fun X => k.valueList X) →
          ∀ Y ρ aux i, (p.update Y ρ aux).toMats i ∈ okSet (J i) R (.built k x y z) := by
        rintro - hx rfl Y ρ aux i hok
        exact matUpdate_mem (Option.some_get (hx i)).symm hok _ _ _
      unfold World.kindB at hk
      cases k with
      | parafac2 =>
        cases hk
        exact parafac2_into_updated W.svdThin hsvd 1 one_pos true
      | _ =>
        simp only at hk
        split at hk
        · rename_i hx
          exact fun Y ρ aux _ => ⟨trivial, gen (by simp) hx (Option.some.inj hk).symm Y ρ aux⟩
        · cases hk

theorem auxB_ok {W : World I K R J} {q : Pen String} {n : ℕ} {a : AuxB I R J} (h : W.auxB n q = .ok a) : auxOk q a := by
  cases q with
  | user id => exact trivial
  | built k x y z =>
    cases k with
    | parafac2 =>
      simp only [World.auxB, World.scheme] at h
      split at h
      · cases h; exact ⟨_, rfl⟩
      split at h
      · cases h; exact ⟨_, rfl⟩
      split at h
      · cases h; exact ⟨_, rfl⟩
      · cases h
    | _ => exact trivial

/-! ### The built penalties impose the requested constraints -/

/-- For every requested constraint there is a built penalty that imposes it and whose update returns feasible matrices. -/
theorem asked_built {negEig : (m : ℕ) → Matrix (Fin m) (Fin m) ℝ → Bool} {s : Settings String} {a : ModeArgs} (ha : Scalar a) (h0 : a.normBound ≠ .num 0)
    (hc : Consistent a) {l : List (Pen String)} (h : parseMode negEig s a = .ok l) {q : Constraint} (hq : q.Asked a) :
    ∃ p ∈ l, (∀ x y z, p ≠ .built .parafac2 x y z) ∧ ∀ m n, 0 < m → 0 < n → okSet m n p ⊆ q.set a m n := by
  obtain ⟨l1On, uni, r₃, ball, r₄, tvOn, r₅, l1On', r₆, r₇, nn, h₁, h₂, h₃, h₄, h₅, h₆, h₇, h₈, h₉, h₁₀, h₁₁, rfl⟩ := parseMode_ok.1 h
  rw [flag_truth ha.unimodal] at h₂
  rw [flag_truth ha.nonNeg] at h₁₁
  cases h₂
  cases h₁₁
  have hfn := flag_true ha.nonNeg
  have hfu := flag_true ha.unimodal
  simp only [List.mem_append]
  -- unimodality
  have U : a.unimodal.flag = true → ∃ p : Pen String, p ∈ (if a.unimodal.flag = true then s.mk1 (Kind.unimodality a.nonNeg) else []) ∧
      (∀ x y z, p ≠ .built .parafac2 x y z) ∧
      ∀ m n, 0 < m → 0 < n → okSet m n p ⊆ {Z | ∀ r, IsUnimodal (fun i => Z i r) ∧ (a.nonNeg.flag → ∀ i, 0 ≤ Z i r)} := by
    intro hu
    rw [if_pos hu]
    exact ⟨_, List.mem_singleton.2 rfl, by simp, fun m n hm hn Z hZ => hZ ⟨hm, hn⟩⟩
  have B : ball = true → ∃ p ∈ r₄, (∀ x y z, p ≠ .built .parafac2 x y z) ∧ ∀ m n, 0 < m → 0 < n → okSet m n p ⊆ BallSet a.normBound.real a.nonNeg.flag m n := by
    intro hb
    rcases ballRegs_ok h₅ with ⟨hb', -⟩ | ⟨-, hle, rfl⟩
    · rw [hb] at hb'; cases hb'
    · refine ⟨_, List.mem_singleton.2 rfl, by simp, fun m n _ _ Z hZ => hZ ?_⟩
      rcases ha.normBound with e | ⟨b, e⟩
      · rw [e] at hle; cases hle
      · rw [e] at hle
        simpa [Leaf.leZero, KindOk, e, Leaf.real] using hle
  have X : (!a.lower.isNone || !a.upper.isNone) = true → ∃ p ∈ r₇, (∀ x y z, p ≠ .built .parafac2 x y z) ∧ ∀ m n, okSet m n p ⊆ Constraint.bounds.set a m n := by
    intro hb
    rw [if_pos hb] at h₁₀
    obtain ⟨lo', rfl, hlo⟩ := boxRegs_ok ha.lower ha.nonNeg h₁₀
    have hu : ∀ v, a.upper.bound = some v ↔ a.upper = .num v := by
      intro v
      rcases ha.upper with e | e | ⟨w, e⟩ <;> simp [e, Leaf.bound]
    refine ⟨_, List.mem_singleton.2 rfl, by simp, fun m n Z hZ => ?_⟩
    have hbox := hZ (by
      intro p q hp hq
      have hq' := (hu q).1 hq
      refine (hlo q).2 ⟨fun l hl => hc.1 l q hl hq', fun hn => hc.2 (hfn.1 hn) q hq'⟩ p hp)
    intro i r
    obtain ⟨b1, b2⟩ := hbox i r
    obtain ⟨b3, b4⟩ := (hlo (Z i r)).1 b1
    exact ⟨b3, fun u e => b2 u ((hu u).2 e), fun hn => b4 (hfn.2 hn)⟩
  cases q with
  | unimodal =>
    obtain ⟨p, hp, hn, hs⟩ := U (hfu.2 hq)
    exact ⟨p, .inl (.inl (.inl (.inl (.inl (.inl (.inr hp)))))), hn, fun m n hm hn Z hZ => ⟨fun r => (hs m n hm hn hZ r).1, fun hnn i r => (hs m n hm hn hZ r).2 (hfn.2 hnn) i⟩⟩
  | norm =>
    obtain ⟨b, hb⟩ := hq
    have hball : ball = true := by
      rw [hb] at h₄; cases h₄
      have : b ≠ 0 := by rintro rfl; exact h0 hb
      simpa using this
    obtain ⟨p, hp, hn, hs⟩ := B hball
    refine ⟨p, .inl (.inl (.inl (.inl (.inr hp)))), hn, fun m n hm hn Z hZ => ?_⟩
    obtain ⟨b1, b2⟩ := hs m n hm hn hZ
    refine ⟨fun b' hb' r => ?_, fun hnn => b2 (hfn.2 hnn)⟩
    have := b1 r
    rwa [hb'] at this
  | bounds =>
    have hb : (!a.lower.isNone || !a.upper.isNone) = true := by
      rcases hq with hq | hq
      · cases e : a.lower <;> simp [Leaf.isNone, e] at hq ⊢
      · cases e : a.upper <;> simp [Leaf.isNone, e] at hq ⊢
    obtain ⟨p, hp, hn, hs⟩ := X hb
    exact ⟨p, .inl (.inr hp), hn, fun m n _ _ => hs m n⟩
  | nonNeg =>
    have hn' := hfn.2 hq
    by_cases c₁ : a.unimodal.flag = true
    · obtain ⟨p, hp, hn, hs⟩ := U c₁
      exact ⟨p, .inl (.inl (.inl (.inl (.inl (.inl (.inr hp)))))), hn, fun m n hm hn Z hZ i r => (hs m n hm hn hZ r).2 hn' i⟩
    by_cases c₂ : ball = true
    · obtain ⟨p, hp, hn, hs⟩ := B c₂
      exact ⟨p, .inl (.inl (.inl (.inl (.inr hp)))), hn, fun m n hm hn Z hZ => (hs m n hm hn hZ).2 hn'⟩
    by_cases c₃ : l1On' = true
    · rcases l1Regs_ok h₉ with ⟨e, -⟩ | ⟨-, -, rfl⟩
      · rw [c₃] at e; cases e
      · exact ⟨_, .inl (.inl (.inr (List.mem_singleton.2 rfl))), by simp, fun m n _ _ Z hZ => hZ trivial hn'⟩
    by_cases c₄ : (!a.lower.isNone || !a.upper.isNone) = true
    · obtain ⟨p, hp, hn, hs⟩ := X c₄
      exact ⟨p, .inl (.inr hp), hn, fun m n _ _ Z hZ i r => (hs m n hZ i r).2.2 hq⟩
    · simp only [Bool.not_eq_true] at c₁ c₂ c₃ c₄
      refine ⟨.built .nonNegativity s.aux s.dual none, .inr ?_, by simp, fun m n _ _ Z hZ => hZ trivial⟩
      rw [hn', c₁, c₂, c₃, c₄]
      exact List.mem_singleton.2 rfl

/-- With `parafac2` a PARAFAC2 penalty is built. -/
theorem parafac2_built {negEig : (m : ℕ) → Matrix (Fin m) (Fin m) ℝ → Bool} {s : Settings String} {a : ModeArgs} {l : List (Pen String)}
    (h : parseMode negEig s a = .ok l) (hp : a.parafac2 = true) : .built .parafac2 s.aux s.dual (some s.svd) ∈ l := by
  obtain ⟨l1On, uni, r₃, ball, r₄, tvOn, r₅, l1On', r₆, r₇, nn, h₁, h₂, h₃, h₄, h₅, h₆, h₇, h₈, h₉, h₁₀, h₁₁, rfl⟩ := parseMode_ok.1 h
  simp [hp, Settings.mkSvd]

/-! ### C65 -/

theorem ne_pos {m n : ℕ} {A : Matrix (Fin m) (Fin n) ℝ} (h : A ≠ 0) : 0 < m ∧ 0 < n := by
  refine ⟨?_, ?_⟩ <;> by_contra hc <;> obtain rfl := Nat.eq_zero_of_not_pos hc <;> refine h (by ext i j; first | exact i.elim0 | exact j.elim0)

theorem mem_get {α : Type} {l : List α} {x : α} (h : x ∈ l) : ∃ p : Fin l.length, l.get p = x := List.get_of_mem h

/-- C65: if a call with documented arguments reports a satisfied feasibility condition and the factors are not zero, every updated factor is within `feasibility_tol`
times its norm of a matrix that satisfies the requested constraint (and is non-negative if that was requested); with `parafac2` the B-matrices are that
close to matrices with the same cross product. This holds whatever other penalties the caller passes in `regs`. -/
theorem C65 (W : World I K R J) (hsvd : SVDFun W.svdThin) (c : Call I K R J) (h h' : Heap String) (res : Result I K R J) (hs : NotSelf h c.regs)
    (e : call W c h = (h', .ok res)) (f : Fin 3 → ModeArgs) (hf : AllForms c.args f) (hsc : ∀ m, Scalar (f m)) (h0 : ∀ m, (f m).normBound ≠ .num 0)
    (hc : ∀ m, Consistent (f m)) (hJ : ∀ i, 0 < J i) (hN : 0 < c.nInner) (hn : 0 < c.loop.nIterMax) (t : ℝ) (ht : IsSet c.loop.feasTol t) (d : Diagnostics)
    (hd : res.out.diag = some d) (hfeas : d.feasible = some true) (hA : res.out.st.F.A ≠ 0) (hB : res.out.st.F.B ≠ 0) (hC : res.out.st.F.C ≠ 0) :
    (c.updA = true → ∀ q : Constraint, q.Asked (f 0) → ∃ Z ∈ q.set (f 0) I R, √(sqNorm (res.out.st.F.A - Z)) < t * √(sqNorm res.out.st.F.A)) ∧
    (c.updB = true → (∀ q : Constraint, q.Asked (f 1) →
        ∃ Z : Ragged I R J, (∀ i, Z i ∈ q.set (f 1) (J i) R) ∧ √(raggedSq (res.out.st.F.B - Z)) < t * √(raggedSq res.out.st.F.B)) ∧
      (c.args.parafac2 = true → ∃ Z : Ragged I R J, (∀ i j, (Z i).transpose * Z i = (Z j).transpose * Z j) ∧
        √(raggedSq (res.out.st.F.B - Z)) < t * √(raggedSq res.out.st.F.B))) ∧
    (c.updC = true → ∀ q : Constraint, q.Asked (f 2) → ∃ Z ∈ q.set (f 2) K R, √(sqNorm (res.out.st.F.C - Z)) < t * √(sqNorm res.out.st.F.C)) := by
  obtain ⟨start, l2, args, -, -, hargs, parsed, user, hm, hsol⟩ := call_ok hs e
  obtain ⟨args', hargs', hf'⟩ := C49_modes hf
  rw [hargs] at hargs'
  cases hargs'
  obtain ⟨S, out, hout, rfl⟩ := solve_ok hsol
  have p0 := (hm 0 (by omega)).1
  have p1 := (hm 1 (by omega)).1
  have p2 := (hm 2 (by omega)).1
  rw [show args 0 = f 0 from hf' 0] at p0
  rw [show args 1 = f 1 from hf' 1] at p1
  rw [show args 2 = f 2 from hf' 2] at p2
  have len : ∀ (b : Bool) (l : List (Pen String)), 0 < (dropRegs b l).length → b = true := by
    intro b l hl
    cases b with
    | true => rfl
    | false => simp [dropRegs] at hl
  obtain ⟨g1, g2, g3⟩ := C39_partial (S.problem _) hN ⟨len _ _, len _ _, len _ _⟩ (fun p => okSet I R ((dropRegs c.updA (parsed 0 ++ user 0)).get p))
    (fun p => okSetB ((dropRegs c.updB (parsed 1 ++ user 1)).get p)) (fun p => okSet K R ((dropRegs c.updC (parsed 2 ++ user 2)).get p))
    (fun p => auxOk ((dropRegs c.updB (parsed 1 ++ user 1)).get p)) (fun p => penA_into (S.pensA_ok p)) (fun p => penB_into hsvd (S.pensB_ok p))
    (fun p => penC_into (S.pensC_ok p)) c.loop hn t ht (S.state start) (fun p => auxB_ok (S.auxB_ok p)) out hout d hd hfeas
    ⟨fun _ => hA, fun _ => hB, fun _ => hC⟩
  have hIR := ne_pos hA
  have hKR := ne_pos hC
  refine ⟨fun hu q hq => ?_, fun hu => ⟨fun q hq => ?_, fun hp => ?_⟩, fun hu q hq => ?_⟩
  · obtain ⟨p, hp, -, hsub⟩ := asked_built (hsc 0) (h0 0) (hc 0) p0 hq
    obtain ⟨i, hi⟩ := mem_get (show p ∈ dropRegs c.updA (parsed 0 ++ user 0) by simp [dropRegs, hu, hp])
    obtain ⟨Z, hZ, hlt⟩ := g1 i
    rw [hi] at hZ
    exact ⟨Z, hsub I R hIR.1 hIR.2 hZ, hlt⟩
  · obtain ⟨p, hp, hne, hsub⟩ := asked_built (hsc 1) (h0 1) (hc 1) p1 hq
    obtain ⟨i, hi⟩ := mem_get (show p ∈ dropRegs c.updB (parsed 1 ++ user 1) by simp [dropRegs, hu, hp])
    obtain ⟨Z, hZ, hlt⟩ := g2 i
    rw [hi] at hZ
    refine ⟨Z, fun j => hsub (J j) R (hJ j) hIR.2 ?_, hlt⟩
    unfold okSetB at hZ
    split at hZ
    · exact absurd rfl (hne _ _ _)
    · exact hZ j
  · have hp2 : (f 1).parafac2 = true := by rw [hf.parafac2 1, hp]; rfl
    obtain ⟨i, hi⟩ := mem_get (show Pen.built .parafac2 (c.settings W).aux (c.settings W).dual (some (c.settings W).svd) ∈ dropRegs c.updB (parsed 1 ++ user 1) by
      rw [dropRegs, if_pos hu]; exact List.mem_append_left _ (parafac2_built p1 hp2))
    obtain ⟨Z, hZ, hlt⟩ := g2 i
    rw [hi] at hZ
    exact ⟨Z, hZ, hlt⟩
  · obtain ⟨p, hp, -, hsub⟩ := asked_built (hsc 2) (h0 2) (hc 2) p2 hq
    obtain ⟨i, hi⟩ := mem_get (show p ∈ dropRegs c.updC (parsed 2 ++ user 2) by simp [dropRegs, hu, hp])
    obtain ⟨Z, hZ, hlt⟩ := g3 i
    rw [hi] at hZ
    exact ⟨Z, hsub K R hKR.1 hKR.2 hZ, hlt⟩

end Verif.Props
