import Verif.Props.WholeLoss
import Verif.Props.LoopWarm

/-!
# C67: a call with documented arguments returns
-/

namespace Verif.Props

open Verif.Whole Verif.Loop Verif.ADMM Verif.Penalties Verif.Parse Verif.Spec Finset Matrix

variable {I K R : ℕ} {J : Fin I → ℕ}

/-- The values of one mode are admissible: strengths and bounds that are not negative, `condat_tv` if total variation is used, a symmetric norm matrix without negative
eigenvalues. -/
structure Admissible (W : World I K R J) (a : ModeArgs) : Prop where
  scalar : Scalar a
  l1 : 0 ≤ a.l1.real
  tv : 0 ≤ a.tv.real
  installed : a.tv.real ≠ 0 → W.hasTV = true
  norm : 0 ≤ a.normBound.real
  genL2 : ∀ m M, a.genL2 = .mat m m M → (∀ i j, M i j = M j i) ∧ W.negEig m M = false

/-- A request that cannot be handled row by row. -/
def MatrixWise (a : ModeArgs) : Prop :=
  a.unimodal = .bool true ∨ a.tv.real ≠ 0 ∨ a.normBound.real ≠ 0 ∨ ∃ m M, a.genL2 = .mat m m M

theorem num_truth {w : Leaf} (h : w = .none ∨ (∃ b, w = .bool b) ∨ ∃ x, w = .num x) : w.truth = .ok (decide (w.real ≠ 0)) := by
  rcases h with rfl | ⟨b, rfl⟩ | ⟨x, rfl⟩
  · simp [Leaf.truth, Leaf.real]
  · cases b <;> simp [Leaf.truth, Leaf.real]
  · rfl

theorem pos_leZero {w : Leaf} (h : w = .none ∨ (∃ b, w = .bool b) ∨ ∃ x, w = .num x) (h0 : w.real ≠ 0) (hp : 0 ≤ w.real) : w.leZero = .ok false ∧ w.ltZero = .ok false := by
  have : 0 < w.real := lt_of_le_of_ne hp (Ne.symm h0)
  rcases h with rfl | ⟨b, rfl⟩ | ⟨x, rfl⟩
  · simp [Leaf.real] at h0
  · cases b
    · simp [Leaf.real] at h0
    · exact ⟨rfl, rfl⟩
  · have hx : 0 < x := this
    exact ⟨by simp [Leaf.leZero, hx], by simp [Leaf.ltZero, hx.le]⟩

/-- Admissible values are accepted by the parser. -/
theorem parseMode_succeeds {W : World I K R J} {s : Settings String} (hs : s.hasTV = W.hasTV) {a : ModeArgs} (ha : Admissible W a) :
    ∃ l, parseMode W.negEig s a = .ok l := by
  have hsc := ha.scalar
  have hnorm : a.normBound = .none ∨ (∃ b, a.normBound = .bool b) ∨ ∃ x, a.normBound = .num x := by
    rcases hsc.normBound with e | e
    · exact .inl e
    · exact .inr (.inr e)
  obtain ⟨r₃, h₃⟩ : ∃ r, genL2Regs W.negEig s a.genL2 = .ok r := by
    unfold genL2Regs
    rcases hsc.genL2 with e | e | ⟨m, M, e⟩
    · rw [e]; exact ⟨_, rfl⟩
    · rw [e]; exact ⟨_, rfl⟩
    · obtain ⟨hsym, heig⟩ := ha.genL2 m M e
      rw [e]
      have : genL2Init W.negEig (.mat m m M) = .ok (.genL2 m M) := by
        unfold genL2Init
        simp only [dif_pos]
        rw [if_neg (by push Not; exact hsym)]
        simp only [Fin.cast_eq_self]
        rw [if_neg (by rw [heig]; simp)]
      rw [this]
      exact ⟨_, rfl⟩
  obtain ⟨r₄, h₄⟩ : ∃ r, ballRegs s (decide (a.normBound.real ≠ 0)) a.normBound a.nonNeg = .ok r := by
    unfold ballRegs
    by_cases h : a.normBound.real = 0
    · simp [h]
    · simp only [h, ne_eq, not_false_eq_true, decide_true, if_true, l2BallNew, (pos_leZero hnorm h ha.norm).1, ok_bind]
      exact ⟨_, rfl⟩
  have hz : (Leaf.num 0).ltZero = .ok false := by simp [Leaf.ltZero]
  have hl1 : (if decide (a.l1.real ≠ 0) = true then a.l1 else Leaf.num 0).ltZero = .ok false := by
    by_cases h : a.l1.real = 0
    · simp [h, hz]
    · simpa [h] using (pos_leZero hsc.l1 h ha.l1).2
  obtain ⟨r₅, h₅⟩ : ∃ r, tvRegs s (decide (a.tv.real ≠ 0)) a.tv (if decide (a.l1.real ≠ 0) = true then a.l1 else .num 0) = .ok r := by
    unfold tvRegs
    by_cases h : a.tv.real = 0
    · simp [h]
    · simp only [h, ne_eq, not_false_eq_true, decide_true, if_true, tvNew, hs, ha.installed h, (pos_leZero hsc.tv h ha.tv).1, hl1, ok_bind, Bool.not_true,
        Bool.false_eq_true, if_false]
      exact ⟨_, rfl⟩
  obtain ⟨b, hb⟩ : ∃ b, (if decide (a.tv.real ≠ 0) = true then Leaf.num 0 else if decide (a.l1.real ≠ 0) = true then a.l1 else .num 0).truth = .ok b := by
    split
    · exact ⟨_, rfl⟩
    · split
      · exact ⟨_, num_truth hsc.l1⟩
      · exact ⟨_, rfl⟩
  obtain ⟨r₆, h₆⟩ : ∃ r, l1Regs s b (if decide (a.tv.real ≠ 0) = true then Leaf.num 0 else if decide (a.l1.real ≠ 0) = true then a.l1 else .num 0) a.nonNeg = .ok r := by
    have : (if decide (a.tv.real ≠ 0) = true then Leaf.num 0 else if decide (a.l1.real ≠ 0) = true then a.l1 else .num 0).ltZero = .ok false := by
      by_cases h : a.tv.real = 0
      · simpa [h] using hl1
      · simp [h, hz]
    unfold l1Regs l1New
    cases b with
    | false => exact ⟨_, rfl⟩
    | true => rw [this]; exact ⟨_, rfl⟩
  obtain ⟨r₇, h₇⟩ : ∃ r, (if (!a.lower.isNone || !a.upper.isNone) = true then boxRegs s a.lower a.upper a.nonNeg else .ok []) = .ok r := by
    split
    · unfold boxRegs
      rw [flag_truth hsc.nonNeg]
      simp only [ok_bind]
      cases a.nonNeg.flag with
      | false => exact ⟨_, rfl⟩
      | true => rcases hsc.lower with e | e | ⟨x, e⟩ <;> rw [e] <;> exact ⟨_, rfl⟩
    · exact ⟨_, rfl⟩
  exact ⟨_, parseMode_ok.2 ⟨_, _, _, _, _, _, _, _, _, _, _, num_truth hsc.l1, flag_truth hsc.unimodal, h₃, num_truth hnorm, h₄, num_truth hsc.tv, h₅, hb, h₆, h₇,
    flag_truth hsc.nonNeg, rfl⟩⟩

/-- What the built penalties can be. -/
theorem parsed_kinds {negEig : (m : ℕ) → Matrix (Fin m) (Fin m) ℝ → Bool} {s : Settings String} {a : ModeArgs} (ha : Scalar a) {l : List (Pen String)}
    (h : parseMode negEig s a = .ok l) : ∀ p ∈ l, ∃ k z, p = .built k s.aux s.dual z ∧ (k = .parafac2 → a.parafac2 = true) ∧
      (∀ m M, k = .genL2 m M → a.genL2 = .mat m m M) ∧ ∀ n, k ≠ .parafac2 → (World.rowUpdate n k).isSome ∨ MatrixWise a := by
  have hnorm : a.normBound = .none ∨ (∃ b, a.normBound = .bool b) ∨ ∃ x, a.normBound = .num x := by
    rcases ha.normBound with e | e
    · exact .inl e
    · exact .inr (.inr e)
  obtain ⟨l1On, uni, r₃, ball, r₄, tvOn, r₅, l1On', r₆, r₇, nn, h₁, h₂, h₃, h₄, h₅, h₆, h₇, h₈, h₉, h₁₀, h₁₁, rfl⟩ := parseMode_ok.1 h
  rw [flag_truth ha.unimodal] at h₂
  rw [num_truth hnorm] at h₄
  rw [num_truth ha.tv] at h₆
  cases h₂
  cases h₄
  cases h₆
  intro p hp
  simp only [List.mem_append] at hp
  rcases hp with ((((((hp | hp) | hp) | hp) | hp) | hp) | hp) | hp
  · split at hp
    · rename_i hc
      rw [Settings.mkSvd, List.mem_singleton] at hp
      exact ⟨_, _, hp, fun _ => hc, by simp, by simp⟩
    · cases hp
  · split at hp
    · rename_i hc
      rw [Settings.mk1, List.mem_singleton] at hp
      exact ⟨_, _, hp, by simp, by simp, fun _ _ => .inr (.inl ((flag_true ha.unimodal).1 hc))⟩
    · cases hp
  · rcases genL2Regs_ok h₃ with ⟨rfl, -⟩ | ⟨k, M, e, rfl⟩
    · cases hp
    · rw [Settings.mkSvd, List.mem_singleton] at hp
      refine ⟨_, _, hp, by simp, fun m M' hk => ?_, fun _ _ => .inr (.inr (.inr (.inr ⟨k, M, e⟩)))⟩
      cases hk
      exact e
  · rcases ballRegs_ok h₅ with ⟨-, rfl⟩ | ⟨hb, -, rfl⟩
    · cases hp
    · rw [Settings.mk1, List.mem_singleton] at hp
      exact ⟨_, _, hp, by simp, by simp, fun _ _ => .inr (.inr (.inr (.inl (by simpa using hb))))⟩
  · rcases tvRegs_ok h₇ with ⟨-, rfl⟩ | ⟨hb, -, -, -, rfl⟩
    · cases hp
    · rw [Settings.mk1, List.mem_singleton] at hp
      exact ⟨_, _, hp, by simp, by simp, fun _ _ => .inr (.inr (.inl (by simpa using hb)))⟩
  · rcases l1Regs_ok h₉ with ⟨-, rfl⟩ | ⟨-, -, rfl⟩
    · cases hp
    · rw [Settings.mk1, List.mem_singleton] at hp
      exact ⟨_, _, hp, by simp, by simp, fun _ _ => .inl rfl⟩
  · split at h₁₀
    · obtain ⟨lo', rfl, -⟩ := boxRegs_ok ha.lower ha.nonNeg h₁₀
      rw [Settings.mk1, List.mem_singleton] at hp
      exact ⟨_, _, hp, by simp, by simp, fun _ _ => .inl rfl⟩
    · cases h₁₀; cases hp
  · split at hp
    · rw [Settings.mk1, List.mem_singleton] at hp
      exact ⟨_, _, hp, by simp, by simp, fun _ _ => .inl rfl⟩
    · cases hp

theorem matUpdate_isSome {W : World I K R J} {m n : ℕ} {k : Kind} (hp : k ≠ .parafac2) (hg : ∀ j M, k = .genL2 j M → j = m) : (W.matUpdate m n k).isSome := by
  cases k with
  | parafac2 => exact absurd rfl hp
  | genL2 j M => simp [World.matUpdate, hg j M rfl]
  | _ => rfl

/-- The names the code knows for the initial auxiliary and dual variables. -/
def KnownScheme (s : String) : Prop := s = "random_uniform" ∨ s = "random_standard_normal" ∨ s = "zeros"

theorem scheme_ok {β : Type} {s : String} (h : KnownScheme s) (u n z : β) : ∃ x, World.scheme s u n z = .ok x := by
  unfold World.scheme
  rcases h with rfl | rfl | rfl
  · exact ⟨u, by simp⟩
  · exact ⟨n, by simp⟩
  · exact ⟨z, by simp⟩

theorem choose_ok {n : ℕ} {β : Type} {g : Fin n → Except PyErr β} (h : ∀ p, ∃ x, g p = .ok x) : ∃ v : Fin n → β, ∀ p, g p = .ok (v p) :=
  ⟨fun p => (h p).choose, fun p => (h p).choose_spec⟩

/-- C67: a call without `regs` returns, if the names are known, the data is not empty, the values are admissible, norm matrices have the size of the factor they are for,
a relative tolerance comes with an absolute one, and requests on A that cannot be handled row by row come with a constant feasibility penalty for A. -/
theorem C67 (W : World I K R J) (c : Call I K R J) (h : Heap String) (hI : 0 < I) (hregs : c.regs = none) (hsvd : W.knownSvd c.svd = true) (hinit : c.init ≠ .other)
    (haux : KnownScheme c.auxInit) (hdual : KnownScheme c.dualInit) (l2 : Fin 3 → Leaf) (hl2 : Forms c.l2 l2) (f : Fin 3 → ModeArgs) (hf : AllForms c.args f)
    (hadm : ∀ m, Admissible W (f m)) (hA : ∀ m M, (f 0).genL2 = .mat m m M → m = I) (hB : ∀ m M, (f 1).genL2 = .mat m m M → ∀ i, m = J i)
    (hC : ∀ m M, (f 2).genL2 = .mat m m M → m = K) (hconst : c.constFeas = .truth true ∨ c.constFeas = .truth false ∨ c.constFeas = .str "A" ∨ c.constFeas = .str "B")
    (hrow : MatrixWise (f 0) → c.updA = true → c.constFeas = .truth true ∨ c.constFeas = .str "A")
    (habs : truthy c.loop.tol = true → c.loop.absTol.isSome) : ∃ h' res, call W c h = (h', .ok res) := by
  obtain ⟨start, hstart⟩ : ∃ s, initializeCmf W.init c.init = .ok s := by
    cases e : c.init with
    | given s => rcases s with ⟨_ | w, F⟩ <;> exact ⟨_, rfl⟩
    | other => exact absurd e hinit
    | _ => exact ⟨_, rfl⟩
  have hl : l2List (γ := Arg) id (.user c.l2) = .ok ([l2 0, l2 1, l2 2].map fun x => if x.isNone then .num 0 else x) := by
    simp only [l2List, PVal.toArg, id, (C49 _).1 _ hl2]
    rfl
  obtain ⟨args, hargs, hf'⟩ := C49_modes hf
  have hs : (⟨c.svd, c.auxInit, c.dualInit, W.hasTV⟩ : Settings String).hasTV = W.hasTV := rfl
  obtain ⟨l₀, h₀⟩ := parseMode_succeeds hs (hadm 0)
  obtain ⟨l₁, h₁⟩ := parseMode_succeeds hs (hadm 1)
  obtain ⟨l₂, h₂⟩ := parseMode_succeeds hs (hadm 2)
  have ho := parseAll_none_outcome W.negEig ⟨c.svd, c.auxInit, c.dualInit, W.hasTV⟩ c.args h
  simp only [hargs, ok_bind, show args 0 = f 0 from hf' 0, show args 1 = f 1 from hf' 1, show args 2 = f 2 from hf' 2, h₀, h₁, h₂, pure_eq_ok] at ho
  rcases hpa : parseAll W.negEig ⟨c.svd, c.auxInit, c.dualInit, W.hasTV⟩ c.args none h with ⟨h', x | out⟩
  · rw [hpa] at ho; cases ho
  obtain ⟨-, args', ha', hm⟩ := C48_default _ _ _ _ _ _ hpa
  rw [hargs] at ha'
  cases ha'
  obtain ⟨q₀, e₀, u₀⟩ := hm 0 (by omega)
  obtain ⟨q₁, e₁, u₁⟩ := hm 1 (by omega)
  obtain ⟨q₂, e₂, u₂⟩ := hm 2 (by omega)
  rw [show args 0 = f 0 from hf' 0, h₀] at e₀
  rw [show args 1 = f 1 from hf' 1, h₁] at e₁
  rw [show args 2 = f 2 from hf' 2, h₂] at e₂
  cases e₀
  cases e₁
  cases e₂
  have k₀ := parsed_kinds (hadm 0).scalar h₀
  have k₁ := parsed_kinds (hadm 1).scalar h₁
  have k₂ := parsed_kinds (hadm 2).scalar h₂
  have hmem : ∀ {b : Bool} {l : List (Pen String)} (p : Fin (dropRegs b l).length), (dropRegs b l).get p ∈ l ∧ b = true := by
    intro b l p
    cases b with
    | false => exact absurd p.2 (by simp [dropRegs])
    | true => exact ⟨List.get_mem l p, rfl⟩
  have hp2 : ∀ m : Fin 3, m ≠ 1 → (f m).parafac2 ≠ true := by
    intro m hm1
    rw [hf.parafac2 m]
    simp [hm1]
  obtain ⟨flags, hflags, hfl⟩ : ∃ fl, constFlags c.constFeas = .ok fl ∧ ((c.constFeas = .truth true ∨ c.constFeas = .str "A") → fl.1 = true) := by
    rcases hconst with e | e | e | e <;> rw [e] <;> refine ⟨_, rfl, ?_⟩ <;> simp [ConstFeas.truthy, ConstFeas.isStr, ConstFeas.eqStr]
  obtain ⟨xA, hxA⟩ := choose_ok (g := fun p : Fin (dropRegs c.updA l₀).length => W.auxA p ((dropRegs c.updA l₀).get p)) fun p => by
    obtain ⟨k, z, e, g, -, -⟩ := k₀ _ (hmem p).1
    rw [e]
    cases k with
    | parafac2 => exact absurd (g rfl) (hp2 0 (by decide))
    | _ => exact scheme_ok haux _ _ _
  obtain ⟨xB, hxB⟩ := choose_ok (g := fun p : Fin (dropRegs c.updB l₁).length => W.auxB p ((dropRegs c.updB l₁).get p)) fun p => by
    obtain ⟨k, z, e, g, -, -⟩ := k₁ _ (hmem p).1
    rw [e]
    cases k <;> exact scheme_ok haux _ _ _
  obtain ⟨xC, hxC⟩ := choose_ok (g := fun p : Fin (dropRegs c.updC l₂).length => W.auxC p ((dropRegs c.updC l₂).get p)) fun p => by
    obtain ⟨k, z, e, g, -, -⟩ := k₂ _ (hmem p).1
    rw [e]
    cases k with
    | parafac2 => exact absurd (g rfl) (hp2 2 (by decide))
    | _ => exact scheme_ok haux _ _ _
  obtain ⟨yA, hyA⟩ := choose_ok (g := fun p : Fin (dropRegs c.updA l₀).length => W.dualA p ((dropRegs c.updA l₀).get p)) fun p => by
    obtain ⟨k, z, e, -, -, -⟩ := k₀ _ (hmem p).1
    rw [e]
    exact scheme_ok hdual _ _ _
  obtain ⟨yB, hyB⟩ := choose_ok (g := fun p : Fin (dropRegs c.updB l₁).length => W.dualB p ((dropRegs c.updB l₁).get p)) fun p => by
    obtain ⟨k, z, e, -, -, -⟩ := k₁ _ (hmem p).1
    rw [e]
    exact scheme_ok hdual _ _ _
  obtain ⟨yC, hyC⟩ := choose_ok (g := fun p : Fin (dropRegs c.updC l₂).length => W.dualC p ((dropRegs c.updC l₂).get p)) fun p => by
    obtain ⟨k, z, e, -, -, -⟩ := k₂ _ (hmem p).1
    rw [e]
    exact scheme_ok hdual _ _ _
  have penA : ∀ p : Fin (dropRegs c.updA l₀).length, ∃ q, W.penA ((dropRegs c.updA l₀).get p) = .ok q ∧ (q.row.isSome ∨ MatrixWise (f 0)) := fun p => by
    obtain ⟨k, z, e, g, g', r⟩ := k₀ _ (hmem p).1
    have hk : k ≠ .parafac2 := fun hk => absurd (g hk) (hp2 0 (by decide))
    obtain ⟨u, hu⟩ := Option.isSome_iff_exists.1 (matUpdate_isSome (W := W) (m := I) (n := R) hk fun j M hj => hA j M (g' j M hj))
    rw [e]
    simp only [World.penA, World.kindA, hu, Option.map_some]
    exact ⟨_, rfl, r R hk⟩
  have hpens : ∃ v : Fin (dropRegs c.updA l₀).length → PenA I R, ∀ p, W.penA ((dropRegs c.updA l₀).get p) = .ok (v p) ∧ ((v p).row.isSome ∨ MatrixWise (f 0)) :=
    ⟨fun p => (penA p).choose, fun p => (penA p).choose_spec⟩
  obtain ⟨pA, hpA⟩ := hpens
  obtain ⟨pB, hpB⟩ := choose_ok (g := fun p : Fin (dropRegs c.updB l₁).length => W.penB ((dropRegs c.updB l₁).get p)) fun p => by
    obtain ⟨k, z, e, -, g', -⟩ := k₁ _ (hmem p).1
    rw [e]
    by_cases hk : k = .parafac2
    · rw [hk]; exact ⟨_, rfl⟩
    · have hu : ∀ i, (W.matUpdate (J i) R k).isSome := fun i => matUpdate_isSome hk fun j M hj => hB j M (g' j M hj) i
      have : W.kindB k = some (.ofMat (fun i => (W.matUpdate (J i) R k).get (hu i)) fun X => k.valueList X) := by
        cases k with
        | parafac2 => exact absurd rfl hk
        | _ => simp only [World.kindB]; rw [dif_pos hu]
      simp only [World.penB, this]
      exact ⟨_, rfl⟩
  obtain ⟨pC, hpC⟩ := choose_ok (g := fun p : Fin (dropRegs c.updC l₂).length => W.penC ((dropRegs c.updC l₂).get p)) fun p => by
    obtain ⟨k, z, e, g, g', -⟩ := k₂ _ (hmem p).1
    have hk : k ≠ .parafac2 := fun hk => absurd (g hk) (hp2 2 (by decide))
    obtain ⟨u, hu⟩ := Option.isSome_iff_exists.1 (matUpdate_isSome (W := W) (m := K) (n := R) hk fun j M hj => hC j M (g' j M hj))
    rw [e]
    simp only [World.penC, World.kindC, hu, Option.map_some]
    exact ⟨_, rfl⟩
  let S : Setup W c (dropRegs c.updA l₀) (dropRegs c.updB l₁) (dropRegs c.updC l₂) :=
    ⟨xA, xB, xC, yA, yB, yC, pA, pB, pC, flags, hxA, hxB, hxC, hyA, hyB, hyC, fun p => (hpA p).1, hpB, hpC, hflags⟩
  have hS : ∀ l2' : ℝ × ℝ × ℝ, ∃ o, cmfAoadmm (S.problem l2') c.loop (S.state start) = .ok o := by
    intro l2'
    refine C61 (S.problem l2') hI (fun hc p => ?_) c.loop habs _
    rcases (hpA p).2 with hr | hr
    · exact hr
    · have : flags.1 = true := hfl (hrow hr (hmem p).2)
      rw [show (S.problem l2').constA = flags.1 from rfl, this] at hc
      cases hc
  refine ⟨h', ?_⟩
  unfold call
  rw [if_neg (by simp [hsvd])]
  simp only [hstart, hl, hregs, hpa]
  rw [readMode_used u₀, readMode_used u₁, readMode_used u₂]
  simp only [ok_bind]
  rw [solve_setup S]
  obtain ⟨o, ho'⟩ := hS _
  exact ⟨⟨_, _, _, o⟩, by rw [ho']; rfl⟩

end Verif.Props
