import Verif.Props.ParseArgs

/-!
# Properties C50 to C52: what the built penalties mean

Arguments for one mode are the documented ones: flags, numbers (bounds may be infinite) and matrices.
-/

namespace Verif.Props

open Verif.Parse Verif.Penalties Verif.Spec Finset

variable {α : Type} {m n : ℕ}

/-- Documented values of the arguments of one mode. -/
structure Scalar (a : ModeArgs) : Prop where
  nonNeg : a.nonNeg = .none ∨ ∃ b, a.nonNeg = .bool b
  unimodal : a.unimodal = .none ∨ ∃ b, a.unimodal = .bool b
  lower : a.lower = .none ∨ a.lower = .inf true ∨ ∃ x, a.lower = .num x
  upper : a.upper = .none ∨ a.upper = .inf false ∨ ∃ x, a.upper = .num x
  normBound : a.normBound = .none ∨ ∃ x, a.normBound = .num x
  l1 : a.l1 = .none ∨ (∃ b, a.l1 = .bool b) ∨ ∃ x, a.l1 = .num x
  tv : a.tv = .none ∨ (∃ b, a.tv = .bool b) ∨ ∃ x, a.tv = .num x
  genL2 : a.genL2 = .none ∨ a.genL2 = .bool false ∨ ∃ m M, a.genL2 = .mat m m M

/-- The matrices that satisfy what was requested. -/
def Requested (a : ModeArgs) (m n : ℕ) : Set (Matrix (Fin m) (Fin n) ℝ) :=
  {Z | (a.nonNeg = .bool true → ∀ i r, 0 ≤ Z i r) ∧ (∀ l, a.lower = .num l → ∀ i r, l ≤ Z i r) ∧ (∀ u, a.upper = .num u → ∀ i r, Z i r ≤ u) ∧
    (∀ b, a.normBound = .num b → ∀ r, √(colSq Z r) ≤ b) ∧ (a.unimodal = .bool true → ∀ r, IsUnimodal fun i => Z i r)}

/-- The constraint set of a built penalty on one matrix; see `C50_sets` for the relation to its update. -/
def kindSet (m n : ℕ) : Kind → Set (Matrix (Fin m) (Fin n) ℝ)
  | .unimodality nn => {Z | ∀ r, IsUnimodal (fun i => Z i r) ∧ (nn.flag → ∀ i, 0 ≤ Z i r)}
  | .l2Ball b nn => BallSet b.real nn.flag m n
  | .l1 _ nn => {Z | nn.flag → ∀ i r, 0 ≤ Z i r}
  | .box lo hi => BoxSet lo.bound hi.bound m n
  | .nonNegativity => {Z | ∀ i r, 0 ≤ Z i r}
  | _ => Set.univ

/-- The constraint set of a penalty; nothing is known about the caller's. -/
def penSet (m n : ℕ) : Pen α → Set (Matrix (Fin m) (Fin n) ℝ)
  | .built k _ _ _ => kindSet m n k
  | .user _ => Set.univ

/-! ### Inversion of the parser -/

theorem flag_truth {l : Leaf} (h : l = .none ∨ ∃ b, l = .bool b) : l.truth = .ok l.flag := by
  rcases h with rfl | ⟨b, rfl⟩ <;> rfl

theorem flag_true {l : Leaf} (h : l = .none ∨ ∃ b, l = .bool b) : l.flag = true ↔ l = .bool true := by
  rcases h with rfl | ⟨b, rfl⟩ <;> simp [Leaf.flag]

/-- What a successful call of the parser for one mode has gone through. -/
theorem parseMode_ok {negEig : (m : ℕ) → Matrix (Fin m) (Fin m) ℝ → Bool} {s : Settings α} {a : ModeArgs} {l : List (Pen α)} :
    parseMode negEig s a = .ok l ↔ ∃ l1On uni r₃ ball r₄ tvOn r₅ l1On' r₆ r₇ nn, a.l1.truth = .ok l1On ∧ a.unimodal.truth = .ok uni ∧ genL2Regs negEig s a.genL2 = .ok r₃ ∧
      a.normBound.truth = .ok ball ∧ ballRegs s ball a.normBound a.nonNeg = .ok r₄ ∧ a.tv.truth = .ok tvOn ∧
      tvRegs s tvOn a.tv (if l1On = true then a.l1 else .num 0) = .ok r₅ ∧
      (if tvOn = true then Leaf.num 0 else if l1On = true then a.l1 else .num 0).truth = .ok l1On' ∧
      l1Regs s l1On' (if tvOn = true then Leaf.num 0 else if l1On = true then a.l1 else .num 0) a.nonNeg = .ok r₆ ∧
      (if (!a.lower.isNone || !a.upper.isNone) = true then boxRegs s a.lower a.upper a.nonNeg else .ok []) = .ok r₇ ∧ a.nonNeg.truth = .ok nn ∧
      l = (if a.parafac2 = true then s.mkSvd .parafac2 else []) ++ (if uni = true then s.mk1 (.unimodality a.nonNeg) else []) ++ r₃ ++ r₄ ++ r₅ ++ r₆ ++ r₇ ++
        (if (nn && !(uni || ball || l1On' || (!a.lower.isNone || !a.upper.isNone))) = true then s.mk1 .nonNegativity else []) := by
  unfold parseMode
  simp only [bind_ok, pure_eq_ok, Except.ok.injEq]
  constructor
  · rintro ⟨l1On, h₁, uni, h₂, r₃, h₃, ball, h₄, r₄, h₅, tvOn, h₆, r₅, h₇, l1On', h₈, r₆, h₉, r₇, h₁₀, nn, h₁₁, rfl⟩
    exact ⟨l1On, uni, r₃, ball, r₄, tvOn, r₅, l1On', r₆, r₇, nn, h₁, h₂, h₃, h₄, h₅, h₆, h₇, h₈, h₉, h₁₀, h₁₁, rfl⟩
  · rintro ⟨l1On, uni, r₃, ball, r₄, tvOn, r₅, l1On', r₆, r₇, nn, h₁, h₂, h₃, h₄, h₅, h₆, h₇, h₈, h₉, h₁₀, h₁₁, rfl⟩
    exact ⟨l1On, h₁, uni, h₂, r₃, h₃, ball, h₄, r₄, h₅, tvOn, h₆, r₅, h₇, l1On', h₈, r₆, h₉, r₇, h₁₀, nn, h₁₁, rfl⟩

theorem map_ok {β γ : Type} {x : Except PyErr β} {f : β → γ} {y : γ} : x.map f = .ok y ↔ ∃ b, x = .ok b ∧ f b = y := by
  cases x with
  | error e => simp [Except.map]
  | ok b => simp [Except.map]

theorem genL2Regs_ok {negEig : (m : ℕ) → Matrix (Fin m) (Fin m) ℝ → Bool} {s : Settings α} {g : Leaf} {r : List (Pen α)} (h : genL2Regs negEig s g = .ok r) :
    r = [] ∧ g.given = false ∨ ∃ k M, g = .mat k k M ∧ r = s.mkSvd (.genL2 k M) := by
  unfold genL2Regs at h
  split at h
  · right
    obtain ⟨k, hk, rfl⟩ := map_ok.1 h
    unfold genL2Init at hk
    split at hk
    · split at hk
      · rename_i he
        subst he
        simp only at hk
        split at hk
        · cases hk
        · split at hk
          · cases hk
          · cases hk
            exact ⟨_, _, rfl, rfl⟩
      · cases hk
    · cases hk
    · cases hk
  · rename_i hg
    cases h
    exact .inl ⟨rfl, by simpa using hg⟩

theorem ballRegs_ok {s : Settings α} {ball : Bool} {b nn : Leaf} {r : List (Pen α)} (h : ballRegs s ball b nn = .ok r) :
    (ball = false ∧ r = []) ∨ (ball = true ∧ b.leZero = .ok false ∧ r = s.mk1 (.l2Ball b nn)) := by
  unfold ballRegs at h
  cases ball with
  | false => cases h; exact .inl ⟨rfl, rfl⟩
  | true =>
    obtain ⟨k, hk, rfl⟩ := map_ok.1 h
    unfold l2BallNew at hk
    rw [bind_ok] at hk
    obtain ⟨c, hc, hk⟩ := hk
    cases c with
    | true => cases hk
    | false => cases hk; exact .inr ⟨rfl, hc, rfl⟩

theorem tvRegs_ok {s : Settings α} {on : Bool} {tv l1 : Leaf} {r : List (Pen α)} (h : tvRegs s on tv l1 = .ok r) :
    (on = false ∧ r = []) ∨ (on = true ∧ s.hasTV = true ∧ tv.leZero = .ok false ∧ l1.ltZero = .ok false ∧ r = s.mk1 (.tv tv l1)) := by
  unfold tvRegs at h
  cases on with
  | false => cases h; exact .inl ⟨rfl, rfl⟩
  | true =>
    obtain ⟨k, hk, rfl⟩ := map_ok.1 h
    unfold tvNew at hk
    cases hs : s.hasTV with
    | false => rw [hs] at hk; cases hk
    | true =>
      rw [hs] at hk
      simp only [Bool.not_true, Bool.false_eq_true, if_false] at hk
      rcases h₁ : tv.leZero with e | c
      · rw [h₁] at hk; cases hk
      cases c with
      | true => rw [h₁] at hk; cases hk
      | false =>
        rw [h₁] at hk
        rcases h₂ : l1.ltZero with e | c
        · rw [h₂] at hk; cases hk
        cases c with
        | true => rw [h₂] at hk; cases hk
        | false => rw [h₂] at hk; cases hk; exact .inr ⟨rfl, rfl, rfl, rfl, rfl⟩

theorem l1Regs_ok {s : Settings α} {on : Bool} {l1 nn : Leaf} {r : List (Pen α)} (h : l1Regs s on l1 nn = .ok r) :
    (on = false ∧ r = []) ∨ (on = true ∧ l1.ltZero = .ok false ∧ r = s.mk1 (.l1 l1 nn)) := by
  unfold l1Regs at h
  cases on with
  | false => cases h; exact .inl ⟨rfl, rfl⟩
  | true =>
    obtain ⟨k, hk, rfl⟩ := map_ok.1 h
    unfold l1New at hk
    rw [bind_ok] at hk
    obtain ⟨c, hc, hk⟩ := hk
    cases c with
    | true => cases hk
    | false => cases hk; exact .inr ⟨rfl, hc, rfl⟩

/-- The box that is built contains exactly the matrices within the bounds that are non-negative if requested. -/
theorem boxRegs_ok {s : Settings α} {lo hi nn : Leaf} {r : List (Pen α)} (hlo : lo = .none ∨ lo = .inf true ∨ ∃ x, lo = .num x)
    (hnn : nn = .none ∨ ∃ b, nn = .bool b) (h : boxRegs s lo hi nn = .ok r) :
    ∃ lo', r = s.mk1 (.box lo' hi) ∧ ∀ x : ℝ, (∀ l, lo'.bound = some l → l ≤ x) ↔ (∀ l, lo = .num l → l ≤ x) ∧ (nn.flag = true → 0 ≤ x) := by
  unfold boxRegs at h
  simp only [flag_truth hnn, ok_bind, bind_ok, pure_eq_ok, Except.ok.injEq] at h
  obtain ⟨lo', h', rfl⟩ := h
  refine ⟨lo', rfl, fun x => ?_⟩
  cases hf : nn.flag with
  | false =>
    rw [hf] at h'
    rcases hlo with rfl | rfl | ⟨y, rfl⟩ <;> cases h' <;> simp [Leaf.bound, Leaf.isNone]
  | true =>
    rw [hf] at h'
    rcases hlo with rfl | rfl | ⟨y, rfl⟩
    · simp [Leaf.isNone, Leaf.max0, Leaf.ltZero, Except.map] at h'
      subst h'
      simp [Leaf.bound]
    · simp [Leaf.isNone, Leaf.max0, Leaf.ltZero, Except.map] at h'
      subst h'
      simp [Leaf.bound]
    · simp only [Leaf.isNone, Leaf.max0, Leaf.ltZero, Except.map, if_true, Bool.false_eq_true, if_false, Except.ok.injEq, decide_eq_true_eq] at h'
      subst h'
      split
      · rename_i hy
        simp only [Leaf.bound, Option.some.injEq, forall_eq', Leaf.num.injEq, forall_const]
        exact ⟨fun h => ⟨by linarith, h⟩, fun h => h.2⟩
      · rename_i hy
        simp only [Leaf.bound, Option.some.injEq, forall_eq', Leaf.num.injEq, forall_const]
        exact ⟨fun h => ⟨h, by linarith⟩, fun h => h.1⟩

/-! ### C50 -/

/-- C50, except for `l2_norm_bound=0`: if the arguments of a mode are accepted, a matrix lies in the constraint sets of all built penalties exactly if it satisfies
what was requested, and PARAFAC2 is imposed exactly if it was requested for the mode. Missing: `l2_norm_bound=0`, see `C50_false`. -/
theorem C50_partial {negEig : (m : ℕ) → Matrix (Fin m) (Fin m) ℝ → Bool} {s : Settings α} {a : ModeArgs} (ha : Scalar a) (h0 : a.normBound ≠ .num 0) {l : List (Pen α)}
    (h : parseMode negEig s a = .ok l) :
    (∀ Z : Matrix (Fin m) (Fin n) ℝ, (∀ p ∈ l, Z ∈ penSet m n p) ↔ Z ∈ Requested a m n) ∧
    ((∃ x y z, Pen.built Kind.parafac2 x y z ∈ l) ↔ a.parafac2 = true) := by
  obtain ⟨l1On, uni, r₃, ball, r₄, tvOn, r₅, l1On', r₆, r₇, nn, h₁, h₂, h₃, h₄, h₅, h₆, h₇, h₈, h₉, h₁₀, h₁₁, rfl⟩ := parseMode_ok.1 h
  rw [flag_truth ha.unimodal] at h₂
  rw [flag_truth ha.nonNeg] at h₁₁
  cases h₂
  cases h₁₁
  have hball : ball = true ↔ ∃ b, a.normBound = .num b := by
    rcases ha.normBound with e | ⟨b, e⟩
    · rw [e] at h₄; cases h₄; simp [e]
    · rw [e] at h₄; cases h₄
      have : b ≠ 0 := by rintro rfl; exact h0 e
      simp [e, this]
  have hfn := flag_true ha.nonNeg
  have hfu := flag_true ha.unimodal
  -- the blocks
  have b₃ : (∀ Z : Matrix (Fin m) (Fin n) ℝ, ∀ p ∈ r₃, Z ∈ penSet m n p) ∧ ∀ x y z, Pen.built Kind.parafac2 x y z ∉ r₃ := by
    rcases genL2Regs_ok h₃ with ⟨rfl, -⟩ | ⟨k, M, -, rfl⟩ <;> simp [Settings.mkSvd, penSet, kindSet]
  have b₄ : (∀ Z : Matrix (Fin m) (Fin n) ℝ, (∀ p ∈ r₄, Z ∈ penSet m n p) ↔
      (ball = true → (∀ r, √(colSq Z r) ≤ a.normBound.real) ∧ (a.nonNeg.flag = true → ∀ i r, 0 ≤ Z i r))) ∧ ∀ x y z, Pen.built Kind.parafac2 x y z ∉ r₄ := by
    rcases ballRegs_ok h₅ with ⟨rfl, rfl⟩ | ⟨rfl, -, rfl⟩ <;> simp [Settings.mk1, penSet, kindSet, BallSet]
  have b₅ : (∀ Z : Matrix (Fin m) (Fin n) ℝ, ∀ p ∈ r₅, Z ∈ penSet m n p) ∧ ∀ x y z, Pen.built Kind.parafac2 x y z ∉ r₅ := by
    rcases tvRegs_ok h₇ with ⟨-, rfl⟩ | ⟨-, -, -, -, rfl⟩ <;> simp [Settings.mk1, penSet, kindSet]
  have b₆ : (∀ Z : Matrix (Fin m) (Fin n) ℝ, (∀ p ∈ r₆, Z ∈ penSet m n p) ↔ (l1On' = true → a.nonNeg.flag = true → ∀ i r, 0 ≤ Z i r)) ∧
      ∀ x y z, Pen.built Kind.parafac2 x y z ∉ r₆ := by
    rcases l1Regs_ok h₉ with ⟨rfl, rfl⟩ | ⟨rfl, -, rfl⟩ <;> simp [Settings.mk1, penSet, kindSet]
  have b₇ : (∀ Z : Matrix (Fin m) (Fin n) ℝ, (∀ p ∈ r₇, Z ∈ penSet m n p) ↔ ((!a.lower.isNone || !a.upper.isNone) = true → ∀ i r,
      ((∀ l, a.lower = .num l → l ≤ Z i r) ∧ (a.nonNeg.flag = true → 0 ≤ Z i r)) ∧ ∀ u, a.upper = .num u → Z i r ≤ u)) ∧
      ∀ x y z, Pen.built Kind.parafac2 x y z ∉ r₇ := by
    by_cases hb : (!a.lower.isNone || !a.upper.isNone) = true
    · rw [if_pos hb] at h₁₀
      obtain ⟨lo', rfl, hlo⟩ := boxRegs_ok ha.lower ha.nonNeg h₁₀
      have hhi : ∀ x u, a.upper.bound = some u → ((∀ v, a.upper = .num v → x ≤ v) ↔ x ≤ u) := by
        intro x u hu
        rcases ha.upper with e | e | ⟨v, e⟩ <;> rw [e] at hu ⊢ <;> cases hu
        simp
      refine ⟨fun Z => ?_, by simp [Settings.mk1]⟩
      simp only [Settings.mk1, List.mem_singleton, forall_eq, penSet, kindSet, BoxSet, Set.mem_ofPred_eq, hlo, hb, forall_const]
      refine forall_congr' fun i => forall_congr' fun r => and_congr_right fun _ => ?_
      rcases ha.upper with e | e | ⟨v, e⟩ <;> simp [e, Leaf.bound]
    · rw [if_neg hb] at h₁₀
      cases h₁₀
      simp only [hb]
      simp
  constructor
  · intro Z
    have h8 : (∀ p ∈ (if (a.nonNeg.flag && !(a.unimodal.flag || ball || l1On' || (!a.lower.isNone || !a.upper.isNone))) = true then s.mk1 Kind.nonNegativity else []),
        Z ∈ penSet m n p) ↔ ((a.nonNeg.flag && !(a.unimodal.flag || ball || l1On' || (!a.lower.isNone || !a.upper.isNone))) = true → ∀ i r, 0 ≤ Z i r) := by
      generalize (a.nonNeg.flag && !(a.unimodal.flag || ball || l1On' || (!a.lower.isNone || !a.upper.isNone))) = c
      cases c <;> simp [Settings.mk1, penSet, kindSet]
    have h1 : ∀ p ∈ (if a.parafac2 = true then s.mkSvd Kind.parafac2 else []), Z ∈ penSet m n p := by
      split <;> simp [Settings.mkSvd, penSet, kindSet]
    have h2 : (∀ p ∈ (if a.unimodal.flag = true then s.mk1 (Kind.unimodality a.nonNeg) else []), Z ∈ penSet m n p) ↔
        (a.unimodal.flag = true → ∀ r, IsUnimodal (fun i => Z i r) ∧ (a.nonNeg.flag = true → ∀ i, 0 ≤ Z i r)) := by
      split <;> rename_i hc <;> simp [hc, Settings.mk1, penSet, kindSet]
    simp only [List.forall_mem_append, h2, h8, b₄.1 Z, b₆.1 Z, b₇.1 Z]
    have hlowNone : ∀ x, a.lower = .num x → a.lower.isNone = false := fun x e => by rw [e]; rfl
    have hupNone : ∀ x, a.upper = .num x → a.upper.isNone = false := fun x e => by rw [e]; rfl
    constructor
    · rintro ⟨⟨⟨⟨⟨⟨⟨-, q₂⟩, -⟩, q₄⟩, -⟩, q₆⟩, q₇⟩, q₈⟩
      refine ⟨fun hn i r => ?_, fun x hx i r => ?_, fun x hx i r => ?_, fun b hb r => ?_, fun hu r => ?_⟩
      · have hn' := hfn.2 hn
        by_cases c₁ : a.unimodal.flag = true
        · exact (q₂ c₁ r).2 hn' i
        by_cases c₂ : ball = true
        · exact (q₄ c₂).2 hn' i r
        by_cases c₃ : l1On' = true
        · exact q₆ c₃ hn' i r
        by_cases c₄ : (!a.lower.isNone || !a.upper.isNone) = true
        · exact (q₇ c₄ i r).1.2 hn'
        · exact q₈ (by simp only [Bool.not_eq_true] at c₁ c₂ c₃ c₄; rw [hn', c₁, c₂, c₃, c₄]; rfl) i r
      · exact (q₇ (by simp [hlowNone x hx]) i r).1.1 x hx
      · exact (q₇ (by simp [hupNone x hx]) i r).2 x hx
      · have := (q₄ (hball.2 ⟨b, hb⟩)).1 r
        rwa [hb] at this
      · exact (q₂ (hfu.2 hu) r).1
    · rintro ⟨q₁, q₂, q₃, q₄, q₅⟩
      refine ⟨⟨⟨⟨⟨⟨⟨h1, fun hu r => ⟨q₅ (hfu.1 hu) r, fun hn i => q₁ (hfn.1 hn) i r⟩⟩, b₃.1 Z⟩, fun hb => ⟨fun r => ?_, fun hn => q₁ (hfn.1 hn)⟩⟩, b₅.1 Z⟩, fun _ hn => q₁ (hfn.1 hn)⟩,
        fun _ i r => ⟨⟨fun x hx => q₂ x hx i r, fun hn => q₁ (hfn.1 hn) i r⟩, fun x hx => q₃ x hx i r⟩⟩, fun hc => q₁ (hfn.1 ?_)⟩
      · obtain ⟨b, e⟩ := hball.1 hb
        rw [e]
        exact q₄ b e r
      · simp only [Bool.and_eq_true] at hc
        exact hc.1
  · have hm : ∀ x y z, Pen.built Kind.parafac2 x y z ∉ (if (a.nonNeg.flag && !(a.unimodal.flag || ball || l1On' || (!a.lower.isNone || !a.upper.isNone))) = true then
        s.mk1 Kind.nonNegativity else []) := by
      intro x y z; split <;> simp [Settings.mk1]
    have hm2 : ∀ x y z, Pen.built Kind.parafac2 x y z ∉ (if a.unimodal.flag = true then s.mk1 (Kind.unimodality a.nonNeg) else []) := by
      intro x y z; split <;> simp [Settings.mk1]
    simp only [List.mem_append, hm, hm2, b₃.2, b₄.2, b₅.2, b₆.2, b₇.2, or_false]
    by_cases hp : a.parafac2 = true
    · simp [hp, Settings.mkSvd]
    · simp [hp]

/-- The update of every built penalty that has one returns a point of its constraint set that minimises the reported penalty plus the proximal term over the set: the sets
in C50 are the ones the penalties impose. (Box: if the bounds are not crossed; unimodality: for matrices that are not empty.) -/
theorem C50_sets {negEig : (m : ℕ) → Matrix (Fin m) (Fin m) ℝ → Bool} {s : Settings α} {a : ModeArgs} (ha : Scalar a) {l : List (Pen α)}
    (h : parseMode negEig s a = .ok l) (hm : 0 < m) (hn : 0 < n) {k : Kind} {x y z} (hk : Pen.built k x y z ∈ l)
    (hbox : ∀ lo hi, k = .box lo hi → ∀ p q, lo.bound = some p → hi.bound = some q → p ≤ q) {u : MatUpdate m n} (hu : k.update m n = some u)
    (X aux : Matrix (Fin m) (Fin n) ℝ) {ρ : ℝ} (hρ : 0 < ρ) :
    u X ρ aux ∈ kindSet m n k ∧ ∀ Z ∈ kindSet m n k, k.value (u X ρ aux) + ρ / 2 * frobSq (u X ρ aux) X ≤ k.value Z + ρ / 2 * frobSq Z X := by
  obtain ⟨l1On, uni, r₃, ball, r₄, tvOn, r₅, l1On', r₆, r₇, nn, h₁, h₂, h₃, h₄, h₅, h₆, h₇, h₈, h₉, h₁₀, h₁₁, rfl⟩ := parseMode_ok.1 h
  have proj : ∀ {C : Set (Matrix (Fin m) (Fin n) ℝ)} {Y : Matrix (Fin m) (Fin n) ℝ}, IsProj C X Y →
      Y ∈ C ∧ ∀ Z ∈ C, (0 : ℝ) + ρ / 2 * frobSq Y X ≤ 0 + ρ / 2 * frobSq Z X := by
    intro C Y hp
    refine ⟨hp.1, fun Z hZ => ?_⟩
    have : frobSq Y X ≤ frobSq Z X := by
      by_cases e : Z = Y
      · rw [e]
      · exact (hp.2 Z hZ e).le
    have := mul_le_mul_of_nonneg_left this (by positivity : 0 ≤ ρ / 2)
    linarith
  -- strengths and bounds of the built penalties
  have hball : ∀ b c, k = .l2Ball b c → 0 < b.real := by
    rintro b c rfl
    have : Pen.built (.l2Ball b c) x y z ∈ r₄ := by
      have q₁ : ∀ t, Pen.built (.l2Ball b c) x y z ∉ (if t = true then s.mkSvd Kind.parafac2 else []) := fun t => by split <;> simp [Settings.mkSvd]
      have q₂ : ∀ t, Pen.built (.l2Ball b c) x y z ∉ (if t = true then s.mk1 (Kind.unimodality a.nonNeg) else []) := fun t => by split <;> simp [Settings.mk1]
      have q₃ : Pen.built (.l2Ball b c) x y z ∉ r₃ := by rcases genL2Regs_ok h₃ with ⟨rfl, -⟩ | ⟨_, _, -, rfl⟩ <;> simp [Settings.mkSvd]
      have q₅ : Pen.built (.l2Ball b c) x y z ∉ r₅ := by rcases tvRegs_ok h₇ with ⟨-, rfl⟩ | ⟨-, -, -, -, rfl⟩ <;> simp [Settings.mk1]
      have q₆ : Pen.built (.l2Ball b c) x y z ∉ r₆ := by rcases l1Regs_ok h₉ with ⟨-, rfl⟩ | ⟨-, -, rfl⟩ <;> simp [Settings.mk1]
      have q₇ : Pen.built (.l2Ball b c) x y z ∉ r₇ := by
        split at h₁₀
        · obtain ⟨lo', rfl, -⟩ := boxRegs_ok ha.lower ha.nonNeg h₁₀
          simp [Settings.mk1]
        · cases h₁₀; simp
      have q₈ : ∀ t, Pen.built (.l2Ball b c) x y z ∉ (if t = true then s.mk1 Kind.nonNegativity else []) := fun t => by split <;> simp [Settings.mk1]
      simpa only [List.mem_append, q₁, q₂, q₃, q₅, q₆, q₇, q₈, or_false, false_or] using hk
    rcases ballRegs_ok h₅ with ⟨-, rfl⟩ | ⟨-, hle, rfl⟩
    · simp at this
    · simp only [Settings.mk1, List.mem_singleton, Pen.built.injEq, Kind.l2Ball.injEq] at this
      rw [this.1.1]
      rcases ha.normBound with e | ⟨v, e⟩
      · rw [e] at hle; cases hle
      · rw [e] at hle ⊢
        simpa [Leaf.leZero, Leaf.real] using hle
  have hl1 : ∀ b c, k = .l1 b c → 0 ≤ b.real := by
    rintro b c rfl
    have : Pen.built (.l1 b c) x y z ∈ r₆ := by
      have q₁ : ∀ t, Pen.built (.l1 b c) x y z ∉ (if t = true then s.mkSvd Kind.parafac2 else []) := fun t => by split <;> simp [Settings.mkSvd]
      have q₂ : ∀ t, Pen.built (.l1 b c) x y z ∉ (if t = true then s.mk1 (Kind.unimodality a.nonNeg) else []) := fun t => by split <;> simp [Settings.mk1]
      have q₃ : Pen.built (.l1 b c) x y z ∉ r₃ := by rcases genL2Regs_ok h₃ with ⟨rfl, -⟩ | ⟨_, _, -, rfl⟩ <;> simp [Settings.mkSvd]
      have q₄ : Pen.built (.l1 b c) x y z ∉ r₄ := by rcases ballRegs_ok h₅ with ⟨-, rfl⟩ | ⟨-, -, rfl⟩ <;> simp [Settings.mk1]
      have q₅ : Pen.built (.l1 b c) x y z ∉ r₅ := by rcases tvRegs_ok h₇ with ⟨-, rfl⟩ | ⟨-, -, -, -, rfl⟩ <;> simp [Settings.mk1]
      have q₇ : Pen.built (.l1 b c) x y z ∉ r₇ := by
        split at h₁₀
        · obtain ⟨lo', rfl, -⟩ := boxRegs_ok ha.lower ha.nonNeg h₁₀
          simp [Settings.mk1]
        · cases h₁₀; simp
      have q₈ : ∀ t, Pen.built (.l1 b c) x y z ∉ (if t = true then s.mk1 Kind.nonNegativity else []) := fun t => by split <;> simp [Settings.mk1]
      simpa only [List.mem_append, q₁, q₂, q₃, q₄, q₅, q₇, q₈, or_false, false_or] using hk
    rcases l1Regs_ok h₉ with ⟨-, rfl⟩ | ⟨-, hlt, rfl⟩
    · simp at this
    · simp only [Settings.mk1, List.mem_singleton, Pen.built.injEq, Kind.l1.injEq] at this
      rw [this.1.1]
      revert hlt
      generalize (if tvOn = true then Leaf.num 0 else if l1On = true then a.l1 else Leaf.num 0) = w
      intro hlt
      cases w with
      | num v => simpa [Leaf.ltZero, Leaf.real] using hlt
      | bool v => cases v <;> simp [Leaf.real]
      | _ => simp [Leaf.real]
  cases k with
  | parafac2 => cases hu
  | genL2 _ _ => cases hu
  | tv _ _ => cases hu
  | nonNegativity => cases hu; exact proj (C15_nonneg X ρ aux)
  | box lo hi => cases hu; exact proj (C16_box _ _ (hbox lo hi rfl) X ρ aux)
  | l2Ball b c => cases hu; exact proj (C18_l2ball ((C18_init b.real b.real).2 ⟨rfl, hball b c rfl⟩) _ X ρ aux)
  | l1 b c =>
    cases hu
    have hp := C17_l1 (((C17_penalty (m := m) (n := n) b.real).1 b.real).2 ⟨rfl, hl1 b c rfl⟩) hρ c.flag X aux
    refine ⟨hp.1, fun Z hZ => ?_⟩
    by_cases e : Z = l1Mat b.real c.flag m n X ρ aux
    · rw [e]
    · exact (hp.2 Z hZ e).le
  | unimodality c =>
    cases hu
    obtain ⟨w, hw, -, -, hnear⟩ := C03_matrix_columns hm hn (Equiv.refl (Fin n)) (fun i r => X i r) c.flag
    have e : unimodalMat c.flag m n X ρ aux = fun i r => w i r := by
      unfold unimodalMat
      rw [show Unimodal.unimodalRegressionN id (Equiv.refl (Fin n)) X c.flag = _ from hw]
      rfl
    rw [e]
    refine ⟨fun r => ⟨(hnear.1 r).1, fun hc i => (hnear.1 r).2 hc i⟩, fun Z hZ => ?_⟩
    have hd := hnear.2 (fun p => Z p.1 p.2) fun r => ⟨(hZ r).1, fun hc i => (hZ r).2 hc i⟩
    have conv : ∀ W : Matrix (Fin m) (Fin n) ℝ, sqDist (fun p : Fin m × Fin n => X p.1 p.2) (fun p => W p.1 p.2) = frobSq W X := by
      intro W
      simp only [sqDist, frobSq, Fintype.sum_prod_type]
      exact sum_congr rfl fun i _ => sum_congr rfl fun r _ => by ring
    have hd : frobSq (fun i r => w i r : Matrix (Fin m) (Fin n) ℝ) X ≤ frobSq Z X := by
      have := hd
      rw [conv Z] at this
      exact (conv (fun i r => w i r)).symm.le.trans this
    have := mul_le_mul_of_nonneg_left hd (by positivity : 0 ≤ ρ / 2)
    simp only [Kind.value, hardPenalty]
    linarith

/-- No argument given, for one mode. -/
def noMode : ModeArgs := ⟨.none, .none, .none, .none, .none, false, .none, .none, .none⟩

theorem noMode_scalar : Scalar noMode := ⟨.inl rfl, .inl rfl, .inl rfl, .inl rfl, .inl rfl, .inl rfl, .inl rfl, .inl rfl⟩

/-- C50 fails for `l2_norm_bound=0`: the call is accepted, nothing is built, and a matrix with a column of norm 1 satisfies all (no) constraints. -/
theorem C50_false : ∃ a : ModeArgs, Scalar a ∧ a.normBound = .num 0 ∧ ∀ (negEig) (s : Settings α), parseMode negEig s a = .ok [] ∧
    ∃ Z : Matrix (Fin 1) (Fin 1) ℝ, (∀ p ∈ ([] : List (Pen α)), Z ∈ penSet 1 1 p) ∧ Z ∉ Requested a 1 1 := by
  refine ⟨{ noMode with normBound := .num 0 }, { noMode_scalar with normBound := .inr ⟨0, rfl⟩ }, rfl, fun negEig s => ⟨?_, !![1], by simp, fun h => ?_⟩⟩
  · simp [parseMode, noMode, Leaf.truth, Leaf.given, Leaf.isNone, genL2Regs, ballRegs, tvRegs, l1Regs]
  · have := h.2.2.2.1 0 rfl 0
    simp [colSq] at this
    linarith

/-! ### C51 -/

/-- The documented terms for one matrix. -/
noncomputable def genTerm (g : Leaf) (X : Matrix (Fin m) (Fin n) ℝ) : ℝ := match g with
  | .mat k k' M => if h : k = m ∧ k' = m then ∑ r, ∑ i, ∑ j, X i r * M (Fin.cast h.1.symm i) (Fin.cast h.2.symm j) * X j r else 0
  | _ => 0

/-- The value a penalty reports for a matrix; the caller's are not counted. -/
noncomputable def penValue (X : Matrix (Fin m) (Fin n) ℝ) : Pen α → ℝ
  | .built k _ _ _ => k.value X
  | .user _ => 0

/-- The value a penalty reports for a list of matrices. -/
noncomputable def penValueList {I : ℕ} {J : Fin I → ℕ} (X : (i : Fin I) → Matrix (Fin (J i)) (Fin n) ℝ) : Pen α → ℝ
  | .built k _ _ _ => k.valueList X
  | .user _ => 0

/-- C51: the penalties built for a mode report exactly the documented terms, each once, also if `l1_penalty` and `tv_penalty` are combined. -/
theorem C51 {negEig : (m : ℕ) → Matrix (Fin m) (Fin m) ℝ → Bool} {s : Settings α} {a : ModeArgs} (ha : Scalar a) {l : List (Pen α)}
    (h : parseMode negEig s a = .ok l) (X : Matrix (Fin m) (Fin n) ℝ) :
    (l.map (penValue X)).sum = a.l1.real * absSum X + a.tv.real * totalVar X + genTerm a.genL2 X := by
  obtain ⟨l1On, uni, r₃, ball, r₄, tvOn, r₅, l1On', r₆, r₇, nn, h₁, h₂, h₃, h₄, h₅, h₆, h₇, h₈, h₉, h₁₀, h₁₁, rfl⟩ := parseMode_ok.1 h
  have v₁ : ((if a.parafac2 = true then s.mkSvd Kind.parafac2 else []).map (penValue X)).sum = 0 := by
    split <;> simp [Settings.mkSvd, penValue, Kind.value, hardPenalty]
  have v₂ : ((if uni = true then s.mk1 (Kind.unimodality a.nonNeg) else []).map (penValue X)).sum = 0 := by
    split <;> simp [Settings.mk1, penValue, Kind.value, hardPenalty]
  have v₃ : (r₃.map (penValue X)).sum = genTerm a.genL2 X := by
    rcases genL2Regs_ok h₃ with ⟨rfl, hg⟩ | ⟨k, M, e, rfl⟩
    · rcases e : a.genL2 <;> rw [e] at hg <;> simp [genTerm, Leaf.given] at hg ⊢
    · rw [e]
      simp only [Settings.mkSvd, List.map_cons, List.map_nil, List.sum_cons, List.sum_nil, add_zero, penValue, Kind.value, genTerm]
      by_cases hk : k = m
      · subst hk
        simp only [and_self, dif_pos, genL2Penalty, Matrix.trace, Matrix.diag, Matrix.mul_apply, Matrix.transpose_apply, sum_mul]
        exact sum_congr rfl fun r _ => sum_comm
      · rw [dif_neg hk, dif_neg fun c => hk c.1]
  have v₄ : (r₄.map (penValue X)).sum = 0 := by
    rcases ballRegs_ok h₅ with ⟨-, rfl⟩ | ⟨-, -, rfl⟩ <;> simp [Settings.mk1, penValue, Kind.value, hardPenalty]
  have v₇ : (r₇.map (penValue X)).sum = 0 := by
    split at h₁₀
    · obtain ⟨lo', rfl, -⟩ := boxRegs_ok ha.lower ha.nonNeg h₁₀
      simp [Settings.mk1, penValue, Kind.value, hardPenalty]
    · cases h₁₀; simp
  have v₈ : ∀ c : Bool, ((if c = true then s.mk1 Kind.nonNegativity else []).map (penValue X)).sum = 0 := by
    intro c; split <;> simp [Settings.mk1, penValue, Kind.value, hardPenalty]
  -- the strengths
  have hl1 : (if l1On = true then a.l1 else Leaf.num 0).real = a.l1.real := by
    rcases ha.l1 with e | ⟨b, e⟩ | ⟨x, e⟩ <;> rw [e] at h₁ ⊢ <;> cases h₁
    · rfl
    · cases l1On <;> rfl
    · by_cases hx : x = 0 <;> simp [hx, Leaf.real]
  have htv : tvOn = false → a.tv.real = 0 := by
    intro ht
    subst ht
    rcases ha.tv with e | ⟨b, e⟩ | ⟨x, e⟩ <;> rw [e] at h₆ ⊢
    · rfl
    · cases h₆; rfl
    · simpa [Leaf.truth, Leaf.real] using h₆
  have v₅₆ : (r₅.map (penValue X)).sum + (r₆.map (penValue X)).sum = a.l1.real * absSum X + a.tv.real * totalVar X := by
    rcases tvRegs_ok h₇ with ⟨rfl, rfl⟩ | ⟨rfl, -, -, -, rfl⟩
    · rw [htv rfl]
      simp only [Bool.false_eq_true, if_false] at h₈ h₉
      rcases l1Regs_ok h₉ with ⟨rfl, rfl⟩ | ⟨-, -, rfl⟩
      · have : a.l1.real = 0 := by
          rw [← hl1]
          revert h₈
          generalize hw : (if l1On = true then a.l1 else Leaf.num 0) = w
          intro h₈
          cases w with
          | num v => simpa [Leaf.truth, Leaf.real] using h₈
          | bool v => cases h₈; rfl
          | _ => rfl
        simp [this]
      · simp only [Settings.mk1, List.map_nil, List.sum_nil, List.map_cons, List.sum_cons, penValue, Kind.value, hl1, (C17_penalty _).2.1 X]
        ring
    · simp only [if_true] at h₈ h₉
      have hoff : l1On' = false := by
        have : (Leaf.num 0).truth = .ok false := by simp [Leaf.truth]
        rw [this] at h₈; cases h₈; rfl
      rcases l1Regs_ok h₉ with ⟨-, rfl⟩ | ⟨hon, -, -⟩
      · simp only [Settings.mk1, List.map_nil, List.sum_nil, List.map_cons, List.sum_cons, penValue, Kind.value, hl1, (C21_penalty _ _).1 X]
        ring
      · rw [hoff] at hon; cases hon
  simp only [List.map_append, List.sum_append, v₁, v₂, v₃, v₄, v₇, v₈]
  linarith

/-- C51 for the list of matrices of mode 1: the sum of the terms of the matrices. -/
theorem C51_list {negEig : (m : ℕ) → Matrix (Fin m) (Fin m) ℝ → Bool} {s : Settings α} {a : ModeArgs} (ha : Scalar a) {l : List (Pen α)}
    (h : parseMode negEig s a = .ok l) {I : ℕ} {J : Fin I → ℕ} (X : (i : Fin I) → Matrix (Fin (J i)) (Fin n) ℝ) :
    (l.map (penValueList X)).sum = ∑ i, (a.l1.real * absSum (X i) + a.tv.real * totalVar (X i) + genTerm a.genL2 (X i)) := by
  have e : ∀ p : Pen α, penValueList X p = ∑ i, penValue (X i) p := by
    intro p
    cases p with
    | user _ => simp [penValueList, penValue]
    | built k _ _ _ =>
      cases k <;> simp only [penValueList, penValue, Kind.valueList]
      rename_i g _ _ _ nn
      rw [(C17_penalty (m := 0) (n := n) _).2.2 I J X]
      exact sum_congr rfl fun i _ => ((C17_penalty _).2.1 (X i)).symm
  have : (l.map (penValueList X)).sum = ∑ i, (l.map (penValue (X i))).sum := by
    clear h
    induction l with
    | nil => simp
    | cons p l ih => simp only [List.map_cons, List.sum_cons, ih, e, sum_add_distrib]
  rw [this]
  exact sum_congr rfl fun i _ => C51 ha h (X i)

/-! ### C52 -/

/-- Success or ValueError. -/
def OkOrValue {β : Type} (x : Except PyErr β) : Prop := (∃ y, x = .ok y) ∨ x = .error .valueError

theorem OkOrValue.bind {β γ : Type} {x : Except PyErr β} {f : β → Except PyErr γ} (hx : OkOrValue x) (hf : ∀ y, OkOrValue (f y)) : OkOrValue (x >>= f) := by
  rcases hx with ⟨y, rfl⟩ | rfl
  · exact hf y
  · exact .inr rfl

theorem OkOrValue.map {β γ : Type} {x : Except PyErr β} {f : β → γ} (hx : OkOrValue x) : OkOrValue (x.map f) := by
  rcases hx with ⟨y, rfl⟩ | rfl
  · exact .inl ⟨_, rfl⟩
  · exact .inr rfl

/-- A Python number: a boolean, a real number or an infinite one. -/
def IsNumber (w : Leaf) : Prop := (∃ b, w = .bool b) ∨ (∃ x, w = .num x) ∨ ∃ b, w = .inf b

/-- A negative number, minus infinity included. -/
def IsNegative (w : Leaf) : Prop := (∃ x, x < 0 ∧ w = .num x) ∨ w = .inf true

/-- Documented values, where strengths and norm bounds can also be infinite. -/
structure ScalarInf (a : ModeArgs) : Prop where
  nonNeg : a.nonNeg = .none ∨ ∃ b, a.nonNeg = .bool b
  unimodal : a.unimodal = .none ∨ ∃ b, a.unimodal = .bool b
  lower : a.lower = .none ∨ a.lower = .inf true ∨ ∃ x, a.lower = .num x
  normBound : a.normBound = .none ∨ IsNumber a.normBound
  l1 : a.l1 = .none ∨ IsNumber a.l1
  tv : a.tv = .none ∨ IsNumber a.tv
  genL2 : a.genL2 = .none ∨ a.genL2 = .bool false ∨ ∃ m M, a.genL2 = .mat m m M

theorem Scalar.inf {a : ModeArgs} (h : Scalar a) : ScalarInf a :=
  ⟨h.nonNeg, h.unimodal, h.lower, h.normBound.imp_right fun e => .inr (.inl e), h.l1.imp_right fun e => e.imp_right .inl, h.tv.imp_right fun e => e.imp_right .inl, h.genL2⟩

theorem num_ok {w : Leaf} (h : w = .none ∨ IsNumber w) : ∃ b, w.truth = .ok b := by
  rcases h with rfl | ⟨b, rfl⟩ | ⟨x, rfl⟩ | ⟨b, rfl⟩ <;> exact ⟨_, rfl⟩

theorem num_lt {w : Leaf} (h : IsNumber w) : (∃ b, w.ltZero = .ok b) ∧ ∃ b, w.leZero = .ok b := by
  rcases h with ⟨b, rfl⟩ | ⟨x, rfl⟩ | ⟨b, rfl⟩ <;> exact ⟨⟨_, rfl⟩, ⟨_, rfl⟩⟩

theorem neg_leaf {w : Leaf} (h : IsNegative w) : w.truth = .ok true ∧ w.ltZero = .ok true ∧ w.leZero = .ok true := by
  rcases h with ⟨x, hx, rfl⟩ | rfl
  · exact ⟨by simp [Leaf.truth, hx.ne], by simp [Leaf.ltZero, hx], by simp [Leaf.leZero, hx.le]⟩
  · exact ⟨rfl, rfl, rfl⟩

/-- Documented values can only be rejected with ValueError, if `condat_tv` is installed. -/
theorem parseMode_okOrValue (negEig : (m : ℕ) → Matrix (Fin m) (Fin m) ℝ → Bool) (s : Settings α) (hs : s.hasTV = true) {a : ModeArgs} (ha : ScalarInf a) :
    OkOrValue (parseMode negEig s a) := by
  have given : ∀ {w : Leaf}, (w = .none ∨ IsNumber w) → w.truth = .ok true → IsNumber w := by
    rintro w (rfl | h) ht
    · cases ht
    · exact h
  obtain ⟨l1On, h₁⟩ := num_ok ha.l1
  have hl1 : IsNumber (if l1On = true then a.l1 else Leaf.num 0) := by
    cases l1On with
    | false => exact .inr (.inl ⟨0, rfl⟩)
    | true => exact given ha.l1 h₁
  unfold parseMode
  simp only [h₁, ok_bind, flag_truth ha.unimodal, flag_truth ha.nonNeg]
  refine OkOrValue.bind ?_ fun r₃ => ?_
  · unfold genL2Regs
    rcases ha.genL2 with e | e | ⟨k, M, e⟩ <;> rw [e]
    · exact .inl ⟨_, rfl⟩
    · exact .inl ⟨_, rfl⟩
    · refine OkOrValue.map ?_
      simp only [genL2Init, dif_pos]
      split
      · exact .inr rfl
      · split
        · exact .inr rfl
        · exact .inl ⟨_, rfl⟩
  obtain ⟨ball, h₄⟩ := num_ok ha.normBound
  rw [h₄, ok_bind]
  refine OkOrValue.bind ?_ fun r₄ => ?_
  · unfold ballRegs
    cases ball with
    | false => exact .inl ⟨_, rfl⟩
    | true =>
      refine OkOrValue.map ?_
      obtain ⟨-, c, hc⟩ := num_lt (given ha.normBound h₄)
      unfold l2BallNew
      rw [hc]
      cases c
      · exact .inl ⟨_, rfl⟩
      · exact .inr rfl
  obtain ⟨tvOn, h₆⟩ := num_ok ha.tv
  rw [h₆, ok_bind]
  refine OkOrValue.bind ?_ fun r₅ => ?_
  · unfold tvRegs
    cases tvOn with
    | false => exact .inl ⟨_, rfl⟩
    | true =>
      refine OkOrValue.map ?_
      obtain ⟨-, c, hc⟩ := num_lt (given ha.tv h₆)
      obtain ⟨⟨d, hd⟩, -⟩ := num_lt hl1
      unfold tvNew
      rw [hs, hc, hd]
      cases c
      · cases d
        · exact .inl ⟨_, rfl⟩
        · exact .inr rfl
      · exact .inr rfl
  have hl1' : IsNumber (if tvOn = true then Leaf.num 0 else if l1On = true then a.l1 else Leaf.num 0) := by
    cases tvOn with
    | true => exact .inr (.inl ⟨0, rfl⟩)
    | false => exact hl1
  obtain ⟨l1On', h₈⟩ := num_ok (.inr hl1')
  rw [h₈, ok_bind]
  refine OkOrValue.bind ?_ fun r₆ => ?_
  · unfold l1Regs
    cases l1On' with
    | false => exact .inl ⟨_, rfl⟩
    | true =>
      refine OkOrValue.map ?_
      obtain ⟨⟨d, hd⟩, -⟩ := num_lt hl1'
      unfold l1New
      rw [hd]
      cases d
      · exact .inl ⟨_, rfl⟩
      · exact .inr rfl
  refine OkOrValue.bind ?_ fun r₇ => .inl ⟨_, rfl⟩
  split
  · unfold boxRegs
    rw [flag_truth ha.nonNeg]
    left
    cases a.nonNeg.flag with
    | false => exact ⟨_, rfl⟩
    | true => rcases ha.lower with e | e | ⟨x, e⟩ <;> rw [e] <;> exact ⟨_, rfl⟩
  · exact .inl ⟨_, rfl⟩

/-- C52 for one mode: with documented or infinite values, a negative `l1_penalty`, `tv_penalty` or `l2_norm_bound` raises ValueError (`condat_tv` installed). -/
theorem C52_mode (negEig : (m : ℕ) → Matrix (Fin m) (Fin m) ℝ → Bool) (s : Settings α) (hs : s.hasTV = true) {a : ModeArgs} (ha : ScalarInf a)
    (h : IsNegative a.l1 ∨ IsNegative a.tv ∨ IsNegative a.normBound) : parseMode negEig s a = .error .valueError := by
  rcases parseMode_okOrValue negEig s hs ha with ⟨l, hl⟩ | e
  · exfalso
    obtain ⟨l1On, uni, r₃, ball, r₄, tvOn, r₅, l1On', r₆, r₇, nn, h₁, h₂, h₃, h₄, h₅, h₆, h₇, h₈, h₉, -⟩ := parseMode_ok.1 hl
    rcases h with e | e | e
    · obtain ⟨ht, hlt, -⟩ := neg_leaf e
      rw [ht] at h₁
      cases h₁
      simp only [if_true] at h₇ h₈ h₉
      rcases tvRegs_ok h₇ with ⟨rfl, -⟩ | ⟨rfl, -, -, c, -⟩
      · simp only [Bool.false_eq_true, if_false, ht] at h₈ h₉
        cases h₈
        rcases l1Regs_ok h₉ with ⟨c, -⟩ | ⟨-, c, -⟩
        · cases c
        · rw [hlt] at c; cases c
      · rw [hlt] at c; cases c
    · obtain ⟨ht, -, hle⟩ := neg_leaf e
      rw [ht] at h₆
      cases h₆
      rcases tvRegs_ok h₇ with ⟨c, -⟩ | ⟨-, -, c, -, -⟩
      · cases c
      · rw [hle] at c; cases c
    · obtain ⟨ht, -, hle⟩ := neg_leaf e
      rw [ht] at h₄
      cases h₄
      rcases ballRegs_ok h₅ with ⟨c, -⟩ | ⟨-, c, -⟩
      · cases c
      · rw [hle] at c; cases c
  · exact e

/-- A case: `tv_penalty=-inf` with an infinite norm bound. -/
example (negEig : (m : ℕ) → Matrix (Fin m) (Fin m) ℝ → Bool) (s : Settings α) (hs : s.hasTV = true) (a : ModeArgs) (ha : Scalar a) :
    parseMode negEig s { a with tv := .inf true, normBound := .inf false } = .error .valueError :=
  C52_mode negEig s hs { ha.inf with tv := .inr (.inr (.inr ⟨true, rfl⟩)), normBound := .inr (.inr (.inr ⟨false, rfl⟩)) } (.inr (.inl (.inr rfl)))

/-- The modes are parsed one after the other: ValueError if one of them is rejected so and the others are accepted or rejected so. -/
theorem modes_value (negEig : (m : ℕ) → Matrix (Fin m) (Fin m) ℝ → Bool) (s : Settings α) (hs : s.hasTV = true) {a : AllArgs} {f : Fin 3 → ModeArgs} (hf : AllForms a f)
    (hsc : ∀ m, ScalarInf (f m)) (hneg : ∃ m, IsNegative (f m).l1 ∨ IsNegative (f m).tv ∨ IsNegative (f m).normBound) : (do
      let args ← listifyAll a
      let _ ← parseMode negEig s (args 0)
      let _ ← parseMode negEig s (args 1)
      let _ ← parseMode negEig s (args 2)
      return () : Except PyErr Unit) = .error .valueError := by
  obtain ⟨args, hargs, he⟩ := C49_modes hf
  have e₀ : args 0 = f 0 := he 0
  have e₁ : args 1 = f 1 := he 1
  have e₂ : args 2 = f 2 := he 2
  rw [hargs, ok_bind, e₀, e₁, e₂]
  obtain ⟨m, hm⟩ := hneg
  have hbad := C52_mode negEig s hs (hsc m) hm
  rcases parseMode_okOrValue negEig s hs (hsc 0) with ⟨p₀, q₀⟩ | q₀ <;> rw [q₀]
  swap
  · rfl
  rcases parseMode_okOrValue negEig s hs (hsc 1) with ⟨p₁, q₁⟩ | q₁ <;> rw [ok_bind, q₁]
  swap
  · rfl
  rcases parseMode_okOrValue negEig s hs (hsc 2) with ⟨p₂, q₂⟩ | q₂ <;> rw [ok_bind, q₂]
  swap
  · rfl
  exfalso
  fin_cases m
  · cases q₀.symm.trans hbad
  · cases q₁.symm.trans hbad
  · cases q₂.symm.trans hbad

theorem error_of_map {β : Type} {x : Except PyErr β} {e : PyErr} (h : x.map (fun _ => ()) = .error e) : x = .error e := by
  rcases x with y | y
  · cases h; rfl
  · cases h

/-- C52, negative arguments, except that `condat_tv` must be installed (see `C52_false`): all arguments in documented forms with documented or infinite values, a negative `l1_penalty`,
`tv_penalty` or `l2_norm_bound` in some mode, `regs` not given, or a list or tuple of at least three lists of penalties: ValueError. -/
theorem C52_negative_partial (negEig : (m : ℕ) → Matrix (Fin m) (Fin m) ℝ → Bool) (s : Settings α) (hs : s.hasTV = true) (a : AllArgs) {f : Fin 3 → ModeArgs} (hf : AllForms a f)
    (hsc : ∀ m, ScalarInf (f m)) (hneg : ∃ m, IsNegative (f m).l1 ∨ IsNegative (f m).tv ∨ IsNegative (f m).normBound)
    (regs : Option (Val α)) (h : Heap α) (hr : regs = none ∨ ∃ r L, regs = some (.ref r) ∧ (h[r]? = some (.list L) ∨ h[r]? = some (.tuple L)) ∧ 3 ≤ L.length ∧
      ∀ v ∈ L, ∃ b l, v = .ref b ∧ h[b]? = some (.list (List.map .pen l))) :
    (parseAll negEig s a regs h).2 = .error .valueError := by
  have key := modes_value negEig s hs hf hsc hneg
  rcases hr with rfl | ⟨r, L, rfl, hr, hlen, hL⟩
  · exact error_of_map ((parseAll_none_outcome negEig s a h).trans key)
  · exact error_of_map ((parseAll_outcome negEig s a r L h hr hlen hL).trans key)

/-- C52 fails without `condat_tv`: a negative `tv_penalty` raises ModuleNotFoundError. -/
theorem C52_false : ∃ a : ModeArgs, Scalar a ∧ a.tv = .num (-1) ∧ ∀ (negEig) (s : Settings α), s.hasTV = false → parseMode negEig s a = .error .moduleNotFoundError := by
  refine ⟨{ noMode with tv := .num (-1) }, { noMode_scalar with tv := .inr (.inr ⟨-1, rfl⟩) }, rfl, fun negEig s hs => ?_⟩
  simp [parseMode, noMode, Leaf.truth, Leaf.given, genL2Regs, ballRegs, tvRegs, tvNew, hs, Except.map]
  rfl

/-! ### A concrete case -/

/-- `non_negative=True`, `l1_penalty=2`, `tv_penalty=3`, `lower_bound=-1`, `l2_norm_bound=5`. -/
def mixedMode : ModeArgs := { noMode with nonNeg := .bool true, l1 := .num 2, tv := .num 3, lower := .num (-1), normBound := .num 5 }

theorem mixedMode_scalar : Scalar mixedMode :=
  { noMode_scalar with nonNeg := .inr ⟨true, rfl⟩, l1 := .inr (.inr ⟨2, rfl⟩), tv := .inr (.inr ⟨3, rfl⟩), lower := .inr (.inr ⟨-1, rfl⟩), normBound := .inr ⟨5, rfl⟩ }

/-- A case for C50_partial and C51: ball, total variation with L1, and a box from 0. -/
example : ∃ l, parseMode (fun _ _ => false) someSettings mixedMode = .ok l ∧ mixedMode.normBound ≠ .num 0 ∧
    (l.map fun p => match p with | .built k _ _ _ => some k | .user _ => none) =
      [some (.l2Ball (.num 5) (.bool true)), some (.tv (.num 3) (.num 2)), some (.box (.num 0) .none)] := by
  refine ⟨someSettings.mk1 (.l2Ball (.num 5) (.bool true)) ++ someSettings.mk1 (.tv (.num 3) (.num 2)) ++ someSettings.mk1 (.box (.num 0) .none), ?_, by simp [mixedMode], rfl⟩
  have h5 : ¬(5 : ℝ) ≤ 0 := by norm_num
  have h3 : ¬(3 : ℝ) ≤ 0 := by norm_num
  have h2 : ¬(2 : ℝ) < 0 := by norm_num
  have h1 : (-1 : ℝ) < 0 := by norm_num
  refine parseMode_ok.2 ⟨true, false, [], true, someSettings.mk1 (.l2Ball (.num 5) (.bool true)), true, someSettings.mk1 (.tv (.num 3) (.num 2)), false, [],
    someSettings.mk1 (.box (.num 0) .none), true, ?_, rfl, rfl, ?_, ?_, ?_, ?_, ?_, rfl, ?_, rfl, rfl⟩ <;>
  simp [mixedMode, noMode, Leaf.truth, ballRegs, l2BallNew, Leaf.leZero, Leaf.ltZero, h5, h3, h2, h1, tvRegs, tvNew, someSettings, Except.map, boxRegs, Leaf.isNone,
    Leaf.max0, pure, Except.pure, bind, Except.bind, Settings.mk1]

end Verif.Props
