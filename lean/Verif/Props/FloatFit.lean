import Verif.FloatFit.Model
import Verif.Props.Raise
import Verif.Props.UnimodalFloat

/-!
# C102: the returned auxiliary variables satisfy element-wise constraints in floating-point arithmetic
-/

set_option linter.unusedSectionVars false

namespace Verif.Props

open Verif.FloatFit Verif.Raise Verif.Spec Verif.Unimodal

/-- What is assumed of products and quotients, for `L2Ball` only: no sign is wrong, and NaN gives NaN. -/
class FloatSign (K : Type) [Zero K] [Mul K] [Div K] [LE K] [LT K] : Prop where
  mul_nonneg : ∀ {x y : K}, 0 ≤ x → 0 ≤ y → ¬ IsNaN (x * y) → 0 ≤ x * y
  div_nonneg : ∀ {x y : K}, 0 ≤ x → 0 < y → ¬ IsNaN (x / y) → 0 ≤ x / y
  nan_mul : ∀ {x : K} (y : K), IsNaN x → IsNaN (x * y)
  nan_div : ∀ {x : K} (y : K), IsNaN x → IsNaN (x / y)
  div_nan : ∀ (x : K) {y : K}, IsNaN y → IsNaN (x / y)

/-- Every entry is non-negative or NaN. -/
def NonNegF {K : Type} [Zero K] [LE K] {m n : ℕ} (Z : Mat K m n) : Prop := ∀ i r, ¬ IsNaN (Z i r) → 0 ≤ Z i r

/-- The constraint of a penalty, in the comparisons of floating-point numbers. -/
def SatF {K : Type} [Zero K] [LE K] {m n : ℕ} (Z : Mat K m n) : ElemPen K → Prop
  | .nonNeg => NonNegF Z
  | .box lo hi => ∀ i r, ¬ IsNaN (Z i r) → (∀ l ∈ lo, l ≤ Z i r) ∧ ∀ h ∈ hi, Z i r ≤ h
  | .l1 _ nn _ _ => nn = true → NonNegF Z
  | .l2Ball _ nn _ => nn = true → NonNegF Z
  | .simplex _ => NonNegF Z
  | .unimodal nn => 0 < m → (∀ r, (∀ i, ¬ IsNaN (Z i r)) → IsUnimodalLE fun i => Z i r) ∧ (nn = true → NonNegF Z)

/-- Parameters for which the constraint can be satisfied: bounds that are not crossed, a positive norm bound (with products and quotients of correct sign). -/
def ValidF {K : Type} [Zero K] [Mul K] [Div K] [LE K] [LT K] : ElemPen K → Prop
  | .box lo hi => ∀ l ∈ lo, ∀ h ∈ hi, ¬ h < l
  | .l2Ball b nn _ => nn = true → FloatSign K ∧ 0 < b
  | _ => True

section
variable {K : Type} [Zero K] [LE K] [LT K] [DecidableLE K] [DecidableLT K] [FloatOrder K]

theorem not_lt_le {x y : K} (hx : ¬ IsNaN x) (hy : ¬ IsNaN y) (h : ¬ x < y) : y ≤ x := by
  rcases FloatOrder.total hx hy with h' | h'
  · by_contra hc
    exact h (FloatOrder.lt_iff.2 ⟨h', hc⟩)
  · exact h'

theorem clipMax_spec (x lo : K) : (IsNaN x ∨ IsNaN lo → IsNaN (clipMax x lo)) ∧ (¬ IsNaN x → ¬ IsNaN lo → ¬ IsNaN (clipMax x lo) ∧ lo ≤ clipMax x lo) ∧
    (clipMax x lo = x ∨ clipMax x lo = lo) := by
  unfold clipMax
  by_cases hx : IsNaN x
  · rw [if_pos (show ¬ x ≤ x from hx)]
    exact ⟨fun _ => hx, fun h => absurd hx h, .inl rfl⟩
  · rw [if_neg (show ¬ ¬ x ≤ x from hx)]
    by_cases h : lo < x
    · rw [if_pos h]
      have := FloatOrder.lt_iff.1 h
      exact ⟨fun h' => by rcases h' with h' | h'; exacts [absurd h' hx, absurd h' (FloatOrder.left this.1)], fun _ _ => ⟨hx, this.1⟩, .inl rfl⟩
    · rw [if_neg h]
      refine ⟨fun h' => by rcases h' with h' | h'; exacts [absurd h' hx, h'], fun _ hl => ⟨hl, ?_⟩, .inr rfl⟩
      exact not_not.1 hl

theorem clipMin_spec (x hi : K) : (IsNaN x ∨ IsNaN hi → IsNaN (clipMin x hi)) ∧ (¬ IsNaN x → ¬ IsNaN hi → ¬ IsNaN (clipMin x hi) ∧ clipMin x hi ≤ hi) ∧
    (clipMin x hi = x ∨ clipMin x hi = hi) := by
  unfold clipMin
  by_cases hx : IsNaN x
  · rw [if_pos (show ¬ x ≤ x from hx)]
    exact ⟨fun _ => hx, fun h => absurd hx h, .inl rfl⟩
  · rw [if_neg (show ¬ ¬ x ≤ x from hx)]
    by_cases h : x < hi
    · rw [if_pos h]
      have := FloatOrder.lt_iff.1 h
      exact ⟨fun h' => by rcases h' with h' | h'; exacts [absurd h' hx, absurd h' (FloatOrder.right this.1)], fun _ _ => ⟨hx, this.1⟩, .inl rfl⟩
    · rw [if_neg h]
      refine ⟨fun h' => by rcases h' with h' | h'; exacts [absurd h' hx, h'], fun _ hl => ⟨hl, ?_⟩, .inr rfl⟩
      exact not_not.1 hl

/-- A clipped number that is not NaN satisfies both bounds. -/
theorem clipF_sat (lo hi : Option K) (h : ∀ l ∈ lo, ∀ u ∈ hi, ¬ u < l) (x : K) (hx : ¬ IsNaN (clipF lo hi x)) :
    (∀ l ∈ lo, l ≤ clipF lo hi x) ∧ ∀ u ∈ hi, clipF lo hi x ≤ u := by
  cases lo with
  | none =>
    cases hi with
    | none => simp
    | some hi =>
      refine ⟨by simp, fun u hu => ?_⟩
      cases hu
      simp only [clipF] at hx ⊢
      split at hx
      · rename_i h'
        rw [if_pos h']
        exact h'.resolve_right fun hc => hx hc
      · rename_i h'
        rw [if_neg h']
        exact not_not.1 hx
  | some lo =>
    cases hi with
    | none =>
      refine ⟨fun u hu => ?_, by simp⟩
      cases hu
      simp only [clipF] at hx ⊢
      split at hx
      · rename_i h'
        rw [if_pos h']
        exact h'.resolve_right fun hc => hx hc
      · rename_i h'
        rw [if_neg h']
        exact not_not.1 hx
    | some hi =>
      have hc := h lo rfl hi rfl
      simp only [clipF] at hx ⊢
      obtain ⟨a1, a2, a3⟩ := clipMin_spec (clipMax x lo) hi
      obtain ⟨b1, b2, b3⟩ := clipMax_spec x lo
      have hm : ¬ IsNaN (clipMax x lo) := fun h' => hx (a1 (.inl h'))
      have hhi : ¬ IsNaN hi := fun h' => hx (a1 (.inr h'))
      have hxx : ¬ IsNaN x := fun h' => hm (b1 (.inl h'))
      have hlo : ¬ IsNaN lo := fun h' => hm (b1 (.inr h'))
      refine ⟨fun l hl => ?_, fun u hu => ?_⟩
      · cases hl
        rcases a3 with e | e
        · rw [e]; exact (b2 hxx hlo).2
        · rw [e]; exact not_lt_le hhi hlo hc
      · cases hu
        exact (a2 hm hhi).2

end

section
variable {K : Type} [Zero K] [One K] [Add K] [Sub K] [Mul K] [Div K] [Pow K ℕ] [LE K] [LT K] [DecidableLE K] [DecidableLT K] [FloatOrder K] [FloatConst K]

theorem inf_not_lt (x : K) : ¬ (FloatConst.inf : K) < x := fun h => by
  have h1 := FloatOrder.lt_iff.1 h
  exact h1.2 (FloatConst.le_inf (FloatOrder.right h1.1))

theorem clipF_nonneg (x : K) (hx : ¬ IsNaN (clipF (some 0) (some FloatConst.inf) x)) : 0 ≤ clipF (some 0) (some FloatConst.inf) x :=
  (clipF_sat _ _ (by rintro _ ⟨⟩ _ ⟨⟩; exact inf_not_lt 0) x hx).1 0 rfl

theorem l1F_nonneg (γ : K) (sgn abs : K → K) (ρ x : K) (hx : ¬ IsNaN (l1F γ true sgn abs ρ x)) : 0 ≤ l1F γ true sgn abs ρ x := by
  simp only [l1F, if_true] at hx ⊢
  exact clipF_nonneg _ hx

/-- The result of a matrix update satisfies the constraint, whatever its input. -/
theorem mat_sat {m n : ℕ} (q : ElemPen K) (hq : ValidF q) (X : Mat K m n) (ρ : K) (aux Z : Mat K m n) (h : q.mat X ρ aux = .ok Z) : SatF Z q := by
  cases q with
  | nonNeg => cases h; exact fun i r => clipF_nonneg _
  | box lo hi => cases h; exact fun i r => clipF_sat lo hi hq _
  | l1 γ nn sgn abs =>
    rintro rfl
    cases h
    exact fun i r => l1F_nonneg γ sgn abs ρ _
  | l2Ball b nn norm =>
    rintro rfl
    obtain ⟨hs, hb⟩ := hq rfl
    simp only [ElemPen.mat, if_true, Except.ok.injEq] at h
    subst h
    intro i r hnan
    have hb0 := FloatOrder.lt_iff.1 hb
    have h1 : ¬ IsNaN (clipF (some 0) (some FloatConst.inf) (X i r)) := fun hc => hnan (FloatSign.nan_div _ (FloatSign.nan_mul _ hc))
    have h2 : ¬ IsNaN (clipF (some 0) (some FloatConst.inf) (X i r) * b) := fun hc => hnan (FloatSign.nan_div _ hc)
    have h3 := fun hc => hnan (FloatSign.div_nan _ hc)
    have h4 := (clipF_sat (some b) (some FloatConst.inf) (by rintro _ ⟨⟩ _ ⟨⟩; exact inf_not_lt b) _ h3).1 b rfl
    refine FloatSign.div_nonneg (FloatSign.mul_nonneg (clipF_nonneg _ h1) hb0.1 h2) (FloatOrder.lt_iff.2 ⟨FloatOrder.trans hb0.1 h4, fun hc => ?_⟩) hnan
    exact hb0.2 (FloatOrder.trans h4 hc)
  | simplex mult =>
    simp only [ElemPen.mat] at h
    cases hμ : seqPi n fun r => mult m fun i => X i r with
    | error e => rw [hμ] at h; cases h
    | ok μ =>
      rw [hμ] at h
      cases h
      exact fun i r hn => (clipF_sat (some 0) none (by simp) _ hn).1 0 rfl
  | unimodal nn =>
    intro hm
    rcases Nat.eq_zero_or_pos n with rfl | hn
    · exact ⟨fun r => r.elim0, fun _ i r => r.elim0⟩
    · obtain ⟨u, h1, -, h3⟩ := C99_fibres id hm hn (Equiv.refl (Fin n)) X nn
      simp only [ElemPen.mat, h1, Except.map, Except.ok.injEq, Option.getD_some] at h
      subst h
      exact ⟨fun r => (h3 r).1, fun hnn i r => (h3 r).2 hnn i⟩

/-- The results of the row updates satisfy the constraint. -/
theorem row_sat {m n : ℕ} (q : ElemPen K) (hq : ValidF q) {u : (Fin n → K) → K → (Fin n → K) → Except PyErr (Fin n → K)} (hu : q.row = some u)
    (X : Mat K m n) (ρ : Fin m → K) (aux Z : Mat K m n) (h : ∀ i, u (X i) (ρ i) (aux i) = .ok (Z i)) : SatF Z q := by
  cases q with
  | nonNeg =>
    cases hu
    intro i r
    rw [← (Except.ok.injEq _ _).mp (h i)]
    exact clipF_nonneg _
  | box lo hi =>
    cases hu
    intro i r
    rw [← (Except.ok.injEq _ _).mp (h i)]
    exact clipF_sat lo hi hq _
  | l1 γ nn sgn abs =>
    cases hu
    rintro rfl i r
    rw [← (Except.ok.injEq _ _).mp (h i)]
    exact l1F_nonneg γ sgn abs _ _
  | l2Ball b nn norm => cases hu
  | simplex mult => cases hu
  | unimodal nn => cases hu

variable {α μ : Type} {I L R nA nB nC : ℕ} {J : Fin I → ℕ}

theorem auxAF_sat (q : ElemPen K) (hq : ValidF q) (o : Option K) (ρ : Fin I → K) (Y aux Z : Mat K I R) (h : auxAF (q.onA I R) o ρ Y aux = .ok Z) : SatF Z q := by
  unfold auxAF at h
  cases o with
  | some m => exact mat_sat q hq Y m aux Z h
  | none =>
    cases hr : (q.onA I R).row with
    | some u =>
      rw [hr] at h
      exact row_sat q hq hr Y ρ aux Z (seqPi_ok h)
    | none =>
      rw [hr] at h
      have h0 : I = 0 := by
        rcases Nat.eq_zero_or_pos I with h0 | h0
        · exact h0
        · have := seqPi_ok h ⟨0, h0⟩
          cases this
      subst h0
      cases q with
      | nonNeg => exact fun i => i.elim0
      | box => exact fun i => i.elim0
      | l1 => exact fun _ i => i.elim0
      | l2Ball => exact fun _ i => i.elim0
      | simplex => exact fun i => i.elim0
      | unimodal => exact fun h => absurd h (lt_irrefl _)

end

section
variable {K α μ : Type} [Add K] [Sub K] {I L R nA nB nC : ℕ} {J : Fin I → ℕ}

/-- What is known about the auxiliary variables after the updates of an iteration. -/
theorem sweepF_last {E : Env K α μ I L R nA nB nC J} (hN : 0 < E.nInner) {s u v : FState K α I L R nA nB nC J} (h : sweepF E s = .ok (u, v)) :
    (E.updA = true → ∀ p, ∃ o ρ Y aux, auxAF (E.pensA p) o ρ Y aux = .ok (v.auxA p)) ∧
    (E.updB = true → ∀ p, ∃ ρ Y aux, (E.pensB p).update Y ρ aux = .ok (v.auxB p)) ∧
    (E.updC = true → ∀ p, ∃ ρ Y aux, (E.pensC p).mat Y ρ aux = .ok (v.auxC p)) := by
  unfold sweepF at h
  cases hB : sweepBF E s with
  | error e => rw [hB] at h; cases h
  | ok t =>
    rw [hB] at h
    simp only at h
    cases hC : sweepCF E t with
    | error e => rw [hC] at h; cases h
    | ok u' =>
      rw [hC] at h
      simp only at h
      cases hA : sweepAF E u' with
      | error e => rw [hA] at h; cases h
      | ok v' =>
        rw [hA] at h
        simp only [Except.map, Except.ok.injEq, Prod.mk.injEq] at h
        obtain ⟨rfl, rfl⟩ := h
        have kA : v'.auxB = u'.auxB ∧ v'.auxC = u'.auxC ∧ (E.updA = true → ∀ p, ∃ o ρ Y aux, auxAF (E.pensA p) o ρ Y aux = .ok (v'.auxA p)) := by
          unfold sweepAF at hA
          split at hA
          · cases hp : E.prepA u'.F with
            | error e => rw [hp] at hA; cases hA
            | ok x =>
              obtain ⟨ρ, solve⟩ := x
              rw [hp] at hA
              simp only at hA
              cases hl : innerLoopR (stepAF E.pensA ρ.1 ρ.2 solve) E.stopA E.nInner ⟨u'.F.A, u'.auxA, u'.dualA⟩ with
              | error e => rw [hl] at hA; cases hA
              | ok w =>
                rw [hl] at hA
                simp only [Except.map, Except.ok.injEq] at hA
                subst hA
                refine ⟨rfl, rfl, fun _ p => ?_⟩
                obtain ⟨s', hs'⟩ := innerLoopR_last hN hl
                unfold stepAF at hs'
                split at hs'
                · cases hs'
                · split at hs'
                  · cases hs'
                  · rename_i haux
                    cases hs'
                    exact ⟨_, _, _, _, seqPi_ok haux p⟩
          · rename_i hupd
            cases hA
            exact ⟨rfl, rfl, fun hc => absurd hc hupd⟩
        have kC : u'.auxB = t.auxB ∧ (E.updC = true → ∀ p, ∃ ρ Y aux, (E.pensC p).mat Y ρ aux = .ok (u'.auxC p)) := by
          unfold sweepCF at hC
          split at hC
          · cases hp : E.prepC t.F with
            | error e => rw [hp] at hC; cases hC
            | ok x =>
              obtain ⟨ρ, solve⟩ := x
              rw [hp] at hC
              simp only at hC
              cases hl : innerLoopR (stepCF E.pensC ρ solve) E.stopC E.nInner ⟨t.F.C, t.auxC, t.dualC⟩ with
              | error e => rw [hl] at hC; cases hC
              | ok w =>
                rw [hl] at hC
                simp only [Except.map, Except.ok.injEq] at hC
                subst hC
                refine ⟨rfl, fun _ p => ?_⟩
                obtain ⟨s', hs'⟩ := innerLoopR_last hN hl
                unfold stepCF at hs'
                split at hs'
                · cases hs'
                · split at hs'
                  · cases hs'
                  · rename_i haux
                    cases hs'
                    exact ⟨_, _, _, seqPi_ok haux p⟩
          · rename_i hupd
            cases hC
            exact ⟨rfl, fun hc => absurd hc hupd⟩
        have kB : E.updB = true → ∀ p, ∃ ρ Y aux, (E.pensB p).update Y ρ aux = .ok (t.auxB p) := by
          unfold sweepBF at hB
          split at hB
          · cases hp : E.prepB s.F with
            | error e => rw [hp] at hB; cases hB
            | ok x =>
              obtain ⟨ρ, solve⟩ := x
              rw [hp] at hB
              simp only at hB
              cases hl : innerLoopR (stepBF E.pensB ρ solve) E.stopB E.nInner ⟨s.F.B, s.auxB, s.dualB⟩ with
              | error e => rw [hl] at hB; cases hB
              | ok w =>
                rw [hl] at hB
                simp only [Except.map, Except.ok.injEq] at hB
                subst hB
                refine fun _ p => ?_
                obtain ⟨s', hs'⟩ := innerLoopR_last hN hl
                unfold stepBF at hs'
                split at hs'
                · cases hs'
                · split at hs'
                  · cases hs'
                  · rename_i haux
                    cases hs'
                    exact ⟨_, _, _, seqPi_ok haux p⟩
          · rename_i hupd
            exact fun hc => absurd hc hupd
        exact ⟨kA.2.2, fun hu p => by rw [kA.1, kC.1]; exact kB hu p, fun hu p => by rw [kA.2.1]; exact kC.2 hu p⟩

/-- The last state is the result of the updates of an iteration. -/
theorem runF_last {E : Env K α μ I L R nA nB nC J} : ∀ {N : ℕ} {m m' : μ} {s s' : FState K α I L R nA nB nC J}, 0 < N → runF E N m s = .ok (m', s') →
    ∃ t u, sweepF E t = .ok (u, s')
  | N + 1, m, m', s, s', _, h => by
    unfold runF at h
    cases hs : sweepF E s with
    | error e => rw [hs] at h; cases h
    | ok x =>
      obtain ⟨u, v⟩ := x
      rw [hs] at h
      simp only at h
      cases ho : E.observe m u v with
      | error e => rw [ho] at h; cases h
      | ok y =>
        obtain ⟨m₁, b⟩ := y
        rw [ho] at h
        cases b with
        | true => cases h; exact ⟨_, _, hs⟩
        | false =>
          simp only at h
          rcases Nat.eq_zero_or_pos N with rfl | hN
          · cases h; exact ⟨_, _, hs⟩
          · exact runF_last hN h

end

section
variable {K : Type} [Zero K] [One K] [Add K] [Sub K] [Mul K] [Div K] [Pow K ℕ] [LE K] [LT K] [DecidableLE K] [DecidableLT K] [FloatOrder K] [FloatConst K]
variable {α μ : Type} {I L R nA nB nC : ℕ} {J : Fin I → ℕ}

/-- C102. After a call with at least one iteration and one inner iteration, each auxiliary variable of an updated mode satisfies the constraint of its penalty: exactly, in the
comparisons of floating-point numbers, except where it is NaN. This holds whatever the arithmetic operations, the solutions of the linear systems, the feasibility penalties and
the stopping rules give. -/
theorem C102 (E : Env K α μ I L R nA nB nC J) (hN : 0 < E.nInner) {N : ℕ} (hn : 0 < N) (m m' : μ) (s s' : FState K α I L R nA nB nC J)
    (h : runF E N m s = .ok (m', s')) (q : ElemPen K) (hq : ValidF q) :
    (E.updA = true → ∀ p, E.pensA p = q.onA I R → SatF (s'.auxA p) q) ∧
    (E.updB = true → ∀ p toMats, E.pensB p = q.onB toMats → ∃ Z, s'.auxB p = .mats Z ∧ ∀ i, SatF (Z i) q) ∧
    (E.updC = true → ∀ p, E.pensC p = q.onC L R → SatF (s'.auxC p) q) := by
  obtain ⟨t, u, hsw⟩ := runF_last hn h
  obtain ⟨hA, hB, hC⟩ := sweepF_last hN hsw
  refine ⟨fun hu p hp => ?_, fun hu p toMats hp => ?_, fun hu p hp => ?_⟩
  · obtain ⟨o, ρ, Y, aux, e⟩ := hA hu p
    rw [hp] at e
    exact auxAF_sat q hq o ρ Y aux _ e
  · obtain ⟨ρ, Y, aux, e⟩ := hB hu p
    rw [hp] at e
    simp only [ElemPen.onB, FPenB.ofMat] at e
    split at e
    · cases e
    · rename_i Z hZ
      exact ⟨Z, ((Except.ok.injEq _ _).mp e).symm, fun i => mat_sat q hq _ _ _ _ (seqPi_ok hZ i)⟩
  · obtain ⟨ρ, Y, aux, e⟩ := hC hu p
    rw [hp] at e
    exact mat_sat q hq Y ρ aux _ e

end

/-! ### What the updates of bounds return -/

/-- Equal as floating-point numbers (0 and -0 are). -/
def EqF {K : Type} [LE K] (x y : K) : Prop := x ≤ y ∧ y ≤ x

/-- `z` is `x` moved to the nearest number within the bounds; NaN stays NaN. -/
def ClipsTo {K : Type} [LE K] [LT K] (lo hi : Option K) (x z : K) : Prop :=
  (IsNaN x → IsNaN z) ∧ (¬ IsNaN x → ((∀ l ∈ lo, l ≤ x) → (∀ h ∈ hi, x ≤ h) → EqF z x) ∧ (∀ l ∈ lo, x < l → EqF z l) ∧ ∀ h ∈ hi, h < x → EqF z h)

section
variable {K : Type} [Zero K] [One K] [Add K] [Sub K] [Mul K] [Div K] [Pow K ℕ] [LE K] [LT K] [DecidableLE K] [DecidableLT K] [FloatOrder K] [FloatConst K]

theorem le_self_of {x : K} (h : ¬ IsNaN x) : x ≤ x := not_not.1 h

theorem clipMax_value {x lo : K} (hx : ¬ IsNaN x) (hl : ¬ IsNaN lo) : ¬ IsNaN (clipMax x lo) ∧ (lo ≤ x → EqF (clipMax x lo) x) ∧ (x < lo → EqF (clipMax x lo) lo) := by
  unfold clipMax
  rw [if_neg (show ¬ ¬ x ≤ x from hx)]
  by_cases h : lo < x
  · rw [if_pos h]
    exact ⟨hx, fun _ => ⟨le_self_of hx, le_self_of hx⟩, fun h' => absurd (FloatOrder.lt_iff.1 h').1 (FloatOrder.lt_iff.1 h).2⟩
  · rw [if_neg h]
    exact ⟨hl, fun h' => ⟨h', not_lt_le hl hx h⟩, fun _ => ⟨le_self_of hl, le_self_of hl⟩⟩

theorem clipMin_value {x hi : K} (hx : ¬ IsNaN x) (hh : ¬ IsNaN hi) : ¬ IsNaN (clipMin x hi) ∧ (x ≤ hi → EqF (clipMin x hi) x) ∧ (hi < x → EqF (clipMin x hi) hi) := by
  unfold clipMin
  rw [if_neg (show ¬ ¬ x ≤ x from hx)]
  by_cases h : x < hi
  · rw [if_pos h]
    exact ⟨hx, fun _ => ⟨le_self_of hx, le_self_of hx⟩, fun h' => absurd (FloatOrder.lt_iff.1 h').1 (FloatOrder.lt_iff.1 h).2⟩
  · rw [if_neg h]
    exact ⟨hh, fun h' => ⟨not_lt_le hx hh h, h'⟩, fun _ => ⟨le_self_of hh, le_self_of hh⟩⟩

theorem EqF.trans {x y z : K} (h : EqF x y) (h' : EqF y z) : EqF x z := ⟨FloatOrder.trans h.1 h'.1, FloatOrder.trans h'.2 h.2⟩

theorem clipF_value (lo hi : Option K) (hlo : ∀ l ∈ lo, ¬ IsNaN l) (hhi : ∀ u ∈ hi, ¬ IsNaN u) (h : ∀ l ∈ lo, ∀ u ∈ hi, ¬ u < l) (x : K) :
    ClipsTo lo hi x (clipF lo hi x) := by
  cases lo with
  | none =>
    cases hi with
    | none =>
      refine ⟨fun hx => hx, fun hx => ⟨fun _ _ => ⟨le_self_of hx, le_self_of hx⟩, ?_, ?_⟩⟩ <;> intro l hl <;> cases hl
    | some u =>
      have hu := hhi u rfl
      simp only [clipF, ClipsTo]
      refine ⟨fun hx => ?_, fun hx => ⟨fun _ h2 => ?_, ?_, ?_⟩⟩
      · rw [if_pos (.inr hx)]; exact hx
      · rw [if_pos (.inl (h2 u rfl))]; exact ⟨le_self_of hx, le_self_of hx⟩
      · intro l hl; cases hl
      · intro w hw hlt
        obtain rfl : u = w := Option.some.inj hw
        rw [if_neg]
        · exact ⟨le_self_of hu, le_self_of hu⟩
        · rintro (h1 | h1)
          · exact (FloatOrder.lt_iff.1 hlt).2 h1
          · exact hx h1
  | some l =>
    have hl := hlo l rfl
    cases hi with
    | none =>
      simp only [clipF, ClipsTo]
      refine ⟨fun hx => ?_, fun hx => ⟨fun h1 _ => ?_, ?_, ?_⟩⟩
      · rw [if_pos (.inr hx)]; exact hx
      · rw [if_pos (.inl (h1 l rfl))]; exact ⟨le_self_of hx, le_self_of hx⟩
      · intro w hw hlt
        obtain rfl : l = w := Option.some.inj hw
        rw [if_neg]
        · exact ⟨le_self_of hl, le_self_of hl⟩
        · rintro (h1 | h1)
          · exact (FloatOrder.lt_iff.1 hlt).2 h1
          · exact hx h1
      · intro w hw; cases hw
    | some u =>
      have hu := hhi u rfl
      have hlu : l ≤ u := not_lt_le hu hl (h l rfl u rfl)
      simp only [clipF, ClipsTo]
      refine ⟨fun hx => ?_, fun hx => ?_⟩
      · exact (clipMin_spec _ u).1 (.inl ((clipMax_spec x l).1 (.inl hx)))
      · obtain ⟨m1, m2, m3⟩ := clipMax_value hx hl
        obtain ⟨n1, n2, n3⟩ := clipMin_value m1 hu
        refine ⟨fun h1 h2 => ?_, ?_, ?_⟩
        · have e := m2 (h1 l rfl)
          exact (n2 (FloatOrder.trans e.1 (h2 u rfl))).trans e
        · intro w hw hlt
          obtain rfl : l = w := Option.some.inj hw
          have e := m3 hlt
          exact (n2 (FloatOrder.trans e.1 hlu)).trans e
        · intro w hw hlt
          obtain rfl : u = w := Option.some.inj hw
          have e := m2 (FloatOrder.trans hlu (FloatOrder.lt_iff.1 hlt).1)
          refine n3 (FloatOrder.lt_iff.2 ⟨FloatOrder.trans (FloatOrder.lt_iff.1 hlt).1 e.2, fun hc => (FloatOrder.lt_iff.1 hlt).2 (FloatOrder.trans e.2 hc)⟩)

/-- C102, the values: `NonNegativity` and `Box` move every entry to the nearest number within the bounds, whether a matrix or a row is updated. -/
theorem C102_clip {m n : ℕ} (lo hi : Option K) (hlo : ∀ l ∈ lo, ¬ IsNaN l) (hhi : ∀ u ∈ hi, ¬ IsNaN u) (h : ∀ l ∈ lo, ∀ u ∈ hi, ¬ u < l) (ρ : K) :
    (∀ X Z : Mat K m n, (∃ Y, (ElemPen.box lo hi).mat X ρ Z = .ok Y ∧ ∀ i r, ClipsTo lo hi (X i r) (Y i r)) ∧
      ∃ Y, ElemPen.nonNeg.mat X ρ Z = .ok Y ∧ ∀ i r, ClipsTo (some 0) none (X i r) (Y i r)) ∧
    (∃ u, (ElemPen.box lo hi).row (n := n) = some u ∧ ∀ x z, ∃ y, u x ρ z = .ok y ∧ ∀ r, ClipsTo lo hi (x r) (y r)) ∧
    ∃ u, (ElemPen.nonNeg (K := K)).row (n := n) = some u ∧ ∀ x z, ∃ y, u x ρ z = .ok y ∧ ∀ r, ClipsTo (some 0) none (x r) (y r) := by
  have key : ∀ x : K, ClipsTo (some 0) none x (clipF (some 0) (some FloatConst.inf) x) := fun x => by
    have hz : ¬ IsNaN (0 : K) := FloatOrder.zero
    have hinf : (0 : K) ≤ FloatConst.inf := FloatConst.le_inf hz
    have := clipF_value (some 0) (some FloatConst.inf) (by rintro l ⟨⟩; exact hz) (by rintro l ⟨⟩; exact FloatOrder.right hinf)
      (by rintro l ⟨⟩ u ⟨⟩ hlt; exact (FloatOrder.lt_iff.1 hlt).2 hinf) x
    refine ⟨this.1, fun hx => ⟨fun h1 _ => (this.2 hx).1 h1 ?_, (this.2 hx).2.1, ?_⟩⟩
    · rintro u ⟨⟩; exact FloatConst.le_inf hx
    · intro u hu; cases hu
  refine ⟨fun X Z => ⟨⟨_, rfl, fun i r => clipF_value lo hi hlo hhi h _⟩, ⟨_, rfl, fun i r => key _⟩⟩, ⟨_, rfl, fun x z => ⟨_, rfl, fun r => clipF_value lo hi hlo hhi h _⟩⟩,
    ⟨_, rfl, fun x z => ⟨_, rfl, fun r => key _⟩⟩⟩

end

/-! ### A run in a small arithmetic -/

/-- The integers from -4 (as 0) to 4 (as 8), and NaN (`none`). 4 is infinity. -/
structure Tiny where
  val : Option (Fin 9)
  deriving DecidableEq

namespace Tiny

def toInt (k : Fin 9) : ℤ := (k : ℤ) - 4

/-- Results beyond the largest numbers are replaced by them. -/
def clamp (z : ℤ) : Tiny := ⟨some (Fin.ofNat 9 (max 0 (min 8 (z + 4))).toNat)⟩

def lift (f : ℤ → ℤ → Tiny) (x y : Tiny) : Tiny :=
  match x.val, y.val with
  | some a, some b => f (toInt a) (toInt b)
  | _, _ => ⟨none⟩

instance : Zero Tiny := ⟨clamp 0⟩
instance : One Tiny := ⟨clamp 1⟩
instance : Add Tiny := ⟨lift fun a b => clamp (a + b)⟩
instance : Sub Tiny := ⟨lift fun a b => clamp (a - b)⟩
instance : Mul Tiny := ⟨lift fun a b => clamp (a * b)⟩
/-- Quotients are truncated; division by zero gives NaN. -/
instance : Div Tiny := ⟨lift fun a b => if b = 0 then ⟨none⟩ else clamp (a.tdiv b)⟩
instance : Pow Tiny ℕ := ⟨fun x k => k.rec 1 fun _ r => r * x⟩

def cmp (f : ℤ → ℤ → Bool) (x y : Tiny) : Bool :=
  match x.val, y.val with
  | some a, some b => f (toInt a) (toInt b)
  | _, _ => false

instance : LE Tiny := ⟨fun x y => cmp (fun a b => decide (a ≤ b)) x y = true⟩
instance : LT Tiny := ⟨fun x y => cmp (fun a b => decide (a < b)) x y = true⟩
instance : DecidableLE Tiny := fun x y => inferInstanceAs (Decidable (cmp _ x y = true))
instance : DecidableLT Tiny := fun x y => inferInstanceAs (Decidable (cmp _ x y = true))

theorem laws : ∀ a b : Option (Fin 9), ((⟨a⟩ : Tiny) ≤ ⟨b⟩ → (⟨a⟩ : Tiny) ≤ ⟨a⟩ ∧ (⟨b⟩ : Tiny) ≤ ⟨b⟩) ∧
    ((⟨a⟩ : Tiny) ≤ ⟨a⟩ → (⟨b⟩ : Tiny) ≤ ⟨b⟩ → (⟨a⟩ : Tiny) ≤ ⟨b⟩ ∨ (⟨b⟩ : Tiny) ≤ ⟨a⟩) ∧
    ((⟨a⟩ : Tiny) < ⟨b⟩ ↔ (⟨a⟩ : Tiny) ≤ ⟨b⟩ ∧ ¬ (⟨b⟩ : Tiny) ≤ ⟨a⟩) ∧ ((⟨a⟩ : Tiny) ≤ ⟨a⟩ → (⟨a⟩ : Tiny) ≤ ⟨some 8⟩) := by
  decide +kernel

theorem laws_trans : ∀ a b c : Option (Fin 9), (⟨a⟩ : Tiny) ≤ ⟨b⟩ → (⟨b⟩ : Tiny) ≤ ⟨c⟩ → (⟨a⟩ : Tiny) ≤ ⟨c⟩ := by decide +kernel

theorem laws_sign : ∀ a b : Option (Fin 9), (0 ≤ (⟨a⟩ : Tiny) → 0 ≤ (⟨b⟩ : Tiny) → 0 ≤ (⟨a⟩ : Tiny) * ⟨b⟩) ∧
    (0 ≤ (⟨a⟩ : Tiny) → 0 < (⟨b⟩ : Tiny) → 0 ≤ (⟨a⟩ : Tiny) / ⟨b⟩) ∧ (¬ (⟨a⟩ : Tiny) ≤ ⟨a⟩ → ¬ (⟨a⟩ : Tiny) * ⟨b⟩ ≤ (⟨a⟩ : Tiny) * ⟨b⟩) ∧
    (¬ (⟨a⟩ : Tiny) ≤ ⟨a⟩ → ¬ (⟨a⟩ : Tiny) / ⟨b⟩ ≤ (⟨a⟩ : Tiny) / ⟨b⟩) ∧ (¬ (⟨b⟩ : Tiny) ≤ ⟨b⟩ → ¬ (⟨a⟩ : Tiny) / ⟨b⟩ ≤ (⟨a⟩ : Tiny) / ⟨b⟩) := by
  decide +kernel

instance : FloatOrder Tiny where
  left := fun {x y} h hn => hn ((laws x.val y.val).1 h).1
  right := fun {x y} h hn => hn ((laws x.val y.val).1 h).2
  trans := fun {x y z} h h' => laws_trans x.val y.val z.val h h'
  total := fun {x y} hx hy => (laws x.val y.val).2.1 (not_not.1 hx) (not_not.1 hy)
  lt_iff := fun {x y} => (laws x.val y.val).2.2.1
  zero := by unfold IsNaN; decide +kernel

instance : FloatConst Tiny where
  inf := ⟨some 8⟩
  nan := ⟨none⟩
  le_inf := fun {x} h => (laws x.val x.val).2.2.2 (not_not.1 h)
  nan_isNaN := by unfold IsNaN; decide +kernel

instance : FloatSign Tiny where
  mul_nonneg := fun {x y} h h' _ => (laws_sign x.val y.val).1 h h'
  div_nonneg := fun {x y} h h' _ => (laws_sign x.val y.val).2.1 h h'
  nan_mul := fun {x} y h => (laws_sign x.val y.val).2.2.1 h
  nan_div := fun {x} y h => (laws_sign x.val y.val).2.2.2.1 h
  div_nan := fun x {y} h => (laws_sign x.val y.val).2.2.2.2 h

end Tiny

/-- C102_clip applies: -3 and 4 are moved to the bounds -1 and 2, NaN is not moved. -/
example : (∃ Y, (ElemPen.box (some (Tiny.clamp (-1))) (some (Tiny.clamp 2))).mat (fun _ r => ![Tiny.clamp (-3), Tiny.clamp 4, ⟨none⟩] r : Mat Tiny 1 3) 1 (fun _ _ => 0) = .ok Y ∧
    EqF (Y 0 0) (Tiny.clamp (-1)) ∧ EqF (Y 0 1) (Tiny.clamp 2) ∧ IsNaN (Y 0 2)) := by
  have hn : ∀ k : ℤ, ¬ IsNaN (Tiny.clamp k) := fun k => not_not.2 (decide_eq_true (le_refl _))
  obtain ⟨Y, h1, h2⟩ := ((C102_clip (m := 1) (n := 3) (some (Tiny.clamp (-1))) (some (Tiny.clamp 2)) (by rintro l ⟨⟩; exact hn _) (by rintro l ⟨⟩; exact hn _)
    (by rintro l ⟨⟩ u ⟨⟩; decide +kernel) 1).1 (fun _ r => ![Tiny.clamp (-3), Tiny.clamp 4, ⟨none⟩] r) fun _ _ => 0).1
  refine ⟨Y, h1, ?_, ?_, ?_⟩
  · exact ((h2 0 0).2 (hn _)).2.1 _ rfl (by decide +kernel)
  · exact ((h2 0 1).2 (hn _)).2.2 _ rfl (by decide +kernel)
  · exact (h2 0 2).1 (by unfold IsNaN; decide +kernel)

/-- A problem with one matrix of size 1 × 3, rank 1: NonNegativity on mode 0, L2Ball with non-negativity on mode 1, Unimodality on mode 2. The linear systems have made-up
solutions. -/
def tinyEnv : Env Tiny Unit ℕ 1 3 1 1 1 1 fun _ => 1 where
  pensA _ := ElemPen.onA .nonNeg 1 1
  pensB _ := ElemPen.onB (.l2Ball (Tiny.clamp 2) true fun _ _ => Tiny.clamp 3) fun _ _ _ _ => 0
  pensC _ := ElemPen.onC (.unimodal false) 3 1
  prepA _ := .ok ((none, fun _ => 1), fun _ => .ok fun _ _ => Tiny.clamp (-3))
  prepB _ := .ok (fun _ => 1, fun d => .ok fun i j r => d 0 i j r + Tiny.clamp 4)
  prepC _ := .ok (1, fun d => .ok fun k r => d 0 k r + ![Tiny.clamp 2, Tiny.clamp (-1), Tiny.clamp 3] k)
  stopA _ _ := false
  stopB _ _ := false
  stopC _ _ := false
  observe m _ _ := .ok (m + 1, false)
  nInner := 2
  updA := true
  updB := true
  updC := true

def tinyStart : FState Tiny Unit 1 3 1 1 1 1 fun _ => 1 :=
  ⟨⟨none, 0, fun _ => 0, 0⟩, 0, 0, fun _ => .mats fun _ => 0, 0, 0, 0⟩

/-- What the call returns, as a test: two iterations are made, the factors of modes 0 and 2 and the auxiliary variables of all modes. -/
def tinyCheck : Bool :=
  match runF tinyEnv 2 0 tinyStart with
  | .error _ => false
  | .ok (m, s) => m == 2 && s.auxA 0 0 0 == Tiny.clamp 0 && s.F.A 0 0 == Tiny.clamp (-3) && (List.ofFn fun k => s.auxC 0 k 0) == [Tiny.clamp 4, Tiny.clamp 2, Tiny.clamp 2]

theorem tinyCheck_eq : tinyCheck = true := by decide +kernel

/-- C102 applies to it. -/
theorem C102_example : ∃ s', runF tinyEnv 2 0 tinyStart = .ok (2, s') ∧ SatF (s'.auxA 0) .nonNeg ∧ (∃ Z, s'.auxB 0 = .mats Z ∧ ∀ i, NonNegF (Z i)) ∧
    SatF (s'.auxC 0) (.unimodal false) ∧ s'.F.A 0 0 = Tiny.clamp (-3) ∧ s'.auxA 0 0 0 = 0 := by
  have hc := tinyCheck_eq
  unfold tinyCheck at hc
  cases hr : runF tinyEnv 2 0 tinyStart with
  | error e => rw [hr] at hc; cases hc
  | ok x =>
    obtain ⟨m, s⟩ := x
    rw [hr] at hc
    simp only [Bool.and_eq_true, beq_iff_eq] at hc
    obtain ⟨⟨⟨rfl, h1⟩, h2⟩, -⟩ := hc
    have hN : 0 < tinyEnv.nInner := by decide
    refine ⟨s, rfl, ?_, ?_, ?_, h2, h1⟩
    · exact (C102 tinyEnv hN (by decide) 0 2 tinyStart s hr .nonNeg trivial).1 rfl 0 rfl
    · obtain ⟨Z, h1, h2⟩ := (C102 tinyEnv hN (by decide) 0 2 tinyStart s hr (.l2Ball (Tiny.clamp 2) true fun _ _ => Tiny.clamp 3)
        fun _ => ⟨inferInstance, by decide⟩).2.1 rfl 0 (fun _ _ _ _ => 0) rfl
      exact ⟨Z, h1, fun i => h2 i rfl⟩
    · exact (C102 tinyEnv hN (by decide) 0 2 tinyStart s hr (.unimodal false) trivial).2.2 rfl 0 rfl

end Verif.Props
