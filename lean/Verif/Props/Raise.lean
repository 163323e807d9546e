import Verif.Raise.Lemmas
import Verif.Props.LoopSimplex
import Verif.Props.ADMMExamples

/-!
# C97, C98: penalties that raise, and UnitSimplex in a fit
-/

namespace Verif.Props

open Verif.Raise Verif.Loop Verif.ADMM Verif.Penalties Verif.Spec Finset

variable {I K R nA nB nC m n : ℕ} {J : Fin I → ℕ}

/-! ### Completions -/

/-- `p` does what `r` does wherever `r` returns, and has a row update if `r` has one. -/
structure CompletesA (r : RPenA I R) (p : PenA I R) : Prop where
  mat : ∀ Y ρ aux Z, r.mat Y ρ aux = .ok Z → p.mat Y ρ aux = Z
  row : (r.row = none ∧ p.row = none) ∨ ∃ u v, r.row = some u ∧ p.row = some v ∧ ∀ y ρ aux z, u y ρ aux = .ok z → v y ρ aux = z
  value : ∀ X v, r.value X = .ok v → p.value X = v

/-- The same for mode 1. -/
structure CompletesB (r : RPenB I R J) (p : PenB I R J) : Prop where
  update : ∀ Y ρ aux Z, r.update Y ρ aux = .ok Z → p.update Y ρ aux = Z
  value : ∀ X v, r.value X = .ok v → p.value X = v

/-- The same for mode 2. -/
structure CompletesC (r : RPenC K R) (p : PenC K R) : Prop where
  mat : ∀ Y ρ aux Z, r.mat Y ρ aux = .ok Z → p.mat Y ρ aux = Z
  value : ∀ X v, r.value X = .ok v → p.value X = v

/-- The same data and parameters, with penalties that always return. -/
def withPens (P : RProblem I K R nA nB nC J) (pensA : Fin nA → PenA I R) (pensB : Fin nB → PenB I R J) (pensC : Fin nC → PenC K R) : Problem I K R nA nB nC J :=
  ⟨P.X, pensA, pensB, pensC, P.l2, P.params, P.constA, P.constB, P.updA, P.updB, P.updC⟩

/-- Some method of a penalty raises `e`. -/
def PenaltyRaises (P : RProblem I K R nA nB nC J) (e : PyErr) : Prop :=
  (∃ p, (∃ Y ρ aux, (P.pensA p).mat Y ρ aux = .error e) ∨ (∃ u y ρ aux, (P.pensA p).row = some u ∧ u y ρ aux = .error e) ∨ ∃ X, (P.pensA p).value X = .error e) ∨
  (∃ p, (∃ Y ρ aux, (P.pensB p).update Y ρ aux = .error e) ∨ ∃ X, (P.pensB p).value X = .error e) ∨
  ∃ p, (∃ Y ρ aux, (P.pensC p).mat Y ρ aux = .error e) ∨ ∃ X, (P.pensC p).value X = .error e

theorem auxAR_ok {r : RPenA I R} {p : PenA I R} (h : CompletesA r p) {ρmax : Option ℝ} {ρ : Fin I → ℝ} {Y aux Z : Matrix (Fin I) (Fin R) ℝ}
    (hr : auxAR r ρmax ρ Y aux = .ok Z) : auxA p ρmax ρ Y aux = Z := by
  unfold auxAR at hr
  unfold auxA
  cases ρmax with
  | some m => exact h.mat _ _ _ _ hr
  | none =>
    rcases h.row with ⟨h1, h2⟩ | ⟨u, v, h1, h2, h3⟩
    · rw [h1] at hr
      rw [h2]
      have := seqPi_ok hr
      funext i
      cases this i
    · rw [h1] at hr
      rw [h2]
      funext i
      exact h3 _ _ _ _ (seqPi_ok hr i)

theorem auxAR_error {r : RPenA I R} {ρmax : Option ℝ} {ρ : Fin I → ℝ} {Y aux : Matrix (Fin I) (Fin R) ℝ} {e : PyErr} (hr : auxAR r ρmax ρ Y aux = .error e) :
    (∃ Y ρ aux, r.mat Y ρ aux = .error e) ∨ (∃ u y ρ aux, r.row = some u ∧ u y ρ aux = .error e) ∨
      (ρmax = none ∧ r.row = none ∧ 0 < I ∧ e = .attributeError) := by
  unfold auxAR at hr
  cases ρmax with
  | some m => exact .inl ⟨_, _, _, hr⟩
  | none =>
    cases h1 : r.row with
    | none =>
      rw [h1] at hr
      obtain ⟨i, hi, -⟩ := seqPi_error hr
      cases hi
      exact .inr (.inr ⟨rfl, rfl, Fin.pos i, rfl⟩)
    | some u =>
      rw [h1] at hr
      obtain ⟨i, hi, -⟩ := seqPi_error hr
      exact .inr (.inl ⟨u, _, _, _, rfl, hi⟩)

theorem stepAR_ok {pens : Fin n → RPenA I R} {pens' : Fin n → PenA I R} (h : ∀ p, CompletesA (pens p) (pens' p)) {ρmax : Option ℝ} {ρ : Fin I → ℝ}
    {svds : Fin I → SVD R R R} {rhs : Fin I → Fin R → ℝ} {s t : MatState I R n} (hr : stepAR pens ρmax ρ svds rhs s = .ok t) :
    stepA pens' ρmax ρ svds rhs s = t := by
  unfold stepAR at hr
  unfold stepA
  simp only at hr ⊢
  split at hr
  · cases hr
  · rename_i aux ha
    cases hr
    obtain rfl := funext fun p => (auxAR_ok (h p) (seqPi_ok ha p)).symm
    rfl

theorem stepAR_error {pens : Fin n → RPenA I R} {ρmax : Option ℝ} {ρ : Fin I → ℝ} {svds : Fin I → SVD R R R} {rhs : Fin I → Fin R → ℝ} {s : MatState I R n} {e : PyErr}
    (hr : stepAR pens ρmax ρ svds rhs s = .error e) :
    ∃ p, (∃ Y ρ aux, (pens p).mat Y ρ aux = .error e) ∨ (∃ u y ρ aux, (pens p).row = some u ∧ u y ρ aux = .error e) ∨
      (ρmax = none ∧ (pens p).row = none ∧ 0 < I ∧ e = .attributeError) := by
  unfold stepAR at hr
  simp only at hr
  split at hr
  · rename_i e' he
    cases hr
    obtain ⟨p, hp, -⟩ := seqPi_error he
    exact ⟨p, auxAR_error hp⟩
  · cases hr

theorem stepBR_ok {pens : Fin n → RPenB I R J} {pens' : Fin n → PenB I R J} (h : ∀ p, CompletesB (pens p) (pens' p)) {ρ : Fin I → ℝ}
    {svds : Fin I → SVD R R R} {rhs : Ragged I R J} {s t : RagState I R n J} (hr : stepBR pens ρ svds rhs s = .ok t) :
    stepB pens' ρ svds rhs s = t := by
  unfold stepBR at hr
  unfold stepB
  simp only at hr ⊢
  split at hr
  · cases hr
  · rename_i aux ha
    cases hr
    have e : (fun p => (pens' p).update (fun i => svdSolve (svds i) (ρ i • (∑ p, (s.aux p).subtract (s.dual p) i) + rhs i) + s.dual p i) ρ (s.aux p)) = aux :=
      funext fun p => (h p).update _ _ _ _ (seqPi_ok ha p)
    subst e
    rfl

theorem stepBR_error {pens : Fin n → RPenB I R J} {ρ : Fin I → ℝ} {svds : Fin I → SVD R R R} {rhs : Ragged I R J} {s : RagState I R n J} {e : PyErr}
    (hr : stepBR pens ρ svds rhs s = .error e) : ∃ p Y ρ aux, (pens p).update Y ρ aux = .error e := by
  unfold stepBR at hr
  simp only at hr
  split at hr
  · rename_i e' he
    cases hr
    obtain ⟨p, hp, -⟩ := seqPi_error he
    exact ⟨p, _, _, _, hp⟩
  · cases hr

theorem stepCR_ok {pens : Fin n → RPenC K R} {pens' : Fin n → PenC K R} (h : ∀ p, CompletesC (pens p) (pens' p)) {ρ : ℝ}
    {svd : SVD R R R} {rhs : Matrix (Fin K) (Fin R) ℝ} {s t : MatState K R n} (hr : stepCR pens ρ svd rhs s = .ok t) :
    stepC pens' ρ svd rhs s = t := by
  unfold stepCR at hr
  unfold stepC
  simp only at hr ⊢
  split at hr
  · cases hr
  · rename_i aux ha
    cases hr
    have e : (fun p => (pens' p).mat (svdSolve svd (ρ • (∑ p, (s.aux p - s.dual p)) + rhs) + s.dual p) ρ (s.aux p)) = aux :=
      funext fun p => (h p).mat _ _ _ _ (seqPi_ok ha p)
    subst e
    rfl

theorem stepCR_error {pens : Fin n → RPenC K R} {ρ : ℝ} {svd : SVD R R R} {rhs : Matrix (Fin K) (Fin R) ℝ} {s : MatState K R n} {e : PyErr}
    (hr : stepCR pens ρ svd rhs s = .error e) : ∃ p Y ρ aux, (pens p).mat Y ρ aux = .error e := by
  unfold stepCR at hr
  simp only at hr
  split at hr
  · rename_i e' he
    cases hr
    obtain ⟨p, hp, -⟩ := seqPi_error he
    exact ⟨p, _, _, _, hp⟩
  · cases hr

/-! ### The updates -/

theorem feasPenalties_fst {scale : ℝ} {constant : Bool} {G : Fin I → Matrix (Fin R) (Fin R) ℝ} {ρ : Option ℝ × (Fin I → ℝ)}
    (h : feasPenalties scale constant G = .ok ρ) : (ρ.1 = none ↔ constant = false) := by
  unfold feasPenalties at h
  cases constant with
  | false => cases h; simp
  | true =>
    simp only [if_true] at h
    cases hm : vecMax (List.ofFn fun i => feasPenalty scale (G i)) with
    | error e => rw [hm] at h; cases h
    | ok v => rw [hm] at h; cases h; simp

theorem updateAR_ok {P : Params R} {X : Ragged I K J} {pens : Fin n → RPenA I R} {pens' : Fin n → PenA I R} (hp : ∀ p, CompletesA (pens p) (pens' p)) {l2 : ℝ}
    {constant : Bool} {F : Factors I K R J} {aux dual : Fin n → Matrix (Fin I) (Fin R) ℝ} {t : MatState I R n}
    (h : admmUpdateAR P X pens l2 constant F aux dual = .ok t) : admmUpdateA P X pens' l2 constant F aux dual = .ok t := by
  unfold admmUpdateAR at h
  unfold admmUpdateA
  cases hf : feasPenalties P.scale constant (crossA F) with
  | error e => rw [hf] at h; cases h
  | ok ρ =>
    rw [hf] at h
    simp only at h
    simp only [Except.bind]
    rw [if_neg]
    · exact congrArg Except.ok (innerLoopR_ok (fun _ _ hs => stepAR_ok hp hs) h)
    · intro hc
      simp only [Bool.and_eq_true, Bool.not_eq_true', decide_eq_true_eq, List.any_eq_true, List.mem_ofFn] at hc
      obtain ⟨⟨⟨h1, h2⟩, h3⟩, q, ⟨p, rfl⟩, h4⟩ := hc
      obtain ⟨s₀, hs⟩ := innerLoopR_last h2 h
      unfold stepAR at hs
      simp only at hs
      split at hs
      · cases hs
      · rename_i x hx
        have hx := seqPi_ok hx p
        unfold auxAR at hx
        rw [(feasPenalties_fst hf).2 h1] at hx
        rcases (hp p).row with ⟨g1, -⟩ | ⟨u, v, -, g2, -⟩
        · rw [g1] at hx
          cases seqPi_ok hx ⟨0, h3⟩
        · rw [g2] at h4; cases h4

theorem updateAR_error {P : Params R} {X : Ragged I K J} {pens : Fin n → RPenA I R} {pens' : Fin n → PenA I R} (hp : ∀ p, CompletesA (pens p) (pens' p)) {l2 : ℝ}
    {constant : Bool} {F : Factors I K R J} {aux dual : Fin n → Matrix (Fin I) (Fin R) ℝ} {e : PyErr}
    (h : admmUpdateAR P X pens l2 constant F aux dual = .error e) : admmUpdateA P X pens' l2 constant F aux dual = .error e ∨
      ∃ p, (∃ Y ρ aux, (pens p).mat Y ρ aux = .error e) ∨ ∃ u y ρ aux, (pens p).row = some u ∧ u y ρ aux = .error e := by
  unfold admmUpdateAR at h
  unfold admmUpdateA
  cases hf : feasPenalties P.scale constant (crossA F) with
  | error e' => rw [hf] at h; cases h; exact .inl rfl
  | ok ρ =>
    rw [hf] at h
    simp only at h
    simp only [Except.bind]
    obtain ⟨hN, s, hs⟩ := innerLoopR_error h
    obtain ⟨p, h1 | h1 | ⟨h1, h2, h3, rfl⟩⟩ := stepAR_error hs
    · exact .inr ⟨p, .inl h1⟩
    · exact .inr ⟨p, .inr h1⟩
    · left
      rw [if_pos]
      simp only [Bool.and_eq_true, Bool.not_eq_true', decide_eq_true_eq, List.any_eq_true, List.mem_ofFn]
      refine ⟨⟨⟨(feasPenalties_fst hf).1 h1, hN⟩, h3⟩, pens' p, ⟨p, rfl⟩, ?_⟩
      rcases (hp p).row with ⟨-, g2⟩ | ⟨u, v, g1, -⟩
      · rw [g2]; rfl
      · rw [h2] at g1; cases g1

theorem updateBR_ok {P : Params R} {X : Ragged I K J} {pens : Fin n → RPenB I R J} {pens' : Fin n → PenB I R J} (hp : ∀ p, CompletesB (pens p) (pens' p)) {l2 : ℝ}
    {constant : Bool} {F : Factors I K R J} {aux : Fin n → AuxB I R J} {dual : Fin n → Ragged I R J} {t : RagState I R n J}
    (h : admmUpdateBR P X pens l2 constant F aux dual = .ok t) : admmUpdateB P X pens' l2 constant F aux dual = .ok t := by
  unfold admmUpdateBR at h
  unfold admmUpdateB
  cases hf : feasPenalties P.scale constant (crossB F) with
  | error e => rw [hf] at h; cases h
  | ok ρ =>
    rw [hf] at h
    exact congrArg Except.ok (innerLoopR_ok (fun _ _ hs => stepBR_ok hp hs) h)

theorem updateBR_error {P : Params R} {X : Ragged I K J} {pens : Fin n → RPenB I R J} {pens' : Fin n → PenB I R J} {l2 : ℝ}
    {constant : Bool} {F : Factors I K R J} {aux : Fin n → AuxB I R J} {dual : Fin n → Ragged I R J} {e : PyErr}
    (h : admmUpdateBR P X pens l2 constant F aux dual = .error e) : admmUpdateB P X pens' l2 constant F aux dual = .error e ∨
      ∃ p Y ρ aux, (pens p).update Y ρ aux = .error e := by
  unfold admmUpdateBR at h
  unfold admmUpdateB
  cases hf : feasPenalties P.scale constant (crossB F) with
  | error e' => rw [hf] at h; cases h; exact .inl rfl
  | ok ρ =>
    rw [hf] at h
    obtain ⟨-, s, hs⟩ := innerLoopR_error h
    exact .inr (stepBR_error hs)

theorem updateCR_ok {P : Params R} {X : Ragged I K J} {pens : Fin n → RPenC K R} {pens' : Fin n → PenC K R} (hp : ∀ p, CompletesC (pens p) (pens' p)) {l2 : ℝ}
    {F : Factors I K R J} {aux dual : Fin n → Matrix (Fin K) (Fin R) ℝ} {t : MatState K R n}
    (h : admmUpdateCR P X pens l2 F aux dual = .ok t) : admmUpdateC P X pens' l2 F aux dual = t :=
  innerLoopR_ok (fun _ _ hs => stepCR_ok hp hs) h

/-! ### A round -/

section
variable {P : RProblem I K R nA nB nC J} {pensA : Fin nA → PenA I R} {pensB : Fin nB → PenB I R J} {pensC : Fin nC → PenC K R}

theorem sweepBR_ok (hB : ∀ p, CompletesB (P.pensB p) (pensB p)) {s t : AOState I K R nA nB nC J} (h : sweepBR P s = .ok t) :
    sweepB (withPens P pensA pensB pensC) s = .ok t := by
  unfold sweepBR at h
  unfold sweepB
  by_cases hu : P.updB = true
  · rw [if_pos hu] at h
    rw [if_pos (show (withPens P pensA pensB pensC).updB = true from hu)]
    cases hw : admmUpdateBR P.params P.X P.pensB P.l2.2.1 P.constB s.F s.auxB s.dualB with
    | error e => rw [hw] at h; cases h
    | ok w =>
      rw [hw] at h
      have hw' := updateBR_ok hB hw
      simp only [withPens]
      rw [hw']
      exact h
  · rw [if_neg hu] at h
    rw [if_neg (show ¬ (withPens P pensA pensB pensC).updB = true from hu)]
    exact h

theorem sweepBR_error {s : AOState I K R nA nB nC J} {e : PyErr} (h : sweepBR P s = .error e) :
    sweepB (withPens P pensA pensB pensC) s = .error e ∨ ∃ p Y ρ aux, (P.pensB p).update Y ρ aux = .error e := by
  unfold sweepBR at h
  unfold sweepB
  by_cases hu : P.updB = true
  · rw [if_pos hu] at h
    rw [if_pos (show (withPens P pensA pensB pensC).updB = true from hu)]
    cases hw : admmUpdateBR P.params P.X P.pensB P.l2.2.1 P.constB s.F s.auxB s.dualB with
    | ok w => rw [hw] at h; cases h
    | error e' =>
      rw [hw] at h
      cases h
      rcases updateBR_error (pens' := pensB) hw with h1 | h1
      · simp only [withPens]
        rw [h1]
        exact .inl rfl
      · exact .inr h1
  · rw [if_neg hu] at h; cases h

theorem sweepCR_ok (hC : ∀ p, CompletesC (P.pensC p) (pensC p)) {s t : AOState I K R nA nB nC J} (h : sweepCR P s = .ok t) :
    sweepC (withPens P pensA pensB pensC) s = t := by
  unfold sweepCR at h
  unfold sweepC
  by_cases hu : P.updC = true
  · rw [if_pos hu] at h
    rw [if_pos (show (withPens P pensA pensB pensC).updC = true from hu)]
    cases hw : admmUpdateCR P.params P.X P.pensC P.l2.2.2 s.F s.auxC s.dualC with
    | error e => rw [hw] at h; cases h
    | ok w =>
      rw [hw] at h
      cases h
      have hw' := updateCR_ok hC hw
      simp only [withPens]
      rw [hw']
  · rw [if_neg hu] at h
    rw [if_neg (show ¬ (withPens P pensA pensB pensC).updC = true from hu)]
    cases h
    rfl

theorem sweepCR_error {s : AOState I K R nA nB nC J} {e : PyErr} (h : sweepCR P s = .error e) : ∃ p Y ρ aux, (P.pensC p).mat Y ρ aux = .error e := by
  unfold sweepCR at h
  by_cases hu : P.updC = true
  · rw [if_pos hu] at h
    cases hw : admmUpdateCR P.params P.X P.pensC P.l2.2.2 s.F s.auxC s.dualC with
    | ok w => rw [hw] at h; cases h
    | error e' =>
      rw [hw] at h
      cases h
      obtain ⟨-, s', hs⟩ := innerLoopR_error hw
      exact stepCR_error hs
  · rw [if_neg hu] at h; cases h

theorem sweepAR_ok (hA : ∀ p, CompletesA (P.pensA p) (pensA p)) {s : AOState I K R nA nB nC J} {r : AOState I K R nA nB nC J × Option (Inter I R)}
    (h : sweepAR P s = .ok r) : sweepA (withPens P pensA pensB pensC) s = .ok r := by
  unfold sweepAR at h
  unfold sweepA
  by_cases hu : P.updA = true
  · rw [if_pos hu] at h
    rw [if_pos (show (withPens P pensA pensB pensC).updA = true from hu)]
    cases hw : admmUpdateAR P.params P.X P.pensA P.l2.1 P.constA s.F s.auxA s.dualA with
    | error e => rw [hw] at h; cases h
    | ok w =>
      rw [hw] at h
      have hw' := updateAR_ok hA hw
      simp only [withPens]
      rw [hw']
      exact h
  · rw [if_neg hu] at h
    rw [if_neg (show ¬ (withPens P pensA pensB pensC).updA = true from hu)]
    exact h

theorem sweepAR_error (hA : ∀ p, CompletesA (P.pensA p) (pensA p)) {s : AOState I K R nA nB nC J} {e : PyErr} (h : sweepAR P s = .error e) :
    sweepA (withPens P pensA pensB pensC) s = .error e ∨
      ∃ p, (∃ Y ρ aux, (P.pensA p).mat Y ρ aux = .error e) ∨ ∃ u y ρ aux, (P.pensA p).row = some u ∧ u y ρ aux = .error e := by
  unfold sweepAR at h
  unfold sweepA
  by_cases hu : P.updA = true
  · rw [if_pos hu] at h
    rw [if_pos (show (withPens P pensA pensB pensC).updA = true from hu)]
    cases hw : admmUpdateAR P.params P.X P.pensA P.l2.1 P.constA s.F s.auxA s.dualA with
    | ok w => rw [hw] at h; cases h
    | error e' =>
      rw [hw] at h
      cases h
      rcases updateAR_error hA hw with h1 | h1
      · simp only [withPens]
        rw [h1]
        exact .inl rfl
      · exact .inr h1
  · rw [if_neg hu] at h; cases h

theorem sweepR_ok (hA : ∀ p, CompletesA (P.pensA p) (pensA p)) (hB : ∀ p, CompletesB (P.pensB p) (pensB p)) (hC : ∀ p, CompletesC (P.pensC p) (pensC p))
    {s : AOState I K R nA nB nC J} {r : AOState I K R nA nB nC J × Option (Inter I R)} (h : sweepR P s = .ok r) :
    sweep (withPens P pensA pensB pensC) s = .ok r := by
  unfold sweepR at h
  unfold sweep
  cases h1 : sweepBR P s with
  | error e => rw [h1] at h; cases h
  | ok t =>
    rw [h1] at h
    rw [sweepBR_ok hB h1]
    simp only [Except.bind] at h ⊢
    cases h2 : sweepCR P t with
    | error e => rw [h2] at h; cases h
    | ok u =>
      rw [h2] at h
      rw [sweepCR_ok hC h2]
      exact sweepAR_ok hA h

theorem sweepR_error (hA : ∀ p, CompletesA (P.pensA p) (pensA p)) (hB : ∀ p, CompletesB (P.pensB p) (pensB p)) (hC : ∀ p, CompletesC (P.pensC p) (pensC p))
    {s : AOState I K R nA nB nC J} {e : PyErr} (h : sweepR P s = .error e) :
    sweep (withPens P pensA pensB pensC) s = .error e ∨ PenaltyRaises P e := by
  unfold sweepR at h
  unfold sweep
  cases h1 : sweepBR P s with
  | error e' =>
    rw [h1] at h
    cases h
    rcases sweepBR_error (pensA := pensA) (pensB := pensB) (pensC := pensC) h1 with h2 | ⟨p, h2⟩
    · rw [h2]; exact .inl rfl
    · exact .inr (.inr (.inl ⟨p, .inl h2⟩))
  | ok t =>
    rw [h1] at h
    rw [sweepBR_ok hB h1]
    simp only [Except.bind] at h ⊢
    cases h2 : sweepCR P t with
    | error e' =>
      rw [h2] at h
      cases h
      obtain ⟨p, h3⟩ := sweepCR_error h2
      exact .inr (.inr (.inr ⟨p, .inl h3⟩))
    | ok u =>
      rw [h2] at h
      rw [sweepCR_ok hC h2]
      rcases sweepAR_error (pensB := pensB) (pensC := pensC) hA h with h3 | ⟨p, h3 | h3⟩
      · exact .inl h3
      · exact .inr (.inl ⟨p, .inl h3⟩)
      · exact .inr (.inl ⟨p, .inr (.inl h3)⟩)

theorem valuesR_ok (hA : ∀ p, CompletesA (P.pensA p) (pensA p)) (hB : ∀ p, CompletesB (P.pensB p) (pensB p)) (hC : ∀ p, CompletesC (P.pensC p) (pensC p))
    {F : Factors I K R J} {v : ℝ} (h : valuesR P F = .ok v) : v = ∑ p, (pensA p).value F.A + ∑ p, (pensB p).value F.B + ∑ p, (pensC p).value F.C := by
  unfold valuesR at h
  split at h
  · cases h
  · rename_i a ha
    split at h
    · cases h
    · rename_i b hb
      split at h
      · cases h
      · rename_i c hc
        cases h
        rw [sum_congr rfl fun p _ => (hA p).value _ _ (seqPi_ok ha p), sum_congr rfl fun p _ => (hB p).value _ _ (seqPi_ok hb p),
          sum_congr rfl fun p _ => (hC p).value _ _ (seqPi_ok hc p)]

theorem valuesR_error {F : Factors I K R J} {e : PyErr} (h : valuesR P F = .error e) : PenaltyRaises P e := by
  unfold valuesR at h
  split at h
  · rename_i e' ha
    cases h
    obtain ⟨p, hp, -⟩ := seqPi_error ha
    exact .inl ⟨p, .inr (.inr ⟨_, hp⟩)⟩
  · split at h
    · rename_i e' hb
      cases h
      obtain ⟨p, hp, -⟩ := seqPi_error hb
      exact .inr (.inl ⟨p, .inr ⟨_, hp⟩⟩)
    · split at h
      · rename_i e' hc
        cases h
        obtain ⟨p, hp, -⟩ := seqPi_error hc
        exact .inr (.inr ⟨p, .inr ⟨_, hp⟩⟩)
      · cases h

theorem aoOpsR_completes (hA : ∀ p, CompletesA (P.pensA p) (pensA p)) (hB : ∀ p, CompletesB (P.pensB p) (pensB p))
    (hC : ∀ p, CompletesC (P.pensC p) (pensC p)) : (aoOpsR P).Completes (aoOps (withPens P pensA pensB pensC)) where
  sweep _ _ h := sweepR_ok hA hB hC h
  gaps := rfl
  relError := rfl
  penalty s v h := by
    simp only [aoOpsR] at h
    cases hv : valuesR P s.F with
    | error e => rw [hv] at h; cases h
    | ok w =>
      rw [hv] at h
      cases h
      rw [valuesR_ok hA hB hC hv]
      rfl

theorem penaltyR_error {s : AOState I K R nA nB nC J} {e : PyErr} (h : (aoOpsR P).penalty s = .error e) : PenaltyRaises P e := by
  simp only [aoOpsR] at h
  cases hv : valuesR P s.F with
  | ok w => rw [hv] at h; cases h
  | error e' => rw [hv] at h; cases h; exact valuesR_error hv

end

/-! ### C97 -/

/-- C97. `pensA`, `pensB`, `pensC` are any penalties that always return and agree with those of `P` wherever these return. If the call returns, it returns what it returns with
them, so a method that raised was never asked. If it raises, the exception is raised by the call with them too, or by a method of a penalty of `P`: for the loss of the
initial factors, in round `t + 1`, or for the loss after it, in a state that the call with total penalties also reaches after `t` rounds. -/
theorem C97 (P : RProblem I K R nA nB nC J) (pensA : Fin nA → PenA I R) (pensB : Fin nB → PenB I R J) (pensC : Fin nC → PenC K R)
    (hA : ∀ p, CompletesA (P.pensA p) (pensA p)) (hB : ∀ p, CompletesB (P.pensB p) (pensB p)) (hC : ∀ p, CompletesC (P.pensC p) (pensC p))
    (a : Args) (init : AOState I K R nA nB nC J) :
    (∀ out, cmfAoadmmR P a init = .ok out → cmfAoadmm (withPens P pensA pensB pensC) a init = .ok out) ∧
    (∀ e, cmfAoadmmR P a init = .error e → cmfAoadmm (withPens P pensA pensB pensC) a init = .error e ∨
      (PenaltyRaises P e ∧ ((aoOpsR P).penalty init = .error e ∨ ∃ t : ℕ, (t : ℤ) < a.nIterMax ∧ ∃ s, sweeps (aoOps (withPens P pensA pensB pensC)) t init = .ok s ∧
        (sweepR P s = .error e ∨ ∃ u i, sweepR P s = .ok (u, i) ∧ (aoOpsR P).penalty u = .error e)))) ∧
    ((∀ e, ¬ PenaltyRaises P e) → cmfAoadmmR P a init = cmfAoadmm (withPens P pensA pensB pensC) a init) := by
  have hc := aoOpsR_completes hA hB hC
  have h1 : ∀ out, cmfAoadmmR P a init = .ok out → cmfAoadmm (withPens P pensA pensB pensC) a init = .ok out := fun out h => fitR_ok hc h
  have h2 : ∀ e, cmfAoadmmR P a init = .error e → cmfAoadmm (withPens P pensA pensB pensC) a init = .error e ∨
      (PenaltyRaises P e ∧ ((aoOpsR P).penalty init = .error e ∨ ∃ t : ℕ, (t : ℤ) < a.nIterMax ∧ ∃ s, sweeps (aoOps (withPens P pensA pensB pensC)) t init = .ok s ∧
        (sweepR P s = .error e ∨ ∃ u i, sweepR P s = .ok (u, i) ∧ (aoOpsR P).penalty u = .error e))) := by
    intro e h
    rcases fitR_error hc h with g | g | ⟨t, ht, s, hs, ⟨g, g'⟩ | ⟨u, i, g, g'⟩⟩
    · exact .inl g
    · exact .inr ⟨penaltyR_error g, .inl g⟩
    · refine .inr ⟨(sweepR_error hA hB hC g).resolve_left g', .inr ⟨t, ht, s, hs, .inl g⟩⟩
    · exact .inr ⟨penaltyR_error g', .inr ⟨t, ht, s, hs, .inr ⟨u, i, g, g'⟩⟩⟩
  refine ⟨h1, h2, fun hn => ?_⟩
  cases h : cmfAoadmmR P a init with
  | ok out => exact (h1 out h).symm
  | error e =>
    rcases h2 e h with g | ⟨g, -⟩
    · exact g.symm
    · exact absurd g (hn e)

/-- C97, exceptions are not swallowed: the value of a penalty that raises for the initial factors ends the call with its exception, if the values of the penalties before
it (mode 0, then 1, then 2) return. No iterations are needed for this. -/
theorem C97_value (P : RProblem I K R nA nB nC J) (a : Args) (init : AOState I K R nA nB nC J) (e : PyErr) :
    (∀ p, (P.pensA p).value init.F.A = .error e → (∀ q < p, ∃ v, (P.pensA q).value init.F.A = .ok v) → cmfAoadmmR P a init = .error e) ∧
    ((∀ q, ∃ v, (P.pensA q).value init.F.A = .ok v) →
      (∀ p, (P.pensB p).value init.F.B = .error e → (∀ q < p, ∃ v, (P.pensB q).value init.F.B = .ok v) → cmfAoadmmR P a init = .error e) ∧
      ((∀ q, ∃ v, (P.pensB q).value init.F.B = .ok v) →
        ∀ p, (P.pensC p).value init.F.C = .error e → (∀ q < p, ∃ v, (P.pensC q).value init.F.C = .ok v) → cmfAoadmmR P a init = .error e)) := by
  have hv : valuesR P init.F = .error e → cmfAoadmmR P a init = .error e := fun h => by
    unfold cmfAoadmmR fitR
    have : (aoOpsR P).penalty init = .error e := by
      simp only [aoOpsR]
      rw [h]
      rfl
    rw [this]
  refine ⟨fun p hp hq => hv ?_, fun hA => ⟨fun p hp hq => hv ?_, fun hB p hp hq => hv ?_⟩⟩
  · unfold valuesR
    rw [seqPi_of_error hp hq]
  · choose x hx using hA
    unfold valuesR
    rw [seqPi_of_ok hx]
    simp only
    rw [seqPi_of_error hp hq]
  · choose x hx using hA
    choose y hy using hB
    unfold valuesR
    rw [seqPi_of_ok hx]
    simp only
    rw [seqPi_of_ok hy]
    simp only
    rw [seqPi_of_error hp hq]

/-! ### C98 -/

theorem stepAR_last {pens : Fin n → RPenA I R} {ρmax : Option ℝ} {ρ : Fin I → ℝ} {svds : Fin I → SVD R R R} {rhs : Fin I → Fin R → ℝ} {s t : MatState I R n}
    (h : stepAR pens ρmax ρ svds rhs s = .ok t) (p : Fin n) : auxAR (pens p) ρmax ρ (t.aux p + t.dual p) (s.aux p) = .ok (t.aux p) := by
  unfold stepAR at h
  simp only at h
  split at h
  · cases h
  · rename_i aux ha
    cases h
    have := seqPi_ok ha p
    simp only
    rw [← this]
    congr 1
    exact (show ∀ x y d : Matrix (Fin I) (Fin R) ℝ, y + (x - (y - d)) = x + d from fun x y d => by abel) _ _ _

theorem stepBR_last {pens : Fin n → RPenB I R J} {ρ : Fin I → ℝ} {svds : Fin I → SVD R R R} {rhs : Ragged I R J} {s t : RagState I R n J}
    (h : stepBR pens ρ svds rhs s = .ok t) (p : Fin n) : (pens p).update (fun i => (t.aux p).toMats i + t.dual p i) ρ (s.aux p) = .ok (t.aux p) := by
  unfold stepBR at h
  simp only at h
  split at h
  · cases h
  · rename_i aux ha
    cases h
    have := seqPi_ok ha p
    simp only
    rw [← this]
    congr 1
    funext i
    have e : (aux p).subtract (s.dual p) i = (aux p).toMats i - s.dual p i := by
      cases aux p <;> rfl
    rw [e]
    abel

theorem stepCR_last {pens : Fin n → RPenC K R} {ρ : ℝ} {svd : SVD R R R} {rhs : Matrix (Fin K) (Fin R) ℝ} {s t : MatState K R n}
    (h : stepCR pens ρ svd rhs s = .ok t) (p : Fin n) : (pens p).mat (t.aux p + t.dual p) ρ (s.aux p) = .ok (t.aux p) := by
  unfold stepCR at h
  simp only at h
  split at h
  · cases h
  · rename_i aux ha
    cases h
    have := seqPi_ok ha p
    simp only
    rw [← this]
    congr 1
    abel

/-- The auxiliary variables are results of the updates of their penalties, applied to the sum of the auxiliary and the dual variable. On mode 0 the update is that of the whole
matrix with a constant feasibility penalty, otherwise that of every row. -/
structure Updated (P : RProblem I K R nA nB nC J) (s : AOState I K R nA nB nC J) : Prop where
  A : ∀ p, (P.constA = true → ∃ ρ old, (P.pensA p).mat (s.auxA p + s.dualA p) ρ old = .ok (s.auxA p)) ∧
    (P.constA = false → 0 < I → ∃ u, (P.pensA p).row = some u ∧ ∃ (ρ : Fin I → ℝ) (old : Fin I → Fin R → ℝ), ∀ i, u ((s.auxA p + s.dualA p) i) (ρ i) (old i) = .ok (s.auxA p i))
  B : ∀ p, ∃ ρ old, (P.pensB p).update (fun i => (s.auxB p).toMats i + s.dualB p i) ρ old = .ok (s.auxB p)
  C : ∀ p, ∃ ρ old, (P.pensC p).mat (s.auxC p + s.dualC p) ρ old = .ok (s.auxC p)

theorem sweepR_updated {P : RProblem I K R nA nB nC J} (hN : 0 < P.params.nInner)
    (hupd : (0 < nA → P.updA = true) ∧ (0 < nB → P.updB = true) ∧ (0 < nC → P.updC = true))
    {s t : AOState I K R nA nB nC J} {i : Option (Inter I R)} (h : sweepR P s = .ok (t, i)) : Updated P t := by
  unfold sweepR at h
  cases h1 : sweepBR P s with
  | error e => rw [h1] at h; cases h
  | ok u =>
    rw [h1] at h
    simp only at h
    cases h2 : sweepCR P u with
    | error e => rw [h2] at h; cases h
    | ok v =>
      rw [h2] at h
      simp only at h
      have hB : ∀ p, ∃ ρ old, (P.pensB p).update (fun i => (u.auxB p).toMats i + u.dualB p i) ρ old = .ok (u.auxB p) := by
        intro p
        unfold sweepBR at h1
        rw [if_pos (hupd.2.1 (Fin.pos p))] at h1
        unfold admmUpdateBR at h1
        cases hf : feasPenalties P.params.scale P.constB (crossB s.F) with
        | error e => rw [hf] at h1; cases h1
        | ok ρ =>
          rw [hf] at h1
          simp only at h1
          cases hw : innerLoopR (stepBR P.pensB ρ.2 (fun i => P.params.svd (addRidge (crossB s.F i) (ρ.2 i) nB P.l2.2.1)) (rhsB P.X s.F)) (ragStop P.params.innerTol)
              P.params.nInner ⟨s.F.B, s.auxB, s.dualB⟩ with
          | error e => rw [hw] at h1; cases h1
          | ok w =>
            rw [hw] at h1
            cases h1
            obtain ⟨s', hs⟩ := innerLoopR_last hN hw
            exact ⟨_, _, stepBR_last hs p⟩
      have hC : (v.auxB = u.auxB ∧ v.dualB = u.dualB) ∧ ∀ p, ∃ ρ old, (P.pensC p).mat (v.auxC p + v.dualC p) ρ old = .ok (v.auxC p) := by
        unfold sweepCR at h2
        by_cases hu : P.updC = true
        · rw [if_pos hu] at h2
          cases hw : admmUpdateCR P.params P.X P.pensC P.l2.2.2 u.F u.auxC u.dualC with
          | error e => rw [hw] at h2; cases h2
          | ok w =>
            rw [hw] at h2
            cases h2
            obtain ⟨s', hs⟩ := innerLoopR_last hN hw
            exact ⟨⟨rfl, rfl⟩, fun p => ⟨_, _, stepCR_last hs p⟩⟩
        · rw [if_neg hu] at h2
          cases h2
          exact ⟨⟨rfl, rfl⟩, fun p => absurd (hupd.2.2 (Fin.pos p)) hu⟩
      have hA : (t.auxB = v.auxB ∧ t.dualB = v.dualB) ∧ (t.auxC = v.auxC ∧ t.dualC = v.dualC) ∧
          ∀ p, (P.constA = true → ∃ ρ old, (P.pensA p).mat (t.auxA p + t.dualA p) ρ old = .ok (t.auxA p)) ∧
            (P.constA = false → 0 < I → ∃ u, (P.pensA p).row = some u ∧ ∃ (ρ : Fin I → ℝ) (old : Fin I → Fin R → ℝ),
              ∀ i, u ((t.auxA p + t.dualA p) i) (ρ i) (old i) = .ok (t.auxA p i)) := by
        unfold sweepAR at h
        by_cases hu : P.updA = true
        · rw [if_pos hu] at h
          unfold admmUpdateAR at h
          cases hf : feasPenalties P.params.scale P.constA (crossA v.F) with
          | error e => rw [hf] at h; cases h
          | ok ρ =>
            rw [hf] at h
            simp only at h
            cases hw : innerLoopR (stepAR P.pensA ρ.1 ρ.2 (fun i => P.params.svd (addRidge (crossA v.F i) (ρ.2 i) nA P.l2.1)) (rhsA P.X v.F))
                (matStop P.params.innerTol) P.params.nInner ⟨v.F.A, v.auxA, v.dualA⟩ with
            | error e => rw [hw] at h; cases h
            | ok w =>
              rw [hw] at h
              cases h
              obtain ⟨s', hs⟩ := innerLoopR_last hN hw
              refine ⟨⟨rfl, rfl⟩, ⟨rfl, rfl⟩, fun p => ?_⟩
              have hp := stepAR_last hs p
              have hρ := feasPenalties_fst hf
              unfold auxAR at hp
              refine ⟨fun hc => ?_, fun hc hI => ?_⟩
              · cases hρ1 : ρ.1 with
                | none => rw [hρ.1 hρ1] at hc; cases hc
                | some m => rw [hρ1] at hp; exact ⟨_, _, hp⟩
              · rw [hρ.2 hc] at hp
                cases hr : (P.pensA p).row with
                | none =>
                  rw [hr] at hp
                  cases seqPi_ok hp ⟨0, hI⟩
                | some u =>
                  rw [hr] at hp
                  exact ⟨u, rfl, _, _, seqPi_ok hp⟩
        · rw [if_neg hu] at h
          cases h
          exact ⟨⟨rfl, rfl⟩, ⟨rfl, rfl⟩, fun p => absurd (hupd.1 (Fin.pos p)) hu⟩
      refine ⟨hA.2.2, fun p => ?_, fun p => ?_⟩
      · rw [hA.1.1, hA.1.2, hC.1.1, hC.1.2]; exact hB p
      · rw [hA.2.1.1, hA.2.1.2]; exact hC.2 p

/-- C98: after a call that returns, the auxiliary variables are updates of the sums of the returned auxiliary and dual variables. -/
theorem C98 (P : RProblem I K R nA nB nC J) (hN : 0 < P.params.nInner)
    (hupd : (0 < nA → P.updA = true) ∧ (0 < nB → P.updB = true) ∧ (0 < nC → P.updC = true)) (a : Args) (hn : 0 < a.nIterMax)
    (init : AOState I K R nA nB nC J) (out : Output (AOState I K R nA nB nC J)) (h : cmfAoadmmR P a init = .ok out) : Updated P out.st := by
  obtain ⟨l, hl, -, hlen⟩ := fit_hist (fitR_ok (completes_self (aoOpsR P)) h)
  generalize out.st = x at hl
  cases hl with
  | zero => have := hlen hn; simp at this
  | snoc _ hsw => exact sweepR_updated hN hupd hsw

/-- C98 for UnitSimplex: the columns of the auxiliary variables are non-negative and, entrywise, within the tolerance of the root finder of the projection of the sum of the
returned auxiliary and dual variable onto the simplex, where `b` bounds the entries of this sum. Nothing is assumed about the inputs of the updates. -/
theorem C98_simplex (P : RProblem I K R nA nB nC J) (hN : 0 < P.params.nInner)
    (hupd : (0 < nA → P.updA = true) ∧ (0 < nB → P.updB = true) ∧ (0 < nC → P.updC = true)) (a : Args) (hn : 0 < a.nIterMax)
    (init : AOState I K R nA nB nC J) (out : Output (AOState I K R nA nB nC J)) (h : cmfAoadmmR P a init = .ok out) (b : ℝ) :
    (∀ p, 0 < I → P.pensA p = simplexRA I R → (∀ i r, |out.st.auxA p i r + out.st.dualA p i r| ≤ b) → P.constA = true ∧ (∀ i r, 0 ≤ out.st.auxA p i r) ∧
      ∃ Z, IsProj (SimplexSet I R) (out.st.auxA p + out.st.dualA p) Z ∧ ∀ i r, |out.st.auxA p i r - Z i r| ≤ simplexTol b) ∧
    (∀ p i, 0 < J i → P.pensB p = simplexRB I R J → (∀ j r, |(out.st.auxB p).toMats i j r + out.st.dualB p i j r| ≤ b) →
      (∀ j r, 0 ≤ (out.st.auxB p).toMats i j r) ∧
      ∃ Z, IsProj (SimplexSet (J i) R) ((out.st.auxB p).toMats i + out.st.dualB p i) Z ∧ ∀ j r, |(out.st.auxB p).toMats i j r - Z j r| ≤ simplexTol b) ∧
    ∀ p, 0 < K → P.pensC p = simplexRC K R → (∀ k r, |out.st.auxC p k r + out.st.dualC p k r| ≤ b) → (∀ k r, 0 ≤ out.st.auxC p k r) ∧
      ∃ Z, IsProj (SimplexSet K R) (out.st.auxC p + out.st.dualC p) Z ∧ ∀ k r, |out.st.auxC p k r - Z k r| ≤ simplexTol b := by
  have hU := C98 P hN hupd a hn init out h
  refine ⟨fun p hI hp hb => ?_, fun p i hJ hp hb => ?_, fun p hK hp hb => ?_⟩
  · have hc : P.constA = true := by
      cases hc : P.constA with
      | true => rfl
      | false =>
        obtain ⟨u, hu, -⟩ := (hU.A p).2 hc hI
        rw [hp] at hu
        cases hu
    obtain ⟨ρ, old, h1⟩ := (hU.A p).1 hc
    rw [hp] at h1
    obtain ⟨g1, -, g2⟩ := C19_accuracy hI _ _ h1 b hb
    exact ⟨hc, g1, g2⟩
  · obtain ⟨ρ, old, h1⟩ := hU.B p
    rw [hp] at h1
    simp only [simplexRB, RPenB.ofMat] at h1
    split at h1
    · cases h1
    · rename_i Z hZ
      have e : out.st.auxB p = .mats Z := (Except.ok.inj h1).symm
      have hZ := seqPi_ok hZ i
      rw [e] at hZ hb ⊢
      obtain ⟨g1, -, g2⟩ := C19_accuracy hJ _ _ hZ b hb
      exact ⟨g1, g2⟩
  · obtain ⟨ρ, old, h1⟩ := hU.C p
    rw [hp] at h1
    obtain ⟨g1, -, g2⟩ := C19_accuracy hK _ _ h1 b hb
    exact ⟨g1, g2⟩

/-- C98 and C39 for UnitSimplex: if the diagnostics report that the feasibility condition is satisfied and the factors are nonzero, every factor with a UnitSimplex penalty is
within `feasibility_tol` times its norm of a matrix that is close to the simplex, where `b` bounds the entries of the returned auxiliary plus dual variables. -/
theorem C98_certificate (P : RProblem I K R nA nB nC J) (hN : 0 < P.params.nInner)
    (hupd : (0 < nA → P.updA = true) ∧ (0 < nB → P.updB = true) ∧ (0 < nC → P.updC = true)) (a : Args) (hn : 0 < a.nIterMax)
    (init : AOState I K R nA nB nC J) (out : Output (AOState I K R nA nB nC J)) (h : cmfAoadmmR P a init = .ok out) (t : ℝ) (ht : IsSet a.feasTol t)
    (d : Diagnostics) (hd : out.diag = some d) (hf : d.feasible = some true) (hnz : NonzeroFactors out.st) (b : ℝ) :
    (∀ p, 0 < I → P.pensA p = simplexRA I R → (∀ i r, |out.st.auxA p i r + out.st.dualA p i r| ≤ b) →
      ∃ Z ∈ NearSimplex b I R, √(sqNorm (out.st.F.A - Z)) < t * √(sqNorm out.st.F.A)) ∧
    (∀ p, (∀ i, 0 < J i) → P.pensB p = simplexRB I R J → (∀ i j r, |(out.st.auxB p).toMats i j r + out.st.dualB p i j r| ≤ b) →
      ∃ Z : Ragged I R J, (∀ i, Z i ∈ NearSimplex b (J i) R) ∧ √(raggedSq (out.st.F.B - Z)) < t * √(raggedSq out.st.F.B)) ∧
    ∀ p, 0 < K → P.pensC p = simplexRC K R → (∀ k r, |out.st.auxC p k r + out.st.dualC p k r| ≤ b) →
      ∃ Z ∈ NearSimplex b K R, √(sqNorm (out.st.F.C - Z)) < t * √(sqNorm out.st.F.C) := by
  have hg : GapsBelow t out.st := by
    obtain ⟨s, -, hst, hdiag⟩ := fit_ok (fitR_ok (completes_self (aoOpsR P)) h)
    rw [hd] at hdiag
    split at hdiag
    · obtain rfl := Option.some.inj hdiag
      simp only [diagnostics] at hf
      rw [if_pos (truthy_iff.2 ⟨t, ht⟩), ht.getD] at hf
      rw [← checkFeasibility_iff hnz, hst]
      exact Option.some.inj hf
    · cases hdiag
  obtain ⟨h1, h2, h3⟩ := C98_simplex P hN hupd a hn init out h b
  refine ⟨fun p hI hp hb => ?_, fun p hJ hp hb => ?_, fun p hK hp hb => ?_⟩
  · obtain ⟨-, g1, Z, g2, g3⟩ := h1 p hI hp hb
    exact ⟨_, ⟨g1, Z, g2.1, g3⟩, hg.1 p⟩
  · refine ⟨_, fun i => ?_, hg.2.1 p⟩
    obtain ⟨g1, Z, g2, g3⟩ := h2 p i (hJ i) hp (hb i)
    exact ⟨g1, Z, g2.1, g3⟩
  · obtain ⟨g1, Z, g2, g3⟩ := h3 p hK hp hb
    exact ⟨_, ⟨g1, Z, g2.1, g3⟩, hg.2.2 p⟩

/-! ### A fit with UnitSimplex that returns, and one that raises -/

/-- One 1 × 2 matrix with entries 0 and `-3/2 c`; UnitSimplex on mode 2, which alone is updated. -/
noncomputable def simplexProblem (prm : Params 1) (c : ℝ) : RProblem 1 2 1 0 0 1 (fun _ => 1) :=
  ⟨fun _ => !![0, -(3 / 2) * c], Fin.elim0, Fin.elim0, fun _ => simplexRC 2 1, (0, 0, 0), prm, true, true, false, false, true⟩

/-- Factors 1, auxiliary and dual variables 0. -/
def simplexStart : AOState 1 2 1 0 0 1 (fun _ => 1) :=
  ⟨none, ⟨!![1], fun _ => !![1], !![1; 1]⟩, Fin.elim0, Fin.elim0, Fin.elim0, Fin.elim0, fun _ => 0, fun _ => 0⟩

theorem simplexProblem_step {prm : Params 1} (hP : ValidSVD prm) (hN : prm.nInner = 1) (hs : prm.scale = 1) (c : ℝ) :
    (∀ Z, simplexMat (!![0; -c] : Matrix (Fin 2) (Fin 1) ℝ) = .ok Z → ∃ t, sweepR (simplexProblem prm c) simplexStart = .ok (t, none)) ∧
    ∀ e, simplexMat (!![0; -c] : Matrix (Fin 2) (Fin 1) ℝ) = .error e → sweepR (simplexProblem prm c) simplexStart = .error e := by
  have hG : crossC simplexStart.F = !![1] := by
    ext i j
    fin_cases i; fin_cases j
    simp [crossC, scaledB, simplexStart, Matrix.mul_apply]
  have hρ : feasPenalty prm.scale (crossC simplexStart.F) = 1 / 2 := by
    rw [hG, hs]; simp [feasPenalty, Matrix.trace]
  have hL : addRidge (crossC simplexStart.F) (1 / 2) 1 0 = !![3 / 2] := by
    rw [hG]
    ext i j
    fin_cases i; fin_cases j
    simp [addRidge]; norm_num
  have hR : rhsC (simplexProblem prm c).X simplexStart.F = !![0; -(3 / 2) * c] := by
    ext i j
    fin_cases j
    fin_cases i <;> simp [rhsC, scaledB, simplexStart, simplexProblem, Matrix.mul_apply]
  have hx : svdSolve (prm.svd !![3 / 2]) (!![0; -(3 / 2) * c] : Matrix (Fin 2) (Fin 1) ℝ) = !![0; -c] := by
    have hu : IsUnit (!![3 / 2] : Matrix (Fin 1) (Fin 1) ℝ) := by
      rw [Matrix.isUnit_iff_isUnit_det]; simp
    have h1 := svdSolve_mul (hP !![3 / 2]) (by ext i j; fin_cases i; fin_cases j; rfl) (svd_ne_zero (hP !![3 / 2]) hu) (!![0; -(3 / 2) * c] : Matrix (Fin 2) (Fin 1) ℝ)
    ext i j
    fin_cases j
    have h2 := congrFun (congrFun h1 i) 0
    rw [Matrix.mul_apply] at h2
    fin_cases i <;> simp at h2 ⊢ <;> linarith
  have hstep : sweepCR (simplexProblem prm c) simplexStart = match simplexMat (!![0; -c] : Matrix (Fin 2) (Fin 1) ℝ) with
      | .error e => .error e
      | .ok Z => .ok { simplexStart with weights := none, F := ⟨simplexStart.F.A, simplexStart.F.B, !![0; -c]⟩, auxC := fun _ => Z, dualC := fun _ => !![0; -c] - Z } := by
    have hin : svdSolve (prm.svd !![3 / 2]) ((1 / 2 : ℝ) • (∑ p : Fin 1, (simplexStart.auxC p - simplexStart.dualC p)) + !![0; -(3 / 2) * c]) = !![0; -c] := by
      rw [← hx]; congr 1; simp [simplexStart]
    unfold sweepCR
    rw [if_pos (show (simplexProblem prm c).updC = true from rfl)]
    unfold admmUpdateCR
    simp only
    rw [show (simplexProblem prm c).params = prm from rfl, hN, hρ, show (simplexProblem prm c).l2.2.2 = 0 from rfl, hL, hR]
    simp only [innerLoopR]
    have hst : stepCR (simplexProblem prm c).pensC (1 / 2) (prm.svd !![3 / 2]) !![0; -(3 / 2) * c] ⟨simplexStart.F.C, simplexStart.auxC, simplexStart.dualC⟩ =
        match simplexMat (!![0; -c] : Matrix (Fin 2) (Fin 1) ℝ) with
        | .error e => .error e
        | .ok Z => .ok ⟨!![0; -c], fun _ => Z, fun _ => !![0; -c] - Z⟩ := by
      unfold stepCR
      simp only
      rw [hin]
      have h0 : ∀ p, (!![0; -c] : Matrix (Fin 2) (Fin 1) ℝ) + simplexStart.dualC p = !![0; -c] := fun p => by simp [simplexStart]
      cases hZ : simplexMat (!![0; -c] : Matrix (Fin 2) (Fin 1) ℝ) with
      | error e =>
        rw [seqPi_of_error (i := 0) (e := e) (by rw [h0]; exact hZ) fun j hj => absurd hj (Fin.not_lt_zero j)]
      | ok Z =>
        rw [seqPi_of_ok (g := fun _ => Z) fun p => by rw [h0]; exact hZ]
        simp [simplexStart]
    rw [hst]
    cases simplexMat (!![0; -c] : Matrix (Fin 2) (Fin 1) ℝ) with
    | error e => rfl
    | ok Z => simp only [ite_self]; rfl
  have hsw : ∀ s, sweepAR (simplexProblem prm c) s = .ok (s, none) := fun s => if_neg (by simp [simplexProblem])
  have hsb : sweepBR (simplexProblem prm c) simplexStart = .ok simplexStart := if_neg (by simp [simplexProblem])
  refine ⟨fun Z hZ => ?_, fun e he => ?_⟩
  · unfold sweepR
    rw [hsb]
    simp only
    rw [hstep, hZ]
    exact ⟨_, hsw _⟩
  · unfold sweepR
    rw [hsb]
    simp only
    rw [hstep, he]

theorem simplexProblem_value (prm : Params 1) (c : ℝ) : ∃ v, (aoOpsR (simplexProblem prm c)).penalty simplexStart = .ok v := by
  have : ∃ v, valuesR (simplexProblem prm c) simplexStart.F = .ok v := by
    unfold valuesR
    rw [seqPi_of_ok (n := 0) (g := fun _ => (0 : ℝ)) fun p => p.elim0]
    simp only
    rw [seqPi_of_ok (n := 0) (g := fun _ => (0 : ℝ)) fun p => p.elim0]
    simp only
    rw [seqPi_of_ok (n := 1) (f := fun p => ((simplexProblem prm c).pensC p).value simplexStart.F.C) (g := fun _ => (0 : ℝ)) fun p => rfl]
    exact ⟨_, rfl⟩
  obtain ⟨v, hv⟩ := this
  simp only [aoOpsR, hv]
  exact ⟨_, rfl⟩

/-- A case of C97 and C98: with data (0, -3/2) the call returns after a round with UnitSimplex on mode 2, and C98 applies to it. -/
theorem C98_example : ∃ (prm : Params 1) (out : Output _), ValidSVD prm ∧ cmfAoadmmR (simplexProblem prm 1) (plain 1) simplexStart = .ok out ∧
    Updated (simplexProblem prm 1) out.st := by
  obtain ⟨prm, hP, hN, -, hs⟩ := exists_params 1 1 none 1
  obtain ⟨Z, hZ⟩ := C19_never_fails_partial (by norm_num) (!![0; -1] : Matrix (Fin 2) (Fin 1) ℝ) fun i r => by
    fin_cases r
    fin_cases i <;> norm_num
  obtain ⟨t, ht⟩ := (simplexProblem_step hP hN hs 1).1 Z hZ
  have h : ∃ out, cmfAoadmmR (simplexProblem prm 1) (plain 1) simplexStart = .ok out := by
    obtain ⟨v, hv⟩ := simplexProblem_value prm 1
    unfold cmfAoadmmR fitR
    rw [hv]
    simp only [show (plain 1).nIterMax.toNat = 1 from rfl]
    unfold runR bodyR
    simp only [ROps.base, initAcc]
    rw [show (aoOpsR (simplexProblem prm 1)).sweep simplexStart = .ok (t, none) from ht]
    simp only [show (truthy (plain 1).tol || truthy (plain 1).absTol || (plain 1).returnErrors) = false from rfl]
    exact ⟨_, rfl⟩
  obtain ⟨out, h⟩ := h
  exact ⟨prm, out, hP, h, C98 _ (by rw [show (simplexProblem prm 1).params = prm from rfl, hN]; exact one_pos)
    ⟨fun h => absurd h (lt_irrefl 0), fun h => absurd h (lt_irrefl 0), fun _ => rfl⟩ _ (by norm_num [plain]) _ out h⟩

/-- A case of C97: with data (0, -3/2 · 10^31) the same call ends with the RuntimeError of the root finder. -/
theorem C97_raises : ∃ prm : Params 1, ValidSVD prm ∧ cmfAoadmmR (simplexProblem prm (10 ^ 31)) (plain 1) simplexStart = .error .runtimeError := by
  obtain ⟨prm, hP, hN, -, hs⟩ := exists_params 1 1 none 1
  have ht := (simplexProblem_step hP hN hs (10 ^ 31)).2 .runtimeError (by
    rw [← simplexMat_huge]
    congr 1
    ext i r
    fin_cases r
    fin_cases i <;> simp [hugeCol])
  refine ⟨prm, hP, ?_⟩
  obtain ⟨v, hv⟩ := simplexProblem_value prm (10 ^ 31)
  unfold cmfAoadmmR fitR
  rw [hv]
  simp only [show (plain 1).nIterMax.toNat = 1 from rfl]
  unfold runR bodyR
  simp only [ROps.base, initAcc]
  rw [show (aoOpsR (simplexProblem prm (10 ^ 31))).sweep simplexStart = .error .runtimeError from ht]

end Verif.Props
