import Verif.ADMM.Contracts

/-!
# C27, C28, C34: the factor updates
-/

namespace Verif.Props

open Verif.ADMM Verif.Penalties Verif.Spec Finset Matrix

variable {I K R n : ℕ} {J : Fin I → ℕ}

/-- The SVD function returns a valid decomposition of every matrix. -/
def ValidSVD (P : Params R) : Prop := ∀ G, (P.svd G).Valid G

/-! ### Unfolding a successful call -/

theorem admmUpdateA_ok {P : Params R} {X : Ragged I K J} {pens : Fin n → PenA I R} {l2 : ℝ} {constant : Bool}
    {F : Factors I K R J} {aux dual : Fin n → Matrix (Fin I) (Fin R) ℝ} {s : MatState I R n}
    (h : admmUpdateA P X pens l2 constant F aux dual = .ok s) :
    ∃ o ρ, IsWeights constant (weightA P.scale F) ρ ∧
      (constant = false → o = none) ∧ (constant = true → ∃ m, o = some m ∧ ∀ i, ρ i = m) ∧
      (constant = false → 0 < P.nInner → 0 < I → ∀ p, (pens p).row.isSome) ∧
      s = innerLoop (stepA pens o ρ (fun i => P.svd (addRidge (crossA F i) (ρ i) n l2)) (rhsA X F))
        (matStop P.innerTol) P.nInner ⟨F.A, aux, dual⟩ := by
  unfold admmUpdateA at h
  cases hf : feasPenalties P.scale constant (crossA F) with
  | error e => rw [hf] at h; cases h
  | ok oρ =>
    obtain ⟨o, ρ⟩ := oρ
    rw [hf] at h
    simp only [Except.bind] at h
    have hspec := feasPenalties_ok hf
    simp only [feasPenalty_A] at hspec
    split at h
    · cases h
    · rename_i hc
      cases h
      refine ⟨o, ρ, hspec.1, hspec.2.1, hspec.2.2, fun h1 h2 h3 p => ?_, rfl⟩
      subst h1
      simp only [Bool.not_false, h2, h3, decide_true, Bool.and_self, Bool.true_and, List.any_eq_true, not_exists, not_and] at hc
      have := hc (pens p) (by simp)
      cases hp : (pens p).row <;> simp_all

theorem admmUpdateB_ok {P : Params R} {X : Ragged I K J} {pens : Fin n → PenB I R J} {l2 : ℝ} {constant : Bool}
    {F : Factors I K R J} {aux : Fin n → AuxB I R J} {dual : Fin n → Ragged I R J} {s : RagState I R n J}
    (h : admmUpdateB P X pens l2 constant F aux dual = .ok s) :
    ∃ ρ, IsWeights constant (weightB P.scale F) ρ ∧
      s = innerLoop (stepB pens ρ (fun i => P.svd (addRidge (crossB F i) (ρ i) n l2)) (rhsB X F))
        (ragStop P.innerTol) P.nInner ⟨F.B, aux, dual⟩ := by
  unfold admmUpdateB at h
  cases hf : feasPenalties P.scale constant (crossB F) with
  | error e => rw [hf] at h; cases h
  | ok oρ =>
    obtain ⟨o, ρ⟩ := oρ
    rw [hf] at h
    simp only [Except.bind] at h
    have hspec := feasPenalties_ok hf
    simp only [feasPenalty_B] at hspec
    cases h
    exact ⟨ρ, hspec.1, rfl⟩

theorem admmUpdateC_eq (P : Params R) (X : Ragged I K J) (pens : Fin n → PenC K R) (l2 : ℝ)
    (F : Factors I K R J) (aux dual : Fin n → Matrix (Fin K) (Fin R) ℝ) :
    admmUpdateC P X pens l2 F aux dual =
      innerLoop (stepC pens (weightC P.scale F) (P.svd (addRidge (crossC F) (weightC P.scale F) n l2)) (rhsC X F))
        (matStop P.innerTol) P.nInner ⟨F.C, aux, dual⟩ := by
  unfold admmUpdateC
  rw [feasPenalty_C]

theorem weightA_nonneg {scale : ℝ} (h : 0 ≤ scale) (F : Factors I K R J) (i : Fin I) : 0 ≤ weightA scale F i := by
  unfold weightA
  have : 0 ≤ ∑ r, ∑ j, ∑ k, (F.B i j r * F.C k r) ^ 2 :=
    sum_nonneg fun _ _ => sum_nonneg fun _ _ => sum_nonneg fun _ _ => sq_nonneg _
  positivity

theorem weightB_nonneg {scale : ℝ} (h : 0 ≤ scale) (F : Factors I K R J) (i : Fin I) : 0 ≤ weightB scale F i := by
  unfold weightB
  have : 0 ≤ ∑ r, ∑ k, (F.C k r * F.A i r) ^ 2 := sum_nonneg fun _ _ => sum_nonneg fun _ _ => sq_nonneg _
  positivity

theorem weightC_nonneg {scale : ℝ} (h : 0 ≤ scale) (F : Factors I K R J) : 0 ≤ weightC scale F := by
  unfold weightC
  have : 0 ≤ ∑ r, ∑ i, ∑ j, (F.B i j r * F.A i r) ^ 2 :=
    sum_nonneg fun _ _ => sum_nonneg fun _ _ => sum_nonneg fun _ _ => sq_nonneg _
  positivity

/-! ### C27 -/

/-- C27, mode 0: without penalties, any positive number of inner iterations returns the unique minimiser over `A`. -/
theorem C27_A (P : Params R) (hsvd : ValidSVD P) (hN : 0 < P.nInner) (X : Ragged I K J) (l : ℝ × ℝ × ℝ)
    (constant : Bool) (F : Factors I K R J) (pens : Fin 0 → PenA I R) (aux dual : Fin 0 → Matrix (Fin I) (Fin R) ℝ)
    (hsol : SolvableA F l.1) (s : MatState I R 0) (h : admmUpdateA P X pens l.1 constant F aux dual = .ok s)
    (Y : Matrix (Fin I) (Fin R) ℝ) (hY : Y ≠ s.x) :
    ridgeObj X l ⟨s.x, F.B, F.C⟩ < ridgeObj X l ⟨Y, F.B, F.C⟩ := by
  obtain ⟨o, ρ, -, -, -, -, rfl⟩ := admmUpdateA_ok h
  obtain ⟨s₀, hs⟩ := innerLoop_last (stepA pens o ρ (fun i => P.svd (addRidge (crossA F i) (ρ i) 0 l.1)) (rhsA X F))
    (matStop P.innerTol) P.nInner ⟨F.A, aux, dual⟩ hN
  rw [hs] at hY ⊢
  have hu : ∀ i, IsUnit (addRidge (crossA F i) (ρ i) 0 l.1) := fun i => by
    rw [crossA_eq, addRidge]
    refine isUnit_gram _ (solvableA_design hsol i) (by simp)
  have hexp := stepA_expand X F l.1 pens o ρ (fun i => P.svd (addRidge (crossA F i) (ρ i) 0 l.1)) (fun i => hsvd _) hu s₀ Y
  simp only [univ_eq_empty, sum_empty, add_zero] at hexp
  set x := (stepA pens o ρ (fun i => P.svd (addRidge (crossA F i) (ρ i) 0 l.1)) (rhsA X F) s₀).x
  have hq : 0 < quadA F l.1 (Y - x) := by
    have hc := fun i => curvature_pos (designA F i) (solvableA_design hsol i) (rowMat ((Y - x) i))
    obtain ⟨i, hi⟩ : ∃ i, rowMat ((Y - x) i) ≠ 0 := by
      by_contra hc
      push Not at hc
      exact hY (by ext i r; exact sub_eq_zero.1 (congrFun (congrFun (hc i) 0) r))
    exact sum_pos' (fun i _ => (hc i).1) ⟨i, mem_univ i, (hc i).2 hi⟩
  simp only [ridgeObj]
  linarith

/-- C27, mode 1. -/
theorem C27_B (P : Params R) (hsvd : ValidSVD P) (hN : 0 < P.nInner) (X : Ragged I K J) (l : ℝ × ℝ × ℝ)
    (constant : Bool) (F : Factors I K R J) (pens : Fin 0 → PenB I R J) (aux : Fin 0 → AuxB I R J) (dual : Fin 0 → Ragged I R J)
    (hsol : SolvableB F l.2.1) (s : RagState I R 0 J) (h : admmUpdateB P X pens l.2.1 constant F aux dual = .ok s)
    (Y : Ragged I R J) (hY : Y ≠ s.x) :
    ridgeObj X l ⟨F.A, s.x, F.C⟩ < ridgeObj X l ⟨F.A, Y, F.C⟩ := by
  obtain ⟨ρ, -, rfl⟩ := admmUpdateB_ok h
  obtain ⟨s₀, hs⟩ := innerLoop_last (stepB pens ρ (fun i => P.svd (addRidge (crossB F i) (ρ i) 0 l.2.1)) (rhsB X F))
    (ragStop P.innerTol) P.nInner ⟨F.B, aux, dual⟩ hN
  rw [hs] at hY ⊢
  have hu : ∀ i, IsUnit (addRidge (crossB F i) (ρ i) 0 l.2.1) := fun i => by
    rw [crossB_eq, addRidge]
    refine isUnit_gram _ (solvableB_design hsol i) (by simp)
  have hexp := stepB_expand X F l.2.1 pens ρ (fun i => P.svd (addRidge (crossB F i) (ρ i) 0 l.2.1)) (fun i => hsvd _) hu s₀ Y
  simp only [univ_eq_empty, sum_empty, add_zero] at hexp
  set x := (stepB pens ρ (fun i => P.svd (addRidge (crossB F i) (ρ i) 0 l.2.1)) (rhsB X F) s₀).x
  have hq : 0 < quadB F l.2.1 (Y - x) := by
    have hc := fun i => curvature_pos (designB F i) (solvableB_design hsol i) ((Y - x) i)
    obtain ⟨i, hi⟩ : ∃ i, (Y - x) i ≠ 0 := by
      by_contra hc
      push Not at hc
      exact hY (funext fun i => sub_eq_zero.1 (hc i))
    exact sum_pos' (fun i _ => (hc i).1) ⟨i, mem_univ i, (hc i).2 hi⟩
  simp only [ridgeObj]
  linarith

/-- C27, mode 2. -/
theorem C27_C (P : Params R) (hsvd : ValidSVD P) (hN : 0 < P.nInner) (X : Ragged I K J) (l : ℝ × ℝ × ℝ)
    (F : Factors I K R J) (pens : Fin 0 → PenC K R) (aux dual : Fin 0 → Matrix (Fin K) (Fin R) ℝ)
    (hsol : SolvableC F l.2.2) (Y : Matrix (Fin K) (Fin R) ℝ) (hY : Y ≠ (admmUpdateC P X pens l.2.2 F aux dual).x) :
    ridgeObj X l ⟨F.A, F.B, (admmUpdateC P X pens l.2.2 F aux dual).x⟩ < ridgeObj X l ⟨F.A, F.B, Y⟩ := by
  rw [admmUpdateC_eq] at hY ⊢
  obtain ⟨s₀, hs⟩ := innerLoop_last (stepC pens (weightC P.scale F) (P.svd (addRidge (crossC F) (weightC P.scale F) 0 l.2.2)) (rhsC X F))
    (matStop P.innerTol) P.nInner ⟨F.C, aux, dual⟩ hN
  rw [hs] at hY ⊢
  have hu : IsUnit (addRidge (crossC F) (weightC P.scale F) 0 l.2.2) := by
    rw [crossC_eq, addRidge]
    refine isUnit_gram _ (solvableC_design hsol) (by simp)
  have hexp := stepC_expand X F l.2.2 pens (weightC P.scale F) _ (hsvd _) hu s₀ Y
  simp only [univ_eq_empty, sum_empty, add_zero] at hexp
  set x := (stepC pens (weightC P.scale F) (P.svd (addRidge (crossC F) (weightC P.scale F) 0 l.2.2)) (rhsC X F) s₀).x
  have hq : 0 < quadC F l.2.2 (Y - x) := (curvature_pos (designC F) (solvableC_design hsol) (Y - x)).2 (sub_ne_zero.2 hY)
  simp only [ridgeObj]
  linarith

/-! ### C28 -/

theorem quadA_nonneg (F : Factors I K R J) {l2 : ℝ} (hl : 0 ≤ l2) (V : Matrix (Fin I) (Fin R) ℝ) : 0 ≤ quadA F l2 V :=
  sum_nonneg fun i _ => add_nonneg (mul_nonneg (by norm_num) (sqNorm_nonneg _)) (mul_nonneg (by linarith) (sqNorm_nonneg _))

theorem quadB_nonneg (F : Factors I K R J) {l2 : ℝ} (hl : 0 ≤ l2) (V : Ragged I R J) : 0 ≤ quadB F l2 V :=
  sum_nonneg fun i _ => add_nonneg (mul_nonneg (by norm_num) (sqNorm_nonneg _)) (mul_nonneg (by linarith) (sqNorm_nonneg _))

theorem quadC_nonneg (F : Factors I K R J) {l2 : ℝ} (hl : 0 ≤ l2) (V : Matrix (Fin K) (Fin R) ℝ) : 0 ≤ quadC F l2 V :=
  add_nonneg (mul_nonneg (by norm_num) (sqNorm_nonneg _)) (mul_nonneg (by linarith) (sqNorm_nonneg _))

/-- C28, mode 0: one inner iteration. With the feasibility penalties `ρ` in use, the new factor is the unique minimiser of the augmented
Lagrangian, every auxiliary variable is the proximal point of its penalty, the dual variables add up the gaps. -/
theorem C28_A (P : Params R) (hsvd : ValidSVD P) (hN : P.nInner = 1) (X : Ragged I K J) {l2 : ℝ} (hl : 0 ≤ l2)
    (constant : Bool) (F : Factors I K R J) (pens : Fin n → PenA I R) (aux dual : Fin n → Matrix (Fin I) (Fin R) ℝ)
    (hn : 0 < n) (hw : ∀ i, 0 < weightA P.scale F i) (s : MatState I R n)
    (h : admmUpdateA P X pens l2 constant F aux dual = .ok s) :
    ∃ ρ, IsWeights constant (weightA P.scale F) ρ ∧
      (∀ Y, Y ≠ s.x → augA X l2 F ρ aux dual s.x < augA X l2 F ρ aux dual Y) ∧
      (∀ p C g, (pens p).ProxOf C g → IsProxRows C g ρ (s.x + dual p) (s.aux p)) ∧
      ∀ p, s.dual p = dual p + (s.x - s.aux p) := by
  obtain ⟨o, ρ, hρ, ho1, ho2, hrow, rfl⟩ := admmUpdateA_ok h
  rw [hN, innerLoop_one]
  have hpos := hρ.pos hw
  refine ⟨ρ, hρ, fun Y hY => ?_, fun p C g hp => ?_, fun p => ?_⟩
  · have hu : ∀ i, IsUnit (addRidge (crossA F i) (ρ i) n l2) := fun i => by
      rw [crossA_eq]
      exact isUnit_system _ (hpos i).le hl (.inl ⟨hn, hpos i⟩)
    have hexp := stepA_expand X F l2 pens o ρ (fun i => P.svd (addRidge (crossA F i) (ρ i) n l2)) (fun i => hsvd _) hu
      ⟨F.A, aux, dual⟩ Y
    set x := (stepA pens o ρ (fun i => P.svd (addRidge (crossA F i) (ρ i) n l2)) (rhsA X F) ⟨F.A, aux, dual⟩).x
    have hq := quadA_nonneg F hl (Y - x)
    have hsplit : ∀ p, ∑ i, ρ i / 2 * ∑ r, (Y i r - (aux p i r - dual p i r)) ^ 2
        = ∑ i, ρ i / 2 * ∑ r, (x i r - (aux p i r - dual p i r)) ^ 2
          - ∑ i, ρ i * ∑ r, (aux p - dual p - x) i r * (Y - x) i r + ∑ i, ρ i / 2 * ∑ r, (Y i r - x i r) ^ 2 := by
      intro p
      rw [← sum_sub_distrib, ← sum_add_distrib]
      refine sum_congr rfl fun i _ => ?_
      simp only [mul_sum]
      rw [← sum_sub_distrib, ← sum_add_distrib]
      refine sum_congr rfl fun r _ => ?_
      simp only [Matrix.sub_apply]
      ring
    have hpos2 : 0 < ∑ i, ρ i / 2 * ∑ r, (Y i r - x i r) ^ 2 := by
      obtain ⟨i, r, hir⟩ : ∃ i r, Y i r ≠ x i r := by
        by_contra hc
        push Not at hc
        exact hY (by ext i r; exact hc i r)
      refine sum_pos' (fun i _ => mul_nonneg (by linarith [hpos i]) (sum_nonneg fun _ _ => sq_nonneg _)) ⟨i, mem_univ i, ?_⟩
      refine mul_pos (by linarith [hpos i]) (sum_pos' (fun _ _ => sq_nonneg _) ⟨r, mem_univ r, ?_⟩)
      exact (sq_nonneg _).lt_of_ne' (pow_ne_zero 2 (sub_ne_zero.2 hir))
    have hn' : (0 : ℝ) < n := by exact_mod_cast hn
    simp only [augA, hsplit, sum_add_distrib, sum_sub_distrib, sum_const, card_univ, Fintype.card_fin, nsmul_eq_mul]
    have := mul_pos hn' hpos2
    simp only at hexp
    linarith
  · refine auxA_prox hp hpos ?_ _ _
    cases constant with
    | false =>
      refine .inl ⟨ho1 rfl, ?_⟩
      rcases Nat.eq_zero_or_pos I with h0 | hI
      · exact .inr h0
      · exact .inl (hrow rfl (by omega) hI p)
    | true =>
      obtain ⟨m, h1, h2⟩ := ho2 rfl
      rcases Nat.eq_zero_or_pos I with h0 | hI
      · subst h0
        obtain ⟨i, -⟩ := hρ.2 rfl
        exact i.elim0
      · exact .inr ⟨m, h2 ⟨0, hI⟩ ▸ hpos _, h1, h2⟩
  · have e : ∀ a b c : Matrix (Fin I) (Fin R) ℝ, a - (b - c) = c + (a - b) := fun a b c => by abel
    exact e _ _ _

/-- C28, mode 1. The auxiliary variable may have any representation; `PARAFAC2` gets the shifted factors (see C24 for its update). -/
theorem C28_B (P : Params R) (hsvd : ValidSVD P) (hN : P.nInner = 1) (X : Ragged I K J) {l2 : ℝ} (hl : 0 ≤ l2)
    (constant : Bool) (F : Factors I K R J) (pens : Fin n → PenB I R J) (aux : Fin n → AuxB I R J) (dual : Fin n → Ragged I R J)
    (hn : 0 < n) (hw : ∀ i, 0 < weightB P.scale F i) (s : RagState I R n J)
    (h : admmUpdateB P X pens l2 constant F aux dual = .ok s) :
    ∃ ρ, IsWeights constant (weightB P.scale F) ρ ∧
      (∀ Y, Y ≠ s.x → augB X l2 F ρ (fun p => (aux p).toMats) dual s.x < augB X l2 F ρ (fun p => (aux p).toMats) dual Y) ∧
      (∀ p, s.aux p = (pens p).update (fun i => s.x i + dual p i) ρ (aux p)) ∧
      (∀ p C g, (pens p).ProxOf C g → IsProxRag C g ρ (fun i => s.x i + dual p i) (s.aux p).toMats) ∧
      ∀ p i, s.dual p i = dual p i + (s.x i - (s.aux p).toMats i) := by
  obtain ⟨ρ, hρ, rfl⟩ := admmUpdateB_ok h
  rw [hN, innerLoop_one]
  have hpos := hρ.pos hw
  refine ⟨ρ, hρ, fun Y hY => ?_, fun p => rfl, fun p C g hp => hp ρ hpos _ _, fun p i => ?_⟩
  · have hu : ∀ i, IsUnit (addRidge (crossB F i) (ρ i) n l2) := fun i => by
      rw [crossB_eq]
      exact isUnit_system _ (hpos i).le hl (.inl ⟨hn, hpos i⟩)
    have hexp := stepB_expand X F l2 pens ρ (fun i => P.svd (addRidge (crossB F i) (ρ i) n l2)) (fun i => hsvd _) hu
      ⟨F.B, aux, dual⟩ Y
    set x := (stepB pens ρ (fun i => P.svd (addRidge (crossB F i) (ρ i) n l2)) (rhsB X F) ⟨F.B, aux, dual⟩).x
    have hq := quadB_nonneg F hl (Y - x)
    have hsplit : ∀ p, ∑ i, ρ i / 2 * frobSq (Y i) ((aux p).toMats i - dual p i)
        = ∑ i, ρ i / 2 * frobSq (x i) ((aux p).toMats i - dual p i)
          - ∑ i, ρ i * inner ((aux p).toMats i - dual p i - x i) (Y i - x i) + ∑ i, ρ i / 2 * frobSq (Y i) (x i) := by
      intro p
      rw [← sum_sub_distrib, ← sum_add_distrib]
      refine sum_congr rfl fun i _ => ?_
      simp only [frobSq, inner, mul_sum]
      rw [← sum_sub_distrib, ← sum_add_distrib]
      refine sum_congr rfl fun j _ => ?_
      rw [← sum_sub_distrib, ← sum_add_distrib]
      refine sum_congr rfl fun r _ => ?_
      simp only [Matrix.sub_apply]
      ring
    have hpos2 : 0 < ∑ i, ρ i / 2 * frobSq (Y i) (x i) := by
      obtain ⟨i, hi⟩ : ∃ i, Y i ≠ x i := by
        by_contra hc
        push Not at hc
        exact hY (funext hc)
      exact sum_pos' (fun i _ => mul_nonneg (by linarith [hpos i]) (frobSq_nonneg _ _)) ⟨i, mem_univ i,
        mul_pos (by linarith [hpos i]) (frobSq_pos hi)⟩
    have hn' : (0 : ℝ) < n := by exact_mod_cast hn
    simp only [augB, hsplit, sum_add_distrib, sum_sub_distrib, sum_const, card_univ, Fintype.card_fin, nsmul_eq_mul]
    have := mul_pos hn' hpos2
    simp only at hexp
    linarith
  · have hsub : ∀ (a : AuxB I R J) (d : Ragged I R J), a.subtract d i = a.toMats i - d i := fun a d => by cases a <;> rfl
    simp only [stepB, hsub]
    abel

/-- C28, mode 2. -/
theorem C28_C (P : Params R) (hsvd : ValidSVD P) (hN : P.nInner = 1) (X : Ragged I K J) {l2 : ℝ} (hl : 0 ≤ l2)
    (F : Factors I K R J) (pens : Fin n → PenC K R) (aux dual : Fin n → Matrix (Fin K) (Fin R) ℝ)
    (hn : 0 < n) (hw : 0 < weightC P.scale F) (s : MatState K R n)
    (h : admmUpdateC P X pens l2 F aux dual = s) :
    (∀ Y, Y ≠ s.x → augC X l2 F (weightC P.scale F) aux dual s.x < augC X l2 F (weightC P.scale F) aux dual Y) ∧
      (∀ p C g, (pens p).ProxOf C g → IsProxRows C g (fun _ => weightC P.scale F) (s.x + dual p) (s.aux p)) ∧
      ∀ p, s.dual p = dual p + (s.x - s.aux p) := by
  rw [admmUpdateC_eq, hN, innerLoop_one] at h
  subst h
  refine ⟨fun Y hY => ?_, fun p C g hp => hp _ hw _ _, fun p => ?_⟩
  · have hu : IsUnit (addRidge (crossC F) (weightC P.scale F) n l2) := by
      rw [crossC_eq]
      exact isUnit_system _ hw.le hl (.inl ⟨hn, hw⟩)
    have hexp := stepC_expand X F l2 pens (weightC P.scale F) _ (hsvd _) hu ⟨F.C, aux, dual⟩ Y
    set x := (stepC pens (weightC P.scale F) (P.svd (addRidge (crossC F) (weightC P.scale F) n l2)) (rhsC X F) ⟨F.C, aux, dual⟩).x
    have hq := quadC_nonneg F hl (Y - x)
    set ρ := weightC P.scale F
    have hsplit : ∀ p, ρ / 2 * frobSq Y (aux p - dual p)
        = ρ / 2 * frobSq x (aux p - dual p)
          - ∑ k, ρ * ∑ r, (aux p - dual p - x) k r * (Y - x) k r + ρ / 2 * frobSq Y x := by
      intro p
      simp only [frobSq, mul_sum]
      rw [← sum_sub_distrib, ← sum_add_distrib]
      refine sum_congr rfl fun j _ => ?_
      rw [← sum_sub_distrib, ← sum_add_distrib]
      refine sum_congr rfl fun r _ => ?_
      simp only [Matrix.sub_apply]
      ring
    have hpos2 : 0 < ρ / 2 * frobSq Y x := mul_pos (by linarith) (frobSq_pos hY)
    have hn' : (0 : ℝ) < n := by exact_mod_cast hn
    simp only [augC, hsplit, sum_add_distrib, sum_sub_distrib, sum_const, card_univ, Fintype.card_fin, nsmul_eq_mul]
    have := mul_pos hn' hpos2
    simp only at hexp
    linarith
  · have e : ∀ a b c : Matrix (Fin K) (Fin R) ℝ, a - (b - c) = c + (a - b) := fun a b c => by abel
    exact e _ _ _

/-! ### C34 -/

/-- The numbers `admm_update_A` divides by in the system for row `i`, when the feasibility penalty of that row is `ρ`. -/
noncomputable def divisorsA (P : Params R) (F : Factors I K R J) (ρ : ℝ) (n : ℕ) (l2 : ℝ) (i : Fin I) : Fin R → ℝ :=
  (P.svd (addRidge (crossA F i) ρ n l2)).s

/-- The numbers `admm_update_B` divides by. -/
noncomputable def divisorsB (P : Params R) (F : Factors I K R J) (ρ : ℝ) (n : ℕ) (l2 : ℝ) (i : Fin I) : Fin R → ℝ :=
  (P.svd (addRidge (crossB F i) ρ n l2)).s

/-- The numbers `admm_update_C` divides by. -/
noncomputable def divisorsC (P : Params R) (F : Factors I K R J) (n : ℕ) (l2 : ℝ) : Fin R → ℝ :=
  (P.svd (addRidge (crossC F) (weightC P.scale F) n l2)).s

/-- The divisors are all nonzero exactly when the (ridge) problem determines every direction. -/
theorem divisors_iff {κ : Type} [Fintype κ] (M : Matrix κ (Fin R) ℝ) {c : ℝ} (hc : 0 ≤ c) {d : SVD R R R}
    (hd : d.Valid (M.transpose * M + c • (1 : Matrix (Fin R) (Fin R) ℝ))) :
    (∀ r, d.s r ≠ 0) ↔ ∀ v : Fin R → ℝ, v ≠ 0 → 0 < ∑ k, (∑ r, M k r * v r) ^ 2 + c * ∑ r, v r ^ 2 := by
  constructor
  · intro h v hv
    have hu := isUnit_of_svd hd h
    have h1 : 0 ≤ ∑ k, (∑ r, M k r * v r) ^ 2 := sum_nonneg fun _ _ => sq_nonneg _
    have h2 : 0 ≤ ∑ r, v r ^ 2 := sum_nonneg fun _ _ => sq_nonneg _
    have h3 : 0 ≤ c * ∑ r, v r ^ 2 := mul_nonneg hc h2
    refine (add_nonneg h1 h3).lt_of_ne' fun h0 => hv ?_
    have h4 : ∑ k, (∑ r, M k r * v r) ^ 2 = 0 := by linarith
    have h5 : c * ∑ r, v r ^ 2 = 0 := by linarith
    have hM : M.mulVec v = 0 := by
      funext k
      rw [sum_eq_zero_iff_of_nonneg fun _ _ => sq_nonneg _] at h4
      exact pow_eq_zero_iff two_ne_zero |>.1 (h4 k (mem_univ k))
    have hcv : c • v = 0 := by
      rcases mul_eq_zero.1 h5 with h | h
      · rw [h, zero_smul]
      · rw [sum_eq_zero_iff_of_nonneg fun _ _ => sq_nonneg _] at h
        funext r
        have := pow_eq_zero_iff two_ne_zero |>.1 (h r (mem_univ r))
        simp [this]
    refine Matrix.mulVec_injective_iff_isUnit.2 hu ?_
    rw [add_mulVec, smul_mulVec, one_mulVec, ← mulVec_mulVec, hM, hcv]
    simp
  · intro h
    exact svd_ne_zero hd (isUnit_gram M h le_rfl)

/-- C34, the true part: no division by zero with a positive ridge penalty, in a uniquely solvable problem, or with penalties and positive
feasibility penalties. (The full property claims this for all inputs; see `C34_false`.) -/
theorem C34_partial (P : Params R) (hsvd : ValidSVD P) (hs : 0 ≤ P.scale) (F : Factors I K R J) {l2 : ℝ} (hl : 0 ≤ l2) (n : ℕ) :
    (∀ constant ρ, IsWeights constant (weightA P.scale F) ρ → (0 < l2 ∨ SolvableA F l2 ∨ (0 < n ∧ ∀ i, 0 < ρ i)) →
      ∀ i r, divisorsA P F (ρ i) n l2 i r ≠ 0) ∧
    (∀ constant ρ, IsWeights constant (weightB P.scale F) ρ → (0 < l2 ∨ SolvableB F l2 ∨ (0 < n ∧ ∀ i, 0 < ρ i)) →
      ∀ i r, divisorsB P F (ρ i) n l2 i r ≠ 0) ∧
    ((0 < l2 ∨ SolvableC F l2 ∨ (0 < n ∧ 0 < weightC P.scale F)) → ∀ r, divisorsC P F n l2 r ≠ 0) := by
  have pos : ∀ {v : Fin R → ℝ}, v ≠ 0 → 0 < ∑ r, v r ^ 2 := by
    intro v hv
    obtain ⟨r, hr⟩ := Function.ne_iff.1 hv
    exact sum_pos' (fun _ _ => sq_nonneg _) ⟨r, mem_univ r, (sq_nonneg _).lt_of_ne' (pow_ne_zero 2 hr)⟩
  refine ⟨fun constant ρ hρ h i => ?_, fun constant ρ hρ h i => ?_, fun h => ?_⟩
  · have hρ0 := hρ.nonneg (weightA_nonneg hs F) i
    refine svd_ne_zero (hsvd _) ?_
    rw [crossA_eq]
    refine isUnit_system _ hρ0 hl ?_
    rcases h with h | h | h
    · exact .inr fun v hv => add_pos_of_nonneg_of_pos (sum_nonneg fun _ _ => sq_nonneg _) (mul_pos h (pos hv))
    · exact .inr (solvableA_design h i)
    · exact .inl ⟨h.1, h.2 i⟩
  · have hρ0 := hρ.nonneg (weightB_nonneg hs F) i
    refine svd_ne_zero (hsvd _) ?_
    rw [crossB_eq]
    refine isUnit_system _ hρ0 hl ?_
    rcases h with h | h | h
    · exact .inr fun v hv => add_pos_of_nonneg_of_pos (sum_nonneg fun _ _ => sq_nonneg _) (mul_pos h (pos hv))
    · exact .inr (solvableB_design h i)
    · exact .inl ⟨h.1, h.2 i⟩
  · refine svd_ne_zero (hsvd _) ?_
    rw [crossC_eq]
    refine isUnit_system _ (weightC_nonneg hs F) hl ?_
    rcases h with h | h | h
    · exact .inr fun v hv => add_pos_of_nonneg_of_pos (sum_nonneg fun _ _ => sq_nonneg _) (mul_pos h (pos hv))
    · exact .inr (solvableC_design h)
    · exact .inl h

/-- All singular values of the zero matrix are zero. -/
theorem svd_of_zero {d : SVD R R R} (hd : d.Valid 0) (r : Fin R) : d.s r = 0 := by
  have h1 : d.U.transpose * (d.U * diagonal d.s * d.Vh) * d.Vh.transpose = diagonal d.s := by
    calc _ = (d.U.transpose * d.U) * diagonal d.s * (d.Vh * d.Vh.transpose) := by simp only [Matrix.mul_assoc]
      _ = _ := by rw [hd.left, hd.right, Matrix.one_mul, Matrix.mul_one]
  rw [hd.eq, Matrix.mul_zero, Matrix.zero_mul] at h1
  have := congrFun (congrFun h1 r) r
  rw [diagonal_apply_eq] at this
  exact this.symm

/-- C34 is false without ridge penalty: when row `i` of `A` is zero, the update of `B_i` divides by zero in every component, for every
number of penalties and every (non-constant) feasibility penalty scale. -/
theorem C34_false (P : Params R) (hsvd : ValidSVD P) (F : Factors I K R J) (i : Fin I) (h : F.A i = 0) (n : ℕ) (ρ : Fin I → ℝ)
    (hρ : IsWeights false (weightB P.scale F) ρ) (r : Fin R) : divisorsB P F (ρ i) n 0 i r = 0 := by
  have h0 : ρ i = 0 := by
    rw [hρ.1 rfl, weightB]
    simp [h]
  have hG : addRidge (crossB F i) (ρ i) n 0 = 0 := by
    ext a b
    simp [addRidge, crossB, h0, h]
  have := hsvd (addRidge (crossB F i) (ρ i) n 0)
  rw [divisorsB, hG] at *
  exact svd_of_zero this r

/-- The situation of `C34_false` exists: two rows in `A`, one of them zero. -/
example : ∃ F : Factors 2 1 1 (fun _ => 1), F.A 1 = 0 ∧ F.A 0 ≠ 0 :=
  ⟨⟨Matrix.of fun i _ => if i = 0 then 1 else 0, fun _ => 1, 1⟩, by funext r; simp, fun h => by simpa using congrFun h 0⟩

end Verif.Props
