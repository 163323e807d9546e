import Verif.ADMM.Converge
import Verif.Props.ADMMStep

/-!
# C31, C32: fixed points and convergence of the inner iterations
-/

namespace Verif.Props

open Verif.ADMM Verif.Penalties Verif.Spec Finset Matrix Filter

variable {I K R n : ℕ} {J : Fin I → ℕ}

/-- The parameters of a call with one inner iteration. -/
def once (P : Params R) : Params R := { P with nInner := 1 }

/-! ### One inner iteration as an abstract step -/

theorem isStepA {P : Params R} (hsvd : ValidSVD P) {X : Ragged I K J} {l2 : ℝ} (hl : 0 ≤ l2)
    {constant : Bool} {F : Factors I K R J} {pens : Fin n → PenA I R} {aux dual : Fin n → Matrix (Fin I) (Fin R) ℝ}
    (hn : 0 < n) (hw : ∀ i, 0 < weightA P.scale F i) {s : MatState I R n}
    (h : admmUpdateA (once P) X pens l2 constant F aux dual = .ok s)
    {C : Fin n → Set (Matrix (Fin I) (Fin R) ℝ)} {g : Fin n → Matrix (Fin I) (Fin R) ℝ → ℝ}
    (hp : ∀ p, (pens p).ProxOf (C p) (g p)) (hg : ∀ p, ConvexOn ℝ (C p) (g p)) {ρ : Fin I → ℝ}
    (hρ : IsWeights constant (weightA P.scale F) ρ) :
    IsStep (matIP ρ fun i => (hρ.pos hw i).le) (fitA X l2 F) (quadA F l2) C g aux dual s.x s.aux s.dual := by
  obtain ⟨ρ', hρ', -, hprox, hdual⟩ := C28_A (once P) hsvd rfl X hl constant F pens aux dual hn hw s h
  obtain rfl : ρ = ρ' := hρ.unique hρ'
  have hpos := hρ.pos hw
  refine ⟨fun Y => ?_, fun p => (hprox p _ _ (hp p)).1, fun p y hy => ?_, hdual⟩
  · obtain ⟨o, ρ', hρ'', -, -, -, rfl⟩ := admmUpdateA_ok h
    obtain rfl : ρ = ρ' := hρ.unique hρ''
    have hu : ∀ i, IsUnit (addRidge (crossA F i) (ρ i) n l2) := fun i => by
      rw [crossA_eq]
      exact isUnit_system _ (hpos i).le hl (.inl ⟨hn, hpos i⟩)
    have hexp := stepA_expand X F l2 pens o ρ (fun i => P.svd (addRidge (crossA F i) (ρ i) n l2)) (fun i => hsvd _) hu
      ⟨F.A, aux, dual⟩ Y
    rw [show (once P).nInner = 1 from rfl, innerLoop_one]
    exact hexp.ge
  · exact (hprox p _ _ (hp p)).vi (fun i => (hpos i).le) (hg p) y hy

theorem isStepB {P : Params R} (hsvd : ValidSVD P) {X : Ragged I K J} {l2 : ℝ} (hl : 0 ≤ l2)
    {constant : Bool} {F : Factors I K R J} {pens : Fin n → PenB I R J} {aux : Fin n → AuxB I R J} {dual : Fin n → Ragged I R J}
    (hn : 0 < n) (hw : ∀ i, 0 < weightB P.scale F i) {s : RagState I R n J}
    (h : admmUpdateB (once P) X pens l2 constant F aux dual = .ok s)
    {C : Fin n → Set (Ragged I R J)} {g : Fin n → Ragged I R J → ℝ}
    (hp : ∀ p, (pens p).ProxOf (C p) (g p)) (hg : ∀ p, ConvexOn ℝ (C p) (g p)) {ρ : Fin I → ℝ}
    (hρ : IsWeights constant (weightB P.scale F) ρ) :
    IsStep (ragIP ρ fun i => (hρ.pos hw i).le) (fitB X l2 F) (quadB F l2) C g (fun p => (aux p).toMats) dual s.x
      (fun p => (s.aux p).toMats) s.dual := by
  obtain ⟨ρ', hρ', -, -, hprox, hdual⟩ := C28_B (once P) hsvd rfl X hl constant F pens aux dual hn hw s h
  obtain rfl : ρ = ρ' := hρ.unique hρ'
  have hpos := hρ.pos hw
  refine ⟨fun Y => ?_, fun p => (hprox p _ _ (hp p)).1, fun p y hy => ?_, fun p => funext fun i => hdual p i⟩
  · obtain ⟨ρ', hρ'', rfl⟩ := admmUpdateB_ok h
    obtain rfl : ρ = ρ' := hρ.unique hρ''
    have hu : ∀ i, IsUnit (addRidge (crossB F i) (ρ i) n l2) := fun i => by
      rw [crossB_eq]
      exact isUnit_system _ (hpos i).le hl (.inl ⟨hn, hpos i⟩)
    have hexp := stepB_expand X F l2 pens ρ (fun i => P.svd (addRidge (crossB F i) (ρ i) n l2)) (fun i => hsvd _) hu
      ⟨F.B, aux, dual⟩ Y
    rw [show (once P).nInner = 1 from rfl, innerLoop_one]
    exact hexp.ge
  · exact (hprox p _ _ (hp p)).vi (fun i => (hpos i).le) (hg p) y hy

theorem isStepC {P : Params R} (hsvd : ValidSVD P) {X : Ragged I K J} {l2 : ℝ} (hl : 0 ≤ l2)
    {F : Factors I K R J} {pens : Fin n → PenC K R} {aux dual : Fin n → Matrix (Fin K) (Fin R) ℝ}
    (hn : 0 < n) (hw : 0 < weightC P.scale F) {s : MatState K R n}
    (h : admmUpdateC (once P) X pens l2 F aux dual = s)
    {C : Fin n → Set (Matrix (Fin K) (Fin R) ℝ)} {g : Fin n → Matrix (Fin K) (Fin R) ℝ → ℝ}
    (hp : ∀ p, (pens p).ProxOf (C p) (g p)) (hg : ∀ p, ConvexOn ℝ (C p) (g p)) :
    IsStep (matIP (fun _ => weightC P.scale F) fun _ => hw.le) (fitC X l2 F) (quadC F l2) C g aux dual s.x s.aux s.dual := by
  obtain ⟨-, hprox, hdual⟩ := C28_C (once P) hsvd rfl X hl F pens aux dual hn hw s h
  refine ⟨fun Y => ?_, fun p => (hprox p _ _ (hp p)).1, fun p y hy => ?_, hdual⟩
  · subst h
    have hu : IsUnit (addRidge (crossC F) (weightC P.scale F) n l2) := by
      rw [crossC_eq]
      exact isUnit_system _ hw.le hl (.inl ⟨hn, hw⟩)
    have hexp := stepC_expand X F l2 pens (weightC P.scale F) _ (hsvd _) hu ⟨F.C, aux, dual⟩ Y
    rw [admmUpdateC_eq, show (once P).nInner = 1 from rfl, innerLoop_one]
    exact hexp.ge
  · exact (hprox p _ _ (hp p)).vi (fun _ => hw.le) (hg p) y hy

/-! ### C31 -/

/-- C31, mode 0: if an inner iteration leaves auxiliary and dual variables unchanged, the factor equals all auxiliary variables and solves the
regularized subproblem. -/
theorem C31_A (P : Params R) (hsvd : ValidSVD P) (X : Ragged I K J) {l2 : ℝ} (hl : 0 ≤ l2)
    (constant : Bool) (F : Factors I K R J) (pens : Fin n → PenA I R) (aux dual : Fin n → Matrix (Fin I) (Fin R) ℝ)
    (hn : 0 < n) (hw : ∀ i, 0 < weightA P.scale F i)
    (C : Fin n → Set (Matrix (Fin I) (Fin R) ℝ)) (g : Fin n → Matrix (Fin I) (Fin R) ℝ → ℝ)
    (hp : ∀ p, (pens p).ProxOf (C p) (g p)) (hg : ∀ p, ConvexOn ℝ (C p) (g p))
    (x : Matrix (Fin I) (Fin R) ℝ) (h : admmUpdateA (once P) X pens l2 constant F aux dual = .ok ⟨x, aux, dual⟩) :
    (∀ p, x = aux p) ∧ IsMinOver (fitA X l2 F) C g x := by
  obtain ⟨o, ρ, hρ, -⟩ := admmUpdateA_ok h
  obtain ⟨h1, h2⟩ := (isStepA hsvd hl hn hw h hp hg hρ).saddle_of_fixed
  refine ⟨h1, h2.mem, fun y hy => ?_⟩
  have := h2.minimal y hy
  have := quadA_nonneg F hl (y - x)
  linarith

/-- C31, mode 1. -/
theorem C31_B (P : Params R) (hsvd : ValidSVD P) (X : Ragged I K J) {l2 : ℝ} (hl : 0 ≤ l2)
    (constant : Bool) (F : Factors I K R J) (pens : Fin n → PenB I R J) (aux : Fin n → AuxB I R J) (dual : Fin n → Ragged I R J)
    (hn : 0 < n) (hw : ∀ i, 0 < weightB P.scale F i)
    (C : Fin n → Set (Ragged I R J)) (g : Fin n → Ragged I R J → ℝ)
    (hp : ∀ p, (pens p).ProxOf (C p) (g p)) (hg : ∀ p, ConvexOn ℝ (C p) (g p))
    (x : Ragged I R J) (h : admmUpdateB (once P) X pens l2 constant F aux dual = .ok ⟨x, aux, dual⟩) :
    (∀ p, x = (aux p).toMats) ∧ IsMinOver (fitB X l2 F) C g x := by
  obtain ⟨ρ, hρ, -⟩ := admmUpdateB_ok h
  obtain ⟨h1, h2⟩ := (isStepB hsvd hl hn hw h hp hg hρ).saddle_of_fixed
  refine ⟨h1, h2.mem, fun y hy => ?_⟩
  have := h2.minimal y hy
  have := quadB_nonneg F hl (y - x)
  linarith

/-- C31, mode 2. -/
theorem C31_C (P : Params R) (hsvd : ValidSVD P) (X : Ragged I K J) {l2 : ℝ} (hl : 0 ≤ l2)
    (F : Factors I K R J) (pens : Fin n → PenC K R) (aux dual : Fin n → Matrix (Fin K) (Fin R) ℝ)
    (hn : 0 < n) (hw : 0 < weightC P.scale F)
    (C : Fin n → Set (Matrix (Fin K) (Fin R) ℝ)) (g : Fin n → Matrix (Fin K) (Fin R) ℝ → ℝ)
    (hp : ∀ p, (pens p).ProxOf (C p) (g p)) (hg : ∀ p, ConvexOn ℝ (C p) (g p))
    (x : Matrix (Fin K) (Fin R) ℝ) (h : admmUpdateC (once P) X pens l2 F aux dual = ⟨x, aux, dual⟩) :
    (∀ p, x = aux p) ∧ IsMinOver (fitC X l2 F) C g x := by
  obtain ⟨h1, h2⟩ := (isStepC hsvd hl hn hw h hp hg).saddle_of_fixed
  refine ⟨h1, h2.mem, fun y hy => ?_⟩
  have := h2.minimal y hy
  have := quadC_nonneg F hl (y - x)
  linarith

/-! ### C32 -/

theorem inner_sum_left {m k : ℕ} (f : Fin n → Matrix (Fin m) (Fin k) ℝ) (Y : Matrix (Fin m) (Fin k) ℝ) :
    inner (∑ p, f p) Y = ∑ p, inner (f p) Y :=
  map_sum (AddMonoidHom.mk' (fun M : Matrix (Fin m) (Fin k) ℝ => inner M Y) fun a b => inner_add_left a b _) f univ

/-- C32, mode 0: repeat inner iterations (calls with one inner iteration each). With convex penalties and a saddle point `xs, Λ` of the
subproblem, the energy never increases, the gaps tend to zero, the fitted matrices tend to those of `xs`, and `xs` is a solution; the factor itself tends to `xs`
when the subproblem determines it. -/
theorem C32_A (P : Params R) (hsvd : ValidSVD P) (X : Ragged I K J) {l2 : ℝ} (hl : 0 ≤ l2)
    (constant : Bool) (F : Factors I K R J) (pens : Fin n → PenA I R)
    (hn : 0 < n) (hw : ∀ i, 0 < weightA P.scale F i)
    (C : Fin n → Set (Matrix (Fin I) (Fin R) ℝ)) (g : Fin n → Matrix (Fin I) (Fin R) ℝ → ℝ)
    (hp : ∀ p, (pens p).ProxOf (C p) (g p)) (hg : ∀ p, ConvexOn ℝ (C p) (g p))
    (seq : ℕ → MatState I R n)
    (hseq : ∀ k, admmUpdateA (once P) X pens l2 constant ⟨(seq k).x, F.B, F.C⟩ (seq k).aux (seq k).dual = .ok (seq (k + 1)))
    (xs : Matrix (Fin I) (Fin R) ℝ) (Λ : Fin n → Matrix (Fin I) (Fin R) ℝ) (hs : IsSaddlePoint inner (fitA X l2 F) C g xs Λ) :
    IsMinOver (fitA X l2 F) C g xs ∧
    (∃ ρ, IsWeights constant (weightA P.scale F) ρ ∧ ∀ k,
      ∑ p, ∑ i, ρ i * ∑ r, (((seq (k + 1)).dual p i r - Λ p i r / ρ i) ^ 2 + ((seq (k + 1)).aux p i r - xs i r) ^ 2)
        ≤ ∑ p, ∑ i, ρ i * ∑ r, (((seq k).dual p i r - Λ p i r / ρ i) ^ 2 + ((seq k).aux p i r - xs i r) ^ 2)) ∧
    (∀ p i r, Tendsto (fun k => (seq k).x i r - (seq k).aux p i r) atTop (nhds 0)) ∧
    (∀ i j k', Tendsto (fun k => (⟨(seq k).x, F.B, F.C⟩ : Factors I K R J).entry i j k') atTop
      (nhds ((⟨xs, F.B, F.C⟩ : Factors I K R J).entry i j k'))) ∧
    (SolvableA F l2 → ∀ i r, Tendsto (fun k => (seq k).x i r) atTop (nhds (xs i r))) := by
  obtain ⟨o, ρ, hρ, -⟩ := admmUpdateA_ok (hseq 0)
  have hρ : IsWeights constant (weightA P.scale F) ρ := hρ
  have hpos := hρ.pos hw
  set W := matIP (R := R) ρ fun i => (hρ.pos hw i).le with hW
  have hstep : ∀ k, IsStep W (fitA X l2 F) (quadA F l2) C g (seq k).aux (seq k).dual (seq (k + 1)).x (seq (k + 1)).aux (seq (k + 1)).dual :=
    fun k => isStepA (F := ⟨(seq k).x, F.B, F.C⟩) hsvd hl hn hw (hseq k) hp hg hρ
  set us : Fin n → Matrix (Fin I) (Fin R) ℝ := fun p => Matrix.of fun i r => Λ p i r / ρ i with hus
  have hip : ∀ p V, W.ip (us p) V = inner (Λ p) V := by
    intro p V
    simp only [hW, matIP, hus, inner, Matrix.of_apply, mul_sum]
    refine sum_congr rfl fun i _ => sum_congr rfl fun r _ => ?_
    rw [← mul_assoc, mul_div_cancel₀ _ (hpos i).ne']
  have hsad : IsSaddle W (fitA X l2 F) (quadA F l2) C g xs us := by
    refine ⟨hs.mem, fun Y => ?_, fun p Y hY => ?_⟩
    · have := kktA X F l2 xs (∑ p, Λ p) (fun Y => by
        have := hs.fopt Y
        rw [inner_sum_left]
        simp only [fitA] at this
        linarith) Y
      rw [inner_sum_left] at this
      simp only [hip]
      exact this
    · have := hs.gopt p Y hY
      rw [hip]
      linarith
  obtain ⟨h1, h2, h3⟩ := admm_converges (x := fun k => (seq k).x) (z := fun k => (seq k).aux) (u := fun k => (seq k).dual) hstep hsad (quadA_neg F l2) (quadA_nonneg F hl)
  have hcurv : ∀ i, (∀ a j, Tendsto (fun k => (rowMat (((seq k).x - xs) i) * (designA F i).transpose) a j) atTop (nhds 0)) ∧
      ((∀ v : Fin R → ℝ, v ≠ 0 → 0 < ∑ k, (∑ r, designA F i k r * v r) ^ 2 + l2 * ∑ r, v r ^ 2) →
      ∀ a r, Tendsto (fun k => rowMat (((seq k).x - xs) i) a r) atTop (nhds 0)) := by
    intro i
    refine tendsto_of_curvature (designA F i) hl (b := fun k => quadA F l2 ((seq k).x - xs)) (fun k => ?_) h3
    exact single_le_sum (f := fun i => 1 / 2 * sqNorm (rowMat (((seq k).x - xs) i) * (designA F i).transpose)
      + l2 / 2 * sqNorm (rowMat (((seq k).x - xs) i)))
      (fun i _ => add_nonneg (mul_nonneg (by norm_num) (sqNorm_nonneg _)) (mul_nonneg (by linarith) (sqNorm_nonneg _))) (mem_univ i)
  refine ⟨⟨hs.mem, fun y hy => ?_⟩, ⟨ρ, hρ, fun k => ?_⟩, fun p i r => ?_, fun i j k' => ?_, fun hsol i r => ?_⟩
  · have := hsad.minimal y hy
    have := quadA_nonneg F hl (y - xs)
    linarith
  · have he : ∀ z u : Fin n → Matrix (Fin I) (Fin R) ℝ, energy W xs us z u
        = ∑ p, ∑ i, ρ i * ∑ r, ((u p i r - Λ p i r / ρ i) ^ 2 + (z p i r - xs i r) ^ 2) := by
      intro z u
      refine sum_congr rfl fun p _ => ?_
      simp only [IP.sq, hW, matIP, ← sum_add_distrib, ← mul_add]
      refine sum_congr rfl fun i _ => ?_
      congr 1
      exact sum_congr rfl fun r _ => by simp only [hus, Matrix.sub_apply, Matrix.of_apply]; ring
    have := h1 k
    rwa [he, he] at this
  · refine tendsto_of_sq_le (hpos i) (fun k => ?_) (h2 p)
    have e : W.sq ((seq k).x - (seq k).aux p) = ∑ i, ρ i * ∑ r, ((seq k).x i r - (seq k).aux p i r) ^ 2 := by
      simp only [IP.sq, hW, matIP, Matrix.sub_apply, ← sq]
    rw [e]
    refine le_trans ?_ (single_le_sum (f := fun i => ρ i * ∑ r, ((seq k).x i r - (seq k).aux p i r) ^ 2)
      (fun i _ => mul_nonneg (hpos i).le (sum_nonneg fun _ _ => sq_nonneg _)) (mem_univ i))
    exact mul_le_mul_of_nonneg_left (single_le_sum (f := fun r => ((seq k).x i r - (seq k).aux p i r) ^ 2)
      (fun _ _ => sq_nonneg _) (mem_univ r)) (hpos i).le
  · have := ((hcurv i).1 0 (j, k')).add_const ((⟨xs, F.B, F.C⟩ : Factors I K R J).entry i j k')
    rw [zero_add] at this
    refine this.congr fun k => ?_
    rw [mul_apply]
    simp only [Factors.entry, ← sum_add_distrib]
    refine sum_congr rfl fun r _ => ?_
    show ((seq k).x i r - xs i r) * (F.B i j r * F.C k' r) + _ = _
    ring
  · have := ((hcurv i).2 (solvableA_design hsol i) 0 r).add_const (xs i r)
    rw [zero_add] at this
    refine this.congr fun k => ?_
    show (seq k).x i r - xs i r + xs i r = _
    ring

/-- C32, mode 1. -/
theorem C32_B (P : Params R) (hsvd : ValidSVD P) (X : Ragged I K J) {l2 : ℝ} (hl : 0 ≤ l2)
    (constant : Bool) (F : Factors I K R J) (pens : Fin n → PenB I R J)
    (hn : 0 < n) (hw : ∀ i, 0 < weightB P.scale F i)
    (C : Fin n → Set (Ragged I R J)) (g : Fin n → Ragged I R J → ℝ)
    (hp : ∀ p, (pens p).ProxOf (C p) (g p)) (hg : ∀ p, ConvexOn ℝ (C p) (g p))
    (seq : ℕ → RagState I R n J)
    (hseq : ∀ k, admmUpdateB (once P) X pens l2 constant ⟨F.A, (seq k).x, F.C⟩ (seq k).aux (seq k).dual = .ok (seq (k + 1)))
    (xs : Ragged I R J) (Λ : Fin n → Ragged I R J) (hs : IsSaddlePoint ragInner (fitB X l2 F) C g xs Λ) :
    IsMinOver (fitB X l2 F) C g xs ∧
    (∃ ρ, IsWeights constant (weightB P.scale F) ρ ∧ ∀ k,
      ∑ p, ∑ i, ρ i * ∑ j, ∑ r, (((seq (k + 1)).dual p i j r - Λ p i j r / ρ i) ^ 2
          + (((seq (k + 1)).aux p).toMats i j r - xs i j r) ^ 2)
        ≤ ∑ p, ∑ i, ρ i * ∑ j, ∑ r, (((seq k).dual p i j r - Λ p i j r / ρ i) ^ 2
          + (((seq k).aux p).toMats i j r - xs i j r) ^ 2)) ∧
    (∀ p i j r, Tendsto (fun k => (seq k).x i j r - ((seq k).aux p).toMats i j r) atTop (nhds 0)) ∧
    (∀ i j k', Tendsto (fun k => (⟨F.A, (seq k).x, F.C⟩ : Factors I K R J).entry i j k') atTop
      (nhds ((⟨F.A, xs, F.C⟩ : Factors I K R J).entry i j k'))) ∧
    (SolvableB F l2 → ∀ i j r, Tendsto (fun k => (seq k).x i j r) atTop (nhds (xs i j r))) := by
  obtain ⟨ρ, hρ, -⟩ := admmUpdateB_ok (hseq 0)
  have hρ : IsWeights constant (weightB P.scale F) ρ := hρ
  have hpos := hρ.pos hw
  set W := ragIP (R := R) (J := J) ρ fun i => (hρ.pos hw i).le with hW
  have hstep : ∀ k, IsStep W (fitB X l2 F) (quadB F l2) C g (fun p => ((seq k).aux p).toMats) (seq k).dual (seq (k + 1)).x
      (fun p => ((seq (k + 1)).aux p).toMats) (seq (k + 1)).dual :=
    fun k => isStepB (F := ⟨F.A, (seq k).x, F.C⟩) hsvd hl hn hw (hseq k) hp hg hρ
  set us : Fin n → Ragged I R J := fun p i => Matrix.of fun j r => Λ p i j r / ρ i with hus
  have hip : ∀ p V, W.ip (us p) V = ragInner (Λ p) V := by
    intro p V
    simp only [hW, ragIP, hus, inner, ragInner, Matrix.of_apply, mul_sum]
    refine sum_congr rfl fun i _ => sum_congr rfl fun j _ => sum_congr rfl fun r _ => ?_
    rw [← mul_assoc, mul_div_cancel₀ _ (hpos i).ne']
  have hsumΛ : ∀ V : Ragged I R J, ∑ i, inner ((∑ p, Λ p) i) (V i) = ∑ p, ragInner (Λ p) V := by
    intro V
    simp only [ragInner]
    rw [sum_comm]
    refine sum_congr rfl fun i _ => ?_
    rw [Finset.sum_apply, inner_sum_left]
  have hsad : IsSaddle W (fitB X l2 F) (quadB F l2) C g xs us := by
    refine ⟨hs.mem, fun Y => ?_, fun p Y hY => ?_⟩
    · have := kktB X F l2 xs (∑ p, Λ p) (fun Y => by
        have h1 := hs.fopt Y
        have h2 := hsumΛ (Y - xs)
        simp only [Pi.sub_apply] at h2
        rw [h2]
        simp only [fitB] at h1
        linarith) Y
      have h2 := hsumΛ (Y - xs)
      simp only [Pi.sub_apply] at h2
      rw [h2] at this
      simp only [hip]
      exact this
    · have := hs.gopt p Y hY
      rw [hip]
      linarith
  obtain ⟨h1, h2, h3⟩ := admm_converges (x := fun k => (seq k).x) (z := fun k p => ((seq k).aux p).toMats) (u := fun k => (seq k).dual)
    hstep hsad (quadB_neg F l2) (quadB_nonneg F hl)
  have hcurv : ∀ i, (∀ a j, Tendsto (fun k => (((seq k).x - xs) i * (designB F i).transpose) a j) atTop (nhds 0)) ∧
      ((∀ v : Fin R → ℝ, v ≠ 0 → 0 < ∑ k, (∑ r, designB F i k r * v r) ^ 2 + l2 * ∑ r, v r ^ 2) →
      ∀ a r, Tendsto (fun k => ((seq k).x - xs) i a r) atTop (nhds 0)) := by
    intro i
    refine tendsto_of_curvature (designB F i) hl (b := fun k => quadB F l2 ((seq k).x - xs)) (fun k => ?_) h3
    exact single_le_sum (f := fun i => 1 / 2 * sqNorm (((seq k).x - xs) i * (designB F i).transpose)
      + l2 / 2 * sqNorm (((seq k).x - xs) i))
      (fun i _ => add_nonneg (mul_nonneg (by norm_num) (sqNorm_nonneg _)) (mul_nonneg (by linarith) (sqNorm_nonneg _))) (mem_univ i)
  refine ⟨⟨hs.mem, fun y hy => ?_⟩, ⟨ρ, hρ, fun k => ?_⟩, fun p i j r => ?_, fun i j k' => ?_, fun hsol i j r => ?_⟩
  · have := hsad.minimal y hy
    have := quadB_nonneg F hl (y - xs)
    linarith
  · have he : ∀ z u : Fin n → Ragged I R J, energy W xs us z u
        = ∑ p, ∑ i, ρ i * ∑ j, ∑ r, ((u p i j r - Λ p i j r / ρ i) ^ 2 + (z p i j r - xs i j r) ^ 2) := by
      intro z u
      refine sum_congr rfl fun p _ => ?_
      simp only [IP.sq, hW, ragIP, inner, ← sum_add_distrib, ← mul_add]
      refine sum_congr rfl fun i _ => ?_
      congr 1
      exact sum_congr rfl fun j _ => sum_congr rfl fun r _ => by
        simp only [hus, Pi.sub_apply, Matrix.sub_apply, Matrix.of_apply]; ring
    have := h1 k
    rwa [he, he] at this
  · refine tendsto_of_sq_le (hpos i) (fun k => ?_) (h2 p)
    have e : W.sq ((seq k).x - ((seq k).aux p).toMats) = ∑ i, ρ i * sqNorm ((seq k).x i - ((seq k).aux p).toMats i) := by
      simp only [IP.sq, hW, ragIP, Pi.sub_apply, inner_self]
    rw [e]
    refine le_trans ?_ (single_le_sum (f := fun i => ρ i * sqNorm ((seq k).x i - ((seq k).aux p).toMats i))
      (fun i _ => mul_nonneg (hpos i).le (sqNorm_nonneg _)) (mem_univ i))
    exact mul_le_mul_of_nonneg_left (sq_le_sqNorm ((seq k).x i - ((seq k).aux p).toMats i) j r) (hpos i).le
  · have := ((hcurv i).1 j k').add_const ((⟨F.A, xs, F.C⟩ : Factors I K R J).entry i j k')
    rw [zero_add] at this
    refine this.congr fun k => ?_
    rw [mul_apply]
    simp only [Factors.entry, ← sum_add_distrib]
    refine sum_congr rfl fun r _ => ?_
    show ((seq k).x i j r - xs i j r) * (F.C k' r * F.A i r) + _ = _
    ring
  · have := ((hcurv i).2 (solvableB_design hsol i) j r).add_const (xs i j r)
    rw [zero_add] at this
    refine this.congr fun k => ?_
    show (seq k).x i j r - xs i j r + xs i j r = _
    ring

/-- C32, mode 2. -/
theorem C32_C (P : Params R) (hsvd : ValidSVD P) (X : Ragged I K J) {l2 : ℝ} (hl : 0 ≤ l2)
    (F : Factors I K R J) (pens : Fin n → PenC K R)
    (hn : 0 < n) (hw : 0 < weightC P.scale F)
    (C : Fin n → Set (Matrix (Fin K) (Fin R) ℝ)) (g : Fin n → Matrix (Fin K) (Fin R) ℝ → ℝ)
    (hp : ∀ p, (pens p).ProxOf (C p) (g p)) (hg : ∀ p, ConvexOn ℝ (C p) (g p))
    (seq : ℕ → MatState K R n)
    (hseq : ∀ k, admmUpdateC (once P) X pens l2 ⟨F.A, F.B, (seq k).x⟩ (seq k).aux (seq k).dual = seq (k + 1))
    (xs : Matrix (Fin K) (Fin R) ℝ) (Λ : Fin n → Matrix (Fin K) (Fin R) ℝ) (hs : IsSaddlePoint inner (fitC X l2 F) C g xs Λ) :
    IsMinOver (fitC X l2 F) C g xs ∧
    (∀ k, ∑ p, ∑ i, ∑ r, (((seq (k + 1)).dual p i r - Λ p i r / weightC P.scale F) ^ 2 + ((seq (k + 1)).aux p i r - xs i r) ^ 2)
        ≤ ∑ p, ∑ i, ∑ r, (((seq k).dual p i r - Λ p i r / weightC P.scale F) ^ 2 + ((seq k).aux p i r - xs i r) ^ 2)) ∧
    (∀ p i r, Tendsto (fun k => (seq k).x i r - (seq k).aux p i r) atTop (nhds 0)) ∧
    (∀ i j k', Tendsto (fun k => (⟨F.A, F.B, (seq k).x⟩ : Factors I K R J).entry i j k') atTop
      (nhds ((⟨F.A, F.B, xs⟩ : Factors I K R J).entry i j k'))) ∧
    (SolvableC F l2 → ∀ i r, Tendsto (fun k => (seq k).x i r) atTop (nhds (xs i r))) := by
  set ρ := weightC P.scale F with hρ
  set W := matIP (R := R) (m := K) (fun _ => ρ) fun _ => hw.le with hW
  have hstep : ∀ k, IsStep W (fitC X l2 F) (quadC F l2) C g (seq k).aux (seq k).dual (seq (k + 1)).x (seq (k + 1)).aux (seq (k + 1)).dual :=
    fun k => isStepC (F := ⟨F.A, F.B, (seq k).x⟩) hsvd hl hn hw (hseq k) hp hg
  set us : Fin n → Matrix (Fin K) (Fin R) ℝ := fun p => Matrix.of fun i r => Λ p i r / ρ with hus
  have hip : ∀ p V, W.ip (us p) V = inner (Λ p) V := by
    intro p V
    simp only [hW, matIP, hus, inner, Matrix.of_apply, mul_sum]
    refine sum_congr rfl fun i _ => sum_congr rfl fun r _ => ?_
    rw [← mul_assoc, mul_div_cancel₀ _ hw.ne']
  have hsad : IsSaddle W (fitC X l2 F) (quadC F l2) C g xs us := by
    refine ⟨hs.mem, fun Y => ?_, fun p Y hY => ?_⟩
    · have := kktC X F l2 xs (∑ p, Λ p) (fun Y => by
        have := hs.fopt Y
        rw [inner_sum_left]
        simp only [fitC] at this
        linarith) Y
      rw [inner_sum_left] at this
      simp only [hip]
      exact this
    · have := hs.gopt p Y hY
      rw [hip]
      linarith
  obtain ⟨h1, h2, h3⟩ := admm_converges (x := fun k => (seq k).x) (z := fun k => (seq k).aux) (u := fun k => (seq k).dual) hstep hsad (quadC_neg F l2) (quadC_nonneg F hl)
  have hcurv := tendsto_of_curvature (designC F) hl (V := fun k => (seq k).x - xs) (b := fun k => quadC F l2 ((seq k).x - xs))
    (fun k => le_rfl) h3
  refine ⟨⟨hs.mem, fun y hy => ?_⟩, fun k => ?_, fun p i r => ?_, fun i j k' => ?_, fun hsol i r => ?_⟩
  · have := hsad.minimal y hy
    have := quadC_nonneg F hl (y - xs)
    linarith
  · have he : ∀ z u : Fin n → Matrix (Fin K) (Fin R) ℝ, energy W xs us z u
        = ρ * ∑ p, ∑ i, ∑ r, ((u p i r - Λ p i r / ρ) ^ 2 + (z p i r - xs i r) ^ 2) := by
      intro z u
      rw [mul_sum]
      refine sum_congr rfl fun p _ => ?_
      simp only [IP.sq, hW, matIP, ← sum_add_distrib, ← mul_add, ← mul_sum]
      congr 1
      exact sum_congr rfl fun i _ => sum_congr rfl fun r _ => by simp only [hus, Matrix.sub_apply, Matrix.of_apply]; ring
    have := h1 k
    rw [he, he] at this
    exact le_of_mul_le_mul_left this hw
  · refine tendsto_of_sq_le hw (fun k => ?_) (h2 p)
    have e : W.sq ((seq k).x - (seq k).aux p) = ρ * sqNorm ((seq k).x - (seq k).aux p) := by
      simp only [IP.sq, hW, matIP, sqNorm, ← sq, ← mul_sum]
    rw [e]
    exact mul_le_mul_of_nonneg_left (sq_le_sqNorm ((seq k).x - (seq k).aux p) i r) hw.le
  · have := (hcurv.1 k' ⟨i, j⟩).add_const ((⟨F.A, F.B, xs⟩ : Factors I K R J).entry i j k')
    rw [zero_add] at this
    refine this.congr fun k => ?_
    rw [mul_apply]
    simp only [Factors.entry, ← sum_add_distrib]
    refine sum_congr rfl fun r _ => ?_
    show ((seq k).x k' r - xs k' r) * (F.B i j r * F.A i r) + _ = _
    ring
  · have := (hcurv.2 (solvableC_design hsol) i r).add_const (xs i r)
    rw [zero_add] at this
    refine this.congr fun k => ?_
    show (seq k).x i r - xs i r + xs i r = _
    ring

end Verif.Props
