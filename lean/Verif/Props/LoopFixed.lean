import Verif.ADMM.Periodic
import Verif.Props.LoopWarm

/-!
# C114: the states an outer iteration leaves unchanged are the blockwise solutions
-/

set_option linter.unusedSectionVars false

namespace Verif.Props

open Verif.Loop Verif.ADMM Verif.Penalties Verif.Spec Finset Matrix

variable {I K R n nA nB nC : ℕ} {J : Fin I → ℕ}

/-! ### The forms -/

theorem matIP_def {m : ℕ} {w : Fin m → ℝ} (hw : ∀ i, 0 < w i) (V : Matrix (Fin m) (Fin R) ℝ) (h : (matIP (R := R) w fun i => (hw i).le).sq V = 0) : V = 0 := by
  have h1 : ∑ i, w i * ∑ r, V i r * V i r = 0 := h
  ext i r
  have h2 := (sum_eq_zero_iff_of_nonneg fun i _ => mul_nonneg (hw i).le (sum_nonneg fun r _ => mul_self_nonneg (V i r))).1 h1 i (mem_univ i)
  have h3 := (mul_eq_zero.1 h2).resolve_left (hw i).ne'
  exact mul_self_eq_zero.1 ((sum_eq_zero_iff_of_nonneg fun r _ => mul_self_nonneg (V i r)).1 h3 r (mem_univ r))

theorem ragIP_def {w : Fin I → ℝ} (hw : ∀ i, 0 < w i) (V : Ragged I R J) (h : (ragIP (R := R) (J := J) w fun i => (hw i).le).sq V = 0) : V = 0 := by
  have h1 : ∑ i, w i * Spec.inner (V i) (V i) = 0 := h
  have nn : ∀ i, 0 ≤ Spec.inner (V i) (V i) := fun i => sum_nonneg fun _ _ => sum_nonneg fun _ _ => mul_self_nonneg _
  funext i
  ext j r
  have h2 := (sum_eq_zero_iff_of_nonneg fun i _ => mul_nonneg (hw i).le (nn i)).1 h1 i (mem_univ i)
  have h3 : ∑ j, ∑ r, V i j r * V i j r = 0 := (mul_eq_zero.1 h2).resolve_left (hw i).ne'
  have h4 := (sum_eq_zero_iff_of_nonneg fun j _ => sum_nonneg fun r _ => mul_self_nonneg (V i j r)).1 h3 j (mem_univ j)
  exact mul_self_eq_zero.1 ((sum_eq_zero_iff_of_nonneg fun r _ => mul_self_nonneg (V i j r)).1 h4 r (mem_univ r))

/-- Scaled dual variables as multipliers, for matrices with one weight per row. -/
def rowMult {m : ℕ} (w : Fin m → ℝ) (u : Fin n → Matrix (Fin m) (Fin R) ℝ) (p : Fin n) : Matrix (Fin m) (Fin R) ℝ := Matrix.of fun i r => w i * u p i r

/-- Scaled dual variables as multipliers, for lists of matrices with one weight per matrix. -/
def ragMult (w : Fin I → ℝ) (u : Fin n → Ragged I R J) (p : Fin n) : Ragged I R J := fun i => Matrix.of fun j r => w i * u p i j r

theorem saddle_mat {m : ℕ} {w : Fin m → ℝ} (hw : ∀ i, 0 ≤ w i) {f q : Matrix (Fin m) (Fin R) ℝ → ℝ} (hq : ∀ v, 0 ≤ q v)
    (hkkt : ∀ xs S, (∀ Y, f xs - Spec.inner S (Y - xs) ≤ f Y) → ∀ Y, f xs - Spec.inner S (Y - xs) + q (Y - xs) ≤ f Y)
    (C : Fin n → Set (Matrix (Fin m) (Fin R) ℝ)) (g : Fin n → Matrix (Fin m) (Fin R) ℝ → ℝ) (xs : Matrix (Fin m) (Fin R) ℝ)
    (us : Fin n → Matrix (Fin m) (Fin R) ℝ) :
    IsSaddle (matIP w hw) f q C g xs us ↔ IsSaddlePoint Spec.inner f C g xs (rowMult w us) := by
  have hip : ∀ p V, (matIP w hw).ip (us p) V = Spec.inner (rowMult w us p) V := by
    intro p V
    simp only [matIP, rowMult, Spec.inner, Matrix.of_apply, mul_sum]
    exact sum_congr rfl fun i _ => sum_congr rfl fun r _ => by ring
  constructor
  · intro h
    refine ⟨h.mem, fun y => ?_, fun p y hy => ?_⟩
    · have h1 := h.fopt y
      have h2 := hq (y - xs)
      simp only [hip] at h1
      linarith
    · have h1 := h.gopt p y hy
      rw [hip] at h1
      linarith
  · intro h
    refine ⟨h.mem, fun y => ?_, fun p y hy => ?_⟩
    · simp only [hip]
      rw [← inner_sum_left]
      refine hkkt xs _ (fun Y => ?_) y
      have := h.fopt Y
      rw [inner_sum_left]
      linarith
    · have h1 := h.gopt p y hy
      rw [hip]
      linarith

theorem saddle_rag {w : Fin I → ℝ} (hw : ∀ i, 0 ≤ w i) {f q : Ragged I R J → ℝ} (hq : ∀ v, 0 ≤ q v)
    (hkkt : ∀ xs S, (∀ Y, f xs - ragInner S (Y - xs) ≤ f Y) → ∀ Y, f xs - ragInner S (Y - xs) + q (Y - xs) ≤ f Y)
    (C : Fin n → Set (Ragged I R J)) (g : Fin n → Ragged I R J → ℝ) (xs : Ragged I R J) (us : Fin n → Ragged I R J) :
    IsSaddle (ragIP w hw) f q C g xs us ↔ IsSaddlePoint ragInner f C g xs (ragMult w us) := by
  have hip : ∀ p V, (ragIP w hw).ip (us p) V = ragInner (ragMult w us p) V := by
    intro p V
    simp only [ragIP, ragMult, ragInner, Spec.inner, Matrix.of_apply, mul_sum]
    exact sum_congr rfl fun i _ => sum_congr rfl fun j _ => sum_congr rfl fun r _ => by ring
  have hsum : ∀ V : Ragged I R J, ragInner (∑ p, ragMult w us p) V = ∑ p, ragInner (ragMult w us p) V := by
    intro V
    simp only [ragInner]
    rw [sum_comm]
    refine sum_congr rfl fun i _ => ?_
    rw [Finset.sum_apply, inner_sum_left]
  constructor
  · intro h
    refine ⟨h.mem, fun y => ?_, fun p y hy => ?_⟩
    · have h1 := h.fopt y
      have h2 := hq (y - xs)
      simp only [hip] at h1
      linarith
    · have h1 := h.gopt p y hy
      rw [hip] at h1
      linarith
  · intro h
    refine ⟨h.mem, fun y => ?_, fun p y hy => ?_⟩
    · simp only [hip]
      rw [← hsum]
      refine hkkt xs _ (fun Y => ?_) y
      have := h.fopt Y
      rw [hsum]
      linarith
    · have h1 := h.gopt p y hy
      rw [hip]
      linarith

theorem saddlePoint_min {V : Type} [AddCommGroup V] {ip : V → V → ℝ} {f : V → ℝ} {C : Fin n → Set V} {g : Fin n → V → ℝ} {xs : V} {Λ : Fin n → V}
    (h : IsSaddlePoint ip f C g xs Λ) : IsMinOver f C g xs := by
  refine ⟨h.mem, fun y hy => ?_⟩
  have h1 := h.fopt y
  have h2 := sum_le_sum fun p (_ : p ∈ univ) => h.gopt p y (hy p)
  rw [sum_sub_distrib] at h2
  linarith

/-- At least one inner iteration is made. -/
theorem inner_pos {N M : ℕ} (hN : 0 < N) (hM : M ≤ N) {Q : ℕ → Prop} (h : M < N → ∃ k, M = k + 1 ∧ Q k) : 0 < M := by
  rcases hM.lt_or_eq with h' | h'
  · obtain ⟨k, rfl, -⟩ := h h'; omega
  · omega

/-! ### The updates -/

/-- C114, mode 0: with convex penalties, an update of A with any positive number of inner iterations and any inner tolerance returns the auxiliary and dual
variables it was given, together with the factor `x`, exactly if all auxiliary variables equal `x` and `x` is a saddle point of the subproblem with the scaled dual
variables as multipliers. In particular `x` is then a constrained minimiser. -/
theorem C114_A (P : Params R) (hsvd : ValidSVD P) (hN : 0 < P.nInner) (X : Ragged I K J) {l2 : ℝ} (hl : 0 ≤ l2) (constant : Bool) (F : Factors I K R J)
    (pens : Fin n → PenA I R) (aux dual : Fin n → Matrix (Fin I) (Fin R) ℝ) (hn : 0 < n) (hw : ∀ i, 0 < weightA P.scale F i)
    (C : Fin n → Set (Matrix (Fin I) (Fin R) ℝ)) (g : Fin n → Matrix (Fin I) (Fin R) ℝ → ℝ) (hp : ∀ p, (pens p).ProxOf (C p) (g p))
    (hg : ∀ p, ConvexOn ℝ (C p) (g p)) (ρ : Fin I → ℝ) (hρ : IsWeights constant (weightA P.scale F) ρ)
    (s : MatState I R n) (h : admmUpdateA P X pens l2 constant F aux dual = .ok s) (x : Matrix (Fin I) (Fin R) ℝ) :
    (s = ⟨x, aux, dual⟩ ↔ (∀ p, aux p = x) ∧ IsSaddlePoint Spec.inner (fitA X l2 F) C g x (rowMult ρ dual)) ∧
      (s = ⟨x, aux, dual⟩ → IsMinOver (fitA X l2 F) C g x) := by
  obtain ⟨M, hM, seq, h0, hs, hstep, -, hd, -⟩ := C33_A P X pens l2 constant F aux dual s h
  have hM0 := inner_pos hN hM hd
  have hpos := hρ.pos hw
  have key := cycle_iff_saddle (W := matIP ρ fun i => (hpos i).le) (f := fitA X l2 F) (q := quadA F l2) (C := C) (g := g) (x := fun k => (seq k).x)
    (z := fun k => (seq k).aux) (u := fun k => (seq k).dual) hM0 hn
    (fun k hk => isStepA (F := ⟨(seq k).x, F.B, F.C⟩) hsvd hl hn hw (hstep k hk) hp hg hρ) (matIP_def hpos) (quadA_neg F l2) (quadA_nonneg F hl) x
  rw [saddle_mat (f := fitA X l2 F) _ (quadA_nonneg F hl) (fun xs S => kktA X F l2 xs S)] at key
  simp only [h0] at key
  have hiff : s = ⟨x, aux, dual⟩ ↔ (∀ p, aux p = x) ∧ IsSaddlePoint Spec.inner (fitA X l2 F) C g x (rowMult ρ dual) := by
    rw [hs]
    constructor
    · intro e
      obtain ⟨k1, k2⟩ := key.1 ⟨by rw [e], by rw [e], by rw [e]⟩
      exact ⟨fun p => (k1 p).symm, k2⟩
    · rintro ⟨k1, k2⟩
      obtain ⟨e1, e2, e3⟩ := key.2 ⟨fun p => (k1 p).symm, k2⟩
      cases hq : seq M with
      | mk a b c =>
        rw [hq] at e1 e2 e3
        simp only at e1 e2 e3
        rw [e1, e2, e3]
  exact ⟨hiff, fun e => saddlePoint_min (hiff.1 e).2⟩

/-- C114, mode 1. Auxiliary variables are compared as matrices. -/
theorem C114_B (P : Params R) (hsvd : ValidSVD P) (hN : 0 < P.nInner) (X : Ragged I K J) {l2 : ℝ} (hl : 0 ≤ l2) (constant : Bool) (F : Factors I K R J)
    (pens : Fin n → PenB I R J) (aux : Fin n → AuxB I R J) (dual : Fin n → Ragged I R J) (hn : 0 < n) (hw : ∀ i, 0 < weightB P.scale F i)
    (C : Fin n → Set (Ragged I R J)) (g : Fin n → Ragged I R J → ℝ) (hp : ∀ p, (pens p).ProxOf (C p) (g p))
    (hg : ∀ p, ConvexOn ℝ (C p) (g p)) (ρ : Fin I → ℝ) (hρ : IsWeights constant (weightB P.scale F) ρ)
    (s : RagState I R n J) (h : admmUpdateB P X pens l2 constant F aux dual = .ok s) (x : Ragged I R J) :
    ((s.x = x ∧ (∀ p, (s.aux p).toMats = (aux p).toMats) ∧ s.dual = dual) ↔
      (∀ p, (aux p).toMats = x) ∧ IsSaddlePoint ragInner (fitB X l2 F) C g x (ragMult ρ dual)) ∧
      ((s.x = x ∧ (∀ p, (s.aux p).toMats = (aux p).toMats) ∧ s.dual = dual) → IsMinOver (fitB X l2 F) C g x) := by
  obtain ⟨M, hM, seq, h0, hs, hstep, -, hd, -⟩ := C33_B P X pens l2 constant F aux dual s h
  have hM0 := inner_pos hN hM hd
  have hpos := hρ.pos hw
  have key := cycle_iff_saddle (W := ragIP ρ fun i => (hpos i).le) (f := fitB X l2 F) (q := quadB F l2) (C := C) (g := g) (x := fun k => (seq k).x)
    (z := fun k p => ((seq k).aux p).toMats) (u := fun k => (seq k).dual) hM0 hn
    (fun k hk => isStepB (F := ⟨F.A, (seq k).x, F.C⟩) hsvd hl hn hw (hstep k hk) hp hg hρ) (ragIP_def hpos) (quadB_neg F l2) (quadB_nonneg F hl) x
  rw [saddle_rag (f := fitB X l2 F) _ (quadB_nonneg F hl) (fun xs S => kktB X F l2 xs S)] at key
  simp only [h0, ← hs] at key
  have hiff : (s.x = x ∧ (∀ p, (s.aux p).toMats = (aux p).toMats) ∧ s.dual = dual) ↔
      (∀ p, (aux p).toMats = x) ∧ IsSaddlePoint ragInner (fitB X l2 F) C g x (ragMult ρ dual) := by
    constructor
    · rintro ⟨e1, e2, e3⟩
      obtain ⟨k1, k2⟩ := key.1 ⟨e1, funext e2, e3⟩
      exact ⟨fun p => (k1 p).symm, k2⟩
    · rintro ⟨k1, k2⟩
      obtain ⟨e1, e2, e3⟩ := key.2 ⟨fun p => (k1 p).symm, k2⟩
      exact ⟨e1, fun p => congrFun e2 p, e3⟩
  exact ⟨hiff, fun e => saddlePoint_min (hiff.1 e).2⟩

/-- C114, mode 2. -/
theorem C114_C (P : Params R) (hsvd : ValidSVD P) (hN : 0 < P.nInner) (X : Ragged I K J) {l2 : ℝ} (hl : 0 ≤ l2) (F : Factors I K R J)
    (pens : Fin n → PenC K R) (aux dual : Fin n → Matrix (Fin K) (Fin R) ℝ) (hn : 0 < n) (hw : 0 < weightC P.scale F)
    (C : Fin n → Set (Matrix (Fin K) (Fin R) ℝ)) (g : Fin n → Matrix (Fin K) (Fin R) ℝ → ℝ) (hp : ∀ p, (pens p).ProxOf (C p) (g p))
    (hg : ∀ p, ConvexOn ℝ (C p) (g p)) (x : Matrix (Fin K) (Fin R) ℝ) :
    (admmUpdateC P X pens l2 F aux dual = ⟨x, aux, dual⟩ ↔
      (∀ p, aux p = x) ∧ IsSaddlePoint Spec.inner (fitC X l2 F) C g x (rowMult (fun _ => weightC P.scale F) dual)) ∧
      (admmUpdateC P X pens l2 F aux dual = ⟨x, aux, dual⟩ → IsMinOver (fitC X l2 F) C g x) := by
  obtain ⟨M, hM, seq, h0, hs, hstep, -, hd, -⟩ := C33_C P X pens l2 F aux dual
  have hM0 := inner_pos hN hM hd
  have key := cycle_iff_saddle (W := matIP (fun _ => weightC P.scale F) fun _ => hw.le) (f := fitC X l2 F) (q := quadC F l2) (C := C) (g := g) (x := fun k => (seq k).x)
    (z := fun k => (seq k).aux) (u := fun k => (seq k).dual) hM0 hn
    (fun k hk => isStepC (F := ⟨F.A, F.B, (seq k).x⟩) hsvd hl hn hw (hstep k hk) hp hg) (matIP_def fun _ => hw) (quadC_neg F l2) (quadC_nonneg F hl) x
  rw [saddle_mat (f := fitC X l2 F) _ (quadC_nonneg F hl) (fun xs S => kktC X F l2 xs S)] at key
  simp only [h0] at key
  have hiff : admmUpdateC P X pens l2 F aux dual = ⟨x, aux, dual⟩ ↔
      (∀ p, aux p = x) ∧ IsSaddlePoint Spec.inner (fitC X l2 F) C g x (rowMult (fun _ => weightC P.scale F) dual) := by
    rw [hs]
    constructor
    · intro e
      obtain ⟨k1, k2⟩ := key.1 ⟨by rw [e], by rw [e], by rw [e]⟩
      exact ⟨fun p => (k1 p).symm, k2⟩
    · rintro ⟨k1, k2⟩
      obtain ⟨e1, e2, e3⟩ := key.2 ⟨fun p => (k1 p).symm, k2⟩
      cases hq : seq M with
      | mk a b c =>
        rw [hq] at e1 e2 e3
        simp only at e1 e2 e3
        rw [e1, e2, e3]
  exact ⟨hiff, fun e => saddlePoint_min (hiff.1 e).2⟩

/-! ### Without penalties -/

theorem saddle_none {V : Type} [AddCommGroup V] {ip : V → V → ℝ} {f : V → ℝ} {C : Fin 0 → Set V} {g : Fin 0 → V → ℝ} {x : V} {Λ : Fin 0 → V} :
    IsSaddlePoint ip f C g x Λ ↔ ∀ y, f x ≤ f y :=
  ⟨fun h y => by simpa using h.fopt y, fun h => ⟨fun p => p.elim0, fun y => by simpa using h y, fun p => p.elim0⟩⟩

theorem strict_min_iff {V : Type} {f : V → ℝ} {x₀ : V} (h : ∀ y, y ≠ x₀ → f x₀ < f y) (x : V) : x₀ = x ↔ ∀ y, f x ≤ f y := by
  constructor
  · rintro rfl y
    by_cases hy : y = x₀
    · rw [hy]
    · exact (h y hy).le
  · intro hx
    by_contra hne
    exact absurd (hx x₀) (not_le.2 (h x fun e => hne e.symm))

theorem fixed_noneA (P : Params R) (hsvd : ValidSVD P) (hN : 0 < P.nInner) (X : Ragged I K J) (l2 : ℝ) (constant : Bool) (F : Factors I K R J)
    (pens : Fin 0 → PenA I R) (aux dual : Fin 0 → Matrix (Fin I) (Fin R) ℝ) (hsol : SolvableA F l2) (s : MatState I R 0)
    (h : admmUpdateA P X pens l2 constant F aux dual = .ok s) (x : Matrix (Fin I) (Fin R) ℝ) : s.x = x ↔ ∀ Y, fitA X l2 F x ≤ fitA X l2 F Y := by
  refine strict_min_iff (f := fitA X l2 F) (fun Y hY => ?_) x
  have := C27_A P hsvd hN X (l2, 0, 0) constant F pens aux dual hsol s h Y hY
  simp only [ridgeObj, fitA] at *
  linarith

theorem fixed_noneB (P : Params R) (hsvd : ValidSVD P) (hN : 0 < P.nInner) (X : Ragged I K J) (l2 : ℝ) (constant : Bool) (F : Factors I K R J)
    (pens : Fin 0 → PenB I R J) (aux : Fin 0 → AuxB I R J) (dual : Fin 0 → Ragged I R J) (hsol : SolvableB F l2) (s : RagState I R 0 J)
    (h : admmUpdateB P X pens l2 constant F aux dual = .ok s) (x : Ragged I R J) : s.x = x ↔ ∀ Y, fitB X l2 F x ≤ fitB X l2 F Y := by
  refine strict_min_iff (f := fitB X l2 F) (fun Y hY => ?_) x
  have := C27_B P hsvd hN X (0, l2, 0) constant F pens aux dual hsol s h Y hY
  simp only [ridgeObj, fitB] at *
  linarith

theorem fixed_noneC (P : Params R) (hsvd : ValidSVD P) (hN : 0 < P.nInner) (X : Ragged I K J) (l2 : ℝ) (F : Factors I K R J)
    (pens : Fin 0 → PenC K R) (aux dual : Fin 0 → Matrix (Fin K) (Fin R) ℝ) (hsol : SolvableC F l2) (x : Matrix (Fin K) (Fin R) ℝ) :
    (admmUpdateC P X pens l2 F aux dual).x = x ↔ ∀ Y, fitC X l2 F x ≤ fitC X l2 F Y := by
  refine strict_min_iff (f := fitC X l2 F) (fun Y hY => ?_) x
  have := C27_C P hsvd hN X (0, 0, l2) F pens aux dual hsol Y hY
  simp only [ridgeObj, fitC] at *
  linarith

/-! ### Outer iterations -/

/-- Two states with the same factors, auxiliary variables (as matrices) and dual variables. -/
structure Unchanged (s t : AOState I K R nA nB nC J) : Prop where
  F : t.F = s.F
  auxA : t.auxA = s.auxA
  auxB : ∀ p, (t.auxB p).toMats = (s.auxB p).toMats
  auxC : t.auxC = s.auxC
  dualA : t.dualA = s.dualA
  dualB : t.dualB = s.dualB
  dualC : t.dualC = s.dualC

/-- The penalties of an updated mode are proximal operators of convex functions `g p` on sets `S p`, and its subproblem is well posed: there are penalties and the
feasibility penalties are positive, or there are none and the fit determines the factor. -/
structure ConvexA (P : Problem I K R nA nB nC J) (F : Factors I K R J) (S : Fin nA → Set (Matrix (Fin I) (Fin R) ℝ))
    (g : Fin nA → Matrix (Fin I) (Fin R) ℝ → ℝ) (ρ : Fin I → ℝ) : Prop where
  prox : ∀ p, (P.pensA p).ProxOf (S p) (g p)
  convex : ∀ p, ConvexOn ℝ (S p) (g p)
  ridge : 0 ≤ P.l2.1
  weights : IsWeights P.constA (weightA P.params.scale F) ρ
  well : (0 < nA ∧ ∀ i, 0 < weightA P.params.scale F i) ∨ (nA = 0 ∧ SolvableA F P.l2.1)

/-- The same for mode 1. -/
structure ConvexB (P : Problem I K R nA nB nC J) (F : Factors I K R J) (S : Fin nB → Set (Ragged I R J))
    (g : Fin nB → Ragged I R J → ℝ) (ρ : Fin I → ℝ) : Prop where
  prox : ∀ p, (P.pensB p).ProxOf (S p) (g p)
  convex : ∀ p, ConvexOn ℝ (S p) (g p)
  ridge : 0 ≤ P.l2.2.1
  weights : IsWeights P.constB (weightB P.params.scale F) ρ
  well : (0 < nB ∧ ∀ i, 0 < weightB P.params.scale F i) ∨ (nB = 0 ∧ SolvableB F P.l2.2.1)

/-- The same for mode 2. -/
structure ConvexC (P : Problem I K R nA nB nC J) (F : Factors I K R J) (S : Fin nC → Set (Matrix (Fin K) (Fin R) ℝ))
    (g : Fin nC → Matrix (Fin K) (Fin R) ℝ → ℝ) : Prop where
  prox : ∀ p, (P.pensC p).ProxOf (S p) (g p)
  convex : ∀ p, ConvexOn ℝ (S p) (g p)
  ridge : 0 ≤ P.l2.2.2
  well : (0 < nC ∧ 0 < weightC P.params.scale F) ∨ (nC = 0 ∧ SolvableC F P.l2.2.2)

theorem fixedA {P : Problem I K R nA nB nC J} (hsvd : ValidSVD P.params) (hN : 0 < P.params.nInner) {F : Factors I K R J}
    {S : Fin nA → Set (Matrix (Fin I) (Fin R) ℝ)} {g : Fin nA → Matrix (Fin I) (Fin R) ℝ → ℝ} {ρ : Fin I → ℝ} (hc : ConvexA P F S g ρ)
    {aux dual : Fin nA → Matrix (Fin I) (Fin R) ℝ} {s : MatState I R nA} (h : admmUpdateA P.params P.X P.pensA P.l2.1 P.constA F aux dual = .ok s)
    (x : Matrix (Fin I) (Fin R) ℝ) : (s.x = x ∧ s.aux = aux ∧ s.dual = dual) ↔
      (∀ p, aux p = x) ∧ IsSaddlePoint Spec.inner (fitA P.X P.l2.1 F) S g x (rowMult ρ dual) := by
  have hs : (s.x = x ∧ s.aux = aux ∧ s.dual = dual) ↔ s = ⟨x, aux, dual⟩ := by cases s; simp
  rcases hc.well with ⟨hn, hw⟩ | ⟨hn, hsol⟩
  · rw [hs]
    exact (C114_A P.params hsvd hN P.X hc.ridge P.constA F P.pensA aux dual hn hw S g hc.prox hc.convex ρ hc.weights s h x).1
  · subst hn
    rw [saddle_none, fixed_noneA P.params hsvd hN P.X P.l2.1 P.constA F P.pensA aux dual hsol s h x]
    exact ⟨fun e => ⟨fun p => p.elim0, e.1⟩, fun e => ⟨e.2, funext fun p => p.elim0, funext fun p => p.elim0⟩⟩

theorem fixedB {P : Problem I K R nA nB nC J} (hsvd : ValidSVD P.params) (hN : 0 < P.params.nInner) {F : Factors I K R J}
    {S : Fin nB → Set (Ragged I R J)} {g : Fin nB → Ragged I R J → ℝ} {ρ : Fin I → ℝ} (hc : ConvexB P F S g ρ)
    {aux : Fin nB → AuxB I R J} {dual : Fin nB → Ragged I R J} {s : RagState I R nB J}
    (h : admmUpdateB P.params P.X P.pensB P.l2.2.1 P.constB F aux dual = .ok s)
    (x : Ragged I R J) : (s.x = x ∧ (∀ p, (s.aux p).toMats = (aux p).toMats) ∧ s.dual = dual) ↔
      (∀ p, (aux p).toMats = x) ∧ IsSaddlePoint ragInner (fitB P.X P.l2.2.1 F) S g x (ragMult ρ dual) := by
  rcases hc.well with ⟨hn, hw⟩ | ⟨hn, hsol⟩
  · exact (C114_B P.params hsvd hN P.X hc.ridge P.constB F P.pensB aux dual hn hw S g hc.prox hc.convex ρ hc.weights s h x).1
  · subst hn
    rw [saddle_none, fixed_noneB P.params hsvd hN P.X P.l2.2.1 P.constB F P.pensB aux dual hsol s h x]
    exact ⟨fun e => ⟨fun p => p.elim0, e.1⟩, fun e => ⟨e.2, fun p => p.elim0, funext fun p => p.elim0⟩⟩

theorem fixedC {P : Problem I K R nA nB nC J} (hsvd : ValidSVD P.params) (hN : 0 < P.params.nInner) {F : Factors I K R J}
    {S : Fin nC → Set (Matrix (Fin K) (Fin R) ℝ)} {g : Fin nC → Matrix (Fin K) (Fin R) ℝ → ℝ} (hc : ConvexC P F S g)
    {aux dual : Fin nC → Matrix (Fin K) (Fin R) ℝ} {s : MatState K R nC} (h : admmUpdateC P.params P.X P.pensC P.l2.2.2 F aux dual = s)
    (x : Matrix (Fin K) (Fin R) ℝ) : (s.x = x ∧ s.aux = aux ∧ s.dual = dual) ↔
      (∀ p, aux p = x) ∧ IsSaddlePoint Spec.inner (fitC P.X P.l2.2.2 F) S g x (rowMult (fun _ => weightC P.params.scale F) dual) := by
  have hs : (s.x = x ∧ s.aux = aux ∧ s.dual = dual) ↔ s = ⟨x, aux, dual⟩ := by cases s; simp
  rcases hc.well with ⟨hn, hw⟩ | ⟨hn, hsol⟩
  · rw [hs, ← h]
    exact (C114_C P.params hsvd hN P.X hc.ridge F P.pensC aux dual hn hw S g hc.prox hc.convex x).1
  · subst hn
    rw [saddle_none, ← h, fixed_noneC P.params hsvd hN P.X P.l2.2.2 F P.pensC aux dual hsol x]
    exact ⟨fun e => ⟨fun p => p.elim0, e.1⟩, fun e => ⟨e.2, funext fun p => p.elim0, funext fun p => p.elim0⟩⟩

/-- The updates of one outer iteration. -/
theorem sweep_parts {P : Problem I K R nA nB nC J} {s t : AOState I K R nA nB nC J} {i : Option (Inter I R)} (h : sweep P s = .ok (t, i)) :
    (P.updB = true → ∃ b, admmUpdateB P.params P.X P.pensB P.l2.2.1 P.constB s.F s.auxB s.dualB = .ok b ∧ t.F.B = b.x ∧ t.auxB = b.aux ∧ t.dualB = b.dual) ∧
    (P.updB = false → t.F.B = s.F.B ∧ t.auxB = s.auxB ∧ t.dualB = s.dualB) ∧
    (P.updC = true → ∃ c, admmUpdateC P.params P.X P.pensC P.l2.2.2 ⟨s.F.A, t.F.B, s.F.C⟩ s.auxC s.dualC = c ∧
      t.F.C = c.x ∧ t.auxC = c.aux ∧ t.dualC = c.dual) ∧
    (P.updC = false → t.F.C = s.F.C ∧ t.auxC = s.auxC ∧ t.dualC = s.dualC) ∧
    (P.updA = true → ∃ a, admmUpdateA P.params P.X P.pensA P.l2.1 P.constA ⟨s.F.A, t.F.B, t.F.C⟩ s.auxA s.dualA = .ok a ∧
      t.F.A = a.x ∧ t.auxA = a.aux ∧ t.dualA = a.dual) ∧
    (P.updA = false → t.F.A = s.F.A ∧ t.auxA = s.auxA ∧ t.dualA = s.dualA) := by
  obtain ⟨u, hB, hA⟩ := sweep_ok h
  have eB : (P.updB = true → ∃ b, admmUpdateB P.params P.X P.pensB P.l2.2.1 P.constB s.F s.auxB s.dualB = .ok b ∧ u.F.B = b.x ∧ u.auxB = b.aux ∧ u.dualB = b.dual) ∧
      (P.updB = false → u.F.B = s.F.B ∧ u.auxB = s.auxB ∧ u.dualB = s.dualB) ∧ u.F.A = s.F.A ∧ u.F.C = s.F.C ∧ u.auxA = s.auxA ∧ u.dualA = s.dualA ∧
      u.auxC = s.auxC ∧ u.dualC = s.dualC := by
    unfold sweepB at hB
    by_cases hu : P.updB = true
    · rw [if_pos hu] at hB
      cases hb : admmUpdateB P.params P.X P.pensB P.l2.2.1 P.constB s.F s.auxB s.dualB with
      | error e => rw [hb] at hB; cases hB
      | ok b =>
        rw [hb] at hB
        simp only [Except.map, Except.ok.injEq] at hB
        subst hB
        exact ⟨fun _ => ⟨b, rfl, rfl, rfl, rfl⟩, fun hf => (by rw [hu] at hf; cases hf), rfl, rfl, rfl, rfl, rfl, rfl⟩
    · rw [if_neg hu] at hB
      simp only [Except.ok.injEq] at hB
      subst hB
      exact ⟨fun hf => absurd hf hu, fun _ => ⟨rfl, rfl, rfl⟩, rfl, rfl, rfl, rfl, rfl, rfl⟩
  obtain ⟨b1, b2, b3, b4, b5, b6, b7, b8⟩ := eB
  have eC : (P.updC = true → ∃ c, admmUpdateC P.params P.X P.pensC P.l2.2.2 ⟨s.F.A, u.F.B, s.F.C⟩ s.auxC s.dualC = c ∧
      (sweepC P u).F.C = c.x ∧ (sweepC P u).auxC = c.aux ∧ (sweepC P u).dualC = c.dual) ∧
      (P.updC = false → (sweepC P u).F.C = s.F.C ∧ (sweepC P u).auxC = s.auxC ∧ (sweepC P u).dualC = s.dualC) ∧
      (sweepC P u).F.A = s.F.A ∧ (sweepC P u).F.B = u.F.B ∧ (sweepC P u).auxA = s.auxA ∧ (sweepC P u).dualA = s.dualA ∧
      (sweepC P u).auxB = u.auxB ∧ (sweepC P u).dualB = u.dualB := by
    have hF : u.F = ⟨s.F.A, u.F.B, s.F.C⟩ := by rw [← b3, ← b4]
    unfold sweepC
    by_cases hu : P.updC = true
    · simp only [hu, if_true]
      rw [b7, b8, hF]
      exact ⟨fun _ => ⟨_, rfl, rfl, rfl, rfl⟩, fun hf => (by cases hf), by simp, by simp, b5, b6, by simp, by simp⟩
    · simp only [hu]
      exact ⟨fun hf => absurd hf (by simp), fun _ => ⟨b4, b7, b8⟩, b3, rfl, b5, b6, rfl, rfl⟩
  obtain ⟨c1, c2, c3, c4, c5, c6, c7, c8⟩ := eC
  generalize sweepC P u = v at *
  have hF : v.F = ⟨s.F.A, u.F.B, v.F.C⟩ := by rw [← c3, ← c4]
  unfold sweepA at hA
  by_cases hu : P.updA = true
  · rw [if_pos hu] at hA
    cases ha : admmUpdateA P.params P.X P.pensA P.l2.1 P.constA v.F v.auxA v.dualA with
    | error e => rw [ha] at hA; cases hA
    | ok a =>
      rw [ha] at hA
      simp only [Except.map, Except.ok.injEq, Prod.mk.injEq] at hA
      obtain ⟨rfl, -⟩ := hA
      rw [c5, c6, hF] at ha
      simp only [c4, c7, c8]
      exact ⟨b1, b2, c1, c2, fun _ => ⟨a, ha, rfl, rfl, rfl⟩, fun hf => by rw [hu] at hf; cases hf⟩
  · rw [if_neg hu] at hA
    simp only [Except.ok.injEq, Prod.mk.injEq] at hA
    obtain ⟨rfl, -⟩ := hA
    rw [c4, c7, c8]
    exact ⟨b1, b2, c1, c2, fun hf => absurd hf hu, fun _ => ⟨c3, c5, c6⟩⟩

/-- C114, one outer iteration: with convex penalties, an outer iteration leaves the factors, the auxiliary and the dual variables unchanged exactly if for every updated mode all
auxiliary variables equal the factor and the factor is a saddle point of its subproblem, the other factors being those of the same state. -/
theorem C114_sweep (P : Problem I K R nA nB nC J) (hsvd : ValidSVD P.params) (hN : 0 < P.params.nInner) (s t : AOState I K R nA nB nC J)
    (SA : Fin nA → Set (Matrix (Fin I) (Fin R) ℝ)) (gA : Fin nA → Matrix (Fin I) (Fin R) ℝ → ℝ) (ρA : Fin I → ℝ) (hA : P.updA = true → ConvexA P s.F SA gA ρA)
    (SB : Fin nB → Set (Ragged I R J)) (gB : Fin nB → Ragged I R J → ℝ) (ρB : Fin I → ℝ) (hB : P.updB = true → ConvexB P s.F SB gB ρB)
    (SC : Fin nC → Set (Matrix (Fin K) (Fin R) ℝ)) (gC : Fin nC → Matrix (Fin K) (Fin R) ℝ → ℝ) (hC : P.updC = true → ConvexC P s.F SC gC)
    (i : Option (Inter I R)) (h : sweep P s = .ok (t, i)) :
    Unchanged s t ↔
      (P.updA = true → (∀ p, s.auxA p = s.F.A) ∧ IsSaddlePoint Spec.inner (fitA P.X P.l2.1 s.F) SA gA s.F.A (rowMult ρA s.dualA)) ∧
      (P.updB = true → (∀ p, (s.auxB p).toMats = s.F.B) ∧ IsSaddlePoint ragInner (fitB P.X P.l2.2.1 s.F) SB gB s.F.B (ragMult ρB s.dualB)) ∧
      (P.updC = true → (∀ p, s.auxC p = s.F.C) ∧
        IsSaddlePoint Spec.inner (fitC P.X P.l2.2.2 s.F) SC gC s.F.C (rowMult (fun _ => weightC P.params.scale s.F) s.dualC)) := by
  obtain ⟨b1, b2, c1, c2, a1, a2⟩ := sweep_parts h
  constructor
  · intro hu
    refine ⟨fun ua => ?_, fun ub => ?_, fun uc => ?_⟩
    · obtain ⟨a, ha, e1, e2, e3⟩ := a1 ua
      rw [hu.F] at ha e1
      exact (fixedA hsvd hN (hA ua) ha s.F.A).1 ⟨e1.symm, by rw [← e2, hu.auxA], by rw [← e3, hu.dualA]⟩
    · obtain ⟨b, hb, e1, e2, e3⟩ := b1 ub
      rw [hu.F] at e1
      exact (fixedB hsvd hN (hB ub) hb s.F.B).1 ⟨e1.symm, fun p => by rw [← e2, hu.auxB], by rw [← e3, hu.dualB]⟩
    · obtain ⟨c, hc, e1, e2, e3⟩ := c1 uc
      rw [hu.F] at hc e1
      exact (fixedC hsvd hN (hC uc) hc s.F.C).1 ⟨e1.symm, by rw [← e2, hu.auxC], by rw [← e3, hu.dualC]⟩
  · rintro ⟨oA, oB, oC⟩
    have kB : t.F.B = s.F.B ∧ (∀ p, (t.auxB p).toMats = (s.auxB p).toMats) ∧ t.dualB = s.dualB := by
      by_cases ub : P.updB = true
      · obtain ⟨b, hb, e1, e2, e3⟩ := b1 ub
        obtain ⟨f1, f2, f3⟩ := (fixedB hsvd hN (hB ub) hb s.F.B).2 (oB ub)
        exact ⟨e1.trans f1, fun p => by rw [e2, f2], e3.trans f3⟩
      · obtain ⟨f1, f2, f3⟩ := b2 (by simpa using ub)
        exact ⟨f1, fun p => by rw [f2], f3⟩
    have kC : t.F.C = s.F.C ∧ t.auxC = s.auxC ∧ t.dualC = s.dualC := by
      by_cases uc : P.updC = true
      · obtain ⟨c, hc, e1, e2, e3⟩ := c1 uc
        rw [kB.1] at hc
        obtain ⟨f1, f2, f3⟩ := (fixedC hsvd hN (hC uc) hc s.F.C).2 (oC uc)
        exact ⟨e1.trans f1, e2.trans f2, e3.trans f3⟩
      · exact c2 (by simpa using uc)
    have kA : t.F.A = s.F.A ∧ t.auxA = s.auxA ∧ t.dualA = s.dualA := by
      by_cases ua : P.updA = true
      · obtain ⟨a, ha, e1, e2, e3⟩ := a1 ua
        rw [kB.1, kC.1] at ha
        obtain ⟨f1, f2, f3⟩ := (fixedA hsvd hN (hA ua) ha s.F.A).2 (oA ua)
        exact ⟨e1.trans f1, e2.trans f2, e3.trans f3⟩
      · exact a2 (by simpa using ua)
    have hF : t.F = s.F := by
      cases ht : t.F; cases hs : s.F
      rw [ht, hs] at kA kB kC
      simp only at kA kB kC
      rw [kA.1, kB.1, kC.1]
    exact ⟨hF, kA.2.1, kB.2.1, kC.2.1, kA.2.2, kB.2.2, kC.2.2⟩

theorem Unchanged.trans {s t u : AOState I K R nA nB nC J} (h : Unchanged s t) (k : Unchanged t u) : Unchanged s u :=
  ⟨k.F.trans h.F, k.auxA.trans h.auxA, fun p => (k.auxB p).trans (h.auxB p), k.auxC.trans h.auxC, k.dualA.trans h.dualA, k.dualB.trans h.dualB, k.dualC.trans h.dualC⟩

/-- C114, calls: if one more iteration does not change what `cmf_aoadmm` returns, every updated factor equals its auxiliary variables and minimises the regularized loss among the
feasible choices of this factor, the other two factors fixed. -/
theorem C114_call (P : Problem I K R nA nB nC J) (hsvd : ValidSVD P.params) (hN : 0 < P.params.nInner) (init : AOState I K R nA nB nC J)
    (outs : ℕ → Output (AOState I K R nA nB nC J)) (h : ∀ n : ℕ, cmfAoadmm P (plain n) init = .ok (outs n)) (m : ℕ) (hm : Unchanged (outs m).st (outs (m + 1)).st)
    (SA : Fin nA → Set (Matrix (Fin I) (Fin R) ℝ)) (gA : Fin nA → Matrix (Fin I) (Fin R) ℝ → ℝ) (ρA : Fin I → ℝ)
    (hA : P.updA = true → ConvexA P (outs m).st.F SA gA ρA)
    (SB : Fin nB → Set (Ragged I R J)) (gB : Fin nB → Ragged I R J → ℝ) (ρB : Fin I → ℝ) (hB : P.updB = true → ConvexB P (outs m).st.F SB gB ρB)
    (SC : Fin nC → Set (Matrix (Fin K) (Fin R) ℝ)) (gC : Fin nC → Matrix (Fin K) (Fin R) ℝ → ℝ) (hC : P.updC = true → ConvexC P (outs m).st.F SC gC) :
    (P.updA = true → (∀ p, (outs m).st.auxA p = (outs m).st.F.A) ∧ IsMinOver (fitA P.X P.l2.1 (outs m).st.F) SA gA (outs m).st.F.A) ∧
    (P.updB = true → (∀ p, ((outs m).st.auxB p).toMats = (outs m).st.F.B) ∧ IsMinOver (fitB P.X P.l2.2.1 (outs m).st.F) SB gB (outs m).st.F.B) ∧
    (P.updC = true → (∀ p, (outs m).st.auxC p = (outs m).st.F.C) ∧ IsMinOver (fitC P.X P.l2.2.2 (outs m).st.F) SC gC (outs m).st.F.C) := by
  obtain ⟨i, hi⟩ := (outs_succ h).2 m
  obtain ⟨o1, o2, o3⟩ := (C114_sweep P hsvd hN _ _ SA gA ρA hA SB gB ρB hB SC gC hC i hi).1 hm
  exact ⟨fun u => ⟨(o1 u).1, saddlePoint_min (o1 u).2⟩, fun u => ⟨(o2 u).1, saddlePoint_min (o2 u).2⟩, fun u => ⟨(o3 u).1, saddlePoint_min (o3 u).2⟩⟩

/-- C114, restarting: started from a state that is a saddle point in every updated mode, `cmf_aoadmm` returns this state after any number of iterations. -/
theorem C114_stay (P : Problem I K R nA nB nC J) (hsvd : ValidSVD P.params) (hN : 0 < P.params.nInner) (init : AOState I K R nA nB nC J)
    (outs : ℕ → Output (AOState I K R nA nB nC J)) (h : ∀ n : ℕ, cmfAoadmm P (plain n) init = .ok (outs n))
    (SA : Fin nA → Set (Matrix (Fin I) (Fin R) ℝ)) (gA : Fin nA → Matrix (Fin I) (Fin R) ℝ → ℝ) (ρA : Fin I → ℝ) (hA : P.updA = true → ConvexA P init.F SA gA ρA)
    (SB : Fin nB → Set (Ragged I R J)) (gB : Fin nB → Ragged I R J → ℝ) (ρB : Fin I → ℝ) (hB : P.updB = true → ConvexB P init.F SB gB ρB)
    (SC : Fin nC → Set (Matrix (Fin K) (Fin R) ℝ)) (gC : Fin nC → Matrix (Fin K) (Fin R) ℝ → ℝ) (hC : P.updC = true → ConvexC P init.F SC gC)
    (oA : P.updA = true → (∀ p, init.auxA p = init.F.A) ∧ IsSaddlePoint Spec.inner (fitA P.X P.l2.1 init.F) SA gA init.F.A (rowMult ρA init.dualA))
    (oB : P.updB = true → (∀ p, (init.auxB p).toMats = init.F.B) ∧ IsSaddlePoint ragInner (fitB P.X P.l2.2.1 init.F) SB gB init.F.B (ragMult ρB init.dualB))
    (oC : P.updC = true → (∀ p, init.auxC p = init.F.C) ∧
      IsSaddlePoint Spec.inner (fitC P.X P.l2.2.2 init.F) SC gC init.F.C (rowMult (fun _ => weightC P.params.scale init.F) init.dualC)) (m : ℕ) :
    Unchanged init (outs m).st := by
  obtain ⟨h0, hs⟩ := outs_succ h
  induction m with
  | zero => rw [h0]; exact ⟨rfl, rfl, fun _ => rfl, rfl, rfl, rfl, rfl⟩
  | succ m ih =>
    obtain ⟨i, hi⟩ := hs m
    refine ih.trans ((C114_sweep P hsvd hN _ _ SA gA ρA ?_ SB gB ρB ?_ SC gC ?_ i hi).2 ⟨?_, ?_, ?_⟩)
    · rw [ih.F]; exact hA
    · rw [ih.F]; exact hB
    · rw [ih.F]; exact hC
    · rw [ih.F, ih.auxA, ih.dualA]; exact oA
    · simp only [ih.auxB]
      rw [ih.F, ih.dualB]; exact oB
    · rw [ih.F, ih.auxC, ih.dualC]; exact oC

/-! ### A case: data 2, an L1 penalty on A, a ridge on B, a ridge and non-negativity on C; the factors 1, 1, 1 solve all three subproblems -/

/-- The problem, with five inner iterations. -/
noncomputable def tripleProblem (prm : Params 1) : Problem 1 1 1 1 0 1 (fun _ => 1) :=
  ⟨fun _ => !![2], fun _ => (StdPen.l1 1 false).toA, Fin.elim0, fun _ => StdPen.nonNeg.toC, (0, 1, 1), prm, false, true, true, true, true⟩

/-- The state. -/
def tripleState : AOState 1 1 1 1 0 1 (fun _ => 1) :=
  ⟨none, ones, fun _ => !![1], fun _ => !![1], Fin.elim0, Fin.elim0, fun _ => !![1], fun _ => 0⟩

/-- C114 applies: `cmf_aoadmm` does not move away from this state, and in each mode the factor is the constrained minimiser. -/
example : ∃ (prm : Params 1) (outs : ℕ → Output (AOState 1 1 1 1 0 1 (fun _ => 1))), prm.nInner = 5 ∧
    (∀ n : ℕ, cmfAoadmm (tripleProblem prm) (plain n) tripleState = .ok (outs n)) ∧ (∀ m, Unchanged tripleState (outs m).st) ∧
    ∀ Y, 1 / 2 ≤ fitA (tripleProblem prm).X 0 ones Y + |Y 0 0| - 1 := by
  obtain ⟨prm, hP, hN, -, hscale⟩ := exists_params 1 5 none 2
  have hout : ∀ n : ℕ, ∃ o, cmfAoadmm (tripleProblem prm) (plain n) tripleState = .ok o := fun n =>
    C61 _ one_pos (fun _ _ => rfl) _ (by intro h; cases h) _
  choose outs ho using hout
  have hvA : (StdPen.l1 (m := 1) (R := 1) 1 false).Valid := by show (0 : ℝ) ≤ 1; norm_num
  have hvC : (StdPen.nonNeg (m := 1) (R := 1)).Valid := trivial
  have wA : ∀ i, weightA prm.scale ones i = 1 := by intro i; rw [hscale]; simp [weightA, ones]
  have wB : ∀ i, weightB prm.scale ones i = 1 := by intro i; rw [hscale]; simp [weightB, ones]
  have wC : weightC prm.scale ones = 1 := by rw [hscale]; simp [weightC, ones]
  have cA : ConvexA (tripleProblem prm) ones (fun _ => (StdPen.l1 (m := 1) (R := 1) 1 false).feasible) (fun _ => (StdPen.l1 (m := 1) (R := 1) 1 false).fn)
      (fun _ => 1) :=
    ⟨fun _ => StdPen.proxA _ hvA, fun _ => StdPen.convexOn _ hvA, le_rfl, ⟨fun _ => funext fun i => (wA i).symm, fun h => by cases h⟩,
      .inl ⟨one_pos, fun i => by rw [show (tripleProblem prm).params = prm from rfl, wA]; norm_num⟩⟩
  have cB : ConvexB (tripleProblem prm) ones Fin.elim0 Fin.elim0 (fun _ => 1) :=
    ⟨fun p => p.elim0, fun p => p.elim0, zero_le_one,
      ⟨fun h => (by cases h), fun _ => ⟨0, fun i => by rw [Subsingleton.elim i 0], fun i => (wB 0).symm⟩⟩, .inr ⟨rfl, fun i v hv => by
        have : v 0 ≠ 0 := fun h0 => hv (by funext i; obtain rfl : i = 0 := Subsingleton.elim _ _; exact h0)
        simp [ones, tripleProblem]; positivity⟩⟩
  have cC : ConvexC (tripleProblem prm) ones (fun _ => (StdPen.nonNeg (m := 1) (R := 1)).feasible) (fun _ => (StdPen.nonNeg (m := 1) (R := 1)).fn) :=
    ⟨fun _ => StdPen.proxC _ hvC, fun _ => StdPen.convexOn _ hvC, zero_le_one,
      .inl ⟨one_pos, by rw [show (tripleProblem prm).params = prm from rfl, wC]; norm_num⟩⟩
  have hst := C114_stay (tripleProblem prm) hP (by show 0 < prm.nInner; omega) tripleState outs ho _ _ _ (fun _ => cA) _ _ _ (fun _ => cB) _ _ (fun _ => cC)
    (fun _ => ⟨fun _ => rfl, by
      refine ⟨fun _ => fun h => (by cases h), fun y => ?_, fun p y _ => ?_⟩
      · simp [fitA, sse, Factors.entry, tripleProblem, tripleState, ones, sqNorm, Spec.inner, rowMult]
        nlinarith [sq_nonneg (y 0 0 - 1)]
      · simp [tripleState, ones, StdPen.fn, absSum, Spec.inner, rowMult]
        linarith [le_abs_self (y 0 0)]⟩)
    (fun _ => ⟨fun p => p.elim0, by
      refine saddle_none.2 fun y => ?_
      simp [fitB, sse, Factors.entry, tripleProblem, tripleState, ones, raggedSq, sqNorm]
      nlinarith [sq_nonneg (y 0 0 0 - 1)]⟩)
    (fun _ => ⟨fun _ => rfl, by
      refine ⟨fun _ i r => ?_, fun y => ?_, fun p y _ => ?_⟩
      · obtain rfl : i = 0 := Subsingleton.elim _ _
        obtain rfl : r = 0 := Subsingleton.elim _ _
        simp [tripleState, ones]
      · simp [fitC, sse, Factors.entry, tripleProblem, tripleState, ones, sqNorm, Spec.inner, rowMult]
        nlinarith [sq_nonneg (y 0 0 - 1)]
      · simp [tripleState, StdPen.fn, Spec.inner, rowMult]⟩)
  refine ⟨prm, outs, hN, ho, hst, fun Y => ?_⟩
  have hF : (outs 3).st.F = ones := (hst 3).F
  have h34 : Unchanged (outs 3).st (outs 4).st := by
    have h3 := hst 3
    have h4 := hst 4
    exact ⟨h4.F.trans h3.F.symm, h4.auxA.trans h3.auxA.symm, fun p => p.elim0, h4.auxC.trans h3.auxC.symm, h4.dualA.trans h3.dualA.symm,
      h4.dualB.trans h3.dualB.symm, h4.dualC.trans h3.dualC.symm⟩
  have hcall := C114_call (tripleProblem prm) hP (by show 0 < prm.nInner; omega) tripleState outs ho 3 h34 _ _ _ (fun _ => by rw [hF]; exact cA) _ _ _
    (fun _ => by rw [hF]; exact cB) _ _ (fun _ => by rw [hF]; exact cC)
  have := (hcall.1 rfl).2.2 Y (fun _ => fun h => by cases h)
  rw [hF] at this
  have e1 : fitA (tripleProblem prm).X 0 ones ones.A = 1 / 2 := by
    simp [fitA, sse, Factors.entry, tripleProblem, ones, sqNorm]; norm_num
  have e2 : (tripleProblem prm).l2.1 = 0 := rfl
  simp only [e2, e1, univ_unique, sum_singleton, StdPen.fn, absSum] at this
  have e3 : |ones.A 0 0| = 1 := by simp [ones]
  have e4 : (default : Fin 1) = 0 := rfl
  simp only [e4, e3] at this
  linarith

end Verif.Props
