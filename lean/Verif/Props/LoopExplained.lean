import Verif.Props.LoopExact
import Verif.Props.LoopFixed
import Verif.Props.LoopWarm

/-!
# C133: how much of the data is explained, and bounds on the factors
-/

set_option linter.unusedSectionVars false

namespace Verif.Props

open Verif.Loop Verif.ADMM Verif.Penalties Verif.Spec Finset Matrix

variable {I K R nA nB nC : ℕ} {J : Fin I → ℕ}

/-- What a ridge regression explains: if no multiple of the prediction `y` has a smaller objective than `y`. -/
theorem ridge_split {ι : Type} [Fintype ι] (x y : ι → ℝ) (q : ℝ) (h : ∀ t : ℝ, ∑ e, (x e - y e) ^ 2 + q ≤ ∑ e, (x e - t * y e) ^ 2 + t ^ 2 * q) :
    ∑ e, (x e - y e) ^ 2 + ∑ e, y e ^ 2 + 2 * q = ∑ e, x e ^ 2 ∧ q ≤ (∑ e, x e ^ 2) / 4 := by
  have ex : ∀ t : ℝ, ∑ e, (x e - t * y e) ^ 2 = ∑ e, x e ^ 2 - 2 * t * ∑ e, x e * y e + t ^ 2 * ∑ e, y e ^ 2 := by
    intro t
    rw [mul_sum, mul_sum, ← sum_sub_distrib, ← sum_add_distrib]
    exact sum_congr rfl fun e _ => by ring
  have e1 := ex 1
  simp only [one_mul, mul_one, one_pow] at e1
  set a := ∑ e, x e ^ 2
  set b := ∑ e, x e * y e
  set c := ∑ e, y e ^ 2
  have hb : b = c + q := by
    by_contra hne
    set δ := c + q - b with hδ
    have hδ0 : δ ≠ 0 := sub_ne_zero.2 (Ne.symm hne)
    set m := |c + q| + 1 with hm
    have hm0 : 0 < m := by positivity
    have h1 := h (1 - δ / m)
    rw [ex, e1] at h1
    have h2 : 0 ≤ -2 * (δ / m) * δ + (δ / m) ^ 2 * (c + q) := by rw [hδ] at *; nlinarith
    have h3 : -2 * (δ / m) * δ + (δ / m) ^ 2 * (c + q) = δ ^ 2 / m * ((c + q) / m - 2) := by field_simp; ring
    rw [h3] at h2
    have h4 : (c + q) / m - 2 < 0 := by
      rw [sub_neg, div_lt_iff₀ hm0]
      have := le_abs_self (c + q)
      have := abs_nonneg (c + q)
      linarith
    have h5 : 0 < δ ^ 2 / m := by positivity
    nlinarith
  have hq : 0 ≤ ∑ e, (x e - 2 * y e) ^ 2 := sum_nonneg fun e _ => sq_nonneg _
  rw [ex] at hq
  rw [e1]
  constructor <;> linarith

/-- Of two sums that only differ in one term. -/
theorem le_of_sum_le_at {f g : Fin I → ℝ} (i : Fin I) (h : ∀ k, k ≠ i → f k = g k) (hs : ∑ k, f k ≤ ∑ k, g k) : f i ≤ g i := by
  rw [← add_sum_erase univ f (mem_univ i), ← add_sum_erase univ g (mem_univ i), sum_congr rfl fun k hk => h k (ne_of_mem_erase hk)] at hs
  linarith

/-- Squared error, squared norm of the represented matrix and twice the penalty add up to the squared norm of the data. -/
def Explains {m n : ℕ} (X M : Matrix (Fin m) (Fin n) ℝ) (q : ℝ) : Prop := sqNorm (X - M) + sqNorm M + 2 * q = sqNorm X ∧ q ≤ sqNorm X / 4

theorem explains_of {m n : ℕ} {X M : Matrix (Fin m) (Fin n) ℝ} {q : ℝ}
    (h : ∀ t : ℝ, ∑ j, ∑ k, (X j k - M j k) ^ 2 + q ≤ ∑ j, ∑ k, (X j k - t * M j k) ^ 2 + t ^ 2 * q) : Explains X M q := by
  have := ridge_split (ι := Fin m × Fin n) (fun e => X e.1 e.2) (fun e => M e.1 e.2) q (fun t => by simpa only [Fintype.sum_prod_type] using h t)
  simpa only [Fintype.sum_prod_type, Explains, sqNorm, Matrix.sub_apply] using this

/-- The factors with row `i` of A multiplied by `c i`. -/
theorem ridge_rows (X : Ragged I K J) (l : ℝ × ℝ × ℝ) (F : Factors I K R J) (c : Fin I → ℝ) : ridgeObj X l ⟨Matrix.of fun i r => c i * F.A i r, F.B, F.C⟩ =
    1 / 2 * ∑ i, (∑ j, ∑ k, (X i j k - c i * F.recon i j k) ^ 2 + c i ^ 2 * (l.1 * ∑ r, F.A i r ^ 2)) + 1 / 2 * (l.2.1 * raggedSq F.B + l.2.2 * sqNorm F.C) := by
  have e1 : ∀ i j k, Factors.entry ⟨Matrix.of fun i r => c i * F.A i r, F.B, F.C⟩ i j k = c i * F.recon i j k := fun i j k => by
    simp only [Factors.entry, Factors.recon, of_apply, mul_sum]
    exact sum_congr rfl fun r _ => by ring
  have e2 : l.1 * sqNorm (Matrix.of fun i r => c i * F.A i r) = ∑ i, c i ^ 2 * (l.1 * ∑ r, F.A i r ^ 2) := by
    simp only [sqNorm, of_apply, mul_pow, mul_sum]
    exact sum_congr rfl fun i _ => sum_congr rfl fun r _ => by ring
  simp only [ridgeObj, sse, e1, e2, sum_add_distrib]
  ring

/-- The factors with `B i` multiplied by `c i`. -/
theorem ridge_mats (X : Ragged I K J) (l : ℝ × ℝ × ℝ) (F : Factors I K R J) (c : Fin I → ℝ) : ridgeObj X l ⟨F.A, fun i => Matrix.of fun j r => c i * F.B i j r, F.C⟩ =
    1 / 2 * ∑ i, (∑ j, ∑ k, (X i j k - c i * F.recon i j k) ^ 2 + c i ^ 2 * (l.2.1 * sqNorm (F.B i))) + 1 / 2 * (l.1 * sqNorm F.A + l.2.2 * sqNorm F.C) := by
  have e1 : ∀ i j k, Factors.entry ⟨F.A, fun i => Matrix.of fun j r => c i * F.B i j r, F.C⟩ i j k = c i * F.recon i j k := fun i j k => by
    simp only [Factors.entry, Factors.recon, of_apply, mul_sum]
    exact sum_congr rfl fun r _ => by ring
  have e2 : l.2.1 * raggedSq (fun i => Matrix.of fun j r => c i * F.B i j r) = ∑ i, c i ^ 2 * (l.2.1 * sqNorm (F.B i)) := by
    simp only [raggedSq, sqNorm, of_apply, mul_pow, mul_sum]
    exact sum_congr rfl fun i _ => sum_congr rfl fun j _ => sum_congr rfl fun r _ => by ring
  simp only [ridgeObj, sse, e1, e2, sum_add_distrib]
  ring

/-- The factors with C multiplied by `t`. -/
theorem ridge_cols (X : Ragged I K J) (l : ℝ × ℝ × ℝ) (F : Factors I K R J) (t : ℝ) : ridgeObj X l ⟨F.A, F.B, Matrix.of fun k r => t * F.C k r⟩ =
    1 / 2 * (∑ i, ∑ j, ∑ k, (X i j k - t * F.recon i j k) ^ 2 + t ^ 2 * (l.2.2 * sqNorm F.C)) + 1 / 2 * (l.1 * sqNorm F.A + l.2.1 * raggedSq F.B) := by
  have e1 : ∀ i j k, Factors.entry ⟨F.A, F.B, Matrix.of fun k r => t * F.C k r⟩ i j k = t * F.recon i j k := fun i j k => by
    simp only [Factors.entry, Factors.recon, of_apply, mul_sum]
    exact sum_congr rfl fun r _ => by ring
  have e2 : sqNorm (Matrix.of fun k r => t * F.C k r) = t ^ 2 * sqNorm F.C := by
    simp only [sqNorm, of_apply, mul_pow, mul_sum]
  simp only [ridgeObj, sse, e1, e2]
  ring

theorem explains_A {X : Ragged I K J} {l : ℝ × ℝ × ℝ} {F : Factors I K R J} (h : ∀ Y, ridgeObj X l F ≤ ridgeObj X l ⟨Y, F.B, F.C⟩) (i : Fin I) :
    Explains (X i) (F.recon i) (l.1 * ∑ r, F.A i r ^ 2) := by
  refine explains_of fun t => ?_
  have h1 := h (Matrix.of fun k r => Function.update (fun _ => (1 : ℝ)) i t k * F.A k r)
  have e0 := ridge_rows X l F fun _ => 1
  simp only [one_mul, one_pow] at e0
  rw [ridge_rows, show ridgeObj X l F = ridgeObj X l ⟨Matrix.of fun i r => F.A i r, F.B, F.C⟩ from rfl, e0] at h1
  have h2 := le_of_sum_le_at i (fun k hk => by simp only [Function.update_of_ne hk, one_mul, one_pow]) (le_of_mul_le_mul_left (le_of_add_le_add_right h1) (by norm_num))
  simpa only [Function.update_self] using h2

theorem explains_B {X : Ragged I K J} {l : ℝ × ℝ × ℝ} {F : Factors I K R J} (h : ∀ Y, ridgeObj X l F ≤ ridgeObj X l ⟨F.A, Y, F.C⟩) (i : Fin I) :
    Explains (X i) (F.recon i) (l.2.1 * sqNorm (F.B i)) := by
  refine explains_of fun t => ?_
  have h1 := h (fun k => Matrix.of fun j r => Function.update (fun _ => (1 : ℝ)) i t k * F.B k j r)
  have e0 := ridge_mats X l F fun _ => 1
  simp only [one_mul, one_pow] at e0
  rw [ridge_mats, show ridgeObj X l F = ridgeObj X l ⟨F.A, fun i => Matrix.of fun j r => F.B i j r, F.C⟩ from rfl, e0] at h1
  have h2 := le_of_sum_le_at i (fun k hk => by simp only [Function.update_of_ne hk, one_mul, one_pow]) (le_of_mul_le_mul_left (le_of_add_le_add_right h1) (by norm_num))
  simpa only [Function.update_self] using h2

theorem explains_C {X : Ragged I K J} {l : ℝ × ℝ × ℝ} {F : Factors I K R J} (h : ∀ Y, ridgeObj X l F ≤ ridgeObj X l ⟨F.A, F.B, Y⟩) :
    sse X F + raggedSq F.recon + 2 * (l.2.2 * sqNorm F.C) = raggedSq X ∧ l.2.2 * sqNorm F.C ≤ raggedSq X / 4 := by
  have key := ridge_split (ι := (i : Fin I) × Fin (J i) × Fin K) (fun e => X e.1 e.2.1 e.2.2) (fun e => F.recon e.1 e.2.1 e.2.2) (l.2.2 * sqNorm F.C) fun t => ?_
  · simp only [Fintype.sum_sigma, Fintype.sum_prod_type] at key
    exact key
  · have h1 := h (Matrix.of fun k r => t * F.C k r)
    have e0 := ridge_cols X l F 1
    simp only [one_mul, one_pow] at e0
    rw [ridge_cols, show ridgeObj X l F = ridgeObj X l ⟨F.A, F.B, Matrix.of fun k r => F.C k r⟩ from rfl, e0] at h1
    simp only [Fintype.sum_sigma, Fintype.sum_prod_type]
    linarith


/-! ### C133 -/

theorem plain_last {P : Problem I K R nA nB nC J} {init : AOState I K R nA nB nC J} {n : ℕ} {o : Output (AOState I K R nA nB nC J)}
    (h : cmfAoadmm P (plain (n + 1 : ℕ)) init = .ok o) : ∃ s i, sweep P s = .ok (o.st, i) := by
  have h2 := plain_sweeps h
  rw [sweeps] at h2
  cases h1 : sweeps (aoOps P) n init with
  | error e => rw [h1] at h2; cases h2
  | ok s =>
    rw [h1] at h2
    simp only [Except.bind] at h2
    rw [show (aoOps P).sweep = sweep P from rfl] at h2
    cases hs : sweep P s with
    | error e => rw [hs] at h2; cases h2
    | ok x =>
      rw [hs] at h2
      simp only [Except.map, Except.ok.injEq] at h2
      exact ⟨s, x.2, by rw [hs, ← h2]⟩

theorem ridge_pos {l : ℝ} (hl : 0 < l) {v : Fin R → ℝ} (hv : v ≠ 0) {q : ℝ} (hq : 0 ≤ q) : 0 < q + l * ∑ r, v r ^ 2 := by
  obtain ⟨r, hr⟩ := Function.ne_iff.1 hv
  have hr' : v r ≠ 0 := hr
  exact add_pos_of_nonneg_of_pos hq (mul_pos hl (sum_pos' (fun _ _ => sq_nonneg _) ⟨r, mem_univ r, by positivity⟩))

theorem solvableA_ridge (F : Factors I K R J) {l : ℝ} (hl : 0 < l) : SolvableA F l := fun _ _ hv =>
  ridge_pos hl hv (sum_nonneg fun _ _ => sum_nonneg fun _ _ => sq_nonneg _)

theorem solvableB_ridge (F : Factors I K R J) {l : ℝ} (hl : 0 < l) : SolvableB F l := fun _ _ hv => ridge_pos hl hv (sum_nonneg fun _ _ => sq_nonneg _)

theorem solvableC_ridge (F : Factors I K R J) {l : ℝ} (hl : 0 < l) : SolvableC F l := fun _ hv =>
  ridge_pos hl hv (sum_nonneg fun _ _ => sum_nonneg fun _ _ => sq_nonneg _)

/-- C133: if A is updated and has no penalties, then after any positive number of iterations, for every matrix, the squared error, the squared norm of the represented matrix and
twice the L2 penalty of the row of A add up to the squared norm of the data matrix, and the L2 penalty is at most a quarter of it. -/
theorem C133 (P : Problem I K R 0 nB nC J) (hsvd : ValidSVD P.params) (hN : 0 < P.params.nInner) (hu : P.updA = true) (init : AOState I K R 0 nB nC J) (n : ℕ)
    (o : Output (AOState I K R 0 nB nC J)) (h : cmfAoadmm P (plain (n + 1 : ℕ)) init = .ok o) (hs : SolvableA o.st.F P.l2.1) :
    o.st.weights = none ∧ ∀ i, sqNorm (P.X i - o.st.F.recon i) + sqNorm (o.st.F.recon i) + 2 * (P.l2.1 * ∑ r, o.st.F.A i r ^ 2) = sqNorm (P.X i) ∧
      P.l2.1 * ∑ r, o.st.F.A i r ^ 2 ≤ sqNorm (P.X i) / 4 := by
  obtain ⟨s, j, hsw⟩ := plain_last h
  obtain ⟨u, -, hA⟩ := sweep_ok hsw
  refine ⟨((sweepA_frame hA).2.2.2 hu).1, explains_A fun Y => ?_⟩
  obtain ⟨a, ha, ha', -⟩ := (sweep_parts hsw).2.2.2.2.1 hu
  have e : o.st.F = ⟨a.x, o.st.F.B, o.st.F.C⟩ := by rw [← ha']
  by_cases hY : Y = a.x
  · rw [hY, ← e]
  · have := C27_A P.params hsvd hN P.X P.l2 P.constA ⟨s.F.A, o.st.F.B, o.st.F.C⟩ P.pensA s.auxA s.dualA hs a ha Y hY
    rw [← e] at this
    exact this.le

/-- C133 in terms of the recorded reconstruction errors: they are at most 1 after every iteration, and 1 minus their square is the share of the data that is explained (plus the
L2 penalty). -/
theorem C133_errors (P : Problem I K R 0 nB nC J) (hX : P.X ≠ 0) (hsvd : ValidSVD P.params) (hN : 0 < P.params.nInner) (hu : P.updA = true) (hl : 0 ≤ P.l2.1) (a : Args)
    (hr : a.returnErrors = true) (init : AOState I K R 0 nB nC J) (out : Output (AOState I K R 0 nB nC J)) (h : cmfAoadmm P a init = .ok out) :
    ∃ d, out.diag = some d ∧ ∀ t, t < d.nIter → ∃ o e, cmfAoadmm P (plain (t + 1 : ℕ)) init = .ok o ∧ d.recErrors[t + 1]? = some (.fin e) ∧
      (SolvableA o.st.F P.l2.1 → e ≤ 1 ∧ e ^ 2 = 1 - (raggedSq o.st.F.recon + 2 * (P.l2.1 * sqNorm o.st.F.A)) / raggedSq P.X) := by
  obtain ⟨d, h1, -, -, -, h3⟩ := C37 P hX a hr init out h
  refine ⟨d, h1, fun t ht => ?_⟩
  obtain ⟨o, o1, -, o2, -⟩ := h3 (t + 1) ht
  refine ⟨o, _, o1, o2, fun hs => ?_⟩
  obtain ⟨hw, hE⟩ := C133 P hsvd hN hu init t o o1 hs
  have hpos := (C35_direct P.X hX none o.st.F).2
  rw [Real.sqrt_pos] at hpos
  have e : absorb o.st.weights o.st.F = o.st.F := by rw [hw]; simp [absorb]
  have hsum : sse P.X o.st.F + raggedSq o.st.F.recon + 2 * (P.l2.1 * sqNorm o.st.F.A) = raggedSq P.X := by
    have : ∑ i, (sqNorm (P.X i - o.st.F.recon i) + sqNorm (o.st.F.recon i) + 2 * (P.l2.1 * ∑ r, o.st.F.A i r ^ 2)) = ∑ i, sqNorm (P.X i) :=
      sum_congr rfl fun i _ => (hE i).1
    rw [sum_add_distrib, sum_add_distrib, ← mul_sum, ← mul_sum] at this
    exact this
  have h0 : 0 ≤ sse P.X o.st.F := sum_nonneg fun _ _ => sum_nonneg fun _ _ => sum_nonneg fun _ _ => sq_nonneg _
  have hr0 : 0 ≤ raggedSq o.st.F.recon := sum_nonneg fun i _ => sqNorm_nonneg _
  have hA0 : 0 ≤ P.l2.1 * sqNorm o.st.F.A := mul_nonneg hl (sqNorm_nonneg _)
  have hrel : relErr P.X o.st = √(sse P.X o.st.F) / √(raggedSq P.X) := by rw [relErr, e]
  rw [hrel]
  constructor
  · rw [div_le_one (Real.sqrt_pos.2 hpos)]
    exact Real.sqrt_le_sqrt (by linarith)
  · rw [div_pow, Real.sq_sqrt h0, Real.sq_sqrt hpos.le, eq_sub_iff_add_eq, ← add_div, div_eq_one_iff_eq hpos.ne']
    linarith

/-- C133, bounds: whatever the initial values and the penalties of the other modes, after any positive number of iterations a factor with a positive L2 penalty and no other penalties
is bounded by the data: A row by row. -/
theorem C133_bound_A (P : Problem I K R 0 nB nC J) (hsvd : ValidSVD P.params) (hN : 0 < P.params.nInner) (hu : P.updA = true) (hl : 0 < P.l2.1) (init : AOState I K R 0 nB nC J)
    (n : ℕ) (o : Output (AOState I K R 0 nB nC J)) (h : cmfAoadmm P (plain (n + 1 : ℕ)) init = .ok o) (i : Fin I) :
    ∑ r, o.st.F.A i r ^ 2 ≤ sqNorm (P.X i) / (4 * P.l2.1) := by
  have := ((C133 P hsvd hN hu init n o h (solvableA_ridge _ hl)).2 i).2
  rw [le_div_iff₀ (by positivity)]
  linarith

/-- B factor matrix by B factor matrix. -/
theorem C133_bound_B (P : Problem I K R nA 0 nC J) (hsvd : ValidSVD P.params) (hN : 0 < P.params.nInner) (hu : P.updB = true) (hl : 0 < P.l2.2.1) (init : AOState I K R nA 0 nC J)
    (n : ℕ) (o : Output (AOState I K R nA 0 nC J)) (h : cmfAoadmm P (plain (n + 1 : ℕ)) init = .ok o) (i : Fin I) :
    sqNorm (o.st.F.B i) ≤ sqNorm (P.X i) / (4 * P.l2.2.1) := by
  obtain ⟨s, j, hsw⟩ := plain_last h
  obtain ⟨b, hb, hb', -⟩ := (sweep_parts hsw).1 hu
  have := (explains_B (X := P.X) (l := P.l2) (F := ⟨s.F.A, b.x, s.F.C⟩) (fun Y => by
    by_cases hY : Y = b.x
    · rw [hY]
    · exact (C27_B P.params hsvd hN P.X P.l2 P.constB s.F P.pensB s.auxB s.dualB (solvableB_ridge _ hl) b hb Y hY).le) i).2
  rw [hb', le_div_iff₀ (by positivity)]
  dsimp only at this
  linarith

/-- C as a whole. -/
theorem C133_bound_C (P : Problem I K R nA nB 0 J) (hsvd : ValidSVD P.params) (hN : 0 < P.params.nInner) (hu : P.updC = true) (hl : 0 < P.l2.2.2) (init : AOState I K R nA nB 0 J)
    (n : ℕ) (o : Output (AOState I K R nA nB 0 J)) (h : cmfAoadmm P (plain (n + 1 : ℕ)) init = .ok o) : sqNorm o.st.F.C ≤ raggedSq P.X / (4 * P.l2.2.2) := by
  obtain ⟨s, j, hsw⟩ := plain_last h
  obtain ⟨c, hc, hc', -⟩ := (sweep_parts hsw).2.2.1 hu
  have := (explains_C (X := P.X) (l := P.l2) (F := ⟨s.F.A, o.st.F.B, c.x⟩) (fun Y => by
    by_cases hY : Y = c.x
    · rw [hY]
    · rw [← hc] at hY ⊢
      exact (C27_C P.params hsvd hN P.X P.l2 ⟨s.F.A, o.st.F.B, s.F.C⟩ P.pensC s.auxC s.dualC (solvableC_ridge _ hl) Y hY).le)).2
  rw [hc', le_div_iff₀ (by positivity)]
  dsimp only at this
  linarith

/-- The bound is reached: data 10, B = C = 1, L2 penalty 1, one iteration from A = 0 gives A = 5, that is A² = 10² / 4. -/
theorem C133_example : ∃ (P : Problem 1 1 1 0 0 0 fun _ => 1) (init : AOState 1 1 1 0 0 0 fun _ => 1) (out : Output _), ValidSVD P.params ∧ 0 < P.params.nInner ∧ P.updA = true ∧
    P.l2.1 = 1 ∧ cmfAoadmm P (plain (0 + 1 : ℕ)) init = .ok out ∧ out.st.F.A 0 0 = 5 ∧ ∑ r, out.st.F.A 0 r ^ 2 = sqNorm (P.X 0) / (4 * P.l2.1) := by
  obtain ⟨prm, hP, hN, -, hs⟩ := exists_params 1 1 none 1
  obtain ⟨i, hsw⟩ := sweep_scP (n := 0) (x := 10) (l2 := 1) (pens := Fin.elim0) (u := Fin.elim0) (v := Fin.elim0) hP hN hs zero_le_one
    (fun p => p.elim0) (fun p => p.elim0) 0 Fin.elim0 Fin.elim0
  obtain ⟨out, h1, h2⟩ := fit_exists _ (plain (0 + 1 : ℕ)) rfl _ _ (sweeps_one hsw)
  refine ⟨_, _, out, hP, by show 0 < prm.nInner; omega, rfl, rfl, h1, ?_, ?_⟩
  · rw [h2]
    norm_num [scS, scF, sc, scY]
  · rw [h2]
    norm_num [scS, scF, sc, scY, scP, scX, sqNorm]

/-- With penalties it is not so: data 1, a non-negative A, auxiliary variable 100; one iteration gives A = 34, a relative error of 33. -/
theorem C133_penalty_false : ∃ (P : Problem 1 1 1 1 0 0 fun _ => 1) (init : AOState 1 1 1 1 0 0 fun _ => 1) (out : Output _), ValidSVD P.params ∧ 0 < P.params.nInner ∧
    P.updA = true ∧ P.X ≠ 0 ∧ P.l2 = (0, 0, 0) ∧ P.pensA = (fun _ => StdPen.nonNeg.toA) ∧ SolvableA init.F 0 ∧ cmfAoadmm P (plain (0 + 1 : ℕ)) init = .ok out ∧
    relErr P.X out.st = 33 := by
  obtain ⟨prm, hP, hN, -, hs⟩ := exists_params 1 1 none 1
  obtain ⟨i, hsw⟩ := sweep_scP (n := 1) (x := 1) (l2 := 0) (pens := fun _ => StdPen.nonNeg.toA) (u := fun _ => nonNegRow 1) (v := fun _ y => clip (some 0) none y) hP hN hs le_rfl
    (fun _ => rfl) (fun p y ρ aux => by funext r; rw [Subsingleton.elim r 0]; rfl) 1 (fun _ => 100) (fun _ => 0)
  obtain ⟨out, h1, h2⟩ := fit_exists _ (plain (0 + 1 : ℕ)) rfl _ _ (sweeps_one hsw)
  refine ⟨_, _, out, hP, by show 0 < prm.nInner; omega, rfl, fun h => ?_, rfl, rfl, fun i v hv => ?_, h1, ?_⟩
  · have := congrFun (congrFun (congrFun h 0) 0) 0
    norm_num [scP, scX, sc] at this
  · have h0 : v 0 ≠ 0 := fun e => hv (funext fun r => by rw [Subsingleton.elim r 0, e]; rfl)
    simp only [scS, scF, sc, univ_unique, sum_singleton, Fin.default_eq_zero]
    positivity
  · rw [h2]
    show relErr (scX 1) _ = 33
    rw [relErr_scS]
    norm_num [scY]

end Verif.Props
