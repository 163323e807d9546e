import Verif.ADMM.SaddleModes
import Verif.Props.Loop
import Verif.Props.LoopFeasible
import Verif.Props.Recovery

/-!
# C127: norm-based regularisation on all modes

`docs/coupled_matrix_factorization.rst`, last note: penalties that scale with the norm of one of the parameters need norm-based regularisation on all modes. Without it, the penalties
have no effect on the best fit and there is no best model unless it has no penalty at all; with it there is a best model.
-/

set_option linter.unusedSectionVars false

namespace Verif.Props

open Verif.ADMM Verif.Spec Verif.Loop Finset Filter Topology

variable {I K R : ℕ} {J : Fin I → ℕ}

/-! ### Regularisation of a mode -/

/-- Constraint set and penalty function of a mode. -/
structure ModeReg (V : Type) where
  set : Set V
  fn : V → ℝ

section
variable {V : Type} [AddCommGroup V] [Module ℝ V]

/-- Does not depend on the norm: positive multiples of allowed factors are allowed and have the same penalty. -/
def ModeReg.Free (m : ModeReg V) : Prop := ∀ Z ∈ m.set, ∀ s : ℝ, 0 < s → s • Z ∈ m.set ∧ m.fn (s • Z) = m.fn Z

/-- Scales with the norm: smaller multiples of allowed factors are allowed, and the penalty gets smaller at least in proportion. -/
def ModeReg.Shrinks (m : ModeReg V) : Prop := ∀ Z ∈ m.set, 0 ≤ m.fn Z ∧ ∀ s : ℝ, 0 < s → s ≤ 1 → s • Z ∈ m.set ∧ m.fn (s • Z) ≤ s * m.fn Z

/-- Norm-based: allowed factors with a bounded penalty have bounded norm. -/
def ModeReg.Grows (sq : V → ℝ) (m : ModeReg V) : Prop := ∀ M : ℝ, ∃ D : ℝ, ∀ Z ∈ m.set, m.fn Z ≤ M → sq Z ≤ D

/-- An L2 penalty and several other penalties. -/
noncomputable def ModeReg.total {n : ℕ} (sq : V → ℝ) (l : ℝ) (ms : Fin n → ModeReg V) : ModeReg V :=
  ⟨{Z | ∀ p, Z ∈ (ms p).set}, fun Z => 1 / 2 * (l * sq Z) + ∑ p, (ms p).fn Z⟩

theorem total_free {n : ℕ} {sq : V → ℝ} {ms : Fin n → ModeReg V} (h : ∀ p, (ms p).Free) : (ModeReg.total sq 0 ms).Free := fun Z hZ s hs =>
  ⟨fun p => (h p Z (hZ p) s hs).1, by
    simp only [ModeReg.total, zero_mul, mul_zero, zero_add]
    exact sum_congr rfl fun p _ => (h p Z (hZ p) s hs).2⟩

theorem total_shrinks {n : ℕ} {sq : V → ℝ} (hsq : ∀ Z, 0 ≤ sq Z) (hs2 : ∀ (s : ℝ) Z, sq (s • Z) = s ^ 2 * sq Z) {l : ℝ} (hl : 0 ≤ l) {ms : Fin n → ModeReg V}
    (h : ∀ p, (ms p).Shrinks) : (ModeReg.total sq l ms).Shrinks := by
  intro Z hZ
  refine ⟨add_nonneg (mul_nonneg (by norm_num) (mul_nonneg hl (hsq Z))) (sum_nonneg fun p _ => (h p Z (hZ p)).1), fun s hs h1 => ⟨fun p => ((h p Z (hZ p)).2 s hs h1).1, ?_⟩⟩
  simp only [ModeReg.total]
  rw [hs2, mul_add, mul_sum]
  refine add_le_add ?_ (sum_le_sum fun p _ => ((h p Z (hZ p)).2 s hs h1).2)
  have : 0 ≤ l * sq Z := mul_nonneg hl (hsq Z)
  nlinarith [mul_nonneg (mul_nonneg hs.le (sub_nonneg.2 h1)) this]

theorem total_grows {n : ℕ} {sq : V → ℝ} (hsq : ∀ Z, 0 ≤ sq Z) {l : ℝ} (hl : 0 ≤ l) {ms : Fin n → ModeReg V} (h0 : ∀ p, ∀ Z ∈ (ms p).set, 0 ≤ (ms p).fn Z)
    (h : 0 < l ∨ ∃ p, (ms p).Grows sq) : (ModeReg.total sq l ms).Grows sq := by
  intro M
  rcases h with h | ⟨p, hp⟩
  · refine ⟨2 * M / l, fun Z hZ hM => ?_⟩
    have : 0 ≤ ∑ p, (ms p).fn Z := sum_nonneg fun p _ => h0 p Z (hZ p)
    simp only [ModeReg.total] at hM
    rw [le_div_iff₀ h]
    linarith
  · obtain ⟨D, hD⟩ := hp M
    refine ⟨D, fun Z hZ hM => hD Z (hZ p) ?_⟩
    have h1 : (ms p).fn Z ≤ ∑ p, (ms p).fn Z := single_le_sum (f := fun p => (ms p).fn Z) (fun p _ => h0 p Z (hZ p)) (mem_univ p)
    have h2 : 0 ≤ l * sq Z := mul_nonneg hl (hsq Z)
    simp only [ModeReg.total] at hM
    linarith

/-- Closed set and continuous penalty. -/
structure ModeReg.Closed [TopologicalSpace V] (m : ModeReg V) : Prop where
  set : IsClosed m.set
  fn : Continuous m.fn

theorem total_closed [TopologicalSpace V] {n : ℕ} {sq : V → ℝ} (hsq : Continuous sq) {l : ℝ} {ms : Fin n → ModeReg V} (h : ∀ p, (ms p).Closed) : (ModeReg.total sq l ms).Closed where
  set := by
    have : (ModeReg.total sq l ms).set = ⋂ p, (ms p).set := by ext; simp [ModeReg.total]
    rw [this]
    exact isClosed_iInter fun p => (h p).set
  fn := (continuous_const.mul (continuous_const.mul hsq)).add (continuous_finsetSum _ fun p _ => (h p).fn)

end

/-! ### Models -/

/-- All constraints are met. -/
def Allowed (a : ModeReg (Matrix (Fin I) (Fin R) ℝ)) (b : ModeReg (Ragged I R J)) (c : ModeReg (Matrix (Fin K) (Fin R) ℝ)) (F : Factors I K R J) : Prop :=
  F.A ∈ a.set ∧ F.B ∈ b.set ∧ F.C ∈ c.set

theorem scale_entry (F : Factors I K R J) {x y z : ℝ} (h : x * y * z = 1) (i : Fin I) (j : Fin (J i)) (k : Fin K) :
    (⟨x • F.A, y • F.B, z • F.C⟩ : Factors I K R J).entry i j k = F.entry i j k := by
  refine sum_congr rfl fun r _ => ?_
  simp only [Matrix.smul_apply, Pi.smul_apply, smul_eq_mul]
  linear_combination F.A i r * F.B i j r * F.C k r * h

theorem sse_entry {X : Ragged I K J} {F G : Factors I K R J} (h : ∀ i j k, F.entry i j k = G.entry i j k) : sse X F = sse X G := by
  simp only [sse, h]

theorem small_scale {f ε : ℝ} (hf : 0 ≤ f) (hε : 0 < ε) : ∃ s : ℝ, 0 < s ∧ s ≤ 1 ∧ s * f < ε := by
  refine ⟨min 1 (ε / (f + 1)), lt_min one_pos (by positivity), min_le_left _ _, ?_⟩
  refine lt_of_le_of_lt (mul_le_mul_of_nonneg_right (min_le_right _ _) hf) ?_
  rw [div_mul_eq_mul_div, div_lt_iff₀ (by linarith)]
  nlinarith

section
variable {a : ModeReg (Matrix (Fin I) (Fin R) ℝ)} {b : ModeReg (Ragged I R J)} {c : ModeReg (Matrix (Fin K) (Fin R) ℝ)}

/-- Without norm-based regularisation of C, models with the same matrices have penalties on A and B as small as one likes. -/
theorem shift_C (ha : a.Shrinks) (hb : b.Shrinks) (hc : c.Free) {F : Factors I K R J} (hF : Allowed a b c F) {ε : ℝ} (hε : 0 < ε) :
    ∃ G, Allowed a b c G ∧ (∀ i j k, G.entry i j k = F.entry i j k) ∧ a.fn G.A + b.fn G.B < ε ∧ c.fn G.C = c.fn F.C := by
  obtain ⟨s, hs, h1, hlt⟩ := small_scale (add_nonneg (ha _ hF.1).1 (hb _ hF.2.1).1) hε
  obtain ⟨a1, a2⟩ := (ha _ hF.1).2 s hs h1
  obtain ⟨b1, b2⟩ := (hb _ hF.2.1).2 s hs h1
  obtain ⟨c1, c2⟩ := hc _ hF.2.2 (s * s)⁻¹ (by positivity)
  exact ⟨⟨s • F.A, s • F.B, (s * s)⁻¹ • F.C⟩, ⟨a1, b1, c1⟩, scale_entry F (by field_simp), by simp only; linarith, c2⟩

theorem shift_B (ha : a.Shrinks) (hb : b.Free) (hc : c.Shrinks) {F : Factors I K R J} (hF : Allowed a b c F) {ε : ℝ} (hε : 0 < ε) :
    ∃ G, Allowed a b c G ∧ (∀ i j k, G.entry i j k = F.entry i j k) ∧ a.fn G.A + c.fn G.C < ε ∧ b.fn G.B = b.fn F.B := by
  obtain ⟨s, hs, h1, hlt⟩ := small_scale (add_nonneg (ha _ hF.1).1 (hc _ hF.2.2).1) hε
  obtain ⟨a1, a2⟩ := (ha _ hF.1).2 s hs h1
  obtain ⟨c1, c2⟩ := (hc _ hF.2.2).2 s hs h1
  obtain ⟨b1, b2⟩ := hb _ hF.2.1 (s * s)⁻¹ (by positivity)
  exact ⟨⟨s • F.A, (s * s)⁻¹ • F.B, s • F.C⟩, ⟨a1, b1, c1⟩, scale_entry F (by field_simp), by simp only; linarith, b2⟩

theorem shift_A (ha : a.Free) (hb : b.Shrinks) (hc : c.Shrinks) {F : Factors I K R J} (hF : Allowed a b c F) {ε : ℝ} (hε : 0 < ε) :
    ∃ G, Allowed a b c G ∧ (∀ i j k, G.entry i j k = F.entry i j k) ∧ b.fn G.B + c.fn G.C < ε ∧ a.fn G.A = a.fn F.A := by
  obtain ⟨s, hs, h1, hlt⟩ := small_scale (add_nonneg (hb _ hF.2.1).1 (hc _ hF.2.2).1) hε
  obtain ⟨b1, b2⟩ := (hb _ hF.2.1).2 s hs h1
  obtain ⟨c1, c2⟩ := (hc _ hF.2.2).2 s hs h1
  obtain ⟨a1, a2⟩ := ha _ hF.1 (s * s)⁻¹ (by positivity)
  exact ⟨⟨(s * s)⁻¹ • F.A, s • F.B, s • F.C⟩, ⟨a1, b1, c1⟩, scale_entry F (by field_simp), by simp only; linarith, a2⟩

/-- With norm-based regularisation of all modes there is a best model. -/
theorem exists_best (X : Ragged I K J) (ha : a.Closed) (hb : b.Closed) (hc : c.Closed) (ga : a.Grows sqNorm) (gb : b.Grows raggedSq) (gc : c.Grows sqNorm)
    (na : ∀ Z ∈ a.set, 0 ≤ a.fn Z) (nb : ∀ Z ∈ b.set, 0 ≤ b.fn Z) (nc : ∀ Z ∈ c.set, 0 ≤ c.fn Z) {F₀ : Factors I K R J} (h₀ : Allowed a b c F₀) :
    ∃ G, Allowed a b c G ∧ ∀ F, Allowed a b c F →
      1 / 2 * sse X G + (a.fn G.A + b.fn G.B + c.fn G.C) ≤ 1 / 2 * sse X F + (a.fn F.A + b.fn F.B + c.fn F.C) := by
  set obj : Factors I K R J → ℝ := fun F => 1 / 2 * sse X F + (a.fn F.A + b.fn F.B + c.fn F.C) with hobj
  have h0 : ∀ F, Allowed a b c F → 0 ≤ obj F := fun F hF => by
    have := sse_nonneg X F
    have := na _ hF.1; have := nb _ hF.2.1; have := nc _ hF.2.2
    simp only [hobj]; linarith
  let S : Set ℝ := obj '' {F | Allowed a b c F}
  have hS : S.Nonempty := ⟨_, F₀, h₀, rfl⟩
  have hbd : BddBelow S := ⟨0, by rintro _ ⟨F, hF, rfl⟩; exact h0 F hF⟩
  obtain ⟨u, hanti, hlim, hu⟩ := exists_seq_tendsto_sInf hS hbd
  choose F hF hFu using hu
  have hM : ∀ n, obj (F n) ≤ u 0 := fun n => by rw [hFu]; exact hanti (Nat.zero_le n)
  have parts : ∀ n, a.fn (F n).A ≤ u 0 ∧ b.fn (F n).B ≤ u 0 ∧ c.fn (F n).C ≤ u 0 := fun n => by
    have h1 := hM n
    have := sse_nonneg X (F n)
    have := na _ (hF n).1; have := nb _ (hF n).2.1; have := nc _ (hF n).2.2
    simp only [hobj] at h1
    exact ⟨by linarith, by linarith, by linarith⟩
  obtain ⟨Da, hDa⟩ := ga (u 0)
  obtain ⟨Db, hDb⟩ := gb (u 0)
  obtain ⟨Dc, hDc⟩ := gc (u 0)
  have entry : ∀ {x D D' : ℝ}, x ^ 2 ≤ D → D ≤ D' → |x| ≤ √D' := fun h h' => Real.abs_le_sqrt (h.trans h')
  have mat : ∀ {m n : ℕ} (Z : Matrix (Fin m) (Fin n) ℝ) i r, Z i r ^ 2 ≤ sqNorm Z := fun Z i r =>
    (single_le_sum (f := fun r => Z i r ^ 2) (fun r _ => sq_nonneg _) (mem_univ r)).trans
      (single_le_sum (f := fun i => ∑ r, Z i r ^ 2) (fun i _ => sum_nonneg fun r _ => sq_nonneg _) (mem_univ i))
  have hB : ∀ n, BoundedBy (√(max Da (max Db Dc))) (F n) := fun n =>
    { A := fun i r => entry ((mat _ i r).trans (hDa _ (hF n).1 (parts n).1)) (le_max_left _ _)
      B := fun i j r => entry ((entry_le_ragged _ i j r).trans (hDb _ (hF n).2.1 (parts n).2.1)) ((le_max_left _ _).trans (le_max_right _ _))
      C := fun k r => entry ((mat _ k r).trans (hDc _ (hF n).2.2 (parts n).2.2)) ((le_max_right _ _).trans (le_max_right _ _)) }
  obtain ⟨L, φ, hφ, hA, hBt, hC⟩ := bounded_subseq hB
  have tA : Tendsto (fun n => (F (φ n)).A) atTop (𝓝 L.A) := tendsto_pi_nhds.2 fun i => tendsto_pi_nhds.2 fun r => hA i r
  have tB : Tendsto (fun n => (F (φ n)).B) atTop (𝓝 L.B) := tendsto_pi_nhds.2 fun i => tendsto_pi_nhds.2 fun j => tendsto_pi_nhds.2 fun r => hBt i j r
  have tC : Tendsto (fun n => (F (φ n)).C) atTop (𝓝 L.C) := tendsto_pi_nhds.2 fun i => tendsto_pi_nhds.2 fun r => hC i r
  have hL : Allowed a b c L := ⟨ha.set.mem_of_tendsto tA (Eventually.of_forall fun n => (hF _).1), hb.set.mem_of_tendsto tB (Eventually.of_forall fun n => (hF _).2.1),
    hc.set.mem_of_tendsto tC (Eventually.of_forall fun n => (hF _).2.2)⟩
  have tobj : Tendsto (fun n => obj (F (φ n))) atTop (𝓝 (obj L)) := by
    refine Tendsto.add (Tendsto.mul tendsto_const_nhds ?_) (((ha.fn.tendsto _).comp tA |>.add ((hb.fn.tendsto _).comp tB)).add ((hc.fn.tendsto _).comp tC))
    refine tendsto_finsetSum _ fun i _ => tendsto_finsetSum _ fun j _ => tendsto_finsetSum _ fun k _ => (tendsto_const_nhds.sub ?_).pow 2
    exact tendsto_finsetSum _ fun r _ => ((hA i r).mul (hBt i j r)).mul (hC k r)
  have e : obj L = sInf S := tendsto_nhds_unique tobj ((hlim.comp hφ.tendsto_atTop).congr fun n => (hFu _).symm)
  exact ⟨L, hL, fun G hG => by
    show obj L ≤ obj G
    rw [e]
    exact csInf_le hbd ⟨G, hG, rfl⟩⟩

end

/-! ### The penalties of the package -/

/-- A `StdPen` as regularisation of a matrix. -/
def stdReg {m : ℕ} (p : StdPen m R) : ModeReg (Matrix (Fin m) (Fin R) ℝ) := ⟨p.feasible, p.fn⟩

/-- `Unimodality` (`penalties.py` lines 983-1063). -/
def uniReg (m R : ℕ) (nn : Bool) : ModeReg (Matrix (Fin m) (Fin R) ℝ) := ⟨(HardPen.unimodal nn).set m R, fun _ => 0⟩

/-- `Parafac2` (`penalties.py` lines 1066-1250). -/
def crossReg (I R : ℕ) (J : Fin I → ℕ) : ModeReg (Ragged I R J) := ⟨{Z | ConstantCross Z}, fun _ => 0⟩

/-- Penalties of all B matrices. -/
def eachReg (ms : (i : Fin I) → ModeReg (Matrix (Fin (J i)) (Fin R) ℝ)) : ModeReg (Ragged I R J) := ⟨{Z | ∀ i, Z i ∈ (ms i).set}, fun Z => ∑ i, (ms i).fn (Z i)⟩

/-- Penalties that do not depend on the norm: signs, and L1 of strength zero. -/
def ScaleFree {m : ℕ} : StdPen m R → Prop
  | .nonNeg => True
  | .box lo hi => (∀ l, lo = some l → l = 0) ∧ ∀ u, hi = some u → u = 0
  | .l1 γ _ => γ = 0
  | _ => False

/-- Penalties that scale with the norm: all whose bounds, if any, contain zero. -/
def ZeroAllowed {m : ℕ} : StdPen m R → Prop
  | .box lo hi => (∀ l, lo = some l → l ≤ 0) ∧ ∀ u, hi = some u → 0 ≤ u
  | _ => True

/-- The kinds of norm-based regularisation in the note: max- and min-bounds, L1 penalties, hard L2 norm constraints, and L2 penalties with a definite matrix. -/
def NormBased {m : ℕ} : StdPen m R → Prop
  | .nonNeg => False
  | .box lo hi => (∃ l, lo = some l) ∧ ∃ u, hi = some u
  | .l1 γ _ => 0 < γ
  | .l2Ball _ _ => True
  | .genL2 M _ => ∃ c : ℝ, 0 < c ∧ ∀ x : Fin m → ℝ, c * ∑ i, x i ^ 2 ≤ ∑ i, ∑ j, x i * M i j * x j
  | .tv _ _ β => 0 < β

theorem absSum_smul {m : ℕ} (s : ℝ) (Z : Matrix (Fin m) (Fin R) ℝ) : absSum (s • Z) = |s| * absSum Z := by
  simp only [absSum, Matrix.smul_apply, smul_eq_mul, abs_mul, mul_sum]

theorem totalVar_smul {m : ℕ} (s : ℝ) (Z : Matrix (Fin m) (Fin R) ℝ) : totalVar (s • Z) = |s| * totalVar Z := by
  simp only [totalVar, Matrix.smul_apply, smul_eq_mul, ← mul_sub, abs_mul, mul_sum]

theorem colSq_smul {m : ℕ} (s : ℝ) (Z : Matrix (Fin m) (Fin R) ℝ) (r : Fin R) : colSq (s • Z) r = s ^ 2 * colSq Z r := by
  simp only [colSq, Matrix.smul_apply, smul_eq_mul, mul_pow, mul_sum]

theorem std_free {m : ℕ} {p : StdPen m R} (h : ScaleFree p) : (stdReg p).Free := by
  intro Z hZ s hs
  cases p with
  | nonNeg => exact ⟨fun i r => mul_nonneg hs.le (hZ i r), rfl⟩
  | box lo hi =>
    refine ⟨fun i r => ⟨fun l hl => ?_, fun u hu => ?_⟩, rfl⟩
    · have := (hZ i r).1 l hl
      rw [h.1 l hl] at this ⊢
      exact mul_nonneg hs.le this
    · have := (hZ i r).2 u hu
      rw [h.2 u hu] at this ⊢
      exact mul_nonpos_of_nonneg_of_nonpos hs.le this
  | l1 γ nn =>
    have h : γ = 0 := h
    subst h
    exact ⟨fun hn i r => mul_nonneg hs.le (hZ hn i r), by simp [stdReg, StdPen.fn]⟩
  | l2Ball b nn => exact h.elim
  | genL2 M d => exact h.elim
  | tv solver α β => exact h.elim

theorem std_shrinks {m : ℕ} {p : StdPen m R} (hv : p.Valid) (h : ZeroAllowed p) : (stdReg p).Shrinks := by
  intro Z hZ
  refine ⟨p.fn_nonneg hv Z, fun s hs h1 => ?_⟩
  have h0 := p.fn_nonneg hv Z
  cases p with
  | nonNeg => exact ⟨fun i r => mul_nonneg hs.le (hZ i r), by simp [stdReg, StdPen.fn]⟩
  | box lo hi =>
    refine ⟨fun i r => ⟨fun l hl => ?_, fun u hu => ?_⟩, by simp [stdReg, StdPen.fn]⟩
    · have e := (hZ i r).1 l hl
      have := h.1 l hl
      show l ≤ s * Z i r
      nlinarith
    · have e := (hZ i r).2 u hu
      have := h.2 u hu
      show s * Z i r ≤ u
      nlinarith
  | l1 γ nn =>
    refine ⟨fun hn i r => mul_nonneg hs.le (hZ hn i r), ?_⟩
    simp only [stdReg, StdPen.fn, absSum_smul, abs_of_pos hs]
    linarith
  | l2Ball b nn =>
    refine ⟨⟨fun r => ?_, fun hn i r => mul_nonneg hs.le (hZ.2 hn i r)⟩, by simp [stdReg, StdPen.fn]⟩
    rw [colSq_smul, Real.sqrt_mul (sq_nonneg s), Real.sqrt_sq hs.le]
    exact (mul_le_of_le_one_left (Real.sqrt_nonneg _) h1).trans (hZ.1 r)
  | genL2 M d =>
    refine ⟨Set.mem_univ _, ?_⟩
    have e : StdPen.fn (.genL2 M d : StdPen m R) (s • Z) = s ^ 2 * StdPen.fn (.genL2 M d : StdPen m R) Z := by
      simp only [StdPen.fn, mul_sum, Matrix.smul_apply, smul_eq_mul]
      exact sum_congr rfl fun r _ => sum_congr rfl fun i _ => sum_congr rfl fun j _ => by ring
    show StdPen.fn (.genL2 M d) (s • Z) ≤ s * StdPen.fn (.genL2 M d) Z
    rw [e]
    nlinarith [mul_nonneg (mul_nonneg hs.le (sub_nonneg.2 h1)) h0]
  | tv solver α β =>
    refine ⟨Set.mem_univ _, ?_⟩
    simp only [stdReg, StdPen.fn, absSum_smul, totalVar_smul, abs_of_pos hs]
    linarith

theorem sqNorm_of_entries {m : ℕ} {Z : Matrix (Fin m) (Fin R) ℝ} {D : ℝ} (h : ∀ i r, |Z i r| ≤ D) : sqNorm Z ≤ m * R * D ^ 2 := by
  calc sqNorm Z ≤ ∑ _i : Fin m, ∑ _r : Fin R, D ^ 2 := sum_le_sum fun i _ => sum_le_sum fun r _ => by
        rw [← sq_abs]; exact pow_le_pow_left₀ (abs_nonneg _) (h i r) 2
    _ = m * R * D ^ 2 := by simp; ring

theorem entry_le_absSum {m : ℕ} (Z : Matrix (Fin m) (Fin R) ℝ) (i : Fin m) (r : Fin R) : |Z i r| ≤ absSum Z :=
  (single_le_sum (f := fun r => |Z i r|) (fun _ _ => abs_nonneg _) (mem_univ r)).trans
    (single_le_sum (f := fun i => ∑ r, |Z i r|) (fun _ _ => sum_nonneg fun _ _ => abs_nonneg _) (mem_univ i))

theorem std_grows {m : ℕ} {p : StdPen m R} (hv : p.Valid) (h : NormBased p) : (stdReg p).Grows sqNorm := by
  intro N
  cases p with
  | nonNeg => exact h.elim
  | box lo hi =>
    obtain ⟨⟨l, rfl⟩, u, rfl⟩ := h
    refine ⟨m * R * (max |l| |u|) ^ 2, fun Z hZ _ => sqNorm_of_entries fun i r => ?_⟩
    exact abs_le_max_abs_abs ((hZ i r).1 l rfl) ((hZ i r).2 u rfl)
  | l1 γ nn =>
    refine ⟨m * R * (N / γ) ^ 2, fun Z hZ hN => sqNorm_of_entries fun i r => (entry_le_absSum Z i r).trans ?_⟩
    have h : 0 < γ := h
    rw [le_div_iff₀ h, mul_comm]
    exact hN
  | l2Ball b nn =>
    refine ⟨m * R * b ^ 2, fun Z hZ _ => sqNorm_of_entries fun i r => ?_⟩
    refine le_trans (Real.abs_le_sqrt ?_) (hZ.1 r)
    exact single_le_sum (f := fun i => Z i r ^ 2) (fun i _ => sq_nonneg _) (mem_univ i)
  | genL2 M d =>
    obtain ⟨c, hc, hM⟩ := h
    refine ⟨N / c, fun Z hZ hN => ?_⟩
    rw [le_div_iff₀ hc, mul_comm]
    refine le_trans ?_ hN
    show c * sqNorm Z ≤ ∑ r, ∑ i, ∑ j, Z i r * M i j * Z j r
    rw [sqNorm, sum_comm, mul_sum]
    exact sum_le_sum fun r _ => hM fun i => Z i r
  | tv solver α β =>
    refine ⟨m * R * (N / β) ^ 2, fun Z hZ hN => sqNorm_of_entries fun i r => (entry_le_absSum Z i r).trans ?_⟩
    have h : 0 < β := h
    rw [le_div_iff₀ h, mul_comm]
    have htv : 0 ≤ totalVar Z := sum_nonneg fun r _ => sum_nonneg fun i _ => abs_nonneg _
    have hN : α * totalVar Z + β * absSum Z ≤ N := hN
    nlinarith [mul_nonneg hv.2.1.le htv]

theorem std_closed {m : ℕ} (p : StdPen m R) : (stdReg p).Closed := ⟨p.isClosed_feasible, p.continuous_fn⟩

theorem uni_free (m R : ℕ) (nn : Bool) : (uniReg m R nn).Free := by
  intro Z hZ s hs
  refine ⟨fun r => ?_, rfl⟩
  obtain ⟨⟨t, h1, h2⟩, h3⟩ := hZ r
  exact ⟨⟨t, fun i j hij hj => mul_le_mul_of_nonneg_left (h1 i j hij hj) hs.le, fun i j hi hij => mul_le_mul_of_nonneg_left (h2 i j hi hij) hs.le⟩,
    fun hn i => mul_nonneg hs.le (h3 hn i)⟩

theorem uni_closed (m R : ℕ) (nn : Bool) : (uniReg m R nn).Closed := by
  refine ⟨?_, continuous_const⟩
  have : (uniReg m R nn).set = ⋂ r, (⋃ t : Fin m, ((⋂ i, ⋂ j, ⋂ (_ : i ≤ j), ⋂ (_ : j ≤ t), {Z | Z i r ≤ Z j r}) ∩ ⋂ i, ⋂ j, ⋂ (_ : t ≤ i), ⋂ (_ : i ≤ j), {Z | Z j r ≤ Z i r})) ∩
      ⋂ (_ : nn = true), ⋂ i, {Z | 0 ≤ Z i r} := by
    ext Z
    simp [uniReg, HardPen.set, IsUnimodal]
  rw [this]
  have h := continuous_entry (m := m) (R := R)
  refine isClosed_iInter fun r => IsClosed.inter (isClosed_iUnion_of_finite fun t => IsClosed.inter ?_ ?_) ?_
  · exact isClosed_iInter fun i => isClosed_iInter fun j => isClosed_iInter fun _ => isClosed_iInter fun _ => isClosed_le (h i r) (h j r)
  · exact isClosed_iInter fun i => isClosed_iInter fun j => isClosed_iInter fun _ => isClosed_iInter fun _ => isClosed_le (h j r) (h i r)
  · exact isClosed_iInter fun _ => isClosed_iInter fun i => isClosed_le continuous_const (h i r)

theorem cross_free (I R : ℕ) (J : Fin I → ℕ) : (crossReg I R J).Free := by
  intro Z hZ s hs
  refine ⟨fun i j => ?_, rfl⟩
  simp only [Pi.smul_apply, Matrix.transpose_smul, Matrix.smul_mul, Matrix.mul_smul]
  rw [hZ i j]

theorem cross_closed (I R : ℕ) (J : Fin I → ℕ) : (crossReg I R J).Closed := by
  refine ⟨?_, continuous_const⟩
  have : (crossReg I R J).set = ⋂ i, ⋂ i', {Z | (Z i).transpose * Z i = (Z i').transpose * Z i'} := by
    ext Z
    simp [crossReg, ConstantCross]
  rw [this]
  have hc : ∀ i, Continuous fun Z : Ragged I R J => (Z i).transpose * Z i := fun i => (continuous_apply i).matrix_transpose.matrix_mul (continuous_apply i)
  exact isClosed_iInter fun i => isClosed_iInter fun i' => isClosed_eq (hc i) (hc i')

/-- What does not depend on the norm and is never negative also meets the weaker condition. -/
theorem free_zero_shrinks {V : Type} [AddCommGroup V] [Module ℝ V] {m : ModeReg V} (h : m.Free) (h0 : ∀ Z ∈ m.set, m.fn Z = 0) : m.Shrinks := fun Z hZ =>
  ⟨(h0 Z hZ).ge, fun s hs _ => ⟨(h Z hZ s hs).1, by rw [(h Z hZ s hs).2, h0 Z hZ, mul_zero]⟩⟩

theorem each_free {ms : (i : Fin I) → ModeReg (Matrix (Fin (J i)) (Fin R) ℝ)} (h : ∀ i, (ms i).Free) : (eachReg ms).Free := fun _ hZ s hs =>
  ⟨fun i => (h i _ (hZ i) s hs).1, Finset.sum_congr (s₁ := univ) rfl fun i _ => (h i _ (hZ i) s hs).2⟩

theorem each_shrinks {ms : (i : Fin I) → ModeReg (Matrix (Fin (J i)) (Fin R) ℝ)} (h : ∀ i, (ms i).Shrinks) : (eachReg ms).Shrinks := fun Z hZ =>
  ⟨Finset.sum_nonneg (s := univ) fun i _ => (h i _ (hZ i)).1, fun s hs h1 => ⟨fun i => ((h i _ (hZ i)).2 s hs h1).1, by
    simp only [eachReg, mul_sum]
    exact sum_le_sum fun i _ => ((h i _ (hZ i)).2 s hs h1).2⟩⟩

theorem each_grows {ms : (i : Fin I) → ModeReg (Matrix (Fin (J i)) (Fin R) ℝ)} (h : ∀ i, (ms i).Grows sqNorm) (h0 : ∀ i, ∀ Z ∈ (ms i).set, 0 ≤ (ms i).fn Z) :
    (eachReg ms).Grows raggedSq := by
  intro M
  choose D hD using fun i => h i M
  exact ⟨∑ i, D i, fun Z hZ hM => sum_le_sum fun i _ => hD i _ (hZ i)
    ((single_le_sum (f := fun i => (ms i).fn (Z i)) (fun i _ => h0 i _ (hZ i)) (mem_univ i)).trans hM)⟩

theorem each_closed {ms : (i : Fin I) → ModeReg (Matrix (Fin (J i)) (Fin R) ℝ)} (h : ∀ i, (ms i).Closed) : (eachReg ms).Closed where
  set := by
    have : (eachReg ms).set = ⋂ i, (fun Z : Ragged I R J => Z i) ⁻¹' (ms i).set := by ext; simp [eachReg]
    rw [this]
    exact isClosed_iInter fun i => (h i).set.preimage (continuous_apply i)
  fn := continuous_finsetSum univ fun i _ => (h i).fn.comp (continuous_apply i)

/-! ### Calls -/

section
variable {nA nB nC : ℕ}

/-- The penalties of a call have these constraint sets and penalty functions. -/
structure Described (P : Problem I K R nA nB nC J) (as : Fin nA → ModeReg (Matrix (Fin I) (Fin R) ℝ)) (bs : Fin nB → ModeReg (Ragged I R J))
    (cs : Fin nC → ModeReg (Matrix (Fin K) (Fin R) ℝ)) : Prop where
  A : ∀ p, ∀ Z ∈ (as p).set, (P.pensA p).value Z = (as p).fn Z
  B : ∀ p, ∀ Z ∈ (bs p).set, (P.pensB p).value Z = (bs p).fn Z
  C : ∀ p, ∀ Z ∈ (cs p).set, (P.pensC p).value Z = (cs p).fn Z

/-- All constraints are met. -/
def Feasible (as : Fin nA → ModeReg (Matrix (Fin I) (Fin R) ℝ)) (bs : Fin nB → ModeReg (Ragged I R J)) (cs : Fin nC → ModeReg (Matrix (Fin K) (Fin R) ℝ)) (F : Factors I K R J) : Prop :=
  (∀ p, F.A ∈ (as p).set) ∧ (∀ p, F.B ∈ (bs p).set) ∧ ∀ p, F.C ∈ (cs p).set

/-- A best model: it meets the constraints, and no other that does has a smaller objective. -/
def BestModel (P : Problem I K R nA nB nC J) (as : Fin nA → ModeReg (Matrix (Fin I) (Fin R) ℝ)) (bs : Fin nB → ModeReg (Ragged I R J)) (cs : Fin nC → ModeReg (Matrix (Fin K) (Fin R) ℝ))
    (G : Factors I K R J) : Prop :=
  Feasible as bs cs G ∧ ∀ F, Feasible as bs cs F → 1 / 2 * sse P.X G + regValue P G ≤ 1 / 2 * sse P.X F + regValue P F

/-- The L2 term and the penalties of mode 0. -/
noncomputable def regA (P : Problem I K R nA nB nC J) (F : Factors I K R J) : ℝ := 1 / 2 * (P.l2.1 * sqNorm F.A) + ∑ p, (P.pensA p).value F.A

/-- The L2 term and the penalties of mode 1. -/
noncomputable def regB (P : Problem I K R nA nB nC J) (F : Factors I K R J) : ℝ := 1 / 2 * (P.l2.2.1 * raggedSq F.B) + ∑ p, (P.pensB p).value F.B

/-- The L2 term and the penalties of mode 2. -/
noncomputable def regC (P : Problem I K R nA nB nC J) (F : Factors I K R J) : ℝ := 1 / 2 * (P.l2.2.2 * sqNorm F.C) + ∑ p, (P.pensC p).value F.C

theorem regValue_modes (P : Problem I K R nA nB nC J) (F : Factors I K R J) : regValue P F = regA P F + regB P F + regC P F := by
  simp only [regValue, regA, regB, regC]; ring

theorem raggedSq_scale (s : ℝ) (Z : Ragged I R J) : raggedSq (s • Z) = s ^ 2 * raggedSq Z := by
  simp only [raggedSq, Pi.smul_apply, sqNorm_smul, mul_sum]

theorem continuous_sqNorm {m : ℕ} : Continuous (sqNorm : Matrix (Fin m) (Fin R) ℝ → ℝ) :=
  continuous_finsetSum _ fun i _ => continuous_finsetSum _ fun r _ => (continuous_entry i r).pow 2

theorem continuous_raggedSq : Continuous (raggedSq : Ragged I R J → ℝ) := continuous_finsetSum _ fun i _ => continuous_sqNorm.comp (continuous_apply i)

variable {P : Problem I K R nA nB nC J} {as : Fin nA → ModeReg (Matrix (Fin I) (Fin R) ℝ)} {bs : Fin nB → ModeReg (Ragged I R J)} {cs : Fin nC → ModeReg (Matrix (Fin K) (Fin R) ℝ)}

theorem regA_eq (h : Described P as bs cs) {F : Factors I K R J} (hF : ∀ p, F.A ∈ (as p).set) : regA P F = (ModeReg.total sqNorm P.l2.1 as).fn F.A := by
  simp only [regA, ModeReg.total]; rw [sum_congr rfl fun p _ => h.A p _ (hF p)]

theorem regB_eq (h : Described P as bs cs) {F : Factors I K R J} (hF : ∀ p, F.B ∈ (bs p).set) : regB P F = (ModeReg.total raggedSq P.l2.2.1 bs).fn F.B := by
  simp only [regB, ModeReg.total]; rw [sum_congr rfl fun p _ => h.B p _ (hF p)]

theorem regC_eq (h : Described P as bs cs) {F : Factors I K R J} (hF : ∀ p, F.C ∈ (cs p).set) : regC P F = (ModeReg.total sqNorm P.l2.2.2 cs).fn F.C := by
  simp only [regC, ModeReg.total]; rw [sum_congr rfl fun p _ => h.C p _ (hF p)]

/-- From models with the same matrices and small penalties to best models. -/
theorem best_of_shift {x y : Factors I K R J → ℝ} (hxy : ∀ F, Feasible as bs cs F → regValue P F = x F + y F) (hx : ∀ F, Feasible as bs cs F → 0 ≤ x F)
    (hs : ∀ F, Feasible as bs cs F → ∀ ε : ℝ, 0 < ε → ∃ G, Feasible as bs cs G ∧ (∀ i j k, G.entry i j k = F.entry i j k) ∧ x G < ε ∧ y G = y F) {G : Factors I K R J}
    (hG : BestModel P as bs cs G) : x G = 0 ∧ ∀ F, Feasible as bs cs F → 1 / 2 * sse P.X G + y G ≤ 1 / 2 * sse P.X F + y F := by
  have key : ∀ F, Feasible as bs cs F → 1 / 2 * sse P.X G + (x G + y G) ≤ 1 / 2 * sse P.X F + y F := fun F hF => by
    refine le_of_forall_pos_le_add fun ε hε => ?_
    obtain ⟨H, hH, he, hx', hy⟩ := hs F hF ε hε
    have := hG.2 H hH
    rw [hxy G hG.1, hxy H hH, sse_entry he, hy] at this
    linarith
  refine ⟨le_antisymm ?_ (hx G hG.1), fun F hF => ?_⟩
  · linarith [key G hG.1]
  · linarith [key F hF, hx G hG.1]

/-- C127, no norm-based regularisation of C: the penalties of A and B can be made as small as one likes without changing the represented matrices, they are zero for a best model, and it
fits as well as the best model without them. -/
theorem C127_C (hd : Described P as bs cs) (hlA : 0 ≤ P.l2.1) (hlB : 0 ≤ P.l2.2.1) (hlC : P.l2.2.2 = 0) (ha : ∀ p, (as p).Shrinks) (hb : ∀ p, (bs p).Shrinks) (hc : ∀ p, (cs p).Free) :
    (∀ F, Feasible as bs cs F → ∀ ε : ℝ, 0 < ε → ∃ G, Feasible as bs cs G ∧ (∀ i j k, G.entry i j k = F.entry i j k) ∧ regA P G + regB P G < ε ∧ regC P G = regC P F) ∧
    ∀ G, BestModel P as bs cs G → regA P G = 0 ∧ regB P G = 0 ∧ ∀ F, Feasible as bs cs F → 1 / 2 * sse P.X G + regC P G ≤ 1 / 2 * sse P.X F + regC P F := by
  have sa := total_shrinks (l := P.l2.1) (sq := sqNorm) sqNorm_nonneg sqNorm_smul hlA ha
  have sb := total_shrinks (l := P.l2.2.1) (sq := raggedSq) raggedSq_nonneg raggedSq_scale hlB hb
  have fc := total_free (sq := sqNorm) hc
  rw [← hlC] at fc
  have hs : ∀ F, Feasible as bs cs F → ∀ ε : ℝ, 0 < ε → ∃ G, Feasible as bs cs G ∧ (∀ i j k, G.entry i j k = F.entry i j k) ∧ regA P G + regB P G < ε ∧ regC P G = regC P F :=
    fun F hF ε hε => by
      obtain ⟨G, hG, he, h1, h2⟩ := shift_C sa sb fc (F := F) hF hε
      exact ⟨G, hG, he, by rw [regA_eq hd hG.1, regB_eq hd hG.2.1]; exact h1, by rw [regC_eq hd hG.2.2, regC_eq hd hF.2.2]; exact h2⟩
  have nA : ∀ F, Feasible as bs cs F → 0 ≤ regA P F := fun F hF => by rw [regA_eq hd hF.1]; exact (sa _ hF.1).1
  have nB : ∀ F, Feasible as bs cs F → 0 ≤ regB P F := fun F hF => by rw [regB_eq hd hF.2.1]; exact (sb _ hF.2.1).1
  refine ⟨hs, fun G hG => ?_⟩
  obtain ⟨h1, h2⟩ := best_of_shift (x := fun F => regA P F + regB P F) (y := regC P) (fun F _ => regValue_modes P F) (fun F hF => add_nonneg (nA F hF) (nB F hF)) hs hG
  exact ⟨by linarith [nA G hG.1, nB G hG.1], by linarith [nA G hG.1, nB G hG.1], h2⟩

/-- C127, no norm-based regularisation of the B matrices. -/
theorem C127_B (hd : Described P as bs cs) (hlA : 0 ≤ P.l2.1) (hlB : P.l2.2.1 = 0) (hlC : 0 ≤ P.l2.2.2) (ha : ∀ p, (as p).Shrinks) (hb : ∀ p, (bs p).Free) (hc : ∀ p, (cs p).Shrinks) :
    (∀ F, Feasible as bs cs F → ∀ ε : ℝ, 0 < ε → ∃ G, Feasible as bs cs G ∧ (∀ i j k, G.entry i j k = F.entry i j k) ∧ regA P G + regC P G < ε ∧ regB P G = regB P F) ∧
    ∀ G, BestModel P as bs cs G → regA P G = 0 ∧ regC P G = 0 ∧ ∀ F, Feasible as bs cs F → 1 / 2 * sse P.X G + regB P G ≤ 1 / 2 * sse P.X F + regB P F := by
  have sa := total_shrinks (l := P.l2.1) (sq := sqNorm) sqNorm_nonneg sqNorm_smul hlA ha
  have sc := total_shrinks (l := P.l2.2.2) (sq := sqNorm) sqNorm_nonneg sqNorm_smul hlC hc
  have fb := total_free (sq := raggedSq) hb
  rw [← hlB] at fb
  have hs : ∀ F, Feasible as bs cs F → ∀ ε : ℝ, 0 < ε → ∃ G, Feasible as bs cs G ∧ (∀ i j k, G.entry i j k = F.entry i j k) ∧ regA P G + regC P G < ε ∧ regB P G = regB P F :=
    fun F hF ε hε => by
      obtain ⟨G, hG, he, h1, h2⟩ := shift_B sa fb sc (F := F) hF hε
      exact ⟨G, hG, he, by rw [regA_eq hd hG.1, regC_eq hd hG.2.2]; exact h1, by rw [regB_eq hd hG.2.1, regB_eq hd hF.2.1]; exact h2⟩
  have nA : ∀ F, Feasible as bs cs F → 0 ≤ regA P F := fun F hF => by rw [regA_eq hd hF.1]; exact (sa _ hF.1).1
  have nC : ∀ F, Feasible as bs cs F → 0 ≤ regC P F := fun F hF => by rw [regC_eq hd hF.2.2]; exact (sc _ hF.2.2).1
  refine ⟨hs, fun G hG => ?_⟩
  obtain ⟨h1, h2⟩ := best_of_shift (x := fun F => regA P F + regC P F) (y := regB P) (fun F _ => by rw [regValue_modes]; ring) (fun F hF => add_nonneg (nA F hF) (nC F hF)) hs hG
  exact ⟨by linarith [nA G hG.1, nC G hG.1], by linarith [nA G hG.1, nC G hG.1], h2⟩

/-- C127, no norm-based regularisation of A. -/
theorem C127_A (hd : Described P as bs cs) (hlA : P.l2.1 = 0) (hlB : 0 ≤ P.l2.2.1) (hlC : 0 ≤ P.l2.2.2) (ha : ∀ p, (as p).Free) (hb : ∀ p, (bs p).Shrinks) (hc : ∀ p, (cs p).Shrinks) :
    (∀ F, Feasible as bs cs F → ∀ ε : ℝ, 0 < ε → ∃ G, Feasible as bs cs G ∧ (∀ i j k, G.entry i j k = F.entry i j k) ∧ regB P G + regC P G < ε ∧ regA P G = regA P F) ∧
    ∀ G, BestModel P as bs cs G → regB P G = 0 ∧ regC P G = 0 ∧ ∀ F, Feasible as bs cs F → 1 / 2 * sse P.X G + regA P G ≤ 1 / 2 * sse P.X F + regA P F := by
  have sb := total_shrinks (l := P.l2.2.1) (sq := raggedSq) raggedSq_nonneg raggedSq_scale hlB hb
  have sc := total_shrinks (l := P.l2.2.2) (sq := sqNorm) sqNorm_nonneg sqNorm_smul hlC hc
  have fa := total_free (sq := sqNorm) ha
  rw [← hlA] at fa
  have hs : ∀ F, Feasible as bs cs F → ∀ ε : ℝ, 0 < ε → ∃ G, Feasible as bs cs G ∧ (∀ i j k, G.entry i j k = F.entry i j k) ∧ regB P G + regC P G < ε ∧ regA P G = regA P F :=
    fun F hF ε hε => by
      obtain ⟨G, hG, he, h1, h2⟩ := shift_A fa sb sc (F := F) hF hε
      exact ⟨G, hG, he, by rw [regB_eq hd hG.2.1, regC_eq hd hG.2.2]; exact h1, by rw [regA_eq hd hG.1, regA_eq hd hF.1]; exact h2⟩
  have nB : ∀ F, Feasible as bs cs F → 0 ≤ regB P F := fun F hF => by rw [regB_eq hd hF.2.1]; exact (sb _ hF.2.1).1
  have nC : ∀ F, Feasible as bs cs F → 0 ≤ regC P F := fun F hF => by rw [regC_eq hd hF.2.2]; exact (sc _ hF.2.2).1
  refine ⟨hs, fun G hG => ?_⟩
  obtain ⟨h1, h2⟩ := best_of_shift (x := fun F => regB P F + regC P F) (y := regA P) (fun F _ => by rw [regValue_modes]; ring) (fun F hF => add_nonneg (nB F hF) (nC F hF)) hs hG
  exact ⟨by linarith [nB G hG.1, nC G hG.1], by linarith [nB G hG.1, nC G hG.1], h2⟩

/-- C127, norm-based regularisation of all modes: there is a best model. -/
theorem C127 (hd : Described P as bs cs) (hlA : 0 ≤ P.l2.1) (hlB : 0 ≤ P.l2.2.1) (hlC : 0 ≤ P.l2.2.2)
    (hA : 0 < P.l2.1 ∨ ∃ p, (as p).Grows sqNorm) (hB : 0 < P.l2.2.1 ∨ ∃ p, (bs p).Grows raggedSq) (hC : 0 < P.l2.2.2 ∨ ∃ p, (cs p).Grows sqNorm)
    (ca : ∀ p, (as p).Closed) (cb : ∀ p, (bs p).Closed) (cc : ∀ p, (cs p).Closed) (na : ∀ p, ∀ Z ∈ (as p).set, 0 ≤ (as p).fn Z)
    (nb : ∀ p, ∀ Z ∈ (bs p).set, 0 ≤ (bs p).fn Z) (nc : ∀ p, ∀ Z ∈ (cs p).set, 0 ≤ (cs p).fn Z) {F₀ : Factors I K R J} (h₀ : Feasible as bs cs F₀) :
    ∃ G, BestModel P as bs cs G := by
  have pos : ∀ {x y : ℝ}, 0 ≤ x → 0 ≤ y → 0 ≤ 1 / 2 * (x * y) := fun hx hy => by positivity
  obtain ⟨G, hG, h⟩ := exists_best P.X (total_closed (l := P.l2.1) continuous_sqNorm ca) (total_closed (l := P.l2.2.1) continuous_raggedSq cb) (total_closed (l := P.l2.2.2) continuous_sqNorm cc)
    (total_grows sqNorm_nonneg hlA na hA) (total_grows raggedSq_nonneg hlB nb hB) (total_grows sqNorm_nonneg hlC nc hC)
    (fun Z hZ => add_nonneg (pos hlA (sqNorm_nonneg Z)) (sum_nonneg fun p _ => na p Z (hZ p))) (fun Z hZ => add_nonneg (pos hlB (raggedSq_nonneg Z)) (sum_nonneg fun p _ => nb p Z (hZ p)))
    (fun Z hZ => add_nonneg (pos hlC (sqNorm_nonneg Z)) (sum_nonneg fun p _ => nc p Z (hZ p))) (F₀ := F₀) h₀
  refine ⟨G, hG, fun F hF => ?_⟩
  rw [regValue_modes, regValue_modes, regA_eq hd hG.1, regB_eq hd hG.2.1, regC_eq hd hG.2.2, regA_eq hd hF.1, regB_eq hd hF.2.1, regC_eq hd hF.2.2]
  exact h F hF

/-- A positive L2 penalty, or a penalty that is zero for zero only. -/
def Strict {V : Type} [AddCommGroup V] [Module ℝ V] {n : ℕ} (l : ℝ) (ms : Fin n → ModeReg V) : Prop := 0 < l ∨ ∃ p, ∀ Z ∈ (ms p).set, (ms p).fn Z = 0 → Z = 0

theorem zero_of_strict {V : Type} [AddCommGroup V] [Module ℝ V] {n : ℕ} {sq : V → ℝ} (hsq : ∀ Z, 0 ≤ sq Z) (hz : ∀ Z, sq Z = 0 → Z = 0) {l : ℝ} (hl : 0 ≤ l) {ms : Fin n → ModeReg V}
    (h0 : ∀ p, ∀ Z ∈ (ms p).set, 0 ≤ (ms p).fn Z) (h : Strict l ms) {Z : V} (hZ : ∀ p, Z ∈ (ms p).set) (he : (ModeReg.total sq l ms).fn Z = 0) : Z = 0 := by
  have h1 : 0 ≤ ∑ p, (ms p).fn Z := sum_nonneg fun p _ => h0 p Z (hZ p)
  have h2 : 0 ≤ l * sq Z := mul_nonneg hl (hsq Z)
  simp only [ModeReg.total] at he
  rcases h with h | ⟨p, hp⟩
  · refine hz Z ?_
    have : l * sq Z = 0 := by linarith
    exact (mul_eq_zero.1 this).resolve_left h.ne'
  · have : ∑ p, (ms p).fn Z = 0 := by linarith
    exact hp Z (hZ p) ((sum_eq_zero_iff_of_nonneg fun p _ => h0 p Z (hZ p)).1 this p (mem_univ p))

theorem zero_sqNorm {m : ℕ} (Z : Matrix (Fin m) (Fin R) ℝ) (h : sqNorm Z = 0) : Z = 0 := by
  ext i r
  have := (sum_eq_zero_iff_of_nonneg fun i _ => sum_nonneg fun r _ => sq_nonneg (Z i r)).1 h i (mem_univ i)
  exact pow_eq_zero_iff two_ne_zero |>.1 ((sum_eq_zero_iff_of_nonneg fun r _ => sq_nonneg (Z i r)).1 this r (mem_univ r))

theorem zero_raggedSq (Z : Ragged I R J) (h : raggedSq Z = 0) : Z = 0 :=
  funext fun i => zero_sqNorm _ ((sum_eq_zero_iff_of_nonneg fun i _ => sqNorm_nonneg (Z i)).1 h i (mem_univ i))

/-- C127: with a penalty on A or B that is zero for zero only, and no norm-based regularisation of C, there is no best model if there is any better than zero. -/
theorem C127_none (hd : Described P as bs cs) (hlA : 0 ≤ P.l2.1) (hlB : 0 ≤ P.l2.2.1) (hlC : P.l2.2.2 = 0) (ha : ∀ p, (as p).Shrinks) (hb : ∀ p, (bs p).Shrinks) (hc : ∀ p, (cs p).Free)
    (nc : ∀ p, ∀ Z ∈ (cs p).set, 0 ≤ (cs p).fn Z) (hs : Strict P.l2.1 as ∨ Strict P.l2.2.1 bs) {F : Factors I K R J} (hF : Feasible as bs cs F)
    (hlt : 1 / 2 * sse P.X F + regValue P F < 1 / 2 * raggedSq P.X) : ¬ ∃ G, BestModel P as bs cs G := by
  rintro ⟨G, hG⟩
  obtain ⟨h1, h2, -⟩ := (C127_C hd hlA hlB hlC ha hb hc).2 G hG
  have hz : ∀ i j k, G.entry i j k = 0 := fun i j k => by
    rcases hs with hs | hs
    · have := zero_of_strict sqNorm_nonneg zero_sqNorm hlA (fun p Z hZ => (ha p Z hZ).1) hs hG.1.1 (by rw [← regA_eq hd hG.1.1]; exact h1)
      simp [Factors.entry, this]
    · have := zero_of_strict raggedSq_nonneg zero_raggedSq hlB (fun p Z hZ => (hb p Z hZ).1) hs hG.1.2.1 (by rw [← regB_eq hd hG.1.2.1]; exact h2)
      simp [Factors.entry, this]
  have he : sse P.X G = raggedSq P.X := by simp [sse, hz, raggedSq, sqNorm]
  have h3 : 0 ≤ regC P G := by
    simp only [regC, hlC, zero_mul, mul_zero, zero_add]
    exact sum_nonneg fun p _ => by rw [hd.C p _ (hG.1.2.2 p)]; exact nc p _ (hG.1.2.2 p)
  have := hG.2 F hF
  rw [regValue_modes P G, h1, h2, he] at this
  linarith

end

/-! ### Calls with penalties of the package -/

/-- Mode-1 regularisation: one of the convex penalties, or PARAFAC2. -/
def bReg : Option ((i : Fin I) → StdPen (J i) R) → ModeReg (Ragged I R J)
  | some q => eachReg fun i => stdReg (q i)
  | none => crossReg I R J

/-- The mode-1 penalty of the code for it. -/
def IsB (pen : PenB I R J) : Option ((i : Fin I) → StdPen (J i) R) → Prop
  | some q => pen = StdPen.toB q
  | none => ∃ svd n u v, pen = .parafac2 svd n u v

section
variable {nA nB nC : ℕ} {P : Problem I K R nA nB nC J} {pa : Fin nA → StdPen I R} {pb : Fin nB → Option ((i : Fin I) → StdPen (J i) R)} {pc : Fin nC → StdPen K R}

theorem described_std (hA : ∀ p, P.pensA p = (pa p).toA) (hB : ∀ p, IsB (P.pensB p) (pb p)) (hC : ∀ p, P.pensC p = (pc p).toC) (va : ∀ p, (pa p).Valid)
    (vb : ∀ p q, pb p = some q → ∀ i, (q i).Valid) (vc : ∀ p, (pc p).Valid) : Described P (fun p => stdReg (pa p)) (fun p => bReg (pb p)) (fun p => stdReg (pc p)) where
  A p Z _ := by rw [hA]; exact (pa p).value_eq (va p) Z
  B p Z _ := by
    have h := hB p
    have hv := vb p
    cases e : pb p with
    | none =>
      rw [e] at h
      obtain ⟨svd, n, u, v, h⟩ := h
      rw [h]
      rfl
    | some q =>
      rw [e] at h
      rw [show P.pensB p = StdPen.toB q from h]
      exact Finset.sum_congr (s₁ := univ) rfl fun i _ => (q i).value_eq (hv q e i) (Z i)
  C p Z _ := by rw [hC]; exact (pc p).value_eq (vc p) Z

theorem b_shrinks {q : Option ((i : Fin I) → StdPen (J i) R)} (hv : ∀ p, q = some p → ∀ i, (p i).Valid ∧ ZeroAllowed (p i)) : (bReg q).Shrinks := by
  cases q with
  | none => exact free_zero_shrinks (cross_free I R J) fun _ _ => rfl
  | some p => exact each_shrinks fun i => std_shrinks (hv p rfl i).1 (hv p rfl i).2

theorem b_closed (q : Option ((i : Fin I) → StdPen (J i) R)) : (bReg q).Closed := by
  cases q with
  | none => exact cross_closed I R J
  | some p => exact each_closed fun i => std_closed (p i)

theorem b_nonneg {q : Option ((i : Fin I) → StdPen (J i) R)} (hv : ∀ p, q = some p → ∀ i, (p i).Valid) (Z : Ragged I R J) : 0 ≤ (bReg q).fn Z := by
  cases q with
  | none => exact le_rfl
  | some p => exact Finset.sum_nonneg (s := univ) fun i _ => (p i).fn_nonneg (hv p rfl i) (Z i)

/-- C127, penalties of the package: if every mode has an L2 penalty, an L1 penalty, min- and max-bounds or hard L2 norm constraints, then there is a best model among those that meet the
constraints, whatever the other penalties. -/
theorem C127_std (hA : ∀ p, P.pensA p = (pa p).toA) (hB : ∀ p, IsB (P.pensB p) (pb p)) (hC : ∀ p, P.pensC p = (pc p).toC) (va : ∀ p, (pa p).Valid)
    (vb : ∀ p q, pb p = some q → ∀ i, (q i).Valid) (vc : ∀ p, (pc p).Valid) (hlA : 0 ≤ P.l2.1) (hlB : 0 ≤ P.l2.2.1) (hlC : 0 ≤ P.l2.2.2)
    (gA : 0 < P.l2.1 ∨ ∃ p, NormBased (pa p)) (gB : 0 < P.l2.2.1 ∨ ∃ p q, pb p = some q ∧ ∀ i, NormBased (q i)) (gC : 0 < P.l2.2.2 ∨ ∃ p, NormBased (pc p))
    {F₀ : Factors I K R J} (h₀ : Feasible (fun p => stdReg (pa p)) (fun p => bReg (pb p)) (fun p => stdReg (pc p)) F₀) :
    ∃ G, BestModel P (fun p => stdReg (pa p)) (fun p => bReg (pb p)) (fun p => stdReg (pc p)) G := by
  refine C127 (described_std hA hB hC va vb vc) hlA hlB hlC (gA.imp_right fun ⟨p, hp⟩ => ⟨p, std_grows (va p) hp⟩) (gB.imp_right fun ⟨p, q, e, hq⟩ => ⟨p, ?_⟩)
    (gC.imp_right fun ⟨p, hp⟩ => ⟨p, std_grows (vc p) hp⟩) (fun p => std_closed _) (fun p => b_closed _) (fun p => std_closed _) (fun p Z _ => (pa p).fn_nonneg (va p) Z)
    (fun p Z _ => b_nonneg (vb p) Z) (fun p Z _ => (pc p).fn_nonneg (vc p) Z) h₀
  rw [e]
  exact each_grows (fun i => std_grows (vb p q e i) (hq i)) fun i Z _ => (q i).fn_nonneg (vb p q e i) Z

theorem l1_strict {m : ℕ} {γ : ℝ} (h : 0 < γ) (nn : Bool) (Z : Matrix (Fin m) (Fin R) ℝ) (he : (stdReg (.l1 γ nn)).fn Z = 0) : Z = 0 := by
  have h1 : absSum Z = 0 := (mul_eq_zero.1 (show γ * absSum Z = 0 from he)).resolve_left h.ne'
  ext i r
  exact abs_eq_zero.1 (le_antisymm ((entry_le_absSum Z i r).trans h1.le) (abs_nonneg _))

/-- C127, penalties of the package: with an L1 or L2 penalty on A or on the B matrices, and for C at most sign constraints, there is no best model if there is any better than zero. -/
theorem C127_std_none (hA : ∀ p, P.pensA p = (pa p).toA) (hB : ∀ p, IsB (P.pensB p) (pb p)) (hC : ∀ p, P.pensC p = (pc p).toC) (va : ∀ p, (pa p).Valid ∧ ZeroAllowed (pa p))
    (vb : ∀ p q, pb p = some q → ∀ i, (q i).Valid ∧ ZeroAllowed (q i)) (vc : ∀ p, (pc p).Valid ∧ ScaleFree (pc p)) (hlA : 0 ≤ P.l2.1) (hlB : 0 ≤ P.l2.2.1) (hlC : P.l2.2.2 = 0)
    (hs : 0 < P.l2.1 ∨ 0 < P.l2.2.1 ∨ (∃ p γ nn, 0 < γ ∧ pa p = .l1 γ nn) ∨ ∃ p γ nn, 0 < γ ∧ pb p = some fun _ => .l1 γ nn) {F : Factors I K R J}
    (hF : Feasible (fun p => stdReg (pa p)) (fun p => bReg (pb p)) (fun p => stdReg (pc p)) F) (hlt : 1 / 2 * sse P.X F + regValue P F < 1 / 2 * raggedSq P.X) :
    ¬ ∃ G, BestModel P (fun p => stdReg (pa p)) (fun p => bReg (pb p)) (fun p => stdReg (pc p)) G := by
  refine C127_none (described_std hA hB hC (fun p => (va p).1) (fun p q e i => (vb p q e i).1) fun p => (vc p).1) hlA hlB hlC (fun p => std_shrinks (va p).1 (va p).2)
    (fun p => b_shrinks (vb p)) (fun p => std_free (vc p).2) (fun p Z _ => (pc p).fn_nonneg (vc p).1 Z) ?_ hF hlt
  rcases hs with h | h | ⟨p, γ, nn, h, e⟩ | ⟨p, γ, nn, h, e⟩
  · exact .inl (.inl h)
  · exact .inr (.inl h)
  · refine .inl (.inr ⟨p, fun Z _ => ?_⟩)
    beta_reduce
    rw [e]
    exact l1_strict h nn Z
  · refine .inr (.inr ⟨p, fun Z _ he => ?_⟩)
    beta_reduce at he
    rw [e] at he
    have h0 : ∀ i, 0 ≤ (stdReg (.l1 γ nn : StdPen (J i) R)).fn (Z i) := fun i => StdPen.fn_nonneg (.l1 γ nn) h.le (Z i)
    exact funext fun i => l1_strict h nn (Z i) ((sum_eq_zero_iff_of_nonneg (s := univ) fun i _ => h0 i).1 he i (mem_univ i))

end

/-- Hard bounds on some modes only do not restrict the matrices: whatever A and the B matrices are, there is a model with the same matrices that meets bounds on A and B (L2 norms of columns,
min- and max-bounds with zero inside) if C has none. -/
theorem C127_bounds (F : Factors I K R J) {pa : StdPen I R} {q : (i : Fin I) → StdPen (J i) R}
    (ha : (∃ b, 0 < b ∧ pa = .l2Ball b false) ∨ ∃ l u, l < 0 ∧ 0 < u ∧ pa = .box (some l) (some u))
    (hb : (∃ b, 0 < b ∧ ∀ i, q i = .l2Ball b false) ∨ ∃ l u, l < 0 ∧ 0 < u ∧ ∀ i, q i = .box (some l) (some u)) :
    ∃ G : Factors I K R J, (∀ i j k, G.entry i j k = F.entry i j k) ∧ G.A ∈ pa.feasible ∧ (∀ i, G.B i ∈ (q i).feasible) ∧ ∃ s : ℝ, 0 < s ∧ G.C = s • F.C := by
  have box : ∀ {m : ℕ} {Z : Matrix (Fin m) (Fin R) ℝ} {l u N : ℝ}, l < 0 → 0 < u → sqNorm Z ≤ N → ∀ s : ℝ, 0 < s → s * (N + 1) ≤ min (-l) u →
      s • Z ∈ (StdPen.box (some l) (some u) : StdPen m R).feasible := by
    intro m Z l u N hl hu hN s hs hle i r
    have he : Z i r ^ 2 ≤ sqNorm Z := (single_le_sum (f := fun r => Z i r ^ 2) (fun r _ => sq_nonneg _) (mem_univ r)).trans
      (single_le_sum (f := fun i => ∑ r, Z i r ^ 2) (fun i _ => sum_nonneg fun r _ => sq_nonneg _) (mem_univ i))
    have h1 : |Z i r| ≤ N + 1 := by nlinarith [sq_abs (Z i r), sq_nonneg (|Z i r| - 1), abs_nonneg (Z i r)]
    obtain ⟨h2, h3⟩ := abs_le.1 h1
    have h4 := hle.trans (min_le_left _ _)
    have h5 := hle.trans (min_le_right _ _)
    refine ⟨fun l' hl' => ?_, fun u' hu' => ?_⟩
    · obtain rfl : l = l' := Option.some.inj hl'
      show l ≤ s * Z i r
      nlinarith
    · obtain rfl : u = u' := Option.some.inj hu'
      show s * Z i r ≤ u
      nlinarith
  have ball : ∀ {m : ℕ} {Z : Matrix (Fin m) (Fin R) ℝ} {b N : ℝ}, 0 < b → sqNorm Z ≤ N → ∀ s : ℝ, 0 < s → s * (N + 1) ≤ b → s • Z ∈ (StdPen.l2Ball b false : StdPen m R).feasible := by
    intro m Z b N hb hN s hs hle
    refine ⟨fun r => ?_, fun h => by cases h⟩
    have he : colSq Z r ≤ sqNorm Z := by
      rw [sqNorm, sum_comm]
      exact single_le_sum (f := fun r => ∑ i, Z i r ^ 2) (fun r _ => sum_nonneg fun i _ => sq_nonneg _) (mem_univ r)
    rw [colSq_smul, Real.sqrt_mul (sq_nonneg s), Real.sqrt_sq hs.le]
    refine le_trans (mul_le_mul_of_nonneg_left ?_ hs.le) hle
    rw [Real.sqrt_le_left (by linarith [sqNorm_nonneg Z])]
    nlinarith [sqNorm_nonneg Z]
  have small : ∀ {N t : ℝ}, 0 ≤ N → 0 < t → ∃ s : ℝ, 0 < s ∧ s * (N + 1) ≤ t := fun {N t} hN ht =>
    ⟨t / (N + 1), div_pos ht (by linarith), by rw [div_mul_cancel₀]; linarith⟩
  have hA : ∃ s : ℝ, 0 < s ∧ s • F.A ∈ pa.feasible := by
    rcases ha with ⟨b, hb, rfl⟩ | ⟨l, u, hl, hu, rfl⟩
    · obtain ⟨s, hs, h⟩ := small (sqNorm_nonneg F.A) hb
      exact ⟨s, hs, ball hb le_rfl s hs h⟩
    · obtain ⟨s, hs, h⟩ := small (sqNorm_nonneg F.A) (lt_min (neg_pos.2 hl) hu)
      exact ⟨s, hs, box hl hu le_rfl s hs h⟩
  have le : ∀ i, sqNorm (F.B i) ≤ raggedSq F.B := fun i => single_le_sum (f := fun i => sqNorm (F.B i)) (fun i _ => sqNorm_nonneg _) (mem_univ i)
  have hB : ∃ s : ℝ, 0 < s ∧ ∀ i, s • F.B i ∈ (q i).feasible := by
    rcases hb with ⟨b, hb, e⟩ | ⟨l, u, hl, hu, e⟩
    · obtain ⟨s, hs, h⟩ := small (raggedSq_nonneg F.B) hb
      exact ⟨s, hs, fun i => by rw [e]; exact ball hb (le i) s hs h⟩
    · obtain ⟨s, hs, h⟩ := small (raggedSq_nonneg F.B) (lt_min (neg_pos.2 hl) hu)
      exact ⟨s, hs, fun i => by rw [e]; exact box hl hu (le i) s hs h⟩
  obtain ⟨s, hs, h1⟩ := hA
  obtain ⟨t, ht, h2⟩ := hB
  exact ⟨⟨s • F.A, t • F.B, (s * t)⁻¹ • F.C⟩, scale_entry F (by field_simp), h1, h2, _, by positivity, rfl⟩

/-! ### Instances -/

/-- Data 1, rank 1, L1 penalty 1/10 on A, non-negative C. -/
noncomputable def loneL1 (prm : Params 1) : Problem 1 1 1 1 0 1 (fun _ => 1) :=
  ⟨fun _ => .of fun _ _ => 1, fun _ => (StdPen.l1 (1 / 10) false).toA, Fin.elim0, fun _ => StdPen.nonNeg.toC, (0, 0, 0), prm, false, false, true, true, true⟩

/-- All factors 1. -/
def oneF : Factors 1 1 1 (fun _ => 1) := ⟨.of fun _ _ => 1, fun _ => .of fun _ _ => 1, .of fun _ _ => 1⟩

/-- `C127_std_none` has instances: L1 on A only has no best model. -/
theorem C127_example (prm : Params 1) :
    ¬ ∃ G, BestModel (loneL1 prm) (fun _ => stdReg (.l1 (1 / 10) false)) (fun p => bReg (J := fun _ => 1) (p.elim0 : Option _)) (fun _ => stdReg .nonNeg) G := by
  refine C127_std_none (P := loneL1 prm) (pa := fun _ => .l1 (1 / 10) false) (pb := fun p => p.elim0) (pc := fun _ => .nonNeg) (fun _ => rfl) (fun p => p.elim0) (fun _ => rfl)
    (fun _ => ⟨by norm_num [StdPen.Valid], trivial⟩) (fun p => p.elim0) (fun _ => ⟨trivial, trivial⟩) le_rfl le_rfl rfl (.inr (.inr (.inl ⟨0, 1 / 10, false, by norm_num, rfl⟩))) (F := oneF)
    ⟨fun _ h => (Bool.false_ne_true h).elim, fun p => p.elim0, fun _ i r => by simp [oneF]⟩ ?_
  norm_num [loneL1, oneF, sse, Factors.entry, regValue, StdPen.toA, StdPen.toC, StdPen.value, Verif.Penalties.l1Penalty, Verif.Penalties.hardPenalty, raggedSq, sqNorm, Fin.sum_univ_succ]

/-- `C127_std` has instances: the same with L2 penalties on B and C. -/
example (prm : Params 1) : ∃ G, BestModel { loneL1 prm with l2 := (0, 1, 1) } (fun _ => stdReg (.l1 (1 / 10) false)) (fun p => bReg (J := fun _ => 1) (p.elim0 : Option _)) (fun _ => stdReg .nonNeg) G :=
  C127_std (P := { loneL1 prm with l2 := (0, 1, 1) }) (pa := fun _ => .l1 (1 / 10) false) (pb := fun p => p.elim0) (pc := fun _ => .nonNeg) (fun _ => rfl) (fun p => p.elim0) (fun _ => rfl)
    (fun _ => by norm_num [StdPen.Valid]) (fun p => p.elim0) (fun _ => trivial) le_rfl zero_le_one zero_le_one (.inr ⟨0, by norm_num [NormBased]⟩) (.inl one_pos) (.inl one_pos) (F₀ := oneF)
    ⟨fun _ h => (Bool.false_ne_true h).elim, fun p => p.elim0, fun _ i r => by simp [oneF]⟩

end Verif.Props
