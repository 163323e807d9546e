import Verif.Props.LoopLasso

/-!
# C139: the limits of factors with bounded column norms
-/

set_option linter.unusedSectionVars false

namespace Verif.Props

open Verif.ADMM Verif.Penalties Verif.Spec Verif.Loop Finset Matrix Filter

variable {I K R n nA nB nC : ℕ} {J : Fin I → ℕ}

/-- A column of norm at most `b`, with non-negative entries if `nn`. -/
def InBall {m : ℕ} (b : ℝ) (nn : Bool) (y : Fin m → ℝ) : Prop := ∑ i, y i ^ 2 ≤ b ^ 2 ∧ (nn → ∀ i, 0 ≤ y i)

/-- Optimality of a column `y` with derivative `g`: there is a multiplier `μ`, zero if the norm is less than `b`, such that `g + μ y` is zero; with non-negativity it is non-negative, and
zero at positive entries. -/
def BallColumn {m : ℕ} (b : ℝ) (nn : Bool) (g y : Fin m → ℝ) : Prop :=
  InBall b nn y ∧ ∃ μ : ℝ, 0 ≤ μ ∧ (∑ i, y i ^ 2 < b ^ 2 → μ = 0) ∧ ∀ i, if nn then 0 ≤ g i + μ * y i ∧ (0 < y i → g i + μ * y i = 0) else g i + μ * y i = 0

theorem ball_le {m : ℕ} {b : ℝ} {nn : Bool} {g y z : Fin m → ℝ} (h : BallColumn b nn g y) (hz : InBall b nn z) : 0 ≤ ∑ i, g i * (z i - y i) := by
  obtain ⟨⟨h1, h2⟩, μ, h0, h3, h4⟩ := h
  have e : ∑ i, g i * (z i - y i) = ∑ i, (g i + μ * y i) * (z i - y i) + μ * (∑ i, y i ^ 2 - ∑ i, y i * z i) := by
    rw [← sum_sub_distrib, mul_sum, ← sum_add_distrib]
    exact sum_congr rfl fun i _ => by ring
  rw [e]
  refine add_nonneg (sum_nonneg fun i _ => ?_) ?_
  · have := h4 i
    cases nn with
    | false =>
      have e : g i + μ * y i = 0 := by simpa using this
      rw [e, zero_mul]
    | true =>
      obtain ⟨h5, h6⟩ : 0 ≤ g i + μ * y i ∧ (0 < y i → g i + μ * y i = 0) := by simpa using this
      rcases (h2 rfl i).eq_or_lt with hy | hy
      · rw [← hy, sub_zero]
        rw [← hy] at h5
        exact mul_nonneg h5 (hz.2 rfl i)
      · rw [h6 hy, zero_mul]
  · rcases h1.lt_or_eq with hy | hy
    · rw [h3 hy, zero_mul]
    · have : ∑ i, 2 * (y i * z i) ≤ ∑ i, (y i ^ 2 + z i ^ 2) := sum_le_sum fun i _ => by nlinarith [sq_nonneg (y i - z i)]
      rw [← mul_sum, sum_add_distrib] at this
      exact mul_nonneg h0 (by linarith [hz.1])

theorem ball_of {m : ℕ} {b : ℝ} (hb : 0 < b) {nn : Bool} {g y : Fin m → ℝ} (hy : InBall b nn y) (h : ∀ z, InBall b nn z → 0 ≤ ∑ i, g i * (z i - y i)) : BallColumn b nn g y := by
  have hb2 : 0 < b ^ 2 := by positivity
  set G := ∑ i, g i * y i with hG
  have hs : ∀ (s : ℝ) (w : Fin m → ℝ), InBall b nn (fun i => s * w i) → 0 ≤ s * ∑ i, g i * w i - G := by
    intro s w hw
    have := h _ hw
    rw [hG, mul_sum, ← sum_sub_distrib]
    refine this.trans_eq (sum_congr rfl fun i _ => by ring)
  have G0 : G ≤ 0 := by
    have := hs 0 y ⟨by simp; positivity, fun _ i => by simp⟩
    linarith
  refine ⟨hy, -G / b ^ 2, div_nonneg (by linarith) hb2.le, fun hlt => ?_, ?_⟩
  · -- strictly inside the ball
    set N := ∑ i, y i ^ 2 with hN
    have N0 : 0 ≤ N := sum_nonneg fun i _ => sq_nonneg _
    have : 0 ≤ G := by
      rcases N0.eq_or_lt with hz | hz
      · have hy0 : ∀ i, y i = 0 := fun i => by
          have := (sum_eq_zero_iff_of_nonneg (fun i _ => sq_nonneg (y i))).1 hz.symm i (mem_univ i)
          exact pow_eq_zero_iff two_ne_zero |>.1 this
        rw [hG]
        simp [hy0]
      · have hbig : 1 < b / √N := (one_lt_div (Real.sqrt_pos.2 hz)).2 (by rw [Real.sqrt_lt' hb]; exact hlt)
        have := hs (b / √N) y ⟨by
          simp only [mul_pow, ← mul_sum]
          rw [← hN, div_pow, Real.sq_sqrt N0, div_mul_cancel₀ _ hz.ne'], fun hn i => mul_nonneg (by positivity) (hy.2 hn i)⟩
        rw [← hG] at this
        nlinarith
    rw [le_antisymm G0 this, neg_zero, zero_div]
  · have key : ∀ i (d : ℝ), (nn → 0 ≤ y i + d) → 0 ≤ d * (g i + -G / b ^ 2 * y i) := by
      intro i d hd
      refine nonneg_of_small (b := d ^ 2 / 2 * (-G / b ^ 2)) fun t t0 t1 => ?_
      let w : Fin m → ℝ := fun j => y j + if j = i then t * d else 0
      have ew : ∑ j, w j ^ 2 = ∑ j, y j ^ 2 + 2 * (t * d) * y i + (t * d) ^ 2 := by
        have : ∀ j, w j ^ 2 = y j ^ 2 + if j = i then 2 * (t * d) * y i + (t * d) ^ 2 else 0 := by
          intro j
          by_cases hj : j = i
          · subst hj; simp [w]; ring
          · simp [w, hj]
        simp only [this, sum_add_distrib, sum_ite_eq', mem_univ, if_true]
        ring
      have eg : ∑ j, g j * w j = G + t * d * g i := by
        simp only [w, mul_add, sum_add_distrib, mul_ite, mul_zero, sum_ite_eq', mem_univ, if_true, hG]
        ring
      have w0 : 0 ≤ ∑ j, w j ^ 2 := sum_nonneg fun j _ => sq_nonneg _
      set u := (t * d * y i + (t * d) ^ 2 / 2) / b ^ 2 with hu
      have eu : u * b ^ 2 = t * d * y i + (t * d) ^ 2 / 2 := div_mul_cancel₀ _ hb2.ne'
      have le1 : ∑ j, w j ^ 2 ≤ (1 + 2 * u) * b ^ 2 := by
        rw [ew]
        nlinarith [hy.1]
      have u1 : 0 ≤ 1 + 2 * u := by
        by_contra hc
        push Not at hc
        nlinarith
      have u0 : 0 < 1 + u := by linarith
      have := hs (1 + u)⁻¹ w ⟨by
        simp only [mul_pow, ← mul_sum]
        rw [inv_pow, inv_mul_le_iff₀ (by positivity)]
        nlinarith [mul_nonneg (sq_nonneg u) hb2.le], fun hn j => mul_nonneg (by positivity) (by
          have h1 := hy.2 hn j
          by_cases hj : j = i
          · subst hj
            have := hd hn
            simp [w]
            nlinarith
          · simpa [w, hj] using h1)⟩
      rw [eg] at this
      have h2 : (1 + u) * G ≤ G + t * d * g i := by
        have := mul_nonneg u0.le this
        rw [mul_sub, ← mul_assoc, mul_inv_cancel₀ u0.ne', one_mul] at this
        linarith
      have h3 : u * G ≤ t * d * g i := by linarith
      have e4 : u * G = -((t * d * y i + (t * d) ^ 2 / 2) * (-G / b ^ 2)) := by
        rw [hu]; ring
      rw [e4] at h3
      nlinarith
    intro i
    cases nn with
    | false =>
      have h1 := key i 1 (fun hn => by cases hn)
      have h2 := key i (-1) (fun hn => by cases hn)
      simp only [Bool.false_eq_true, if_false]
      linarith
    | true =>
      have hyi := hy.2 rfl i
      have h1 := key i 1 (fun _ => by linarith)
      have h2 := key i (-y i) (fun _ => by linarith)
      simp only [if_true]
      refine ⟨by linarith, fun h0 => le_antisymm ?_ (by linarith)⟩
      nlinarith

/-- Minimisers of a convex quadratic function over columns in balls. -/
theorem ball_iff {V κ : Type} [Fintype κ] [AddCommGroup V] [Module ℝ V] {m : κ → ℕ} (f : V → ℝ) (col : (p : κ) → V → Fin (m p) → ℝ) (G : V → (p : κ) → Fin (m p) → ℝ) (Q : V → ℝ)
    (hQ : ∀ v, 0 ≤ Q v) (hQs : ∀ (t : ℝ) v, Q (t • v) = t ^ 2 * Q v) (hcol : ∀ p (t : ℝ) y z i, col p (y + t • (z - y)) i = col p y i + t * (col p z i - col p y i))
    (hf : ∀ y z, f z = f y + ∑ p, ∑ i, G y p i * (col p z i - col p y i) + Q (z - y)) (put : V → (p : κ) → (Fin (m p) → ℝ) → V) (hp1 : ∀ y p z, col p (put y p z) = z)
    (hp2 : ∀ y p z q, q ≠ p → col q (put y p z) = col q y) {b : ℝ} (hb : 0 < b) (nn : Bool) (y : V) :
    ((∀ p, InBall b nn (col p y)) ∧ ∀ z, (∀ p, InBall b nn (col p z)) → f y ≤ f z) ↔ ∀ p, BallColumn b nn (G y p) (col p y) := by
  constructor
  · rintro ⟨h1, h2⟩ p
    refine ball_of hb (h1 p) fun z hz => ?_
    have hin : ∀ q, InBall b nn (col q (put y p z)) := by
      intro q
      by_cases hq : q = p
      · subst hq; rw [hp1]; exact hz
      · rw [hp2 _ _ _ _ hq]; exact h1 q
    have e1 : ∑ q, ∑ i, G y q i * (col q (put y p z) i - col q y i) = ∑ i, G y p i * (z i - col p y i) := by
      rw [sum_eq_single p]
      · rw [hp1]
      · intro q _ hq
        simp [hp2 _ _ _ _ hq]
      · intro hp
        exact absurd (mem_univ p) hp
    rw [← e1]
    refine nonneg_of_small (b := Q (put y p z - y)) fun t t0 t1 => ?_
    have := h2 (y + t • (put y p z - y)) fun q => by
      have ha := h1 q
      have hb := hin q
      refine ⟨?_, fun hn i => ?_⟩
      · simp only [hcol]
        have : ∑ i, (col q y i + t * (col q (put y p z) i - col q y i)) ^ 2 ≤ ∑ i, ((1 - t) * col q y i ^ 2 + t * col q (put y p z) i ^ 2) := sum_le_sum fun i _ => by
          nlinarith [mul_nonneg (mul_nonneg t0.le (sub_nonneg.2 t1)) (sq_nonneg (col q y i - col q (put y p z) i))]
        rw [sum_add_distrib, ← mul_sum, ← mul_sum] at this
        nlinarith [ha.1, hb.1, mul_le_mul_of_nonneg_left ha.1 (sub_nonneg.2 t1), mul_le_mul_of_nonneg_left hb.1 t0.le]
      · rw [hcol]
        nlinarith [mul_nonneg (sub_nonneg.2 t1) (ha.2 hn i), mul_nonneg t0.le (hb.2 hn i)]
    rw [hf y (y + t • (put y p z - y)), add_sub_cancel_left, hQs] at this
    have e2 : ∑ q, ∑ i, G y q i * (col q (y + t • (put y p z - y)) i - col q y i) = t * ∑ q, ∑ i, G y q i * (col q (put y p z) i - col q y i) := by
      simp only [mul_sum, hcol]
      exact sum_congr rfl fun q _ => sum_congr rfl fun i _ => by ring
    rw [e2] at this
    linarith
  · intro h
    refine ⟨fun p => (h p).1, fun z hz => ?_⟩
    rw [hf y z]
    have : 0 ≤ ∑ p, ∑ i, G y p i * (col p z i - col p y i) := sum_nonneg fun p _ => ball_le (h p) (hz p)
    linarith [hQ (z - y)]


theorem inBall_iff {m : ℕ} {b : ℝ} (hb : 0 < b) (nn : Bool) (Z : Matrix (Fin m) (Fin R) ℝ) : Z ∈ (StdPen.l2Ball b nn : StdPen m R).feasible ↔ ∀ r, InBall b nn fun i => Z i r := by
  simp only [StdPen.feasible, Set.mem_ofPred_eq, InBall, colSq, Real.sqrt_le_left hb.le]
  exact ⟨fun h r => ⟨h.1 r, fun hn i => h.2 hn i r⟩, fun h => ⟨fun r => (h r).1, fun hn i r => (h r).2 hn i⟩⟩

theorem ball_minA (X : Ragged I K J) {l : ℝ} (hl : 0 ≤ l) (F : Factors I K R J) {b : ℝ} (hb : 0 < b) (nn : Bool) (Y : Matrix (Fin I) (Fin R) ℝ) :
    IsMinOver (fitA X l F) (fun _ : Fin 1 => (StdPen.l2Ball b nn : StdPen I R).feasible) (fun _ => (StdPen.l2Ball b nn : StdPen I R).fn) Y ↔
      ∀ r, BallColumn b nn (fun i => gradA X l F Y i r) fun i => Y i r := by
  have key := ball_iff (m := fun _ : Fin R => I) (fitA X l F) (fun r Z i => Z i r) (fun Z r i => gradA X l F Z i r) (quadA l F)
    (fun v => add_nonneg (mul_nonneg (by norm_num) (sum_nonneg fun _ _ => sum_nonneg fun _ _ => sum_nonneg fun _ _ => sq_nonneg _)) (mul_nonneg (by linarith) (sqNorm_nonneg _)))
    (fun t v => quadA_smul l F t v) (fun p t y z i => by simp) (fun y z => by rw [fitA_expand X l F y z, sum_comm]) (fun Y r z => Matrix.of fun i s => if s = r then z i else Y i s)
    (fun y p z => by funext i; simp) (fun y p z q hq => by funext i; simp [hq]) hb nn Y
  rw [← key]
  simp only [IsMinOver, forall_const, inBall_iff hb, StdPen.fn, add_zero, sum_const_zero]

theorem ball_minB (X : Ragged I K J) {l : ℝ} (hl : 0 ≤ l) (F : Factors I K R J) {b : ℝ} (hb : 0 < b) (nn : Bool) (Y : Ragged I R J) :
    IsMinOver (fitB X l F) (fun _ : Fin 1 => {Z : Ragged I R J | ∀ i, Z i ∈ (StdPen.l2Ball b nn : StdPen (J i) R).feasible}) (fun _ Z => ∑ i, (StdPen.l2Ball b nn : StdPen (J i) R).fn (Z i)) Y ↔
      ∀ i r, BallColumn b nn (fun j => gradB X l F Y i j r) fun j => Y i j r := by
  have key := ball_iff (m := fun p : Fin I × Fin R => J p.1) (fitB X l F) (fun p Z j => Z p.1 j p.2) (fun Z p j => gradB X l F Z p.1 j p.2) (quadB l F)
    (fun v => add_nonneg (mul_nonneg (by norm_num) (sum_nonneg fun _ _ => sum_nonneg fun _ _ => sum_nonneg fun _ _ => sq_nonneg _))
      (mul_nonneg (by linarith) (sum_nonneg fun _ _ => sqNorm_nonneg _)))
    (fun t v => quadB_smul l F t v) (fun p t y z i => by simp)
    (fun y z => by rw [fitB_expand X l F y z, Fintype.sum_prod_type]; congr 2; exact sum_congr rfl fun i _ => sum_comm)
    (fun Y p z i => if h : i = p.1 then Matrix.of fun j s => if s = p.2 then z (h ▸ j) else Y i j s else Y i)
    (fun y p z => by funext i; simp) (fun y p z q hq => by
      funext j
      by_cases h : q.1 = p.1
      · have h2 : q.2 ≠ p.2 := fun h2 => hq (Prod.ext h h2)
        simp [h, h2]
      · simp [h]) hb nn Y
  simp only [Prod.forall] at key
  rw [← key]
  simp only [IsMinOver, forall_const, Set.mem_ofPred_eq, inBall_iff hb, StdPen.fn, add_zero, sum_const_zero]

theorem ball_minC (X : Ragged I K J) {l : ℝ} (hl : 0 ≤ l) (F : Factors I K R J) {b : ℝ} (hb : 0 < b) (nn : Bool) (Y : Matrix (Fin K) (Fin R) ℝ) :
    IsMinOver (fitC X l F) (fun _ : Fin 1 => (StdPen.l2Ball b nn : StdPen K R).feasible) (fun _ => (StdPen.l2Ball b nn : StdPen K R).fn) Y ↔
      ∀ r, BallColumn b nn (fun k => gradC X l F Y k r) fun k => Y k r := by
  have key := ball_iff (m := fun _ : Fin R => K) (fitC X l F) (fun r Z k => Z k r) (fun Z r k => gradC X l F Z k r) (quadC l F)
    (fun v => add_nonneg (mul_nonneg (by norm_num) (sum_nonneg fun _ _ => sum_nonneg fun _ _ => sum_nonneg fun _ _ => sq_nonneg _)) (mul_nonneg (by linarith) (sqNorm_nonneg _)))
    (fun t v => quadC_smul l F t v) (fun p t y z i => by simp) (fun y z => by rw [fitC_expand X l F y z, sum_comm]) (fun Y r z => Matrix.of fun k s => if s = r then z k else Y k s)
    (fun y p z => by funext i; simp) (fun y p z q hq => by funext i; simp [hq]) hb nn Y
  rw [← key]
  simp only [IsMinOver, forall_const, inBall_iff hb, StdPen.fn, add_zero, sum_const_zero]

/-- C139, A: if only this factor is updated and has bounded column norms, then its iterates and auxiliary variables converge to the only matrix whose columns are optimal in the
sense of `BallColumn`. -/
theorem C139_A (P : Problem I K R 1 nB nC J) (hsvd : ValidSVD P.params) (hN : 0 < P.params.nInner) (hA : P.updA = true) (hB : P.updB = false)
    (hC : P.updC = false) (hl : 0 ≤ P.l2.1) (init : AOState I K R 1 nB nC J) (hw : ∀ i, 0 < weightA P.params.scale init.F i) (hsol : SolvableA init.F P.l2.1)
    {b : ℝ} (hb : 0 < b) (nn : Bool) (hpens : P.pensA 0 = (StdPen.l2Ball b nn : StdPen I R).toA)
    (outs : ℕ → Output (AOState I K R 1 nB nC J)) (h : ∀ n : ℕ, cmfAoadmm P (plain n) init = .ok (outs n)) :
    ∃ xs : Matrix (Fin I) (Fin R) ℝ, (∀ i r, Tendsto (fun n => (outs n).st.F.A i r) atTop (nhds (xs i r))) ∧ (∀ i r, Tendsto (fun n => (outs n).st.auxA 0 i r) atTop (nhds (xs i r))) ∧
      ∀ Y : Matrix (Fin I) (Fin R) ℝ, (∀ r, BallColumn b nn (fun i => gradA P.X P.l2.1 init.F Y i r) fun i => Y i r) ↔ Y = xs := by
  obtain ⟨xs, h1, h2, h3⟩ := C68_A P hsvd hN hA hB hC hl init hw hsol (fun _ => .l2Ball b nn) (fun _ => hb) (fun q => by rw [Subsingleton.elim q 0]; exact hpens) 0 0 ⟨fun r => by simp [colSq]; exact hb.le, fun _ _ _ => le_rfl⟩
    (fun q hq => absurd (Subsingleton.elim q 0) hq) outs h
  exact ⟨xs, h2, h3 0, fun Y => (ball_minA P.X hl init.F hb nn Y).symm.trans (h1 Y)⟩

/-- C139, the B factor matrices: if only this factor is updated and has bounded column norms, then its iterates and auxiliary variables converge to the only matrix whose columns are optimal in the
sense of `BallColumn`. -/
theorem C139_B (P : Problem I K R nA 1 nC J) (hsvd : ValidSVD P.params) (hN : 0 < P.params.nInner) (hA : P.updA = false) (hB : P.updB = true)
    (hC : P.updC = false) (hl : 0 ≤ P.l2.2.1) (init : AOState I K R nA 1 nC J) (hw : ∀ i, 0 < weightB P.params.scale init.F i) (hsol : SolvableB init.F P.l2.2.1)
    {b : ℝ} (hb : 0 < b) (nn : Bool) (hpens : P.pensB 0 = StdPen.toB fun i => (StdPen.l2Ball b nn : StdPen (J i) R))
    (outs : ℕ → Output (AOState I K R nA 1 nC J)) (h : ∀ n : ℕ, cmfAoadmm P (plain n) init = .ok (outs n)) :
    ∃ xs : Ragged I R J, (∀ i j r, Tendsto (fun n => (outs n).st.F.B i j r) atTop (nhds (xs i j r))) ∧ (∀ i j r, Tendsto (fun n => ((outs n).st.auxB 0).toMats i j r) atTop (nhds (xs i j r))) ∧
      ∀ Y : Ragged I R J, (∀ i r, BallColumn b nn (fun j => gradB P.X P.l2.2.1 init.F Y i j r) fun j => Y i j r) ↔ Y = xs := by
  obtain ⟨xs, h1, h2, h3⟩ := C68_B P hsvd hN hA hB hC hl init hw hsol (fun _ _ => .l2Ball b nn) (fun _ _ => hb) (fun q => by rw [Subsingleton.elim q 0]; exact hpens) 0 0 (fun i => ⟨fun r => by simp [colSq]; exact hb.le, fun _ _ _ => le_rfl⟩)
    (fun q hq => absurd (Subsingleton.elim q 0) hq) outs h
  exact ⟨xs, h2, h3 0, fun Y => (ball_minB P.X hl init.F hb nn Y).symm.trans (h1 Y)⟩

/-- C139, C: if only this factor is updated and has bounded column norms, then its iterates and auxiliary variables converge to the only matrix whose columns are optimal in the
sense of `BallColumn`. -/
theorem C139_C (P : Problem I K R nA nB 1 J) (hsvd : ValidSVD P.params) (hN : 0 < P.params.nInner) (hA : P.updA = false) (hB : P.updB = false)
    (hC : P.updC = true) (hl : 0 ≤ P.l2.2.2) (init : AOState I K R nA nB 1 J) (hw : 0 < weightC P.params.scale init.F) (hsol : SolvableC init.F P.l2.2.2)
    {b : ℝ} (hb : 0 < b) (nn : Bool) (hpens : P.pensC 0 = (StdPen.l2Ball b nn : StdPen K R).toC)
    (outs : ℕ → Output (AOState I K R nA nB 1 J)) (h : ∀ n : ℕ, cmfAoadmm P (plain n) init = .ok (outs n)) :
    ∃ xs : Matrix (Fin K) (Fin R) ℝ, (∀ k r, Tendsto (fun n => (outs n).st.F.C k r) atTop (nhds (xs k r))) ∧ (∀ k r, Tendsto (fun n => (outs n).st.auxC 0 k r) atTop (nhds (xs k r))) ∧
      ∀ Y : Matrix (Fin K) (Fin R) ℝ, (∀ r, BallColumn b nn (fun k => gradC P.X P.l2.2.2 init.F Y k r) fun k => Y k r) ↔ Y = xs := by
  obtain ⟨xs, h1, h2, h3⟩ := C68_C P hsvd hN hA hB hC hl init hw hsol (fun _ => .l2Ball b nn) (fun _ => hb) (fun q => by rw [Subsingleton.elim q 0]; exact hpens) 0 0 ⟨fun r => by simp [colSq]; exact hb.le, fun _ _ _ => le_rfl⟩
    (fun q hq => absurd (Subsingleton.elim q 0) hq) outs h
  exact ⟨xs, h2, h3 0, fun Y => (ball_minC P.X hl init.F hb nn Y).symm.trans (h1 Y)⟩

/-- The data matrix `[[5]]`, A and B equal to 1, the column of C of norm at most 2: C tends to 2, with derivative -3 and multiplier 3/2. -/
theorem C139_example : ∃ (P : Problem 1 1 1 0 0 1 fun _ => 1) (init : AOState 1 1 1 0 0 1 fun _ => 1) (outs : ℕ → Output (AOState 1 1 1 0 0 1 fun _ => 1)),
    (∀ n : ℕ, cmfAoadmm P (plain n) init = .ok (outs n)) ∧ P.pensC 0 = (StdPen.l2Ball 2 false : StdPen 1 1).toC ∧ init.F.C = !![7] ∧ gradC P.X 0 init.F !![2] 0 0 = -3 ∧
      Tendsto (fun n => (outs n).st.F.C 0 0) atTop (nhds 2) := by
  obtain ⟨prm, hP, hN, -, hscale⟩ := exists_params 1 3 none 2
  let P : Problem 1 1 1 0 0 1 fun _ => 1 :=
    ⟨fun _ => !![5], Fin.elim0, Fin.elim0, fun _ => (StdPen.l2Ball 2 false : StdPen 1 1).toC, (0, 0, 0), prm, false, false, false, false, true⟩
  let init : AOState 1 1 1 0 0 1 fun _ => 1 := ⟨none, ⟨ones.A, ones.B, !![7]⟩, Fin.elim0, Fin.elim0, Fin.elim0, Fin.elim0, fun _ => !![5], fun _ => !![4]⟩
  choose outs ho using fun n : ℕ => C61 P one_pos (fun _ p => p.elim0) (plain n) (by simp [plain, truthy]) init
  have eg : gradC P.X 0 init.F !![2] 0 0 = -3 := by
    simp [gradC, Factors.entry, P, init, ones]
    norm_num
  refine ⟨P, init, outs, ho, rfl, rfl, eg, ?_⟩
  obtain ⟨xs, h1, -, h3⟩ := C139_C P hP (by show 0 < prm.nInner; omega) rfl rfl rfl le_rfl init
    (by show 0 < weightC prm.scale _; rw [hscale]; simp [weightC, init, ones]) solvable_ones.2.2 two_pos false rfl outs ho
  have h5 : !![2] = xs := (h3 _).1 (by
    intro r
    fin_cases r
    refine ⟨⟨by simp, fun h => by cases h⟩, 3 / 2, by norm_num, fun h => by simp at h, fun i => ?_⟩
    fin_cases i
    show gradC P.X 0 init.F !![2] 0 0 + 3 / 2 * 2 = 0
    rw [eg]
    norm_num)
  have := h1 0 0
  rw [← h5] at this
  exact this

end Verif.Props
