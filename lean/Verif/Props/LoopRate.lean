import Verif.Props.ADMMRate
import Verif.Props.LoopSolve

/-!
# C122: rates of convergence of runs that update one mode
-/

set_option linter.unusedSectionVars false

namespace Verif.Props

open Verif.ADMM Verif.Penalties Verif.Spec Verif.Loop Finset Matrix Filter

variable {I K R nA nB nC : ℕ} {J : Fin I → ℕ}

/-! ### Feasibility gaps -/

theorem rate_reindex {k N : ℕ} (h : k ≤ N) {x y : ℝ} (hx : 0 ≤ x) (h2 : (N : ℝ) * x ≤ y) : (k : ℝ) * x ≤ y :=
  (mul_le_mul_of_nonneg_right (Nat.cast_le.2 h) hx).trans h2

/-- C122, mode 0: the run updates A only, with any number of convex penalties. After `n + 1` outer iterations the weighted sum of the squared distances between the
factor and its auxiliary variables is at most `1/n` of a number that only depends on the start; without inner tolerance every inner iteration counts. -/
theorem C122_gaps_A (P : Problem I K R nA nB nC J) (hsvd : ValidSVD P.params) (hN : 0 < P.params.nInner) (hA : P.updA = true) (hB : P.updB = false)
    (hC : P.updC = false) (hl : 0 ≤ P.l2.1) (hn : 0 < nA) (init : AOState I K R nA nB nC J) (hw : ∀ i, 0 < weightA P.params.scale init.F i)
    (S : Fin nA → Set (Matrix (Fin I) (Fin R) ℝ)) (g : Fin nA → Matrix (Fin I) (Fin R) ℝ → ℝ)
    (hp : ∀ p, (P.pensA p).ProxOf (S p) (g p)) (hg : ∀ p, ConvexOn ℝ (S p) (g p))
    (xs : Matrix (Fin I) (Fin R) ℝ) (Λ : Fin nA → Matrix (Fin I) (Fin R) ℝ) (hs : IsSaddlePoint Spec.inner (fitA P.X P.l2.1 init.F) S g xs Λ)
    (ρ : Fin I → ℝ) (hρ : IsWeights P.constA (weightA P.params.scale init.F) ρ)
    (outs : ℕ → Output (AOState I K R nA nB nC J)) (h : ∀ n : ℕ, cmfAoadmm P (plain n) init = .ok (outs n)) (n : ℕ) :
    n * ∑ p, ∑ i, ρ i * ∑ r, ((outs (n + 1)).st.F.A i r - (outs (n + 1)).st.auxA p i r) ^ 2 ≤ matDist ρ xs Λ init.auxA init.dualA ∧
    ((∀ t, P.params.innerTol = some t → t ≤ 0) →
      ((n + 1) * P.params.nInner - 1 : ℕ) * ∑ p, ∑ i, ρ i * ∑ r, ((outs (n + 1)).st.F.A i r - (outs (n + 1)).st.auxA p i r) ^ 2
        ≤ matDist ρ xs Λ init.auxA init.dualA) := by
  obtain ⟨seq, M, h0, hseq, hM⟩ := C59_A P hN hA hB hC init outs h
  obtain ⟨e, h1, -, h3⟩ := hM (n + 1)
  obtain ⟨m, hm⟩ : ∃ m, M (n + 1) = m + 1 := ⟨M (n + 1) - 1, by omega⟩
  rw [hm] at e
  have hpos := hρ.pos hw
  have hr := C119_A P.params hsvd P.X hl P.constA init.F P.pensA hn hw S g hp hg seq hseq xs Λ hs ρ hρ m
  rw [h0] at hr
  have hx : (seq (m + 1)).x = (outs (n + 1)).st.F.A := by rw [← e]
  have ha : (seq (m + 1)).aux = (outs (n + 1)).st.auxA := by rw [← e]
  rw [hx, ha] at hr
  have hnn : 0 ≤ ∑ p, ∑ i, ρ i * ∑ r, ((outs (n + 1)).st.F.A i r - (outs (n + 1)).st.auxA p i r) ^ 2 :=
    sum_nonneg fun _ _ => sum_nonneg fun i _ => mul_nonneg (hpos i).le (sum_nonneg fun _ _ => sq_nonneg _)
  have key : (m : ℝ) * ∑ p, ∑ i, ρ i * ∑ r, ((outs (n + 1)).st.F.A i r - (outs (n + 1)).st.auxA p i r) ^ 2 ≤ matDist ρ xs Λ init.auxA init.dualA := by
    refine le_trans (mul_le_mul_of_nonneg_left ?_ (Nat.cast_nonneg m)) hr
    exact sum_le_sum fun p _ => sum_le_sum fun i _ => mul_le_mul_of_nonneg_left
      (sum_le_sum fun r _ => le_add_of_nonneg_right (sq_nonneg _)) (hpos i).le
  exact ⟨rate_reindex (by omega) hnn key, fun ht => rate_reindex (by rw [← h3 ht]; omega) hnn key⟩

/-- C122, mode 1. -/
theorem C122_gaps_B (P : Problem I K R nA nB nC J) (hsvd : ValidSVD P.params) (hN : 0 < P.params.nInner) (hA : P.updA = false) (hB : P.updB = true)
    (hC : P.updC = false) (hl : 0 ≤ P.l2.2.1) (hn : 0 < nB) (init : AOState I K R nA nB nC J) (hw : ∀ i, 0 < weightB P.params.scale init.F i)
    (S : Fin nB → Set (Ragged I R J)) (g : Fin nB → Ragged I R J → ℝ)
    (hp : ∀ p, (P.pensB p).ProxOf (S p) (g p)) (hg : ∀ p, ConvexOn ℝ (S p) (g p))
    (xs : Ragged I R J) (Λ : Fin nB → Ragged I R J) (hs : IsSaddlePoint ragInner (fitB P.X P.l2.2.1 init.F) S g xs Λ)
    (ρ : Fin I → ℝ) (hρ : IsWeights P.constB (weightB P.params.scale init.F) ρ)
    (outs : ℕ → Output (AOState I K R nA nB nC J)) (h : ∀ n : ℕ, cmfAoadmm P (plain n) init = .ok (outs n)) (n : ℕ) :
    n * ∑ p, ∑ i, ρ i * ∑ j, ∑ r, ((outs (n + 1)).st.F.B i j r - ((outs (n + 1)).st.auxB p).toMats i j r) ^ 2
      ≤ ragDist ρ xs Λ (fun p => (init.auxB p).toMats) init.dualB ∧
    ((∀ t, P.params.innerTol = some t → t ≤ 0) →
      ((n + 1) * P.params.nInner - 1 : ℕ) * ∑ p, ∑ i, ρ i * ∑ j, ∑ r, ((outs (n + 1)).st.F.B i j r - ((outs (n + 1)).st.auxB p).toMats i j r) ^ 2
        ≤ ragDist ρ xs Λ (fun p => (init.auxB p).toMats) init.dualB) := by
  obtain ⟨seq, M, h0, hseq, hM⟩ := C59_B P hN hA hB hC init outs h
  obtain ⟨e, h1, -, h3⟩ := hM (n + 1)
  obtain ⟨m, hm⟩ : ∃ m, M (n + 1) = m + 1 := ⟨M (n + 1) - 1, by omega⟩
  rw [hm] at e
  have hpos := hρ.pos hw
  have hr := C119_B P.params hsvd P.X hl P.constB init.F P.pensB hn hw S g hp hg seq hseq xs Λ hs ρ hρ m
  rw [h0] at hr
  have hx : (seq (m + 1)).x = (outs (n + 1)).st.F.B := by rw [← e]
  have ha : (seq (m + 1)).aux = (outs (n + 1)).st.auxB := by rw [← e]
  rw [hx, ha] at hr
  have hnn : 0 ≤ ∑ p, ∑ i, ρ i * ∑ j, ∑ r, ((outs (n + 1)).st.F.B i j r - ((outs (n + 1)).st.auxB p).toMats i j r) ^ 2 :=
    sum_nonneg fun _ _ => sum_nonneg fun i _ => mul_nonneg (hpos i).le (sum_nonneg fun _ _ => sum_nonneg fun _ _ => sq_nonneg _)
  have key : (m : ℝ) * ∑ p, ∑ i, ρ i * ∑ j, ∑ r, ((outs (n + 1)).st.F.B i j r - ((outs (n + 1)).st.auxB p).toMats i j r) ^ 2
      ≤ ragDist ρ xs Λ (fun p => (init.auxB p).toMats) init.dualB := by
    refine le_trans (mul_le_mul_of_nonneg_left ?_ (Nat.cast_nonneg m)) hr
    exact sum_le_sum fun p _ => sum_le_sum fun i _ => mul_le_mul_of_nonneg_left
      (sum_le_sum fun j _ => sum_le_sum fun r _ => le_add_of_nonneg_right (sq_nonneg _)) (hpos i).le
  exact ⟨rate_reindex (by omega) hnn key, fun ht => rate_reindex (by rw [← h3 ht]; omega) hnn key⟩

/-- C122, mode 2. -/
theorem C122_gaps_C (P : Problem I K R nA nB nC J) (hsvd : ValidSVD P.params) (hN : 0 < P.params.nInner) (hA : P.updA = false) (hB : P.updB = false)
    (hC : P.updC = true) (hl : 0 ≤ P.l2.2.2) (hn : 0 < nC) (init : AOState I K R nA nB nC J) (hw : 0 < weightC P.params.scale init.F)
    (S : Fin nC → Set (Matrix (Fin K) (Fin R) ℝ)) (g : Fin nC → Matrix (Fin K) (Fin R) ℝ → ℝ)
    (hp : ∀ p, (P.pensC p).ProxOf (S p) (g p)) (hg : ∀ p, ConvexOn ℝ (S p) (g p))
    (xs : Matrix (Fin K) (Fin R) ℝ) (Λ : Fin nC → Matrix (Fin K) (Fin R) ℝ) (hs : IsSaddlePoint Spec.inner (fitC P.X P.l2.2.2 init.F) S g xs Λ)
    (outs : ℕ → Output (AOState I K R nA nB nC J)) (h : ∀ n : ℕ, cmfAoadmm P (plain n) init = .ok (outs n)) (n : ℕ) :
    n * ∑ p, ∑ i, weightC P.params.scale init.F * ∑ r, ((outs (n + 1)).st.F.C i r - (outs (n + 1)).st.auxC p i r) ^ 2
      ≤ matDist (fun _ => weightC P.params.scale init.F) xs Λ init.auxC init.dualC ∧
    ((∀ t, P.params.innerTol = some t → t ≤ 0) →
      ((n + 1) * P.params.nInner - 1 : ℕ) *
          ∑ p, ∑ i, weightC P.params.scale init.F * ∑ r, ((outs (n + 1)).st.F.C i r - (outs (n + 1)).st.auxC p i r) ^ 2
        ≤ matDist (fun _ => weightC P.params.scale init.F) xs Λ init.auxC init.dualC) := by
  obtain ⟨seq, M, h0, hseq, hM⟩ := C59_C P hN hA hB hC init outs h
  obtain ⟨e, h1, -, h3⟩ := hM (n + 1)
  obtain ⟨m, hm⟩ : ∃ m, M (n + 1) = m + 1 := ⟨M (n + 1) - 1, by omega⟩
  rw [hm] at e
  have hr := C119_C P.params hsvd P.X hl init.F P.pensC hn hw S g hp hg seq hseq xs Λ hs m
  rw [h0] at hr
  have hx : (seq (m + 1)).x = (outs (n + 1)).st.F.C := by rw [← e]
  have ha : (seq (m + 1)).aux = (outs (n + 1)).st.auxC := by rw [← e]
  rw [hx, ha] at hr
  have hnn : 0 ≤ ∑ p, ∑ i, weightC P.params.scale init.F * ∑ r, ((outs (n + 1)).st.F.C i r - (outs (n + 1)).st.auxC p i r) ^ 2 :=
    sum_nonneg fun _ _ => sum_nonneg fun i _ => mul_nonneg hw.le (sum_nonneg fun _ _ => sq_nonneg _)
  have key : (m : ℝ) * ∑ p, ∑ i, weightC P.params.scale init.F * ∑ r, ((outs (n + 1)).st.F.C i r - (outs (n + 1)).st.auxC p i r) ^ 2
      ≤ matDist (fun _ => weightC P.params.scale init.F) xs Λ init.auxC init.dualC := by
    refine le_trans (mul_le_mul_of_nonneg_left ?_ (Nat.cast_nonneg m)) hr
    exact sum_le_sum fun p _ => sum_le_sum fun i _ => mul_le_mul_of_nonneg_left
      (sum_le_sum fun r _ => le_add_of_nonneg_right (sq_nonneg _)) hw.le
  exact ⟨rate_reindex (by omega) hnn key, fun ht => rate_reindex (by rw [← h3 ht]; omega) hnn key⟩

/-! ### Distance to the solution -/

theorem geo_reindex {e : ℕ → ℝ} {θ c : ℝ} (h0 : 0 < θ) (h1 : θ < 1) (he : 0 ≤ e 2) (h : ∀ k, e (k + 2) ≤ θ ^ k * c) {k m : ℕ} (hkm : k + 2 ≤ m) :
    e m ≤ θ ^ k * c := by
  obtain ⟨j, rfl⟩ : ∃ j, m = k + j + 2 := ⟨m - k - 2, by omega⟩
  have hc : 0 ≤ c := by have := h 0; simp only [zero_add, pow_zero, one_mul] at this; linarith
  exact (h (k + j)).trans (mul_le_mul_of_nonneg_right (pow_le_pow_of_le_one h0.le h1.le (Nat.le_add_right k j)) hc)

theorem geo_nonneg {e : ℕ → ℝ} {M : ℕ → ℕ} {N : ℕ} {θ c : ℝ} (h0 : 0 < θ) (h1 : θ < 1) (he : 0 ≤ e 2) (h : ∀ k, e (k + 2) ≤ θ ^ k * c) (hN : 0 < N) {Q : Prop}
    (hM : ∀ n, n ≤ M n ∧ (Q → M n = n * N)) (n : ℕ) : e (M (n + 2)) ≤ θ ^ n * c ∧ (Q → e (M (n + 2)) ≤ θ ^ ((n + 2) * N - 2) * c) := by
  refine ⟨geo_reindex h0 h1 he h (hM _).1, fun q => ?_⟩
  refine geo_reindex h0 h1 he h ?_
  rw [(hM _).2 q]
  have : n + 2 ≤ (n + 2) * N := Nat.le_mul_of_pos_right _ hN
  omega

/-- C122, mode 0: the run updates A only, with one convex penalty of the package whose constraint some matrix satisfies, and the fit determines A. Then the factor
converges geometrically to the only constrained minimiser, with a factor per outer iteration; without inner tolerance, with the same factor per inner iteration. -/
theorem C122_A (P : Problem I K R 1 nB nC J) (hsvd : ValidSVD P.params) (hN : 0 < P.params.nInner) (hA : P.updA = true) (hB : P.updB = false)
    (hC : P.updC = false) (hl : 0 ≤ P.l2.1) (init : AOState I K R 1 nB nC J) (hw : ∀ i, 0 < weightA P.params.scale init.F i) (hsol : SolvableA init.F P.l2.1)
    (std : StdPen I R) (hv : std.Valid) (hpens : P.pensA 0 = std.toA) (hfe : std.feasible.Nonempty) (hI : 0 < I)
    (outs : ℕ → Output (AOState I K R 1 nB nC J)) (h : ∀ n : ℕ, cmfAoadmm P (plain n) init = .ok (outs n)) :
    ∃ xs θ c, (∀ y, IsMinOver (fitA P.X P.l2.1 init.F) (fun _ : Fin 1 => std.feasible) (fun _ => std.fn) y ↔ y = xs) ∧ 0 < θ ∧ θ < 1 ∧
      ∀ n, sqNorm ((outs (n + 2)).st.F.A - xs) ≤ θ ^ n * c ∧
        ((∀ t, P.params.innerTol = some t → t ≤ 0) → sqNorm ((outs (n + 2)).st.F.A - xs) ≤ θ ^ ((n + 2) * P.params.nInner - 2) * c) := by
  obtain ⟨x0, hx0⟩ := hfe
  have hpens' : ∀ p : Fin 1, P.pensA p = std.toA := fun p => by rw [Subsingleton.elim p 0]; exact hpens
  have hint : ∀ p : Fin 1, p ≠ 0 → InsideMat std.feasible x0 := fun p hp => absurd (Subsingleton.elim p 0) hp
  obtain ⟨xs, hxs, -⟩ := C68_A P hsvd hN hA hB hC hl init hw hsol (fun _ => std) (fun _ => hv) hpens' x0 0 hx0 hint outs h
  obtain ⟨Λ, hs⟩ := exists_saddle_mat (convexOn_fitA P.X hl init.F) (fun _ : Fin 1 => std.convexOn hv) 0 hx0 hint ((hxs xs).2 rfl)
  obtain ⟨seq, M, -, hseq, hM⟩ := C59_A P hN hA hB hC init outs h
  obtain ⟨θ, c, h0, h1, hk⟩ := C120_solvable_A P.params hsvd P.X hl P.constA init.F P.pensA hw _ _ (fun p => by rw [hpens' p]; exact std.proxA hv)
    (fun _ => std.convexOn hv) seq hseq xs Λ hs hsol hI
  refine ⟨xs, θ, c, hxs, h0, h1, fun n => ?_⟩
  have hx : (outs (n + 2)).st.F.A = (seq (M (n + 2))).x := by rw [← (hM _).1]
  rw [hx]
  exact geo_nonneg (e := fun k => sqNorm ((seq k).x - xs)) h0 h1 (sum_nonneg fun _ _ => sum_nonneg fun _ _ => sq_nonneg _) hk hN
    (fun n => ⟨(hM n).2.1, (hM n).2.2.2⟩) n

/-- C122, mode 1. -/
theorem C122_B (P : Problem I K R nA 1 nC J) (hsvd : ValidSVD P.params) (hN : 0 < P.params.nInner) (hA : P.updA = false) (hB : P.updB = true)
    (hC : P.updC = false) (hl : 0 ≤ P.l2.2.1) (init : AOState I K R nA 1 nC J) (hw : ∀ i, 0 < weightB P.params.scale init.F i) (hsol : SolvableB init.F P.l2.2.1)
    (std : (i : Fin I) → StdPen (J i) R) (hv : ∀ i, (std i).Valid) (hpens : P.pensB 0 = StdPen.toB std) (hfe : ∀ i, (std i).feasible.Nonempty) (hI : 0 < I)
    (outs : ℕ → Output (AOState I K R nA 1 nC J)) (h : ∀ n : ℕ, cmfAoadmm P (plain n) init = .ok (outs n)) :
    ∃ xs θ c, (∀ y, IsMinOver (fitB P.X P.l2.2.1 init.F) (fun _ : Fin 1 => {Z : Ragged I R J | ∀ i, Z i ∈ (std i).feasible})
        (fun _ Z => ∑ i, (std i).fn (Z i)) y ↔ y = xs) ∧ 0 < θ ∧ θ < 1 ∧
      ∀ n, raggedSq ((outs (n + 2)).st.F.B - xs) ≤ θ ^ n * c ∧
        ((∀ t, P.params.innerTol = some t → t ≤ 0) → raggedSq ((outs (n + 2)).st.F.B - xs) ≤ θ ^ ((n + 2) * P.params.nInner - 2) * c) := by
  choose x0 hx0 using hfe
  have hpens' : ∀ p : Fin 1, P.pensB p = StdPen.toB std := fun p => by rw [Subsingleton.elim p 0]; exact hpens
  have hint : ∀ p : Fin 1, p ≠ 0 → InsideRag {Z : Ragged I R J | ∀ i, Z i ∈ (std i).feasible} x0 := fun p hp => absurd (Subsingleton.elim p 0) hp
  obtain ⟨xs, hxs, -⟩ := C68_B P hsvd hN hA hB hC hl init hw hsol (fun _ => std) (fun _ => hv) hpens' x0 0 hx0 hint outs h
  obtain ⟨Λ, hs⟩ := exists_saddle_rag (convexOn_fitB P.X hl init.F) (fun _ : Fin 1 => StdPen.convexB std hv) 0 hx0 hint ((hxs xs).2 rfl)
  obtain ⟨seq, M, -, hseq, hM⟩ := C59_B P hN hA hB hC init outs h
  obtain ⟨θ, c, h0, h1, hk⟩ := C120_solvable_B P.params hsvd P.X hl P.constB init.F P.pensB hw _ _ (fun p => by rw [hpens' p]; exact StdPen.proxB std hv)
    (fun _ => StdPen.convexB std hv) seq hseq xs Λ hs hsol hI
  refine ⟨xs, θ, c, hxs, h0, h1, fun n => ?_⟩
  have hx : (outs (n + 2)).st.F.B = (seq (M (n + 2))).x := by rw [← (hM _).1]
  rw [hx]
  exact geo_nonneg (e := fun k => raggedSq ((seq k).x - xs)) h0 h1 (sum_nonneg fun _ _ => sum_nonneg fun _ _ => sum_nonneg fun _ _ => sq_nonneg _) hk hN
    (fun n => ⟨(hM n).2.1, (hM n).2.2.2⟩) n

/-- C122, mode 2. -/
theorem C122_C (P : Problem I K R nA nB 1 J) (hsvd : ValidSVD P.params) (hN : 0 < P.params.nInner) (hA : P.updA = false) (hB : P.updB = false)
    (hC : P.updC = true) (hl : 0 ≤ P.l2.2.2) (init : AOState I K R nA nB 1 J) (hw : 0 < weightC P.params.scale init.F) (hsol : SolvableC init.F P.l2.2.2)
    (std : StdPen K R) (hv : std.Valid) (hpens : P.pensC 0 = std.toC) (hfe : std.feasible.Nonempty)
    (outs : ℕ → Output (AOState I K R nA nB 1 J)) (h : ∀ n : ℕ, cmfAoadmm P (plain n) init = .ok (outs n)) :
    ∃ xs θ c, (∀ y, IsMinOver (fitC P.X P.l2.2.2 init.F) (fun _ : Fin 1 => std.feasible) (fun _ => std.fn) y ↔ y = xs) ∧ 0 < θ ∧ θ < 1 ∧
      ∀ n, sqNorm ((outs (n + 2)).st.F.C - xs) ≤ θ ^ n * c ∧
        ((∀ t, P.params.innerTol = some t → t ≤ 0) → sqNorm ((outs (n + 2)).st.F.C - xs) ≤ θ ^ ((n + 2) * P.params.nInner - 2) * c) := by
  obtain ⟨x0, hx0⟩ := hfe
  have hpens' : ∀ p : Fin 1, P.pensC p = std.toC := fun p => by rw [Subsingleton.elim p 0]; exact hpens
  have hint : ∀ p : Fin 1, p ≠ 0 → InsideMat std.feasible x0 := fun p hp => absurd (Subsingleton.elim p 0) hp
  obtain ⟨xs, hxs, -⟩ := C68_C P hsvd hN hA hB hC hl init hw hsol (fun _ => std) (fun _ => hv) hpens' x0 0 hx0 hint outs h
  obtain ⟨Λ, hs⟩ := exists_saddle_mat (convexOn_fitC P.X hl init.F) (fun _ : Fin 1 => std.convexOn hv) 0 hx0 hint ((hxs xs).2 rfl)
  obtain ⟨seq, M, -, hseq, hM⟩ := C59_C P hN hA hB hC init outs h
  obtain ⟨θ, c, h0, h1, hk⟩ := C120_solvable_C P.params hsvd P.X hl init.F P.pensC hw _ _ (fun p => by rw [hpens' p]; exact std.proxC hv)
    (fun _ => std.convexOn hv) seq hseq xs Λ hs hsol
  refine ⟨xs, θ, c, hxs, h0, h1, fun n => ?_⟩
  have hx : (outs (n + 2)).st.F.C = (seq (M (n + 2))).x := by rw [← (hM _).1]
  rw [hx]
  exact geo_nonneg (e := fun k => sqNorm ((seq k).x - xs)) h0 h1 (sum_nonneg fun _ _ => sum_nonneg fun _ _ => sq_nonneg _) hk hN
    (fun n => ⟨(hM n).2.1, (hM n).2.2.2⟩) n

/-- C122 applies: a non-negative A, data 5, the other factors 1, three inner iterations without inner tolerance; the factor approaches 5, three factors of `θ` per outer
iteration. -/
example : ∃ (P : Problem 1 1 1 1 0 0 fun _ => 1) (init : AOState 1 1 1 1 0 0 fun _ => 1) (outs : ℕ → Output (AOState 1 1 1 1 0 0 fun _ => 1)) (θ c : ℝ),
    (∀ n : ℕ, cmfAoadmm P (plain n) init = .ok (outs n)) ∧ init.F.A = !![7] ∧ 0 < θ ∧ θ < 1 ∧
      ∀ n, ((outs (n + 2)).st.F.A 0 0 - 5) ^ 2 ≤ θ ^ (3 * n + 4) * c := by
  obtain ⟨prm, hP, hN, ht, hscale⟩ := exists_params 1 3 none 2
  let P : Problem 1 1 1 1 0 0 fun _ => 1 :=
    ⟨fun _ => !![5], fun _ => (StdPen.nonNeg : StdPen 1 1).toA, Fin.elim0, Fin.elim0, (0, 0, 0), prm, false, false, true, false, false⟩
  let init : AOState 1 1 1 1 0 0 fun _ => 1 := ⟨none, ⟨!![7], ones.B, ones.C⟩, fun _ => !![5], fun _ => !![4], Fin.elim0, Fin.elim0, Fin.elim0, Fin.elim0⟩
  choose outs ho using fun n : ℕ => C61 P one_pos (fun _ p => by fin_cases p; rfl) (plain n) (by simp [plain, truthy]) init
  obtain ⟨xs, θ, c, h1, h2, h3, h4⟩ := C122_A P hP (by show 0 < prm.nInner; omega) rfl rfl rfl le_rfl init
    (by show ∀ i, 0 < weightA prm.scale _ i; rw [hscale]; exact weightA_ones) solvable_ones.1 .nonNeg trivial rfl ⟨0, fun _ _ => le_rfl⟩ one_pos outs ho
  have h5 : !![5] = xs := (h1 _).mp (by
    refine ⟨fun p i r => ?_, fun y hy => ?_⟩
    · fin_cases i; fin_cases r
      show (0 : ℝ) ≤ 5; norm_num
    · simp [fitA, sse, Factors.entry, P, init, ones, sqNorm, StdPen.fn]
      exact sq_nonneg _)
  refine ⟨P, init, outs, θ, c, ho, rfl, h2, h3, fun n => ?_⟩
  have h6 := (h4 n).2 (by intro t h; rw [show P.params.innerTol = none from ht] at h; cases h)
  rw [← h5, show P.params.nInner = 3 from hN, show (n + 2) * 3 - 2 = 3 * n + 4 by omega] at h6
  simpa [sqNorm] using h6

end Verif.Props
