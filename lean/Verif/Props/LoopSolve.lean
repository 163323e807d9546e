import Verif.ADMM.SaddleModes
import Verif.Props.LoopWarm

/-!
# C32 without multipliers, C68: runs with the package's convex penalties converge to the constrained solution
-/

namespace Verif.Props

open Verif.ADMM Verif.Penalties Verif.Spec Verif.Loop Finset Matrix Filter

variable {I K R n nA nB nC : ℕ} {J : Fin I → ℕ}

/-! ### C32 with a minimiser instead of a saddle point -/

/-- C32, mode 0, for a minimiser: convex penalties and one point satisfying all constraints, all but one of them strictly (with a single penalty
`x0 = xs` will do). The gaps tend to zero, the fitted matrices tend to those of the minimiser, and so does the factor when the subproblem determines it. -/
theorem C32_A_min (P : Params R) (hsvd : ValidSVD P) (X : Ragged I K J) {l2 : ℝ} (hl : 0 ≤ l2)
    (constant : Bool) (F : Factors I K R J) (pens : Fin n → PenA I R) (hw : ∀ i, 0 < weightA P.scale F i)
    (C : Fin n → Set (Matrix (Fin I) (Fin R) ℝ)) (g : Fin n → Matrix (Fin I) (Fin R) ℝ → ℝ)
    (hp : ∀ p, (pens p).ProxOf (C p) (g p)) (hg : ∀ p, ConvexOn ℝ (C p) (g p))
    (x0 : Matrix (Fin I) (Fin R) ℝ) (p0 : Fin n) (hx0 : x0 ∈ C p0) (hint : ∀ p, p ≠ p0 → InsideMat (C p) x0)
    (xs : Matrix (Fin I) (Fin R) ℝ) (hxs : IsMinOver (fitA X l2 F) C g xs)
    (seq : ℕ → MatState I R n)
    (hseq : ∀ k, admmUpdateA (once P) X pens l2 constant ⟨(seq k).x, F.B, F.C⟩ (seq k).aux (seq k).dual = .ok (seq (k + 1))) :
    (∀ p i r, Tendsto (fun k => (seq k).x i r - (seq k).aux p i r) atTop (nhds 0)) ∧
    (∀ i j k', Tendsto (fun k => (⟨(seq k).x, F.B, F.C⟩ : Factors I K R J).entry i j k') atTop (nhds ((⟨xs, F.B, F.C⟩ : Factors I K R J).entry i j k'))) ∧
    (SolvableA F l2 → ∀ i r, Tendsto (fun k => (seq k).x i r) atTop (nhds (xs i r))) := by
  obtain ⟨Λ, hs⟩ := exists_saddle_mat (convexOn_fitA X hl F) hg p0 hx0 hint hxs
  exact (C32_A P hsvd X hl constant F pens p0.pos hw C g hp hg seq hseq xs Λ hs).2.2

/-- C32, mode 1, for a minimiser: convex penalties and one point satisfying all constraints, all but one of them strictly (with a single penalty
`x0 = xs` will do). The gaps tend to zero, the fitted matrices tend to those of the minimiser, and so does the factor when the subproblem determines it. -/
theorem C32_B_min (P : Params R) (hsvd : ValidSVD P) (X : Ragged I K J) {l2 : ℝ} (hl : 0 ≤ l2)
    (constant : Bool) (F : Factors I K R J) (pens : Fin n → PenB I R J) (hw : ∀ i, 0 < weightB P.scale F i)
    (C : Fin n → Set (Ragged I R J)) (g : Fin n → Ragged I R J → ℝ)
    (hp : ∀ p, (pens p).ProxOf (C p) (g p)) (hg : ∀ p, ConvexOn ℝ (C p) (g p))
    (x0 : Ragged I R J) (p0 : Fin n) (hx0 : x0 ∈ C p0) (hint : ∀ p, p ≠ p0 → InsideRag (C p) x0)
    (xs : Ragged I R J) (hxs : IsMinOver (fitB X l2 F) C g xs)
    (seq : ℕ → RagState I R n J)
    (hseq : ∀ k, admmUpdateB (once P) X pens l2 constant ⟨F.A, (seq k).x, F.C⟩ (seq k).aux (seq k).dual = .ok (seq (k + 1))) :
    (∀ p i j r, Tendsto (fun k => (seq k).x i j r - ((seq k).aux p).toMats i j r) atTop (nhds 0)) ∧
    (∀ i j k', Tendsto (fun k => (⟨F.A, (seq k).x, F.C⟩ : Factors I K R J).entry i j k') atTop (nhds ((⟨F.A, xs, F.C⟩ : Factors I K R J).entry i j k'))) ∧
    (SolvableB F l2 → ∀ i j r, Tendsto (fun k => (seq k).x i j r) atTop (nhds (xs i j r))) := by
  obtain ⟨Λ, hs⟩ := exists_saddle_rag (convexOn_fitB X hl F) hg p0 hx0 hint hxs
  exact (C32_B P hsvd X hl constant F pens p0.pos hw C g hp hg seq hseq xs Λ hs).2.2

/-- C32, mode 2, for a minimiser: convex penalties and one point satisfying all constraints, all but one of them strictly (with a single penalty
`x0 = xs` will do). The gaps tend to zero, the fitted matrices tend to those of the minimiser, and so does the factor when the subproblem determines it. -/
theorem C32_C_min (P : Params R) (hsvd : ValidSVD P) (X : Ragged I K J) {l2 : ℝ} (hl : 0 ≤ l2)
    (F : Factors I K R J) (pens : Fin n → PenC K R) (hw : 0 < weightC P.scale F)
    (C : Fin n → Set (Matrix (Fin K) (Fin R) ℝ)) (g : Fin n → Matrix (Fin K) (Fin R) ℝ → ℝ)
    (hp : ∀ p, (pens p).ProxOf (C p) (g p)) (hg : ∀ p, ConvexOn ℝ (C p) (g p))
    (x0 : Matrix (Fin K) (Fin R) ℝ) (p0 : Fin n) (hx0 : x0 ∈ C p0) (hint : ∀ p, p ≠ p0 → InsideMat (C p) x0)
    (xs : Matrix (Fin K) (Fin R) ℝ) (hxs : IsMinOver (fitC X l2 F) C g xs)
    (seq : ℕ → MatState K R n)
    (hseq : ∀ k, admmUpdateC (once P) X pens l2 ⟨F.A, F.B, (seq k).x⟩ (seq k).aux (seq k).dual = seq (k + 1)) :
    (∀ p i r, Tendsto (fun k => (seq k).x i r - (seq k).aux p i r) atTop (nhds 0)) ∧
    (∀ i j k', Tendsto (fun k => (⟨F.A, F.B, (seq k).x⟩ : Factors I K R J).entry i j k') atTop (nhds ((⟨F.A, F.B, xs⟩ : Factors I K R J).entry i j k'))) ∧
    (SolvableC F l2 → ∀ i r, Tendsto (fun k => (seq k).x i r) atTop (nhds (xs i r))) := by
  obtain ⟨Λ, hs⟩ := exists_saddle_mat (convexOn_fitC X hl F) hg p0 hx0 hint hxs
  exact (C32_C P hsvd X hl F pens p0.pos hw C g hp hg seq hseq xs Λ hs).2.2

/-! ### C68 -/

/-- C68, mode 0: only A is updated, its penalties are convex penalties of the package, and one point satisfies all constraints, all but one of them strictly. If
the subproblem determines A, there is exactly one constrained minimiser, and the factor and all auxiliary variables of a run tend to it when the number of
iterations grows. -/
theorem C68_A (P : Problem I K R nA nB nC J) (hsvd : ValidSVD P.params) (hN : 0 < P.params.nInner) (hA : P.updA = true) (hB : P.updB = false)
    (hC : P.updC = false) (hl : 0 ≤ P.l2.1) (init : AOState I K R nA nB nC J) (hw : ∀ i, 0 < weightA P.params.scale init.F i) (hsol : SolvableA init.F P.l2.1)
    (std : Fin nA → StdPen I R) (hv : ∀ p, (std p).Valid) (hpens : ∀ p, P.pensA p = (std p).toA)
    (x0 : Matrix (Fin I) (Fin R) ℝ) (p0 : Fin nA) (hx0 : x0 ∈ (std p0).feasible) (hint : ∀ p, p ≠ p0 → InsideMat (std p).feasible x0)
    (outs : ℕ → Output (AOState I K R nA nB nC J)) (h : ∀ n : ℕ, cmfAoadmm P (plain n) init = .ok (outs n)) :
    ∃ xs, (∀ y, IsMinOver (fitA P.X P.l2.1 init.F) (fun p => (std p).feasible) (fun p => (std p).fn) y ↔ y = xs) ∧
      (∀ i r, Tendsto (fun n => (outs n).st.F.A i r) atTop (nhds (xs i r))) ∧
      ∀ p i r, Tendsto (fun n => (outs n).st.auxA p i r) atTop (nhds (xs i r)) := by
  obtain ⟨xs, hxs⟩ := exists_minA P.X hl hsol std hv (x0 := x0) (fun p => by
    by_cases hp : p = p0
    · subst hp; exact hx0
    · obtain ⟨ε, hε, h⟩ := hint p hp
      exact h x0 fun _ => by simp [hε])
  have key : ∀ y, IsMinOver (fitA P.X P.l2.1 init.F) (fun p => (std p).feasible) (fun p => (std p).fn) y →
      (∀ p i r, Tendsto (fun n => (outs n).st.F.A i r - (outs n).st.auxA p i r) atTop (nhds 0)) ∧
      ∀ i r, Tendsto (fun n => (outs n).st.F.A i r) atTop (nhds (y i r)) := by
    intro y hy
    obtain ⟨Λ, hs⟩ := exists_saddle_mat (convexOn_fitA P.X hl init.F) (fun p => (std p).convexOn (hv p)) p0 hx0 hint hy
    obtain ⟨-, c2, -, c4⟩ := C60_A P hsvd hN hA hB hC hl p0.pos init hw _ _ (fun p => by rw [hpens p]; exact (std p).proxA (hv p))
      (fun p => (std p).convexOn (hv p)) y Λ hs outs h
    exact ⟨c2, c4 hsol⟩
  obtain ⟨k1, k2⟩ := key xs hxs
  refine ⟨xs, fun y => ⟨fun hy => ?_, fun hy => hy ▸ hxs⟩, k2, fun p i r => ?_⟩
  · ext i r
    exact tendsto_nhds_unique ((key y hy).2 i r) (k2 i r)
  · have := (k2 i r).sub (k1 p i r)
    simpa using this

/-- C68, mode 1: only B is updated, its penalties are convex penalties of the package, and one point satisfies all constraints, all but one of them strictly. If
the subproblem determines B, there is exactly one constrained minimiser, and the factor and all auxiliary variables of a run tend to it when the number of
iterations grows. -/
theorem C68_B (P : Problem I K R nA nB nC J) (hsvd : ValidSVD P.params) (hN : 0 < P.params.nInner) (hA : P.updA = false) (hB : P.updB = true)
    (hC : P.updC = false) (hl : 0 ≤ P.l2.2.1) (init : AOState I K R nA nB nC J) (hw : ∀ i, 0 < weightB P.params.scale init.F i) (hsol : SolvableB init.F P.l2.2.1)
    (std : Fin nB → (i : Fin I) → StdPen (J i) R) (hv : ∀ p i, (std p i).Valid) (hpens : ∀ p, P.pensB p = StdPen.toB (std p))
    (x0 : Ragged I R J) (p0 : Fin nB) (hx0 : ∀ i, x0 i ∈ (std p0 i).feasible) (hint : ∀ p, p ≠ p0 → InsideRag {Z : Ragged I R J | ∀ i, Z i ∈ (std p i).feasible} x0)
    (outs : ℕ → Output (AOState I K R nA nB nC J)) (h : ∀ n : ℕ, cmfAoadmm P (plain n) init = .ok (outs n)) :
    ∃ xs, (∀ y, IsMinOver (fitB P.X P.l2.2.1 init.F) (fun p => {Z : Ragged I R J | ∀ i, Z i ∈ (std p i).feasible}) (fun p Z => ∑ i, (std p i).fn (Z i)) y ↔ y = xs) ∧
      (∀ i j r, Tendsto (fun n => (outs n).st.F.B i j r) atTop (nhds (xs i j r))) ∧
      ∀ p i j r, Tendsto (fun n => ((outs n).st.auxB p).toMats i j r) atTop (nhds (xs i j r)) := by
  obtain ⟨xs, hxs⟩ := exists_minB P.X hl hsol std hv (x0 := x0) (fun p => by
    by_cases hp : p = p0
    · subst hp; exact hx0
    · obtain ⟨ε, hε, h⟩ := hint p hp
      exact h x0 fun _ => by simp [hε])
  have key : ∀ y, IsMinOver (fitB P.X P.l2.2.1 init.F) (fun p => {Z : Ragged I R J | ∀ i, Z i ∈ (std p i).feasible}) (fun p Z => ∑ i, (std p i).fn (Z i)) y →
      (∀ p i j r, Tendsto (fun n => (outs n).st.F.B i j r - ((outs n).st.auxB p).toMats i j r) atTop (nhds 0)) ∧
      ∀ i j r, Tendsto (fun n => (outs n).st.F.B i j r) atTop (nhds (y i j r)) := by
    intro y hy
    obtain ⟨Λ, hs⟩ := exists_saddle_rag (convexOn_fitB P.X hl init.F) (fun p => StdPen.convexB (std p) (hv p)) p0 hx0 hint hy
    obtain ⟨-, c2, -, c4⟩ := C60_B P hsvd hN hA hB hC hl p0.pos init hw _ _ (fun p => by rw [hpens p]; exact StdPen.proxB (std p) (hv p))
      (fun p => StdPen.convexB (std p) (hv p)) y Λ hs outs h
    exact ⟨c2, c4 hsol⟩
  obtain ⟨k1, k2⟩ := key xs hxs
  refine ⟨xs, fun y => ⟨fun hy => ?_, fun hy => hy ▸ hxs⟩, k2, fun p i j r => ?_⟩
  · funext i; ext j r
    exact tendsto_nhds_unique ((key y hy).2 i j r) (k2 i j r)
  · have := (k2 i j r).sub (k1 p i j r)
    simpa using this

/-- C68, mode 2: only C is updated, its penalties are convex penalties of the package, and one point satisfies all constraints, all but one of them strictly. If
the subproblem determines C, there is exactly one constrained minimiser, and the factor and all auxiliary variables of a run tend to it when the number of
iterations grows. -/
theorem C68_C (P : Problem I K R nA nB nC J) (hsvd : ValidSVD P.params) (hN : 0 < P.params.nInner) (hA : P.updA = false) (hB : P.updB = false)
    (hC : P.updC = true) (hl : 0 ≤ P.l2.2.2) (init : AOState I K R nA nB nC J) (hw : 0 < weightC P.params.scale init.F) (hsol : SolvableC init.F P.l2.2.2)
    (std : Fin nC → StdPen K R) (hv : ∀ p, (std p).Valid) (hpens : ∀ p, P.pensC p = (std p).toC)
    (x0 : Matrix (Fin K) (Fin R) ℝ) (p0 : Fin nC) (hx0 : x0 ∈ (std p0).feasible) (hint : ∀ p, p ≠ p0 → InsideMat (std p).feasible x0)
    (outs : ℕ → Output (AOState I K R nA nB nC J)) (h : ∀ n : ℕ, cmfAoadmm P (plain n) init = .ok (outs n)) :
    ∃ xs, (∀ y, IsMinOver (fitC P.X P.l2.2.2 init.F) (fun p => (std p).feasible) (fun p => (std p).fn) y ↔ y = xs) ∧
      (∀ k r, Tendsto (fun n => (outs n).st.F.C k r) atTop (nhds (xs k r))) ∧
      ∀ p k r, Tendsto (fun n => (outs n).st.auxC p k r) atTop (nhds (xs k r)) := by
  obtain ⟨xs, hxs⟩ := exists_minC P.X hl hsol std hv (x0 := x0) (fun p => by
    by_cases hp : p = p0
    · subst hp; exact hx0
    · obtain ⟨ε, hε, h⟩ := hint p hp
      exact h x0 fun _ => by simp [hε])
  have key : ∀ y, IsMinOver (fitC P.X P.l2.2.2 init.F) (fun p => (std p).feasible) (fun p => (std p).fn) y →
      (∀ p k r, Tendsto (fun n => (outs n).st.F.C k r - (outs n).st.auxC p k r) atTop (nhds 0)) ∧
      ∀ k r, Tendsto (fun n => (outs n).st.F.C k r) atTop (nhds (y k r)) := by
    intro y hy
    obtain ⟨Λ, hs⟩ := exists_saddle_mat (convexOn_fitC P.X hl init.F) (fun p => (std p).convexOn (hv p)) p0 hx0 hint hy
    obtain ⟨-, c2, -, c4⟩ := C60_C P hsvd hN hA hB hC hl p0.pos init hw _ _ (fun p => by rw [hpens p]; exact (std p).proxC (hv p))
      (fun p => (std p).convexOn (hv p)) y Λ hs outs h
    exact ⟨c2, c4 hsol⟩
  obtain ⟨k1, k2⟩ := key xs hxs
  refine ⟨xs, fun y => ⟨fun hy => ?_, fun hy => hy ▸ hxs⟩, k2, fun p k r => ?_⟩
  · ext k r
    exact tendsto_nhds_unique ((key y hy).2 k r) (k2 k r)
  · have := (k2 k r).sub (k1 p k r)
    simpa using this

/-- C68 applies: non-negativity and an L1 penalty with strength 3 on A, data 5, the other factors 1, start at 7; the factor tends to 2. -/
example : ∃ (P : Problem 1 1 1 2 0 0 fun _ => 1) (init : AOState 1 1 1 2 0 0 fun _ => 1) (outs : ℕ → Output (AOState 1 1 1 2 0 0 fun _ => 1)),
    (∀ n : ℕ, cmfAoadmm P (plain n) init = .ok (outs n)) ∧ init.F.A = !![7] ∧ Tendsto (fun n => (outs n).st.F.A 0 0) atTop (nhds 2) := by
  obtain ⟨prm, hP, hN, -, hscale⟩ := exists_params 1 3 none 2
  let std : Fin 2 → StdPen 1 1 := ![.nonNeg, .l1 3 false]
  have hv : ∀ p, (std p).Valid := by
    intro p; fin_cases p
    · exact trivial
    · show (0 : ℝ) ≤ 3; norm_num
  let P : Problem 1 1 1 2 0 0 fun _ => 1 :=
    ⟨fun _ => !![5], fun p => (std p).toA, Fin.elim0, Fin.elim0, (0, 0, 0), prm, false, false, true, false, false⟩
  let init : AOState 1 1 1 2 0 0 fun _ => 1 := ⟨none, ⟨!![7], ones.B, ones.C⟩, fun _ => !![5], fun _ => !![4], Fin.elim0, Fin.elim0, Fin.elim0, Fin.elim0⟩
  choose outs ho using fun n : ℕ => C61 P one_pos (fun _ p => by fin_cases p <;> rfl) (plain n) (by simp [plain, truthy]) init
  refine ⟨P, init, outs, ho, rfl, ?_⟩
  obtain ⟨xs, h1, h2, -⟩ := C68_A P hP (by show 0 < prm.nInner; omega) rfl rfl rfl le_rfl init
    (by show ∀ i, 0 < weightA prm.scale _ i; rw [hscale]; exact weightA_ones) solvable_ones.1 std hv (fun _ => rfl) !![1] 1
    (by intro h; cases h) (fun p hp => by
      fin_cases p
      · refine ⟨1, one_pos, fun Y hY i r => ?_⟩
        have := hY i r
        fin_cases i; fin_cases r
        simp only [Fin.zero_eta, Matrix.of_apply, Matrix.cons_val', Matrix.cons_val_fin_one, abs_lt] at this
        show 0 ≤ Y 0 0
        linarith [this.1]
      · exact absurd rfl hp) outs ho
  have h3 : !![2] = xs := (h1 _).mp (by
    refine ⟨fun p => ?_, fun y hy => ?_⟩
    · fin_cases p
      · intro i r
        fin_cases i; fin_cases r
        show (0 : ℝ) ≤ 2; norm_num
      · intro h; cases h
    · have h0 : 0 ≤ y 0 0 := hy 0 0 0
      simp [fitA, sse, Factors.entry, P, init, ones, sqNorm, Fin.sum_univ_two, std, StdPen.fn, absSum]
      rw [abs_of_nonneg h0]
      nlinarith [sq_nonneg (y 0 0 - 2)])
  have := h2 0 0
  rw [← h3] at this
  exact this

end Verif.Props
