import Mathlib.Topology.Algebra.Order.Field
import Mathlib.Topology.MetricSpace.Sequences
import Mathlib.Topology.MetricSpace.ProperSpace
import Mathlib.Analysis.Normed.Group.Constructions
import Mathlib.Analysis.SpecificLimits.Basic
import Verif.Props.Diagnostics
import Verif.Props.Parafac2Unique
import Verif.Props.WholeFeasible

/-!
# C125: fitted PARAFAC2 components are near those that generated the data

A small reported reconstruction error and a small reported feasibility gap of the PARAFAC2 penalty mean that the components are near those of the factorization that generated the
data, up to their order, also if the data are noisy.
-/

set_option linter.unusedSectionVars false

namespace Verif.Props

open Verif.ADMM Verif.Spec Verif.Loop Verif.Whole Verif.Parse Finset Filter Topology

variable {I K R : ℕ} {J : Fin I → ℕ}

/-- Entry of the matrix of one component. -/
def component (F : Factors I K R J) (r : Fin R) (i : Fin I) (j : Fin (J i)) (k : Fin K) : ℝ := F.A i r * F.B i j r * F.C k r

/-- All entries of the factor matrices are at most `M` in size. -/
structure BoundedBy (M : ℝ) (F : Factors I K R J) : Prop where
  A : ∀ i r, |F.A i r| ≤ M
  B : ∀ i j r, |F.B i j r| ≤ M
  C : ∀ k r, |F.C k r| ≤ M

/-- A bounded sequence of factorizations has a subsequence that converges. -/
theorem bounded_subseq {M : ℝ} {F : ℕ → Factors I K R J} (h : ∀ n, BoundedBy M (F n)) :
    ∃ (L : Factors I K R J) (φ : ℕ → ℕ), StrictMono φ ∧ (∀ i r, Tendsto (fun n => (F (φ n)).A i r) atTop (𝓝 (L.A i r))) ∧
      (∀ i j r, Tendsto (fun n => (F (φ n)).B i j r) atTop (𝓝 (L.B i j r))) ∧ ∀ k r, Tendsto (fun n => (F (φ n)).C k r) atTop (𝓝 (L.C k r)) := by
  let E := (Fin I → Fin R → ℝ) × ((i : Fin I) → Fin (J i) → Fin R → ℝ) × (Fin K → Fin R → ℝ)
  let x : ℕ → E := fun n => (fun i r => (F n).A i r, fun i j r => (F n).B i j r, fun k r => (F n).C k r)
  have hx : ∀ n, x n ∈ Metric.closedBall (0 : E) |M| := fun n => by
    have hM : ∀ y : ℝ, |y| ≤ M → ‖y‖ ≤ |M| := fun y hy => by rw [Real.norm_eq_abs]; exact hy.trans (le_abs_self M)
    rw [mem_closedBall_zero_iff, Prod.norm_def, Prod.norm_def]
    refine max_le ?_ (max_le ?_ ?_)
    · exact (pi_norm_le_iff_of_nonneg (abs_nonneg M)).2 fun i => (pi_norm_le_iff_of_nonneg (abs_nonneg M)).2 fun r => hM _ ((h n).A i r)
    · exact (pi_norm_le_iff_of_nonneg (abs_nonneg M)).2 fun i => (pi_norm_le_iff_of_nonneg (abs_nonneg M)).2 fun j =>
        (pi_norm_le_iff_of_nonneg (abs_nonneg M)).2 fun r => hM _ ((h n).B i j r)
    · exact (pi_norm_le_iff_of_nonneg (abs_nonneg M)).2 fun i => (pi_norm_le_iff_of_nonneg (abs_nonneg M)).2 fun r => hM _ ((h n).C i r)
  obtain ⟨a, -, φ, hφ, ht⟩ := tendsto_subseq_of_bounded Metric.isBounded_closedBall hx
  refine ⟨⟨.of a.1, fun i => .of (a.2.1 i), .of a.2.2⟩, φ, hφ, fun i r => ?_, fun i j r => ?_, fun k r => ?_⟩
  · exact tendsto_pi_nhds.1 (tendsto_pi_nhds.1 ((Prod.tendsto_iff _ _).1 ht).1 i) r
  · exact tendsto_pi_nhds.1 (tendsto_pi_nhds.1 (tendsto_pi_nhds.1 ((Prod.tendsto_iff _ _).1 ((Prod.tendsto_iff _ _).1 ht).2).1 i) j) r
  · exact tendsto_pi_nhds.1 (tendsto_pi_nhds.1 ((Prod.tendsto_iff _ _).1 ((Prod.tendsto_iff _ _).1 ht).2).2 k) r

/-- Bounded factorizations whose matrices converge to those of `G`, and whose B matrices come near matrices with equal cross products. -/
theorem recover_seq {G : Factors I K R J} (i₀ : Fin I) (hC : LinearIndependent ℝ G.C.transpose) (hB : LinearIndependent ℝ (G.B i₀).transpose) (hA : FourRows G.A)
    (hG : ConstantCross G.B) {M : ℝ} {F : ℕ → Factors I K R J} {Z : ℕ → Ragged I R J} (hF : ∀ n, BoundedBy M (F n)) (hZ : ∀ n, ConstantCross (Z n))
    (hX : ∀ i j k, Tendsto (fun n => (F n).entry i j k) atTop (𝓝 (G.entry i j k))) (hgap : ∀ i j r, Tendsto (fun n => (F n).B i j r - Z n i j r) atTop (𝓝 0)) :
    ∃ φ : ℕ → ℕ, StrictMono φ ∧ ∃ π : Equiv.Perm (Fin R), ∀ r i j k, Tendsto (fun n => component (F (φ n)) (π r) i j k) atTop (𝓝 (component G r i j k)) := by
  obtain ⟨L, φ, hφ, hLA, hLB, hLC⟩ := bounded_subseq hF
  have hZB : ∀ i j r, Tendsto (fun n => Z (φ n) i j r) atTop (𝓝 (L.B i j r)) := fun i j r => by
    have := (hLB i j r).sub ((hgap i j r).comp hφ.tendsto_atTop)
    rw [sub_zero] at this
    refine this.congr fun n => ?_
    simp only [Function.comp_apply]
    ring
  have hcross : ConstantCross L.B := constantCross_iff.2 fun i i' r q => by
    have lim : ∀ i, Tendsto (fun n => colDot (Z (φ n) i) r q) atTop (𝓝 (colDot (L.B i) r q)) := fun i =>
      tendsto_finsetSum _ fun j _ => (hZB i j r).mul (hZB i j q)
    exact tendsto_nhds_unique (lim i) ((lim i').congr fun n => constantCross_iff.1 (hZ (φ n)) i' i r q)
  have hcomp : ∀ r i j k, Tendsto (fun n => component (F (φ n)) r i j k) atTop (𝓝 (component L r i j k)) := fun r i j k =>
    ((hLA i r).mul (hLB i j r)).mul (hLC k r)
  have hrec : L.recon = G.recon := by
    funext i
    ext j k
    have l1 : Tendsto (fun n => (F (φ n)).entry i j k) atTop (𝓝 (L.entry i j k)) := tendsto_finsetSum _ fun r _ => hcomp r i j k
    exact tendsto_nhds_unique l1 ((hX i j k).comp hφ.tendsto_atTop)
  obtain ⟨π, hπ⟩ := C124_components i₀ hC hB hA hG hcross hrec
  refine ⟨φ, hφ, π, fun r i j k => ?_⟩
  have := hcomp (π r) i j k
  rwa [show component L (π r) i j k = component G r i j k from hπ i j k r] at this

theorem entry_le_sse (X : Ragged I K J) (F : Factors I K R J) (i : Fin I) (j : Fin (J i)) (k : Fin K) : (X i j k - F.entry i j k) ^ 2 ≤ sse X F := by
  refine le_trans ?_ (single_le_sum (f := fun i => ∑ j, ∑ k, (X i j k - F.entry i j k) ^ 2) (fun i _ => sum_nonneg fun j _ => sum_nonneg fun k _ => sq_nonneg _) (mem_univ i))
  refine le_trans ?_ (single_le_sum (f := fun j => ∑ k, (X i j k - F.entry i j k) ^ 2) (fun j _ => sum_nonneg fun k _ => sq_nonneg _) (mem_univ j))
  exact single_le_sum (f := fun k => (X i j k - F.entry i j k) ^ 2) (fun k _ => sq_nonneg _) (mem_univ k)

theorem entry_le_ragged {n : ℕ} (X : Ragged I n J) (i : Fin I) (j : Fin (J i)) (k : Fin n) : X i j k ^ 2 ≤ raggedSq X := by
  refine le_trans ?_ (single_le_sum (f := fun i => sqNorm (X i)) (fun i _ => sqNorm_nonneg _) (mem_univ i))
  refine le_trans ?_ (single_le_sum (f := fun j => ∑ k, X i j k ^ 2) (fun j _ => sum_nonneg fun k _ => sq_nonneg _) (mem_univ j))
  exact single_le_sum (f := fun k => X i j k ^ 2) (fun k _ => sq_nonneg _) (mem_univ k)

theorem tendsto_zero_of_sq {f : ℕ → ℝ} (h : Tendsto (fun n => f n ^ 2) atTop (𝓝 0)) : Tendsto f atTop (𝓝 0) := by
  have := h.sqrt
  rw [Real.sqrt_zero] at this
  simp only [Real.sqrt_sq_eq_abs] at this
  exact (tendsto_zero_iff_abs_tendsto_zero f).2 this

/-- The same with a tolerance: near data, a small error and a small distance to matrices with equal cross products. -/
theorem recover_tol {G : Factors I K R J} (i₀ : Fin I) (hC : LinearIndependent ℝ G.C.transpose) (hB : LinearIndependent ℝ (G.B i₀).transpose) (hA : FourRows G.A)
    (hG : ConstantCross G.B) (M : ℝ) {ε : ℝ} (hε : 0 < ε) :
    ∃ δ > 0, ∀ (X : Ragged I K J) (F : Factors I K R J) (Z : Ragged I R J) (e g : ℝ), (∀ i j k, |X i j k - G.entry i j k| ≤ δ) → BoundedBy M F → ConstantCross Z →
      0 ≤ e → sse X F ≤ e ^ 2 * raggedSq X → e ≤ δ → 0 ≤ g → raggedSq (F.B - Z) ≤ g ^ 2 * raggedSq F.B → g ≤ δ →
      ∃ π : Equiv.Perm (Fin R), ∀ r i j k, |component F (π r) i j k - component G r i j k| < ε := by
  by_contra hcon
  push Not at hcon
  have pos : ∀ n : ℕ, 0 < 1 / ((n : ℝ) + 1) := fun n => Nat.one_div_pos_of_nat
  choose X F Z e g hX hF hZ he0 he hle hg0 hg hgle hfar using fun n : ℕ => hcon (1 / ((n : ℝ) + 1)) (pos n)
  have l0 : Tendsto (fun n : ℕ => 1 / ((n : ℝ) + 1)) atTop (𝓝 0) := tendsto_one_div_add_atTop_nhds_zero_nat
  have le0 : Tendsto e atTop (𝓝 0) := squeeze_zero he0 hle l0
  have lg0 : Tendsto g atTop (𝓝 0) := squeeze_zero hg0 hgle l0
  have lX : ∀ i j k, Tendsto (fun n => X n i j k) atTop (𝓝 (G.entry i j k)) := fun i j k => by
    have : Tendsto (fun n => X n i j k - G.entry i j k) atTop (𝓝 0) := squeeze_zero_norm (fun n => hX n i j k) l0
    have := this.add_const (G.entry i j k)
    simpa using this
  have lsq : Tendsto (fun n => raggedSq (X n)) atTop (𝓝 (raggedSq G.recon)) :=
    tendsto_finsetSum _ fun i _ => tendsto_finsetSum _ fun j _ => tendsto_finsetSum _ fun k _ => (lX i j k).pow 2
  have lsse : Tendsto (fun n => sse (X n) (F n)) atTop (𝓝 0) := by
    have := (le0.pow 2).mul lsq
    rw [zero_pow two_ne_zero, zero_mul] at this
    exact squeeze_zero (fun n => sum_nonneg fun i _ => sum_nonneg fun j _ => sum_nonneg fun k _ => sq_nonneg _) he this
  have lF : ∀ i j k, Tendsto (fun n => (F n).entry i j k) atTop (𝓝 (G.entry i j k)) := fun i j k => by
    have z : Tendsto (fun n => X n i j k - (F n).entry i j k) atTop (𝓝 0) :=
      tendsto_zero_of_sq (squeeze_zero (fun n => sq_nonneg _) (fun n => entry_le_sse _ _ i j k) lsse)
    have := (lX i j k).sub z
    simpa using this
  have lB : ∀ i j r, Tendsto (fun n => (F n).B i j r - Z n i j r) atTop (𝓝 0) := fun i j r => by
    refine tendsto_zero_of_sq (squeeze_zero (g := fun n => g n ^ 2 * ∑ i : Fin I, ∑ _j : Fin (J i), ∑ _r : Fin R, M ^ 2) (fun n => sq_nonneg _) (fun n => ?_) ?_)
    · refine (entry_le_ragged ((F n).B - Z n) i j r).trans ?_
      refine (hg n).trans ?_
      refine mul_le_mul_of_nonneg_left ?_ (sq_nonneg _)
      exact sum_le_sum fun i _ => sum_le_sum fun j _ => sum_le_sum fun r _ => sq_le_sq' (abs_le.1 ((hF n).B i j r)).1 (abs_le.1 ((hF n).B i j r)).2
    · have := (lg0.pow 2).mul_const (∑ i : Fin I, ∑ _j : Fin (J i), ∑ _r : Fin R, M ^ 2)
      rwa [zero_pow two_ne_zero, zero_mul] at this
  obtain ⟨φ, -, π, hπ⟩ := recover_seq i₀ hC hB hA hG hF hZ lF lB
  have ev : ∀ᶠ n in atTop, ∀ r i j k, |component (F (φ n)) (π r) i j k - component G r i j k| < ε := by
    simp only [eventually_all]
    intro r i j k
    have := Metric.tendsto_nhds.1 (hπ r i j k) ε hε
    simpa only [Real.dist_eq] using this
  obtain ⟨n, hn⟩ := ev.exists
  obtain ⟨r, i, j, k, hlt⟩ := hfar (φ n) π
  exact absurd (hn r i j k) (not_lt.2 hlt)

/-- What a finite recorded error says. -/
theorem error_fin {X : Ragged I K J} {F : Factors I K R J} {e : ℝ} (h : PyF.div (recError X none F (rootSumSq X) none) (rootSumSq X) = .fin e) :
    0 ≤ e ∧ sse X F = e ^ 2 * raggedSq X := by
  by_cases hX : X = 0
  · exfalso
    have : rootSumSq X = 0 := by rw [rootSumSq_eq, hX]; simp [raggedSq, sqNorm]
    rw [PyF.div, if_pos this] at h
    split_ifs at h
  · obtain ⟨h1, h2⟩ := C35_direct X hX none F
    rw [h1] at h
    have e1 : absorb none F = F := by
      cases F
      simp [absorb]
    rw [e1] at h
    cases PyF.fin.inj h
    refine ⟨div_nonneg (Real.sqrt_nonneg _) (Real.sqrt_nonneg _), ?_⟩
    have n1 : 0 ≤ sse X F := sum_nonneg fun i _ => sum_nonneg fun j _ => sum_nonneg fun k _ => sq_nonneg _
    have n2 : 0 < raggedSq X := Real.sqrt_pos.1 h2
    rw [div_pow, Real.sq_sqrt n1, Real.sq_sqrt n2.le]
    field_simp

/-- What a finite gap says. -/
theorem gap_fin {B : Ragged I R J} {a : AuxB I R J} {g : ℝ} (h : raggedGap B a = .fin g) : 0 ≤ g ∧ raggedSq (B - a.toMats) = g ^ 2 * raggedSq B := by
  by_cases hB : B = 0
  · exfalso
    have : rootSumSq B = 0 := by rw [rootSumSq_eq, hB]; simp [raggedSq, sqNorm]
    rw [raggedGap, PyF.div, if_pos this] at h
    split_ifs at h
  · obtain ⟨h1, h2⟩ := raggedGap_eq hB a
    rw [h1] at h
    cases PyF.fin.inj h
    refine ⟨div_nonneg (Real.sqrt_nonneg _) (Real.sqrt_nonneg _), ?_⟩
    have n2 : 0 < raggedSq B := Real.sqrt_pos.1 h2
    rw [div_pow, Real.sq_sqrt (raggedSq_nonneg _), Real.sq_sqrt n2.le]
    field_simp

/-- C125: for every accuracy and every bound on the factors there is a tolerance, such that for all data within the tolerance of the matrices of `G`, all factors with a recorded
reconstruction error below the tolerance, and all auxiliary variables of the PARAFAC2 constraint with a gap below the tolerance, every entry of every component is within the accuracy
of that of a component of `G`. -/
theorem C125 {G : Factors I K R J} (i₀ : Fin I) (hC : LinearIndependent ℝ G.C.transpose) (hB : LinearIndependent ℝ (G.B i₀).transpose) (hA : FourRows G.A)
    (hG : ConstantCross G.B) (M : ℝ) {ε : ℝ} (hε : 0 < ε) :
    ∃ δ > 0, ∀ (X : Ragged I K J) (F : Factors I K R J) (a : AuxB I R J) (e g : ℝ), (∀ i j k, |X i j k - G.entry i j k| ≤ δ) → BoundedBy M F → ConstantCross a.toMats →
      PyF.div (recError X none F (rootSumSq X) none) (rootSumSq X) = .fin e → e ≤ δ → raggedGap F.B a = .fin g → g ≤ δ →
      ∃ π : Equiv.Perm (Fin R), ∀ r i j k, |component F (π r) i j k - component G r i j k| < ε := by
  obtain ⟨δ, hδ, h⟩ := recover_tol i₀ hC hB hA hG M hε
  refine ⟨δ, hδ, fun X F a e g h1 h2 h3 h4 h5 h6 h7 => ?_⟩
  obtain ⟨e0, e1⟩ := error_fin h4
  obtain ⟨g0, g1⟩ := gap_fin h6
  exact h X F a.toMats e g h1 h2 h3 e0 e1.le h5 g0 g1.le h7

/-- C125, whole calls: a call of `cmf_aoadmm` with `parafac2=True` whose diagnostics report a satisfied feasibility condition and a last reconstruction error below the tolerance
returns the components that generated the data, up to their order and the accuracy, whatever the initialisation, the other penalties and the number of iterations are. -/
theorem C125_call {G : Factors I K R J} (i₀ : Fin I) (hC : LinearIndependent ℝ G.C.transpose) (hB : LinearIndependent ℝ (G.B i₀).transpose) (hA : FourRows G.A)
    (hG : ConstantCross G.B) (M : ℝ) {ε : ℝ} (hε : 0 < ε) :
    ∃ δ > 0, ∀ (W : World I K R J) (c : Call I K R J) (h h' : Heap String) (res : Result I K R J) (f : Fin 3 → ModeArgs) (t e : ℝ) (d : Diagnostics), SVDFun W.svdThin →
      NotSelf h c.regs → call W c h = (h', .ok res) → AllForms c.args f → (∀ m, Scalar (f m)) → (∀ m, (f m).normBound ≠ .num 0) → (∀ m, Consistent (f m)) → (∀ i, 0 < J i) →
      0 < c.nInner → 0 < c.loop.nIterMax → c.loop.returnErrors = true → c.updB = true → c.args.parafac2 = true → c.X ≠ 0 → (∀ i j k, |c.X i j k - G.entry i j k| ≤ δ) →
      IsSet c.loop.feasTol t → 0 ≤ t → t ≤ δ → res.out.diag = some d → d.feasible = some true → d.recErrors.getLast? = some (.fin e) → e ≤ δ →
      res.out.st.F.A ≠ 0 → res.out.st.F.B ≠ 0 → res.out.st.F.C ≠ 0 → BoundedBy M (absorb res.out.st.weights res.out.st.F) →
      ∃ π : Equiv.Perm (Fin R), ∀ r i j k, |component (absorb res.out.st.weights res.out.st.F) (π r) i j k - component G r i j k| < ε := by
  obtain ⟨δ, hδ, hmain⟩ := recover_tol i₀ hC hB hA hG M hε
  refine ⟨δ, hδ, fun W c h h' res f t e d hsvd hs hcall hf hsc h0 hc hJ hN hn hr hu hp hX hnear ht t0 htδ hd hfeas hlast heδ nA nB nC hM => ?_⟩
  obtain ⟨-, h2, -⟩ := C65 W hsvd c h h' res hs hcall f hf hsc h0 hc hJ hN hn t ht d hd hfeas nA nB nC
  obtain ⟨Z, hZ, hlt⟩ := (h2 hu).2 hp
  obtain ⟨start, l2, args, -, -, -, parsed, user, -, hsol⟩ := call_ok hs hcall
  obtain ⟨S, out, hout, rfl⟩ := solve_ok hsol
  obtain ⟨d', hd', hlen, -, -, hall⟩ := C37 (S.problem _) hX c.loop hr _ out hout
  cases Option.some.inj (hd.symm.trans hd')
  obtain ⟨o, -, ho, herr, -⟩ := hall d.nIter le_rfl
  have hst := ho rfl
  have he : e = relErr c.X out.st := by
    rw [List.getLast?_eq_getElem?, hlen, Nat.add_sub_cancel, herr, hst] at hlast
    exact (PyF.fin.inj (Option.some.inj hlast)).symm
  have n1 : 0 ≤ sse c.X (absorb out.st.weights out.st.F) := sum_nonneg fun i _ => sum_nonneg fun j _ => sum_nonneg fun k _ => sq_nonneg _
  have n2 : 0 < raggedSq c.X := Real.sqrt_pos.1 (C35_direct (R := R) c.X hX none G).2
  refine hmain c.X (absorb out.st.weights out.st.F) Z e t hnear hM hZ (by rw [he]; exact div_nonneg (Real.sqrt_nonneg _) (Real.sqrt_nonneg _)) ?_ heδ t0 ?_ htδ
  · rw [he, relErr, div_pow, Real.sq_sqrt n1, Real.sq_sqrt n2.le, div_mul_cancel₀ _ n2.ne']
  · have := Real.sqrt_nonneg (raggedSq (out.st.F.B - Z))
    calc raggedSq (out.st.F.B - Z) = √(raggedSq (out.st.F.B - Z)) ^ 2 := (Real.sq_sqrt (raggedSq_nonneg _)).symm
      _ ≤ (t * √(raggedSq out.st.F.B)) ^ 2 := pow_le_pow_left₀ this hlt.le 2
      _ = t ^ 2 * raggedSq out.st.F.B := by rw [mul_pow, Real.sq_sqrt (raggedSq_nonneg _)]

/-- The hypotheses of C125 hold for the factorization with five matrices itself: no error, no gap, and entries up to 2. -/
example : BoundedBy 2 fiveComp ∧ ConstantCross (AuxB.mats fiveComp.B).toMats ∧
    PyF.div (recError fiveComp.recon none fiveComp (rootSumSq fiveComp.recon) none) (rootSumSq fiveComp.recon) = .fin 0 ∧ raggedGap fiveComp.B (.mats fiveComp.B) = .fin 0 := by
  have ne : fiveComp.recon ≠ 0 := fun h => by
    have := congrFun (congrFun (congrFun h 0) 0) 0
    simp [Factors.recon, Factors.entry, fiveComp] at this
  have neB : fiveComp.B ≠ 0 := fun h => by
    have := congrFun (congrFun (congrFun h 0) 0) 0
    simp [fiveComp] at this
  refine ⟨⟨?_, ?_, ?_⟩, fun i j => rfl, ?_, ?_⟩
  · intro i r
    fin_cases i <;> fin_cases r <;> norm_num [fiveComp]
  · intro i j r
    fin_cases j <;> fin_cases r <;> norm_num [fiveComp]
  · intro k r
    fin_cases k <;> fin_cases r <;> norm_num [fiveComp]
  · rw [(C35_direct _ ne none _).1]
    have : sse fiveComp.recon (absorb none fiveComp) = 0 := by
      simp [sse, absorb, Factors.recon, Factors.entry]
    rw [this, Real.sqrt_zero, zero_div]
  · rw [(raggedGap_eq neB _).1]
    have : fiveComp.B - (AuxB.mats fiveComp.B).toMats = 0 := sub_self _
    rw [this]
    simp [raggedSq, sqNorm]

end Verif.Props
