import Verif.Props.WholeExamples
import Verif.Props.LoopSolve

/-!
# C82: a call that updates one factor solves the requested convex problem

`C68` in terms of the keyword arguments.
-/

namespace Verif.Props

open Verif.Whole Verif.Loop Verif.ADMM Verif.Penalties Verif.Parse Verif.Spec Finset Matrix Filter

variable {I K R nA nB nC : ℕ} {J : Fin I → ℕ}

/-! ### C68 also without penalties -/

/-- `xs` is the only minimiser of `f` on `S`. -/
def OnlyMin {V : Type} (S : Set V) (f : V → ℝ) (xs : V) : Prop := ∀ y, (y ∈ S ∧ ∀ z ∈ S, f y ≤ f z) ↔ y = xs

theorem tendsto_of_eventually_eq {x : ℕ → ℝ} {a : ℝ} (h : ∀ n, 1 ≤ n → x n = a) : Tendsto x atTop (nhds a) :=
  tendsto_const_nhds.congr' (by filter_upwards [eventually_ge_atTop 1] with n hn using (h n hn).symm)

theorem onlyMin_of_lt {V : Type} {S : Set V} {f : V → ℝ} {xs : V} (hS : ∀ y, y ∈ S) (h : ∀ y, y ≠ xs → f xs < f y) : OnlyMin S f xs := by
  intro y
  constructor
  · rintro ⟨-, hy⟩
    by_contra hne
    exact absurd (hy xs (hS xs)) (not_le.2 (h y hne))
  · rintro rfl
    refine ⟨hS _, fun z _ => ?_⟩
    by_cases e : z = y
    · rw [e]
    · exact (h z e).le

theorem onlyMin_of_minOver {V : Type} {n : ℕ} {S : Set V} {f t : V → ℝ} {C : Fin n → Set V} {g : Fin n → V → ℝ} {xs : V} (hS : ∀ y, (∀ p, y ∈ C p) ↔ y ∈ S)
    (hg : ∀ y, ∑ p, g p y = t y) (h : ∀ y, IsMinOver f C g y ↔ y = xs) : OnlyMin S (fun y => f y + t y) xs := by
  intro y
  rw [← h y]
  simp only [IsMinOver, hS, hg]

theorem solve_A (P : Problem I K R nA nB nC J) (hsvd : ValidSVD P.params) (hN : 0 < P.params.nInner) (hA : P.updA = true) (hB : P.updB = false)
    (hC : P.updC = false) (hl : 0 ≤ P.l2.1) (init : AOState I K R nA nB nC J) (hw : ∀ i, 0 < weightA P.params.scale init.F i) (hsol : SolvableA init.F P.l2.1)
    (std : Fin nA → StdPen I R) (hv : ∀ p, (std p).Valid) (hpens : ∀ p, P.pensA p = (std p).toA) {S : Set (Matrix (Fin I) (Fin R) ℝ)} {t : Matrix (Fin I) (Fin R) ℝ → ℝ}
    (hS : ∀ y, (∀ p, y ∈ (std p).feasible) ↔ y ∈ S) (ht : ∀ y, ∑ p, (std p).fn y = t y) (x0 : Matrix (Fin I) (Fin R) ℝ) (hx0 : InsideMat S x0)
    (outs : ℕ → Output (AOState I K R nA nB nC J)) (h : ∀ n : ℕ, cmfAoadmm P (plain n) init = .ok (outs n)) :
    ∃ xs, OnlyMin S (fun y => fitA P.X P.l2.1 init.F y + t y) xs ∧ (∀ i r, Tendsto (fun n => (outs n).st.F.A i r) atTop (nhds (xs i r))) ∧
      ∀ p i r, Tendsto (fun n => (outs n).st.auxA p i r) atTop (nhds (xs i r)) := by
  rcases Nat.eq_zero_or_pos nA with rfl | hn
  · obtain ⟨seq, M, -, hseq, hM⟩ := C59_A P hN hA hB hC init outs h
    have hlt : ∀ k y, y ≠ (seq (k + 1)).x → fitA P.X P.l2.1 init.F (seq (k + 1)).x < fitA P.X P.l2.1 init.F y := by
      intro k y hy
      have := C27_A (once P.params) hsvd Nat.one_pos P.X P.l2 P.constA ⟨(seq k).x, init.F.B, init.F.C⟩ P.pensA (seq k).aux (seq k).dual hsol _ (hseq k) y hy
      simp only [ridgeObj] at this
      unfold fitA
      linarith
    have ht0 : ∀ y, t y = 0 := fun y => by rw [← ht y]; simp
    have hmin : ∀ k, OnlyMin S (fun y => fitA P.X P.l2.1 init.F y + t y) (seq (k + 1)).x := fun k =>
      onlyMin_of_lt (fun y => (hS y).1 fun p => p.elim0) fun y hy => by simpa [ht0] using hlt k y hy
    refine ⟨(seq 1).x, hmin 0, fun i r => tendsto_of_eventually_eq fun n hn => ?_, fun p => p.elim0⟩
    obtain ⟨e, hle, -⟩ := hM n
    obtain ⟨k, hk⟩ : ∃ k, M n = k + 1 := ⟨M n - 1, by omega⟩
    rw [hk] at e
    have e1 : (outs n).st.F.A = (seq (k + 1)).x := congrArg MatState.x e
    rw [e1, (hmin 0 _).1 ((hmin k _).2 rfl)]
  · obtain ⟨ε, hε, hin⟩ := hx0
    have hmem : ∀ p, InsideMat (std p).feasible x0 := fun p => ⟨ε, hε, fun Y hY => (hS Y).2 (hin Y hY) p⟩
    obtain ⟨xs, h1, h2, h3⟩ := C68_A P hsvd hN hA hB hC hl init hw hsol std hv hpens x0 ⟨0, hn⟩ ((hS x0).2 (hin x0 fun _ => by simp [hε]) _) (fun p _ => hmem p) outs h
    exact ⟨xs, onlyMin_of_minOver hS ht h1, h2, h3⟩

theorem solve_B (P : Problem I K R nA nB nC J) (hsvd : ValidSVD P.params) (hN : 0 < P.params.nInner) (hA : P.updA = false) (hB : P.updB = true)
    (hC : P.updC = false) (hl : 0 ≤ P.l2.2.1) (init : AOState I K R nA nB nC J) (hw : ∀ i, 0 < weightB P.params.scale init.F i) (hsol : SolvableB init.F P.l2.2.1)
    (std : Fin nB → (i : Fin I) → StdPen (J i) R) (hv : ∀ p i, (std p i).Valid) (hpens : ∀ p, P.pensB p = StdPen.toB (std p)) {S : Set (Ragged I R J)}
    {t : Ragged I R J → ℝ} (hS : ∀ y : Ragged I R J, (∀ p i, y i ∈ (std p i).feasible) ↔ y ∈ S) (ht : ∀ y : Ragged I R J, ∑ p, ∑ i, (std p i).fn (y i) = t y)
    (x0 : Ragged I R J) (hx0 : InsideRag S x0)
    (outs : ℕ → Output (AOState I K R nA nB nC J)) (h : ∀ n : ℕ, cmfAoadmm P (plain n) init = .ok (outs n)) :
    ∃ xs, OnlyMin S (fun y => fitB P.X P.l2.2.1 init.F y + t y) xs ∧ (∀ i j r, Tendsto (fun n => (outs n).st.F.B i j r) atTop (nhds (xs i j r))) ∧
      ∀ p i j r, Tendsto (fun n => ((outs n).st.auxB p).toMats i j r) atTop (nhds (xs i j r)) := by
  rcases Nat.eq_zero_or_pos nB with rfl | hn
  · obtain ⟨seq, M, -, hseq, hM⟩ := C59_B P hN hA hB hC init outs h
    have hlt : ∀ k y, y ≠ (seq (k + 1)).x → fitB P.X P.l2.2.1 init.F (seq (k + 1)).x < fitB P.X P.l2.2.1 init.F y := by
      intro k y hy
      have := C27_B (once P.params) hsvd Nat.one_pos P.X P.l2 P.constB ⟨init.F.A, (seq k).x, init.F.C⟩ P.pensB (seq k).aux (seq k).dual hsol _ (hseq k) y hy
      simp only [ridgeObj] at this
      unfold fitB
      linarith
    have ht0 : ∀ y, t y = 0 := fun y => by rw [← ht y]; simp
    have hmin : ∀ k, OnlyMin S (fun y => fitB P.X P.l2.2.1 init.F y + t y) (seq (k + 1)).x := fun k =>
      onlyMin_of_lt (fun y => (hS y).1 fun p => p.elim0) fun y hy => by simpa [ht0] using hlt k y hy
    refine ⟨(seq 1).x, hmin 0, fun i j r => tendsto_of_eventually_eq fun n hn => ?_, fun p => p.elim0⟩
    obtain ⟨e, hle, -⟩ := hM n
    obtain ⟨k, hk⟩ : ∃ k, M n = k + 1 := ⟨M n - 1, by omega⟩
    rw [hk] at e
    have e1 : (outs n).st.F.B = (seq (k + 1)).x := congrArg RagState.x e
    rw [e1, (hmin 0 _).1 ((hmin k _).2 rfl)]
  · obtain ⟨ε, hε, hin⟩ := hx0
    have hmem : ∀ p, InsideRag {Z : Ragged I R J | ∀ i, Z i ∈ (std p i).feasible} x0 := fun p => ⟨ε, hε, fun Y hY => (hS Y).2 (hin Y hY) p⟩
    obtain ⟨xs, h1, h2, h3⟩ := C68_B P hsvd hN hA hB hC hl init hw hsol std hv hpens x0 ⟨0, hn⟩ ((hS x0).2 (hin x0 fun _ => by simp [hε]) _) (fun p _ => hmem p) outs h
    exact ⟨xs, onlyMin_of_minOver hS ht h1, h2, h3⟩

theorem solve_C (P : Problem I K R nA nB nC J) (hsvd : ValidSVD P.params) (hN : 0 < P.params.nInner) (hA : P.updA = false) (hB : P.updB = false)
    (hC : P.updC = true) (hl : 0 ≤ P.l2.2.2) (init : AOState I K R nA nB nC J) (hw : 0 < weightC P.params.scale init.F) (hsol : SolvableC init.F P.l2.2.2)
    (std : Fin nC → StdPen K R) (hv : ∀ p, (std p).Valid) (hpens : ∀ p, P.pensC p = (std p).toC) {S : Set (Matrix (Fin K) (Fin R) ℝ)} {t : Matrix (Fin K) (Fin R) ℝ → ℝ}
    (hS : ∀ y, (∀ p, y ∈ (std p).feasible) ↔ y ∈ S) (ht : ∀ y, ∑ p, (std p).fn y = t y) (x0 : Matrix (Fin K) (Fin R) ℝ) (hx0 : InsideMat S x0)
    (outs : ℕ → Output (AOState I K R nA nB nC J)) (h : ∀ n : ℕ, cmfAoadmm P (plain n) init = .ok (outs n)) :
    ∃ xs, OnlyMin S (fun y => fitC P.X P.l2.2.2 init.F y + t y) xs ∧ (∀ k r, Tendsto (fun n => (outs n).st.F.C k r) atTop (nhds (xs k r))) ∧
      ∀ p k r, Tendsto (fun n => (outs n).st.auxC p k r) atTop (nhds (xs k r)) := by
  rcases Nat.eq_zero_or_pos nC with rfl | hn
  · obtain ⟨seq, M, -, hseq, hM⟩ := C59_C P hN hA hB hC init outs h
    have hlt : ∀ k y, y ≠ (seq (k + 1)).x → fitC P.X P.l2.2.2 init.F (seq (k + 1)).x < fitC P.X P.l2.2.2 init.F y := by
      intro k y hy
      rw [← hseq k] at hy ⊢
      have := C27_C (once P.params) hsvd Nat.one_pos P.X P.l2 ⟨init.F.A, init.F.B, (seq k).x⟩ P.pensC (seq k).aux (seq k).dual hsol y hy
      simp only [ridgeObj] at this
      unfold fitC
      linarith
    have ht0 : ∀ y, t y = 0 := fun y => by rw [← ht y]; simp
    have hmin : ∀ k, OnlyMin S (fun y => fitC P.X P.l2.2.2 init.F y + t y) (seq (k + 1)).x := fun k =>
      onlyMin_of_lt (fun y => (hS y).1 fun p => p.elim0) fun y hy => by simpa [ht0] using hlt k y hy
    refine ⟨(seq 1).x, hmin 0, fun k' r => tendsto_of_eventually_eq fun n hn => ?_, fun p => p.elim0⟩
    obtain ⟨e, hle, -⟩ := hM n
    obtain ⟨k, hk⟩ : ∃ k, M n = k + 1 := ⟨M n - 1, by omega⟩
    rw [hk] at e
    have e1 : (outs n).st.F.C = (seq (k + 1)).x := congrArg MatState.x e
    rw [e1, (hmin 0 _).1 ((hmin k _).2 rfl)]
  · obtain ⟨ε, hε, hin⟩ := hx0
    have hmem : ∀ p, InsideMat (std p).feasible x0 := fun p => ⟨ε, hε, fun Y hY => (hS Y).2 (hin Y hY) p⟩
    obtain ⟨xs, h1, h2, h3⟩ := C68_C P hsvd hN hA hB hC hl init hw hsol std hv hpens x0 ⟨0, hn⟩ ((hS x0).2 (hin x0 fun _ => by simp [hε]) _) (fun p _ => hmem p) outs h
    exact ⟨xs, onlyMin_of_minOver hS ht h1, h2, h3⟩

/-! ### The built penalties as convex penalties -/

/-- A convex kind, usable for matrices with `m` rows. -/
def Kind.Convex (m : ℕ) : Kind → Prop
  | .parafac2 => False
  | .unimodality _ => False
  | .genL2 k _ => k = m
  | _ => True

/-- The convex penalty a kind stands for; arbitrary for the other kinds. -/
noncomputable def kindStd (W : World I K R J) (m n : ℕ) : Kind → StdPen m n
  | .box lo hi => .box lo.bound hi.bound
  | .l1 g nn => .l1 g.real nn.flag
  | .l2Ball b nn => .l2Ball b.real nn.flag
  | .genL2 k M => if h : k = m then .genL2 (M.submatrix (Fin.cast h.symm) (Fin.cast h.symm)) (W.svdSq m (M.submatrix (Fin.cast h.symm) (Fin.cast h.symm))) else .nonNeg
  | .tv a b => .tv (W.tv m n) a.real b.real
  | _ => .nonNeg

theorem kindStd_mat (W : World I K R J) {m n : ℕ} {k : Kind} (hk : Kind.Convex m k) : W.matUpdate m n k = some (kindStd W m n k).mat := by
  cases k with
  | parafac2 => exact hk.elim
  | unimodality _ => exact hk.elim
  | genL2 j M => subst hk; simp [World.matUpdate, kindStd, StdPen.mat]
  | _ => rfl

theorem kindStd_value (W : World I K R J) {m n : ℕ} {k : Kind} (hk : Kind.Convex m k) (X : Matrix (Fin m) (Fin n) ℝ) : (kindStd W m n k).value X = k.value X := by
  cases k with
  | parafac2 => exact hk.elim
  | unimodality _ => exact hk.elim
  | genL2 j M => subst hk; simp [Kind.value, kindStd, StdPen.value]
  | _ => rfl

theorem kindStd_row (W : World I K R J) {m n : ℕ} {k : Kind} (hk : Kind.Convex m k) : (kindStd W m n k).row = World.rowUpdate n k := by
  cases k with
  | parafac2 => exact hk.elim
  | unimodality _ => exact hk.elim
  | genL2 j M => subst hk; simp [World.rowUpdate, kindStd, StdPen.row]
  | _ => rfl

theorem kindStd_feasible (W : World I K R J) {m n : ℕ} {k : Kind} (hk : Kind.Convex m k) : (kindStd W m n k).feasible = kindSet m n k := by
  cases k with
  | parafac2 => exact hk.elim
  | unimodality _ => exact hk.elim
  | genL2 j M => subst hk; simp [kindSet, kindStd, StdPen.feasible]
  | _ => rfl

/-- The values of one mode ask for a convex problem: no unimodality and no PARAFAC2, the norm bound is not 0, norm matrices have the right size and are symmetric and positive
semidefinite. -/
structure AsksConvex (a : ModeArgs) (m : ℕ) : Prop where
  scalar : Scalar a
  unimodal : a.unimodal ≠ .bool true
  parafac2 : a.parafac2 = false
  norm : a.normBound ≠ .num 0
  genL2 : ∀ j M, a.genL2 = .mat j j M → j = m ∧ M.transpose = M ∧ ∀ x : Fin j → ℝ, 0 ≤ ∑ i, ∑ l, x i * M i l * x l

/-- The external code does what it is documented to do. -/
structure GoodWorld (W : World I K R J) : Prop where
  svd : ∀ n M, (W.svdSq n M).Valid M
  tv : ∀ m n, SolvesTV (W.tv m n)

theorem real_nonneg {w : Leaf} (h : w = .none ∨ (∃ b, w = .bool b) ∨ ∃ x, w = .num x) (hlt : w.ltZero = .ok false) : 0 ≤ w.real := by
  rcases h with rfl | ⟨b, rfl⟩ | ⟨x, rfl⟩
  · cases hlt
  · cases b <;> simp [Leaf.real]
  · simpa [Leaf.ltZero, Leaf.real] using hlt

theorem real_pos {w : Leaf} (h : w = .none ∨ (∃ b, w = .bool b) ∨ ∃ x, w = .num x) (hlt : w.leZero = .ok false) : 0 < w.real := by
  rcases h with rfl | ⟨b, rfl⟩ | ⟨x, rfl⟩
  · cases hlt
  · cases b
    · simp [Leaf.leZero] at hlt
    · simp [Leaf.real]
  · simpa [Leaf.leZero, Leaf.real] using hlt

/-- The penalties built for such values are valid convex penalties. -/
theorem parsed_std {W : World I K R J} (hW : GoodWorld W) {negEig : (m : ℕ) → Matrix (Fin m) (Fin m) ℝ → Bool} {s : Settings String} {a : ModeArgs} {m n : ℕ}
    (hc : AsksConvex a m) (hm : 0 < m) (hn : 0 < n) (hx : (Requested a m n).Nonempty) {l : List (Pen String)} (h : parseMode negEig s a = .ok l) :
    ∀ p ∈ l, ∃ k x y z, p = .built k x y z ∧ Kind.Convex m k ∧ (kindStd W m n k).Valid := by
  have ha := hc.scalar
  have hnorm : a.normBound = .none ∨ (∃ b, a.normBound = .bool b) ∨ ∃ x, a.normBound = .num x := by
    rcases ha.normBound with e | e
    · exact .inl e
    · exact .inr (.inr e)
  obtain ⟨Z, hZ⟩ := hx
  have hZb := (C50_partial (m := m) (n := n) ha hc.norm h).1 Z |>.2 hZ
  obtain ⟨l1On, uni, r₃, ball, r₄, tvOn, r₅, l1On', r₆, r₇, nn, h₁, h₂, h₃, h₄, h₅, h₆, h₇, h₈, h₉, h₁₀, h₁₁, rfl⟩ := parseMode_ok.1 h
  rw [flag_truth ha.unimodal] at h₂
  cases h₂
  have hu : a.unimodal.flag = false := by
    by_contra hf
    exact hc.unimodal ((flag_true ha.unimodal).1 (by simpa using hf))
  have hz : ∀ {w : Leaf}, w = .none ∨ (∃ b, w = .bool b) ∨ (∃ x, w = .num x) → ∀ b : Bool,
      (if b = true then w else Leaf.num 0) = .none ∨ (∃ c, (if b = true then w else Leaf.num 0) = .bool c) ∨ ∃ x, (if b = true then w else Leaf.num 0) = .num x := by
    intro w hw b
    cases b with
    | false => exact .inr (.inr ⟨0, rfl⟩)
    | true => exact hw
  intro p hp
  have hpZ := hZb p hp
  simp only [List.mem_append] at hp
  rcases hp with ((((((hp | hp) | hp) | hp) | hp) | hp) | hp) | hp
  · rw [hc.parafac2] at hp; cases hp
  · rw [hu] at hp; cases hp
  · rcases genL2Regs_ok h₃ with ⟨rfl, -⟩ | ⟨k, M, e, rfl⟩
    · cases hp
    · rw [Settings.mkSvd, List.mem_singleton] at hp
      obtain ⟨hk, hs, hpsd⟩ := hc.genL2 k M e
      refine ⟨_, _, _, _, hp, hk, ?_⟩
      subst hk
      simp only [kindStd, dif_pos]
      exact ⟨hs, hpsd, hW.svd _ _⟩
  · rcases ballRegs_ok h₅ with ⟨-, rfl⟩ | ⟨hb, hle, rfl⟩
    · cases hp
    · rw [Settings.mk1, List.mem_singleton] at hp
      exact ⟨_, _, _, _, hp, trivial, real_pos hnorm hle⟩
  · rcases tvRegs_ok h₇ with ⟨-, rfl⟩ | ⟨hb, -, hle, hlt, rfl⟩
    · cases hp
    · rw [Settings.mk1, List.mem_singleton] at hp
      exact ⟨_, _, _, _, hp, trivial, hW.tv _ _, real_pos ha.tv hle, real_nonneg (hz ha.l1 l1On) hlt⟩
  · rcases l1Regs_ok h₉ with ⟨-, rfl⟩ | ⟨-, hlt, rfl⟩
    · cases hp
    · rw [Settings.mk1, List.mem_singleton] at hp
      refine ⟨_, _, _, _, hp, trivial, real_nonneg ?_ hlt⟩
      cases tvOn with
      | true => exact .inr (.inr ⟨0, rfl⟩)
      | false => exact hz ha.l1 l1On
  · split at h₁₀
    · obtain ⟨lo', rfl, -⟩ := boxRegs_ok ha.lower ha.nonNeg h₁₀
      rw [Settings.mk1, List.mem_singleton] at hp
      subst hp
      refine ⟨_, _, _, _, rfl, trivial, fun l u hl hu => ?_⟩
      obtain ⟨q1, q2⟩ := hpZ ⟨0, hm⟩ ⟨0, hn⟩
      exact (q1 l hl).trans (q2 u hu)
    · cases h₁₀; cases hp
  · split at hp
    · rw [Settings.mk1, List.mem_singleton] at hp
      exact ⟨_, _, _, _, hp, trivial, trivial⟩
    · cases hp

/-- The convex penalty a penalty object stands for. -/
noncomputable def penStd (W : World I K R J) (m n : ℕ) : Pen String → StdPen m n
  | .built k _ _ _ => kindStd W m n k
  | .user _ => .nonNeg

/-- The list of penalties built for one mode: valid, with the requested set and the documented terms. -/
theorem parsed_problem {W : World I K R J} (hW : GoodWorld W) {negEig : (m : ℕ) → Matrix (Fin m) (Fin m) ℝ → Bool} {s : Settings String} {a : ModeArgs} {m n : ℕ}
    (hc : AsksConvex a m) (hm : 0 < m) (hn : 0 < n) (hx : (Requested a m n).Nonempty) {l : List (Pen String)} (h : parseMode negEig s a = .ok l) :
    (∀ p : Fin l.length, (penStd W m n (l.get p)).Valid ∧ ∃ k x y z, l.get p = .built k x y z ∧ Kind.Convex m k) ∧
    (∀ y, (∀ p : Fin l.length, y ∈ (penStd W m n (l.get p)).feasible) ↔ y ∈ Requested a m n) ∧
    ∀ y, ∑ p : Fin l.length, (penStd W m n (l.get p)).fn y = modeTerm a y := by
  have hstd := parsed_std hW hc hm hn hx h
  have hset : ∀ p ∈ l, (penStd W m n p).feasible = penSet m n p := by
    intro p hp
    obtain ⟨k, x, y, z, rfl, hk, -⟩ := hstd p hp
    exact kindStd_feasible W hk
  refine ⟨fun p => ?_, fun y => ?_, fun y => ?_⟩
  · obtain ⟨k, x, y, z, e, hk, hv⟩ := hstd _ (List.get_mem l p)
    refine ⟨?_, k, x, y, z, e, hk⟩
    rw [e]
    exact hv
  · rw [← (C50_partial (m := m) (n := n) hc.scalar hc.norm h).1 y]
    constructor
    · intro hy p hp
      obtain ⟨i, rfl⟩ := mem_get hp
      rw [← hset _ hp]
      exact hy i
    · intro hy p
      rw [hset _ (List.get_mem l p)]
      exact hy _ (List.get_mem l p)
  · unfold modeTerm
    rw [← C51 hc.scalar h y, ← sum_get l (fun p => penValue y (l.get p)) (penValue y) fun _ => rfl]
    refine sum_congr rfl fun p _ => ?_
    obtain ⟨k, u, v, w, e, hk, hv⟩ := hstd _ (List.get_mem l p)
    rw [e]
    exact ((kindStd W m n k).value_eq hv y).symm.trans (kindStd_value W hk y)

theorem l2_values {c : Call I K R J} {l2 : Fin 3 → Leaf} (hl2 : Forms c.l2 l2) {l2' : List Leaf} (hl : l2List (γ := Arg) id (.user c.l2) = .ok l2') :
    (l2'.getD 0 .none).real = (l2 0).real ∧ (l2'.getD 1 .none).real = (l2 1).real ∧ (l2'.getD 2 .none).real = (l2 2).real := by
  have hreal : ∀ x : Leaf, (if x.isNone then Leaf.num 0 else x).real = x.real := by intro x; cases x <;> rfl
  have e2 : l2' = [l2 0, l2 1, l2 2].map fun x => if x.isNone then .num 0 else x := by
    simp only [l2List, PVal.toArg, id, (C49 _).1 _ hl2] at hl
    exact (Except.ok.inj hl).symm
  simp only [e2, List.map_cons, List.map_nil, List.getD_cons_zero, List.getD_cons_succ, hreal, and_self]

/-- Calls that differ in the iteration limit only run the same loop from the same state. -/
theorem call_runs {W : World I K R J} {c : Call I K R J} {h : Heap String} (hregs : c.regs = none) {f : Fin 3 → ModeArgs} (hf : AllForms c.args f)
    {l2 : Fin 3 → Leaf} (hl2 : Forms c.l2 l2) {start : Start I K R J} (hstart : initializeCmf W.init c.init = .ok start) {h' : ℕ → Heap String} {res : ℕ → Result I K R J}
    (e : ∀ n : ℕ, call W { c with loop := plain n } h = (h' n, .ok (res n))) :
    ∃ l₀ l₁ l₂ : List (Pen String), parseMode W.negEig (c.settings W) (f 0) = .ok l₀ ∧ parseMode W.negEig (c.settings W) (f 1) = .ok l₁ ∧
      parseMode W.negEig (c.settings W) (f 2) = .ok l₂ ∧
        ∃ (S : Setup W c (dropRegs c.updA l₀) (dropRegs c.updB l₁) (dropRegs c.updC l₂)) (outs : ℕ → _),
          (∀ n : ℕ, cmfAoadmm (S.problem ((l2 0).real, (l2 1).real, (l2 2).real)) (plain n) (S.state start) = .ok (outs n)) ∧
          (∀ n, res n = ⟨_, _, _, outs n⟩) ∧
          ∀ (a : Args) (h'' : Heap String) (r : Result I K R J), call W { c with loop := a } h = (h'', .ok r) →
            ∃ out, cmfAoadmm (S.problem ((l2 0).real, (l2 1).real, (l2 2).real)) a (S.state start) = .ok out ∧ r = ⟨_, _, _, out⟩ := by
  have hs : NotSelf h c.regs := fun b L hb => by rw [hregs] at hb; cases hb
  obtain ⟨start', l2', args, h1, h2, h3, parsed, user, hm, hcall⟩ := call_parts (c := { c with loop := plain 0 }) hs (e 0)
  obtain rfl := Except.ok.inj (hstart.symm.trans h1)
  obtain ⟨args', ha', he⟩ := C49_modes hf
  obtain rfl := Except.ok.inj (h3.symm.trans ha')
  obtain ⟨q0, q1, q2⟩ := l2_values (c := c) hl2 h2
  rw [q0, q1, q2] at hcall
  have hu : ∀ m < 3, user m = [] := fun m hm3 => by
    have := (hm m hm3).2
    rw [show ({ c with loop := plain 0 } : Call I K R J).regs = none from hregs] at this
    exact this
  rw [hu 0 (by omega), hu 1 (by omega), hu 2 (by omega)] at hcall
  simp only [List.append_nil] at hcall
  have hsol : ∀ n : ℕ, solve W { c with loop := plain n } start _ _ _ _ = .ok (res n) := fun n => (congrArg Prod.snd ((e n).symm.trans (hcall (plain n)))).symm
  obtain ⟨S0, -, -, -⟩ := solve_ok (hsol 0)
  let S : Setup W c (dropRegs c.updA (parsed 0)) (dropRegs c.updB (parsed 1)) (dropRegs c.updC (parsed 2)) := S0.withLoop c.loop
  have gen : ∀ (a : Args) (h'' : Heap String) (r : Result I K R J), call W { c with loop := a } h = (h'', .ok r) →
      ∃ out, cmfAoadmm (S.problem ((l2 0).real, (l2 1).real, (l2 2).real)) a (S.state start) = .ok out ∧ r = ⟨_, _, _, out⟩ := by
    intro a h'' r ha
    have h4 : solve W { c with loop := a } start _ _ _ _ = .ok r := (congrArg Prod.snd (ha.symm.trans (hcall a))).symm
    rw [solve_setup (S.withLoop a)] at h4
    obtain ⟨o, ho, hr⟩ := map_ok.1 h4
    exact ⟨o, ho, hr.symm⟩
  choose outs ho hr using fun n : ℕ => gen (plain n) (h' n) (res n) (e n)
  have hp : ∀ m : Fin 3, parseMode W.negEig (c.settings W) (f m) = .ok (parsed m) := fun m => by
    rw [← he m]
    exact (hm m m.isLt).1
  exact ⟨parsed 0, parsed 1, parsed 2, hp 0, hp 1, hp 2, S, outs, ho, hr, gen⟩

/-! ### C82 -/

theorem solved_C (W : World I K R J) (hW : GoodWorld W) (c : Call I K R J) (h : Heap String) (hregs : c.regs = none) {f : Fin 3 → ModeArgs} (hf : AllForms c.args f)
    {l2 : Fin 3 → Leaf} (hl2 : Forms c.l2 l2) (hc : AsksConvex (f 2) K) (hA : c.updA = false) (hB : c.updB = false) (hC : c.updC = true) (hN : 0 < c.nInner)
    (hl : 0 ≤ (l2 2).real) (hK : 0 < K) (hR : 0 < R) {start : Start I K R J} (hstart : initializeCmf W.init c.init = .ok start)
    (hw : 0 < weightC c.scale start.F) (hsol : SolvableC start.F (l2 2).real) (hin : ∃ x0, InsideMat (Requested (f 2) K R) x0)
    (h' : ℕ → Heap String) (res : ℕ → Result I K R J) (e : ∀ n : ℕ, call W { c with loop := plain n } h = (h' n, .ok (res n))) :
    ∃ (l₀ l₁ l₂ : List (Pen String)) (S : Setup W c (dropRegs c.updA l₀) (dropRegs c.updB l₁) (dropRegs c.updC l₂)) (outs : ℕ → _) (xs : Matrix (Fin K) (Fin R) ℝ),
      (∀ n : ℕ, cmfAoadmm (S.problem ((l2 0).real, (l2 1).real, (l2 2).real)) (plain n) (S.state start) = .ok (outs n)) ∧ (∀ n, res n = ⟨_, _, _, outs n⟩) ∧
      (∀ (a : Args) (h'' : Heap String) (r : Result I K R J), call W { c with loop := a } h = (h'', .ok r) →
        ∃ out, cmfAoadmm (S.problem ((l2 0).real, (l2 1).real, (l2 2).real)) a (S.state start) = .ok out ∧ r = ⟨_, _, _, out⟩) ∧
      OnlyMin (Requested (f 2) K R) (fun Z => 1 / 2 * sse c.X ⟨start.F.A, start.F.B, Z⟩ + (l2 2).real / 2 * sqNorm Z + modeTerm (f 2) Z) xs ∧
      (∀ k r, Tendsto (fun n => (outs n).st.F.C k r) atTop (nhds (xs k r))) ∧
      (∀ p k r, Tendsto (fun n => (outs n).st.auxC p k r) atTop (nhds (xs k r))) ∧
      ∀ p, Continuous ((S.problem ((l2 0).real, (l2 1).real, (l2 2).real)).pensC p).value := by
  obtain ⟨l₀, l₁, l₂, -, -, hp, S, outs, ho, hr, gen⟩ := call_runs hregs hf hl2 hstart e
  obtain ⟨x0, hx0⟩ := hin
  have hne : (Requested (f 2) K R).Nonempty := ⟨x0, by obtain ⟨ε, hε, hin⟩ := hx0; exact hin x0 fun _ => by simp [hε]⟩
  have hd : dropRegs c.updC l₂ = l₂ := by rw [hC]; rfl
  rw [← hd] at hp
  obtain ⟨p1, p2, p3⟩ := parsed_problem hW hc hK hR hne hp
  have hpens : ∀ p, (S.problem ((l2 0).real, (l2 1).real, (l2 2).real)).pensC p = (penStd W K R ((dropRegs c.updC l₂).get p)).toC := by
    intro p
    obtain ⟨k, x, y, z, ek, hk⟩ := (p1 p).2
    have := S.pensC_ok p
    rw [ek] at this ⊢
    simp only [World.penC, World.kindC, kindStd_mat W hk, Option.map_some] at this
    rw [show (S.problem _).pensC p = _ from (Except.ok.inj this).symm]
    show PenC.mk _ _ = PenC.mk _ _
    congr 1
    funext X
    exact (kindStd_value W hk X).symm
  obtain ⟨xs, hmin, hlim, haux⟩ := solve_C (S.problem ((l2 0).real, (l2 1).real, (l2 2).real)) (hW.svd R) hN hA hB hC hl (S.state start) hw hsol
    (fun p => penStd W K R ((dropRegs c.updC l₂).get p)) (fun p => (p1 p).1) hpens p2 p3 x0 hx0 outs ho
  refine ⟨l₀, l₁, l₂, S, outs, xs, ho, hr, gen, hmin, hlim, haux, fun p => ?_⟩
  rw [hpens p]
  exact (StdPen.continuous_fn _).congr fun Z => (StdPen.value_eq _ (p1 p).1 Z).symm

/-- C82, mode 2: only C is updated, the arguments ask for a convex problem that some matrix satisfies strictly and that determines C. Then there is exactly one solution, and
the C that the call returns tends to it when `n_iter_max` grows. A and B are the initial factors. -/
theorem C82_C (W : World I K R J) (hW : GoodWorld W) (c : Call I K R J) (h : Heap String) (hregs : c.regs = none) {f : Fin 3 → ModeArgs} (hf : AllForms c.args f)
    {l2 : Fin 3 → Leaf} (hl2 : Forms c.l2 l2) (hc : AsksConvex (f 2) K) (hA : c.updA = false) (hB : c.updB = false) (hC : c.updC = true) (hN : 0 < c.nInner)
    (hl : 0 ≤ (l2 2).real) (hK : 0 < K) (hR : 0 < R) {start : Start I K R J} (hstart : initializeCmf W.init c.init = .ok start)
    (hw : 0 < weightC c.scale start.F) (hsol : SolvableC start.F (l2 2).real) (hin : ∃ x0, InsideMat (Requested (f 2) K R) x0)
    (h' : ℕ → Heap String) (res : ℕ → Result I K R J) (e : ∀ n : ℕ, call W { c with loop := plain n } h = (h' n, .ok (res n))) :
    ∃ xs, OnlyMin (Requested (f 2) K R) (fun Z => 1 / 2 * sse c.X ⟨start.F.A, start.F.B, Z⟩ + (l2 2).real / 2 * sqNorm Z + modeTerm (f 2) Z) xs ∧
      ∀ k r, Tendsto (fun n => (res n).out.st.F.C k r) atTop (nhds (xs k r)) := by
  obtain ⟨l₀, l₁, l₂, S, outs, xs, -, hr, -, hmin, hlim, -⟩ := solved_C W hW c h hregs hf hl2 hc hA hB hC hN hl hK hR hstart hw hsol hin h' res e
  refine ⟨xs, hmin, fun k r => ?_⟩
  have : (fun n => (res n).out.st.F.C k r) = fun n => (outs n).st.F.C k r := by
    funext n
    rw [hr n]
  rw [this]
  exact hlim k r

theorem solved_A (W : World I K R J) (hW : GoodWorld W) (c : Call I K R J) (h : Heap String) (hregs : c.regs = none) {f : Fin 3 → ModeArgs} (hf : AllForms c.args f)
    {l2 : Fin 3 → Leaf} (hl2 : Forms c.l2 l2) (hc : AsksConvex (f 0) I) (hA : c.updA = true) (hB : c.updB = false) (hC : c.updC = false) (hN : 0 < c.nInner)
    (hl : 0 ≤ (l2 0).real) (hI : 0 < I) (hR : 0 < R) {start : Start I K R J} (hstart : initializeCmf W.init c.init = .ok start)
    (hw : ∀ i, 0 < weightA c.scale start.F i) (hsol : SolvableA start.F (l2 0).real) (hin : ∃ x0, InsideMat (Requested (f 0) I R) x0)
    (h' : ℕ → Heap String) (res : ℕ → Result I K R J) (e : ∀ n : ℕ, call W { c with loop := plain n } h = (h' n, .ok (res n))) :
    ∃ (l₀ l₁ l₂ : List (Pen String)) (S : Setup W c (dropRegs c.updA l₀) (dropRegs c.updB l₁) (dropRegs c.updC l₂)) (outs : ℕ → _) (xs : Matrix (Fin I) (Fin R) ℝ),
      (∀ n : ℕ, cmfAoadmm (S.problem ((l2 0).real, (l2 1).real, (l2 2).real)) (plain n) (S.state start) = .ok (outs n)) ∧ (∀ n, res n = ⟨_, _, _, outs n⟩) ∧
      (∀ (a : Args) (h'' : Heap String) (r : Result I K R J), call W { c with loop := a } h = (h'', .ok r) →
        ∃ out, cmfAoadmm (S.problem ((l2 0).real, (l2 1).real, (l2 2).real)) a (S.state start) = .ok out ∧ r = ⟨_, _, _, out⟩) ∧
      OnlyMin (Requested (f 0) I R) (fun Z => 1 / 2 * sse c.X ⟨Z, start.F.B, start.F.C⟩ + (l2 0).real / 2 * sqNorm Z + modeTerm (f 0) Z) xs ∧
      (∀ i r, Tendsto (fun n => (outs n).st.F.A i r) atTop (nhds (xs i r))) ∧
      (∀ p i r, Tendsto (fun n => (outs n).st.auxA p i r) atTop (nhds (xs i r))) ∧
      ∀ p, Continuous ((S.problem ((l2 0).real, (l2 1).real, (l2 2).real)).pensA p).value := by
  obtain ⟨l₀, l₁, l₂, hp, -, -, S, outs, ho, hr, gen⟩ := call_runs hregs hf hl2 hstart e
  obtain ⟨x0, hx0⟩ := hin
  have hne : (Requested (f 0) I R).Nonempty := ⟨x0, by obtain ⟨ε, hε, hin⟩ := hx0; exact hin x0 fun _ => by simp [hε]⟩
  have hd : dropRegs c.updA l₀ = l₀ := by rw [hA]; rfl
  rw [← hd] at hp
  obtain ⟨p1, p2, p3⟩ := parsed_problem hW hc hI hR hne hp
  have hpens : ∀ p, (S.problem ((l2 0).real, (l2 1).real, (l2 2).real)).pensA p = (penStd W I R ((dropRegs c.updA l₀).get p)).toA := by
    intro p
    obtain ⟨k, x, y, z, ek, hk⟩ := (p1 p).2
    have := S.pensA_ok p
    rw [ek] at this ⊢
    simp only [World.penA, World.kindA, kindStd_mat W hk, Option.map_some] at this
    rw [show (S.problem _).pensA p = _ from (Except.ok.inj this).symm]
    show PenA.mk _ _ _ = PenA.mk _ _ _
    congr 1
    · exact (kindStd_row (n := R) W hk).symm
    · funext X
      exact (kindStd_value W hk X).symm
  obtain ⟨xs, hmin, hlim, haux⟩ := solve_A (S.problem ((l2 0).real, (l2 1).real, (l2 2).real)) (hW.svd R) hN hA hB hC hl (S.state start) hw hsol
    (fun p => penStd W I R ((dropRegs c.updA l₀).get p)) (fun p => (p1 p).1) hpens p2 p3 x0 hx0 outs ho
  refine ⟨l₀, l₁, l₂, S, outs, xs, ho, hr, gen, hmin, hlim, haux, fun p => ?_⟩
  rw [hpens p]
  exact (StdPen.continuous_fn _).congr fun Z => (StdPen.value_eq _ (p1 p).1 Z).symm

/-- C82, mode 0: only A is updated. -/
theorem C82_A (W : World I K R J) (hW : GoodWorld W) (c : Call I K R J) (h : Heap String) (hregs : c.regs = none) {f : Fin 3 → ModeArgs} (hf : AllForms c.args f)
    {l2 : Fin 3 → Leaf} (hl2 : Forms c.l2 l2) (hc : AsksConvex (f 0) I) (hA : c.updA = true) (hB : c.updB = false) (hC : c.updC = false) (hN : 0 < c.nInner)
    (hl : 0 ≤ (l2 0).real) (hI : 0 < I) (hR : 0 < R) {start : Start I K R J} (hstart : initializeCmf W.init c.init = .ok start)
    (hw : ∀ i, 0 < weightA c.scale start.F i) (hsol : SolvableA start.F (l2 0).real) (hin : ∃ x0, InsideMat (Requested (f 0) I R) x0)
    (h' : ℕ → Heap String) (res : ℕ → Result I K R J) (e : ∀ n : ℕ, call W { c with loop := plain n } h = (h' n, .ok (res n))) :
    ∃ xs, OnlyMin (Requested (f 0) I R) (fun Z => 1 / 2 * sse c.X ⟨Z, start.F.B, start.F.C⟩ + (l2 0).real / 2 * sqNorm Z + modeTerm (f 0) Z) xs ∧
      ∀ i r, Tendsto (fun n => (res n).out.st.F.A i r) atTop (nhds (xs i r)) := by
  obtain ⟨l₀, l₁, l₂, S, outs, xs, -, hr, -, hmin, hlim, -⟩ := solved_A W hW c h hregs hf hl2 hc hA hB hC hN hl hI hR hstart hw hsol hin h' res e
  refine ⟨xs, hmin, fun i r => ?_⟩
  have : (fun n => (res n).out.st.F.A i r) = fun n => (outs n).st.F.A i r := by
    funext n
    rw [hr n]
  rw [this]
  exact hlim i r

theorem valueList_sum {k : Kind} {n : ℕ} (X : (i : Fin I) → Matrix (Fin (J i)) (Fin n) ℝ) : k.valueList X = ∑ i, k.value (X i) := by
  cases k with
  | l1 g nn =>
    simp only [Kind.valueList]
    rw [(C17_penalty (m := 0) (n := n) _).2.2 I J X]
    exact sum_congr rfl fun i _ => ((C17_penalty _).2.1 (X i)).symm
  | _ => rfl

theorem kindStd_B (W : World I K R J) {k : Kind} (hI : 0 < I) (hk : ∀ i, Kind.Convex (J i) k) : W.kindB k = some (StdPen.toB fun i => kindStd W (J i) R k) := by
  have hu : ∀ i, (W.matUpdate (J i) R k).isSome := fun i => by rw [kindStd_mat W (hk i)]; rfl
  have e1 : W.kindB k = some (.ofMat (fun i => (W.matUpdate (J i) R k).get (hu i)) fun X => k.valueList X) := by
    cases k with
    | parafac2 => exact (hk ⟨0, hI⟩).elim
    | _ => simp only [World.kindB]; rw [dif_pos hu]
  rw [e1]
  unfold StdPen.toB
  congr 2
  · funext i
    simp only [kindStd_mat W (hk i), Option.get_some]
  · funext X
    rw [valueList_sum]
    exact sum_congr rfl fun i _ => (kindStd_value W (hk i) (X i)).symm

theorem solved_B (W : World I K R J) (hW : GoodWorld W) (c : Call I K R J) (h : Heap String) (hregs : c.regs = none) {f : Fin 3 → ModeArgs} (hf : AllForms c.args f)
    {l2 : Fin 3 → Leaf} (hl2 : Forms c.l2 l2) (hc : ∀ i, AsksConvex (f 1) (J i)) (hA : c.updA = false) (hB : c.updB = true) (hC : c.updC = false) (hN : 0 < c.nInner)
    (hl : 0 ≤ (l2 1).real) (hI : 0 < I) (hJ : ∀ i, 0 < J i) (hR : 0 < R) {start : Start I K R J} (hstart : initializeCmf W.init c.init = .ok start)
    (hw : ∀ i, 0 < weightB c.scale start.F i) (hsol : SolvableB start.F (l2 1).real) (hin : ∃ x0, InsideRag {Z | ∀ i, Z i ∈ Requested (f 1) (J i) R} x0)
    (h' : ℕ → Heap String) (res : ℕ → Result I K R J) (e : ∀ n : ℕ, call W { c with loop := plain n } h = (h' n, .ok (res n))) :
    ∃ (l₀ l₁ l₂ : List (Pen String)) (S : Setup W c (dropRegs c.updA l₀) (dropRegs c.updB l₁) (dropRegs c.updC l₂)) (outs : ℕ → _) (xs : Ragged I R J),
      (∀ n : ℕ, cmfAoadmm (S.problem ((l2 0).real, (l2 1).real, (l2 2).real)) (plain n) (S.state start) = .ok (outs n)) ∧ (∀ n, res n = ⟨_, _, _, outs n⟩) ∧
      (∀ (a : Args) (h'' : Heap String) (r : Result I K R J), call W { c with loop := a } h = (h'', .ok r) →
        ∃ out, cmfAoadmm (S.problem ((l2 0).real, (l2 1).real, (l2 2).real)) a (S.state start) = .ok out ∧ r = ⟨_, _, _, out⟩) ∧
      OnlyMin {Z : Ragged I R J | ∀ i, Z i ∈ Requested (f 1) (J i) R}
        (fun Z => 1 / 2 * sse c.X ⟨start.F.A, Z, start.F.C⟩ + (l2 1).real / 2 * ∑ i, sqNorm (Z i) + ∑ i, modeTerm (f 1) (Z i)) xs ∧
      (∀ i j r, Tendsto (fun n => (outs n).st.F.B i j r) atTop (nhds (xs i j r))) ∧
      (∀ p i j r, Tendsto (fun n => ((outs n).st.auxB p).toMats i j r) atTop (nhds (xs i j r))) ∧
      ∀ p, Continuous ((S.problem ((l2 0).real, (l2 1).real, (l2 2).real)).pensB p).value := by
  obtain ⟨l₀, l₁, l₂, -, hp, -, S, outs, ho, hr, gen⟩ := call_runs hregs hf hl2 hstart e
  obtain ⟨x0, hx0⟩ := hin
  have hne : ∀ i, (Requested (f 1) (J i) R).Nonempty := fun i => ⟨x0 i, by obtain ⟨ε, hε, hin⟩ := hx0; exact hin x0 (fun _ => by simp [hε]) i⟩
  have hd : dropRegs c.updB l₁ = l₁ := by rw [hB]; rfl
  rw [← hd] at hp
  have hpp := fun i => parsed_problem hW (hc i) (hJ i) hR (hne i) hp
  have hpens : ∀ p, (S.problem ((l2 0).real, (l2 1).real, (l2 2).real)).pensB p = StdPen.toB fun i => penStd W (J i) R ((dropRegs c.updB l₁).get p) := by
    intro p
    obtain ⟨k, x, y, z, ek, -⟩ := ((hpp ⟨0, hI⟩).1 p).2
    have hk : ∀ i, Kind.Convex (J i) k := fun i => by
      obtain ⟨k', x', y', z', ek', hk'⟩ := ((hpp i).1 p).2
      rw [ek] at ek'
      cases ek'
      exact hk'
    have := S.pensB_ok p
    rw [ek] at this ⊢
    simp only [World.penB, kindStd_B W hI hk] at this
    exact (Except.ok.inj this).symm
  obtain ⟨xs, hmin, hlim, haux⟩ := solve_B (S.problem ((l2 0).real, (l2 1).real, (l2 2).real)) (hW.svd R) hN hA hB hC hl (S.state start) hw hsol
    (fun p i => penStd W (J i) R ((dropRegs c.updB l₁).get p)) (fun p i => ((hpp i).1 p).1) hpens (S := {Z : Ragged I R J | ∀ i, Z i ∈ Requested (f 1) (J i) R}) (t := fun Z => ∑ i, modeTerm (f 1) (Z i))
    (fun y => ⟨fun hy i => ((hpp i).2.1 (y i)).1 fun p => hy p i, fun hy p i => ((hpp i).2.1 (y i)).2 (hy i) p⟩)
    (fun y => by rw [sum_comm]; exact sum_congr rfl fun i _ => (hpp i).2.2 (y i)) x0 hx0 outs ho
  refine ⟨l₀, l₁, l₂, S, outs, xs, ho, hr, gen, hmin, hlim, haux, fun p => ?_⟩
  rw [hpens p]
  show Continuous fun Z : Ragged I R J => ∑ i, (penStd W (J i) R ((dropRegs c.updB l₁).get p)).value (Z i)
  simp only [fun i => StdPen.value_eq _ ((hpp i).1 p).1]
  exact continuous_finsetSum _ fun i _ => (StdPen.continuous_fn _).comp (continuous_apply i)

/-- C82, mode 1: only the B-matrices are updated. -/
theorem C82_B (W : World I K R J) (hW : GoodWorld W) (c : Call I K R J) (h : Heap String) (hregs : c.regs = none) {f : Fin 3 → ModeArgs} (hf : AllForms c.args f)
    {l2 : Fin 3 → Leaf} (hl2 : Forms c.l2 l2) (hc : ∀ i, AsksConvex (f 1) (J i)) (hA : c.updA = false) (hB : c.updB = true) (hC : c.updC = false) (hN : 0 < c.nInner)
    (hl : 0 ≤ (l2 1).real) (hI : 0 < I) (hJ : ∀ i, 0 < J i) (hR : 0 < R) {start : Start I K R J} (hstart : initializeCmf W.init c.init = .ok start)
    (hw : ∀ i, 0 < weightB c.scale start.F i) (hsol : SolvableB start.F (l2 1).real) (hin : ∃ x0, InsideRag {Z | ∀ i, Z i ∈ Requested (f 1) (J i) R} x0)
    (h' : ℕ → Heap String) (res : ℕ → Result I K R J) (e : ∀ n : ℕ, call W { c with loop := plain n } h = (h' n, .ok (res n))) :
    ∃ xs : Ragged I R J, OnlyMin {Z : Ragged I R J | ∀ i, Z i ∈ Requested (f 1) (J i) R}
        (fun Z => 1 / 2 * sse c.X ⟨start.F.A, Z, start.F.C⟩ + (l2 1).real / 2 * ∑ i, sqNorm (Z i) + ∑ i, modeTerm (f 1) (Z i)) xs ∧
      ∀ i j r, Tendsto (fun n => (res n).out.st.F.B i j r) atTop (nhds (xs i j r)) := by
  obtain ⟨l₀, l₁, l₂, S, outs, xs, -, hr, -, hmin, hlim, -⟩ := solved_B W hW c h hregs hf hl2 hc hA hB hC hN hl hI hJ hR hstart hw hsol hin h' res e
  refine ⟨xs, hmin, fun i j r => ?_⟩
  have : (fun n => (res n).out.st.F.B i j r) = fun n => (outs n).st.F.B i j r := by
    funext n
    rw [hr n]
  rw [this]
  exact hlim i j r

/-! ### A world and a call that meet the hypotheses -/

theorem exists_tv_row (m : ℕ) (y : Fin m → ℝ) (lam : ℝ) : ∃ x : Fin m → ℝ, 0 < lam → ∀ z : Fin m → ℝ,
    ∑ i, (x i - y i) ^ 2 + lam * ∑ i : Fin (m - 1), |x ⟨i + 1, by omega⟩ - x ⟨i, by omega⟩|
      ≤ ∑ i, (z i - y i) ^ 2 + lam * ∑ i : Fin (m - 1), |z ⟨i + 1, by omega⟩ - z ⟨i, by omega⟩| := by
  by_cases hl : 0 < lam
  · set g : (Fin m → ℝ) → ℝ := fun z => ∑ i, (z i - y i) ^ 2 + lam * ∑ i : Fin (m - 1), |z ⟨i + 1, by omega⟩ - z ⟨i, by omega⟩| with hg
    have hcont : Continuous g := by
      refine Continuous.add (continuous_finsetSum _ fun i _ => ((continuous_apply i).sub continuous_const).pow 2) (continuous_const.mul (continuous_finsetSum _ fun i _ => ?_))
      exact Continuous.abs (Continuous.sub (continuous_apply (⟨i + 1, by omega⟩ : Fin m)) (continuous_apply (⟨i, by omega⟩ : Fin m)))
    have hy0 : 0 ≤ g y := by
      simp only [hg]
      positivity
    obtain ⟨x, hx⟩ := hcont.exists_forall_le' y (by
      rw [Filter.hasBasis_cocompact.eventually_iff]
      refine ⟨Set.pi Set.univ fun i => Set.Icc (y i - (g y + 1)) (y i + (g y + 1)), isCompact_univ_pi fun i => isCompact_Icc, fun z hz => ?_⟩
      by_contra hlt
      refine hz fun i _ => ?_
      have h1 : (z i - y i) ^ 2 ≤ g z := by
        have e1 : (z i - y i) ^ 2 ≤ ∑ i, (z i - y i) ^ 2 := single_le_sum (f := fun i => (z i - y i) ^ 2) (fun i _ => sq_nonneg _) (mem_univ i)
        have e2 : 0 ≤ lam * ∑ i : Fin (m - 1), |z ⟨i + 1, by omega⟩ - z ⟨i, by omega⟩| := by positivity
        simp only [hg]
        linarith
      have h2 : (z i - y i) ^ 2 < (g y + 1) ^ 2 := by nlinarith
      have h3 := abs_lt_of_sq_lt_sq h2 (by linarith)
      rw [abs_lt] at h3
      exact ⟨by linarith, by linarith⟩)
    exact ⟨x, fun _ z => hx z⟩
  · exact ⟨y, fun h => absurd h hl⟩

/-- A correct solver exists for all sizes. -/
theorem exists_tv (m n : ℕ) : ∃ solver : Matrix (Fin n) (Fin m) ℝ → ℝ → Matrix (Fin n) (Fin m) ℝ, SolvesTV solver := by
  choose x hx using exists_tv_row m
  exact ⟨fun Y lam r => x (Y r) lam, fun Y lam hl r z => hx (Y r) lam hl z⟩

/-- `exWorld` with a correct total variation solver. -/
noncomputable def exWorldTV : World 1 1 1 (fun _ => 1) := { exWorld with hasTV := true, tv := fun m n => (exists_tv m n).choose }

theorem exWorldTV_good : GoodWorld exWorldTV := ⟨fun n M => (exists_svd_fun n).choose_spec M, fun m n => (exists_tv m n).choose_spec⟩

/-- `cmf_aoadmm([[[3]]], 1, init=..., non_negative={2: True}, l1_penalty={2: 1}, update_A=False, update_B=False, inner_n_iter_max=2, n_iter_max=n, ...)`. -/
noncomputable def exCall3 : Call 1 1 1 (fun _ => 1) where
  X := scX 3
  init := .given ⟨none, scF 1 1 7⟩
  l2 := .one .none
  args := { noArgs with nonNeg := .dict fun i => if i = 2 then some (.bool true) else none, l1 := .dict fun i => if i = 2 then some (.num 1) else none }
  regs := none
  scale := 1
  constFeas := .truth false
  auxInit := "random_uniform"
  dualInit := "random_uniform"
  svd := "truncated_svd"
  innerTol := none
  nInner := 2
  updA := false
  updB := false
  updC := true
  loop := plain 0

def exModes3 : Fin 3 → ModeArgs := ![noMode, noMode, { noMode with nonNeg := .bool true, l1 := .num 1 }]

theorem exForms3 : AllForms exCall3.args exModes3 := by
  have hone : ∀ g : ModeArgs → Leaf, (∀ m, g (exModes3 m) = .none) → Forms (.one .none) fun m => g (exModes3 m) := by
    intro g hg
    rw [show (fun m => g (exModes3 m)) = fun _ => Leaf.none from funext hg]
    exact .one _
  refine ⟨.dict _ _ (fun i l e => ?_) (fun i e => ?_), hone (·.lower) ?_, hone (·.upper) ?_, hone (·.normBound) ?_, hone (·.unimodal) ?_, ?_, .dict _ _ (fun i l e => ?_) (fun i e => ?_),
    hone (·.tv) ?_, hone (·.genL2) ?_⟩
  · fin_cases i <;> simp at e
    simpa [exModes3] using e
  · fin_cases i <;> simp at e <;> rfl
  any_goals intro m; fin_cases m <;> rfl
  · fin_cases i <;> simp at e
    simpa [exModes3] using e
  · fin_cases i <;> simp at e <;> rfl

theorem exScalar3 : ∀ m, Scalar (exModes3 m) := by
  intro m
  fin_cases m
  · exact noMode_scalar
  · exact noMode_scalar
  · exact { noMode_scalar with nonNeg := .inr ⟨true, rfl⟩, l1 := .inr (.inr ⟨1, rfl⟩) }

theorem exReturns3 (n : ℕ) (h : Heap String) : ∃ h' res, call exWorldTV { exCall3 with loop := plain n } h = (h', .ok res) := by
  refine C67 exWorldTV { exCall3 with loop := plain n } h one_pos rfl (by rfl) (by intro e; cases e) (.inl rfl) (.inl rfl) (fun _ => .none) (.one _) exModes3 exForms3
    (fun m => ⟨exScalar3 m, ?_, ?_, ?_, ?_, ?_⟩) ?_ ?_ ?_ (.inr (.inl rfl)) ?_ ?_
  all_goals first | (fin_cases m <;> simp [exModes3, noMode, Leaf.real]) | simp [exModes3, noMode, MatrixWise, Leaf.real, plain, truthy, exCall3]

/-- C82 at work: minimise `(3 - c)² / 2 + |c|` over `c ≥ 0`. The returned C tends to 2. -/
example : ∃ (h' : ℕ → Heap String) (res : ℕ → Result 1 1 1 fun _ => 1), (∀ n : ℕ, call exWorldTV { exCall3 with loop := plain n } [] = (h' n, .ok (res n))) ∧
    Tendsto (fun n => (res n).out.st.F.C 0 0) atTop (nhds 2) := by
  choose h' res e using fun n => exReturns3 n []
  refine ⟨h', res, e, ?_⟩
  obtain ⟨xs, h1, h2⟩ := C82_C exWorldTV exWorldTV_good exCall3 [] rfl exForms3 (l2 := fun _ => .none) (.one _)
    ⟨exScalar3 2, by simp [exModes3, noMode], rfl, by simp [exModes3, noMode], by simp [exModes3, noMode]⟩ rfl rfl rfl two_pos le_rfl one_pos one_pos rfl
    (by simp [weightC, exCall3, scF, sc]) (fun v hv => by
      have : v 0 ≠ 0 := fun h0 => hv (funext fun i => by fin_cases i; exact h0)
      simp [scF, sc, Leaf.real]
      positivity)
    ⟨sc 1, 1, one_pos, fun Y hY => ⟨fun _ i r => by
      have := abs_lt.1 (hY i r)
      simp only [sc] at this
      linarith [this.1], by simp [exModes3, noMode], by simp [exModes3, noMode], by simp [exModes3, noMode], by simp [exModes3, noMode]⟩⟩ h' res e
  have h3 : sc 2 = xs := (h1 _).1 (by
    refine ⟨⟨fun _ i r => by simp [sc], by simp [exModes3, noMode], by simp [exModes3, noMode], by simp [exModes3, noMode], by simp [exModes3, noMode]⟩, fun z hz => ?_⟩
    have hz0 : 0 ≤ z 0 0 := hz.1 rfl 0 0
    have hzs : z = sc (z 0 0) := by ext i r; fin_cases i; fin_cases r; rfl
    rw [hzs]
    have hs : ∀ x : ℝ, sse exCall3.X (⟨(scF 1 1 7).A, (scF 1 1 7).B, sc x⟩ : Factors 1 1 1 fun _ => 1) = (3 - x) ^ 2 := fun x => by
      refine (sse_sc 3 1 1 x).trans ?_
      norm_num
    have hm : ∀ x : ℝ, modeTerm (exModes3 2) (sc x) = |x| := fun x => by simp [modeTerm, exModes3, noMode, Leaf.real, absSum, sc, totalVar, genTerm]
    simp only [hs, hm, Leaf.real]
    rw [abs_of_nonneg hz0, abs_of_nonneg (by norm_num : (0 : ℝ) ≤ 2)]
    nlinarith [sq_nonneg (z 0 0 - 2)])
  have := h2 0 0
  rwa [← h3] at this

end Verif.Props
