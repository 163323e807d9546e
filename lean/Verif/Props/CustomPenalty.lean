import Verif.Examples.CustomPenalty
import Verif.Props.LoopFeasible
import Verif.Props.Kit

/-!
# C116: the custom penalty of the documentation
-/

set_option linter.unusedSectionVars false

namespace Verif.Props

open Verif.Loop Verif.ADMM Verif.Penalties Verif.Spec Verif.Unimodal Verif.Examples Verif.Kit Finset

variable {I K R nA nB nC m n : ℕ} {J : Fin I → ℕ}

/-- What the example promises: all columns but the last are unimodal, and everything is non-negative if requested. -/
def AllButLast (nn : Bool) (m n : ℕ) : Set (Matrix (Fin m) (Fin n) ℝ) :=
  {Z | (∀ r : Fin n, r.val + 1 < n → IsUnimodal fun i => Z i r) ∧ (nn = true → ∀ i r, 0 ≤ Z i r)}

/-- All columns but the last from `U`, the last one from `c`. -/
def withLast {k : ℕ} (U : Matrix (Fin m) (Fin k) ℝ) (c : Fin m → ℝ) : Matrix (Fin m) (Fin (k + 1)) ℝ :=
  fun i r => Fin.lastCases (motive := fun _ => ℝ) (c i) (fun j => U i j) r

@[simp] theorem withLast_last {k : ℕ} (U : Matrix (Fin m) (Fin k) ℝ) (c : Fin m → ℝ) (i : Fin m) : withLast U c i (Fin.last k) = c i := by
  simp [withLast]

@[simp] theorem withLast_castSucc {k : ℕ} (U : Matrix (Fin m) (Fin k) ℝ) (c : Fin m → ℝ) (i : Fin m) (j : Fin k) : withLast U c i j.castSucc = U i j := by
  simp [withLast]

/-- All columns but the last. -/
def butLast {k : ℕ} (X : Matrix (Fin m) (Fin (k + 1)) ℝ) : Matrix (Fin m) (Fin k) ℝ := Matrix.of fun i c => X i c.castSucc

@[simp] theorem butLast_withLast {k : ℕ} (U : Matrix (Fin m) (Fin k) ℝ) (c : Fin m → ℝ) : butLast (withLast U c) = U := by
  ext i j
  simp [butLast]

theorem exceptLast_eq (nn : Bool) {k : ℕ} (hm : 0 < m) (hk : 0 < k) (X : Matrix (Fin m) (Fin (k + 1)) ℝ) :
    exceptLast nn m (k + 1) X = .ok (withLast (unimodalMat nn m k (butLast X) 0 0) fun i => if nn then max (X i (Fin.last k)) 0 else X i (Fin.last k)) := by
  obtain ⟨u, h1, -, -, h2, -⟩ := C03_matrix_columns hm hk (Equiv.refl (Fin k)) (butLast X) nn
  have e : unimodalMat nn m k (butLast X) 0 0 = Matrix.of u := by
    unfold unimodalMat
    rw [h1]
    rfl
  rw [e]
  have h1' : unimodalRegressionN id (Equiv.refl (Fin (k + 1 - 1))) (fun i r => X i ⟨r, by omega⟩) nn = .ok fun j i => some (u j i) := h1
  unfold exceptLast
  rw [h1']
  simp only [bind, Except.bind, pure, Except.pure]
  congr 1
  funext i r
  refine Fin.lastCases ?_ (fun c => ?_) r
  · cases nn <;> simp
  · cases nn with
    | false => simp
    | true =>
      have : 0 ≤ u i c := (h2 c).2 rfl i
      simp [this]

theorem frobSq_lastCases {k : ℕ} (X Z : Matrix (Fin m) (Fin (k + 1)) ℝ) :
    frobSq Z X = frobSq (butLast Z) (butLast X) + ∑ i, (Z i (Fin.last k) - X i (Fin.last k)) ^ 2 := by
  simp only [frobSq, Fin.sum_univ_castSucc, sum_add_distrib, butLast, Matrix.of_apply]

/-- C116: with at least two columns the update of the documented penalty is a nearest matrix whose columns but the last are unimodal (and which is
non-negative if requested); the last column is kept, or clipped. -/
theorem C116_partial (nn : Bool) (hm : 0 < m) (hn : 2 ≤ n) (X : Matrix (Fin m) (Fin n) ℝ) :
    ∃ Z, exceptLast nn m n X = .ok Z ∧ Z ∈ AllButLast nn m n ∧ (∀ V ∈ AllButLast nn m n, frobSq Z X ≤ frobSq V X) ∧
      ∀ i (r : Fin n), r.val + 1 = n → Z i r = if nn then max (X i r) 0 else X i r := by
  obtain ⟨k, rfl⟩ : ∃ k, n = k + 1 := ⟨n - 1, by omega⟩
  have hk : 0 < k := by omega
  obtain ⟨hmem, hmin⟩ := unimodalMat_nearest nn hm hk 0 (butLast X) 0
  refine ⟨_, exceptLast_eq nn hm hk X, ⟨fun r hr => ?_, ?_⟩, fun V hV => ?_, fun i r hr => ?_⟩
  · revert hr
    refine Fin.lastCases (fun h => ?_) (fun c _ => ?_) r
    · simp at h
    · simpa using (hmem c).1
  · rintro rfl i r
    refine Fin.lastCases ?_ (fun c => ?_) r
    · simp
    · simpa using (hmem c).2 rfl i
  · rw [frobSq_lastCases, frobSq_lastCases]
    refine add_le_add ?_ (sum_le_sum fun i _ => ?_)
    · rw [butLast_withLast]
      exact hmin _ fun c => ⟨hV.1 c.castSucc (by simp), fun h i => hV.2 h i _⟩
    · simp only [withLast_last]
      cases nn with
      | false =>
        simp only [Bool.false_eq_true, if_false, sub_self]
        nlinarith [sq_nonneg (V i (Fin.last k) - X i (Fin.last k))]
      | true =>
        simp only [if_true]
        have := hV.2 rfl i (Fin.last k)
        rcases le_total 0 (X i (Fin.last k)) with h | h
        · rw [max_eq_left h, sub_self]
          nlinarith [sq_nonneg (V i (Fin.last k) - X i (Fin.last k))]
        · rw [max_eq_right h]
          nlinarith
  · obtain rfl : r = Fin.last k := Fin.ext (by simpa using hr)
    simp

/-- C116: the update keeps a matrix exactly if it satisfies the constraint. -/
theorem C116_fixed (nn : Bool) (hm : 0 < m) (hn : 2 ≤ n) (X : Matrix (Fin m) (Fin n) ℝ) : exceptLast nn m n X = .ok X ↔ X ∈ AllButLast nn m n := by
  obtain ⟨Z, h1, h2, h3, -⟩ := C116_partial nn hm hn X
  rw [h1]
  constructor
  · intro h
    rw [← Except.ok.inj h]
    exact h2
  · intro h
    have := h3 X h
    rw [frobSq_eq_zero.2 (rfl : X = X)] at this
    rw [frobSq_eq_zero.1 (le_antisymm this (frobSq_nonneg _ _))]

/-- C116 fails with a single component: there the constraint allows every (non-negative) matrix, but the update always raises ValueError, since
`unimodal_regression` gets a matrix without columns. -/
theorem C116_false (nn : Bool) (X : Matrix (Fin m) (Fin 1) ℝ) : exceptLast nn m 1 X = .error .valueError := by
  unfold exceptLast unimodalRegressionN
  rw [if_pos (.inr rfl)]
  rfl

/-- The matrix of `C116_false` can satisfy the constraint. -/
example : (fun _ _ => 1 : Matrix (Fin 3) (Fin 1) ℝ) ∈ AllButLast true 3 1 := ⟨fun r hr => absurd hr (by omega), fun _ _ _ => zero_le_one⟩

theorem exceptLastMat_mem (nn : Bool) (hm : 0 < m) (hn : 2 ≤ n) (X : Matrix (Fin m) (Fin n) ℝ) (ρ : ℝ) (aux) : exceptLastMat nn m n X ρ aux ∈ AllButLast nn m n := by
  obtain ⟨Z, h1, h2, -⟩ := C116_partial nn hm hn X
  unfold exceptLastMat
  rw [h1]
  exact h2

theorem exceptLast_intoB (nn : Bool) (hJ : ∀ i, 0 < J i) (hR : 2 ≤ R) :
    (exceptLastB nn : PenB I R J).Into (fun _ => True) {Z | ∀ i, Z i ∈ AllButLast nn (J i) R} :=
  fun Y ρ aux _ => ⟨trivial, fun i => exceptLastMat_mem nn (hJ i) hR (Y i) (ρ i) (aux.toMats i)⟩

/-- C116 for a fit: with the documented penalty as one of the penalties on mode 1, next to any others, a call that does at least one outer and one inner iteration
returns auxiliary matrices that satisfy the constraint exactly. -/
theorem C116_fit (P : Problem I K R nA nB nC J) (hN : 0 < P.params.nInner) (hB : P.updB = true) (nn : Bool) (hJ : ∀ i, 0 < J i) (hR : 2 ≤ R) (p : Fin nB)
    (hp : P.pensB p = exceptLastB nn) (a : Args) (hn : 0 < a.nIterMax) (init : AOState I K R nA nB nC J) (out : Output (AOState I K R nA nB nC J))
    (h : cmfAoadmm P a init = .ok out) (i : Fin I) : (out.st.auxB p).toMats i ∈ AllButLast nn (J i) R := by
  obtain ⟨l, hl, -, hlen⟩ := fit_hist h
  obtain ⟨s, t, hsw⟩ : ∃ s t, sweep P s = .ok (out.st, t) := by
    generalize out.st = x at hl
    cases hl with
    | zero => have := hlen hn; simp at this
    | @snoc l s s' i hl hsw => exact ⟨s, i, hsw⟩
  obtain ⟨u, h1, h2⟩ := sweep_ok hsw
  have hu : (u.auxB p).toMats ∈ {Z : Ragged I R J | ∀ i, Z i ∈ AllButLast nn (J i) R} := by
    unfold sweepB at h1
    rw [if_pos hB] at h1
    cases hw : admmUpdateB P.params P.X P.pensB P.l2.2.1 P.constB s.F s.auxB s.dualB with
    | error e => rw [hw] at h1; cases h1
    | ok w =>
      rw [hw] at h1
      cases h1
      have := (updateB_into (Q := fun _ _ => True) (S := fun q => if q = p then {Z | ∀ i, Z i ∈ AllButLast nn (J i) R} else Set.univ) hw (fun q => ?_) fun _ => trivial).2 hN p
      · rwa [if_pos rfl] at this
      · by_cases hq : q = p
        · rw [if_pos hq, hq, hp]
          exact exceptLast_intoB nn hJ hR
        · rw [if_neg hq]
          exact fun _ _ _ _ => ⟨trivial, trivial⟩
  have hv : (sweepC P u).auxB = u.auxB := by
    unfold sweepC
    split <;> rfl
  have ht : out.st.auxB = (sweepC P u).auxB := by
    unfold sweepA at h2
    split at h2
    · cases hw : admmUpdateA P.params P.X P.pensA P.l2.1 P.constA (sweepC P u).F (sweepC P u).auxA (sweepC P u).dualA with
      | error e => rw [hw] at h2; cases h2
      | ok w =>
        rw [hw] at h2
        exact (congrArg (fun x => x.1.auxB) (Except.ok.inj h2)).symm
    · exact (congrArg (fun x => x.1.auxB) (Except.ok.inj h2)).symm
  rw [ht, hv]
  exact hu i

/-- `TestUnimodalAllExceptLast.get_non_invariant_matrix` (`examples/plot_custom_penalty.py` lines 348-352): uniform entries, with the second row set to -1 except in the
last column. -/
def exceptNon (X : Mat n) : Prop := ∀ i (r : Fin n), if i.val = 1 ∧ r.val + 1 < n then X.val i r = -1 else 0 ≤ X.val i r ∧ X.val i r < 1

/-- C116: the generated unit tests of the example pass for every draw of its generators, which never draw fewer than three rows or two columns; so they do not
show the failure of `C116_false`. -/
theorem C116_tests : UpdateTestsPass (n := n) { minRows := 3, minColumns := 2 } (testedHard fun m X _ => exceptLast false m n X)
    (fun X => ∀ r : Fin n, r.val + 1 < n → IsUnimodal fun i => X.val i r) exceptNon fun _ => True := by
  refine testedHard_passes _ _ _ _ _ ?_ ?_ ?_
  · rintro X ⟨⟨h1, -⟩, h2, -⟩ hX
    have h1 : 3 ≤ X.rows := h1
    refine ⟨_, (C116_fixed false (by omega) h2 X.val).2 ⟨hX, fun h => by cases h⟩, ?_⟩
    exact assertClose_self _ (by norm_num) (by norm_num) X
  · rintro X ⟨⟨h1, -⟩, h2, -⟩ hX
    have h1 : 3 ≤ X.rows := h1
    have h2 : 2 ≤ n := h2
    obtain ⟨Z, hZ, hu, -⟩ := C116_partial false (by omega) h2 X.val
    refine ⟨Z, hZ, rfl, fun hc => ?_⟩
    have near : ∀ i : Fin X.rows, |X.val i ⟨0, by omega⟩| ≤ 1 → |Z i ⟨0, by omega⟩ - X.val i ⟨0, by omega⟩| ≤ 1 / 10 := by
      intro i hi
      have := hc i ⟨0, by omega⟩
      simp only [Fin.cast_eq_self] at this
      refine this.trans ?_
      have : (1 / 10 ^ 6 * |X.val i ⟨0, by omega⟩| : ℝ) ≤ 1 / 10 ^ 6 * 1 := by gcongr
      norm_num at this ⊢
      linarith
    have f0 : 0 ≤ X.val ⟨0, by omega⟩ ⟨0, by omega⟩ ∧ X.val ⟨0, by omega⟩ ⟨0, by omega⟩ < 1 := by simpa using hX ⟨0, by omega⟩ ⟨0, by omega⟩
    have f1 : X.val ⟨1, by omega⟩ ⟨0, by omega⟩ = -1 := by
      have := hX ⟨1, by omega⟩ ⟨0, by omega⟩
      rwa [if_pos ⟨rfl, by simp only; omega⟩] at this
    have f2 : 0 ≤ X.val ⟨2, by omega⟩ ⟨0, by omega⟩ ∧ X.val ⟨2, by omega⟩ ⟨0, by omega⟩ < 1 := by simpa using hX ⟨2, by omega⟩ ⟨0, by omega⟩
    have g0 := abs_le.1 (near ⟨0, by omega⟩ (abs_le.2 ⟨by linarith, by linarith⟩))
    have g1 := abs_le.1 (near ⟨1, by omega⟩ (by rw [f1]; norm_num))
    have g2 := abs_le.1 (near ⟨2, by omega⟩ (abs_le.2 ⟨by linarith, by linarith⟩))
    obtain ⟨t, ht1, ht2⟩ := hu.1 ⟨0, by omega⟩ (by simp only; omega)
    rcases le_or_gt 1 t.val with h | h
    · have := ht1 ⟨0, by omega⟩ ⟨1, by omega⟩ (Fin.mk_le_mk.2 (by omega)) (Fin.le_def.2 h)
      simp only at this
      linarith
    · have := ht2 ⟨1, by omega⟩ ⟨2, by omega⟩ (Fin.le_def.2 h.le) (Fin.mk_le_mk.2 (by omega))
      simp only at this
      linarith
  · rintro X ⟨⟨h1, -⟩, h2, -⟩ -
    have h1 : 3 ≤ X.rows := h1
    obtain ⟨Z, hZ, -⟩ := C116_partial false (by omega) h2 X.val
    exact ⟨Z, hZ⟩

/-- The generators have draws. -/
example : Cfg.Draws (n := 2) { minRows := 3, minColumns := 2 } ⟨3, fun i r => if i.val = 1 ∧ r.val = 0 then -1 else 0⟩ ∧
    exceptNon (n := 2) ⟨3, fun i r => if i.val = 1 ∧ r.val = 0 then -1 else 0⟩ := by
  refine ⟨⟨⟨le_rfl, by norm_num⟩, le_rfl, by norm_num⟩, fun i r => ?_⟩
  by_cases h : i.val = 1 ∧ r.val = 0
  · rw [if_pos (by omega)]
    exact if_pos h
  · rw [if_neg (by omega)]
    have e : (if i.val = 1 ∧ r.val = 0 then -1 else 0 : ℝ) = 0 := if_neg h
    exact ⟨e.ge, e.trans_lt zero_lt_one⟩

end Verif.Props
