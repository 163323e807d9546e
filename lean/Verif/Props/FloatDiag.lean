import Verif.FloatFit.Full
import Verif.Props.FloatFit

/-!
# C103, C104: the diagnostics in floating-point arithmetic
-/

set_option linter.unusedSectionVars false

namespace Verif.Props

open Verif.FloatFit Verif.Raise Verif.Spec Verif.Unimodal

/-- NaN propagates: a result computed from NaN is NaN. -/
structure NaNLib {K : Type} [Add K] [Sub K] [Mul K] [Div K] [Pow K ℕ] [LE K] (lib : Lib K) : Prop where
  add_left : ∀ {x : K} (y : K), IsNaN x → IsNaN (x + y)
  add_right : ∀ (x : K) {y : K}, IsNaN y → IsNaN (x + y)
  sub_left : ∀ {x : K} (y : K), IsNaN x → IsNaN (x - y)
  sub_right : ∀ (x : K) {y : K}, IsNaN y → IsNaN (x - y)
  mul_left : ∀ {x : K} (y : K), IsNaN x → IsNaN (x * y)
  mul_right : ∀ (x : K) {y : K}, IsNaN y → IsNaN (x * y)
  div_right : ∀ (x : K) {y : K}, IsNaN y → IsNaN (x / y)
  sq : ∀ {x : K}, IsNaN x → IsNaN (x ^ 2)
  abs : ∀ {x : K}, IsNaN x → IsNaN (lib.abs x)
  sqrt : ∀ {x : K}, IsNaN x → IsNaN (lib.sqrt x)
  sumV : ∀ {n : ℕ} {v : Fin n → K} {i : Fin n}, IsNaN (v i) → IsNaN (lib.sumV n v)
  sumM : ∀ {m n : ℕ} {X : Mat K m n} {i : Fin m} {j : Fin n}, IsNaN (X i j) → IsNaN (lib.sumM m n X)
  norm : ∀ {m n : ℕ} {X : Mat K m n} {i : Fin m} {j : Fin n}, IsNaN (X i j) → IsNaN (lib.norm m n X)
  dot_left : ∀ {m k n : ℕ} {X : Mat K m k} (Y : Mat K k n) {i : Fin m} {l : Fin k} (j : Fin n), IsNaN (X i l) → IsNaN (lib.dot m k n X Y i j)
  dot_right : ∀ {m k n : ℕ} (X : Mat K m k) {Y : Mat K k n} (i : Fin m) {l : Fin k} {j : Fin n}, IsNaN (Y l j) → IsNaN (lib.dot m k n X Y i j)

/-- An entry of a factor is NaN. -/
def HasNaN {K : Type} [LE K] {I L R : ℕ} {J : Fin I → ℕ} (F : FFact K I L R J) : Prop :=
  (∃ i r, IsNaN (F.A i r)) ∨ (∃ i j r, IsNaN (F.B i j r)) ∨ ∃ l r, IsNaN (F.C l r)

section
variable {K : Type} [Zero K] [One K] [Add K] [Sub K] [Mul K] [Div K] [Pow K ℕ] [LE K] [LT K] [DecidableLE K] [DecidableLT K] [FloatOrder K]
variable {α : Type} {I L R nA nB nC : ℕ} {J : Fin I → ℕ} {lib : Lib K}

theorem foldl_add_nan (hl : ∀ {x : K} (y : K), IsNaN x → IsNaN (x + y)) (hr : ∀ (x : K) {y : K}, IsNaN y → IsNaN (x + y)) :
    ∀ (l : List K) (a : K), (IsNaN a ∨ ∃ x ∈ l, IsNaN x) → IsNaN (l.foldl (· + ·) a)
  | [], a, h => by
    rcases h with h | ⟨x, hx, -⟩
    · exact h
    · cases hx
  | y :: l, a, h => by
    refine foldl_add_nan hl hr l (a + y) ?_
    rcases h with h | ⟨x, hx, h⟩
    · exact .inl (hl y h)
    · rcases List.mem_cons.1 hx with rfl | hx
      · exact .inl (hr a h)
      · exact .inr ⟨x, hx, h⟩

theorem pySum_nan (hl : NaNLib lib) {n : ℕ} {f : Fin n → K} {i : Fin n} (h : IsNaN (f i)) : IsNaN (pySum f) :=
  foldl_add_nan hl.add_left hl.add_right _ _ (.inr ⟨f i, List.mem_ofFn.2 ⟨i, rfl⟩, h⟩)

theorem rootSumSqF_nan (hl : NaNLib lib) {X : Rag K I R J} {i : Fin I} {j : Fin (J i)} {r : Fin R} (h : IsNaN (X i j r)) : IsNaN (rootSumSqF lib X) :=
  hl.sqrt (pySum_nan hl (i := i) (hl.sumM (i := j) (j := r) (hl.sq h)))

/-- If a factor contains NaN, so does the squared error. -/
theorem sqErrorF_nan (hl : NaNLib lib) (hI : 0 < I) (hJ : ∀ i, 0 < J i) (X : Rag K I L J) (F : FFact K I L R J) (normX : K) (inter : Option (FFact K I L R J))
    (hi : ∀ G ∈ inter, G.B = F.B ∧ G.C = F.C) (h : HasNaN F) : IsNaN (sqErrorF lib X F normX inter) := by
  unfold sqErrorF
  refine hl.add_right _ ?_
  have hA : ∀ i r, IsNaN (F.A i r) → IsNaN (weightedAF F i r) := fun i r h => by
    unfold weightedAF
    cases F.weights with
    | none => exact h
    | some w => exact hl.mul_left _ h
  cases inter with
  | none =>
    simp only
    rcases h with ⟨i, r, h⟩ | ⟨i, j, r, h⟩ | ⟨l, r, h⟩
    · refine pySum_nan hl (i := i) (hl.sumM (i := r) (j := r) (hl.mul_left _ (hl.dot_right _ r (l := ⟨0, hJ i⟩) (j := r) ?_)))
      exact hl.mul_right _ (hA i r h)
    · refine pySum_nan hl (i := i) (hl.sumM (i := r) (j := r) (hl.mul_left _ (hl.dot_right _ r (l := j) (j := r) ?_)))
      exact hl.mul_left _ h
    · exact pySum_nan hl (i := ⟨0, hI⟩) (hl.sumM (i := r) (j := r) (hl.mul_right _ (hl.dot_right _ r (l := l) (j := r) h)))
  | some G =>
    obtain ⟨hB, hC⟩ := hi G rfl
    simp only
    rcases h with ⟨i, r, h⟩ | ⟨i, j, r, h⟩ | ⟨l, r, h⟩
    · refine pySum_nan hl (i := i) (hl.sumM (i := r) (j := r) (hl.dot_right _ r (l := r) (j := r) ?_))
      simp only [diagF, if_true]
      exact hA i r h
    · refine pySum_nan hl (i := i) (hl.sumM (i := r) (j := r) (hl.dot_left _ (l := r) r (hl.dot_right _ r (l := r) ?_)))
      refine hl.mul_left _ (hl.dot_right _ r (l := j) (j := r) ?_)
      rw [hB]
      exact h
    · refine pySum_nan hl (i := ⟨0, hI⟩) (hl.sumM (i := r) (j := r) (hl.dot_left _ (l := r) r (hl.dot_right _ r (l := r) ?_)))
      refine hl.mul_right _ (hl.dot_right _ r (l := l) (j := r) ?_)
      rw [hC]
      exact h

theorem rootF_nan {x : K} (h : IsNaN x) : rootF lib x = lib.sqrt 0 := by
  unfold rootF
  rw [if_neg]
  exact fun h0 => FloatOrder.right (FloatOrder.lt_iff.1 h0).1 h

omit [FloatOrder K] in
/-- The A-update leaves the variables of the other modes alone, and everything if `A` is not updated. -/
theorem sweepAF_frame {μ : Type} {E : Env K α μ I L R nA nB nC J} {s v : FState K α I L R nA nB nC J} (h : sweepAF E s = .ok v) :
    v.F.B = s.F.B ∧ v.F.C = s.F.C ∧ v.auxB = s.auxB ∧ v.dualB = s.dualB ∧ v.auxC = s.auxC ∧ v.dualC = s.dualC ∧ (E.updA = false → v = s) := by
  unfold sweepAF at h
  split at h
  · rename_i hu
    split at h
    · cases h
    · rename_i ρ solve _
      generalize innerLoopR (stepAF E.pensA ρ.1 ρ.2 solve) E.stopA E.nInner ⟨s.F.A, s.auxA, s.dualA⟩ = q at h
      cases q with
      | error e => cases h
      | ok t => cases h; exact ⟨rfl, rfl, rfl, rfl, rfl, rfl, fun hu' => by rw [hu'] at hu; cases hu⟩
  · cases h
    exact ⟨rfl, rfl, rfl, rfl, rfl, rfl, fun _ => rfl⟩

omit [FloatOrder K] in
/-- The same for the C-update. -/
theorem sweepCF_frame {μ : Type} {E : Env K α μ I L R nA nB nC J} {s v : FState K α I L R nA nB nC J} (h : sweepCF E s = .ok v) :
    v.F.A = s.F.A ∧ v.F.B = s.F.B ∧ v.auxA = s.auxA ∧ v.dualA = s.dualA ∧ v.auxB = s.auxB ∧ v.dualB = s.dualB ∧ (E.updC = false → v = s) := by
  unfold sweepCF at h
  split at h
  · rename_i hu
    split at h
    · cases h
    · rename_i ρ solve _
      generalize innerLoopR (stepCF E.pensC ρ solve) E.stopC E.nInner ⟨s.F.C, s.auxC, s.dualC⟩ = q at h
      cases q with
      | error e => cases h
      | ok t => cases h; exact ⟨rfl, rfl, rfl, rfl, rfl, rfl, fun hu' => by rw [hu'] at hu; cases hu⟩
  · cases h
    exact ⟨rfl, rfl, rfl, rfl, rfl, rfl, fun _ => rfl⟩

omit [FloatOrder K] in
/-- The same for the B-update. -/
theorem sweepBF_frame {μ : Type} {E : Env K α μ I L R nA nB nC J} {s v : FState K α I L R nA nB nC J} (h : sweepBF E s = .ok v) :
    v.F.A = s.F.A ∧ v.F.C = s.F.C ∧ v.auxA = s.auxA ∧ v.dualA = s.dualA ∧ v.auxC = s.auxC ∧ v.dualC = s.dualC ∧ (E.updB = false → v = s) := by
  unfold sweepBF at h
  split at h
  · rename_i hu
    split at h
    · cases h
    · rename_i ρ solve _
      generalize innerLoopR (stepBF E.pensB ρ solve) E.stopB E.nInner ⟨s.F.B, s.auxB, s.dualB⟩ = q at h
      cases q with
      | error e => cases h
      | ok t => cases h; exact ⟨rfl, rfl, rfl, rfl, rfl, rfl, fun hu' => by rw [hu'] at hu; cases hu⟩
  · cases h
    exact ⟨rfl, rfl, rfl, rfl, rfl, rfl, fun _ => rfl⟩

omit [FloatOrder K] in
/-- The parts of an iteration. -/
theorem sweepF_parts {μ : Type} {E : Env K α μ I L R nA nB nC J} {s u v : FState K α I L R nA nB nC J} (h : sweepF E s = .ok (u, v)) :
    ∃ t, sweepBF E s = .ok t ∧ sweepCF E t = .ok u ∧ sweepAF E u = .ok v := by
  unfold sweepF at h
  cases hb : sweepBF E s with
  | error e => rw [hb] at h; cases h
  | ok t =>
    rw [hb] at h
    simp only at h
    cases hc : sweepCF E t with
    | error e => rw [hc] at h; cases h
    | ok u' =>
      rw [hc] at h
      simp only at h
      cases ha : sweepAF E u' with
      | error e => rw [ha] at h; cases h
      | ok v' =>
        rw [ha] at h
        cases h
        exact ⟨t, rfl, hc, ha⟩

/-- An invariant of what the loop remembers, together with the state. -/
theorem runF_inv {μ : Type} {E : Env K α μ I L R nA nB nC J} (P : μ → FState K α I L R nA nB nC J → Prop) (Q : μ → FState K α I L R nA nB nC J → Prop)
    (hstep : ∀ m s u v m', P m s → sweepF E s = .ok (u, v) → E.observe m u v = .ok (m', false) → P m' v)
    (hstop : ∀ m s u v m', P m s → sweepF E s = .ok (u, v) → E.observe m u v = .ok (m', true) → Q m' v)
    (hend : ∀ m s, P m s → Q m s) : ∀ (N : ℕ) (m m' : μ) (s s' : FState K α I L R nA nB nC J), P m s → runF E N m s = .ok (m', s') → Q m' s'
  | 0, m, m', s, s', h, hr => by cases hr; exact hend _ _ h
  | N + 1, m, m', s, s', h, hr => by
    unfold runF at hr
    cases hs : sweepF E s with
    | error e => rw [hs] at hr; cases hr
    | ok x =>
      obtain ⟨u, v⟩ := x
      rw [hs] at hr
      simp only at hr
      cases ho : E.observe m u v with
      | error e => rw [ho] at hr; cases hr
      | ok y =>
        obtain ⟨m₁, b⟩ := y
        rw [ho] at hr
        cases b with
        | true => cases hr; exact hstop _ _ _ _ _ h hs ho
        | false => exact runF_inv P Q hstep hstop hend N _ _ _ _ (hstep _ _ _ _ _ h hs ho) hr

omit [FloatOrder K] in
/-- What the decision remembers. -/
theorem decideF_ok {c : FCall K α I L R nA nB nC J} {f : Bool} {prev new : K} {m m' : FAcc K} {b : Bool} (h : decideF lib c f prev new m = .ok (m', b)) :
    m'.recErrors = m.recErrors ∧ m'.losses = m.losses ∧ m'.gaps = m.gaps ∧ m'.nIter = m.nIter ∧
    (b = false → m' = m) ∧
    (b = true → f = true ∧ ((m'.stop = .relative ∧ ∃ tol, c.tol = some tol ∧ lib.abs (prev - new) < tol * prev) ∨ (m'.stop = .absolute ∧ ∃ t, c.absTol = some t ∧ new < t))) := by
  unfold decideF at h
  split at h
  · cases h; exact ⟨rfl, rfl, rfl, rfl, fun _ => rfl, fun h => by cases h⟩
  · rename_i tol htol
    split at h
    · split at h
      · cases h
      · rename_i abs habs
        split at h
        · rename_i hc
          cases h
          simp only [Bool.and_eq_true, decide_eq_true_eq] at hc
          exact ⟨rfl, rfl, rfl, rfl, fun h => (by cases h), fun _ => ⟨hc.1, .inl ⟨rfl, tol, htol, hc.2⟩⟩⟩
        · split at h
          · rename_i hc
            cases h
            simp only [Bool.and_eq_true, decide_eq_true_eq] at hc
            exact ⟨rfl, rfl, rfl, rfl, fun h => (by cases h), fun _ => ⟨hc.1, .inr ⟨rfl, abs, habs, hc.2⟩⟩⟩
          · cases h; exact ⟨rfl, rfl, rfl, rfl, fun _ => rfl, fun h => by cases h⟩
    · cases h; exact ⟨rfl, rfl, rfl, rfl, fun _ => rfl, fun h => by cases h⟩

/-- The error computed in an iteration. -/
def errOf (lib : Lib K) (c : FCall K α I L R nA nB nC J) (u v : FState K α I L R nA nB nC J) : K :=
  rootF lib (sqErrorF lib c.X v.F (rootSumSqF lib c.X) (if c.updA then some u.F else none)) / rootSumSqF lib c.X

/-- What an iteration remembers. -/
theorem observeF_ok {c : FCall K α I L R nA nB nC J} {m m' : FAcc K} {u v : FState K α I L R nA nB nC J} {b : Bool} (h : observeF lib c m u v = .ok (m', b)) :
    (m'.recErrors = m.recErrors ++ [errOf lib c u v] ∨ (m'.recErrors = m.recErrors ∧ c.returnErrors = false)) ∧ (b = false → m'.stop = m.stop) ∧
    (b = true → (∃ t, c.feasTol = some t ∧ checkFeasF lib (gapsF lib (fun p => (c.pensB p).subtract) v) t = true) ∧ ∃ p prev, c.value v.F = .ok p ∧
      ((∃ tol, lib.abs (prev - (lib.half * errOf lib c u v ^ 2 + l2PenaltyF lib c.l2 v.F + p)) < tol * prev) ∨
        ∃ t, lib.half * errOf lib c u v ^ 2 + l2PenaltyF lib c.l2 v.F + p < t)) := by
  unfold observeF at h
  simp only at h
  split at h
  · split at h
    · rename_i hc
      cases h
      simp only [Bool.and_eq_true, Bool.not_eq_true'] at hc
      exact ⟨.inr ⟨rfl, hc.2⟩, fun _ => rfl, fun h => by cases h⟩
    · split at h
      · cases h
      · rename_i p hp
        obtain ⟨h1, -, -, -, h5, h6⟩ := decideF_ok h
        refine ⟨.inl h1, fun hb => (congrArg FAcc.stop (h5 hb) :), fun hb => ?_⟩
        obtain ⟨hf, hd⟩ := h6 hb
        refine ⟨?_, p, m.losses.getLastD 0, hp, ?_⟩
        · unfold feasibleF at hf
          split at hf
          · cases hf
          · rename_i t ht
            exact ⟨t, ht, ((Bool.and_eq_true _ _).mp hf).2⟩
        · rcases hd with ⟨-, tol, -, hd⟩ | ⟨-, t, -, hd⟩
          · exact .inl ⟨tol, hd⟩
          · exact .inr ⟨t, hd⟩
  · rename_i hc
    cases h
    simp only [Bool.not_eq_true, Bool.or_eq_false_iff] at hc
    exact ⟨.inr ⟨rfl, hc.2⟩, fun _ => rfl, fun h => by cases h⟩

omit [FloatOrder K] in
/-- The number of iterations and the reason to stop. -/
theorem observeF_nIter {c : FCall K α I L R nA nB nC J} {m m' : FAcc K} {u v : FState K α I L R nA nB nC J} {b : Bool} (h : observeF lib c m u v = .ok (m', b)) :
    m'.nIter = m.nIter + 1 ∧ (b = false → m'.stop = m.stop) ∧ (b = true → m'.stop ≠ .maxIter) := by
  unfold observeF at h
  simp only at h
  split at h
  · split at h
    · cases h
      exact ⟨rfl, fun _ => rfl, fun h => by cases h⟩
    · split at h
      · cases h
      · obtain ⟨-, -, -, h4, h5, h6⟩ := decideF_ok h
        refine ⟨h4, fun hb => (congrArg FAcc.stop (h5 hb) :), fun hb => ?_⟩
        rcases (h6 hb).2 with ⟨h, -⟩ | ⟨h, -⟩
        · rw [h]; exact fun h => by cases h
        · rw [h]; exact fun h => by cases h
  · cases h
    exact ⟨rfl, fun _ => rfl, fun h => by cases h⟩

theorem errOf_nan (hl : NaNLib lib) (hI : 0 < I) (hJ : ∀ i, 0 < J i) {c : FCall K α I L R nA nB nC J} {s u v : FState K α I L R nA nB nC J}
    (hs : sweepF (c.env lib) s = .ok (u, v)) (h : HasNaN v.F) : errOf lib c u v = lib.sqrt 0 / rootSumSqF lib c.X := by
  unfold errOf
  rw [rootF_nan]
  refine sqErrorF_nan hl hI hJ _ _ _ _ ?_ h
  intro G hG
  obtain ⟨t, -, -, ha⟩ := sweepF_parts hs
  obtain ⟨h1, h2, -⟩ := sweepAF_frame ha
  split at hG
  · cases hG; exact ⟨h1.symm, h2.symm⟩
  · cases hG

/-- C103, what happens: if a returned factor contains NaN (all matrices having rows), the last recorded reconstruction error is that of a perfect fit, `sqrt(0) / norm`. This holds for
any arithmetic and library in which NaN propagates, any penalties and any number of iterations. -/
theorem C103_hidden (hl : NaNLib lib) (hI : 0 < I) (hJ : ∀ i, 0 < J i) (c : FCall K α I L R nA nB nC J) (hr : c.returnErrors = true) (N : ℕ)
    (s s' : FState K α I L R nA nB nC J) (m : FAcc K) (h : fitF lib c N s = .ok (m, s')) (hn : HasNaN s'.F) :
    m.recErrors.getLast? = some (lib.sqrt 0 / rootSumSqF lib c.X) := by
  unfold fitF at h
  cases hst : startF lib c s with
  | error e => rw [hst] at h; cases h
  | ok m₀ =>
    rw [hst] at h
    refine runF_inv (fun m s => HasNaN s.F → m.recErrors.getLast? = some (lib.sqrt 0 / rootSumSqF lib c.X))
      (fun m s => HasNaN s.F → m.recErrors.getLast? = some (lib.sqrt 0 / rootSumSqF lib c.X)) ?_ ?_ (fun _ _ h => h) N _ _ _ _ ?_ h hn
    · intro m s u v m' _ hs ho hv
      rcases (observeF_ok ho).1 with h | ⟨-, h⟩
      · rw [h, List.getLast?_concat, errOf_nan hl hI hJ hs hv]
      · rw [hr] at h; cases h
    · intro m s u v m' _ hs ho hv
      rcases (observeF_ok ho).1 with h | ⟨-, h⟩
      · rw [h, List.getLast?_concat, errOf_nan hl hI hJ hs hv]
      · rw [hr] at h; cases h
    · intro hs
      unfold startF at hst
      simp only at hst
      split at hst
      · cases hst
      · cases hst
        rw [rootF_nan (sqErrorF_nan hl hI hJ _ _ _ _ (fun G hG => by cases hG) hs)]
        rfl

/-! ### What a reported convergence says -/

theorem pyMaxF_nan {a : K} (h : IsNaN a) : ∀ l : List K, pyMaxF a l = a
  | [] => rfl
  | x :: l => by
    unfold pyMaxF
    rw [List.foldl_cons, if_neg fun hx => FloatOrder.left (FloatOrder.lt_iff.1 hx).1 h]
    exact pyMaxF_nan h l

theorem maxGapF_nan {g : K} {gs : List K} {m : K} (h : IsNaN g) : IsNaN (maxGapF (g :: gs) m) := by
  unfold maxGapF
  simp only
  rw [pyMaxF_nan h, if_neg fun hx => FloatOrder.left (FloatOrder.lt_iff.1 hx).1 h]
  exact h

theorem ofFn_cons {n : ℕ} (hn : 0 < n) (f : Fin n → K) : ∃ l, List.ofFn f = f ⟨0, hn⟩ :: l := by
  cases n with
  | zero => cases hn
  | succ n => exact ⟨_, List.ofFn_succ⟩

theorem ofFn_nil {n : ℕ} (hn : n = 0) (f : Fin n → K) : List.ofFn f = [] := by
  subst hn
  rfl

/-- The terms of the loss that are not NaN. -/
theorem l2PenaltyF_nan (hl : NaNLib lib) (l : K × K × K) (F : FFact K I L R J) (h : ¬ IsNaN (l2PenaltyF lib l F)) :
    (truthyF (some l.1) = true → ∀ i r, ¬ IsNaN (F.A i r)) ∧ (truthyF (some l.2.1) = true → ∀ i j r, ¬ IsNaN (F.B i j r)) ∧
    (truthyF (some l.2.2) = true → ∀ k r, ¬ IsNaN (F.C k r)) := by
  unfold l2PenaltyF at h
  simp only at h
  have key : ∀ (p : Bool) (x y : K), ¬ IsNaN (if p = true then x + y else x) → ¬ IsNaN x ∧ (p = true → ¬ IsNaN y) := by
    intro p x y h
    cases p with
    | true => rw [if_pos rfl] at h; exact ⟨fun hx => h (hl.add_left _ hx), fun _ hy => h (hl.add_right _ hy)⟩
    | false => rw [if_neg Bool.false_ne_true] at h; exact ⟨h, fun hp => by cases hp⟩
  obtain ⟨h1, h2⟩ := key _ _ _ h
  obtain ⟨h3, h4⟩ := key _ _ _ h1
  obtain ⟨-, h6⟩ := key _ _ _ h3
  refine ⟨fun hp i r hx => ?_, fun hp i j r hx => ?_, fun hp k r hx => ?_⟩
  · exact h6 hp (hl.mul_right _ (hl.sumM (hl.sq hx)))
  · exact h4 hp (hl.mul_right _ (pySum_nan hl (hl.sumM (hl.sq hx))))
  · exact h2 hp (hl.mul_right _ (hl.sumM (hl.sq hx)))

/-- C103, what is true: if the loop stops because of a criterion, there is no NaN in a factor with an L2 penalty, nor in the factor of the last mode with a penalty. -/
theorem C103_partial (hl : NaNLib lib) (c : FCall K α I L R nA nB nC J) (N : ℕ) (s s' : FState K α I L R nA nB nC J) (m : FAcc K) (h : fitF lib c N s = .ok (m, s'))
    (hstop : m.stop ≠ .maxIter) :
    (truthyF (some c.l2.1) = true → ∀ i r, ¬ IsNaN (s'.F.A i r)) ∧ (truthyF (some c.l2.2.1) = true → ∀ i j r, ¬ IsNaN (s'.F.B i j r)) ∧
    (truthyF (some c.l2.2.2) = true → ∀ k r, ¬ IsNaN (s'.F.C k r)) ∧
    (0 < nC → ∀ k r, ¬ IsNaN (s'.F.C k r)) ∧ (nC = 0 → 0 < nB → ∀ i j r, ¬ IsNaN (s'.F.B i j r)) ∧ (nC = 0 → nB = 0 → 0 < nA → ∀ i r, ¬ IsNaN (s'.F.A i r)) := by
  unfold fitF at h
  cases hst : startF lib c s with
  | error e => rw [hst] at h; cases h
  | ok m₀ =>
    rw [hst] at h
    let Good (F : FFact K I L R J) : Prop := (truthyF (some c.l2.1) = true → ∀ i r, ¬ IsNaN (F.A i r)) ∧ (truthyF (some c.l2.2.1) = true → ∀ i j r, ¬ IsNaN (F.B i j r)) ∧
      (truthyF (some c.l2.2.2) = true → ∀ k r, ¬ IsNaN (F.C k r)) ∧
      (0 < nC → ∀ k r, ¬ IsNaN (F.C k r)) ∧ (nC = 0 → 0 < nB → ∀ i j r, ¬ IsNaN (F.B i j r)) ∧ (nC = 0 → nB = 0 → 0 < nA → ∀ i r, ¬ IsNaN (F.A i r))
    refine runF_inv (fun m _ => m.stop = .maxIter) (fun m s => m.stop ≠ .maxIter → Good s.F) ?_ ?_ ?_ N _ _ _ _ ?_ h hstop
    · intro m s u v m' hm _ ho
      rw [(observeF_ok ho).2.1 rfl, hm]
    · intro m s u v m' _ _ ho _
      obtain ⟨⟨t, -, hf⟩, p, prev, -, hd⟩ := (observeF_ok ho).2.2 rfl
      have hloss : ¬ IsNaN (lib.half * errOf lib c u v ^ 2 + l2PenaltyF lib c.l2 v.F + p) := by
        intro hx
        rcases hd with ⟨tol, hd⟩ | ⟨t, hd⟩
        · exact FloatOrder.left (FloatOrder.lt_iff.1 hd).1 (hl.abs (hl.sub_right _ hx))
        · exact FloatOrder.left (FloatOrder.lt_iff.1 hd).1 hx
      obtain ⟨h1, h2, h3⟩ := l2PenaltyF_nan hl c.l2 v.F fun hx => hloss (hl.add_left _ (hl.add_right _ hx))
      have hg := FloatOrder.left (FloatOrder.lt_iff.1 (of_decide_eq_true hf)).1
      refine ⟨h1, h2, h3, fun h0 k r hx => ?_, fun hC h0 i j r hx => ?_, fun hC hB h0 i r hx => ?_⟩
      · obtain ⟨l, hl'⟩ := ofFn_cons h0 fun p => lib.norm L R (fun l r => v.auxC p l r - v.F.C l r) / lib.norm L R v.F.C
        rw [show (gapsF lib (fun p => (c.pensB p).subtract) v).2.2 = _ from hl'] at hg
        exact hg (maxGapF_nan (hl.div_right _ (hl.norm hx)))
      · obtain ⟨l, hl'⟩ := ofFn_cons h0 fun p => rootSumSqF lib ((c.pensB p).subtract (v.auxB p) v.F.B) / rootSumSqF lib v.F.B
        rw [show (gapsF lib (fun p => (c.pensB p).subtract) v).2.1 = _ from hl', show (gapsF lib (fun p => (c.pensB p).subtract) v).2.2 = [] from ofFn_nil hC _] at hg
        exact hg (maxGapF_nan (hl.div_right _ (rootSumSqF_nan hl hx)))
      · obtain ⟨l, hl'⟩ := ofFn_cons h0 fun p => lib.norm I R (fun i r => v.auxA p i r - v.F.A i r) / lib.norm I R v.F.A
        rw [show (gapsF lib (fun p => (c.pensB p).subtract) v).1 = _ from hl', show (gapsF lib (fun p => (c.pensB p).subtract) v).2.2 = [] from ofFn_nil hC _,
          show (gapsF lib (fun p => (c.pensB p).subtract) v).2.1 = [] from ofFn_nil hB _] at hg
        exact hg (maxGapF_nan (hl.div_right _ (hl.norm hx)))
    · intro m s hm hs
      exact absurd hm hs
    · unfold startF at hst
      simp only at hst
      split at hst
      · cases hst
      · cases hst; rfl

/-! ### The errors are not negative -/

/-- C104. Every recorded reconstruction error is a non-negative number, not NaN, if the data have a positive finite norm: whatever is rounded, cancelled or overflows in the
computation of the squared error, which may well be negative or NaN. -/
theorem C104 [FloatConst K] (hsqrt : ∀ x : K, 0 ≤ x → 0 ≤ lib.sqrt x) (hdiv : ∀ x y : K, 0 ≤ x → 0 < y → y < FloatConst.inf → 0 ≤ x / y)
    (c : FCall K α I L R nA nB nC J) (hX : 0 < rootSumSqF lib c.X ∧ rootSumSqF lib c.X < FloatConst.inf) (N : ℕ) (s s' : FState K α I L R nA nB nC J) (m : FAcc K)
    (h : fitF lib c N s = .ok (m, s')) : ∀ e ∈ m.recErrors, 0 ≤ e ∧ ¬ IsNaN e := by
  have key : ∀ x : K, 0 ≤ rootF lib x / rootSumSqF lib c.X := by
    intro x
    refine hdiv _ _ (hsqrt _ ?_) hX.1 hX.2
    split
    · rename_i h; exact (FloatOrder.lt_iff.1 h).1
    · exact not_not.1 FloatOrder.zero
  suffices h : ∀ e ∈ m.recErrors, 0 ≤ e from fun e he => ⟨h e he, FloatOrder.right (h e he)⟩
  unfold fitF at h
  cases hst : startF lib c s with
  | error e => rw [hst] at h; cases h
  | ok m₀ =>
    rw [hst] at h
    have hstep : ∀ (m m' : FAcc K) (u v : FState K α I L R nA nB nC J) (b : Bool), (∀ e ∈ m.recErrors, 0 ≤ e) → observeF lib c m u v = .ok (m', b) → ∀ e ∈ m'.recErrors, 0 ≤ e := by
      intro m m' u v b hm ho e he
      rcases (observeF_ok ho).1 with h | ⟨h, -⟩
      · rw [h] at he
        rcases List.mem_append.1 he with he | he
        · exact hm e he
        · rw [List.mem_singleton.1 he]; exact key _
      · rw [h] at he; exact hm e he
    refine runF_inv (fun m _ => ∀ e ∈ m.recErrors, 0 ≤ e) (fun m _ => ∀ e ∈ m.recErrors, 0 ≤ e) (fun m s u v m' hm _ ho => hstep m m' u v _ hm ho)
      (fun m s u v m' hm _ ho => hstep m m' u v _ hm ho) (fun _ _ h => h) N _ _ _ _ ?_ h
    unfold startF at hst
    simp only at hst
    split at hst
    · cases hst
    · cases hst
      intro e he
      rw [List.mem_singleton.1 he]
      exact key _

end

end Verif.Props
