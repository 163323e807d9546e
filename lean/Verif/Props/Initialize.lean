import Verif.CMF.Initialize
import Verif.Props.CMF
import Verif.Props.CMFConv
import Mathlib.Data.Real.Basic

/-!
# C72-C74: the initial factorization
-/

set_option linter.unusedSectionVars false

namespace Verif.Props

open Verif.CMF Verif.Spec Finset

variable {K : Type} [Field K] [LinearOrder K]

/-! ### Specification -/

/-- A non-empty list of matrices with `k` columns. -/
structure IsData (Xs : List (NDArray K)) (k : ℕ) : Prop where
  ne : Xs ≠ []
  shape : ∀ M ∈ Xs, M.shape = [rows M, k]

/-- The factorization has rank `R` and one matrix of the right shape for every data matrix. -/
structure FitsData (c : Fact K) (Xs : List (NDArray K)) (k R : ℕ) : Prop where
  rank : c.rank = R
  shape : c.shape = Xs.map fun M => (rows M, k)
  A_shape : c.A.shape = [Xs.length, R]
  B_shape : c.Bs.map (·.shape) = Xs.map fun M => [rows M, R]
  C_shape : c.C.shape = [k, R]

/-- A matrix with `n` orthonormal columns of length `m`. -/
def OrthoCols (M : NDArray K) (m n : ℕ) : Prop := ∀ p < n, ∀ q < n, ∑ i ∈ range m, M.get [i, p] * M.get [i, q] = if p = q then 1 else 0

/-- What TensorLy's SVD functions promise for `n_eigenvecs=R`: at most `R` orthonormal left and right singular vectors, fewer if the matrix has fewer rows or columns. -/
def SvdContract (E : InitWorld K) (R : ℕ) : Prop := ∀ M m n, M.shape = [m, n] →
  ((E.svd M R).1.shape = [m, min m R] ∧ OrthoCols (E.svd M R).1 m (min m R)) ∧
  (E.svd M R).2.2.shape = [min n R, n] ∧
    ∀ p < min n R, ∀ q < min n R, ∑ i ∈ range n, (E.svd M R).2.2.get [p, i] * (E.svd M R).2.2.get [q, i] = if p = q then 1 else 0

/-- All entries of all factor matrices. -/
def AllEntries (c : Fact K) (P : K → Prop) : Prop := ∀ M ∈ c.A :: c.C :: c.Bs, ∀ m n i j, M.shape = [m, n] → i < m → j < n → P (M.get [i, j])

/-- A CP tensor of the padded data. -/
structure IsCP (t : CPT K) (Xs : List (NDArray K)) (k R : ℕ) (A B C : NDArray K) : Prop where
  factors : t.factors = [A, B, C]
  weights : t.weights.shape = [R]
  A_shape : A.shape = [Xs.length, R]
  B_shape : B.shape = [maxOf (Xs.map rows), R]
  C_shape : C.shape = [k, R]

/-- A PARAFAC2 tensor of the data. -/
structure IsP2 (t : P2T K) (Xs : List (NDArray K)) (k R : ℕ) : Prop where
  weights : t.weights.shape = [R]
  A_shape : t.A.shape = [Xs.length, R]
  B_shape : t.B.shape = [R, R]
  C_shape : t.C.shape = [k, R]
  proj : t.projections.map (·.shape) = Xs.map fun M => [rows M, R]

/-! ### Helper lemmas -/

theorem construct_none {A C : NDArray K} {Bs : List (NDArray K)} {Xs : List (NDArray K)} {k R : ℕ}
    (hA : A.shape = [Xs.length, R]) (hC : C.shape = [k, R]) (hB : Bs.map (·.shape) = Xs.map fun M => [rows M, R]) :
    ∃ c, construct ⟨.none, .tensor A, .list (Bs.map .tensor), .tensor C⟩ = .ok c ∧ c.weights = none ∧ c.A = A ∧ c.Bs = Bs ∧ c.C = C ∧ FitsData c Xs k R := by
  have hlen : Bs.length = Xs.length := by simpa using congrArg List.length hB
  have hsh : ∀ (i : ℕ) B, Bs[i]? = some B → ∃ M, Xs[i]? = some M ∧ B.shape = [rows M, R] := by
    intro i B hi
    have := congrArg (fun l => l[i]?) hB
    simp only [List.getElem?_map, hi, Option.map_some] at this
    obtain ⟨M, hM, he⟩ := Option.map_eq_some_iff.mp this.symm
    exact ⟨M, hM, he.symm⟩
  refine ⟨⟨none, A, Bs, C, Bs.map (fun B => (B.shape.headD 0, C.shape.headD 0)), R⟩, ?_, rfl, rfl, rfl, rfl, ⟨rfl, ?_, hA, hB, hC⟩⟩
  · refine construct_ok.2 ⟨⟨Or.inl ⟨rfl, rfl⟩, rfl, by rw [hlen]; exact hA, rfl, ⟨k, hC⟩, .list _, fun B hm => ?_⟩, rfl⟩
    obtain ⟨i, hi⟩ := List.mem_iff_getElem?.mp hm
    obtain ⟨M, -, he⟩ := hsh i B hi
    exact ⟨_, he⟩
  · show Bs.map (fun B => (B.shape.headD 0, C.shape.headD 0)) = _
    refine List.ext_getElem? fun i => ?_
    rw [List.getElem?_map, List.getElem?_map]
    cases hi : Bs[i]? with
    | none =>
      rw [List.getElem?_eq_none_iff] at hi
      rw [List.getElem?_eq_none_iff.mpr (by omega)]
      rfl
    | some B =>
      obtain ⟨M, hM, he⟩ := hsh i B hi
      rw [hM, Option.map_some, Option.map_some, he, hC]
      rfl

/-- The constructor rejects matrices without the right number of columns. -/
theorem construct_none_bad {A C : NDArray K} {Bs : List (NDArray K)} {R a k r : ℕ} (hA : A.shape = [a, R]) (hC : C.shape = [k, r])
    (hbad : r ≠ R ∨ ∃ B ∈ Bs, ∃ m n, B.shape = [m, n] ∧ n ≠ R) :
    construct ⟨.none, .tensor A, .list (Bs.map .tensor), .tensor C⟩ = .error .valueError := by
  refine (C07_rejects_wrong _).2.1 ?_ ?_
  · rcases hbad with h | ⟨B, hm, m, n, hs, hn⟩
    · exact Or.inr (Or.inr (Or.inr (Or.inr (Or.inl ⟨A, a, R, C, k, r, rfl, hA, rfl, hC, h⟩))))
    · exact Or.inr (Or.inr (Or.inr (Or.inr (Or.inr (Or.inl ⟨A, a, R, _, B, m, n, rfl, hA, .list _, List.mem_map_of_mem hm, hs, hn⟩)))))
  · rintro (h | h | h | h | ⟨l, hy, b, hb, hbt⟩)
    · cases h
    · exact h A rfl
    · exact h C rfl
    · exact h _ (.list _)
    · cases hy
      obtain ⟨B, -, rfl⟩ := List.mem_map.mp hb
      exact hbt B rfl

theorem dims {Xs : List (NDArray K)} {k : ℕ} (hd : IsData Xs k) : ∃ X, firstOf Xs = .ok X ∧ dim X 1 = .ok k := by
  cases Xs with
  | nil => exact absurd rfl hd.ne
  | cons X l =>
    refine ⟨X, rfl, ?_⟩
    unfold dim
    rw [hd.shape X (by simp)]
    rfl

theorem shapes_of {Xs : List (NDArray K)} {k : ℕ} (hd : IsData Xs k) : Xs.mapM shapePair = .ok (Xs.map fun M => (rows M, k)) :=
  mapM_ok _ _ _ fun M hM => by unfold shapePair; rw [hd.shape M hM]

theorem le_maxOf : ∀ {l : List ℕ} {a : ℕ}, a ∈ l → a ≤ maxOf l
  | b :: l, a, h => by
    rcases List.mem_cons.mp h with rfl | h
    · exact le_max_left _ _
    · exact le_max_of_le_right (le_maxOf h)

theorem singular_ok {E : InitWorld K} {Xs : List (NDArray K)} {k R : ℕ} (hd : IsData Xs k) (hs : SvdContract E R) :
    ∃ C, singularVectors E Xs R = .ok (Xs.map fun M => (E.svd M R).1, C) ∧ C.shape = [k, min k R] ∧ OrthoCols C k (min k R) := by
  obtain ⟨S, h1, h2, -⟩ := concatRows_ok hd.ne hd.shape
  obtain ⟨-, h3, h4⟩ := hs S _ _ h2
  refine ⟨.mk2 k (min k R) fun i j => (E.svd S R).2.2.get [j, i], ?_, rfl, fun p hp q hq => ?_⟩
  · simp only [singularVectors, h1, ok_bind, transpose, h3, pure_eq_ok]
  · simp only [mk2_get]
    exact h4 p hp q hq

/-! ### C72: shapes -/

/-- C72, random initialisation: it succeeds, fits the data and has no weights; every factor matrix comes from its own draw, so its entries lie in `[0, 1)` if the draws do. -/
theorem C72_random (E : InitWorld K) (Xs : List (NDArray K)) (k R : ℕ) (p : Option Params) (hd : IsData Xs k) :
    ∃ c, initCmf E Xs R p (.name "random") = (p, .ok c) ∧ FitsData c Xs k R ∧ c.weights = none ∧
      (∃ a b : ℕ, ∃ f : ℕ → ℕ, c.A.get = E.draw a ∧ c.C.get = E.draw b ∧ (∀ (i : ℕ) B, c.Bs[i]? = some B → B.get = E.draw (f i)) ∧
        a ≠ b ∧ Function.Injective f ∧ ∀ i, f i ≠ a ∧ f i ≠ b) ∧
      ((∀ n idx, 0 ≤ E.draw n idx ∧ E.draw n idx < 1) → AllEntries c fun x => 0 ≤ x ∧ x < 1) := by
  obtain ⟨X, hX, hk⟩ := dims hd
  have hB : Xs.zipIdx.mapM (fun p => do return (⟨[← dim p.1 0, R], E.draw (p.2 + 2)⟩ : NDArray K)) =
      .ok (Xs.zipIdx.map fun p => ⟨[rows p.1, R], E.draw (p.2 + 2)⟩) := by
    refine mapM_ok _ _ _ fun q hq => ?_
    have hm : q.1 ∈ Xs := List.fst_mem_of_mem_zipIdx hq
    have : dim q.1 0 = .ok (rows q.1) := by
      unfold dim
      rw [hd.shape _ hm]
      rfl
    rw [this]
    rfl
  obtain ⟨c, h1, h2, h3, h4, h5, h6⟩ := construct_none (Xs := Xs) (k := k) (R := R) (A := ⟨[Xs.length, R], E.draw 0⟩) (C := ⟨[k, R], E.draw 1⟩)
    (Bs := Xs.zipIdx.map fun p => ⟨[rows p.1, R], E.draw (p.2 + 2)⟩) rfl rfl (by
      rw [List.map_map]
      refine List.ext_getElem? fun i => ?_
      rw [List.getElem?_map, List.getElem?_map, List.getElem?_zipIdx]
      cases Xs[i]? <;> rfl)
  refine ⟨c, ?_, h6, h2, ⟨0, 1, fun i => i + 2, by rw [h3], by rw [h5], fun i B hi => ?_, by decide, fun i j h => by simpa using h,
    fun i => by simp⟩, fun hu M hM m n i j _ _ _ => ?_⟩
  · simp only [initCmf, if_true, initRandom, hX, hk, ok_bind, hB, h1]
  · rw [h4, List.getElem?_map, Option.map_eq_some_iff] at hi
    obtain ⟨q, hq, rfl⟩ := hi
    rw [List.getElem?_zipIdx, Option.map_eq_some_iff] at hq
    obtain ⟨M, -, rfl⟩ := hq
    simp
  · simp only [List.mem_cons] at hM
    rcases hM with rfl | rfl | hM
    · rw [h3]; exact hu _ _
    · rw [h5]; exact hu _ _
    · rw [h4, List.mem_map] at hM
      obtain ⟨q, -, rfl⟩ := hM
      exact hu _ _

/-- C72, `svd` and `threshold_svd`: they succeed exactly if the rank exceeds neither the number of columns nor the number of rows of any matrix; otherwise they raise ValueError.
The result fits the data. -/
theorem C72_svd (E : InitWorld K) (Xs : List (NDArray K)) (k R : ℕ) (p : Option Params) (hd : IsData Xs k) (hs : SvdContract E R) (s : String)
    (hn : s = "svd" ∨ s = "threshold_svd") :
    (R ≤ k ∧ (∀ M ∈ Xs, R ≤ rows M) → ∃ c, initCmf E Xs R p (.name s) = (p, .ok c) ∧ FitsData c Xs k R ∧ c.weights = none) ∧
    (¬ (R ≤ k ∧ ∀ M ∈ Xs, R ≤ rows M) → initCmf E Xs R p (.name s) = (p, .error .valueError)) := by
  obtain ⟨C, h1, h2, -⟩ := singular_ok hd hs
  have hne : s ≠ "random" := by rcases hn with rfl | rfl <;> decide
  have hini : initCmf E Xs R p (.name s) = (p, initSvd E Xs R s) := by
    simp only [initCmf, if_neg hne, if_pos hn]
  rw [hini]
  have hU : ∀ M ∈ Xs, (E.svd M R).1.shape = [rows M, min (rows M) R] := fun M hM => (hs M _ _ (hd.shape M hM)).1.1
  constructor
  · rintro ⟨hk, hr⟩
    have hB : (Xs.map fun M => (E.svd M R).1).map (·.shape) = Xs.map fun M => [rows M, R] := by
      rw [List.map_map]
      refine List.map_congr_left fun M hM => ?_
      simp only [Function.comp, hU M hM, min_eq_right (hr M hM)]
    rw [min_eq_right hk] at h2
    rcases hn with rfl | rfl
    · obtain ⟨c, g1, g2, -, -, -, g6⟩ := construct_none (Xs := Xs) (k := k) (R := R) (A := ones2 Xs.length R) (C := C)
        (Bs := Xs.map fun M => (E.svd M R).1) rfl h2 hB
      refine ⟨c, ?_, g6, g2⟩
      simp only [initSvd, h1, ok_bind, if_true, g1]
    · obtain ⟨c, g1, g2, -, -, -, g6⟩ := construct_none (Xs := Xs) (k := k) (R := R) (A := ones2 Xs.length R) (C := clip0 C)
        (Bs := (Xs.map fun M => (E.svd M R).1).map clip0) rfl h2 (by rw [List.map_map]; exact hB)
      refine ⟨c, ?_, g6, g2⟩
      simp only [initSvd, h1, ok_bind, if_neg (show ¬ ("threshold_svd" = "svd") by decide), g1]
  · intro hbad
    have hbad' : min k R ≠ R ∨ ∃ B ∈ Xs.map fun M => (E.svd M R).1, ∃ m n, B.shape = [m, n] ∧ n ≠ R := by
      by_cases hk : R ≤ k
      · right
        push Not at hbad
        obtain ⟨M, hM, hlt⟩ := hbad hk
        exact ⟨_, List.mem_map_of_mem hM, _, _, hU M hM, by omega⟩
      · left; omega
    rcases hn with rfl | rfl
    · simp only [initSvd, h1, ok_bind, if_true]
      rw [construct_none_bad (A := ones2 Xs.length R) rfl h2 hbad']
    · simp only [initSvd, h1, ok_bind, if_neg (show ¬ ("threshold_svd" = "svd") by decide)]
      rw [construct_none_bad (A := ones2 Xs.length R) (C := clip0 C) rfl h2]
      · rcases hbad' with h | ⟨B, hm, m, n, h3, h4⟩
        · exact .inl h
        · exact .inr ⟨clip0 B, List.mem_map_of_mem hm, m, n, h3, h4⟩

/-- C72, names of TensorLy decompositions: an exception of TensorLy is passed on, and a result of the right shapes gives a factorization that fits the data. -/
theorem C72_tensorly (E : InitWorld K) (Xs : List (NDArray K)) (k R : ℕ) (p : Option Params) (hd : IsData Xs k)
    (hr : "random_state" ∉ (p.getD []).map (·.1)) :
    (∀ e, E.parafac2 Xs R (defaultParams p) = .error e → (initCmf E Xs R p (.name "parafac2_als")).2 = .error e) ∧
    (∀ t, E.parafac2 Xs R (defaultParams p) = .ok t → IsP2 t Xs k R →
      ∃ c, (initCmf E Xs R p (.name "parafac2_als")).2 = .ok c ∧ FitsData c Xs k R) ∧
    ∃ T, createPaddedTensor Xs = .ok T ∧ ∀ s f, ((s = "cp_als" ∨ s = "parafac_als") ∧ f = E.parafac ∨ (s = "cp_hals" ∨ s = "parafac_hals") ∧ f = E.hals) →
      (∀ e, f T R (defaultParams p) = .error e → (initCmf E Xs R p (.name s)).2 = .error e) ∧
      ∀ t A B C, f T R (defaultParams p) = .ok t → IsCP t Xs k R A B C →
        ∃ c, (initCmf E Xs R p (.name s)).2 = .ok c ∧ FitsData c Xs k R := by
  have hp : passParams (defaultParams p) = .ok (defaultParams p) := by
    unfold passParams
    rw [if_neg]
    unfold defaultParams
    simp only
    split
    · exact hr
    · simpa using hr
  have fits : ∀ (c : Fact K) (x : CMFArg K) Bs, construct x = .ok c → c.Bs = Bs → c.A.shape = [Xs.length, R] → c.C.shape = [k, R] → c.rank = R →
      Bs.map (·.shape) = Xs.map (fun M => [rows M, R]) → FitsData c Xs k R := by
    intro c x Bs hc hB hA hC hR hsh
    refine ⟨hR, ?_, hA, by rw [hB]; exact hsh, hC⟩
    rw [(construct_ok.mp hc).2, hB, hC]
    have : Bs.map (fun B => (B.shape.headD 0, ([k, R] : List ℕ).headD 0)) = (Bs.map (·.shape)).map fun l => (l.headD 0, k) := by
      rw [List.map_map]; rfl
    rw [this, hsh, List.map_map]
    rfl
  have hp2 : initCmf E Xs R p (.name "parafac2_als") = (p.map fun _ => defaultParams p, initTensorly E Xs R (defaultParams p) "parafac2_als") := by
    simp only [initCmf]
    rw [if_neg (by decide), if_neg (by decide)]
  obtain ⟨T, hT, -⟩ := padded_ok hd.ne hd.shape
  refine ⟨fun e he => ?_, fun t ht hi => ?_, T, hT, fun s f hf => ?_⟩
  · rw [hp2]
    simp only [initTensorly, if_true, hp, ok_bind, he, error_bind]
  · rw [hp2]
    simp only [initTensorly, if_true, hp, ok_bind, ht]
    have hpr : ∀ P ∈ t.projections, P.shape = [rows P, R] := by
      intro P hP
      have : P.shape ∈ Xs.map fun M => [rows M, R] := by rw [← hi.proj]; exact List.mem_map_of_mem hP
      obtain ⟨M, -, he⟩ := List.mem_map.mp this
      rw [← he]
      simp only [rows, ← he, List.headD_cons]
    have hdot : t.projections.mapM (fun P => dot P t.B) =
        .ok (t.projections.map fun P => .mk2 (rows P) R fun j r => ∑ s ∈ range R, P.get [j, s] * t.B.get [s, r]) :=
      mapM_ok _ _ _ fun P hP' => dot_ok (hpr P hP') hi.B_shape
    have hlen : t.projections.length = Xs.length := by simpa using congrArg List.length hi.proj
    obtain ⟨c, h1, -, h3, h4, h5, h6⟩ := construct_list (w := t.weights) (A := t.A) (C := t.C)
      (Bs := t.projections.map fun P => .mk2 (rows P) R fun j r => ∑ s ∈ range R, P.get [j, s] * t.B.get [s, r]) (k := k) (R := R) hi.weights
      (by simp [hi.A_shape, hlen]) hi.C_shape (by
        intro B' hB'
        simp only [List.mem_map] at hB'
        obtain ⟨P, -, rfl⟩ := hB'
        exact ⟨rows P, rfl⟩)
    refine ⟨c, ?_, fits c _ _ h1 h4 (by rw [h3, hi.A_shape]) (by rw [h5, hi.C_shape]) h6 ?_⟩
    · unfold fromP2
      rw [hdot, ok_bind]
      exact h1
    · rw [List.map_map, ← hi.proj]
      exact List.map_congr_left fun P hP => (hpr P hP).symm
  · have hs : s = "cp_als" ∨ s = "parafac_als" ∨ s = "cp_hals" ∨ s = "parafac_hals" := by tauto
    have hin : initCmf E Xs R p (.name s) = (p.map fun _ => defaultParams p, initTensorly E Xs R (defaultParams p) s) := by
      simp only [initCmf]
      rw [if_neg (by rcases hs with rfl | rfl | rfl | rfl <;> decide), if_neg (by rcases hs with rfl | rfl | rfl | rfl <;> decide)]
    have hrun : initTensorly E Xs R (defaultParams p) s = (do initCP Xs (← f T R (defaultParams p))) := by
      simp only [initTensorly]
      rw [if_neg (by rcases hs with rfl | rfl | rfl | rfl <;> decide), hT, ok_bind]
      rcases hf with ⟨h1, rfl⟩ | ⟨h1, rfl⟩
      · rw [if_pos h1, hp, ok_bind]
      · rw [if_neg (by rcases h1 with rfl | rfl <;> decide), if_pos h1, hp, ok_bind]
    rw [hin, hrun]
    refine ⟨fun e he => by simp only [he, error_bind], fun t A B C ht hi => ?_⟩
    simp only [ht, ok_bind, initCP, shapes_of hd]
    have hle : ∀ q ∈ Xs.map fun M => (rows M, k), q.2 = k ∧ q.1 ≤ maxOf (Xs.map rows) := by
      intro q hq
      obtain ⟨M, hM, rfl⟩ := List.mem_map.mp hq
      exact ⟨rfl, le_maxOf (List.mem_map_of_mem hM)⟩
    obtain ⟨c, h1, -, h3, h4, h5, h6⟩ := construct_list (w := t.weights) (A := A) (C := C)
      (Bs := (Xs.map fun M => (rows M, k)).map fun s => firstRows B s.1) (k := k) (R := R) hi.weights (by simp [hi.A_shape]) hi.C_shape
      (by
        intro B' hB'
        simp only [List.mem_map] at hB'
        obtain ⟨s, -, rfl⟩ := hB'
        exact ⟨min s.1 _, by simp [firstRows, hi.B_shape]; rfl⟩)
    refine ⟨c, ?_, fits c _ _ h1 h4 (by rw [h3, hi.A_shape]) (by rw [h5, hi.C_shape]) h6 ?_⟩
    · unfold fromCP
      rw [hi.factors]
      simp only [hi.A_shape, List.getD_cons_zero, List.length_map, ne_eq, not_true_eq_false, if_false, cutB_ok hi.B_shape hi.C_shape _ hle, ok_bind]
      exact h1
    · rw [List.map_map, List.map_map]
      refine List.map_congr_left fun M hM => ?_
      simp only [Function.comp, firstRows, hi.B_shape, mk2_shape]
      rw [min_eq_left (le_maxOf (List.mem_map_of_mem hM))]

/-- The documented names and their synonyms. -/
def knownNames : List String := ["random", "svd", "threshold_svd", "parafac2_als", "cp_als", "parafac_als", "cp_hals", "parafac_hals"]

/-- C72: another name raises ValueError. -/
theorem C72_unknown (E : InitWorld K) (Xs : List (NDArray K)) (k R : ℕ) (p : Option Params) (hd : IsData Xs k) (s : String) (hs : s ∉ knownNames) :
    (initCmf E Xs R p (.name s)).2 = .error .valueError := by
  obtain ⟨T, hT, -⟩ := padded_ok hd.ne hd.shape
  simp only [knownNames, List.mem_cons, List.not_mem_nil, or_false, not_or] at hs
  obtain ⟨h1, h2, h3, h4, h5, h6, h7, h8⟩ := hs
  simp [initCmf, initTensorly, h1, h2, h3, h4, h5, h6, h7, h8, hT]

/-! ### C73: singular vectors -/

/-- C73: the SVD initialisation has A filled with ones and orthonormal columns in C and in every B matrix; the thresholded one has the same A, and the positive parts of the others,
so all its entries are non-negative. -/
theorem C73 [IsStrictOrderedRing K] (E : InitWorld K) (Xs : List (NDArray K)) (k R : ℕ) (p : Option Params) (hd : IsData Xs k) (hs : SvdContract E R)
    (hk : R ≤ k) (hr : ∀ M ∈ Xs, R ≤ rows M) :
    ∃ c c', initCmf E Xs R p (.name "svd") = (p, .ok c) ∧ initCmf E Xs R p (.name "threshold_svd") = (p, .ok c') ∧
      (∀ i < Xs.length, ∀ r < R, c.A.get [i, r] = 1 ∧ c'.A.get [i, r] = 1) ∧
      OrthoCols c.C k R ∧ (∀ (i : ℕ) M, Xs[i]? = some M → ∃ B B', c.Bs[i]? = some B ∧ c'.Bs[i]? = some B' ∧ OrthoCols B (rows M) R ∧
        B = (E.svd M R).1 ∧ ∀ j r, B'.get [j, r] = max (B.get [j, r]) 0) ∧
      (∀ j r, c'.C.get [j, r] = max (c.C.get [j, r]) 0) ∧ AllEntries c' fun x => 0 ≤ x := by
  obtain ⟨C, h1, h2, h3⟩ := singular_ok hd hs
  rw [min_eq_right hk] at h2 h3
  have hU : ∀ M ∈ Xs, (E.svd M R).1.shape = [rows M, R] ∧ OrthoCols (E.svd M R).1 (rows M) R := by
    intro M hM
    have := (hs M _ _ (hd.shape M hM)).1
    rwa [min_eq_right (hr M hM)] at this
  have hB : (Xs.map fun M => (E.svd M R).1).map (·.shape) = Xs.map fun M => [rows M, R] := by
    rw [List.map_map]
    exact List.map_congr_left fun M hM => (hU M hM).1
  obtain ⟨c, a1, -, a3, a4, a5, -⟩ := construct_none (Xs := Xs) (k := k) (R := R) (A := ones2 Xs.length R) (C := C)
    (Bs := Xs.map fun M => (E.svd M R).1) rfl h2 hB
  obtain ⟨c', b1, -, b3, b4, b5, -⟩ := construct_none (Xs := Xs) (k := k) (R := R) (A := ones2 Xs.length R) (C := clip0 C)
    (Bs := (Xs.map fun M => (E.svd M R).1).map clip0) rfl h2 (by rw [List.map_map]; exact hB)
  refine ⟨c, c', ?_, ?_, ?_, by rw [a5]; exact h3, fun i M hM => ?_, fun j r => by rw [a5, b5]; rfl, fun M hM m n i j hsh _ _ => ?_⟩
  · simp only [initCmf, initSvd, h1, ok_bind, if_true, a1, true_or, if_neg (show ¬ ("svd" = "random") by decide)]
  · simp only [initCmf, initSvd, h1, ok_bind, if_true, b1, or_true, if_neg (show ¬ ("threshold_svd" = "random") by decide),
      if_neg (show ¬ ("threshold_svd" = "svd") by decide)]
  · intro i _ r _
    rw [a3, b3]
    exact ⟨rfl, rfl⟩
  · refine ⟨(E.svd M R).1, clip0 (E.svd M R).1, ?_, ?_, (hU M (List.mem_of_getElem? hM)).2, rfl, fun _ _ => rfl⟩
    · rw [a4, List.getElem?_map, hM]; rfl
    · rw [b4, List.getElem?_map, List.getElem?_map, hM]; rfl
  · simp only [List.mem_cons] at hM
    rcases hM with rfl | rfl | hM
    · rw [b3] at hsh ⊢
      exact zero_le_one
    · rw [b5]; exact le_max_right _ _
    · rw [b4, List.mem_map] at hM
      obtain ⟨B, -, rfl⟩ := hM
      exact le_max_right _ _

/-! ### C74: `init_params` -/

/-- The value of a key in a dictionary. -/
def Holds (p : Params) (key : String) (v : Param) : Prop := p.find? (fun q => q.1 = key) = some (key, v)

/-- C74: TensorLy gets the caller's parameters, with 50 as default for `n_iter_max`; the caller's dictionary is changed to those parameters, and calling again
with it gives the same result. -/
theorem C74 (E : InitWorld K) (Xs : List (NDArray K)) (R : ℕ) (p : Params) (s : String) :
    ((initCmf E Xs R (some p) (.name s)).1 = some p ∨ (initCmf E Xs R (some p) (.name s)).1 = some (defaultParams (some p))) ∧
    (∀ key v, key ≠ "n_iter_max" → (Holds (defaultParams (some p)) key v ↔ Holds p key v)) ∧
    (∀ v, Holds p "n_iter_max" v → Holds (defaultParams (some p)) "n_iter_max" v) ∧
    ((∀ v, ¬ Holds p "n_iter_max" v) → Holds (defaultParams (some p)) "n_iter_max" (.int 50)) ∧
    (initCmf E Xs R (initCmf E Xs R (some p) (.name s)).1 (.name s)) = initCmf E Xs R (some p) (.name s) := by
  have hmem : "n_iter_max" ∈ p.map (·.1) ↔ ∃ v, Holds p "n_iter_max" v := by
    unfold Holds
    constructor
    · intro h
      obtain ⟨q, hq, he⟩ := List.mem_map.mp h
      cases hf : p.find? (fun q => q.1 = "n_iter_max") with
      | none =>
        have := List.find?_eq_none.mp hf q hq
        simp [he] at this
      | some q' =>
        have := List.find?_some hf
        simp only [decide_eq_true_eq] at this
        exact ⟨q'.2, by rw [← this]⟩
    · rintro ⟨v, hv⟩
      exact List.mem_map.mpr ⟨_, List.mem_of_find?_eq_some hv, rfl⟩
  have hidem : defaultParams (some (defaultParams (some p))) = defaultParams (some p) := by
    unfold defaultParams
    simp only [Option.getD_some]
    split
    · rfl
    · rw [if_pos (by simp)]
  refine ⟨?_, fun key v hk => ?_, fun v hv => ?_, fun hv => ?_, ?_⟩
  · unfold initCmf
    simp only
    split
    · left; rfl
    · split
      · left; rfl
      · right; rfl
  · unfold Holds defaultParams
    simp only [Option.getD_some]
    split
    · rfl
    · rw [List.find?_append]
      have : [("n_iter_max", Param.int 50)].find? (fun q => q.1 = key) = none := by simp [Ne.symm hk]
      rw [this, Option.or_none]
  · unfold defaultParams
    simp only [Option.getD_some]
    rw [if_pos (hmem.mpr ⟨v, hv⟩)]
    exact hv
  · unfold defaultParams
    simp only [Option.getD_some]
    have hn : "n_iter_max" ∉ p.map (·.1) := fun h => by obtain ⟨v, h⟩ := hmem.mp h; exact hv v h
    rw [if_neg hn]
    unfold Holds
    rw [List.find?_append, List.find?_eq_none.mpr (fun q hq => by
      simp only [decide_eq_true_eq]
      intro he
      exact hn (List.mem_map.mpr ⟨q, hq, he⟩))]
    simp
  · unfold initCmf
    simp only
    split
    · rfl
    · split
      · rfl
      · simp only [Option.map_some, hidem]

/-! ### Given factorizations -/

/-- C72, given factorizations: a valid one is accepted for all data and ranks (they are not compared); its weights are multiplied into A, the other factors are kept. -/
theorem C72_given (E : InitWorld K) (Xs : List (NDArray K)) (R : ℕ) (p : Option Params) (x : CMFArg K) (c : Fact K) (hx : construct x = .ok c) (v : Input K)
    (hv : v = .pair x ∨ ∃ o, Obj.new x = .ok o ∧ v = .obj o) :
    ∃ c', initCmf E Xs R p (.fact v) = (p, .ok c') ∧ c'.weights = none ∧ c'.Bs = c.Bs ∧ c'.C = c.C ∧ c'.rank = c.rank ∧ c'.shape = c.shape ∧
      c'.A.shape = c.A.shape ∧ ∀ i < c.Bs.length, ∀ r < c.rank, c'.A.get [i, r] = weightAt c.weights r * c.A.get [i, r] := by
  have hu : v.unpack = .ok x := by
    rcases hv with rfl | ⟨o, ho, rfl⟩
    · rfl
    · unfold Obj.new at ho
      obtain ⟨c, -, ho⟩ := bind_ok.mp ho
      cases ho
      rfl
  obtain ⟨g, hsh⟩ := construct_ok.mp hx
  have hin : initCmf E Xs R p (.fact v) = (p, initGiven v) := rfl
  rw [hin]
  rcases g.weights with ⟨h1, h2⟩ | ⟨t, h1, h2, h3⟩
  · refine ⟨c, ?_, h2, rfl, rfl, rfl, rfl, rfl, fun i _ r _ => ?_⟩
    · unfold initGiven
      rw [hu, ok_bind]
      simp only [h1, hx]
    · rw [h2]; simp [weightAt]
  · have hm : mulArr t c.A = .ok ⟨[c.Bs.length, c.rank], fun idx => t.get (bcastIdx [c.rank] idx.reverse).reverse *
        c.A.get (bcastIdx [c.rank, c.Bs.length] idx.reverse).reverse⟩ := by
      unfold mulArr
      rw [h3, g.A_shape]
      simp [bcastShape]
    refine ⟨⟨none, ⟨[c.Bs.length, c.rank], fun idx => t.get (bcastIdx [c.rank] idx.reverse).reverse *
        c.A.get (bcastIdx [c.rank, c.Bs.length] idx.reverse).reverse⟩, c.Bs, c.C, c.shape, c.rank⟩, ?_, rfl, rfl, rfl, rfl, rfl, g.A_shape.symm,
        fun i hi r hr => ?_⟩
    · unfold initGiven
      rw [hu, ok_bind]
      simp only [h1, g.A_eq, hm, ok_bind]
      congr 1
      exact construct_ok.mpr ⟨⟨Or.inl ⟨rfl, rfl⟩, rfl, rfl, g.C_eq, g.C_shape, g.B_eq, g.B_shape⟩, hsh⟩
    · rw [h2]
      simp only [weightAt, List.reverse_cons, List.reverse_nil, List.nil_append, List.cons_append, bcastIdx]
      have e1 : (if c.rank = 1 then 0 else r) = r := by split <;> omega
      have e2 : (if c.Bs.length = 1 then 0 else i) = i := by split <;> omega
      rw [e1, e2]

/-- A given factorization with invalid weights can be accepted: one weight for two components is broadcast. -/
theorem C72_broadcast : ∃ x : CMFArg ℚ, construct x = .error .valueError ∧ ∀ E Xs R p, ∃ c, initCmf E Xs R p (.fact (.pair x)) = (p, .ok c) :=
  ⟨⟨.tensor (.mk1 1 fun _ => 2), .tensor (.mk2 1 2 fun _ _ => 1), .list [.tensor (.mk2 1 2 fun _ _ => 1)], .tensor (.mk2 1 2 fun _ _ => 1)⟩, rfl,
    fun _ _ _ _ => ⟨_, rfl⟩⟩

/-! ### Examples -/

/-- An SVD function that returns unit vectors (the singular vectors of diagonal matrices). -/
def unitSvd (M : NDArray ℚ) (R : ℕ) : NDArray ℚ × NDArray ℚ × NDArray ℚ :=
  (.mk2 (M.shape.getD 0 0) (min (M.shape.getD 0 0) R) fun i j => if i = j then 1 else 0, .mk1 R fun _ => 1,
    .mk2 (min (M.shape.getD 1 0) R) (M.shape.getD 1 0) fun i j => if i = j then 1 else 0)

/-- A world for the examples. -/
def exInitWorld : InitWorld ℚ where
  draw n idx := 1 / (n + idx.sum + 2)
  svd := unitSvd
  parafac2 _ _ _ := .ok ⟨.mk1 1 fun _ => 2, .mk2 2 1 fun _ _ => 1, .mk2 1 1 fun _ _ => 3, .mk2 2 1 fun _ _ => 4,
    [.mk2 3 1 fun _ _ => 1, .mk2 2 1 fun _ _ => 1]⟩
  parafac _ _ _ := .ok ⟨.mk1 1 fun _ => 2, [.mk2 2 1 fun _ _ => 1, .mk2 3 1 fun _ _ => 3, .mk2 2 1 fun _ _ => 4]⟩
  hals _ _ _ := .error .valueError

/-- Two matrices with three and two rows. -/
def exInitData : List (NDArray ℚ) := [.mk2 3 2 fun i j => i + j, .mk2 2 2 fun i j => i * j]

theorem exInitData_ok : IsData exInitData 2 := ⟨by simp [exInitData], by simp [exInitData, rows]⟩

theorem unit_ortho (m n : ℕ) (p q : ℕ) (hp : p < n) (hn : n ≤ m) :
    ∑ i ∈ range m, (if i = p then (1 : ℚ) else 0) * (if i = q then 1 else 0) = if p = q then 1 else 0 := by
  rw [Finset.sum_eq_single p]
  · simp
  · intro b _ hb; simp [hb]
  · intro h; exact absurd (mem_range.mpr (by omega)) h

theorem exInitWorld_svd (R : ℕ) : SvdContract exInitWorld R := by
  intro M m n hM
  have h0 : M.shape.getD 0 0 = m := by rw [hM]; rfl
  have h1 : M.shape.getD 1 0 = n := by rw [hM]; rfl
  simp only [exInitWorld, unitSvd, h0, h1, mk2_shape, true_and, OrthoCols, mk2_get]
  refine ⟨fun p hp q _ => unit_ortho m _ p q hp (min_le_left _ _), fun p hp q _ => ?_⟩
  refine (Finset.sum_congr rfl fun i _ => ?_).trans (unit_ortho n _ p q hp (min_le_left _ _))
  rw [if_congr (eq_comm (a := p) (b := i)) rfl rfl, if_congr (eq_comm (a := q) (b := i)) rfl rfl]

/-- C72 and C73 apply: rank 2 is possible, rank 3 raises ValueError because the second matrix has two rows. -/
example : (∃ c, initCmf exInitWorld exInitData 2 none (.name "svd") = (none, .ok c) ∧ FitsData c exInitData 2 2) ∧
    initCmf exInitWorld exInitData 3 none (.name "threshold_svd") = (none, .error .valueError) := by
  constructor
  · obtain ⟨c, h, h', -⟩ := (C72_svd exInitWorld exInitData 2 2 none exInitData_ok (exInitWorld_svd 2) "svd" (.inl rfl)).1 (by simp [exInitData, rows])
    exact ⟨c, h, h'⟩
  · exact (C72_svd exInitWorld exInitData 2 3 none exInitData_ok (exInitWorld_svd 3) "threshold_svd" (.inr rfl)).2 (by simp)

/-- C72 applies to TensorLy's decompositions and to random draws. -/
example : (∃ c, (initCmf exInitWorld exInitData 1 (some [("tol", .other 0)]) (.name "parafac_als")).2 = .ok c ∧ c.shape = [(3, 2), (2, 2)]) ∧
    (∃ c, (initCmf exInitWorld exInitData 1 none (.name "parafac2_als")).2 = .ok c ∧ c.rank = 1) ∧
    (initCmf exInitWorld exInitData 1 none (.name "cp_hals")).2 = .error .valueError ∧
    (∃ c, initCmf exInitWorld exInitData 5 none (.name "random") = (none, .ok c) ∧ c.rank = 5) := by
  refine ⟨⟨_, rfl, rfl⟩, ⟨_, rfl, rfl⟩, rfl, ?_⟩
  obtain ⟨c, h, h', -⟩ := C72_random exInitWorld exInitData 2 5 none exInitData_ok
  exact ⟨c, h, h'.rank⟩

/-- C74: the caller's dictionary is changed. -/
theorem C74_changed : ∃ (p : Params) (s : String), (initCmf exInitWorld exInitData 1 (some p) (.name s)).1 ≠ some p ∧
    ∃ c, (initCmf exInitWorld exInitData 1 (some p) (.name s)).2 = .ok c := by
  refine ⟨[("tol", .other 0)], "parafac_als", ?_, _, rfl⟩
  decide +kernel

end Verif.Props
