import Verif.Props.Initialize
import Verif.Loop.Init

/-!
# The two models of `initialize_cmf` agree

`Verif/Loop/Init.lean` works on typed matrices, `Verif/CMF/Initialize.lean` on arrays with run-time shapes.
-/

set_option linter.unusedSectionVars false

namespace Verif.Props

open Verif.CMF Verif.Spec Verif.Loop Finset

variable {I K R : ℕ} {J : Fin I → ℕ}

/-- The array `M` has the shape and entries of the matrix `X`. -/
def SameMat {m n : ℕ} (M : NDArray ℝ) (X : Matrix (Fin m) (Fin n) ℝ) : Prop := M.shape = [m, n] ∧ ∀ (i : Fin m) (j : Fin n), M.get [i.val, j.val] = X i j

/-- The list holds the arrays of the matrices. -/
def SameList {n : ℕ} (l : List (NDArray ℝ)) (X : (i : Fin I) → Matrix (Fin (J i)) (Fin n) ℝ) : Prop :=
  l.length = I ∧ ∀ i : Fin I, ∃ M, l[i.val]? = some M ∧ SameMat M (X i)

/-- The vector. -/
def SameVec {n : ℕ} (w : NDArray ℝ) (v : Fin n → ℝ) : Prop := w.shape = [n] ∧ ∀ r : Fin n, w.get [r.val] = v r

/-- Absent or the same weights. -/
def SameWeights : Option (NDArray ℝ) → Option (Fin R → ℝ) → Prop
  | none, none => True
  | some w, some v => SameVec w v
  | _, _ => False

/-- The same factorization. -/
structure SameFact (c : Fact ℝ) (s : Start I K R J) : Prop where
  weights : SameWeights c.weights s.weights
  A : SameMat c.A s.F.A
  B : SameList c.Bs s.F.B
  C : SameMat c.C s.F.C

/-- The same CP tensor. -/
def SameCP {n : ℕ} (t : CPT ℝ) (u : CPTensor I n K R) : Prop :=
  ∃ A B C, t.factors = [A, B, C] ∧ SameVec t.weights u.weights ∧ SameMat A u.A ∧ SameMat B u.B ∧ SameMat C u.C

/-- The same PARAFAC2 tensor. -/
structure SameP2 (t : P2T ℝ) (u : P2Tensor I K R J) : Prop where
  weights : SameVec t.weights u.weights
  A : SameMat t.A u.A
  B : SameMat t.B u.B
  C : SameMat t.C u.C
  proj : SameList t.projections u.proj

/-- The same behaviour of the outside on the data `Xs`. -/
structure SameWorld (E : InitWorld ℝ) (T : InitExt I K R J) (Xs : List (NDArray ℝ)) (p : Option Params) : Prop where
  drawA : ∀ (i : Fin I) (r : Fin R), E.draw 0 [i.val, r.val] = T.draw.A i r
  drawC : ∀ (k : Fin K) (r : Fin R), E.draw 1 [k.val, r.val] = T.draw.C k r
  drawB : ∀ (i : Fin I) (j : Fin (J i)) (r : Fin R), E.draw (i.val + 2) [j.val, r.val] = T.draw.B i j r
  left : SameList (Xs.map fun M => (E.svd M R).1) T.left
  right : ∀ S, concatRows Xs = .ok S → SameMat (E.svd S R).2.2 T.rightT.transpose
  noState : "random_state" ∉ (p.getD []).map (·.1)
  parafac2 : ∃ t, E.parafac2 Xs R (defaultParams p) = .ok t ∧ SameP2 t T.parafac2
  cp : ∀ P, createPaddedTensor Xs = .ok P → ∃ t, E.parafac P R (defaultParams p) = .ok t ∧ SameCP t T.cp
  hals : ∀ P, createPaddedTensor Xs = .ok P → ∃ t, E.hals P R (defaultParams p) = .ok t ∧ SameCP t T.hals

/-- The same argument `init`. -/
inductive SameInit : InitVal ℝ → InitArg I K R J → Prop
  | given (x : CMFArg ℝ) (c : Fact ℝ) (s : Start I K R J) : construct x = .ok c → SameFact c s → SameInit (.fact (.pair x)) (.given s)
  | random : SameInit (.name "random") .random
  | svd : SameInit (.name "svd") .svd
  | thresholdSvd : SameInit (.name "threshold_svd") .thresholdSvd
  | parafac2 : SameInit (.name "parafac2_als") .parafac2Als
  | cp (s : String) : s = "cp_als" ∨ s = "parafac_als" → SameInit (.name s) .cpAls
  | hals (s : String) : s = "cp_hals" ∨ s = "parafac_hals" → SameInit (.name s) .cpHals
  | other (s : String) : s ∉ knownNames → SameInit (.name s) .other

/-! ### Helper lemmas -/

theorem SameMat.rows {m n : ℕ} {M : NDArray ℝ} {X : Matrix (Fin m) (Fin n) ℝ} (h : SameMat M X) : rows M = m := by
  unfold Spec.rows
  rw [h.1]
  rfl

theorem SameList.at {n : ℕ} {l : List (NDArray ℝ)} {X : (i : Fin I) → Matrix (Fin (J i)) (Fin n) ℝ} (h : SameList l X) {i : ℕ} {M : NDArray ℝ} (hM : l[i]? = some M) :
    ∃ h : i < I, SameMat M (X ⟨i, h⟩) := by
  have hi : i < I := by rw [← h.1]; exact (List.getElem?_eq_some_iff.mp hM).1
  obtain ⟨M', h1, h2⟩ := h.2 ⟨i, hi⟩
  have h1 : l[i]? = some M' := h1
  rw [hM] at h1
  cases h1
  exact ⟨hi, h2⟩

theorem SameList.isData {l : List (NDArray ℝ)} {X : (i : Fin I) → Matrix (Fin (J i)) (Fin K) ℝ} (h : SameList l X) (hI : 0 < I) : IsData l K := by
  refine ⟨fun he => ?_, fun M hM => ?_⟩
  · have := h.1
    rw [he] at this
    simp at this
    omega
  · obtain ⟨i, hi⟩ := List.mem_iff_getElem?.mp hM
    obtain ⟨h', hs⟩ := h.at hi
    rw [hs.rows, hs.1]

theorem SameList.shapes {n m : ℕ} {l l' : List (NDArray ℝ)} {X : (i : Fin I) → Matrix (Fin (J i)) (Fin n) ℝ} {Y : (i : Fin I) → Matrix (Fin (J i)) (Fin m) ℝ}
    (h : SameList l X) (h' : SameList l' Y) : l.map (·.shape) = l'.map fun M => [Spec.rows M, n] := by
  refine List.ext_getElem? fun i => ?_
  rw [List.getElem?_map, List.getElem?_map]
  cases hi : l[i]? with
  | none =>
    rw [List.getElem?_eq_none_iff] at hi
    rw [List.getElem?_eq_none_iff.mpr (by rw [h'.1, ← h.1]; exact hi)]
    rfl
  | some M =>
    obtain ⟨hlt, hs⟩ := h.at hi
    obtain ⟨N, hN, hs'⟩ := h'.2 ⟨i, hlt⟩
    have hN : l'[i]? = some N := hN
    rw [hN, Option.map_some, Option.map_some, hs'.rows, hs.1]

theorem sameList_map {n : ℕ} {l : List (NDArray ℝ)} {X : (i : Fin I) → Matrix (Fin (J i)) (Fin n) ℝ} {m : ℕ} {Y : (i : Fin I) → Matrix (Fin (J i)) (Fin m) ℝ}
    (f : NDArray ℝ → NDArray ℝ) (h : SameList l X) (hf : ∀ (i : Fin I) M, l[i.val]? = some M → SameMat M (X i) → SameMat (f M) (Y i)) : SameList (l.map f) Y := by
  refine ⟨by rw [List.length_map, h.1], fun i => ?_⟩
  obtain ⟨M, h1, h2⟩ := h.2 i
  exact ⟨f M, by rw [List.getElem?_map, h1]; rfl, hf i M h1 h2⟩

theorem constructNone_same {A C : NDArray ℝ} {Bs : List (NDArray ℝ)} {F : Spec.Factors I K R J} (hA : SameMat A F.A) (hB : SameList Bs F.B) (hC : SameMat C F.C) :
    ∃ c, construct ⟨.none, .tensor A, .list (Bs.map .tensor), .tensor C⟩ = .ok c ∧ SameFact c (⟨none, F⟩ : Start I K R J) := by
  obtain ⟨c, h1, h2, h3, h4, h5, -⟩ := construct_none (Xs := Bs) (k := K) (R := R) (A := A) (C := C) (Bs := Bs) (by rw [hA.1, hB.1]) hC.1 (hB.shapes hB)
  exact ⟨c, h1, by rw [h2]; trivial, by rw [h3]; exact hA, by rw [h4]; exact hB, by rw [h5]; exact hC⟩

theorem constructSome_same {w A C : NDArray ℝ} {Bs : List (NDArray ℝ)} {v : Fin R → ℝ} {F : Spec.Factors I K R J} (hw : SameVec w v) (hA : SameMat A F.A)
    (hB : SameList Bs F.B) (hC : SameMat C F.C) :
    ∃ c, construct ⟨.tensor w, .tensor A, .list (Bs.map .tensor), .tensor C⟩ = .ok c ∧ SameFact c (⟨some v, F⟩ : Start I K R J) := by
  obtain ⟨c, h1, h2, h3, h4, h5, -⟩ := construct_list (w := w) (A := A) (C := C) (Bs := Bs) (k := K) (R := R) hw.1 (by rw [hA.1, hB.1]) hC.1 (by
    intro B hm
    obtain ⟨i, hi⟩ := List.mem_iff_getElem?.mp hm
    obtain ⟨_, hs⟩ := hB.at hi
    exact ⟨_, hs.1⟩)
  exact ⟨c, h1, by rw [h2]; exact hw, by rw [h3]; exact hA, by rw [h4]; exact hB, by rw [h5]; exact hC⟩

theorem passParams_ok {p : Option Params} (hr : "random_state" ∉ (p.getD []).map (·.1)) : passParams (defaultParams p) = .ok (defaultParams p) := by
  unfold passParams
  rw [if_neg]
  unfold defaultParams
  simp only
  split
  · exact hr
  · simpa using hr

/-- Conversion of a CP tensor. -/
theorem initCP_same {Xs : List (NDArray ℝ)} {X : (i : Fin I) → Matrix (Fin (J i)) (Fin K) ℝ} (hX : SameList Xs X) (hI : 0 < I) {n : ℕ} (fits : ∀ i, J i ≤ n)
    {t : CPT ℝ} {u : CPTensor I n K R} (h : SameCP t u) : ∃ c, initCP Xs t = .ok c ∧ SameFact c (u.toStart fits : Start I K R J) := by
  obtain ⟨A, B, C, hf, hw, hA, hB, hC⟩ := h
  have hd := hX.isData hI
  have hle : ∀ q ∈ Xs.map fun M => (Spec.rows M, K), q.2 = K ∧ q.1 ≤ n := by
    intro q hq
    obtain ⟨M, hM, rfl⟩ := List.mem_map.mp hq
    obtain ⟨i, hi⟩ := List.mem_iff_getElem?.mp hM
    obtain ⟨hlt, hs⟩ := hX.at hi
    exact ⟨rfl, by rw [hs.rows]; exact fits _⟩
  have hBs : SameList (Xs.map fun M => firstRows B (Spec.rows M)) (u.toStart fits : Start I K R J).F.B := by
    refine sameList_map _ hX fun i M _ hs => ?_
    rw [hs.rows]
    unfold firstRows
    rw [hB.1]
    refine ⟨by simp only [mk2_shape, min_eq_left (fits i)], fun j r => ?_⟩
    simp only [mk2_get]
    exact hB.2 (Fin.castLE (fits i) j) r
  obtain ⟨c, h1, h2⟩ := constructSome_same (F := (u.toStart fits : Start I K R J).F) hw hA hBs hC
  refine ⟨c, ?_, h2⟩
  unfold initCP
  rw [shapes_of hd, ok_bind]
  unfold fromCP
  rw [hf]
  have hlen : Xs.length = I := hX.1
  simp only [hA.1, List.getD_cons_zero, List.length_map, hlen, ne_eq, not_true_eq_false, if_false, cutB_ok hB.1 hC.1 _ hle, ok_bind, List.map_map]
  rw [List.map_map] at h1
  exact h1

/-! ### The theorem -/

/-- C72: for the same data, argument and outside, the two models of `initialize_cmf` return the same factorization or the same exception. -/
theorem C72_refines {E : InitWorld ℝ} {T : InitExt I K R J} {Xs : List (NDArray ℝ)} {X : (i : Fin I) → Matrix (Fin (J i)) (Fin K) ℝ} {p : Option Params}
    (hI : 0 < I) (hX : SameList Xs X) (hw : SameWorld E T Xs p) {v : InitVal ℝ} {a : InitArg I K R J} (ha : SameInit v a) :
    (∀ s, initializeCmf T a = .ok s → ∃ c, (initCmf E Xs R p v).2 = .ok c ∧ SameFact c s) ∧
    ∀ e, initializeCmf T a = .error e → (initCmf E Xs R p v).2 = .error e := by
  have hd := hX.isData hI
  have hp := passParams_ok hw.noState
  obtain ⟨P, hP, -⟩ := padded_ok hd.ne hd.shape
  obtain ⟨S, hS, -⟩ := concatRows_ok hd.ne hd.shape
  have hsv : singularVectors E Xs R = .ok (Xs.map fun M => (E.svd M R).1, .mk2 K R fun i j => (E.svd S R).2.2.get [j, i]) := by
    simp only [singularVectors, hS, ok_bind, transpose, (hw.right S hS).1, pure_eq_ok]
  have hC : SameMat (.mk2 K R fun i j => (E.svd S R).2.2.get [j, i]) T.rightT :=
    ⟨rfl, fun i j => by rw [mk2_get, (hw.right S hS).2 j i]; rfl⟩
  have hones : SameMat (ones2 Xs.length R) (fun _ _ => 1 : Matrix (Fin I) (Fin R) ℝ) := ⟨by rw [hX.1]; rfl, fun _ _ => rfl⟩
  cases ha with
  | given x c s hc hs =>
    refine ⟨fun s' h => ?_, fun e h => ?_⟩
    swap
    · obtain ⟨w, F⟩ := s
      cases w <;> cases h
    · obtain ⟨c', h1, h2, h3, h4, h5, h6, h7, h8⟩ := C72_given E Xs R p x c hc (.pair x) (.inl rfl)
      refine ⟨c', congrArg Prod.snd h1, ?_⟩
      have g := (construct_ok.mp hc).1
      have hA := hs.A
      have hsh := hA.1
      rw [g.A_shape] at hsh
      have hl : c.Bs.length = I := by simpa using congrArg (List.headD · 0) hsh
      have hR : c.rank = R := by simpa [hl] using hsh
      obtain ⟨w, F⟩ := s
      have hwt := hs.weights
      cases w with
      | none =>
        cases h
        refine ⟨by rw [h2]; trivial, ⟨by rw [h7]; exact hA.1, fun i r => ?_⟩, by rw [h3]; exact hs.B, by rw [h4]; exact hs.C⟩
        rw [h8 i (by rw [hl]; exact i.2) r (by rw [hR]; exact r.2)]
        cases hcw : c.weights with
        | none => rw [weightAt, one_mul]; exact hA.2 i r
        | some w => rw [hcw] at hwt; exact hwt.elim
      | some wt =>
        cases h
        refine ⟨by rw [h2]; trivial, ⟨by rw [h7]; exact hA.1, fun i r => ?_⟩, by rw [h3]; exact hs.B, by rw [h4]; exact hs.C⟩
        rw [h8 i (by rw [hl]; exact i.2) r (by rw [hR]; exact r.2)]
        cases hcw : c.weights with
        | none => rw [hcw] at hwt; exact hwt.elim
        | some w =>
          rw [hcw] at hwt
          have hwt : SameVec w wt := hwt
          rw [weightAt, hwt.2 r, hA.2 i r]
          rfl
  | random =>
    refine ⟨fun s h => ?_, fun e h => by cases h⟩
    cases h
    obtain ⟨c, h1, h2, h3, -⟩ := C72_random E Xs K R p hd
    obtain ⟨X0, hX0, hk⟩ := dims hd
    have hB : Xs.zipIdx.mapM (fun p => do return (⟨[← dim p.1 0, R], E.draw (p.2 + 2)⟩ : NDArray ℝ)) =
        .ok (Xs.zipIdx.map fun p => ⟨[Spec.rows p.1, R], E.draw (p.2 + 2)⟩) := by
      refine mapM_ok _ _ _ fun q hq => ?_
      have hm : q.1 ∈ Xs := List.fst_mem_of_mem_zipIdx hq
      have : dim q.1 0 = .ok (Spec.rows q.1) := by
        unfold dim
        rw [hd.shape _ hm]
        rfl
      rw [this]
      rfl
    obtain ⟨c', g1, g2⟩ := constructNone_same (F := T.draw) (A := ⟨[Xs.length, R], E.draw 0⟩) (C := ⟨[K, R], E.draw 1⟩)
      (Bs := Xs.zipIdx.map fun p => ⟨[Spec.rows p.1, R], E.draw (p.2 + 2)⟩) ⟨by rw [hX.1], hw.drawA⟩
      ⟨by simp [hX.1], fun i => by
        obtain ⟨M, hM, hs⟩ := hX.2 i
        refine ⟨⟨[Spec.rows M, R], E.draw (i.val + 2)⟩, ?_, by rw [hs.rows], hw.drawB i⟩
        rw [List.getElem?_map, List.getElem?_zipIdx, hM]
        simp⟩ ⟨rfl, hw.drawC⟩
    refine ⟨c', ?_, g2⟩
    simp only [initCmf, if_true, initRandom, hX0, hk, ok_bind, hB, g1]
  | svd =>
    refine ⟨fun s h => ?_, fun e h => by cases h⟩
    cases h
    obtain ⟨c, g1, g2⟩ := constructNone_same (F := ⟨fun _ _ => 1, T.left, T.rightT⟩) hones hw.left hC
    refine ⟨c, ?_, g2⟩
    simp only [initCmf, initSvd, hsv, ok_bind, if_true, true_or, if_neg (show ¬ ("svd" = "random") by decide), g1]
  | thresholdSvd =>
    refine ⟨fun s h => ?_, fun e h => by cases h⟩
    cases h
    obtain ⟨c, g1, g2⟩ := constructNone_same (F := ⟨fun _ _ => 1, fun i j r => max (T.left i j r) 0, fun k r => max (T.rightT k r) 0⟩) hones
      (sameList_map clip0 hw.left (Y := fun i j r => max (T.left i j r) 0) fun i M _ hs => ⟨hs.1, fun j r => by
        show max (M.get [j.val, r.val]) 0 = _
        rw [hs.2 j r]⟩)
      (C := clip0 (.mk2 K R fun i j => (E.svd S R).2.2.get [j, i])) ⟨hC.1, fun k r => by
        show max (NDArray.get _ [k.val, r.val]) 0 = _
        rw [hC.2 k r]⟩
    refine ⟨c, ?_, g2⟩
    simp only [initCmf, initSvd, hsv, ok_bind, if_true, or_true, if_neg (show ¬ ("threshold_svd" = "random") by decide),
      if_neg (show ¬ ("threshold_svd" = "svd") by decide), g1]
  | parafac2 =>
    refine ⟨fun s h => ?_, fun e h => by cases h⟩
    cases h
    obtain ⟨t, ht, hs⟩ := hw.parafac2
    have hdot : t.projections.mapM (fun P => dot P t.B) =
        .ok (t.projections.map fun P => .mk2 (Spec.rows P) R fun j r => ∑ s ∈ range R, P.get [j, s] * t.B.get [s, r]) := by
      refine mapM_ok _ _ _ fun P hP' => dot_ok ?_ hs.B.1
      obtain ⟨i, hi⟩ := List.mem_iff_getElem?.mp hP'
      obtain ⟨_, hm⟩ := hs.proj.at hi
      rw [hm.rows, hm.1]
    have hBs : SameList (t.projections.map fun P => .mk2 (Spec.rows P) R fun j r => ∑ s ∈ range R, P.get [j, s] * t.B.get [s, r])
        (T.parafac2.toStart).F.B := by
      refine sameList_map _ hs.proj fun i M _ hm => ⟨by rw [mk2_shape, hm.rows], fun j r => ?_⟩
      rw [mk2_get, Finset.sum_range]
      show _ = ∑ q, T.parafac2.proj i j q * T.parafac2.B q r
      exact Finset.sum_congr rfl fun q _ => by rw [hm.2 j q, hs.B.2 q r]
    obtain ⟨c, g1, g2⟩ := constructSome_same (F := (T.parafac2.toStart).F) hs.weights hs.A hBs hs.C
    refine ⟨c, ?_, g2⟩
    simp only [initCmf]
    rw [if_neg (by decide), if_neg (by decide)]
    simp only [initTensorly, if_true, hp, ok_bind, ht, fromP2, hdot, g1]
  | cp s hs =>
    refine ⟨fun u h => ?_, fun e h => by cases h⟩
    cases h
    obtain ⟨t, ht, hst⟩ := hw.cp P hP
    obtain ⟨c, g1, g2⟩ := initCP_same hX hI T.fits hst
    refine ⟨c, ?_, g2⟩
    simp only [initCmf]
    rw [if_neg (by rcases hs with rfl | rfl <;> decide), if_neg (by rcases hs with rfl | rfl <;> decide)]
    simp only [initTensorly]
    rw [if_neg (by rcases hs with rfl | rfl <;> decide), hP, ok_bind, if_pos hs, hp, ok_bind, ht, ok_bind, g1]
  | hals s hs =>
    refine ⟨fun u h => ?_, fun e h => by cases h⟩
    cases h
    obtain ⟨t, ht, hst⟩ := hw.hals P hP
    obtain ⟨c, g1, g2⟩ := initCP_same hX hI T.fits hst
    refine ⟨c, ?_, g2⟩
    simp only [initCmf]
    rw [if_neg (by rcases hs with rfl | rfl <;> decide), if_neg (by rcases hs with rfl | rfl <;> decide)]
    simp only [initTensorly]
    rw [if_neg (by rcases hs with rfl | rfl <;> decide), hP, ok_bind, if_neg (by rcases hs with rfl | rfl <;> decide), if_pos hs, hp, ok_bind, ht, ok_bind, g1]
  | other s hs =>
    refine ⟨fun u h => (by cases h), fun e h => ?_⟩
    cases h
    exact C72_unknown E Xs K R p hd s hs

/-! ### Example -/

/-- Two matrices of ones with one and two rows. -/
def exOnes : List (NDArray ℝ) := [.mk2 1 1 fun _ _ => 1, .mk2 2 1 fun _ _ => 1]

/-- An outside that answers with ones, on run-time shapes. -/
def exOnesWorld : InitWorld ℝ where
  draw _ _ := 1
  svd M _ := (.mk2 (M.shape.headD 0) 1 fun _ _ => 1, .mk1 1 fun _ => 1, .mk2 1 1 fun _ _ => 1)
  parafac2 _ _ _ := .ok ⟨.mk1 1 fun _ => 1, .mk2 2 1 fun _ _ => 1, .mk2 1 1 fun _ _ => 1, .mk2 1 1 fun _ _ => 1, exOnes⟩
  parafac _ _ _ := .ok ⟨.mk1 1 fun _ => 1, [.mk2 2 1 fun _ _ => 1, .mk2 2 1 fun _ _ => 1, .mk2 1 1 fun _ _ => 1]⟩
  hals _ _ _ := .ok ⟨.mk1 1 fun _ => 1, [.mk2 2 1 fun _ _ => 1, .mk2 2 1 fun _ _ => 1, .mk2 1 1 fun _ _ => 1]⟩

/-- The same on typed matrices. -/
def exOnesExt : InitExt 2 1 1 (fun i => i.val + 1) where
  n := 2
  fits i := by omega
  draw := ⟨fun _ _ => 1, fun _ _ _ => 1, fun _ _ => 1⟩
  left _ _ _ := 1
  rightT _ _ := 1
  parafac2 := ⟨fun _ => 1, fun _ _ => 1, fun _ _ => 1, fun _ _ => 1, fun _ _ _ => 1⟩
  cp := ⟨fun _ => 1, fun _ _ => 1, fun _ _ => 1, fun _ _ => 1⟩
  hals := ⟨fun _ => 1, fun _ _ => 1, fun _ _ => 1, fun _ _ => 1⟩

theorem exOnes_same (n : ℕ) (h : n = 1) : SameList (I := 2) (J := fun i => i.val + 1) (n := n) exOnes fun _ _ _ => 1 := by
  subst h
  refine ⟨rfl, fun i => ?_⟩
  match i with
  | 0 => exact ⟨_, rfl, rfl, fun _ _ => rfl⟩
  | 1 => exact ⟨_, rfl, rfl, fun _ _ => rfl⟩

/-- The hypotheses of `C72_refines` can be met. -/
example : SameWorld exOnesWorld exOnesExt exOnes none where
  drawA _ _ := rfl
  drawC _ _ := rfl
  drawB _ _ _ := rfl
  left := ⟨rfl, fun i => by
    match i with
    | 0 => exact ⟨_, rfl, rfl, fun _ _ => rfl⟩
    | 1 => exact ⟨_, rfl, rfl, fun _ _ => rfl⟩⟩
  right _ _ := ⟨rfl, fun _ _ => rfl⟩
  noState := by simp
  parafac2 := ⟨_, rfl, ⟨rfl, fun _ => rfl⟩, ⟨rfl, fun _ _ => rfl⟩, ⟨rfl, fun _ _ => rfl⟩, ⟨rfl, fun _ _ => rfl⟩, exOnes_same 1 rfl⟩
  cp _ _ := ⟨_, rfl, _, _, _, rfl, ⟨rfl, fun _ => rfl⟩, ⟨rfl, fun _ _ => rfl⟩, ⟨rfl, fun _ _ => rfl⟩, ⟨rfl, fun _ _ => rfl⟩⟩
  hals _ _ := ⟨_, rfl, _, _, _, rfl, ⟨rfl, fun _ => rfl⟩, ⟨rfl, fun _ _ => rfl⟩, ⟨rfl, fun _ _ => rfl⟩, ⟨rfl, fun _ _ => rfl⟩⟩

end Verif.Props
