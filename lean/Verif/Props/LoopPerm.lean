import Verif.Loop.Transform
import Verif.Props.LoopFalse

/-!
# C91: the order of the matrices
-/

namespace Verif.Props

open Verif.Loop Verif.ADMM Verif.Penalties Verif.Spec Finset Matrix

variable {I K R nA nB nC : ℕ} {J : Fin I → ℕ}

/-! ### The same data in another order -/

/-- The `i`-th matrix is the former `σ i`-th one, and so is the `i`-th row of `A` and the `i`-th `B` factor matrix. -/
def permF (σ : Equiv.Perm (Fin I)) (F : Factors I K R J) : Factors I K R fun i => J (σ i) := ⟨fun i => F.A (σ i), fun i => F.B (σ i), F.C⟩

/-- Auxiliary variables of mode 1 in the other order. -/
def permAux (σ : Equiv.Perm (Fin I)) : AuxB I R J → AuxB I R fun i => J (σ i)
  | .mats X => .mats fun i => X (σ i)
  | .p2 a => .p2 ⟨fun i => a.bases (σ i), a.coord⟩

/-- All variables in the other order. -/
def permS (σ : Equiv.Perm (Fin I)) (s : AOState I K R nA nB nC J) : AOState I K R nA nB nC fun i => J (σ i) where
  weights := s.weights
  F := permF σ s.F
  auxA := fun p i => s.auxA p (σ i)
  dualA := fun p i => s.dualA p (σ i)
  auxB := fun p => permAux σ (s.auxB p)
  dualB := fun p i => s.dualB p (σ i)
  auxC := s.auxC
  dualC := s.dualC

/-- A penalty on mode 0 that does not depend on the order of the rows. Its matrix update only matters if the feasibility penalty is constant. -/
def OrderFreeA (σ : Equiv.Perm (Fin I)) (constant : Bool) (p : PenA I R) : Prop :=
  (∀ X : Matrix (Fin I) (Fin R) ℝ, p.value (fun i => X (σ i)) = p.value X) ∧
    (constant = true → ∀ (X : Matrix (Fin I) (Fin R) ℝ) (ρ : ℝ) (aux : Matrix (Fin I) (Fin R) ℝ),
      p.mat (fun i => X (σ i)) ρ (fun i => aux (σ i)) = fun i => p.mat X ρ aux (σ i))

/-- `q` is the penalty `p` on mode 1 for the matrices in the other order. -/
def ReorderedB (σ : Equiv.Perm (Fin I)) (p : PenB I R J) (q : PenB I R fun i => J (σ i)) : Prop :=
  (∀ X : Ragged I R J, q.value (fun i => X (σ i)) = p.value X) ∧
    ∀ (X : Ragged I R J) (ρ : Fin I → ℝ) (aux : AuxB I R J),
      q.update (fun i => X (σ i)) (fun i => ρ (σ i)) (permAux σ aux) = permAux σ (p.update X ρ aux)

/-- The problem in the other order. -/
def permP (σ : Equiv.Perm (Fin I)) (P : Problem I K R nA nB nC J) (pensB : Fin nB → PenB I R fun i => J (σ i)) :
    Problem I K R nA nB nC fun i => J (σ i) where
  X := fun i => P.X (σ i)
  pensA := P.pensA
  pensB := pensB
  pensC := P.pensC
  l2 := P.l2
  params := P.params
  constA := P.constA
  constB := P.constB
  updA := P.updA
  updB := P.updB
  updC := P.updC

/-! ### The penalties of the package -/

theorem reorderedB_ofMat (σ : Equiv.Perm (Fin I)) (u : (i : Fin I) → MatUpdate (J i) R) (v : (i : Fin I) → Matrix (Fin (J i)) (Fin R) ℝ → ℝ) :
    ReorderedB σ (.ofMat u fun Z => ∑ i, v i (Z i)) (.ofMat (fun i => u (σ i)) fun Z => ∑ i, v (σ i) (Z i)) := by
  refine ⟨fun X => Equiv.sum_comp σ fun i => v i (X i), fun X ρ aux => ?_⟩
  cases aux <;> rfl

theorem p2Coord_perm (σ : Equiv.Perm (Fin I)) (X P : Ragged I R J) (ρ : Fin I → ℝ) :
    p2Coord (J := fun i => J (σ i)) (fun i => X (σ i)) (fun i => ρ (σ i)) (fun i => P (σ i)) = p2Coord X ρ P := by
  unfold p2Coord
  rw [Equiv.sum_comp σ ρ, Equiv.sum_comp σ fun i => (ρ i • (P i).transpose) * X i]

theorem p2Update_perm (σ : Equiv.Perm (Fin I)) (svd : (i : Fin I) → Matrix (Fin (J i)) (Fin R) ℝ → SVD (J i) R R) (ub uc : Bool) (X : Ragged I R J)
    (ρ : Fin I → ℝ) : ∀ (n : ℕ) (a : P2Aux I J R),
    p2Update (J := fun i => J (σ i)) (fun i => svd (σ i)) ub uc (fun i => X (σ i)) (fun i => ρ (σ i)) n ⟨fun i => a.bases (σ i), a.coord⟩ =
      ⟨fun i => (p2Update svd ub uc X ρ n a).bases (σ i), (p2Update svd ub uc X ρ n a).coord⟩
  | 0, a => rfl
  | n + 1, a => by
    have hb : ∀ P : Ragged I R J, p2Coord (J := fun i => J (σ i)) (fun i => X (σ i)) (fun i => ρ (σ i)) (fun i => P (σ i)) = p2Coord X ρ P :=
      fun P => p2Coord_perm σ X P ρ
    have hp : p2Bases (J := fun i => J (σ i)) (fun i => svd (σ i)) (fun i => X (σ i)) a.coord = fun i => p2Bases svd X a.coord (σ i) := rfl
    cases ub <;> cases uc <;> simp only [p2Update, hp, hb, if_true, if_false, Bool.not_true, Bool.not_false, Bool.or_true, Bool.or_false, Bool.or_self,
      Bool.false_eq_true]
    exact p2Update_perm σ svd true true X ρ n ⟨p2Bases svd X a.coord, p2Coord X ρ (p2Bases svd X a.coord)⟩

theorem reorderedB_parafac2 (σ : Equiv.Perm (Fin I)) (svd : (i : Fin I) → Matrix (Fin (J i)) (Fin R) ℝ → SVD (J i) R R) (n : ℕ) (ub uc : Bool) :
    ReorderedB σ (.parafac2 svd n ub uc) (.parafac2 (fun i => svd (σ i)) n ub uc) := by
  refine ⟨fun X => rfl, fun X ρ aux => ?_⟩
  cases aux with
  | mats Y => rfl
  | p2 a => exact congrArg AuxB.p2 (p2Update_perm σ svd ub uc X ρ n a)

/-- The row-wise penalties and the L2 balls do not depend on the order of the rows. -/
theorem orderFreeA_std (σ : Equiv.Perm (Fin I)) (constant : Bool) (p : StdPen I R) (hp : match p with | .genL2 .. => False | .tv .. => False | _ => True) :
    OrderFreeA σ constant p.toA := by
  cases p with
  | nonNeg => exact ⟨fun _ => rfl, fun _ _ _ _ => rfl⟩
  | box lo hi => exact ⟨fun _ => rfl, fun _ _ _ _ => rfl⟩
  | l1 γ nn =>
    refine ⟨fun X => ?_, fun _ X ρ aux => ?_⟩
    · show l1Penalty γ _ = l1Penalty γ X
      simp only [l1Penalty]
      rw [Equiv.sum_comp σ fun i => ∑ r, |X i r|]
    · cases nn <;> rfl
  | l2Ball b nn =>
    refine ⟨fun X => rfl, fun _ X ρ aux => ?_⟩
    show l2BallMat b nn I R (fun i => X (σ i)) ρ (fun i => aux (σ i)) = fun i => l2BallMat b nn I R X ρ aux (σ i)
    funext i r
    simp only [l2BallMat]
    rw [Equiv.sum_comp σ fun i => (if nn = true then clip (some 0) none (X i r) else X i r) ^ 2]
  | genL2 M d => exact hp.elim
  | tv s α β => exact hp.elim

/-! ### The updates -/

theorem innerLoop_map {S T : Type} {f : S → T} {step : S → S} {step' : T → T} {stop : S → S → Bool} {stop' : T → T → Bool}
    (h : ∀ s, step' (f s) = f (step s)) (hs : ∀ s s', stop' (f s) (f s') = stop s s') : ∀ (n : ℕ) (s : S),
    innerLoop step' stop' n (f s) = f (innerLoop step stop n s)
  | 0, s => rfl
  | n + 1, s => by
    rw [innerLoop, innerLoop, h, hs]
    split
    · rfl
    · exact innerLoop_map h hs n (step s)

theorem foldl_max_eq (l : List ℝ) (a : ℝ) (m : ℝ) : l.foldl max a = m ↔ (a ≤ m ∧ ∀ x ∈ l, x ≤ m) ∧ (m = a ∨ m ∈ l) := by
  induction l generalizing a with
  | nil => simp; constructor
           · rintro rfl; exact ⟨le_rfl, rfl⟩
           · exact fun h => h.2.symm
  | cons x l ih =>
    rw [List.foldl_cons, ih]
    simp only [List.mem_cons, forall_eq_or_imp, sup_le_iff]
    constructor
    · rintro ⟨⟨⟨h1, h2⟩, h3⟩, h4⟩
      refine ⟨⟨h1, h2, h3⟩, ?_⟩
      rcases h4 with h4 | h4
      · rcases max_choice a x with h | h
        · exact .inl (h4.trans h)
        · exact .inr (.inl (h4.trans h))
      · exact .inr (.inr h4)
    · rintro ⟨⟨h1, h2, h3⟩, h4⟩
      refine ⟨⟨⟨h1, h2⟩, h3⟩, ?_⟩
      rcases h4 with rfl | rfl | h4
      · exact .inl (max_eq_left h2).symm
      · exact .inl (max_eq_right h1).symm
      · exact .inr h4

theorem vecMax_ok {l : List ℝ} {m : ℝ} : vecMax l = .ok m ↔ m ∈ l ∧ ∀ x ∈ l, x ≤ m := by
  cases l with
  | nil => simp [vecMax]
  | cons a l =>
    rw [vecMax, Except.ok.injEq, foldl_max_eq]
    simp only [List.mem_cons, forall_eq_or_imp]
    tauto

theorem vecMax_perm (σ : Equiv.Perm (Fin I)) (ρ : Fin I → ℝ) : vecMax (List.ofFn fun i => ρ (σ i)) = vecMax (List.ofFn ρ) := by
  cases h : vecMax (List.ofFn ρ) with
  | error e =>
    cases I with
    | zero => rw [← h]; simp
    | succ n => rw [List.ofFn_succ] at h; cases h
  | ok m =>
    rw [vecMax_ok] at h ⊢
    obtain ⟨h1, h2⟩ := h
    simp only [List.mem_ofFn, forall_exists_index, forall_apply_eq_imp_iff] at h1 h2 ⊢
    obtain ⟨i, hi⟩ := h1
    exact ⟨⟨σ.symm i, by rw [σ.apply_symm_apply, hi]⟩, fun i => h2 (σ i)⟩

theorem feasPenalties_perm (σ : Equiv.Perm (Fin I)) (scale : ℝ) (c : Bool) (G : Fin I → Matrix (Fin R) (Fin R) ℝ) :
    feasPenalties scale c (fun i => G (σ i)) = (feasPenalties scale c G).map fun x => (x.1, fun i => x.2 (σ i)) := by
  unfold feasPenalties
  cases c
  · rfl
  · simp only [if_true]
    rw [vecMax_perm σ fun i => feasPenalty scale (G i)]
    cases vecMax (List.ofFn fun i => feasPenalty scale (G i)) <;> rfl

theorem matNorm_perm (σ : Equiv.Perm (Fin I)) {n : ℕ} (X : Matrix (Fin I) (Fin n) ℝ) : matNorm (fun i => X (σ i) : Matrix (Fin I) (Fin n) ℝ) = matNorm X := by
  unfold matNorm
  rw [Equiv.sum_comp σ fun i => ∑ j, X i j ^ 2]

theorem rootSumSq_perm (σ : Equiv.Perm (Fin I)) {n : ℕ} (X : Ragged I n J) : rootSumSq (J := fun i => J (σ i)) (fun i => X (σ i)) = rootSumSq X := by
  unfold rootSumSq
  rw [Equiv.sum_comp σ fun i => ∑ j, ∑ k, X i j k ^ 2]

theorem subtract_perm (σ : Equiv.Perm (Fin I)) (x : AuxB I R J) (d : Ragged I R J) :
    (permAux σ x).subtract (fun i => d (σ i)) = fun i => x.subtract d (σ i) := by
  cases x <;> rfl

theorem matGap_perm (σ : Equiv.Perm (Fin I)) (X Z : Matrix (Fin I) (Fin R) ℝ) :
    matGap (fun i => X (σ i) : Matrix (Fin I) (Fin R) ℝ) (fun i => Z (σ i)) = matGap X Z := by
  unfold matGap
  rw [matNorm_perm σ X, ← matNorm_perm σ (Z - X)]
  rfl

theorem raggedGap_perm (σ : Equiv.Perm (Fin I)) (X : Ragged I R J) (Z : AuxB I R J) :
    raggedGap (fun i => X (σ i)) (permAux σ Z) = raggedGap X Z := by
  unfold raggedGap
  rw [rootSumSq_perm σ X, subtract_perm, rootSumSq_perm σ]

/-- Variables of the A-update in the other order. -/
def permM (σ : Equiv.Perm (Fin I)) {n : ℕ} (s : MatState I R n) : MatState I R n :=
  ⟨fun i => s.x (σ i), fun p i => s.aux p (σ i), fun p i => s.dual p (σ i)⟩

/-- Variables of the B-update in the other order. -/
def permR (σ : Equiv.Perm (Fin I)) {n : ℕ} (s : RagState I R n J) : RagState I R n fun i => J (σ i) :=
  ⟨fun i => s.x (σ i), fun p => permAux σ (s.aux p), fun p i => s.dual p (σ i)⟩

theorem matStop_perm (σ : Equiv.Perm (Fin I)) {n : ℕ} (tol : Option ℝ) (s s' : MatState I R n) :
    matStop tol (permM σ s) (permM σ s') = matStop tol s s' := by
  unfold matStop
  rw [show (permM σ s').x = fun i => s'.x (σ i) from rfl, matNorm_perm, ← matNorm_perm σ (s'.x - s.x)]
  congr 1
  congr 1
  funext p
  exact matGap_perm σ _ _

theorem ragStop_perm (σ : Equiv.Perm (Fin I)) {n : ℕ} (tol : Option ℝ) (s s' : RagState I R n J) :
    ragStop tol (permR σ s) (permR σ s') = ragStop tol s s' := by
  unfold ragStop
  rw [show (permR σ s').x = fun i => s'.x (σ i) from rfl, rootSumSq_perm, ← rootSumSq_perm σ (fun i => s'.x i - s.x i)]
  congr 1
  congr 1
  funext p
  exact raggedGap_perm σ _ _

theorem matState_ext {n : ℕ} {a b : MatState I R n} (h1 : a.x = b.x) (h2 : a.aux = b.aux) (h3 : a.dual = b.dual) : a = b := by
  cases a; cases b; cases h1; cases h2; cases h3; rfl

theorem admmUpdateA_perm (σ : Equiv.Perm (Fin I)) {n : ℕ} (prm : Params R) (X : Ragged I K J) (pens : Fin n → PenA I R) (l2 : ℝ) (c : Bool)
    (hp : ∀ p, OrderFreeA σ c (pens p)) (F : Factors I K R J) (aux dual : Fin n → Matrix (Fin I) (Fin R) ℝ) :
    admmUpdateA prm (fun i => X (σ i)) pens l2 c (permF σ F) (fun p i => aux p (σ i)) (fun p i => dual p (σ i)) =
      (admmUpdateA prm X pens l2 c F aux dual).map (permM σ) := by
  unfold admmUpdateA
  rw [show crossA (permF σ F) = fun i => crossA F (σ i) from rfl, feasPenalties_perm]
  cases hf : feasPenalties prm.scale c (crossA F) with
  | error e => rfl
  | ok ρ =>
    simp only [Except.map, Except.bind]
    split
    · rfl
    · rename_i hrow
      have hc : ∀ m, ρ.1 = some m → c = true := by
        intro m hm
        cases c
        · cases hf; cases hm
        · rfl
      refine congrArg Except.ok (innerLoop_map (f := permM σ) (s := ⟨F.A, aux, dual⟩) (fun s => ?_) (matStop_perm σ _) _)
      have ha : ∀ (p : Fin n) (Y Z : Matrix (Fin I) (Fin R) ℝ), auxA (pens p) ρ.1 (fun i => ρ.2 (σ i)) (fun i => Y (σ i)) (fun i => Z (σ i)) =
          fun i => auxA (pens p) ρ.1 ρ.2 Y Z (σ i) := by
        intro p Y Z
        unfold auxA
        cases h1 : ρ.1 with
        | some m => exact (hp p).2 (hc m h1) Y m Z
        | none => cases (pens p).row <;> rfl
      set t := stepA pens ρ.1 ρ.2 (fun i => prm.svd (addRidge (crossA F i) (ρ.2 i) n l2)) (rhsA X F) s with ht
      set t' := stepA pens ρ.1 (fun i => ρ.2 (σ i)) (fun i => prm.svd (addRidge (crossA F (σ i)) (ρ.2 (σ i)) n l2)) (rhsA (fun i => X (σ i)) (permF σ F))
        (permM σ s) with ht'
      have hx : t'.x = fun i => t.x (σ i) := rfl
      have haux : ∀ p, t'.aux p = fun i => t.aux p (σ i) := fun p => ha p (t.x + s.dual p) (s.aux p)
      have hdual : ∀ p, t'.dual p = fun i => t.dual p (σ i) := by
        intro p
        show t'.x - (t'.aux p - (permM σ s).dual p) = _
        rw [haux p, hx]
        rfl
      exact matState_ext hx (funext haux) (funext hdual)

theorem admmUpdateB_perm (σ : Equiv.Perm (Fin I)) {n : ℕ} (prm : Params R) (X : Ragged I K J) (pens : Fin n → PenB I R J)
    (pens' : Fin n → PenB I R fun i => J (σ i)) (l2 : ℝ) (c : Bool) (hp : ∀ p, ReorderedB σ (pens p) (pens' p)) (F : Factors I K R J)
    (aux : Fin n → AuxB I R J) (dual : Fin n → Ragged I R J) :
    admmUpdateB prm (fun i => X (σ i)) pens' l2 c (permF σ F) (fun p => permAux σ (aux p)) (fun p i => dual p (σ i)) =
      (admmUpdateB prm X pens l2 c F aux dual).map (permR σ) := by
  unfold admmUpdateB
  rw [show crossB (permF σ F) = fun i => crossB F (σ i) from rfl, feasPenalties_perm]
  cases feasPenalties prm.scale c (crossB F) with
  | error e => rfl
  | ok ρ =>
    simp only [Except.map, Except.bind]
    refine congrArg Except.ok (innerLoop_map (f := permR σ) (s := ⟨F.B, aux, dual⟩) (fun s => ?_) (ragStop_perm σ _) _)
    have hx : ∀ i, svdSolve (prm.svd (addRidge (crossB F (σ i)) (ρ.2 (σ i)) n l2))
        (ρ.2 (σ i) • (∑ p, ((permR σ s).aux p).subtract ((permR σ s).dual p) i) + rhsB (fun i => X (σ i)) (permF σ F) i) =
        svdSolve (prm.svd (addRidge (crossB F (σ i)) (ρ.2 (σ i)) n l2)) (ρ.2 (σ i) • (∑ p, (s.aux p).subtract (s.dual p) (σ i)) + rhsB X F (σ i)) := by
      intro i
      have : ∀ p, ((permR σ s).aux p).subtract ((permR σ s).dual p) i = (s.aux p).subtract (s.dual p) (σ i) :=
        fun p => congrFun (subtract_perm σ (s.aux p) (s.dual p)) i
      simp only [this]
      rfl
    unfold stepB
    simp only [hx]
    have e : ∀ p, (pens' p).update (fun i => svdSolve (prm.svd (addRidge (crossB F (σ i)) (ρ.2 (σ i)) n l2))
        (ρ.2 (σ i) • (∑ p, (s.aux p).subtract (s.dual p) (σ i)) + rhsB X F (σ i)) + (permR σ s).dual p i) (fun i => ρ.2 (σ i)) ((permR σ s).aux p) = _ :=
      fun p => (hp p).2 (fun i => svdSolve (prm.svd (addRidge (crossB F i) (ρ.2 i) n l2))
        (ρ.2 i • (∑ p, (s.aux p).subtract (s.dual p) i) + rhsB X F i) + s.dual p i) ρ.2 (s.aux p)
    simp only [e]
    unfold permR
    congr 1
    funext p i
    simp only
    rw [show (permAux σ _).subtract (fun i => s.dual p (σ i)) i = _ from congrFun (subtract_perm σ _ (s.dual p)) i]

theorem admmUpdateC_perm (σ : Equiv.Perm (Fin I)) {n : ℕ} (prm : Params R) (X : Ragged I K J) (pens : Fin n → PenC K R) (l2 : ℝ) (F : Factors I K R J)
    (aux dual : Fin n → Matrix (Fin K) (Fin R) ℝ) :
    admmUpdateC prm (fun i => X (σ i)) pens l2 (permF σ F) aux dual = admmUpdateC prm X pens l2 F aux dual := by
  have h1 : crossC (permF σ F) = crossC F := Equiv.sum_comp σ fun i => (scaledB F i).transpose * scaledB F i
  have h2 : rhsC (fun i => X (σ i)) (permF σ F) = rhsC X F := Equiv.sum_comp σ fun i => (X i).transpose * scaledB F i
  unfold admmUpdateC
  rw [h1, h2]
  rfl

/-! ### The loop -/

theorem sweep_perm (σ : Equiv.Perm (Fin I)) (P : Problem I K R nA nB nC J) (pensB : Fin nB → PenB I R fun i => J (σ i))
    (hA : ∀ p, OrderFreeA σ P.constA (P.pensA p)) (hB : ∀ p, ReorderedB σ (P.pensB p) (pensB p)) (s : AOState I K R nA nB nC J) :
    (sweep (permP σ P pensB) (permS σ s)).map Prod.fst = (sweep P s).map fun x => permS σ x.1 := by
  have eB : sweepB (permP σ P pensB) (permS σ s) = (sweepB P s).map (permS σ) := by
    unfold sweepB
    rw [show (permP σ P pensB).updB = P.updB from rfl]
    cases P.updB
    · rfl
    · simp only [if_true]
      have := admmUpdateB_perm σ P.params P.X P.pensB pensB P.l2.2.1 P.constB hB s.F s.auxB s.dualB
      rw [show admmUpdateB (permP σ P pensB).params (permP σ P pensB).X (permP σ P pensB).pensB (permP σ P pensB).l2.2.1 (permP σ P pensB).constB
        (permS σ s).F (permS σ s).auxB (permS σ s).dualB = _ from this]
      cases admmUpdateB P.params P.X P.pensB P.l2.2.1 P.constB s.F s.auxB s.dualB <;> rfl
  have eC : ∀ u, sweepC (permP σ P pensB) (permS σ u) = permS σ (sweepC P u) := by
    intro u
    unfold sweepC
    rw [show (permP σ P pensB).updC = P.updC from rfl]
    cases P.updC
    · rfl
    · simp only [if_true]
      have := admmUpdateC_perm σ P.params P.X P.pensC P.l2.2.2 u.F u.auxC u.dualC
      rw [show admmUpdateC (permP σ P pensB).params (permP σ P pensB).X (permP σ P pensB).pensC (permP σ P pensB).l2.2.2
        (permS σ u).F (permS σ u).auxC (permS σ u).dualC = _ from this]
      rfl
  have eA : ∀ u, (sweepA (permP σ P pensB) (permS σ u)).map Prod.fst = (sweepA P u).map fun x => permS σ x.1 := by
    intro u
    unfold sweepA
    rw [show (permP σ P pensB).updA = P.updA from rfl]
    cases P.updA
    · rfl
    · simp only [if_true]
      have := admmUpdateA_perm σ P.params P.X P.pensA P.l2.1 P.constA hA u.F u.auxA u.dualA
      rw [show admmUpdateA (permP σ P pensB).params (permP σ P pensB).X (permP σ P pensB).pensA (permP σ P pensB).l2.1 (permP σ P pensB).constA
        (permS σ u).F (permS σ u).auxA (permS σ u).dualA = _ from this]
      cases admmUpdateA P.params P.X P.pensA P.l2.1 P.constA u.F u.auxA u.dualA <;> rfl
  unfold sweep
  rw [eB]
  cases sweepB P s with
  | error e => rfl
  | ok u =>
    simp only [Except.map, Except.bind]
    rw [eC]
    exact eA _

theorem sse_perm (σ : Equiv.Perm (Fin I)) (X : Ragged I K J) (F : Factors I K R J) : sse (fun i => X (σ i)) (permF σ F) = sse X F :=
  Equiv.sum_comp σ fun i => ∑ j, ∑ k, (X i j k - F.entry i j k) ^ 2

/-- The error without intermediate results. -/
theorem relError_direct (P : Problem I K R nA nB nC J) (s : AOState I K R nA nB nC J) :
    (aoOps P).relError s none = .div √(sse P.X (absorb s.weights s.F)) (rootSumSq P.X) := by
  simp only [aoOps]
  rw [recError_direct]

/-- The error after a round of updates. -/
theorem relError_round {P : Problem I K R nA nB nC J} {s t : AOState I K R nA nB nC J} {i} (h : sweep P s = .ok (t, i)) :
    (aoOps P).relError t i = (aoOps P).relError t none := by
  rw [relError_direct]
  simp only [aoOps]
  rw [sweep_recError h]

theorem ops_perm (σ : Equiv.Perm (Fin I)) (P : Problem I K R nA nB nC J) (pensB : Fin nB → PenB I R fun i => J (σ i))
    (hA : ∀ p, OrderFreeA σ P.constA (P.pensA p)) (hB : ∀ p, ReorderedB σ (P.pensB p) (pensB p)) :
    OpsMap (aoOps P) (aoOps (permP σ P pensB)) none none (permS σ) id fun _ _ => True := by
  have hrel : ∀ s, (aoOps (permP σ P pensB)).relError (permS σ s) none = (aoOps P).relError s none := by
    intro s
    rw [relError_direct, relError_direct, ← sse_perm σ P.X, ← rootSumSq_perm σ P.X]
    rfl
  have hsw := fun s => sweep_perm σ P pensB hA hB s
  refine ⟨fun _ s _ x i hx => ⟨trivial, ?_⟩, fun _ s _ e he => ?_, fun _ s _ => ?_, fun _ s _ tol => rfl, fun _ s _ => hrel s, fun _ s _ => ?_⟩
  · have := hsw s
    rw [show sweep P s = .ok (x, i) from hx] at this
    cases h : sweep (permP σ P pensB) (permS σ s) with
    | error e => rw [h] at this; cases this
    | ok y =>
      obtain ⟨y, j⟩ := y
      rw [h] at this
      simp only [Except.map, Except.ok.injEq] at this
      subst this
      exact ⟨j, h, by rw [relError_round h, hrel, relError_round hx]⟩
  · have := hsw s
    rw [show sweep P s = .error e from he] at this
    cases h : sweep (permP σ P pensB) (permS σ s) with
    | error e' => rw [h] at this; simp only [Except.map, Except.error.injEq] at this; rw [← this]; exact h
    | ok y => rw [h] at this; cases this
  · simp only [aoOps, feasibilityGaps, id]
    congr 2
    · funext p; exact matGap_perm σ _ _
    · funext p; exact raggedGap_perm σ _ _
  · simp only [aoOps, l2Penalty_eq]
    have e1 : sqNorm (permS σ s).F.A = sqNorm s.F.A := Equiv.sum_comp σ fun i => ∑ j, s.F.A i j ^ 2
    have e2 : raggedSq (permS σ s).F.B = raggedSq s.F.B := Equiv.sum_comp σ fun i => sqNorm (s.F.B i)
    have e3 : ∀ p, (P.pensA p).value (permS σ s).F.A = (P.pensA p).value s.F.A := fun p => (hA p).1 _
    have e4 : ∀ p, (pensB p).value (permS σ s).F.B = (P.pensB p).value s.F.B := fun p => (hB p).1 _
    simp only [permP, e1, e2, e3, e4]
    rfl

/-- C91: fitting the matrices in another order, from the initial values in that order, gives the same factorization, auxiliary and dual variables in that order, with
the same diagnostics and the same output, or raises the same exception. -/
theorem C91 (σ : Equiv.Perm (Fin I)) (P : Problem I K R nA nB nC J) (pensB : Fin nB → PenB I R fun i => J (σ i))
    (hA : ∀ p, OrderFreeA σ P.constA (P.pensA p)) (hB : ∀ p, ReorderedB σ (P.pensB p) (pensB p)) (a : Args) (init : AOState I K R nA nB nC J) :
    cmfAoadmm (permP σ P pensB) a (permS σ init) = (cmfAoadmm P a init).map fun o => ⟨permS σ o.st, o.diag, o.log⟩ := by
  have := (fit_map (ops_perm σ P pensB hA hB) a init trivial)
  rw [show (Output.map (permS σ) id : Output (AOState I K R nA nB nC J) → _) = fun o => ⟨permS σ o.st, o.diag, o.log⟩ from
    funext (Output.map_id (permS σ))] at this
  exact this

/-- Penalties of the package on mode 1. -/
inductive PkgB (I R : ℕ) (J : Fin I → ℕ)
  | std (p : (i : Fin I) → StdPen (J i) R)
  | parafac2 (svd : (i : Fin I) → Matrix (Fin (J i)) (Fin R) ℝ → SVD (J i) R R) (n : ℕ) (ub uc : Bool)

/-- As penalty on mode 1. -/
noncomputable def PkgB.pen : PkgB I R J → PenB I R J
  | .std p => StdPen.toB p
  | .parafac2 svd n ub uc => .parafac2 svd n ub uc

/-- The same penalty for the matrices in the other order. -/
def PkgB.perm (σ : Equiv.Perm (Fin I)) : PkgB I R J → PkgB I R fun i => J (σ i)
  | .std p => .std fun i => p (σ i)
  | .parafac2 svd n ub uc => .parafac2 (fun i => svd (σ i)) n ub uc

theorem PkgB.reordered (σ : Equiv.Perm (Fin I)) (p : PkgB I R J) : ReorderedB σ p.pen (p.perm σ).pen := by
  cases p with
  | std p => exact reorderedB_ofMat σ (fun i => (p i).mat) fun i => (p i).value
  | parafac2 svd n ub uc => exact reorderedB_parafac2 σ svd n ub uc

/-- A case of C91: non-negativity, L2 balls, bounds or L1 penalties on A, any penalties of the package on the B factor matrices (PARAFAC2, total variation, …),
any penalties on C. -/
theorem C91_package (σ : Equiv.Perm (Fin I)) (P : Problem I K R nA nB nC J) (pA : Fin nA → StdPen I R) (pB : Fin nB → PkgB I R J)
    (hA : P.pensA = fun p => (pA p).toA) (hB : P.pensB = fun p => (pB p).pen)
    (hr : ∀ p, match pA p with | .genL2 .. => False | .tv .. => False | _ => True) (a : Args) (init : AOState I K R nA nB nC J) :
    cmfAoadmm (permP σ P fun p => ((pB p).perm σ).pen) a (permS σ init) = (cmfAoadmm P a init).map fun o => ⟨permS σ o.st, o.diag, o.log⟩ :=
  C91 σ P _ (fun p => by rw [hA]; exact orderFreeA_std σ _ _ (hr p)) (fun p => by rw [hB]; exact (pB p).reordered σ) a init

end Verif.Props
