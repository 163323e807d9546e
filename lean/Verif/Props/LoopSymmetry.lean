import Verif.Props.LoopLabels
import Verif.Props.LoopPerm

/-!
# C134: symmetries of the data and of the initial values are kept
-/

set_option linter.unusedSectionVars false

namespace Verif.Props

open Verif.Loop Verif.ADMM Verif.Penalties Verif.Spec Finset Matrix

variable {I K R m n nA nB nC : ℕ} {J : Fin I → ℕ}

theorem ok_of_map_eq {σ : Type} {x : Except PyErr (Output σ)} {f : σ → σ} {o : Output σ} (h : x = x.map fun o => ⟨f o.st, o.diag, o.log⟩) (ho : x = .ok o) : f o.st = o.st := by
  rw [ho] at h
  exact (congrArg Output.st (Except.ok.inj h)).symm

/-- Initial values that are not changed by new labels lead to results that are not changed by them. -/
theorem kept_labels (L : Labels R) (P : Problem I K R nA nB nC J) (hv : ValidSVD P.params) (hs : 0 ≤ P.params.scale)
    (hl : 0 ≤ P.l2.1 ∧ 0 ≤ P.l2.2.1 ∧ 0 ≤ P.l2.2.2) (hA : ∀ p, LabelFreeA L P.constA (P.pensA p)) (hB : ∀ p, LabelFreeB L (P.pensB p))
    (hC : ∀ p, LabelFreeC L (P.pensC p)) (a : Args) (init : AOState I K R nA nB nC J)
    (hf : ∀ t : ℕ, (t : ℤ) < a.nIterMax → ∀ o, cmfAoadmm P (plain t) init = .ok o → Fixed P o.st) (hi : relS L init = init) (out : Output (AOState I K R nA nB nC J))
    (h : cmfAoadmm P a init = .ok out) : relS L out.st = out.st := by
  have := C95 L P hv hs hl hA hB hC a init hf
  rw [hi] at this
  exact ok_of_map_eq this h

theorem state_ext {s t : AOState I K R nA nB nC J} (h1 : s.weights = t.weights) (h2 : s.F.A = t.F.A) (h3 : s.F.B = t.F.B) (h4 : s.F.C = t.F.C) (h5 : s.auxA = t.auxA)
    (h6 : s.dualA = t.dualA) (h7 : s.auxB = t.auxB) (h8 : s.dualB = t.dualB) (h9 : s.auxC = t.auxC) (h10 : s.dualC = t.dualC) : s = t := by
  obtain ⟨w, ⟨A, B, C⟩, xA, yA, xB, yB, xC, yC⟩ := s
  obtain ⟨w', ⟨A', B', C'⟩, xA', yA', xB', yB', xC', yC'⟩ := t
  dsimp only at *
  subst h1 h2 h3 h4 h5 h6 h7 h8 h9 h10
  rfl

/-! ### Equal components -/

/-- Columns `r` and `q` of the auxiliary variable are equal. -/
def AuxTwins (r q : Fin R) : AuxB I R J → Prop
  | .mats X => ∀ i j, X i j r = X i j q
  | .p2 a => ∀ k, a.coord k r = a.coord k q

/-- Components `r` and `q` are equal: weights, columns of all factors, auxiliary and dual variables. -/
structure Twins (r q : Fin R) (s : AOState I K R nA nB nC J) : Prop where
  weights : ∀ w, s.weights = some w → w r = w q
  A : ∀ i, s.F.A i r = s.F.A i q
  B : ∀ i j, s.F.B i j r = s.F.B i j q
  C : ∀ k, s.F.C k r = s.F.C k q
  auxA : ∀ p i, s.auxA p i r = s.auxA p i q
  dualA : ∀ p i, s.dualA p i r = s.dualA p i q
  auxB : ∀ p, AuxTwins r q (s.auxB p)
  dualB : ∀ p i j, s.dualB p i j r = s.dualB p i j q
  auxC : ∀ p k, s.auxC p k r = s.auxC p k q
  dualC : ∀ p k, s.dualC p k r = s.dualC p k q

/-- The labels `r` and `q` change places. -/
def swapL (r q : Fin R) : Labels R := ⟨Equiv.swap r q, 1, 1, 1, by simp, by simp, by simp, by simp⟩

theorem fun_swap_iff {r q : Fin R} (v : Fin R → ℝ) : (fun k => v (Equiv.swap r q k)) = v ↔ v r = v q := by
  constructor
  · intro h
    have := congrFun h q
    rw [Equiv.swap_apply_right] at this
    exact this
  · intro h
    funext k
    by_cases h1 : k = r
    · rw [h1, Equiv.swap_apply_left, h]
    · by_cases h2 : k = q
      · rw [h2, Equiv.swap_apply_right, h]
      · rw [Equiv.swap_apply_of_ne_of_ne h1 h2]

theorem relMat_swap_iff {r q : Fin R} (M : Matrix (Fin m) (Fin R) ℝ) : relMat (Equiv.swap r q) 1 M = M ↔ ∀ i, M i r = M i q := by
  have : ∀ i, relMat (Equiv.swap r q) 1 M i = fun k => M i (Equiv.swap r q k) := by
    intro i
    funext k
    simp [relMat, relRow]
  constructor
  · intro h i
    exact (fun_swap_iff (M i)).1 ((this i).symm.trans (congrFun h i))
  · intro h
    exact funext fun i => (this i).trans ((fun_swap_iff (M i)).2 (h i))

theorem relAux_swap_iff {r q : Fin R} (a : AuxB I R J) : relAux (swapL r q) a = a ↔ AuxTwins r q a := by
  cases a with
  | mats X =>
    show AuxB.mats _ = AuxB.mats X ↔ ∀ i j, X i j r = X i j q
    rw [AuxB.mats.injEq, funext_iff]
    exact forall_congr' fun i => relMat_swap_iff (X i)
  | p2 b =>
    show AuxB.p2 ⟨b.bases, _⟩ = AuxB.p2 ⟨b.bases, b.coord⟩ ↔ ∀ k, b.coord k r = b.coord k q
    rw [AuxB.p2.injEq, P2Aux.mk.injEq, and_iff_right rfl]
    exact relMat_swap_iff b.coord

theorem twins_iff {r q : Fin R} (s : AOState I K R nA nB nC J) : relS (swapL r q) s = s ↔ Twins r q s := by
  obtain ⟨w, ⟨A, B, C⟩, xA, yA, xB, yB, xC, yC⟩ := s
  have hw : (w.map fun w k => w (Equiv.swap r q k)) = w ↔ ∀ v, w = some v → v r = v q := by
    cases w with
    | none => simp
    | some w => simp [fun_swap_iff]
  constructor
  · intro h
    simp only [relS, relF, AOState.mk.injEq, Factors.mk.injEq] at h
    obtain ⟨h1, ⟨h2, h3, h4⟩, h5, h6, h7, h8, h9, h10⟩ := h
    exact ⟨hw.1 h1, (relMat_swap_iff A).1 h2, fun i => (relMat_swap_iff (B i)).1 (congrFun h3 i), (relMat_swap_iff C).1 h4, fun p => (relMat_swap_iff _).1 (congrFun h5 p),
      fun p => (relMat_swap_iff _).1 (congrFun h6 p), fun p => (relAux_swap_iff _).1 (congrFun h7 p), fun p i => (relMat_swap_iff _).1 (congrFun (congrFun h8 p) i),
      fun p => (relMat_swap_iff _).1 (congrFun h9 p), fun p => (relMat_swap_iff _).1 (congrFun h10 p)⟩
  · intro h
    simp only [relS, relF, AOState.mk.injEq, Factors.mk.injEq]
    exact ⟨hw.2 h.weights, ⟨(relMat_swap_iff A).2 h.A, funext fun i => (relMat_swap_iff (B i)).2 (h.B i), (relMat_swap_iff C).2 h.C⟩,
      funext fun p => (relMat_swap_iff _).2 (h.auxA p), funext fun p => (relMat_swap_iff _).2 (h.dualA p), funext fun p => (relAux_swap_iff _).2 (h.auxB p),
      funext fun p => funext fun i => (relMat_swap_iff _).2 (h.dualB p i), funext fun p => (relMat_swap_iff _).2 (h.auxC p), funext fun p => (relMat_swap_iff _).2 (h.dualC p)⟩

/-- C134: two components that start equal stay equal, for penalties that do not depend on the labels of the components, if the updated factors are determined. -/
theorem C134 (r q : Fin R) (P : Problem I K R nA nB nC J) (hv : ValidSVD P.params) (hs : 0 ≤ P.params.scale)
    (hl : 0 ≤ P.l2.1 ∧ 0 ≤ P.l2.2.1 ∧ 0 ≤ P.l2.2.2) (hA : ∀ p, LabelFreeA (swapL r q) P.constA (P.pensA p)) (hB : ∀ p, LabelFreeB (swapL r q) (P.pensB p))
    (hC : ∀ p, LabelFreeC (swapL r q) (P.pensC p)) (a : Args) (init : AOState I K R nA nB nC J)
    (hf : ∀ t : ℕ, (t : ℤ) < a.nIterMax → ∀ o, cmfAoadmm P (plain t) init = .ok o → Fixed P o.st) (hi : Twins r q init) (out : Output (AOState I K R nA nB nC J))
    (h : cmfAoadmm P a init = .ok out) : Twins r q out.st :=
  (twins_iff _).1 (kept_labels (swapL r q) P hv hs hl hA hB hC a init hf ((twins_iff _).2 hi) out h)

/-- C134 for the penalties of the package (the solver of the total variation penalty has to treat all columns alike), with L2 penalties on the updated modes. -/
theorem C134_package (r q : Fin R) (P : Problem I K R nA nB nC J) (hv : ValidSVD P.params) (hs : 0 ≤ P.params.scale)
    (hl : 0 ≤ P.l2.1 ∧ 0 ≤ P.l2.2.1 ∧ 0 ≤ P.l2.2.2) (rA : P.updA = true → 0 < P.l2.1) (rB : P.updB = true → 0 < P.l2.2.1) (rC : P.updC = true → 0 < P.l2.2.2)
    (pA : Fin nA → StdPen I R) (pB : Fin nB → PkgB I R J) (pC : Fin nC → StdPen K R) (hA : P.pensA = fun p => (pA p).toA) (hB : P.pensB = fun p => (pB p).pen)
    (hC : P.pensC = fun p => (pC p).toC) (sA : ∀ p, SignsOK (Equiv.swap r q) 1 (pA p)) (sB : ∀ p u, pB p = .std u → ∀ i, SignsOK (Equiv.swap r q) 1 (u i))
    (sC : ∀ p, SignsOK (Equiv.swap r q) 1 (pC p)) (a : Args) (init : AOState I K R nA nB nC J) (hi : Twins r q init) (out : Output (AOState I K R nA nB nC J))
    (h : cmfAoadmm P a init = .ok out) : Twins r q out.st := by
  have := C95_package (swapL r q) P hv hs hl rA rB rC pA pB pC hA hB hC sA sB sC a init
  rw [(twins_iff _).2 hi] at this
  exact (twins_iff _).1 (ok_of_map_eq this h)

/-- All components equal: the represented matrices have rank one. -/
theorem twins_rank_one (r : Fin R) {s : AOState I K R nA nB nC J} (h : ∀ q, Twins q r s) (i : Fin I) (j : Fin (J i)) (k : Fin K) :
    (absorb s.weights s.F).entry i j k = R * ((absorb s.weights s.F).A i r * s.F.B i j r * s.F.C k r) := by
  have e : ∀ q, (absorb s.weights s.F).A i q = (absorb s.weights s.F).A i r := by
    intro q
    show s.F.A i q * _ = s.F.A i r * _
    rw [(h q).A i]
    cases hw : s.weights with
    | none => rfl
    | some w => simp [(h q).weights w hw]
  simp only [Factors.entry, e]
  rw [show (absorb s.weights s.F).B = s.F.B from rfl, show (absorb s.weights s.F).C = s.F.C from rfl]
  simp only [fun q => (h q).B i j, fun q => (h q).C k]
  simp

/-! ### Components that are switched off -/

/-- Column `r` of the auxiliary variable is zero. -/
def AuxZero (r : Fin R) : AuxB I R J → Prop
  | .mats X => ∀ i j, X i j r = 0
  | .p2 a => ∀ k, a.coord k r = 0

/-- Column `r` is zero in the factors of the modes in question, and in their auxiliary and dual variables. -/
structure Off (r : Fin R) (oA oB oC : Bool) (s : AOState I K R nA nB nC J) : Prop where
  A : oA = true → (∀ i, s.F.A i r = 0) ∧ ∀ p i, s.auxA p i r = 0 ∧ s.dualA p i r = 0
  B : oB = true → (∀ i j, s.F.B i j r = 0) ∧ ∀ p, AuxZero r (s.auxB p) ∧ ∀ i j, s.dualB p i j r = 0
  C : oC = true → (∀ k, s.F.C k r = 0) ∧ ∀ p k, s.auxC p k r = 0 ∧ s.dualC p k r = 0

/-- The sign of column `r` changes. -/
def flipS (r : Fin R) (o : Bool) : Fin R → ℝ := fun k => if o = true ∧ k = r then -1 else 1

theorem flipS_sq (r : Fin R) (o : Bool) (k : Fin R) : flipS r o k * flipS r o k = 1 := by
  unfold flipS
  split <;> norm_num

/-- The signs of column `r` change in two modes (or none). -/
def flipL (r : Fin R) (oA oB oC : Bool) (h : (oA ^^ oB ^^ oC) = false) : Labels R where
  π := 1
  a := flipS r oA
  b := flipS r oB
  c := flipS r oC
  sqA := flipS_sq r oA
  sqB := flipS_sq r oB
  sqC := flipS_sq r oC
  prod k := by
    by_cases hk : k = r <;> revert h <;> cases oA <;> cases oB <;> cases oC <;> simp [flipS, hk]

theorem relMat_flip_iff {r : Fin R} {o : Bool} (M : Matrix (Fin m) (Fin R) ℝ) : relMat 1 (flipS r o) M = M ↔ (o = true → ∀ i, M i r = 0) := by
  constructor
  · intro h ho i
    have := congrFun (congrFun h i) r
    simp only [relMat, relRow, flipS, ho, of_apply, and_self, if_true, Equiv.Perm.coe_one, id_eq] at this
    linarith
  · intro h
    ext i k
    show M i k * flipS r o k = M i k
    unfold flipS
    split
    · rename_i hk
      rw [hk.2, h hk.1 i]
      ring
    · ring

theorem relAux_flip_iff {r : Fin R} {oA oB oC : Bool} (he : (oA ^^ oB ^^ oC) = false) (a : AuxB I R J) : relAux (flipL r oA oB oC he) a = a ↔ (oB = true → AuxZero r a) := by
  cases a with
  | mats X =>
    show AuxB.mats _ = AuxB.mats X ↔ (oB = true → ∀ i j, X i j r = 0)
    rw [AuxB.mats.injEq, funext_iff]
    exact (forall_congr' fun i => relMat_flip_iff (X i)).trans ⟨fun h ho i => h i ho, fun h i ho => h ho i⟩
  | p2 b =>
    show AuxB.p2 ⟨b.bases, _⟩ = AuxB.p2 ⟨b.bases, b.coord⟩ ↔ (oB = true → ∀ k, b.coord k r = 0)
    rw [AuxB.p2.injEq, P2Aux.mk.injEq, and_iff_right rfl]
    exact relMat_flip_iff b.coord

theorem off_iff {r : Fin R} {oA oB oC : Bool} (he : (oA ^^ oB ^^ oC) = false) (s : AOState I K R nA nB nC J) : relS (flipL r oA oB oC he) s = s ↔ Off r oA oB oC s := by
  obtain ⟨w, ⟨A, B, C⟩, xA, yA, xB, yB, xC, yC⟩ := s
  have hw : (w.map fun w k => w ((flipL r oA oB oC he).π k)) = w := by
    cases w <;> rfl
  constructor
  · intro h
    simp only [relS, relF, AOState.mk.injEq, Factors.mk.injEq] at h
    obtain ⟨h1, ⟨h2, h3, h4⟩, h5, h6, h7, h8, h9, h10⟩ := h
    exact ⟨fun o => ⟨(relMat_flip_iff A).1 h2 o, fun p i => ⟨(relMat_flip_iff _).1 (congrFun h5 p) o i, (relMat_flip_iff _).1 (congrFun h6 p) o i⟩⟩,
      fun o => ⟨fun i => (relMat_flip_iff _).1 (congrFun h3 i) o, fun p => ⟨(relAux_flip_iff he _).1 (congrFun h7 p) o, fun i => (relMat_flip_iff _).1 (congrFun (congrFun h8 p) i) o⟩⟩,
      fun o => ⟨(relMat_flip_iff C).1 h4 o, fun p i => ⟨(relMat_flip_iff _).1 (congrFun h9 p) o i, (relMat_flip_iff _).1 (congrFun h10 p) o i⟩⟩⟩
  · intro h
    simp only [relS, relF, AOState.mk.injEq, Factors.mk.injEq]
    exact ⟨hw, ⟨(relMat_flip_iff A).2 fun o => (h.A o).1, funext fun i => (relMat_flip_iff (B i)).2 fun o => (h.B o).1 i, (relMat_flip_iff C).2 fun o => (h.C o).1⟩,
      funext fun p => (relMat_flip_iff _).2 fun o i => ((h.A o).2 p i).1, funext fun p => (relMat_flip_iff _).2 fun o i => ((h.A o).2 p i).2,
      funext fun p => (relAux_flip_iff he _).2 fun o => ((h.B o).2 p).1, funext fun p => funext fun i => (relMat_flip_iff _).2 fun o => ((h.B o).2 p).2 i,
      funext fun p => (relMat_flip_iff _).2 fun o i => ((h.C o).2 p i).1, funext fun p => (relMat_flip_iff _).2 fun o i => ((h.C o).2 p i).2⟩

/-- C134, zero components: a component that starts at zero in two modes stays at zero in these modes, for penalties that do not depend on the sign of the component. -/
theorem C134_off (r : Fin R) {oA oB oC : Bool} (he : (oA ^^ oB ^^ oC) = false) (P : Problem I K R nA nB nC J) (hv : ValidSVD P.params) (hs : 0 ≤ P.params.scale)
    (hl : 0 ≤ P.l2.1 ∧ 0 ≤ P.l2.2.1 ∧ 0 ≤ P.l2.2.2) (hA : ∀ p, LabelFreeA (flipL r oA oB oC he) P.constA (P.pensA p)) (hB : ∀ p, LabelFreeB (flipL r oA oB oC he) (P.pensB p))
    (hC : ∀ p, LabelFreeC (flipL r oA oB oC he) (P.pensC p)) (a : Args) (init : AOState I K R nA nB nC J)
    (hf : ∀ t : ℕ, (t : ℤ) < a.nIterMax → ∀ o, cmfAoadmm P (plain t) init = .ok o → Fixed P o.st) (hi : Off r oA oB oC init) (out : Output (AOState I K R nA nB nC J))
    (h : cmfAoadmm P a init = .ok out) : Off r oA oB oC out.st :=
  (off_iff he _).1 (kept_labels _ P hv hs hl hA hB hC a init hf ((off_iff he _).2 hi) out h)

/-- C134_off for the penalties of the package, with L2 penalties on the updated modes. -/
theorem C134_off_package (r : Fin R) {oA oB oC : Bool} (he : (oA ^^ oB ^^ oC) = false) (P : Problem I K R nA nB nC J) (hv : ValidSVD P.params) (hs : 0 ≤ P.params.scale)
    (hl : 0 ≤ P.l2.1 ∧ 0 ≤ P.l2.2.1 ∧ 0 ≤ P.l2.2.2) (rA : P.updA = true → 0 < P.l2.1) (rB : P.updB = true → 0 < P.l2.2.1) (rC : P.updC = true → 0 < P.l2.2.2)
    (pA : Fin nA → StdPen I R) (pB : Fin nB → PkgB I R J) (pC : Fin nC → StdPen K R) (hA : P.pensA = fun p => (pA p).toA) (hB : P.pensB = fun p => (pB p).pen)
    (hC : P.pensC = fun p => (pC p).toC) (sA : ∀ p, SignsOK 1 (flipS r oA) (pA p)) (sB : ∀ p u, pB p = .std u → ∀ i, SignsOK 1 (flipS r oB) (u i))
    (sC : ∀ p, SignsOK 1 (flipS r oC) (pC p)) (a : Args) (init : AOState I K R nA nB nC J) (hi : Off r oA oB oC init) (out : Output (AOState I K R nA nB nC J))
    (h : cmfAoadmm P a init = .ok out) : Off r oA oB oC out.st := by
  have := C95_package (flipL r oA oB oC he) P hv hs hl rA rB rC pA pB pC hA hB hC sA sB sC a init
  rw [(off_iff he _).2 hi] at this
  exact (off_iff he _).1 (ok_of_map_eq this h)

theorem flipS_false (r : Fin R) : flipS r false = 1 := by
  funext k
  simp [flipS]

/-! ### Equal matrices -/

/-- C134, equal matrices: two equal data matrices that start with equal rows of A, B factor matrices, auxiliary and dual variables keep equal ones, for penalties that do not
depend on the order of the matrices. -/
theorem C134_matrices {J₀ : ℕ} (i i' : Fin I) (P : Problem I K R nA nB nC fun _ => J₀) (hX : P.X i = P.X i') (hA : ∀ p, OrderFreeA (Equiv.swap i i') P.constA (P.pensA p))
    (hB : ∀ p, ReorderedB (Equiv.swap i i') (P.pensB p) (P.pensB p)) (a : Args) (init : AOState I K R nA nB nC fun _ => J₀) (hi : permS (Equiv.swap i i') init = init)
    (out : Output (AOState I K R nA nB nC fun _ => J₀)) (h : cmfAoadmm P a init = .ok out) :
    permS (Equiv.swap i i') out.st = out.st ∧ out.st.F.A i = out.st.F.A i' ∧ out.st.F.B i = out.st.F.B i' := by
  have e : permP (Equiv.swap i i') P P.pensB = P := by
    have : (fun k => P.X (Equiv.swap i i' k)) = P.X := by
      funext k
      by_cases h1 : k = i
      · rw [h1, Equiv.swap_apply_left, hX]
      · by_cases h2 : k = i'
        · rw [h2, Equiv.swap_apply_right, hX]
        · rw [Equiv.swap_apply_of_ne_of_ne h1 h2]
    show (⟨fun k => P.X (Equiv.swap i i' k), P.pensA, P.pensB, P.pensC, P.l2, P.params, P.constA, P.constB, P.updA, P.updB, P.updC⟩ : Problem I K R nA nB nC fun _ => J₀) = P
    rw [this]
  have key := C91 (Equiv.swap i i') P P.pensB hA hB a init
  rw [e, hi] at key
  have hk : permS (Equiv.swap i i') out.st = out.st := ok_of_map_eq (f := permS (Equiv.swap i i')) key h
  refine ⟨hk, ?_, ?_⟩
  · have := congrFun (congrArg (fun s => s.F.A) hk) i'
    change out.st.F.A (Equiv.swap i i' i') = _ at this
    rw [Equiv.swap_apply_right] at this
    exact this
  · have := congrFun (congrArg (fun s => s.F.B) hk) i'
    change out.st.F.B (Equiv.swap i i' i') = _ at this
    rw [Equiv.swap_apply_right] at this
    exact this

/-! ### An example -/

/-- Rank 3, non-negative A, Parafac2 on B, an L1 penalty on C: started with constant factors and variables, every call ends with matrices of rank one, whatever the data and the
number of iterations. -/
theorem C134_example (X : Ragged 4 5 ![2, 3, 4, 3]) (prm : Params 3) (hv : ValidSVD prm) (hs : 0 ≤ prm.scale)
    (svd : (i : Fin 4) → Matrix (Fin (![2, 3, 4, 3] i)) (Fin 3) ℝ → SVD (![2, 3, 4, 3] i) 3 3) (bases : (i : Fin 4) → Matrix (Fin (![2, 3, 4, 3] i)) (Fin 3) ℝ) (a : Args)
    (out : Output (AOState 4 5 3 1 1 1 ![2, 3, 4, 3]))
    (h : cmfAoadmm ⟨X, fun _ => StdPen.nonNeg.toA, fun _ => .parafac2 svd 5 true true, fun _ => (StdPen.l1 1 false).toC, (1, 1, 1), prm, false, false, true, true, true⟩ a
      ⟨none, ⟨fun _ _ => 1, fun _ _ _ => 1, fun _ _ => 1⟩, fun _ _ _ => 1, fun _ => 0, fun _ => .p2 ⟨bases, fun _ _ => 1⟩, fun _ => 0, fun _ _ _ => 1, fun _ => 0⟩ = .ok out) :
    ∀ i j k, (absorb out.st.weights out.st.F).entry i j k = 3 * ((absorb out.st.weights out.st.F).A i 0 * out.st.F.B i j 0 * out.st.F.C k 0) := by
  have key : ∀ q, Twins q 0 out.st := by
    intro q
    refine C134_package q 0 _ hv hs ⟨zero_le_one, zero_le_one, zero_le_one⟩ (fun _ => zero_lt_one) (fun _ => zero_lt_one) (fun _ => zero_lt_one) (fun _ => .nonNeg)
      (fun _ => .parafac2 svd 5 true true) (fun _ => .l1 1 false) rfl rfl rfl (fun _ => rfl) (fun _ _ h => by cases h) (fun _ => .inl rfl) a _ ?_ out h
    exact ⟨(fun _ h => by cases h), fun _ => rfl, fun _ _ => rfl, fun _ => rfl, fun _ _ => rfl, fun _ _ => rfl, fun _ => fun _ => rfl, fun _ _ _ => rfl, fun _ _ => rfl,
      fun _ _ => rfl⟩
  intro i j k
  have := twins_rank_one 0 key i j k
  exact_mod_cast this

/-- Non-negative A, Parafac2 on B, an L1 penalty on C: a component of B and C started at zero stays zero, whatever A, the data and the other components are. -/
theorem C134_off_example (X : Ragged 4 5 ![2, 3, 4, 3]) (prm : Params 3) (hv : ValidSVD prm) (hs : 0 ≤ prm.scale)
    (svd : (i : Fin 4) → Matrix (Fin (![2, 3, 4, 3] i)) (Fin 3) ℝ → SVD (![2, 3, 4, 3] i) 3 3) (bases : (i : Fin 4) → Matrix (Fin (![2, 3, 4, 3] i)) (Fin 3) ℝ) (a : Args)
    (A : Matrix (Fin 4) (Fin 3) ℝ) (out : Output (AOState 4 5 3 1 1 1 ![2, 3, 4, 3]))
    (h : cmfAoadmm ⟨X, fun _ => StdPen.nonNeg.toA, fun _ => .parafac2 svd 5 true true, fun _ => (StdPen.l1 1 false).toC, (1, 1, 1), prm, false, false, true, true, true⟩ a
      ⟨none, ⟨A, fun i => Matrix.of fun j => ![(i : ℝ) + j, 1, 0], Matrix.of fun k => ![1, (k : ℝ), 0]⟩, fun _ => A, fun _ => A, fun _ => .p2 ⟨bases, !![1, 2, 0; 0, 1, 0; 3, 0, 0]⟩,
        fun _ => 0, fun _ => 0, fun _ => 0⟩ = .ok out) : (∀ i j, out.st.F.B i j 2 = 0) ∧ ∀ k, out.st.F.C k 2 = 0 := by
  have key : Off 2 false true true out.st := by
    refine C134_off_package 2 rfl _ hv hs ⟨zero_le_one, zero_le_one, zero_le_one⟩ (fun _ => zero_lt_one) (fun _ => zero_lt_one) (fun _ => zero_lt_one) (fun _ => .nonNeg)
      (fun _ => .parafac2 svd 5 true true) (fun _ => .l1 1 false) rfl rfl rfl (fun _ => flipS_false 2) (fun _ _ h => by cases h) (fun _ => .inr rfl) a _ ?_ out h
    refine ⟨(fun h => by cases h), fun _ => ⟨fun _ _ => rfl, fun _ => ⟨?_, fun _ _ => rfl⟩⟩, fun _ => ⟨fun _ => rfl, fun _ _ => ⟨rfl, rfl⟩⟩⟩
    intro k
    fin_cases k <;> rfl
  exact ⟨(key.B rfl).1, (key.C rfl).1⟩

/-- Three matrices, the first and the last equal, an L1 penalty on A and Parafac2 with one SVD routine on B. -/
theorem C134_matrices_example (Y Z : Matrix (Fin 3) (Fin 5) ℝ) (prm : Params 2) (svd : Matrix (Fin 3) (Fin 2) ℝ → SVD 3 2 2) (a : Args)
    (out : Output (AOState 3 5 2 1 1 1 fun _ => 3))
    (h : cmfAoadmm ⟨![Y, Z, Y], fun _ => (StdPen.l1 1 true).toA, fun _ => .parafac2 (fun _ => svd) 5 true true, fun _ => StdPen.nonNeg.toC, (0, 0, 0), prm, false, false, true, true,
      true⟩ a ⟨none, ⟨!![1, 2; 3, 4; 1, 2], ![!![1, 2; 0, 1; 1, 1], 0, !![1, 2; 0, 1; 1, 1]], fun _ _ => 1⟩, fun _ => 0, fun _ => 0,
        fun _ => .p2 ⟨fun _ => !![1, 0; 0, 1; 0, 0], 1⟩, fun _ _ => 0, fun _ => 0, fun _ => 0⟩ = .ok out) :
    out.st.F.A 0 = out.st.F.A 2 ∧ out.st.F.B 0 = out.st.F.B 2 := by
  refine (C134_matrices 0 2 _ ?_ ?_ ?_ a _ ?_ out h).2
  · rfl
  · intro p
    exact orderFreeA_std _ _ (.l1 1 true) trivial
  · intro p
    exact (PkgB.parafac2 (J := fun _ => 3) (fun _ => svd) 5 true true).reordered (Equiv.swap 0 2)
  · have e : ∀ {α : Type} (f : Fin 3 → α), f 0 = f 2 → (fun i => f (Equiv.swap 0 2 i)) = f := by
      intro α f hf
      funext i
      fin_cases i
      · exact hf.symm
      · rfl
      · exact hf
    have hA := e (!![(1 : ℝ), 2; 3, 4; 1, 2]) rfl
    have hB := e (![!![1, 2; 0, 1; 1, 1], 0, !![1, 2; 0, 1; 1, 1]] : Fin 3 → Matrix (Fin 3) (Fin 2) ℝ) rfl
    exact state_ext rfl hA hB rfl rfl rfl rfl rfl rfl rfl

end Verif.Props
