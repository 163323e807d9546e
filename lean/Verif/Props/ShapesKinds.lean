import Mathlib.Tactic.Tauto
import Verif.Shapes.Kinds
import Verif.Props.Shapes

/-!
# C130: which penalties fit the data
-/

set_option linter.unusedSectionVars false

namespace Verif.Props

open Verif.Shapes

/-- A matrix with `n` rows can be penalised: the norm matrix has `n` rows, and the penalty is not `Parafac2`. -/
def SuitsMatrix (n : ℕ) : Kind → Prop
  | .row => True
  | .mat => True
  | .gen m => m = n
  | .p2 .. => False

/-- Matrices with the given numbers of rows can be penalised: the norm matrix has these numbers of rows (so they are all equal). -/
def SuitsMatrices (rows : List ℕ) : Kind → Prop
  | .gen m => ∀ n ∈ rows, m = n
  | _ => True

/-- The basis matrices can be updated: every matrix has at least as many rows as there are components, unless the SVD function only returns existing singular vectors or they are not updated. -/
def SuitsBases (rows : List ℕ) (R : ℕ) : Kind → Prop
  | .p2 full it ub _ => it ≠ 0 → ub = true → full = true → ∀ n ∈ rows, R ≤ n
  | _ => True

/-- `m` returns, with `y` as result, exactly if `P` holds. -/
def Yields {α : Type} (m : Except PyErr α) (P : Prop) (y : α) : Prop := (P → m = .ok y) ∧ ∀ r, m = .ok r → P

namespace Yields

variable {α β σ : Type}

theorem of_eq {m : Except PyErr α} {y : α} (h : m = .ok y) : Yields m True y := ⟨fun _ => h, fun _ _ => trivial⟩

theorem of_error {m : Except PyErr α} {e : PyErr} {y : α} (h : m = .error e) : Yields m False y := ⟨False.elim, fun r hr => by rw [h] at hr; cases hr⟩

theorem iff {m : Except PyErr α} {P Q : Prop} {y : α} (h : Yields m P y) (hPQ : P ↔ Q) : Yields m Q y := ⟨fun q => h.1 (hPQ.2 q), fun r hr => hPQ.1 (h.2 r hr)⟩

theorem bind {m : Except PyErr α} {f : α → Except PyErr β} {P Q : Prop} {y : α} {z : β} (h : Yields m P y) (hf : Yields (f y) Q z) : Yields (m >>= f) (P ∧ Q) z := by
  refine ⟨fun hp => by rw [h.1 hp.1, ok_bind, hf.1 hp.2], fun r hr => ?_⟩
  obtain ⟨a, ha, hr⟩ := bind_ok.1 hr
  have hp := h.2 a ha
  rw [h.1 hp] at ha
  cases ha
  exact ⟨hp, hf.2 r hr⟩

theorem bindOk {m : Except PyErr α} {f : α → Except PyErr β} {P : Prop} {y : α} {z : β} (h : Yields m P y) (hf : f y = .ok z) : Yields (m >>= f) P z := (h.bind (of_eq hf)).iff (by simp)

/-- The value is only relevant if the first part returns. -/
theorem bind_of {m : Except PyErr α} {f : α → Except PyErr β} {y : α} (h : m = .ok y) {Q : Prop} {z : β} (hf : Yields (f y) Q z) : Yields (m >>= f) Q z := by
  rw [h, ok_bind]
  exact hf

theorem mapM {f : α → Except PyErr β} {P : α → Prop} {g : α → β} : ∀ {l : List α}, (∀ x ∈ l, Yields (f x) (P x) (g x)) → Yields (l.mapM f) (∀ x ∈ l, P x) (l.map g)
  | [], _ => (of_eq (y := []) rfl).iff (by simp)
  | a :: l, h => by
    rw [List.mapM_cons]
    have ih := mapM (l := l) fun x hx => h x (List.mem_cons_of_mem _ hx)
    have h2 : Yields (do let r ← l.mapM f; pure (g a :: r)) ((∀ x ∈ l, P x) ∧ True) (g a :: l.map g) := ih.bind (of_eq rfl)
    exact ((h a List.mem_cons_self).bind h2).iff (by simp)

theorem times {f : σ → Except PyErr σ} {P : Prop} {s : σ} (h : Yields (f s) P s) : ∀ n, Yields (times f n s) (n ≠ 0 → P) s
  | 0 => (of_eq rfl).iff (by simp)
  | n + 1 => (h.bind (times h n)).iff (by simp; tauto)

theorem ite {c : Bool} {m m' : Except PyErr α} {P Q : Prop} {y : α} (h : Yields m P y) (h' : Yields m' Q y) : Yields (if c = true then m else m') ((c = true → P) ∧ (c = false → Q)) y := by
  cases c
  · simpa using h'
  · simpa using h

end Yields

theorem dot_yields (s t : Sh) : Yields (dot s t) (s.2 = t.1) (s.1, t.2) := by
  refine ⟨fun h => ?_, fun r hr => ?_⟩
  · rw [dot, if_pos h]
  · rw [dot] at hr
    split at hr
    · assumption
    · cases hr

section
variable {rows : List ℕ} {k R : ℕ}

theorem updMat_yields (κ : Kind) (a b : ℕ) : Yields (updMat κ (a, b)) (SuitsMatrix a κ) (a, b) := by
  cases κ with
  | row => exact .of_eq rfl
  | mat => exact .of_eq rfl
  | p2 => exact .of_error rfl
  | gen n =>
    unfold updMat SuitsMatrix
    refine ⟨?_, fun r hr => ?_⟩
    · rintro rfl
      simp [Prod.swap]
    · obtain ⟨x, hx, -⟩ := bind_ok.1 hr
      exact (dot_yields _ _).2 _ hx

theorem value_yields (κ : Kind) (a b : ℕ) : Yields (value κ (a, b)) (SuitsMatrix a κ) () := by
  cases κ with
  | row => exact .of_eq rfl
  | mat => exact .of_eq rfl
  | p2 => exact .of_error rfl
  | gen n =>
    unfold value SuitsMatrix
    refine ⟨?_, fun r hr => ?_⟩
    · rintro rfl
      simp [Prod.swap]
    · obtain ⟨x, hx, -⟩ := bind_ok.1 hr
      exact ((dot_yields _ _).2 _ hx).symm

theorem suits_all (κ : Kind) (hκ : ∀ f i u c, κ ≠ .p2 f i u c) : (∀ s ∈ rows.map fun j => ((j, R) : Sh), SuitsMatrix s.1 κ) ↔ SuitsMatrices rows κ := by
  cases κ with
  | row => simp [SuitsMatrix, SuitsMatrices]
  | mat => simp [SuitsMatrix, SuitsMatrices]
  | gen n => simp [SuitsMatrix, SuitsMatrices]
  | p2 => exact absurd rfl (hκ _ _ _ _)

theorem valueB_yields (κ : Kind) : Yields (valueB κ (rows.map fun j => (j, R))) (SuitsMatrices rows κ) () := by
  have h : Yields (do let _ ← (rows.map fun j => ((j, R) : Sh)).mapM (value κ); return ()) ((∀ s ∈ rows.map fun j => ((j, R) : Sh), SuitsMatrix s.1 κ) ∧ True) () :=
    (Yields.mapM (g := fun _ => ()) fun s _ => value_yields κ s.1 s.2).bind (.of_eq rfl)
  cases κ with
  | p2 => exact .of_eq rfl
  | _ => exact h.iff (by rw [suits_all _ (by simp), and_true])

/-- The variables of a penalty on a matrix. -/
def penOf (s : Sh) (κ : Kind) : PenM := ⟨κ, s, s⟩

theorem stepC_yields (s : Sh) (κ : Kind) : Yields (stepC s (penOf s κ)) (SuitsMatrix s.1 κ) (penOf s κ) := by
  unfold stepC penOf
  simp only [both_self, ok_bind]
  refine ((updMat_yields κ s.1 s.2).bind (Q := True) (.of_eq ?_)).iff (by simp)
  simp

theorem stepA_yields (hne : rows ≠ []) (const : Bool) (κ : Kind) :
    Yields (stepA const rows.length (rows.length, R) (penOf (rows.length, R) κ)) ((const = true → SuitsMatrix rows.length κ) ∧ (const = false → κ = .row)) (penOf (rows.length, R) κ) := by
  unfold stepA penOf
  simp only [both_self, ok_bind]
  refine ((Yields.ite (y := (rows.length, R)) (updMat_yields κ _ _) (Q := κ = .row) ?_).bind (Q := True) (.of_eq ?_)).iff (by simp)
  · refine ⟨?_, fun r hr => ?_⟩
    · rintro rfl
      rw [foldlM_const]
      intro i hi
      have hi' : i < rows.length := List.mem_range.1 hi
      rw [item_rowsOf (s := (rows.length, R)) hi', ok_bind, ok_bind, updRow, ok_bind, setRow, if_pos hi', if_pos (.inl rfl)]
    · have hpos : 0 < rows.length := List.length_pos_of_ne_nil hne
      obtain ⟨s', s'', h⟩ := foldlM_each hr 0 (List.mem_range.2 hpos)
      obtain ⟨l, hl, h⟩ := bind_ok.1 h
      obtain ⟨_, -, h⟩ := bind_ok.1 h
      obtain ⟨m, hm, -⟩ := bind_ok.1 h
      cases κ with
      | row => rfl
      | _ => cases hm
  · simp

theorem svdR_yields (full : Bool) (j : ℕ) : Yields (do
    let u := svdR full (← dot (j, R) (R, R).swap) R
    dot u.1 u.2) (full = true → R ≤ j) (j, R) := by
  simp only [Prod.swap, dot_fit, ok_bind]
  unfold svdR
  by_cases h : full = true ∧ min j R < R
  · have hj : j < R := by omega
    rw [if_pos (by simpa using h)]
    exact ((dot_yields _ _).iff (Q := False) (by simp; omega)).iff (by simp only [false_iff]; intro h'; have := h' h.1; omega) |> fun h' => ⟨fun hp => absurd (hp h.1) (by omega), h'.2⟩
  · rw [if_neg (by simpa using h)]
    have : full = true → R ≤ j := fun hf => by
      by_contra hlt
      exact h ⟨hf, by omega⟩
    exact (Yields.of_eq (by simp [dot])).iff (by simp only [true_iff]; exact this)

theorem p2Iter_yields (hne : rows ≠ []) (full ub uc : Bool) :
    Yields (p2Iter full ub uc R rows.length (rows.map fun j => (j, R)) (rows.map fun j => (j, R), (R, R))) (ub = true → full = true → ∀ n ∈ rows, R ≤ n) (rows.map fun j => (j, R), (R, R)) := by
  unfold p2Iter
  have h1 : Yields (if ub = true then (rows.map fun j => ((j, R) : Sh)).mapM fun fm => do
      let u := svdR full (← dot fm (R, R).swap) R
      dot u.1 u.2 else pure (rows.map fun j => ((j, R) : Sh))) (ub = true → full = true → ∀ n ∈ rows, R ≤ n) (rows.map fun j => (j, R)) := by
    refine (Yields.ite (P := full = true → ∀ n ∈ rows, R ≤ n) (Q := True) ?_ (.of_eq rfl)).iff (by simp)
    have := Yields.mapM (l := rows.map fun j => ((j, R) : Sh)) (f := fun fm => do
      let u := svdR full (← dot fm (R, R).swap) R
      dot u.1 u.2) (P := fun s => full = true → R ≤ s.1) (g := id) (by
        intro s hs
        obtain ⟨j, -, rfl⟩ := List.mem_map.1 hs
        exact svdR_yields full j)
    rw [List.map_id] at this
    exact this.iff (by simp; tauto)
  refine (h1.bind (Q := True) (.of_eq ?_)).iff (by simp)
  have h2 : ((((rows.map fun j => ((j, R) : Sh)).zip (rows.map fun j => ((j, R) : Sh))).take rows.length).foldlM (fun t p => do addTo t (← dot p.2.swap p.1)) none : Except PyErr (Option Sh)) =
      .ok (some (R, R)) := by
    rw [List.zip_map', List.take_of_length_le (by simp)]
    obtain ⟨j, l, rfl⟩ := List.exists_cons_of_ne_nil hne
    rw [List.map_cons, List.foldlM_cons]
    simp only [Prod.swap, dot_fit, ok_bind, addTo]
    apply foldlM_const
    intro x hx
    obtain ⟨j, -, rfl⟩ := List.mem_map.1 hx
    simp [Except.bind, dot_fit]
  cases uc with
  | false => rfl
  | true =>
    simp only [if_true, h2]
    rfl

/-- The variables of a penalty on the B matrices. -/
def penBOf (rows : List ℕ) (R : ℕ) (κ : Kind) : PenBs := startB (rows.map fun j => (j, k)) R κ

theorem penBOf_p2 (full : Bool) (it : ℕ) (ub uc : Bool) : penBOf (k := k) rows R (.p2 full it ub uc) = ⟨.p2 full it ub uc, .p2 (rows.map fun j => (j, R)) (R, R), rows.map fun j => (j, R)⟩ := by
  simp [penBOf, startB]

theorem penBOf_other {κ : Kind} (hκ : ∀ f i u c, κ ≠ .p2 f i u c) : penBOf (k := k) rows R κ = ⟨κ, .mats (rows.map fun j => (j, R)), rows.map fun j => (j, R)⟩ := by
  cases κ with
  | p2 => exact absurd rfl (hκ _ _ _ _)
  | _ => simp [penBOf, startB]

theorem penBOf_cases (κ : Kind) : (∃ f i u c, κ = .p2 f i u c) ∨ ∀ f i u c, κ ≠ .p2 f i u c := by
  cases κ <;> simp

theorem minus_eq (κ : Kind) : (penBOf (k := k) rows R κ).aux.minus (penBOf (k := k) rows R κ).dual = .ok (rows.map fun j => (j, R)) := by
  rcases penBOf_cases κ with ⟨f, i, u, c, rfl⟩ | hκ
  · rw [penBOf_p2]
    simp only [Aux.minus]
    rw [List.zip_map', mapM_ok _ (fun p : Sh × Sh => p.1) _ fun p hp => ?_]
    · rw [List.map_map]
      rfl
    · obtain ⟨j, -, rfl⟩ := List.mem_map.1 hp
      simp
  · rw [penBOf_other hκ]
    exact each_self _

theorem asMats_eq (κ : Kind) : (penBOf (k := k) rows R κ).aux.asMats = .ok (rows.map fun j => (j, R)) := by
  rcases penBOf_cases κ with ⟨f, i, u, c, rfl⟩ | hκ
  · rw [penBOf_p2]
    simp only [Aux.asMats]
    rw [mapM_ok _ (fun p : Sh => p) _ fun p hp => ?_]
    · simp
    · obtain ⟨j, -, rfl⟩ := List.mem_map.1 hp
      simp
  · rw [penBOf_other hκ]
    rfl

theorem penBOf_dual (κ : Kind) : (penBOf (k := k) rows R κ).dual = rows.map fun j => (j, R) := by
  rcases penBOf_cases κ with ⟨f, i, u, c, rfl⟩ | hκ
  · rw [penBOf_p2]
  · rw [penBOf_other hκ]

theorem penBOf_kind (κ : Kind) : (penBOf (k := k) rows R κ).kind = κ := by
  rcases penBOf_cases κ with ⟨f, i, u, c, rfl⟩ | hκ
  · rw [penBOf_p2]
  · rw [penBOf_other hκ]

theorem updAuxes_yields (hne : rows ≠ []) (κ : Kind) :
    Yields (updAuxes rows.length (rows.map fun j => (j, R)) κ (penBOf (k := k) rows R κ).aux) (SuitsMatrices rows κ ∧ SuitsBases rows R κ) (penBOf (k := k) rows R κ).aux := by
  rcases penBOf_cases κ with ⟨full, it, ub, uc, rfl⟩ | hκ
  · rw [penBOf_p2]
    simp only [updAuxes, SuitsMatrices, SuitsBases, true_and]
    refine Yields.bindOk (y := (rows.map fun j => (j, R), (R, R))) ?_ rfl
    refine ((p2Iter_yields hne full ub uc).times _).iff ?_
    cases ub <;> cases uc <;> simp
  · rw [penBOf_other hκ]
    have hb : SuitsBases rows R κ := by cases κ <;> first | trivial | exact absurd rfl (hκ _ _ _ _)
    have h := Yields.mapM (l := rows.map fun j => ((j, R) : Sh)) (f := updMat κ) (P := fun s => SuitsMatrix s.1 κ) (g := id) (fun s _ => updMat_yields κ s.1 s.2)
    rw [List.map_id] at h
    have h := (h.bind (f := fun l => pure (Aux.mats l)) (Q := True) (.of_eq rfl)).iff (Q := SuitsMatrices rows κ ∧ SuitsBases rows R κ) (by rw [suits_all κ hκ]; simp [hb])
    have he : updAuxes rows.length (rows.map fun j => (j, R)) κ (.mats (rows.map fun j => (j, R))) = (do return .mats (← (rows.map fun j => ((j, R) : Sh)).mapM (updMat κ))) := by
      have ht : ((rows.map fun j => ((j, R) : Sh)).take rows.length).take (rows.map fun j => ((j, R) : Sh)).length = rows.map fun j => ((j, R) : Sh) := by
        rw [List.take_of_length_le (by simp), List.take_of_length_le (by simp)]
      cases κ with
      | p2 => exact absurd rfl (hκ _ _ _ _)
      | _ => simp only [updAuxes, ht]
    rw [he]
    exact h

theorem stepB_yields (hne : rows ≠ []) (κ : Kind) :
    Yields (stepB rows.length (rows.map fun j => (j, R)) (penBOf (k := k) rows R κ)) (SuitsMatrices rows κ ∧ SuitsBases rows R κ) (penBOf (k := k) rows R κ) := by
  unfold stepB
  rw [penBOf_dual, each_self, ok_bind, penBOf_kind]
  refine ((updAuxes_yields hne κ).bind (Q := True) (.of_eq ?_)).iff (by simp)
  have hm := minus_eq (rows := rows) (k := k) (R := R) κ
  rw [penBOf_dual] at hm
  rw [hm, ok_bind, each_self, ok_bind]
  have : penBOf (k := k) rows R κ = ⟨(penBOf (k := k) rows R κ).kind, (penBOf (k := k) rows R κ).aux, (penBOf (k := k) rows R κ).dual⟩ := rfl
  rw [penBOf_kind, penBOf_dual] at this
  rw [← this]
  rfl

theorem innerBK_yields (hne : rows ≠ []) (check : Bool) (kb : List Kind) :
    Yields (innerBK check (rows.map fun j => (j, k)) (rows.map fun j => ((j, R), (R, R))) (rows.map fun j => (j, R), kb.map (penBOf (k := k) rows R)))
      (∀ κ ∈ kb, SuitsMatrices rows κ ∧ SuitsBases rows R κ) (rows.map fun j => (j, R), kb.map (penBOf (k := k) rows R)) := by
  unfold innerBK
  rw [mapM_const (y := rows.map fun j => (j, R)) fun q hq => by obtain ⟨κ, -, rfl⟩ := List.mem_map.1 hq; exact minus_eq κ]
  simp only [ok_bind]
  rw [foldlM_const _ _ _ fun i hi => ?_]
  · simp only [ok_bind, List.length_map]
    have h := Yields.mapM (l := kb.map (penBOf (k := k) rows R)) (f := stepB rows.length (rows.map fun j => (j, R))) (P := fun p => SuitsMatrices rows p.kind ∧ SuitsBases rows R p.kind) (g := id) (by
      intro p hp
      obtain ⟨κ, -, rfl⟩ := List.mem_map.1 hp
      rw [penBOf_kind]
      exact stepB_yields hne κ)
    rw [List.map_id] at h
    refine (h.bind (Q := True) (.of_eq ?_)).iff (by simp [penBOf_kind])
    cases check with
    | false => rfl
    | true =>
      simp only [if_true, each_self, ok_bind]
      rw [mapM_const (y := rows.map fun j => (j, R)) fun q hq => by obtain ⟨κ, -, rfl⟩ := List.mem_map.1 hq; rw [asMats_eq, ok_bind, each_self]]
      rfl
  · have hi' : i < rows.length := by simpa using hi
    rw [List.length_map, entryB_fit (List.getElem?_eq_getElem hi'), ok_bind, setItem, if_pos (by simpa using hi')]
    congr 1
    apply List.ext_getElem (by simp)
    intro m h1 h2
    rw [List.getElem_set]
    split
    · subst_vars; simp
    · rfl

/-- Variables of all penalties. -/
def varsK (rows : List ℕ) (k R : ℕ) (ka kb kc : List Kind) : PenVars := ⟨ka.map (penOf (rows.length, R)), kb.map (penBOf (k := k) rows R), kc.map (penOf (k, R))⟩

variable {ka kb kc : List Kind}

theorem updateBK_yields (hne : rows ≠ []) (const check : Bool) (n : ℕ) :
    Yields (updateBK const check n (rows.map fun j => (j, k)) (facOf rows k R, varsK rows k R ka kb kc)) (n ≠ 0 → ∀ κ ∈ kb, SuitsMatrices rows κ ∧ SuitsBases rows R κ)
      (facOf rows k R, varsK rows k R ka kb kc) := by
  unfold updateBK
  rw [linB_fit, ok_bind, if_neg (by simp [hne])]
  exact Yields.bindOk (y := (rows.map fun j => (j, R), kb.map (penBOf (k := k) rows R))) ((innerBK_yields hne check kb).times n) rfl

theorem innerCK_yields (check : Bool) (kc : List Kind) :
    Yields (innerCK check ((k, R), (R, R)) ((k, R), kc.map (penOf (k, R)))) (∀ κ ∈ kc, SuitsMatrix k κ) ((k, R), kc.map (penOf (k, R))) := by
  obtain ⟨t, ht, h⟩ := fold_addTo (f := fun q : PenM => both q.aux q.dual) (s := (k, R)) (kc.map (penOf (k, R))) (by
    intro q hq
    obtain ⟨κ, -, rfl⟩ := List.mem_map.1 hq
    exact both_self)
  unfold innerCK
  rw [h, ok_bind, plus_fit ht]
  simp only [svd, ok_bind, min_self, dot_fit]
  have h := Yields.mapM (l := kc.map (penOf (k, R))) (f := stepC (k, R)) (P := fun p => SuitsMatrix k p.kind) (g := id) (by
    intro p hp
    obtain ⟨κ, -, rfl⟩ := List.mem_map.1 hp
    exact stepC_yields (k, R) κ)
  rw [List.map_id] at h
  refine (h.bind (Q := True) (.of_eq ?_)).iff (by simp [penOf])
  cases check with
  | false => rfl
  | true =>
    simp only [if_true, both_self, ok_bind]
    rw [mapM_const (y := (k, R)) fun q hq => by obtain ⟨κ, -, rfl⟩ := List.mem_map.1 hq; exact both_self]
    rfl

theorem updateCK_yields (hne : rows ≠ []) (check : Bool) (n : ℕ) :
    Yields (updateCK check n (rows.map fun j => (j, k)) (facOf rows k R, varsK rows k R ka kb kc)) (n ≠ 0 → ∀ κ ∈ kc, SuitsMatrix k κ) (facOf rows k R, varsK rows k R ka kb kc) := by
  unfold updateCK
  rw [linC_fit hne, ok_bind]
  exact Yields.bindOk (y := ((k, R), kc.map (penOf (k, R)))) ((innerCK_yields check kc).times n) rfl

theorem innerAK_yields (hne : rows ≠ []) (const check : Bool) (ka : List Kind) :
    Yields (innerAK const check (rows.map fun j => (j, k)) (rows.map fun _ => (R, (R, R))) R ((rows.length, R), ka.map (penOf (rows.length, R))))
      (∀ κ ∈ ka, (const = true → SuitsMatrix rows.length κ) ∧ (const = false → κ = .row)) ((rows.length, R), ka.map (penOf (rows.length, R))) := by
  unfold innerAK
  rw [mapM_const (y := (rows.length, R)) fun q hq => by obtain ⟨κ, -, rfl⟩ := List.mem_map.1 hq; exact both_self, ok_bind, foldlM_const _ _ _ fun i hi => ?_, ok_bind]
  · have h := Yields.mapM (l := ka.map (penOf (rows.length, R))) (f := stepA const rows.length (rows.length, R))
      (P := fun p => (const = true → SuitsMatrix rows.length p.kind) ∧ (const = false → p.kind = .row)) (g := id) (by
      intro p hp
      obtain ⟨κ, -, rfl⟩ := List.mem_map.1 hp
      exact stepA_yields hne const κ)
    rw [List.map_id] at h
    rw [List.length_map]
    refine (h.bind (Q := True) (.of_eq ?_)).iff (by simp [penOf])
    cases check with
    | false => rfl
    | true =>
      simp only [if_true, both_self, ok_bind]
      rw [mapM_const (y := (rows.length, R)) fun q hq => by obtain ⟨κ, -, rfl⟩ := List.mem_map.1 hq; exact both_self]
      rfl
  · have hi' : i < rows.length := by simpa using hi
    rw [entryA_fit hi', ok_bind, setRow, if_pos hi', if_pos (.inl rfl)]

theorem updateAK_yields (hne : rows ≠ []) (const check : Bool) (n : ℕ) :
    Yields (updateAK const check n (rows.map fun j => (j, k)) (facOf rows k R, varsK rows k R ka kb kc))
      (n ≠ 0 → ∀ κ ∈ ka, (const = true → SuitsMatrix rows.length κ) ∧ (const = false → κ = .row))
      ((facOf rows k R, varsK rows k R ka kb kc), (rows.map fun _ => R, rows.map fun _ => (R, R))) := by
  unfold updateAK
  rw [linA_fit, ok_bind, if_neg (by simp [hne])]
  simp only [facOf]
  rw [mapM_const (y := (R, R)) fun q hq => by obtain ⟨j, -, rfl⟩ := List.mem_map.1 hq; exact both_self, ok_bind]
  exact (((innerAK_yields hne const check ka).times n).bind (Q := True) (.of_eq (by simp [varsK]))).iff (by simp)

theorem gapsK_fit : gapsK (facOf rows k R) (varsK rows k R ka kb kc) = .ok () := by
  unfold gapsK varsK facOf
  simp only
  rw [mapM_const (y := (rows.length, R)) fun q hq => by obtain ⟨κ, -, rfl⟩ := List.mem_map.1 hq; exact both_self, ok_bind,
    mapM_const (y := rows.map fun j => (j, R)) fun q hq => by obtain ⟨κ, -, rfl⟩ := List.mem_map.1 hq; rw [asMats_eq, ok_bind, each_self], ok_bind,
    mapM_const (y := (k, R)) fun q hq => by obtain ⟨κ, -, rfl⟩ := List.mem_map.1 hq; exact both_self]
  rfl

theorem values_yields : Yields (values (facOf rows k R) (varsK rows k R ka kb kc)) ((∀ κ ∈ ka, SuitsMatrix rows.length κ) ∧ (∀ κ ∈ kb, SuitsMatrices rows κ) ∧ ∀ κ ∈ kc, SuitsMatrix k κ) () := by
  unfold values
  have h1 : Yields ((varsK rows k R ka kb kc).a.mapM fun p => value p.kind (facOf rows k R).A) (∀ p ∈ (varsK rows k R ka kb kc).a, SuitsMatrix rows.length p.kind) _ :=
    Yields.mapM (g := fun _ => ()) fun p _ => value_yields _ _ _
  have h2 : Yields ((varsK rows k R ka kb kc).b.mapM fun p => valueB p.kind (facOf rows k R).Bs) (∀ p ∈ (varsK rows k R ka kb kc).b, SuitsMatrices rows p.kind) _ :=
    Yields.mapM (g := fun _ => ()) fun p _ => valueB_yields _
  have h3 : Yields ((varsK rows k R ka kb kc).c.mapM fun p => value p.kind (facOf rows k R).C) (∀ p ∈ (varsK rows k R ka kb kc).c, SuitsMatrix k p.kind) _ :=
    Yields.mapM (g := fun _ => ()) fun p _ => value_yields _ _ _
  refine Yields.iff (h1.bind (h2.bind (Yields.bindOk h3 rfl))) ?_
  simp [varsK, penOf, penBOf_kind]

theorem startK_yields (hne : rows ≠ []) (o : Opts) : Yields (startK (rows.map fun j => (j, k)) R o ka kb kc)
    ((o.updA = true → ∀ κ ∈ ka, ∀ f i u c, κ ≠ .p2 f i u c) ∧ (o.updC = true → ∀ κ ∈ kc, ∀ f i u c, κ ≠ .p2 f i u c))
    (varsK rows k R (if o.updA then ka else []) (if o.updB then kb else []) (if o.updC then kc else [])) := by
  have hM : ∀ (s : Sh) (κ : Kind), Yields (startM κ s) (∀ f i u c, κ ≠ .p2 f i u c) (penOf s κ) := by
    intro s κ
    cases κ with
    | p2 f i u c => exact (Yields.of_error (e := .valueError) rfl).iff ⟨False.elim, fun h => h f i u c rfl⟩
    | _ => exact (Yields.of_eq rfl).iff (by simp)
  unfold startK
  obtain ⟨j, l, rfl⟩ := List.exists_cons_of_ne_nil hne
  simp only [show item (List.map (fun j => ((j, k) : Sh)) (j :: l)) 0 = .ok (j, k) from rfl, ok_bind]
  refine ((Yields.mapM fun κ _ => hM _ κ).bind ((Yields.mapM fun κ _ => hM _ κ).bind (.of_eq (y := varsK (j :: l) k R _ _ _) ?_))).iff ?_
  · simp only [varsK, List.length_map]
    rfl
  · cases o.updA <;> cases o.updC <;> simp

theorem sweepK_yields (hne : rows ≠ []) (o : Opts) : Yields (sweepK o (rows.map fun j => (j, k)) (facOf rows k R, varsK rows k R ka kb kc))
    ((o.updB = true → o.nB ≠ 0 → ∀ κ ∈ kb, SuitsMatrices rows κ ∧ SuitsBases rows R κ) ∧ (o.updC = true → o.nC ≠ 0 → ∀ κ ∈ kc, SuitsMatrix k κ) ∧
      (o.updA = true → o.nA ≠ 0 → ∀ κ ∈ ka, (o.constA = true → SuitsMatrix rows.length κ) ∧ (o.constA = false → κ = .row)) ∧
      (o.errs = true → (∀ κ ∈ ka, SuitsMatrix rows.length κ) ∧ (∀ κ ∈ kb, SuitsMatrices rows κ) ∧ ∀ κ ∈ kc, SuitsMatrix k κ)) (facOf rows k R, varsK rows k R ka kb kc) := by
  unfold sweepK
  have hlast : ∀ m, (m = none ∨ m = some (rows.map fun _ => R, rows.map fun _ => ((R, R) : Sh))) → Yields (do
      if o.diag = true then gapsK (facOf rows k R) (varsK rows k R ka kb kc)
      if o.errs = true then
        recError (rows.map fun j => (j, k)) (facOf rows k R) m
        values (facOf rows k R) (varsK rows k R ka kb kc)
      return (facOf rows k R, varsK rows k R ka kb kc))
      (o.errs = true → (∀ κ ∈ ka, SuitsMatrix rows.length κ) ∧ (∀ κ ∈ kb, SuitsMatrices rows κ) ∧ ∀ κ ∈ kc, SuitsMatrix k κ) (facOf rows k R, varsK rows k R ka kb kc) := by
    intro m hm
    have hr : recError (rows.map fun j => (j, k)) (facOf rows k R) m = .ok () := by
      rcases hm with rfl | rfl
      · exact recError_fit
      · exact recError_mid
    rw [gapsK_fit, hr]
    simp only [ok_bind, pure_eq_ok]
    rw [ite_self]
    have hv := values_yields (rows := rows) (k := k) (R := R) (ka := ka) (kb := kb) (kc := kc)
    cases o.errs with
    | false => exact (Yields.of_eq rfl).iff (by simp)
    | true =>
      rw [if_pos rfl]
      refine Yields.iff (Yields.bindOk hv rfl) ⟨fun h _ => h, fun h => h rfl⟩
  have hB : Yields (if o.updB = true then updateBK o.constB o.check o.nB (rows.map fun j => (j, k)) (facOf rows k R, varsK rows k R ka kb kc) else pure (facOf rows k R, varsK rows k R ka kb kc))
      (o.updB = true → o.nB ≠ 0 → ∀ κ ∈ kb, SuitsMatrices rows κ ∧ SuitsBases rows R κ) (facOf rows k R, varsK rows k R ka kb kc) :=
    (Yields.ite (Q := True) (updateBK_yields hne _ _ _) (.of_eq rfl)).iff (by simp)
  have hC : Yields (if o.updC = true then updateCK o.check o.nC (rows.map fun j => (j, k)) (facOf rows k R, varsK rows k R ka kb kc) else pure (facOf rows k R, varsK rows k R ka kb kc))
      (o.updC = true → o.nC ≠ 0 → ∀ κ ∈ kc, SuitsMatrix k κ) (facOf rows k R, varsK rows k R ka kb kc) :=
    (Yields.ite (Q := True) (updateCK_yields hne _ _) (.of_eq rfl)).iff (by simp)
  refine hB.bind (hC.bind ?_)
  cases hA : o.updA with
  | true =>
    refine Yields.iff (Yields.bind (Yields.bindOk (updateAK_yields hne _ _ _) rfl) (hlast _ (.inr rfl))) ?_
    simp
  | false => exact (hlast _ (.inl rfl)).iff (by simp)

theorem fit_yields (hne : rows ≠ []) (o : Opts) (N : ℕ) : Yields (fit_kinds o (rows.map fun j => (j, k)) R ka kb kc N (facOf rows k R))
    (((o.updA = true → ∀ κ ∈ ka, ∀ f i u c, κ ≠ .p2 f i u c) ∧ (o.updC = true → ∀ κ ∈ kc, ∀ f i u c, κ ≠ .p2 f i u c)) ∧
      ((∀ κ ∈ (if o.updA then ka else []), SuitsMatrix rows.length κ) ∧ (∀ κ ∈ (if o.updB then kb else []), SuitsMatrices rows κ) ∧ ∀ κ ∈ (if o.updC then kc else []), SuitsMatrix k κ) ∧
      (N ≠ 0 → (o.updB = true → o.nB ≠ 0 → ∀ κ ∈ (if o.updB then kb else []), SuitsMatrices rows κ ∧ SuitsBases rows R κ) ∧
        (o.updC = true → o.nC ≠ 0 → ∀ κ ∈ (if o.updC then kc else []), SuitsMatrix k κ) ∧
        (o.updA = true → o.nA ≠ 0 → ∀ κ ∈ (if o.updA then ka else []), (o.constA = true → SuitsMatrix rows.length κ) ∧ (o.constA = false → κ = .row)) ∧
        (o.errs = true → (∀ κ ∈ (if o.updA then ka else []), SuitsMatrix rows.length κ) ∧ (∀ κ ∈ (if o.updB then kb else []), SuitsMatrices rows κ) ∧
          ∀ κ ∈ (if o.updC then kc else []), SuitsMatrix k κ))) (facOf rows k R) := by
  unfold fit_kinds
  refine Yields.bind (startK_yields hne o) (Yields.bind_of recError_fit (Yields.bind values_yields (Yields.bind_of gapsK_fit ?_)))
  refine Yields.bindOk ((sweepK_yields hne o).times N) ?_
  simp only [validate_fit]
  rfl

/-- C130: a call with factors that fit the data raises no exception about shapes and missing methods exactly if all penalties on updated modes suit the mode, and then the returned factors have the shapes of the initial ones. A
norm matrix must have as many rows as the factor matrix (for the B matrices, as each of them); `Parafac2` is only possible for the B matrices, with matrices that have as many rows as there are components; without
constant feasibility penalty only penalties with row updates are possible on A. -/
theorem C130 (o : Opts) {X : List Sh} (hX : FitsShape X rows k) (hne : X ≠ []) (ka kb kc : List Kind) (N : ℕ) (F : Fac) : fit_kinds o X R ka kb kc N (facOf rows k R) = .ok F ↔
    F = facOf rows k R ∧
    (o.updA = true → ∀ κ ∈ ka, SuitsMatrix rows.length κ ∧ (N ≠ 0 → o.nA ≠ 0 → o.constA = false → κ = .row)) ∧
    (o.updB = true → ∀ κ ∈ kb, SuitsMatrices rows κ ∧ (N ≠ 0 → o.nB ≠ 0 → SuitsBases rows R κ)) ∧
    (o.updC = true → ∀ κ ∈ kc, SuitsMatrix k κ) := by
  rw [FitsShape] at hX
  subst hX
  have hne : rows ≠ [] := by simpa using hne
  have h := fit_yields (k := k) (R := R) (ka := ka) (kb := kb) (kc := kc) hne o N
  have hp2 : ∀ n κ, SuitsMatrix n κ → ∀ f i u c, κ ≠ .p2 f i u c := by
    rintro n κ h f i u c rfl
    exact h
  constructor
  · intro hF
    have hc := h.2 F hF
    have he := h.1 hc
    rw [hF] at he
    cases he
    obtain ⟨-, ⟨h1, h2, h3⟩, h4⟩ := hc
    refine ⟨rfl, fun hA κ hκ => ?_, fun hB κ hκ => ?_, fun hC κ hκ => ?_⟩
    · rw [if_pos hA] at h1
      refine ⟨h1 κ hκ, fun hN hn hc => ?_⟩
      have := (h4 hN).2.2.1 hA hn κ (by rw [if_pos hA]; exact hκ)
      exact this.2 hc
    · rw [if_pos hB] at h2
      refine ⟨h2 κ hκ, fun hN hn => ?_⟩
      exact ((h4 hN).1 hB hn κ (by rw [if_pos hB]; exact hκ)).2
    · rw [if_pos hC] at h3
      exact h3 κ hκ
  · rintro ⟨rfl, hA, hB, hC⟩
    have hA' : ∀ κ ∈ (if o.updA then ka else []), SuitsMatrix rows.length κ := by
      cases e : o.updA
      · simp
      · simpa using fun κ hκ => (hA e κ hκ).1
    have hB' : ∀ κ ∈ (if o.updB then kb else []), SuitsMatrices rows κ := by
      cases e : o.updB
      · simp
      · simpa using fun κ hκ => (hB e κ hκ).1
    have hC' : ∀ κ ∈ (if o.updC then kc else []), SuitsMatrix k κ := by
      cases e : o.updC
      · simp
      · simpa using fun κ hκ => hC e κ hκ
    refine h.1 ⟨⟨fun e κ hκ => hp2 _ _ (hA e κ hκ).1, fun e κ hκ => hp2 _ _ (hC e κ hκ)⟩, ⟨hA', hB', hC'⟩, fun hN => ⟨fun e hn κ hκ => ?_, fun e _ => hC', fun e hn κ hκ => ?_, fun _ => ⟨hA', hB', hC'⟩⟩⟩
    · rw [if_pos e] at hκ
      exact ⟨(hB e κ hκ).1, (hB e κ hκ).2 hN hn⟩
    · rw [if_pos e] at hκ
      exact ⟨fun _ => (hA e κ hκ).1, fun hc => (hA e κ hκ).2 hN hn hc⟩

end

/-- The PARAFAC2 constraint needs at least as many rows as components in every matrix: with TensorLy's default SVD any other call raises an exception in its first iteration. -/
theorem C130_parafac2 {rows : List ℕ} {k R : ℕ} (o : Opts) {X : List Sh} (hX : FitsShape X rows k) (ka kb kc : List Kind) {N n it : ℕ} {uc : Bool} (hn : n ∈ rows) (hR : n < R) (hB : o.updB = true) (hN : N ≠ 0)
    (hnB : o.nB ≠ 0) (hit : it ≠ 0) (hp : .p2 true it true uc ∈ kb) (F : Fac) : fit_kinds o X R ka kb kc N (facOf rows k R) ≠ .ok F := by
  intro h
  have hne : X ≠ [] := by
    rintro rfl
    rw [FitsShape] at hX
    simp only [List.nil_eq, List.map_eq_nil_iff] at hX
    rw [hX] at hn
    cases hn
  have := ((((C130 o hX hne ka kb kc N F).1 h).2.2.1 hB _ hp).2 hN hnB) hit rfl rfl n hn
  omega

/-- A smoothness penalty on matrices with different numbers of rows is impossible. -/
theorem C130_evolving {rows : List ℕ} {k R : ℕ} (o : Opts) {X : List Sh} (hX : FitsShape X rows k) (ka kb kc : List Kind) {N m n n' : ℕ} (hn : n ∈ rows) (hn' : n' ∈ rows) (hnn : n ≠ n') (hB : o.updB = true)
    (hp : .gen m ∈ kb) (F : Fac) : fit_kinds o X R ka kb kc N (facOf rows k R) ≠ .ok F := by
  intro h
  have hne : X ≠ [] := by
    rintro rfl
    rw [FitsShape] at hX
    simp only [List.nil_eq, List.map_eq_nil_iff] at hX
    rw [hX] at hn
    cases hn
  have := (((C130 o hX hne ka kb kc N F).1 h).2.2.1 hB _ hp).1
  exact hnn ((this n hn).symm.trans (this n' hn'))

/-- Calls that return: two matrices with 3 and 5 rows, two components, the PARAFAC2 constraint, non-negative A and a smoothness penalty on the four rows of C. -/
theorem C130_example : fit_kinds optsAll [(3, 4), (5, 4)] 2 [.row] [.p2 true 1 true true, .mat] [.gen 4] 3 (facOf [3, 5] 4 2) = .ok (facOf [3, 5] 4 2) ∧
    fit_kinds { optsAll with constA := true } [(3, 4), (3, 4)] 2 [.mat, .gen 2] [.gen 3] [] 3 (facOf [3, 3] 4 2) = .ok (facOf [3, 3] 4 2) ∧
    fit_kinds optsAll [(3, 4), (5, 4)] 4 [] [.p2 false 1 true true] [] 3 (facOf [3, 5] 4 4) = .ok (facOf [3, 5] 4 4) := by
  decide +kernel

/-- The exceptions of calls that do not return: four components and three rows, a matrix penalty on A without constant feasibility penalty, norm matrices of wrong size, `Parafac2` on C. -/
theorem C130_errors : fit_kinds optsAll [(3, 4), (5, 4)] 4 [] [.p2 true 1 true true] [] 1 (facOf [3, 5] 4 4) = .error .valueError ∧
    fit_kinds optsAll [(3, 4), (5, 4)] 2 [.mat] [] [] 1 (facOf [3, 5] 4 2) = .error .attributeError ∧
    fit_kinds optsAll [(3, 4), (5, 4)] 2 [] [.gen 3] [] 0 (facOf [3, 5] 4 2) = .error .valueError ∧
    fit_kinds optsAll [(3, 4), (5, 4)] 2 [] [] [.gen 3] 0 (facOf [3, 5] 4 2) = .error .valueError ∧
    fit_kinds optsAll [(3, 4), (5, 4)] 2 [] [] [.p2 true 1 true true] 0 (facOf [3, 5] 4 2) = .error .valueError := by
  decide +kernel

end Verif.Props
