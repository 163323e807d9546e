import Mathlib.Tactic.Ring
import Mathlib.Data.List.Basic
import Verif.Shapes.Model

/-!
# C111: data and initial factorizations that do not fit together
-/

namespace Verif.Props

open Verif.Shapes

/-- A factorization accepted by the constructor: `n` matrices with the given numbers of rows, `k` columns, `R` components. -/
def facOf (rows : List ℕ) (k R : ℕ) : Fac := ⟨(rows.length, R), rows.map fun j => (j, R), (k, R)⟩

/-- The data have the same number of matrices, with the same numbers of rows and columns. -/
def FitsShape (X : List Sh) (rows : List ℕ) (k : ℕ) : Prop := X = rows.map fun j => (j, k)

/-! ### Operations on shapes that fit -/

section
variable {a b c R k n : ℕ} {s t : Sh}

@[simp] theorem dot_fit : dot (a, b) (b, c) = .ok (a, c) := if_pos rfl
@[simp] theorem fit_self : fit a a = .ok a := if_pos rfl
@[simp] theorem both_self : both s s = .ok s := by simp [both, Except.bind]
@[simp] theorem withRow_self : withRow (a, b) b = .ok (a, b) := by simp [withRow, Except.bind]

theorem dot_ok : dot s t = .ok (a, b) ↔ s.2 = t.1 ∧ a = s.1 ∧ b = t.2 := by
  unfold dot
  split <;> rename_i h
  · simp [h, eq_comm]
  · simp [h]

theorem item_ok {α : Type} {l : List α} {i : ℕ} {x : α} : item l i = .ok x ↔ l[i]? = some x := by
  unfold item
  split <;> rename_i h <;> simp [h]

theorem item_error {α : Type} {l : List α} {i : ℕ} : item l i = .error .indexError ↔ l.length ≤ i := by
  unfold item
  split <;> rename_i h
  · have := (List.getElem?_eq_some_iff.1 h).1
    simp only [reduceCtorEq, false_iff]
    omega
  · simpa using h

theorem item_rowsOf {i : ℕ} (h : i < s.1) : item (rowsOf s) i = .ok s.2 := by
  rw [item_ok, rowsOf, List.getElem?_replicate, if_pos h]

theorem each_self (l : List Sh) : each l l = .ok l := by
  unfold each
  rw [mapM_ok _ (fun p => p.1) _ fun p hp => ?_]
  · rw [List.map_fst_zip (by rfl)]
  · have : p.1 = p.2 := by
      rw [show l.zip l = l.map fun x => (x, x) by simp [List.zip, List.zipWith_self], List.mem_map] at hp
      obtain ⟨x, -, rfl⟩ := hp
      rfl
    rw [this, both_self]

theorem foldlM_const {α σ : Type} (f : σ → α → Except PyErr σ) (s : σ) : ∀ l : List α, (∀ x ∈ l, f s x = .ok s) → l.foldlM f s = .ok s
  | [], _ => rfl
  | x :: l, h => by
    rw [List.foldlM_cons, h x List.mem_cons_self, ok_bind]
    exact foldlM_const f s l fun y hy => h y (List.mem_cons_of_mem _ hy)

theorem times_const {σ : Type} {f : σ → Except PyErr σ} {s : σ} (h : f s = .ok s) : ∀ n, times f n s = .ok s
  | 0 => rfl
  | n + 1 => by rw [times, h, ok_bind, times_const h n]

/-- The sum of shifted variables that all have one shape. -/
theorem fold_addTo {α : Type} {f : α → Except PyErr Sh} {s : Sh} : ∀ (l : List α), (∀ x ∈ l, f x = .ok s) →
    ∃ t, (t = none ∨ t = some s) ∧ l.foldlM (fun t x => do addTo t (← f x)) none = .ok t := by
  have step : ∀ l : List α, (∀ x ∈ l, f x = .ok s) → l.foldlM (fun t x => do addTo t (← f x)) (some s) = .ok (some s) := by
    intro l h
    exact foldlM_const _ _ l fun x hx => by rw [h x hx, ok_bind]; simp [addTo, Except.bind]
  intro l h
  cases l with
  | nil => exact ⟨none, .inl rfl, rfl⟩
  | cons x l =>
    refine ⟨some s, .inr rfl, ?_⟩
    rw [List.foldlM_cons, h x List.mem_cons_self, ok_bind]
    exact step l fun y hy => h y (List.mem_cons_of_mem _ hy)

theorem plus_fit {t : Option Sh} (h : t = none ∨ t = some s) : plus t s = .ok s := by
  rcases h with rfl | rfl
  · rfl
  · exact both_self

theorem term_fit : term (a, k) (a, R) (k, R) (R, R) = .ok (R, R) := by
  unfold term
  split <;> simp [Prod.swap]

theorem mapM_const {α β : Type} {f : α → Except PyErr β} {y : β} {l : List α} (h : ∀ x ∈ l, f x = .ok y) : l.mapM f = .ok (List.replicate l.length y) := by
  rw [mapM_ok f (fun _ => y) l h, List.map_const']

end

/-! ### Fitting data -/

section
variable {rows : List ℕ} {k R : ℕ}

theorem recError_fit : recError (rows.map fun j => (j, k)) (facOf rows k R) none = .ok () := by
  unfold recError facOf
  simp only [Prod.swap, dot_fit, ok_bind]
  rw [mapM_ok _ (fun _ => (R, R)) _ fun p hp => ?_]
  · rfl
  · obtain ⟨B, i⟩ := p
    rw [List.mem_zipIdx_iff_getElem?] at hp
    simp only [List.getElem?_map, Option.map_eq_some_iff] at hp
    obtain ⟨j, hj, rfl⟩ := hp
    have hi : i < rows.length := (List.getElem?_eq_some_iff.1 hj).1
    have hX : item (rows.map fun j => ((j, k) : Sh)) i = .ok (j, k) := by rw [item_ok, List.getElem?_map, hj]; rfl
    simp only [item_rowsOf (s := (rows.length, R)) hi, ok_bind, withRow_self, hX, term_fit]

theorem linB_fit : linB (rows.map fun j => (j, k)) (facOf rows k R) = .ok (rows.map fun j => ((j, R), (R, R))) := by
  unfold linB facOf
  simp only [Prod.swap, dot_fit, ok_bind]
  rw [mapM_ok _ (fun p : Sh × ℕ => ((p.1.1, R), (R, R))) _ fun p hp => ?_]
  · rw [rowsOf, ← List.map_const', List.zip_map', List.map_map]
    rfl
  · rw [rowsOf, ← List.map_const', List.zip_map', List.mem_map] at hp
    obtain ⟨j, -, rfl⟩ := hp
    simp [Prod.swap]

theorem entryB_fit {i j : ℕ} (hj : rows[i]? = some j) (p : ℕ) :
    entryB (rows.map fun j => ((j, R), (R, R))) (List.replicate p (rows.map fun j => (j, R))) i = .ok (j, R) := by
  obtain ⟨t, ht, h⟩ := fold_addTo (f := fun l : List Sh => item l i) (s := (j, R)) (List.replicate p (rows.map fun j => (j, R))) (by
    intro l hl
    rw [(List.mem_replicate.1 hl).2, item_ok, List.getElem?_map, hj]
    rfl)
  unfold entryB
  rw [show item (rows.map fun j => (((j, R), (R, R)) : Sh × Sh)) i = .ok ((j, R), (R, R)) by rw [item_ok, List.getElem?_map, hj]; rfl, ok_bind, h, ok_bind, plus_fit ht]
  simp [svd]

theorem innerB_fit (check : Bool) (p : ℕ) : innerB check (rows.map fun j => (j, k)) (rows.map fun j => ((j, R), (R, R)))
    (rows.map fun j => (j, R), List.replicate p (rows.map fun j => (j, R), rows.map fun j => (j, R))) =
    .ok (rows.map fun j => (j, R), List.replicate p (rows.map fun j => (j, R), rows.map fun j => (j, R))) := by
  unfold innerB
  rw [mapM_const (y := rows.map fun j => (j, R)) fun q hq => by rw [(List.mem_replicate.1 hq).2]; exact each_self _, ok_bind, List.length_replicate,
    foldlM_const _ _ _ fun i hi => ?_, ok_bind, mapM_const (y := (rows.map fun j => (j, R), rows.map fun j => (j, R))) fun q hq => ?_, ok_bind, List.length_replicate]
  · cases check with
    | false => rfl
    | true =>
      simp only [if_true, each_self, ok_bind]
      rw [mapM_const (y := rows.map fun j => (j, R)) fun q hq => by rw [(List.mem_replicate.1 hq).2]; exact each_self _]
      rfl
  · rw [(List.mem_replicate.1 hq).2]
    unfold penaltyB
    simp only [each_self, ok_bind, List.length_map]
    rw [List.take_of_length_le (by simp), List.take_of_length_le (by simp), each_self, ok_bind, each_self]
    rfl
  · have hi' : i < rows.length := by simpa using hi
    rw [entryB_fit (List.getElem?_eq_getElem hi'), ok_bind, setItem, if_pos (by simpa using hi')]
    congr 1
    apply List.ext_getElem (by simp)
    intro m h1 h2
    rw [List.getElem_set]
    split
    · subst_vars; simp
    · rfl

/-- State of a call with fitting shapes. -/
def varsOf (rows : List ℕ) (k R pA pB pC : ℕ) : Vars :=
  ⟨List.replicate pA (rows.length, R), List.replicate pA (rows.length, R), List.replicate pB (rows.map fun j => (j, R)), List.replicate pB (rows.map fun j => (j, R)),
    List.replicate pC (k, R), List.replicate pC (k, R)⟩

variable {pA pB pC : ℕ}

theorem updateB_fit (hne : rows ≠ []) (const check : Bool) (n : ℕ) :
    updateB const check n (rows.map fun j => (j, k)) (facOf rows k R, varsOf rows k R pA pB pC) = .ok (facOf rows k R, varsOf rows k R pA pB pC) := by
  unfold updateB
  rw [linB_fit, ok_bind, if_neg (by simp [hne])]
  simp only [varsOf, facOf, List.zip_replicate', ok_bind, pure_eq_ok]
  rw [times_const (innerB_fit check pB) n]
  simp

theorem linC_fit (hne : rows ≠ []) : linC (rows.map fun j => (j, k)) (facOf rows k R) = .ok ((k, R), (R, R)) := by
  have h : ((rows.map fun j => ((j, k) : Sh)).zip ((facOf rows k R).Bs.zip (rowsOf (facOf rows k R).A))) = rows.map fun j => ((j, k), ((j, R), R)) := by
    rw [facOf, rowsOf, ← List.map_const', List.zip_map', List.zip_map']
  unfold linC
  rw [h]
  obtain ⟨j, l, rfl⟩ := List.exists_cons_of_ne_nil hne
  rw [List.map_cons, List.foldlM_cons]
  simp only [withRow_self, ok_bind, Prod.swap, dot_fit, addTo, pure_eq_ok]
  rw [foldlM_const]
  · simp [facOf]
  · intro x hx
    obtain ⟨j, -, rfl⟩ := List.mem_map.1 hx
    simp [Except.bind]

theorem innerC_fit (check : Bool) (p : ℕ) : innerC check ((k, R), (R, R)) ((k, R), List.replicate p ((k, R), (k, R))) = .ok ((k, R), List.replicate p ((k, R), (k, R))) := by
  obtain ⟨t, ht, h⟩ := fold_addTo (f := fun q : Sh × Sh => both q.1 q.2) (s := (k, R)) (List.replicate p ((k, R), (k, R))) (by
    intro q hq
    rw [(List.mem_replicate.1 hq).2, both_self])
  unfold innerC
  rw [h, ok_bind, plus_fit ht]
  simp only [svd, ok_bind, min_self, dot_fit]
  rw [mapM_const (y := ((k, R), (k, R))) fun q hq => by rw [(List.mem_replicate.1 hq).2]; simp [penaltyC], ok_bind, List.length_replicate]
  cases check with
  | false => rfl
  | true =>
    simp only [if_true, both_self, ok_bind]
    rw [mapM_const (y := (k, R)) fun q hq => by rw [(List.mem_replicate.1 hq).2, both_self]]
    rfl

theorem updateC_fit (hne : rows ≠ []) (check : Bool) (n : ℕ) :
    updateC check n (rows.map fun j => (j, k)) (facOf rows k R, varsOf rows k R pA pB pC) = .ok (facOf rows k R, varsOf rows k R pA pB pC) := by
  unfold updateC
  rw [linC_fit hne, ok_bind]
  simp only [varsOf, facOf, List.zip_replicate', ok_bind, pure_eq_ok]
  rw [times_const (innerC_fit check pC) n]
  simp

theorem linA_fit : linA (rows.map fun j => (j, k)) (facOf rows k R) = .ok (rows.map fun _ => (R, (R, R))) := by
  unfold linA facOf
  simp only [Prod.swap, dot_fit, ok_bind]
  rw [mapM_ok _ (fun _ : Sh × Sh => (R, (R, R))) _ fun p hp => ?_]
  · rw [List.zip_map', List.map_map]
    rfl
  · rw [List.zip_map', List.mem_map] at hp
    obtain ⟨j, -, rfl⟩ := hp
    simp [term_fit]

theorem entryA_fit {i : ℕ} (hi : i < rows.length) (p : ℕ) : entryA (rows.map fun _ => (R, (R, R))) R (List.replicate p (rows.length, R)) i = .ok R := by
  obtain ⟨t, ht, h⟩ := fold_addTo (f := fun s : Sh => (item (rowsOf s) i).bind fun x => .ok (1, x)) (s := (1, R)) (List.replicate p (rows.length, R)) (by
    intro l hl
    rw [(List.mem_replicate.1 hl).2, item_rowsOf (s := (rows.length, R)) hi]
    rfl)
  have h' : (List.replicate p ((rows.length, R) : Sh)).foldlM (fun t s => do addTo t (1, ← item (rowsOf s) i)) none = .ok t := by
    rw [← h]
    congr 1
    funext t s
    cases item (rowsOf s) i <;> rfl
  unfold entryA
  rw [show item (rows.map fun _ => ((R, (R, R)) : ℕ × Sh)) i = .ok (R, (R, R)) by rw [item_ok, List.getElem?_map, List.getElem?_eq_getElem hi]; rfl, ok_bind, both_self, ok_bind, h', ok_bind,
    plus_fit ht]
  simp [svd]

theorem penaltyA_fit (const : Bool) (n : ℕ) (hn : n ≤ rows.length) : penaltyA const n (rows.length, R) ((rows.length, R), (rows.length, R)) = .ok ((rows.length, R), (rows.length, R)) := by
  unfold penaltyA
  cases const with
  | true => simp
  | false =>
    simp only [both_self, ok_bind, Bool.false_eq_true, if_false]
    rw [foldlM_const]
    · simp
    · intro i hi
      have hi' : i < rows.length := (List.mem_range.1 hi).trans_le hn
      rw [item_rowsOf (s := (rows.length, R)) hi', ok_bind, ok_bind, setRow, if_pos hi', if_pos (.inl rfl)]

theorem innerA_fit (const check : Bool) (p : ℕ) : innerA const check (rows.map fun j => (j, k)) (rows.map fun _ => (R, (R, R))) R
    ((rows.length, R), List.replicate p ((rows.length, R), (rows.length, R))) = .ok ((rows.length, R), List.replicate p ((rows.length, R), (rows.length, R))) := by
  unfold innerA
  rw [mapM_const (y := (rows.length, R)) fun q hq => by rw [(List.mem_replicate.1 hq).2, both_self], ok_bind, List.length_replicate,
    foldlM_const _ _ _ fun i hi => ?_, ok_bind, mapM_const (y := ((rows.length, R), (rows.length, R))) fun q hq => ?_, ok_bind, List.length_replicate]
  · cases check with
    | false => rfl
    | true =>
      simp only [if_true, both_self, ok_bind]
      rw [mapM_const (y := (rows.length, R)) fun q hq => by rw [(List.mem_replicate.1 hq).2, both_self]]
      rfl
  · rw [(List.mem_replicate.1 hq).2, List.length_map, penaltyA_fit _ _ le_rfl]
  · have hi' : i < rows.length := by simpa using hi
    rw [entryA_fit hi', ok_bind, setRow, if_pos hi', if_pos (.inl rfl)]

theorem updateA_fit (hne : rows ≠ []) (const check : Bool) (n : ℕ) :
    updateA const check n (rows.map fun j => (j, k)) (facOf rows k R, varsOf rows k R pA pB pC) =
      .ok ((facOf rows k R, varsOf rows k R pA pB pC), (rows.map fun _ => R, rows.map fun _ => (R, R))) := by
  unfold updateA
  rw [linA_fit, ok_bind, if_neg (by simp [hne])]
  simp only [varsOf, facOf, List.zip_replicate', ok_bind, pure_eq_ok]
  rw [mapM_const (y := (R, R)) fun q hq => by obtain ⟨j, -, rfl⟩ := List.mem_map.1 hq; exact both_self, ok_bind, times_const (innerA_fit const check pA) n]
  simp

theorem gaps_fit : gaps (facOf rows k R) (varsOf rows k R pA pB pC) = .ok () := by
  unfold gaps varsOf facOf
  simp only
  rw [mapM_const (y := (rows.length, R)) fun q hq => by rw [(List.mem_replicate.1 hq).2, both_self], ok_bind,
    mapM_const (y := rows.map fun j => (j, R)) fun q hq => by rw [(List.mem_replicate.1 hq).2, each_self], ok_bind,
    mapM_const (y := (k, R)) fun q hq => by rw [(List.mem_replicate.1 hq).2, both_self]]
  rfl

theorem recError_mid : recError (rows.map fun j => (j, k)) (facOf rows k R) (some (rows.map fun _ => R, rows.map fun _ => (R, R))) = .ok () := by
  unfold recError facOf
  simp only
  rw [mapM_const (y := R) fun q hq => ?_, ok_bind, mapM_const (y := (R, R)) fun q hq => ?_]
  · rfl
  · obtain ⟨x, i⟩ := q
    rw [List.mem_zipIdx_iff_getElem?, rowsOf, List.getElem?_replicate] at hq
    split at hq
    · rename_i hi
      cases hq
      simp only [show item (rows.map fun _ => ((R, R) : Sh)) i = .ok (R, R) by rw [item_ok, List.getElem?_map, List.getElem?_eq_getElem hi]; rfl, ok_bind, dot_fit]
    · cases hq
  · rw [rowsOf, ← List.map_const', List.zip_map', List.mem_map] at hq
    obtain ⟨j, -, rfl⟩ := hq
    exact fit_self

theorem sweep_fit (hne : rows ≠ []) (o : Opts) :
    sweep o (rows.map fun j => (j, k)) (facOf rows k R, varsOf rows k R pA pB pC) = .ok (facOf rows k R, varsOf rows k R pA pB pC) := by
  unfold sweep
  rw [updateB_fit hne, pure_eq_ok, ite_self, ok_bind, updateC_fit hne, pure_eq_ok, ite_self, ok_bind, updateA_fit hne]
  cases o.updA <;> cases o.diag <;> cases o.errs <;> simp [gaps_fit, recError_mid, recError_fit, -List.map_const']

theorem startVars_fit (hne : rows ≠ []) (o : Opts) :
    startVars (rows.map fun j => (j, k)) R o pA pB pC = .ok (varsOf rows k R (if o.updA then pA else 0) (if o.updB then pB else 0) (if o.updC then pC else 0)) := by
  unfold startVars
  obtain ⟨j, l, rfl⟩ := List.exists_cons_of_ne_nil hne
  simp only [show item (List.map (fun j => ((j, k) : Sh)) (j :: l)) 0 = .ok (j, k) from rfl, ok_bind, pure_eq_ok]
  rw [mapM_const (f := fun _ : Unit => Except.ok (k, R)) (y := (k, R)) fun q hq => rfl]
  simp [varsOf]

theorem validate_fit : validate (facOf rows k R) = .ok () := by
  unfold validate facOf
  rw [if_pos ⟨rfl, by simp, by simp⟩]

/-- C111, fitting data: with data of the shapes of the initial factorization and its rank no exception is raised, whatever the modes, penalties and iterations, and the returned factors have the
shapes of the initial ones. -/
theorem C111_fits (o : Opts) {X : List Sh} (hX : FitsShape X rows k) (hne : X ≠ []) (pA pB pC N : ℕ) : fit_cmf o X R pA pB pC N (facOf rows k R) = .ok (facOf rows k R) := by
  obtain rfl := hX
  have hne : rows ≠ [] := by simpa using hne
  unfold fit_cmf
  rw [startVars_fit hne, ok_bind, recError_fit, ok_bind, gaps_fit, ok_bind, times_const (sweep_fit hne o) N, ok_bind, validate_fit]
  rfl

/-- The rank is only compared with initial variables of penalties: without penalties another rank is ignored, and the factors of the initial rank are returned. -/
theorem C111_rank_ignored (o : Opts) {X : List Sh} (hX : FitsShape X rows k) (hne : X ≠ []) (rank N : ℕ) : fit_cmf o X rank 0 0 0 N (facOf rows k R) = .ok (facOf rows k R) := by
  rw [← C111_fits o hX hne 0 0 0 N]
  unfold fit_cmf startVars
  simp

end

/-! ### Data that do not fit -/

section
variable {rows : List ℕ} {k R : ℕ}

theorem mapM_each {α β : Type} {f : α → Except PyErr β} : ∀ {l : List α} {r : List β}, l.mapM f = .ok r → ∀ x ∈ l, ∃ y, f x = .ok y
  | [], _, _, _, hx => by cases hx
  | a :: l, r, h, x, hx => by
    rw [List.mapM_cons, bind_ok] at h
    obtain ⟨y, hy, h⟩ := h
    rw [bind_ok] at h
    obtain ⟨ys, hys, -⟩ := h
    rcases List.mem_cons.1 hx with rfl | hx
    · exact ⟨y, hy⟩
    · exact mapM_each hys x hx

theorem mapM_length {α β : Type} {f : α → Except PyErr β} : ∀ {l : List α} {r : List β}, l.mapM f = .ok r → r.length = l.length
  | [], r, h => by cases h; rfl
  | a :: l, r, h => by
    rw [List.mapM_cons, bind_ok] at h
    obtain ⟨y, hy, h⟩ := h
    rw [bind_ok] at h
    obtain ⟨ys, hys, h⟩ := h
    cases h
    rw [List.length_cons, List.length_cons, mapM_length hys]

theorem foldlM_each {α σ : Type} {f : σ → α → Except PyErr σ} : ∀ {l : List α} {s r : σ}, l.foldlM f s = .ok r → ∀ x ∈ l, ∃ s' s'', f s' x = .ok s''
  | [], _, _, _, _, hx => by cases hx
  | a :: l, s, r, h, x, hx => by
    rw [List.foldlM_cons, bind_ok] at h
    obtain ⟨s', hs, h⟩ := h
    rcases List.mem_cons.1 hx with rfl | hx
    · exact ⟨s, s', hs⟩
    · exact foldlM_each h x hx

theorem foldlM_inv {α σ : Type} {f : σ → α → Except PyErr σ} (P : σ → Prop) (hf : ∀ s x s', P s → f s x = .ok s' → P s') : ∀ {l : List α} {s r : σ}, l.foldlM f s = .ok r → P s → P r
  | [], s, r, h, hs => by cases h; exact hs
  | a :: l, s, r, h, hs => by
    rw [List.foldlM_cons, bind_ok] at h
    obtain ⟨s', hs', h⟩ := h
    exact foldlM_inv P hf h (hf _ _ _ hs hs')

theorem times_inv {σ : Type} {f : σ → Except PyErr σ} (P : σ → Prop) (hf : ∀ s s', P s → f s = .ok s' → P s') : ∀ {n : ℕ} {s r : σ}, times f n s = .ok r → P s → P r
  | 0, s, r, h, hs => by cases h; exact hs
  | n + 1, s, r, h, hs => by
    rw [times, bind_ok] at h
    obtain ⟨s', hs', h⟩ := h
    exact times_inv P hf h (hf _ _ hs hs')

theorem times_first {σ : Type} {f : σ → Except PyErr σ} {n : ℕ} {s r : σ} (hn : n ≠ 0) (h : times f n s = .ok r) : ∃ s', f s = .ok s' := by
  cases n with
  | zero => exact absurd rfl hn
  | succ n =>
    rw [times, bind_ok] at h
    obtain ⟨s', hs', -⟩ := h
    exact ⟨s', hs'⟩

/-- The product of a matrix of the data with two factors exists exactly if the shapes fit. -/
theorem term_ok {M : Sh} {j : ℕ} : (∃ t, term M (j, R) (k, R) (R, R) = .ok t) ↔ M = (j, k) := by
  obtain ⟨a, b⟩ := M
  constructor
  · rintro ⟨t, h⟩
    unfold term at h
    rw [bind_ok] at h
    obtain ⟨t', h, -⟩ := h
    split at h <;> rw [bind_ok] at h <;> obtain ⟨u, h1, h2⟩ := h <;> obtain ⟨u1, u2⟩ := u <;> obtain ⟨v1, v2⟩ := t' <;> rw [dot_ok] at h1 h2 <;> simp only [Prod.swap] at h1 h2 <;>
      simp only [Prod.mk.injEq] <;> omega
  · intro h
    cases h
    exact ⟨_, term_fit⟩

/-- The reconstruction error can be computed exactly if the data begin with matrices of the shapes of the factorization. -/
theorem recError_ok {X : List Sh} : recError X (facOf rows k R) none = .ok () ↔ (rows.map fun j => (j, k)) <+: X := by
  have key : recError X (facOf rows k R) none = .ok () ↔ ∀ (i j : ℕ), rows[i]? = some j → X[i]? = some (j, k) := by
    unfold recError facOf
    simp only [Prod.swap, dot_fit, ok_bind]
    constructor
    · intro h i j hj
      rw [bind_ok] at h
      obtain ⟨r, h, -⟩ := h
      have hi : i < rows.length := (List.getElem?_eq_some_iff.1 hj).1
      obtain ⟨y, hy⟩ := mapM_each h ((j, R), i) (by rw [List.mem_zipIdx_iff_getElem?, List.getElem?_map, hj]; rfl)
      simp only [item_rowsOf (s := (rows.length, R)) hi, ok_bind, withRow_self] at hy
      rw [bind_ok] at hy
      obtain ⟨M, hM, hy⟩ := hy
      rw [item_ok] at hM
      rw [hM, term_ok.1 ⟨y, hy⟩]
    · intro h
      rw [mapM_ok _ (fun _ => (R, R)) _ fun p hp => ?_]
      · rfl
      · obtain ⟨B, i⟩ := p
        rw [List.mem_zipIdx_iff_getElem?] at hp
        simp only [List.getElem?_map, Option.map_eq_some_iff] at hp
        obtain ⟨j, hj, rfl⟩ := hp
        have hi : i < rows.length := (List.getElem?_eq_some_iff.1 hj).1
        simp only [item_rowsOf (s := (rows.length, R)) hi, ok_bind, withRow_self, item_ok.2 (h i j hj), term_fit]
  rw [key, List.prefix_iff_getElem?]
  constructor
  · intro h i hi
    rw [h i _ (List.getElem?_eq_getElem (by simpa using hi)), List.getElem_map]
  · intro h i j hj
    obtain ⟨hi, rfl⟩ := List.getElem?_eq_some_iff.1 hj
    rw [h i (by simpa using hi), List.getElem_map]

theorem fit_cmf_ok {o : Opts} {X : List Sh} {rank pA pB pC N : ℕ} {F F' : Fac} (h : fit_cmf o X rank pA pB pC N F = .ok F') :
    ∃ v s, startVars X rank o pA pB pC = .ok v ∧ recError X F none = .ok () ∧ gaps F v = .ok () ∧ times (sweep o X) N (F, v) = .ok s := by
  unfold fit_cmf at h
  rw [bind_ok] at h
  obtain ⟨v, h1, h⟩ := h
  rw [bind_ok] at h
  obtain ⟨⟨⟩, h2, h⟩ := h
  rw [bind_ok] at h
  obtain ⟨⟨⟩, h3, h⟩ := h
  rw [bind_ok] at h
  obtain ⟨s, h4, -⟩ := h
  exact ⟨v, s, h1, h2, h3, h4⟩

/-- C111, rejection: whatever the options, a call that returns had data that begin with matrices of the shapes of the initial factorization. -/
theorem C111_prefix {o : Opts} {X : List Sh} {rank pA pB pC N : ℕ} {F' : Fac} (h : fit_cmf o X rank pA pB pC N (facOf rows k R) = .ok F') : (rows.map fun j => (j, k)) <+: X := by
  obtain ⟨v, s, -, h, -, -⟩ := fit_cmf_ok h
  exact recError_ok.1 h

/-- C111, matrices with different numbers of columns are always rejected by an initialisation that has a row for every row of the data. -/
theorem C111_columns {o : Opts} {X : List Sh} {rank pA pB pC N : ℕ} {F' : Fac} (h : fit_cmf o X rank pA pB pC N (facOf (X.map (·.1)) k R) = .ok F') : ∀ s ∈ X, s.2 = k := by
  have e := (C111_prefix h).eq_of_length (by simp)
  intro s hs
  rw [← e, List.map_map, List.mem_map] at hs
  obtain ⟨t, -, rfl⟩ := hs
  rfl

theorem innerB_ok {check : Bool} {X : List Sh} {lin : List (Sh × Sh)} {s s' : List Sh × List (List Sh × List Sh)} (h : innerB check X lin s = .ok s') :
    X.length ≤ lin.length ∧ s'.1.length = s.1.length := by
  unfold innerB at h
  rw [bind_ok] at h
  obtain ⟨sh, -, h⟩ := h
  rw [bind_ok] at h
  obtain ⟨Bs, hB, h⟩ := h
  rw [bind_ok] at h
  obtain ⟨vs, -, h⟩ := h
  constructor
  · by_contra hlt
    push Not at hlt
    obtain ⟨a, b, hab⟩ := foldlM_each hB lin.length (List.mem_range.2 hlt)
    rw [bind_ok] at hab
    obtain ⟨e, he, -⟩ := hab
    unfold entryB at he
    rw [item_error.2 le_rfl] at he
    cases he
  · have hlen : Bs.length = s.1.length := by
      refine foldlM_inv (fun l => l.length = s.1.length) ?_ hB rfl
      intro l i l' hl hs
      rw [bind_ok] at hs
      obtain ⟨e, -, hs⟩ := hs
      unfold setItem at hs
      split at hs
      · cases hs; simpa using hl
      · cases hs
    split at h
    · rw [bind_ok] at h
      obtain ⟨-, -, h⟩ := h
      rw [bind_ok] at h
      obtain ⟨-, -, h⟩ := h
      cases h
      exact hlen
    · cases h
      exact hlen

theorem updateB_ok {const check : Bool} {n : ℕ} {X : List Sh} {s s' : Fac × Vars} (h : updateB const check n X s = .ok s') :
    (n ≠ 0 → X.length ≤ s.1.A.1) ∧ s'.1.Bs.length = s.1.Bs.length := by
  unfold updateB at h
  rw [bind_ok] at h
  obtain ⟨lin, hl, h⟩ := h
  have hlen : lin.length ≤ s.1.A.1 := by
    unfold linB at hl
    rw [bind_ok] at hl
    obtain ⟨c, -, hl⟩ := hl
    rw [mapM_length hl, List.length_zip, rowsOf, List.length_replicate]
    exact min_le_right _ _
  split at h
  · cases h
  rw [bind_ok] at h
  obtain ⟨r, hr, h⟩ := h
  cases h
  refine ⟨fun hn => ?_, times_inv (fun q => q.1.length = s.1.Bs.length) (fun a b ha hb => (innerB_ok hb).2.trans ha) hr rfl⟩
  obtain ⟨q, hq⟩ := times_first hn hr
  exact (innerB_ok hq).1.trans hlen

theorem updateC_ok {check : Bool} {n : ℕ} {X : List Sh} {s s' : Fac × Vars} (h : updateC check n X s = .ok s') : s'.1.Bs = s.1.Bs := by
  unfold updateC at h
  rw [bind_ok] at h
  obtain ⟨lin, -, h⟩ := h
  rw [bind_ok] at h
  obtain ⟨r, -, h⟩ := h
  cases h
  rfl

theorem updateA_ok {const check : Bool} {n : ℕ} {X : List Sh} {s : Fac × Vars} {s' : (Fac × Vars) × (List ℕ × List Sh)} (h : updateA const check n X s = .ok s') (hn : n ≠ 0) :
    X.length ≤ s.1.Bs.length := by
  unfold updateA at h
  rw [bind_ok] at h
  obtain ⟨lin, hl, h⟩ := h
  have hlen : lin.length ≤ s.1.Bs.length := by
    unfold linA at hl
    rw [bind_ok] at hl
    obtain ⟨c, -, hl⟩ := hl
    rw [mapM_length hl, List.length_zip]
    exact min_le_right _ _
  split at h
  · cases h
  rw [bind_ok] at h
  obtain ⟨-, -, h⟩ := h
  rw [bind_ok] at h
  obtain ⟨r, hr, -⟩ := h
  obtain ⟨q, hq⟩ := times_first hn hr
  unfold innerA at hq
  rw [bind_ok] at hq
  obtain ⟨sh, -, hq⟩ := hq
  rw [bind_ok] at hq
  obtain ⟨A, hA, -⟩ := hq
  by_contra hlt
  push Not at hlt
  obtain ⟨a, b, hab⟩ := foldlM_each hA lin.length (List.mem_range.2 (hlen.trans_lt hlt))
  rw [bind_ok] at hab
  obtain ⟨e, he, -⟩ := hab
  unfold entryA at he
  rw [item_error.2 le_rfl] at he
  cases he

/-- C111, rejection: a call that does an update of A or of the B matrices and returns had data of the shapes of the initial factorization. -/
theorem C111_rejects_partial {o : Opts} {X : List Sh} {rank pA pB pC N : ℕ} {F' : Fac} (h : fit_cmf o X rank pA pB pC N (facOf rows k R) = .ok F') (hN : N ≠ 0)
    (hu : (o.updB = true ∧ o.nB ≠ 0) ∨ (o.updA = true ∧ o.nA ≠ 0)) : FitsShape X rows k := by
  have hp := C111_prefix h
  obtain ⟨v, s, -, -, -, h⟩ := fit_cmf_ok h
  obtain ⟨s', hs⟩ := times_first hN h
  unfold sweep at hs
  rw [bind_ok] at hs
  obtain ⟨s₁, h1, hs⟩ := hs
  rw [bind_ok] at hs
  obtain ⟨s₂, h2, hs⟩ := hs
  rw [bind_ok] at hs
  obtain ⟨s₃, h3, -⟩ := hs
  refine (hp.eq_of_length_le ?_).symm
  rw [List.length_map]
  rcases hu with ⟨hu, hn⟩ | ⟨hu, hn⟩
  · rw [hu, if_pos rfl] at h1
    exact (updateB_ok h1).1 hn
  · have l1 : s₁.1.Bs.length = rows.length := by
      split at h1
      · rw [(updateB_ok h1).2]; simp [facOf]
      · cases h1; simp [facOf]
    have l2 : s₂.1.Bs.length = rows.length := by
      split at h2
      · rw [updateC_ok h2, l1]
      · cases h2; exact l1
    rw [hu, if_pos rfl, bind_ok] at h3
    obtain ⟨t, ht, -⟩ := h3
    exact (updateA_ok ht hn).trans l2.le

/-- C111, ranks: with a penalty on an updated mode a call that returns had the rank of the initial factorization, or one of the two ranks is 1. -/
theorem C111_rank_partial {o : Opts} {X : List Sh} {rank pA pB pC N : ℕ} {F' : Fac} (h : fit_cmf o X rank pA pB pC N (facOf rows k R) = .ok F') (hne : rows ≠ [])
    (hp : (o.updA = true ∧ pA ≠ 0) ∨ (o.updB = true ∧ pB ≠ 0) ∨ (o.updC = true ∧ pC ≠ 0)) : rank = R ∨ rank = 1 ∨ R = 1 := by
  have hfit : ∀ {s t : Sh}, (∃ y, both s t = .ok y) → s.2 = t.2 ∨ s.2 = 1 ∨ t.2 = 1 := by
    rintro s t ⟨y, hy⟩
    unfold both at hy
    obtain ⟨a, -, hy⟩ := bind_ok.1 hy
    obtain ⟨b, hb, -⟩ := bind_ok.1 hy
    unfold fit at hb
    split_ifs at hb <;> tauto
  have hX := C111_prefix h
  obtain ⟨v, s, h1, -, h2, -⟩ := fit_cmf_ok h
  unfold startVars at h1
  obtain ⟨c, hc, h1⟩ := bind_ok.1 h1
  cases h1
  unfold gaps at h2
  obtain ⟨ya, hya, h2⟩ := bind_ok.1 h2
  obtain ⟨yb, hyb, h2⟩ := bind_ok.1 h2
  obtain ⟨yc, hyc, h2⟩ := bind_ok.1 h2
  rcases hp with ⟨hu, hn⟩ | ⟨hu, hn⟩ | ⟨hu, hn⟩
  · exact hfit (mapM_each hya (X.length, rank) (by simp [hu, hn]))
  · obtain ⟨y, hy⟩ := mapM_each hyb (X.map fun s => (s.1, rank)) (by simp [hu, hn])
    obtain ⟨Y, rfl⟩ := hX
    obtain ⟨j, l, rfl⟩ := List.exists_cons_of_ne_nil hne
    unfold each facOf at hy
    exact hfit (mapM_each hy ((j, rank), (j, R)) (by simp))
  · rw [hu, if_pos rfl] at hc
    have hl := mapM_length hc
    obtain ⟨x, xs, rfl⟩ := List.exists_cons_of_ne_nil (l := c) (by rintro rfl; simp at hl; exact hn hl.symm)
    have hx : x.2 = rank := by
      cases pC with
      | zero => exact absurd rfl hn
      | succ n =>
        rw [List.replicate_succ, List.mapM_cons] at hc
        obtain ⟨y, hy, hc⟩ := bind_ok.1 hc
        obtain ⟨ys, -, hc⟩ := bind_ok.1 hc
        cases hc
        obtain ⟨z, -, hy⟩ := bind_ok.1 hy
        cases hy
        rfl
    have := hfit (mapM_each hyc x List.mem_cons_self)
    rwa [hx] at this

end

/-! ### Misfits that are accepted -/

section
variable {rows : List ℕ} {k R : ℕ}

theorem zip_extra {α β : Type} {l Y : List α} {l' : List β} (h : l.length = l'.length) : (l ++ Y).zip l' = l.zip l' := by
  have e : (l ++ Y).zip (l' ++ []) = l.zip l' ++ Y.zip [] := List.zip_append h
  simpa using e

/-- C111 is false if only C is updated: an initial factorization of the first matrices is accepted, the other matrices are ignored. -/
theorem C111_ignored (o : Opts) (hA : o.updA = false) (hB : o.updB = false) (hne : rows ≠ []) (Y : List Sh) (pA pB pC N : ℕ) :
    fit_cmf o ((rows.map fun j => (j, k)) ++ Y) R pA pB pC N (facOf rows k R) = .ok (facOf rows k R) := by
  have hr : recError ((rows.map fun j => (j, k)) ++ Y) (facOf rows k R) none = .ok () := recError_ok.2 (List.prefix_append _ _)
  have hv : startVars ((rows.map fun j => (j, k)) ++ Y) R o pA pB pC = .ok (varsOf rows k R 0 0 (if o.updC then pC else 0)) := by
    unfold startVars
    obtain ⟨j, l, rfl⟩ := List.exists_cons_of_ne_nil hne
    simp only [show item (List.map (fun j => ((j, k) : Sh)) (j :: l) ++ Y) 0 = .ok (j, k) from rfl, ok_bind, pure_eq_ok]
    rw [mapM_const (f := fun _ : Unit => Except.ok (k, R)) (y := (k, R)) fun q hq => rfl]
    simp [varsOf, hA, hB]
  have hl : linC ((rows.map fun j => (j, k)) ++ Y) (facOf rows k R) = linC (rows.map fun j => (j, k)) (facOf rows k R) := by
    unfold linC
    rw [zip_extra (by simp [facOf, rowsOf])]
  have hc : ∀ p, updateC o.check o.nC ((rows.map fun j => (j, k)) ++ Y) (facOf rows k R, varsOf rows k R 0 0 p) = .ok (facOf rows k R, varsOf rows k R 0 0 p) := by
    intro p
    rw [← updateC_fit (k := k) (R := R) hne o.check o.nC]
    unfold updateC
    rw [hl]
  have hs : sweep o ((rows.map fun j => (j, k)) ++ Y) (facOf rows k R, varsOf rows k R 0 0 (if o.updC then pC else 0)) =
      .ok (facOf rows k R, varsOf rows k R 0 0 (if o.updC then pC else 0)) := by
    unfold sweep
    rw [hB, hA, if_neg Bool.false_ne_true, pure_eq_ok, ok_bind, hc, pure_eq_ok, ite_self, ok_bind, if_neg Bool.false_ne_true, pure_eq_ok, ok_bind]
    cases o.diag <;> cases o.errs <;> simp [gaps_fit, hr]
  unfold fit_cmf
  rw [hv, ok_bind, hr, ok_bind, gaps_fit, ok_bind, times_const hs N, ok_bind, validate_fit]
  rfl

/-- All modes updated, gaps and errors computed. -/
def optsAll : Opts := ⟨true, true, true, false, false, true, 5, 5, 5, true, true⟩

/-- C111 is false: two matrices are ignored if only C is updated (the initial factorization has one matrix), and a call with rank 3 returns factors of rank 2. -/
theorem C111_false : fit_cmf { optsAll with updA := false, updB := false } [(3, 4), (5, 4), (2, 7)] 2 0 0 1 10 (facOf [3] 4 2) = .ok (facOf [3] 4 2) ∧
    fit_cmf optsAll [(3, 4), (5, 4)] 3 0 0 0 10 (facOf [3, 5] 4 2) = .ok (facOf [3, 5] 4 2) :=
  ⟨C111_ignored (rows := [3]) _ rfl rfl (by simp) [(5, 4), (2, 7)] 0 0 1 10, C111_rank_ignored (rows := [3, 5]) _ rfl (by simp) 3 10⟩

/-- With a penalty on C a call with rank 1 and factors of rank 2 is accepted; with rank 3 it raises ValueError. -/
theorem C111_broadcast : fit_cmf optsAll [(3, 4), (5, 4)] 1 0 0 1 2 (facOf [3, 5] 4 2) = .ok (facOf [3, 5] 4 2) ∧
    fit_cmf optsAll [(3, 4), (5, 4)] 3 0 0 1 2 (facOf [3, 5] 4 2) = .error .valueError := by
  constructor <;> decide +kernel

/-- Misfits that are rejected: a wrong number of rows or columns, an initial factorization with too many matrices, and (if A or the B matrices are updated) with too few. -/
example : fit_cmf optsAll [(3, 4), (6, 4)] 2 1 1 1 2 (facOf [3, 5] 4 2) = .error .valueError ∧ fit_cmf optsAll [(3, 4), (5, 6)] 2 1 1 1 2 (facOf [3, 5] 4 2) = .error .valueError ∧
    fit_cmf optsAll [(3, 4)] 2 0 0 0 2 (facOf [3, 5] 4 2) = .error .indexError ∧ fit_cmf optsAll [(3, 4), (5, 4)] 2 0 0 0 2 (facOf [3] 4 2) = .error .indexError := by
  refine ⟨?_, ?_, ?_, ?_⟩ <;> decide +kernel

end

end Verif.Props
