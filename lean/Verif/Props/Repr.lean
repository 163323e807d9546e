import Mathlib.Data.List.Perm.Basic
import Mathlib.Data.List.Induction
import Mathlib.Data.Fin.VecNotation
import Mathlib.Algebra.BigOperators.Group.List.Basic
import Mathlib.Tactic.Ring
import Verif.Repr.Model

/-!
# C129: representations of penalties
-/

namespace Verif.Props

open Verif.Repr

variable {V : Type}

/-- The parameters of the constructor of a penalty class, in the order of its signature, without `aux_init` and `dual_init`. -/
def signature : Pen V → List (Str × V)
  | .nonNeg => []
  | .box a b => [("min_val".toList, a), ("max_val".toList, b)]
  | .l1 a b => [("reg_strength".toList, a), ("non_negativity".toList, b)]
  | .genL2 m s c => [("norm_matrix".toList, m), ("svd".toList, s), ("validate".toList, c)]
  | .tv a b => [("reg_strength".toList, a), ("l1_strength".toList, b)]
  | .l2Ball a b => [("norm_bound".toList, a), ("non_negativity".toList, b)]
  | .simplex => []
  | .unimodal b => [("non_negativity".toList, b)]
  | .parafac2 s n ub uc => [("svd".toList, s), ("n_iter".toList, n), ("update_basis_matrices".toList, ub), ("update_coordinate_matrix".toList, uc)]

/-- `name=repr(value)`. -/
def shownArg (v : Values V) (p : Str × V) : Str := p.1 ++ "=".toList ++ v.repr p.2

/-- `name='value'` for a string, `name=given_init` for anything else. -/
def shownInit (v : Values V) (name : String) (x : V) : Str := name.toList ++ "=".toList ++ match v.asStr x with
  | some s => "'".toList ++ s ++ "'".toList
  | none => "given_init".toList

/-- `a, b, c`. -/
def commaList : List Str → Str
  | [] => []
  | a :: l => a ++ l.flatMap fun x => ',' :: ' ' :: x

theorem intercalate_eq (l : List Str) : ", ".toList.intercalate l = commaList l := by
  match l with
  | [] => rfl
  | [a] => simp [commaList]
  | a :: b :: l =>
    have ih := intercalate_eq (b :: l)
    rw [List.intercalate_cons_cons, ih]
    simp [commaList]

/-- The arguments in the order of the attributes. -/
def ordered : Pen V → List (Str × V)
  | .parafac2 s n ub uc => [("svd".toList, s), ("update_basis_matrices".toList, ub), ("update_coordinate_matrix".toList, uc), ("n_iter".toList, n)]
  | p => signature p

theorem dict_filter (factors : V → V → V × V) (aux dual : V) (p : Pen V) : ((p.dict factors aux dual).filter fun q => autoAdd q.1) = ordered p := by
  cases p <;> rfl

theorem dict_aux (factors : V → V → V × V) (aux dual : V) (p : Pen V) : (p.dict factors aux dual).lookup "aux_init".toList = some aux := by
  cases p <;> rfl

theorem dict_dual (factors : V → V → V × V) (aux dual : V) (p : Pen V) : (p.dict factors aux dual).lookup "dual_init".toList = some dual := by
  cases p <;> rfl

theorem reprOf_eq (v : Values V) (factors : V → V → V × V) (p : Pen V) (aux dual : V) : reprOf v (p.obj factors aux dual) =
    .ok ("<'matcouply.penalties.".toList ++ p.name ++ "' with ".toList ++ commaList ((ordered p).map (shownArg v) ++ [shownInit v "aux_init" aux, shownInit v "dual_init" dual]) ++ ")>".toList) := by
  have hi : ∀ (s : String) (x : V), initItem v s.toList x = shownInit v s x := by
    intro s x
    unfold initItem shownInit
    cases v.asStr x <;> simp
  have ha : item v = shownArg v := by funext x; simp [item, shownArg]
  unfold reprOf Obj.attr Pen.obj
  simp only [dict_filter, dict_aux, dict_dual, ok_bind, pure_eq_ok, hi, ha, intercalate_eq, List.append_assoc, List.singleton_append]
  rfl

/-- C129, contents: the representation is the class name followed by every argument of the constructor with its value, each once and nothing else, then the two initialisations. -/
theorem C129_contents (v : Values V) (factors : V → V → V × V) (p : Pen V) (aux dual : V) : ∃ args : List Str, args.Perm ((signature p).map (shownArg v)) ∧
    reprOf v (p.obj factors aux dual) =
      .ok ("<'matcouply.penalties.".toList ++ p.name ++ "' with ".toList ++ commaList (args ++ [shownInit v "aux_init" aux, shownInit v "dual_init" dual]) ++ ")>".toList) := by
  refine ⟨(ordered p).map (shownArg v), ?_, reprOf_eq v factors p aux dual⟩
  apply List.Perm.map
  cases p with
  | parafac2 s n ub uc =>
    refine .cons _ ?_
    exact (List.perm_append_comm (l₁ := [_, _]) (l₂ := [_]))
  | _ => exact .refl _

/-- A constructor argument, or a name of an initialisation scheme, is shown without a comma. -/
def NoComma (s : Str) : Prop := ',' ∉ s

theorem split_at {c : Char} : ∀ {l l' r r' : Str}, c ∉ l → c ∉ l' → l ++ c :: r = l' ++ c :: r' → l = l' ∧ r = r'
  | [], [], r, r', _, _, h => ⟨rfl, (List.cons.inj h).2⟩
  | [], b :: l', r, r', _, h2, h => absurd ((List.cons.inj h).1 ▸ List.mem_cons_self) h2
  | a :: l, [], r, r', h1, _, h => absurd ((List.cons.inj h).1.symm ▸ List.mem_cons_self) h1
  | a :: l, b :: l', r, r', h1, h2, h => by
    obtain ⟨e, h⟩ := List.cons.inj h
    obtain ⟨h3, h4⟩ := split_at (fun hm => h1 (List.mem_cons_of_mem _ hm)) (fun hm => h2 (List.mem_cons_of_mem _ hm)) h
    exact ⟨by rw [e, h3], h4⟩

theorem split_last {x x' q q' : Str} (h1 : NoComma q) (h2 : NoComma q') (h : x ++ ',' :: ' ' :: q = x' ++ ',' :: ' ' :: q') : x = x' ∧ q = q' := by
  have h := congrArg List.reverse h
  simp only [List.reverse_append, List.reverse_cons, List.append_assoc, List.cons_append, List.nil_append] at h
  have e : ∀ (q x : Str), q.reverse ++ ' ' :: ',' :: x.reverse = (q.reverse ++ [' ']) ++ ',' :: x.reverse := by simp
  rw [e, e] at h
  obtain ⟨h3, h4⟩ := split_at (by simpa [NoComma] using h1) (by simpa [NoComma] using h2) h
  exact ⟨List.reverse_injective h4, List.reverse_injective (List.append_cancel_right h3)⟩

/-- Lists of the same length can be told apart if no item but the first contains a comma. -/
theorem commaList_inj {a a' : Str} : ∀ {l l' : List Str}, l.length = l'.length → (∀ x ∈ l, NoComma x) → (∀ x ∈ l', NoComma x) → commaList (a :: l) = commaList (a' :: l') → a = a' ∧ l = l' := by
  intro l
  induction l using List.reverseRecOn with
  | nil =>
    intro l' hl _ _ h
    obtain rfl : l' = [] := by simpa using hl.symm
    exact ⟨by simpa [commaList] using h, rfl⟩
  | append_singleton l q ih =>
    intro l' hl h1 h2 h
    obtain ⟨l'', q', rfl⟩ : ∃ l'' q', l' = l'' ++ [q'] := by
      rcases List.eq_nil_or_concat l' with rfl | ⟨l'', q', rfl⟩
      · simp at hl
      · exact ⟨l'', q', by simp⟩
    have e : ∀ (a : Str) (l : List Str) (q : Str), commaList (a :: (l ++ [q])) = commaList (a :: l) ++ ',' :: ' ' :: q := by intro a l q; simp [commaList]
    rw [e, e] at h
    obtain ⟨h3, rfl⟩ := split_last (h1 q (by simp)) (h2 q' (by simp)) h
    obtain ⟨h4, h5⟩ := ih (by simpa using hl) (fun x hx => h1 x (by simp [hx])) (fun x hx => h2 x (by simp [hx])) h3
    exact ⟨h4, by rw [h5]⟩

/-- The number of the class, and the names and attributes of all classes. -/
def tag : Pen V → Fin 9
  | .nonNeg => 0
  | .box .. => 1
  | .l1 .. => 2
  | .genL2 .. => 3
  | .tv .. => 4
  | .l2Ball .. => 5
  | .simplex => 6
  | .unimodal .. => 7
  | .parafac2 .. => 8

def classNames : Fin 9 → Str :=
  ![ "NonNegativity".toList, "Box".toList, "L1Penalty".toList, "GeneralizedL2Penalty".toList, "TotalVariationPenalty".toList, "L2Ball".toList, "UnitSimplex".toList, "Unimodality".toList,
    "Parafac2".toList]

theorem name_eq (p : Pen V) : p.name = classNames (tag p) := by cases p <;> rfl

theorem name_quote (p : Pen V) : '\'' ∉ p.name := by
  rw [name_eq]
  have : ∀ i, '\'' ∉ classNames i := by decide +kernel
  exact this _

theorem tag_inj {p p' : Pen V} (h : p.name = p'.name) : tag p = tag p' := by
  rw [name_eq, name_eq] at h
  have : ∀ i j, classNames i = classNames j → i = j := by decide +kernel
  exact this _ _ h

/-- The arguments of the constructor. -/
def args (p : Pen V) : List V := (signature p).map (·.2)

section
variable (a b c d : V)
@[simp] theorem args_box : args (.box a b) = [a, b] := rfl
@[simp] theorem args_l1 : args (.l1 a b) = [a, b] := rfl
@[simp] theorem args_genL2 : args (.genL2 a b c) = [a, b, c] := rfl
@[simp] theorem args_tv : args (.tv a b) = [a, b] := rfl
@[simp] theorem args_l2Ball : args (.l2Ball a b) = [a, b] := rfl
@[simp] theorem args_unimodal : args (.unimodal a) = [a] := rfl
@[simp] theorem args_parafac2 : args (.parafac2 a b c d) = [a, b, c, d] := rfl
end

/-- The representations of values suffice: no initialisation scheme and no argument contains a comma, except that norm matrices, lower bounds and other first arguments may. -/
def Plain (v : Values V) (p : Pen V) (aux dual : V) : Prop :=
  (∀ x ∈ (args p).tail, NoComma (v.repr x)) ∧ (∀ s, v.asStr aux = some s → NoComma s) ∧ ∀ s, v.asStr dual = some s → NoComma s

theorem shownInit_noComma {v : Values V} {name : String} (hn : NoComma name.toList) {x : V} (h : ∀ s, v.asStr x = some s → NoComma s) : NoComma (shownInit v name x) := by
  unfold shownInit NoComma at *
  cases hx : v.asStr x with
  | none => simp [hn]
  | some s => simp [hn, h s hx]

theorem shownInit_inj {v : Values V} {name : String} {x y : V} (h : shownInit v name x = shownInit v name y) : v.asStr x = v.asStr y := by
  unfold shownInit at h
  have h := List.append_cancel_left h
  cases hx : v.asStr x <;> cases hy : v.asStr y <;> simp_all

theorem shownArg_inj {v : Values V} {k : Str} {x y : V} (h : shownArg v (k, x) = shownArg v (k, y)) : v.repr x = v.repr y := List.append_cancel_left h

theorem forall_cons {a : Str} {l : List Str} (ha : NoComma a) (hl : ∀ x ∈ l, NoComma x) : ∀ x ∈ a :: l, NoComma x := List.forall_mem_cons.2 ⟨ha, hl⟩

theorem two_inits {a b : Str} (ha : NoComma a) (hb : NoComma b) : ∀ x ∈ [a, b], NoComma x := forall_cons ha (forall_cons hb fun _ h => absurd h List.not_mem_nil)

/-- The attributes that are shown, for each class. -/
def classKeys : Fin 9 → List Str :=
  ![[], ["min_val".toList, "max_val".toList], ["reg_strength".toList, "non_negativity".toList], ["norm_matrix".toList, "svd".toList, "validate".toList],
    ["reg_strength".toList, "l1_strength".toList], ["norm_bound".toList, "non_negativity".toList], [], ["non_negativity".toList],
    ["svd".toList, "update_basis_matrices".toList, "update_coordinate_matrix".toList, "n_iter".toList]]

theorem keys_eq (p : Pen V) : (ordered p).map (·.1) = classKeys (tag p) := by cases p <;> rfl

/-- The arguments in the order of the attributes. -/
def vals (p : Pen V) : List V := (ordered p).map (·.2)

section
variable (a b c d : V)
@[simp] theorem vals_nonNeg : vals (.nonNeg : Pen V) = [] := rfl
@[simp] theorem vals_simplex : vals (.simplex : Pen V) = [] := rfl
@[simp] theorem vals_box : vals (.box a b) = [a, b] := rfl
@[simp] theorem vals_l1 : vals (.l1 a b) = [a, b] := rfl
@[simp] theorem vals_genL2 : vals (.genL2 a b c) = [a, b, c] := rfl
@[simp] theorem vals_tv : vals (.tv a b) = [a, b] := rfl
@[simp] theorem vals_l2Ball : vals (.l2Ball a b) = [a, b] := rfl
@[simp] theorem vals_unimodal : vals (.unimodal a) = [a] := rfl
@[simp] theorem vals_parafac2 : vals (.parafac2 a b c d) = [a, c, d, b] := rfl
end

theorem vals_args (p : Pen V) : ∀ x ∈ vals p, x ∈ args p := by
  cases p <;> simp

theorem vals_tail (p : Pen V) : ∀ x ∈ (vals p).tail, x ∈ (args p).tail := by
  cases p <;> simp

theorem vals_inj {p p' : Pen V} (ht : tag p = tag p') (h : vals p = vals p') : p = p' := by
  cases p <;> cases p' <;> first | (exfalso; simp [tag] at ht; done) | skip
  all_goals simp at h
  all_goals simp [h]

theorem map_inj {v : Values V} : ∀ {l l' : List (Str × V)}, l.map (·.1) = l'.map (·.1) → l.map (shownArg v) = l'.map (shownArg v) → (l.map (·.2)).map v.repr = (l'.map (·.2)).map v.repr
  | [], [], _, _ => rfl
  | [], _ :: _, hk, _ => absurd hk (by simp)
  | _ :: _, [], hk, _ => absurd hk (by simp)
  | (k, x) :: l, (k', x') :: l', hk, h => by
    obtain ⟨e, hk2⟩ := List.cons.inj hk
    obtain rfl : k = k' := e
    obtain ⟨h1, h2⟩ := List.cons.inj h
    have := map_inj hk2 h2
    simp only [List.map_cons, shownArg_inj h1]
    exact congrArg _ this

theorem items_inj {v : Values V} {l l' : List (Str × V)} (hk : l.map (·.1) = l'.map (·.1)) (hc : ∀ q ∈ l.tail, NoComma (shownArg v q)) (hc' : ∀ q ∈ l'.tail, NoComma (shownArg v q)) {a b a' b' : Str}
    (ha : NoComma a) (hb : NoComma b) (ha' : NoComma a') (hb' : NoComma b') (h : commaList (l.map (shownArg v) ++ [a, b]) = commaList (l'.map (shownArg v) ++ [a', b'])) :
    (l.map (·.2)).map v.repr = (l'.map (·.2)).map v.repr ∧ a = a' ∧ b = b' := by
  have hlen : l.length = l'.length := by simpa using congrArg List.length hk
  have fin : l.map (shownArg v) ++ [a, b] = l'.map (shownArg v) ++ [a', b'] := by
    cases l with
    | nil =>
      obtain rfl : l' = [] := by simpa using hlen.symm
      obtain ⟨e1, e2⟩ := commaList_inj (a := a) (a' := a') (l := [b]) (l' := [b']) rfl (by simpa using hb) (by simpa using hb') h
      simp [e1, (List.cons.inj e2).1]
    | cons q l =>
      cases l' with
      | nil => simp at hlen
      | cons q' l' =>
        have aux : ∀ (l : List (Str × V)) {a b : Str}, (∀ q ∈ l, NoComma (shownArg v q)) → NoComma a → NoComma b → ∀ x ∈ l.map (shownArg v) ++ [a, b], NoComma x := by
          intro l a b hc ha hb x hx
          rcases List.mem_append.1 hx with hx | hx
          · obtain ⟨q, hq, rfl⟩ := List.mem_map.1 hx
            exact hc q hq
          · exact two_inits ha hb x hx
        obtain ⟨e1, e2⟩ := commaList_inj (by simpa using hlen) (aux l hc ha hb) (aux l' hc' ha' hb') h
        simp only [List.map_cons, List.cons_append, e1, e2]
  obtain ⟨h1, h2⟩ := List.append_inj fin (by simpa using hlen)
  obtain ⟨h2, h3⟩ := List.cons.inj h2
  exact ⟨map_inj hk h1, h2, (List.cons.inj h3).1⟩

theorem repr_inj {v : Values V} : ∀ {l l' : List V}, (∀ x ∈ l, ∀ y ∈ l', v.repr x = v.repr y → x = y) → l.map v.repr = l'.map v.repr → l = l'
  | [], [], _, _ => rfl
  | [], _ :: _, _, h => absurd h (by simp)
  | _ :: _, [], _, h => absurd h (by simp)
  | x :: l, y :: l', hi, h => by
    obtain ⟨h1, h2⟩ := List.cons.inj h
    rw [hi x (by simp) y (by simp) h1, repr_inj (fun x hx y hy => hi x (by simp [hx]) y (by simp [hy])) h2]

theorem ordered_noComma {v : Values V} {p : Pen V} (h : ∀ x ∈ (args p).tail, NoComma (v.repr x)) : ∀ q ∈ (ordered p).tail, NoComma (shownArg v q) := by
  intro q hq
  have h1 : q.2 ∈ (args p).tail := by
    apply vals_tail
    rw [vals, ← List.map_tail]
    exact List.mem_map_of_mem hq
  have h2 : q.1 ∈ classKeys (tag p) := by
    rw [← keys_eq]
    exact List.mem_map_of_mem (List.mem_of_mem_tail hq)
  have hk : ∀ i, ∀ k ∈ classKeys i, ',' ∉ k := by decide +kernel
  have h3 := hk _ _ h2
  have h4 := h _ h1
  unfold shownArg NoComma at *
  simp [h3, h4]

/-- C129, distinction: penalties of the package with the same representation are of the same class and have the same arguments and the same named initialisation schemes, if values of arguments have different
representations and the representations contain no commas (except that of the first argument). -/
theorem C129_partial (v : Values V) (factors : V → V → V × V) {p p' : Pen V} {aux dual aux' dual' : V} (hp : Plain v p aux dual) (hp' : Plain v p' aux' dual')
    (hinj : ∀ x ∈ args p, ∀ y ∈ args p', v.repr x = v.repr y → x = y) (h : reprOf v (p.obj factors aux dual) = reprOf v (p'.obj factors aux' dual')) :
    p = p' ∧ v.asStr aux = v.asStr aux' ∧ v.asStr dual = v.asStr dual' := by
  rw [reprOf_eq, reprOf_eq] at h
  have h := Except.ok.inj h
  simp only [List.append_assoc] at h
  have h := List.append_cancel_left h
  obtain ⟨hn, h⟩ := split_at (c := '\'') (r := " with ".toList ++ _) (r' := " with ".toList ++ _) (name_quote p) (name_quote p') h
  have h := List.append_cancel_right (List.append_cancel_left h)
  obtain ⟨h1, h2, h3⟩ := hp
  obtain ⟨h1', h2', h3'⟩ := hp'
  have ka : NoComma "aux_init".toList := by unfold NoComma; decide +kernel
  have kd : NoComma "dual_init".toList := by unfold NoComma; decide +kernel
  have ia := shownInit_noComma ka h2
  have ia' := shownInit_noComma ka h2'
  have id := shownInit_noComma kd h3
  have id' := shownInit_noComma kd h3'
  have ht := tag_inj hn
  obtain ⟨e1, e2, e3⟩ := items_inj (by rw [keys_eq, keys_eq, ht]) (ordered_noComma h1) (ordered_noComma h1') ia id ia' id' h
  refine ⟨vals_inj ht (repr_inj (fun x hx y hy => hinj x (vals_args _ x hx) y (vals_args _ y hy)) e1), shownInit_inj e2, shownInit_inj e3⟩

/-- Values for an example: numbers that are shown as lists of strokes, and strings. -/
def strokes : Values (ℕ ⊕ Str) := ⟨fun x => match x with | .inl n => List.replicate n '|' | .inr s => s, fun x => match x with | .inl _ => none | .inr s => some s⟩

/-- C129 is false for given initial values, which are all shown as `given_init`: penalties that start from different matrices have the same representation. -/
theorem C129_false (v : Values V) (factors : V → V → V × V) (p : Pen V) {aux dual aux' dual' : V} (h1 : v.asStr aux = none) (h2 : v.asStr aux' = none) (h3 : v.asStr dual = none)
    (h4 : v.asStr dual' = none) : reprOf v (p.obj factors aux dual) = reprOf v (p.obj factors aux' dual') := by
  rw [reprOf_eq, reprOf_eq]
  simp only [shownInit, h1, h2, h3, h4]

/-- An instance of `C129_false`: different starting values, same representation. -/
theorem C129_given : (Pen.nonNeg.obj (fun x _ => (x, x)) (.inl 1) (.inl 2) : Obj (ℕ ⊕ Str)).dict ≠ (Pen.nonNeg.obj (fun x _ => (x, x)) (.inl 3) (.inl 4) : Obj (ℕ ⊕ Str)).dict ∧
    reprOf strokes (Pen.nonNeg.obj (fun x _ => (x, x)) (.inl 1) (.inl 2)) = reprOf strokes (Pen.nonNeg.obj (fun x _ => (x, x)) (.inl 3) (.inl 4)) :=
  ⟨by decide +kernel, C129_false strokes _ _ rfl rfl rfl rfl⟩

/-- Closing minus opening parentheses. -/
def closing (s : Str) : ℤ := s.count ')' - s.count '('

theorem closing_append (s t : Str) : closing (s ++ t) = closing s + closing t := by
  simp only [closing, List.count_append]
  push_cast
  ring

theorem closing_commaList : ∀ l : List Str, closing (commaList l) = (l.map closing).sum
  | [] => rfl
  | a :: l => by
    have : closing (l.flatMap fun x => ',' :: ' ' :: x) = (l.map closing).sum := by
      induction l with
      | nil => rfl
      | cons b l ih =>
        rw [List.flatMap_cons, closing_append, ih, List.map_cons, List.sum_cons]
        simp [closing]
    rw [commaList, closing_append, this, List.map_cons, List.sum_cons]

/-- The parentheses never match: there is a closing one at the end that was not opened, whatever the class and arguments (if those of the arguments match). -/
theorem C129_parentheses (v : Values V) (factors : V → V → V × V) (p : Pen V) {aux dual : V} (ha : ∀ x ∈ args p, closing (v.repr x) = 0) (h1 : ∀ s, v.asStr aux = some s → closing s = 0)
    (h2 : ∀ s, v.asStr dual = some s → closing s = 0) : ∃ s, reprOf v (p.obj factors aux dual) = .ok s ∧ s.count ')' = s.count '(' + 1 := by
  refine ⟨_, reprOf_eq v factors p aux dual, ?_⟩
  have hi : ∀ (k : String) (x : V), closing k.toList = 0 → (∀ s, v.asStr x = some s → closing s = 0) → closing (shownInit v k x) = 0 := by
    intro k x hk hx
    unfold shownInit
    rw [closing_append, closing_append, hk]
    cases e : v.asStr x with
    | none => simp only; decide +kernel
    | some s =>
      simp only [closing_append, hx s e]
      decide +kernel
  have hargs : ∀ q ∈ ordered p, closing (shownArg v q) = 0 := by
    intro q hq
    have h1 : q.2 ∈ args p := vals_args p _ (List.mem_map_of_mem hq)
    have h2 : q.1 ∈ classKeys (tag p) := by
      rw [← keys_eq]
      exact List.mem_map_of_mem hq
    have hk : ∀ i, ∀ k ∈ classKeys i, closing k = 0 := by decide +kernel
    unfold shownArg
    rw [closing_append, closing_append, hk _ _ h2, ha _ h1]
    decide +kernel
  have hn : closing p.name = 0 := by
    rw [name_eq]
    have : ∀ i, closing (classNames i) = 0 := by decide +kernel
    exact this _
  have : closing ("<'matcouply.penalties.".toList ++ p.name ++ "' with ".toList ++ commaList ((ordered p).map (shownArg v) ++ [shownInit v "aux_init" aux, shownInit v "dual_init" dual]) ++ ")>".toList) = 1 := by
    rw [closing_append, closing_append, closing_append, closing_append, closing_commaList, hn, List.map_append, List.sum_append, List.map_map]
    rw [List.sum_eq_zero (l := List.map (closing ∘ shownArg v) (ordered p)) (by
      intro x hx
      obtain ⟨q, hq, rfl⟩ := List.mem_map.1 hx
      exact hargs q hq)]
    simp only [List.map_cons, List.map_nil, List.sum_cons, List.sum_nil, hi "aux_init" aux (by decide +kernel) h1, hi "dual_init" dual (by decide +kernel) h2]
    decide +kernel
  unfold closing at this
  omega

/-- A class whose constructor does not set `aux_init` (one that does not call that of `ADMMPenalty`) has no representation. -/
theorem C129_missing (v : Values V) (o : Obj V) (h : ∀ q ∈ o.dict, q.1 ≠ "aux_init".toList) : reprOf v o = .error .attributeError := by
  have : o.dict.lookup "aux_init".toList = none := by
    rw [List.lookup_eq_none_iff]
    intro q hq
    simpa using (h q hq).symm
  unfold reprOf Obj.attr
  rw [this]
  rfl

/-- The representation of an L1 penalty in the example, which satisfies the hypotheses of `C129_partial`. -/
theorem C129_example : reprOf strokes ((Pen.l1 (.inl 2) (.inr "True".toList)).obj (fun x _ => (x, x)) (.inr "zeros".toList) (.inl 5)) =
      .ok "<'matcouply.penalties.L1Penalty' with reg_strength=||, non_negativity=True, aux_init='zeros', dual_init=given_init)>".toList ∧
    Plain strokes (Pen.l1 (.inl 2) (.inr "True".toList)) (.inr "zeros".toList) (.inl 5) := by
  refine ⟨by decide +kernel, ?_, ?_, ?_⟩
  · intro x hx
    obtain rfl : x = .inr "True".toList := by simpa using hx
    unfold NoComma
    decide +kernel
  · intro s hs
    obtain rfl : "zeros".toList = s := Option.some.inj hs
    unfold NoComma
    decide +kernel
  · intro s hs
    cases hs

end Verif.Props
