import Verif.Mro.Classes
import Verif.Props.Mro

/-!
# C77, C78: class statements with `InheritableDocstrings`, the penalty classes
-/

namespace Verif.Props

open Verif.Mro

section
variable {ν : Type} [DecidableEq ν]

theorem ns_get_cons (p : ν × Val ν) (ns : Ns ν) (m : ν) : Ns.get (p :: ns) m = if p.1 = m then some p.2 else Ns.get ns m := by
  unfold Ns.get
  rw [List.find?_cons]
  by_cases h : p.1 = m
  · simp [h]
  · have hb : (p.1 == m) = false := by simpa using h
    rw [hb, if_neg h]

theorem ns_get_none (ns : Ns ν) (m : ν) : Ns.get ns m = none ↔ ∀ p ∈ ns, p.1 ≠ m := by
  induction ns with
  | nil => simp [Ns.get]
  | cons p ns ih =>
    rw [ns_get_cons]
    by_cases h : p.1 = m
    · simp [h]
    · simp [h, ih]

theorem ns_get_append (a b : Ns ν) (m : ν) : Ns.get (a ++ b) m = (Ns.get a m).or (Ns.get b m) := by
  induction a with
  | nil => rfl
  | cons p a ih =>
    rw [List.cons_append, ns_get_cons, ns_get_cons, ih]
    by_cases h : p.1 = m
    · simp [h]
    · simp [h]

theorem ns_get_set (ns : Ns ν) (n m : ν) (v : Val ν) : (ns.set n v).get m = if m = n then some v else ns.get m := by
  have hmap : ∀ l : Ns ν, Ns.get (l.map fun p => if p.1 == n then (n, v) else p) m =
      if m = n then (if l.any (fun p => p.1 == n) then some v else none) else l.get m := by
    intro l
    induction l with
    | nil => simp [Ns.get]
    | cons p l ih =>
      rw [List.map_cons, ns_get_cons, ih, List.any_cons, ns_get_cons]
      by_cases hp : p.1 = n
      · simp only [hp, beq_self_eq_true, if_true, Bool.true_or]
        by_cases hm : m = n
        · simp [hm]
        · simp [hm, Ne.symm hm]
      · have hb : (p.1 == n) = false := by simpa using hp
        simp only [hb, Bool.false_eq_true, if_false, Bool.false_or]
        by_cases hm : m = n
        · subst hm; simp [hp]
        · simp [hm]
  unfold Ns.set
  split
  · rename_i h; rw [hmap, if_pos h]
  · rename_i h
    rw [ns_get_append, ns_get_cons]
    by_cases hm : m = n
    · subst hm
      have : Ns.get ns m = none := by
        rw [ns_get_none]
        intro p hp he
        exact h (List.any_eq_true.mpr ⟨p, hp, by simpa using he⟩)
      simp [this]
    · simp [hm, Ne.symm hm, Ns.get]

theorem ns_get_del (ns : Ns ν) (n m : ν) : (ns.del n).get m = if m = n then none else ns.get m := by
  unfold Ns.del
  induction ns with
  | nil => simp [Ns.get]
  | cons p ns ih =>
    rw [List.filter_cons, ns_get_cons]
    by_cases hp : p.1 = n
    · have hb : (!(p.1 == n)) = false := by simpa using hp
      rw [hb, if_neg (by simp), ih]
      by_cases hm : m = n
      · simp [hm]
      · rw [if_neg hm, if_neg hm, if_neg (by rw [hp]; exact Ne.symm hm)]
    · have hb : (!(p.1 == n)) = true := by simpa using hp
      rw [hb, if_pos rfl, ns_get_cons, ih]
      by_cases hm : m = n
      · subst hm; simp [hp]
      · simp [hm]

/-- The name a statement binds or deletes. -/
def target : Stmt ν → ν
  | .define n _ _ => n
  | .decorated n _ => n
  | .bind n _ => n
  | .delete n => n

theorem exec_other {dec : ν} {t : Table ν} {ns ns' : Ns ν} {s : Stmt ν} (h : s.exec dec t ns = .ok ns') {m : ν} (hm : target s ≠ m) : ns'.get m = ns.get m := by
  cases s with
  | define n d b => cases h; rw [ns_get_set, if_neg (fun e => hm e.symm)]
  | bind n v => cases h; rw [ns_get_set, if_neg (fun e => hm e.symm)]
  | delete n =>
    simp only [Stmt.exec] at h
    split at h
    · cases h; rw [ns_get_del, if_neg (fun e => hm e.symm)]
    · cases h
  | decorated n d =>
    simp only [Stmt.exec] at h
    cases ha : applyDecorator dec t ns n d with
    | error e => rw [ha] at h; cases h
    | ok v => rw [ha] at h; cases h; rw [ns_get_set, if_neg (fun e => hm e.symm)]

theorem execBody_other {dec : ν} {t : Table ν} {m : ν} : ∀ {body : List (Stmt ν)} {ns ns' : Ns ν}, execBody dec t ns body = .ok ns' →
    (∀ s ∈ body, target s ≠ m) → ns'.get m = ns.get m
  | [], ns, ns', h, _ => by cases h; rfl
  | s :: l, ns, ns', h, hm => by
    rw [execBody] at h
    cases hs : s.exec dec t ns with
    | error e => rw [hs] at h; cases h
    | ok ns₁ =>
      rw [hs] at h
      rw [execBody_other h fun x hx => hm x (List.mem_cons_of_mem _ hx), exec_other hs (hm s List.mem_cons_self)]

theorem execBody_append {dec : ν} {t : Table ν} : ∀ {a b : List (Stmt ν)} {ns ns' : Ns ν}, execBody dec t ns (a ++ b) = .ok ns' →
    ∃ ns₁, execBody dec t ns a = .ok ns₁ ∧ execBody dec t ns₁ b = .ok ns'
  | [], b, ns, ns', h => ⟨ns, rfl, h⟩
  | s :: a, b, ns, ns', h => by
    rw [List.cons_append, execBody] at h
    cases hs : s.exec dec t ns with
    | error e => rw [hs] at h; cases h
    | ok ns₁ =>
      rw [hs] at h
      obtain ⟨ns₂, h1, h2⟩ := execBody_append h
      exact ⟨ns₂, by rw [execBody, hs]; exact h1, h2⟩

/-- The class `x` has the attribute `n` with the value `v`: it is defined in the namespace of a class of the linearization of `x`, and in none before it. -/
def HasAttr (t : Table ν) (x n : ν) (v : Val ν) : Prop :=
  ∃ p c q, t.mroOf x = p ++ c :: q ∧ (∀ y ∈ p, ∀ k, t.cls y = some k → k.ns.get n = none) ∧ ∃ k, t.cls c = some k ∧ k.ns.get n = some v

theorem lookup_iff {t : Table ν} {n : ν} {v : Val ν} : ∀ {l : List ν}, t.lookup n l = some v ↔
    ∃ p c q, l = p ++ c :: q ∧ (∀ y ∈ p, ∀ k, t.cls y = some k → k.ns.get n = none) ∧ ∃ k, t.cls c = some k ∧ k.ns.get n = some v
  | [] => by
    constructor
    · intro h; cases h
    · rintro ⟨p, c, q, h, -⟩
      cases p <;> cases h
  | c :: l => by
    rw [Table.lookup]
    cases hc : (t.cls c).bind fun k => k.ns.get n with
    | some w =>
      obtain ⟨k, hk, hw⟩ := Option.bind_eq_some_iff.1 hc
      constructor
      · rintro h
        cases h
        exact ⟨[], c, l, rfl, by simp, k, hk, hw⟩
      · rintro ⟨p, c', q, h, hp, k', hk', hw'⟩
        cases p with
        | nil =>
          cases h
          rw [hk] at hk'; cases hk'
          rw [hw] at hw'
          exact hw'
        | cons a p =>
          cases h
          rw [hp c List.mem_cons_self k hk] at hw
          cases hw
    | none =>
      have hn : ∀ k, t.cls c = some k → k.ns.get n = none := by
        intro k hk
        rw [hk] at hc
        exact hc
      simp only
      rw [lookup_iff]
      constructor
      · rintro ⟨p, c', q, rfl, hp, h⟩
        refine ⟨c :: p, c', q, rfl, fun y hy => ?_, h⟩
        rcases List.mem_cons.1 hy with rfl | hy
        · exact hn
        · exact hp y hy
      · rintro ⟨p, c', q, h, hp, k', hk', hw'⟩
        cases p with
        | nil => cases h; rw [hn k' hk'] at hw'; cases hw'
        | cons a p => cases h; exact ⟨p, c', q, rfl, fun y hy => hp y (List.mem_cons_of_mem _ hy), k', hk', hw'⟩

theorem attrFn_some {t : Table ν} {n x : ν} {f : Fn} (h : t.attrFn n x = some f) : ∃ v, HasAttr t x n v ∧ v ≠ .none ∧ f.doc = v.doc := by
  unfold Table.attrFn at h
  cases hl : t.lookup n (t.mroOf x) with
  | none => rw [hl] at h; cases h
  | some v =>
    rw [hl] at h
    cases v <;> first | (cases h; exact ⟨_, lookup_iff.1 hl, by simp, rfl⟩) | cases h

theorem attrFn_none {t : Table ν} {n x : ν} (h : t.attrFn n x = none) (v : Val ν) (hv : HasAttr t x n v) : v = .none := by
  unfold Table.attrFn at h
  rw [lookup_iff.2 hv] at h
  cases v <;> first | rfl | cases h

/-- What the last statement about a name leaves in a class with bases in the order `order`. -/
def Leaves (t : Table ν) (order : List ν) (ns : Ns ν) : Stmt ν → Prop
  | .define n d b => ns.get n = some (.fn d b)
  | .bind n v => ns.get n = some v
  | .delete n => ns.get n = none
  | .decorated n d => d = none ∧ ∃ p k q v, order = p ++ k :: q ∧ (∀ x ∈ p, ∀ w, HasAttr t x n w → w = .none) ∧ HasAttr t k n v ∧ v ≠ .none ∧
      ns.get n = some (.fn v.doc false)

omit [DecidableEq ν] in
theorem searchDoc_ok {attr : ν → Option Fn} : ∀ {order : List ν} {d : Option String}, searchDoc attr order = .ok d →
    ∃ p k q f, order = p ++ k :: q ∧ (∀ x ∈ p, attr x = none) ∧ attr k = some f ∧ d = f.doc
  | [], d, h => by cases h
  | c :: l, d, h => by
    simp only [searchDoc] at h
    cases hc : attr c with
    | none =>
      rw [hc] at h
      obtain ⟨p, k, q, f, h1, h2, h3, h4⟩ := searchDoc_ok h
      refine ⟨c :: p, k, q, f, by rw [h1]; rfl, fun x hx => ?_, h3, h4⟩
      rcases List.mem_cons.mp hx with rfl | hx
      · exact hc
      · exact h2 x hx
    | some f => rw [hc] at h; cases h; exact ⟨[], c, l, f, rfl, by simp, hc, rfl⟩

theorem exec_leaves {dec : ν} {t : Table ν} {ns ns' : Ns ν} {s : Stmt ν} {order : List ν} (h : s.exec dec t ns = .ok ns')
    (hd : ns.get dec = some (.copy order)) : Leaves t order ns' s := by
  cases s with
  | define n d b => cases h; simp [Leaves, ns_get_set]
  | bind n v => cases h; simp [Leaves, ns_get_set]
  | delete n =>
    simp only [Stmt.exec] at h
    split at h
    · cases h; simp [Leaves, ns_get_del]
    · cases h
  | decorated n d =>
    simp only [Stmt.exec, applyDecorator, hd, copyDoc] at h
    cases d with
    | some d => cases h
    | none =>
      cases hs : searchDoc (t.attrFn n) order with
      | error e => simp only [hs, Except.map] at h; cases h
      | ok d =>
        simp only [hs, Except.map] at h
        cases h
        obtain ⟨p, k, q, f, h1, h2, h3, h4⟩ := searchDoc_ok hs
        obtain ⟨v, hv, hn, hd⟩ := attrFn_some h3
        exact ⟨rfl, p, k, q, v, h1, fun x hx => attrFn_none (h2 x hx), hv, hn, by simp [ns_get_set, h4, hd]⟩

theorem leaves_congr {t : Table ν} {order : List ν} {ns ns' : Ns ν} {s : Stmt ν} (h : ns'.get (target s) = ns.get (target s))
    (hl : Leaves t order ns s) : Leaves t order ns' s := by
  cases s with
  | define n d b => exact h.trans hl
  | bind n v => exact h.trans hl
  | delete n => exact h.trans hl
  | decorated n d =>
    obtain ⟨h1, p, k, q, v, h2, h3, h4, h5, h6⟩ := hl
    exact ⟨h1, p, k, q, v, h2, h3, h4, h5, h.trans h6⟩

/-- The steps of a successful class statement. -/
theorem classExec_ok {dec object : ν} {t t' : Table ν} {s : ClassStmt ν} (h : s.exec dec object t = .ok t') :
    ∃ order ns ns' c, mro (fun _ => true) t.mroOf s.bases = .ok order ∧ execBody dec t [(dec, .copy order)] s.body = .ok ns ∧
      cleanNs dec s.keywords ns = .ok ns' ∧ newClass t object s.name s.bases ns' = .ok c ∧ t' = c :: t := by
  unfold ClassStmt.exec prepareNs at h
  cases h1 : mro (fun _ => true) t.mroOf s.bases with
  | error e => rw [h1] at h; cases h
  | ok order =>
    simp only [h1, Except.map, Except.bind] at h
    cases h2 : execBody dec t [(dec, .copy order)] s.body with
    | error e => simp only [h2] at h; cases h
    | ok ns =>
      simp only [h2] at h
      cases h3 : cleanNs dec s.keywords ns with
      | error e => simp only [h3] at h; cases h
      | ok ns' =>
        simp only [h3] at h
        cases h4 : newClass t object s.name s.bases ns' with
        | error e => simp only [h4] at h; cases h
        | ok c =>
          simp only [h4] at h
          cases h
          exact ⟨order, ns, ns', c, rfl, h2, h3, h4, rfl⟩

theorem newClass_ns {t : Table ν} {object name : ν} {bases : List ν} {ns : Ns ν} {c : ClassRec ν} (h : newClass t object name bases ns = .ok c) :
    c.name = name ∧ c.ns = ns := by
  unfold newClass at h
  cases hm : mro (fun _ => true) t.mroOf (if bases = [] then [object] else bases) with
  | error e => rw [hm] at h; cases h
  | ok order => rw [hm] at h; cases h; exact ⟨rfl, rfl⟩

theorem cleanNs_ok {dec : ν} {kw : List ν} {ns ns' : Ns ν} (h : cleanNs dec kw ns = .ok ns') :
    kw = [] ∧ ∀ m, ns'.get m = if m = dec then none else ns.get m := by
  unfold cleanNs at h
  split at h
  · cases h
  · rename_i hk
    push Not at hk
    refine ⟨hk, fun m => ?_⟩
    cases hg : ns.get dec with
    | none =>
      rw [hg] at h
      cases h
      by_cases hm : m = dec
      · rw [if_pos hm, hm, hg]
      · rw [if_neg hm]
    | some v =>
      rw [hg] at h
      cases v with
      | copy order => cases h; exact ns_get_del ns dec m
      | none => cases h
      | fn d b => cases h
      | obj d => cases h

/-- C77: a class statement whose body leaves the name `copy_ancestor_docstring` alone. If it succeeds, the new class has no attribute of that name of its own, no attributes
the body did not define, and for every name what the last statement about it says; a function under the decorator had no docstring, and gets the one of the first class
that has a (not None) attribute of that name, in a common order of the linearizations of the bases. -/
theorem C77 (dec object : ν) (t t' : Table ν) (s : ClassStmt ν) (h : s.exec dec object t = .ok t') (hdec : ∀ st ∈ s.body, target st ≠ dec) :
    ∃ order c, t' = c :: t ∧ c.name = s.name ∧ s.keywords = [] ∧ IsCommonOrder (mroInputs t.mroOf s.bases) order ∧ c.ns.get dec = none ∧
      (∀ n, (∀ st ∈ s.body, target st ≠ n) → c.ns.get n = none) ∧
      ∀ pre st post, s.body = pre ++ st :: post → (∀ x ∈ post, target x ≠ target st) → Leaves t order c.ns st := by
  obtain ⟨order, ns, ns', c, h1, h2, h3, h4, rfl⟩ := classExec_ok h
  obtain ⟨hname, hns⟩ := newClass_ns h4
  obtain ⟨hkw, hget⟩ := cleanNs_ok h3
  have hco : IsCommonOrder (mroInputs t.mroOf s.bases) order := by
    rcases C58_any (fun _ => true) t.mroOf s.bases with ⟨r, hr, hc⟩ | hr
    · rw [h1] at hr; cases hr; exact hc
    · rw [h1] at hr; cases hr
  refine ⟨order, c, rfl, hname, hkw, hco, by rw [hns, hget, if_pos rfl], fun n hn => ?_, fun pre st post hb hpost => ?_⟩
  · rw [hns, hget]
    split
    · rfl
    · rename_i hne
      rw [execBody_other h2 hn, ns_get_cons, if_neg (Ne.symm hne)]
      rfl
  · have hst : target st ≠ dec := hdec st (by rw [hb]; simp)
    rw [hb] at h2
    obtain ⟨n₁, g1, g2⟩ := execBody_append h2
    rw [execBody] at g2
    cases g3 : st.exec dec t n₁ with
    | error e => rw [g3] at g2; cases g2
    | ok n₂ =>
      rw [g3] at g2
      have hd : n₁.get dec = some (.copy order) := by
        rw [execBody_other g1 fun x hx => hdec x (by rw [hb]; exact List.mem_append_left _ hx), ns_get_cons, if_pos rfl]
      refine leaves_congr ?_ (exec_leaves g3 hd)
      rw [hns, hget, if_neg hst]
      exact execBody_other g2 hpost

/-- C77, errors: keyword arguments of the class statement raise TypeError, and a value of the body's own for `copy_ancestor_docstring` raises RuntimeError (in both cases
after the body was executed). -/
theorem C77_rejects (dec object : ν) (t : Table ν) (s : ClassStmt ν) (order : List ν) (ns : Ns ν)
    (hm : mro (fun _ => true) t.mroOf s.bases = .ok order) (hb : execBody dec t [(dec, .copy order)] s.body = .ok ns) :
    (s.keywords ≠ [] → s.exec dec object t = .error .typeError) ∧
    (s.keywords = [] → ∀ pre v post, s.body = pre ++ .bind dec v :: post → (∀ x ∈ post, target x ≠ dec) → (∀ o, v ≠ .copy o) →
      s.exec dec object t = .error .runtimeError) := by
  constructor
  · intro hk
    simp only [ClassStmt.exec, prepareNs, hm, Except.map, Except.bind, hb, cleanNs]
    simp [hk]
  · intro hk pre v post hbody hpost hv
    have hg : ns.get dec = some v := by
      rw [hbody] at hb
      obtain ⟨n₁, -, g2⟩ := execBody_append hb
      rw [execBody, Stmt.exec] at g2
      rw [execBody_other g2 hpost, ns_get_set, if_pos rfl]
    simp only [ClassStmt.exec, prepareNs, hm, Except.map, Except.bind, hb, cleanNs, hg]
    cases v with
    | copy o => exact absurd rfl (hv o)
    | none => simp [hk]
    | fn d b => simp [hk]
    | obj d => simp [hk]

end

/-! ### The classes of `penalties.py` -/

/-- The classes after importing `penalties.py`. -/
def penaltyTable : Table Id := match execModule .copyAncestorDocstring .object builtins penaltyClasses with
  | .ok t => t
  | .error _ => []

/-- The methods under `@copy_ancestor_docstring`. -/
def decoratedMethods : List (Id × Id) := penaltyClasses.flatMap fun s => s.body.filterMap fun
  | .decorated n _ => some (s.name, n)
  | _ => none

/-- C78: the module can be imported; the fifteen decorated methods get a docstring; the base classes are abstract, the others are not. -/
theorem C78 : execModule .copyAncestorDocstring .object builtins penaltyClasses = .ok penaltyTable ∧ decoratedMethods.length = 15 ∧
    (∀ m ∈ decoratedMethods, ∃ d, (penaltyTable.attrFn m.2 m.1).bind Fn.doc = some d) ∧
    (∀ c ∈ penaltyClasses, instantiable penaltyTable c.name = false ↔
      c.name = .ADMMPenalty ∨ c.name = .matricesPenalty ∨ c.name = .matrixPenalty ∨ c.name = .rowVectorPenalty) := by
  have h1 : (match execModule .copyAncestorDocstring .object builtins penaltyClasses with | .ok _ => true | .error _ => false) = true := by decide +kernel
  have h3 : ∀ m ∈ decoratedMethods, ((penaltyTable.attrFn m.2 m.1).bind Fn.doc).isSome = true := by decide +kernel
  refine ⟨?_, by decide +kernel, fun m hm => Option.isSome_iff_exists.mp (h3 m hm), ?_⟩
  · unfold penaltyTable
    cases h : execModule .copyAncestorDocstring .object builtins penaltyClasses with
    | error e => rw [h] at h1; cases h1
    | ok t => rfl
  · decide +kernel

/-- The names with an abstract attribute. -/
theorem abstracts_eq {ν : Type} [DecidableEq ν] {t : Table ν} {object name : ν} {bases : List ν} (hne : bases ≠ []) {ns : Ns ν} {c : ClassRec ν} {order : List ν}
    (hm : mro (fun _ => true) t.mroOf bases = .ok order) (h : newClass t object name bases ns = .ok c) (n : ν) :
    n ∈ c.abstracts ↔ (∃ v, (n, v) ∈ ns ∧ v.abstract = true) ∨
      ((∃ b ∈ bases, n ∈ ((t.cls b).map ClassRec.abstracts).getD []) ∧
        ∃ v, Table.lookup (⟨name, name :: order, ns, []⟩ :: t) n (name :: order) = some v ∧ v.abstract = true) := by
  unfold newClass at h
  rw [if_neg hne, hm] at h
  cases h
  simp only [List.mem_dedup, List.mem_append, List.mem_map, List.mem_filter, Prod.exists, exists_and_right, exists_eq_right, List.mem_flatMap]
  refine or_congr Iff.rfl (and_congr Iff.rfl ?_)
  split
  · rename_i v hv; simp [hv]
  · rename_i hv; simp [hv]

/-- A body without abstract functions and deletions. -/
def Concrete {ν : Type} (body : List (Stmt ν)) : Prop := ∀ st ∈ body, match st with
  | .define _ _ b => b = false
  | .decorated _ _ => True
  | .bind _ v => v.abstract = false
  | .delete _ => False

theorem mem_set {ν : Type} [DecidableEq ν] {ns : Ns ν} {n : ν} {v : Val ν} {p : ν × Val ν} (h : p ∈ ns.set n v) : p ∈ ns ∨ p.2 = v := by
  unfold Ns.set at h
  split at h
  · obtain ⟨q, hq, rfl⟩ := List.mem_map.mp h
    split
    · exact .inr rfl
    · exact .inl hq
  · rcases List.mem_append.mp h with h | h
    · exact .inl h
    · rw [List.mem_singleton] at h; exact .inr (by rw [h])

theorem execBody_concrete {ν : Type} [DecidableEq ν] {dec : ν} {t : Table ν} : ∀ {body : List (Stmt ν)} {ns ns' : Ns ν}, execBody dec t ns body = .ok ns' →
    Concrete body → (∀ p ∈ ns, p.2.abstract = false) →
    (∀ p ∈ ns', p.2.abstract = false) ∧ ∀ n, (ns'.get n).isSome ↔ (ns.get n).isSome ∨ ∃ st ∈ body, target st = n
  | [], ns, ns', h, _, hns => by cases h; exact ⟨hns, by simp⟩
  | s :: l, ns, ns', h, hc, hns => by
    rw [execBody] at h
    have hstep : ∀ v, Val.abstract v = false → execBody dec t (ns.set (target s) v) l = .ok ns' →
        (∀ p ∈ ns', p.2.abstract = false) ∧ ∀ n, (ns'.get n).isSome ↔ (ns.get n).isSome ∨ ∃ st ∈ s :: l, target st = n := by
      intro v hv hb
      obtain ⟨h1, h2⟩ := execBody_concrete hb (fun x hx => hc x (List.mem_cons_of_mem _ hx)) fun p hp => (mem_set hp).elim (hns p) fun e => by rw [e, hv]
      refine ⟨h1, fun n => ?_⟩
      rw [h2, ns_get_set]
      by_cases hn : n = target s
      · subst hn; simp
      · simp [hn, Ne.symm hn]
    have hs := hc s List.mem_cons_self
    cases s with
    | define n d b => exact hstep (.fn d b) hs h
    | bind n v => exact hstep v hs h
    | delete n => exact hs.elim
    | decorated n d =>
      simp only [Stmt.exec] at h
      cases ha : applyDecorator dec t ns n d with
      | error e => rw [ha] at h; cases h
      | ok v =>
        rw [ha] at h
        refine hstep v ?_ h
        unfold applyDecorator at ha
        split at ha
        · cases hc : copyDoc (t.attrFn n) ‹_› ⟨d⟩ with
          | error e => rw [hc] at ha; cases ha
          | ok f => rw [hc] at ha; cases ha; rfl
        · cases ha
        · cases ha

/-- A class statement by a user, on top of `penalties.py`. -/
def userClass (k : ℕ) (bases : List Id) (body : List (Stmt Id)) : Except PyErr (Table Id) :=
  ClassStmt.exec .copyAncestorDocstring .object penaltyTable ⟨.user k, bases, [], body⟩

/-- The abstract names of a user's class whose body defines no abstract functions. -/
theorem user_abstract {k : ℕ} {bases : List Id} (hne : bases ≠ []) {body : List (Stmt Id)} (hc : Concrete body) (hdec : ∀ st ∈ body, target st ≠ .copyAncestorDocstring)
    {t' : Table Id} (h : userClass k bases body = .ok t') {order : List Id} (hm : mro (fun _ => true) penaltyTable.mroOf bases = .ok order)
    (hk : .user k ∉ order) :
    instantiable t' (.user k) = true ↔ ∀ n, (∃ b ∈ bases, n ∈ ((penaltyTable.cls b).map ClassRec.abstracts).getD []) →
      (∃ st ∈ body, target st = n) ∨ ∀ v, penaltyTable.lookup n order = some v → v.abstract = false := by
  obtain ⟨order', ns, ns', c, h1, h2, h3, h4, rfl⟩ := classExec_ok h
  rw [hm] at h1
  cases h1
  obtain ⟨hname, hns⟩ := newClass_ns h4
  obtain ⟨-, hget⟩ := cleanNs_ok h3
  obtain ⟨hb1, hb2⟩ := execBody_concrete h2 hc (by simp [Val.abstract])
  have hns' : ∀ p ∈ ns', p.2.abstract = false := by
    unfold cleanNs at h3
    simp only [ne_eq, not_true_eq_false, if_false] at h3
    split at h3
    · cases h3; exact hb1
    · cases h3; exact fun p hp => hb1 p (List.mem_of_mem_filter hp)
    · cases h3
  have hlook : ∀ (x : Val Id → Prop) n, (∃ v, Table.lookup (⟨.user k, .user k :: order, ns', []⟩ :: penaltyTable) n (.user k :: order) = some v ∧ x v) ↔
      ∃ v, (match ns'.get n with | some v => some v | none => penaltyTable.lookup n order) = some v ∧ x v := by
    intro x n
    have hrest : ∀ l : List Id, .user k ∉ l → Table.lookup (⟨.user k, .user k :: order, ns', []⟩ :: penaltyTable) n l = penaltyTable.lookup n l := by
      intro l
      induction l with
      | nil => intro _; rfl
      | cons a l ih =>
        intro hl
        have ha : Table.cls (⟨.user k, .user k :: order, ns', []⟩ :: penaltyTable) a = penaltyTable.cls a := by
          have hne : (Id.user k == a) = false := by
            simp only [beq_eq_false_iff_ne, ne_eq]
            exact fun e => hl (by rw [e]; exact List.mem_cons_self)
          simp only [Table.cls, List.find?_cons, hne]
        rw [Table.lookup, Table.lookup, ha, ih fun hm => hl (List.mem_cons_of_mem _ hm)]
    rw [Table.lookup, hrest order hk]
    have : Table.cls (⟨.user k, .user k :: order, ns', []⟩ :: penaltyTable) (.user k) = some ⟨.user k, .user k :: order, ns', []⟩ := by
      simp [Table.cls]
    rw [this]
    simp only [Option.bind_some]
    cases ns'.get n <;> rfl
  have hcls : Table.cls (c :: penaltyTable) (.user k) = some c := by
    rw [Table.cls, List.find?_cons, hname]; simp
  unfold instantiable
  rw [hcls]
  simp only [List.isEmpty_iff, List.eq_nil_iff_forall_not_mem]
  refine forall_congr' fun n => ?_
  rw [abstracts_eq hne hm h4, hlook (fun v => v.abstract = true)]
  have hsome : (ns'.get n).isSome ↔ ∃ st ∈ body, target st = n := by
    rw [hget]
    split
    · rename_i e
      subst e
      simp only [Option.isSome_none, Bool.false_eq_true, false_iff, not_exists, not_and]
      exact hdec
    · rename_i e
      rw [hb2, ns_get_cons, if_neg (Ne.symm e)]
      simp [Ns.get]
  have hval : ∀ v, ns'.get n = some v → v.abstract = false := by
    intro v hv
    unfold Ns.get at hv
    cases hf : List.find? (fun p => p.1 == n) ns' with
    | none => rw [hf] at hv; cases hv
    | some p => rw [hf] at hv; cases hv; exact hns' p (List.mem_of_find?_eq_some hf)
  have hown : ¬ ∃ v, (n, v) ∈ ns' ∧ v.abstract = true := fun ⟨v, h1, h2⟩ => by rw [hns' _ h1] at h2; cases h2
  rw [or_iff_right hown, ← hsome]
  cases hg : ns'.get n with
  | none =>
    simp only [Option.isSome_none, Bool.false_eq_true, false_or, not_and, not_exists]
    refine imp_congr Iff.rfl (forall_congr' fun v => ?_)
    simp
  | some v =>
    have := hval v hg
    simp [this]

/-- C78, users' classes: a class with the bases `HardConstraintMixin, MatrixPenalty` (in this order) whose body defines no abstract functions can be instantiated exactly if
the body defines `factor_matrix_update`. In the other order it can only be instantiated if the body also defines `penalty`. -/
theorem C78_user (k : ℕ) (body : List (Stmt Id)) (hc : Concrete body) (hdec : ∀ st ∈ body, target st ≠ .copyAncestorDocstring) (t' : Table Id) :
    (userClass k [.hardConstraintMixin, .matrixPenalty] body = .ok t' →
      (instantiable t' (.user k) = true ↔ ∃ st ∈ body, target st = .factorMatrixUpdate)) ∧
    (userClass k [.matrixPenalty, .hardConstraintMixin] body = .ok t' →
      (instantiable t' (.user k) = true ↔ (∃ st ∈ body, target st = .factorMatrixUpdate) ∧ ∃ st ∈ body, target st = .penalty)) := by
  have a1 : ((penaltyTable.cls .hardConstraintMixin).map ClassRec.abstracts).getD [] = [] := by decide +kernel
  have a2 : ((penaltyTable.cls .matrixPenalty).map ClassRec.abstracts).getD [] = [.factorMatrixUpdate, .penalty] := by decide +kernel
  constructor
  · intro h
    have hm : mro (fun _ => true) penaltyTable.mroOf [.hardConstraintMixin, .matrixPenalty] =
        .ok [.hardConstraintMixin, .matrixPenalty, .matricesPenalty, .ADMMPenalty, .ABC, .object] := by decide +kernel
    have l1 : (penaltyTable.lookup .penalty [.hardConstraintMixin, .matrixPenalty, .matricesPenalty, .ADMMPenalty, .ABC, .object]).map Val.abstract = some false := by
      decide +kernel
    have l2 : (penaltyTable.lookup .factorMatrixUpdate [.hardConstraintMixin, .matrixPenalty, .matricesPenalty, .ADMMPenalty, .ABC, .object]).map Val.abstract = some true := by
      decide +kernel
    rw [user_abstract (by simp) hc hdec h hm (by simp)]
    obtain ⟨v1, e1, f1⟩ := Option.map_eq_some_iff.mp l1
    obtain ⟨v2, e2, f2⟩ := Option.map_eq_some_iff.mp l2
    simp only [List.mem_cons, List.not_mem_nil, or_false, exists_eq_or_imp, exists_eq_left, a1, a2, false_or, forall_eq_or_imp, forall_eq, e1, e2,
      Option.some.injEq, forall_eq', f1, f2, or_true, and_true, Bool.true_eq_false]
  · intro h
    have hm : mro (fun _ => true) penaltyTable.mroOf [.matrixPenalty, .hardConstraintMixin] =
        .ok [.matrixPenalty, .matricesPenalty, .ADMMPenalty, .ABC, .hardConstraintMixin, .object] := by decide +kernel
    have l1 : (penaltyTable.lookup .penalty [.matrixPenalty, .matricesPenalty, .ADMMPenalty, .ABC, .hardConstraintMixin, .object]).map Val.abstract = some true := by
      decide +kernel
    have l2 : (penaltyTable.lookup .factorMatrixUpdate [.matrixPenalty, .matricesPenalty, .ADMMPenalty, .ABC, .hardConstraintMixin, .object]).map Val.abstract = some true := by
      decide +kernel
    rw [user_abstract (by simp) hc hdec h hm (by simp)]
    obtain ⟨v1, e1, f1⟩ := Option.map_eq_some_iff.mp l1
    obtain ⟨v2, e2, f2⟩ := Option.map_eq_some_iff.mp l2
    simp only [List.mem_cons, List.not_mem_nil, or_false, exists_eq_or_imp, exists_eq_left, a1, a2, forall_eq_or_imp, forall_eq, e1, e2,
      Option.some.injEq, forall_eq', f1, f2, Bool.true_eq_false]

/-- The class of the documentation's example `plot_custom_penalty.py` (lines 220-231): it is created, and can be instantiated. -/
example : ∃ t', userClass 0 [.hardConstraintMixin, .matrixPenalty] [.define .init none false, .decorated .factorMatrixUpdate none] = .ok t' ∧
    instantiable t' (.user 0) = true := by
  have h1 : (match userClass 0 [.hardConstraintMixin, .matrixPenalty] [.define .init none false, .decorated .factorMatrixUpdate none] with
    | .ok _ => true | .error _ => false) = true := by decide +kernel
  cases h : userClass 0 [.hardConstraintMixin, .matrixPenalty] [.define .init none false, .decorated .factorMatrixUpdate none] with
  | error e => rw [h] at h1; cases h1
  | ok t' =>
    refine ⟨t', rfl, ((C78_user 0 _ ?_ ?_ t').1 h).2 ⟨.decorated .factorMatrixUpdate none, by simp, rfl⟩⟩
    · intro st hst
      simp only [List.mem_cons, List.not_mem_nil, or_false] at hst
      rcases hst with rfl | rfl <;> simp
    · intro st hst
      simp only [List.mem_cons, List.not_mem_nil, or_false] at hst
      rcases hst with rfl | rfl <;> simp [target]

end Verif.Props
