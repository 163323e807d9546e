import Verif.Py
import Mathlib.Data.List.Basic
import Mathlib.Data.Nat.Notation
import Mathlib.Data.Nat.Init

/-!
# Model of `src/matcouply/_doc_utils.py`

Classes are elements of a type with decidable equality (`==` of classes is identity). `mroOf c` is `C.__mro__`, `truthy c` is `bool(C)` (a metaclass may make a
class false).
-/

namespace Verif.Mro

variable {α : Type} [DecidableEq α]

/-- The inner `for` loop (lines 26-33): the first head of a list of `rest` that is in no tail of `all`; `none` if there is none. The lists are not empty. -/
def candidate (all : List (List α)) : List (List α) → Option α
  | [] => none
  | [] :: rest => candidate all rest
  | (c :: _) :: rest => if all.any (fun s => decide (c ∈ s.drop 1)) then candidate all rest else some c

/-- `if seq[0] == candidate: del seq[0]` (lines 39-40). -/
def dropHead (c : α) : List α → List α
  | [] => []
  | a :: l => if a = c then l else a :: l

/-- `list(filter(None, seqs))` (line 22). -/
def nonEmpty (seqs : List (List α)) : List (List α) := seqs.filter fun s => !s.isEmpty

/-- Number of entries left. -/
def size (seqs : List (List α)) : ℕ := (seqs.map List.length).sum

omit [DecidableEq α] in
theorem size_nonEmpty (seqs : List (List α)) : size (nonEmpty seqs) = size seqs := by
  induction seqs with
  | nil => rfl
  | cons s seqs ih =>
    cases s with
    | nil => simpa [nonEmpty, size] using ih
    | cons a s => simpa [nonEmpty, size] using ih

theorem candidate_head {all : List (List α)} : ∀ {rest : List (List α)} {c : α}, candidate all rest = some c →
    (∃ l, (c :: l) ∈ rest) ∧ ∀ s ∈ all, c ∉ s.drop 1
  | [], c, h => by simp [candidate] at h
  | [] :: rest, c, h => by
    rw [candidate] at h
    obtain ⟨⟨l, hl⟩, h2⟩ := candidate_head h
    exact ⟨⟨l, List.mem_cons_of_mem _ hl⟩, h2⟩
  | (a :: l) :: rest, c, h => by
    rw [candidate] at h
    by_cases ha : (all.any fun s => decide (a ∈ s.drop 1)) = true
    · rw [if_pos ha] at h
      obtain ⟨⟨l', hl⟩, h2⟩ := candidate_head h
      exact ⟨⟨l', List.mem_cons_of_mem _ hl⟩, h2⟩
    · rw [if_neg ha, Option.some.injEq] at h
      subst h
      refine ⟨⟨l, List.mem_cons_self⟩, fun s hs hc => ha ?_⟩
      rw [List.any_eq_true]
      exact ⟨s, hs, by simpa using hc⟩

theorem length_dropHead (c : α) (s : List α) : (dropHead c s).length ≤ s.length := by
  cases s with
  | nil => exact Nat.le_refl _
  | cons a l => rw [dropHead]; split <;> simp

theorem size_dropHead {c : α} {l : List α} : ∀ {seqs : List (List α)}, (c :: l) ∈ seqs → size (seqs.map (dropHead c)) < size seqs
  | [], h => by simp at h
  | s :: seqs, h => by
    have hle : size (seqs.map (dropHead c)) ≤ size seqs := by
      clear h
      induction seqs with
      | nil => exact Nat.le_refl _
      | cons t seqs ih =>
        have e1 : size (t :: seqs) = t.length + size seqs := by simp [size]
        have e2 : size ((t :: seqs).map (dropHead c)) = (dropHead c t).length + size (seqs.map (dropHead c)) := by simp [size]
        have := length_dropHead c t
        omega
    have e1 : size (s :: seqs) = s.length + size seqs := by simp [size]
    have e2 : size ((s :: seqs).map (dropHead c)) = (dropHead c s).length + size (seqs.map (dropHead c)) := by simp [size]
    rw [e1, e2]
    rcases List.mem_cons.mp h with h | h
    · subst h
      have : (dropHead c (c :: l)).length < (c :: l).length := by simp [dropHead]
      omega
    · have := size_dropHead h
      have := length_dropHead c s
      omega

/-- The `while` loop (lines 21-40), on the remaining lists and the result so far. It ends because every round removes an entry. -/
def merge (truthy : α → Bool) (seqs : List (List α)) (res : List α) : Except PyErr (List α) :=
  if nonEmpty seqs = [] then .ok res
  else
    match _h : candidate (nonEmpty seqs) (nonEmpty seqs) with
    | none => .error .typeError
    | some c => if truthy c then merge truthy ((nonEmpty seqs).map (dropHead c)) (res ++ [c]) else .error .typeError
termination_by size seqs
decreasing_by
  obtain ⟨⟨l, hl⟩, -⟩ := candidate_head _h
  rw [← size_nonEmpty seqs]
  exact size_dropHead hl

/-- `mro` (lines 9-40). -/
def mro (truthy : α → Bool) (mroOf : α → List α) (bases : List α) : Except PyErr (List α) :=
  merge truthy (bases.map mroOf ++ [bases]) []

/-- A function attribute: its docstring. -/
structure Fn where
  doc : Option String

/-- The search of `_copy_ancestor_docstring` (lines 62-69). `attr c` is `getattr(c, fn.__name__, None)`. -/
def searchDoc (attr : α → Option Fn) : List α → Except PyErr (Option String)
  | [] => .error .runtimeError
  | c :: l => match attr c with
    | none => searchDoc attr l
    | some f => .ok f.doc

/-- `_copy_ancestor_docstring` (lines 55-71). -/
def copyDoc (attr : α → Option Fn) (order : List α) (fn : Fn) : Except PyErr Fn :=
  match fn.doc with
  | some _ => .error .runtimeError
  | none => (searchDoc attr order).map fun d => ⟨d⟩

/-- The decorator injected by `InheritableDocstrings.__prepare__` (lines 75-82). -/
def inheritDoc (truthy : α → Bool) (mroOf : α → List α) (attr : α → Option Fn) (bases : List α) (fn : Fn) : Except PyErr Fn :=
  (mro truthy mroOf bases).bind fun order => copyDoc attr order fn

end Verif.Mro
