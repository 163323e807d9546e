import Verif.Mro.Model
import Verif.Tac

/-!
# C58, C62: method resolution order and inherited docstrings
-/

namespace Verif.Props

open Verif.Mro

variable {α : Type} [DecidableEq α]

/-- `res` is a common order of the lists: no duplicates, exactly their entries, each list in its order. -/
structure IsCommonOrder (seqs : List (List α)) (res : List α) : Prop where
  nodup : res.Nodup
  mem : ∀ x, x ∈ res ↔ ∃ s ∈ seqs, x ∈ s
  sublist : ∀ s ∈ seqs, s.Sublist res

omit [DecidableEq α] in
theorem mem_nonEmpty {seqs : List (List α)} {s : List α} : s ∈ nonEmpty seqs ↔ s ∈ seqs ∧ s ≠ [] := by
  simp [nonEmpty]

omit [DecidableEq α] in
theorem nonEmpty_nil {seqs : List (List α)} : nonEmpty seqs = [] ↔ ∀ s ∈ seqs, s = [] := by
  rw [List.eq_nil_iff_forall_not_mem]
  simp only [mem_nonEmpty, not_and, not_not]

theorem candidate_none {all : List (List α)} : ∀ {rest : List (List α)}, candidate all rest = none → ∀ c l, (c :: l) ∈ rest →
    ∃ s ∈ all, c ∈ s.drop 1
  | [], _, c, l, h => by simp at h
  | [] :: rest, hn, c, l, h => by
    rw [candidate] at hn
    exact candidate_none hn c l (by simpa using h)
  | (a :: l') :: rest, hn, c, l, h => by
    rw [candidate] at hn
    by_cases ha : (all.any fun s => decide (a ∈ s.drop 1)) = true
    · rw [if_pos ha] at hn
      rcases List.mem_cons.mp h with h | h
      · obtain ⟨rfl, rfl⟩ := List.cons.inj h
        obtain ⟨s, hs, hc⟩ := List.any_eq_true.mp ha
        exact ⟨s, hs, by simpa using hc⟩
      · exact candidate_none hn c l h
    · rw [if_neg ha] at hn; cases hn

/-- Removing a head that is in no tail removes the class. -/
theorem mem_dropHead {c x : α} {s : List α} (h : c ∉ s.drop 1) : x ∈ dropHead c s ↔ x ∈ s ∧ x ≠ c := by
  cases s with
  | nil => simp [dropHead]
  | cons a l =>
    simp only [List.drop_one, List.tail_cons] at h
    rw [dropHead]
    by_cases ha : a = c
    · subst ha
      rw [if_pos rfl, List.mem_cons]
      constructor
      · intro hx; exact ⟨.inr hx, fun e => h (e ▸ hx)⟩
      · rintro ⟨rfl | hx, hne⟩
        · exact absurd rfl hne
        · exact hx
    · rw [if_neg ha]
      refine ⟨fun hx => ⟨hx, ?_⟩, fun hx => hx.1⟩
      rintro rfl
      rcases List.mem_cons.mp hx with e | e
      · exact ha e.symm
      · exact h e

theorem sublist_cons_dropHead {c : α} {s r : List α} (h : (dropHead c s).Sublist r) : s.Sublist (c :: r) := by
  cases s with
  | nil => exact List.nil_sublist _
  | cons a l =>
    rw [dropHead] at h
    split at h
    · rename_i ha; subst ha; exact h.cons_cons _
    · exact h.cons _

theorem commonOrder_cons {seqs : List (List α)} {c : α} {l : List α} (hl : (c :: l) ∈ nonEmpty seqs) (hc : ∀ s ∈ nonEmpty seqs, c ∉ s.drop 1)
    {r : List α} (h : IsCommonOrder ((nonEmpty seqs).map (dropHead c)) r) : IsCommonOrder seqs (c :: r) := by
  have hmem : ∀ x, x ∈ r ↔ (∃ s ∈ seqs, x ∈ s) ∧ x ≠ c := by
    intro x
    rw [h.mem]
    constructor
    · rintro ⟨s', hs', hx⟩
      obtain ⟨s, hs, rfl⟩ := List.mem_map.mp hs'
      obtain ⟨h1, h2⟩ := (mem_dropHead (hc s hs)).mp hx
      exact ⟨⟨s, (mem_nonEmpty.mp hs).1, h1⟩, h2⟩
    · rintro ⟨⟨s, hs, hx⟩, hne⟩
      have hs' : s ∈ nonEmpty seqs := mem_nonEmpty.mpr ⟨hs, List.ne_nil_of_mem hx⟩
      exact ⟨_, List.mem_map.mpr ⟨s, hs', rfl⟩, (mem_dropHead (hc s hs')).mpr ⟨hx, hne⟩⟩
  refine ⟨List.nodup_cons.mpr ⟨fun hcr => ((hmem c).mp hcr).2 rfl, h.nodup⟩, fun x => ?_, fun s hs => ?_⟩
  · rw [List.mem_cons, hmem]
    by_cases hx : x = c
    · subst hx
      simp only [true_or, true_iff]
      exact ⟨_, (mem_nonEmpty.mp hl).1, List.mem_cons_self⟩
    · simp [hx]
  · by_cases hne : s = []
    · subst hne; exact List.nil_sublist _
    · exact sublist_cons_dropHead (h.sublist _ (List.mem_map.mpr ⟨s, mem_nonEmpty.mpr ⟨hs, hne⟩, rfl⟩))

/-- What the merge returns is a common order. -/
theorem merge_ok {truthy : α → Bool} : ∀ (n : ℕ) (seqs : List (List α)) (res out : List α), size seqs = n → merge truthy seqs res = .ok out →
    ∃ r, out = res ++ r ∧ IsCommonOrder seqs r := by
  intro n
  induction n using Nat.strong_induction_on with
  | _ n ih =>
    intro seqs res out hn h
    rw [merge] at h
    by_cases he : nonEmpty seqs = []
    · rw [if_pos he] at h
      cases h
      have := nonEmpty_nil.mp he
      refine ⟨[], by simp, List.nodup_nil, fun x => ?_, fun s hs => by rw [this s hs]⟩
      simp only [List.not_mem_nil, false_iff, not_exists, not_and]
      intro s hs; rw [this s hs]; simp
    · rw [if_neg he] at h
      split at h
      · cases h
      · rename_i c hc
        obtain ⟨⟨l, hl⟩, ht⟩ := candidate_head hc
        split at h
        · have hlt : size ((nonEmpty seqs).map (dropHead c)) < n := by
            rw [← hn, ← size_nonEmpty seqs]; exact size_dropHead hl
          obtain ⟨r, hr, hco⟩ := ih _ hlt _ _ _ rfl h
          exact ⟨c :: r, by rw [hr]; simp, commonOrder_cons hl ht hco⟩
        · cases h

omit [DecidableEq α] in
theorem sublist_of_cons_ne {c a : α} {l r : List α} (h : (a :: l).Sublist (c :: r)) (ha : a ≠ c) : (a :: l).Sublist r := by
  cases h with
  | cons _ h => exact h
  | cons_cons _ h => exact absurd rfl ha

/-- The merge succeeds whenever a common order exists. -/
theorem merge_succeeds {truthy : α → Bool} : ∀ (n : ℕ) (seqs : List (List α)) (res L : List α), size seqs = n → (∀ s ∈ seqs, ∀ c ∈ s, truthy c = true) →
    L.Nodup → (∀ s ∈ seqs, s.Sublist L) → ∃ out, merge truthy seqs res = .ok out := by
  intro n
  induction n using Nat.strong_induction_on with
  | _ n ih =>
    intro seqs res L hn htr hL hs
    rw [merge]
    by_cases he : nonEmpty seqs = []
    · exact ⟨res, by rw [if_pos he]⟩
    · rw [if_neg he]
      have key : ∀ M : List α, M.Nodup → (∀ s ∈ nonEmpty seqs, s.Sublist M) → ∃ c l, (c :: l) ∈ nonEmpty seqs ∧ ∀ s ∈ nonEmpty seqs, c ∉ s.drop 1 := by
        intro M
        induction M with
        | nil =>
          intro _ h
          obtain ⟨s, hs⟩ := List.exists_mem_of_ne_nil _ he
          exact absurd (List.sublist_nil.mp (h s hs)) (mem_nonEmpty.mp hs).2
        | cons m M ihM =>
          intro hM h
          obtain ⟨hm, hM'⟩ := List.nodup_cons.mp hM
          by_cases hhead : ∃ l, (m :: l) ∈ nonEmpty seqs
          · obtain ⟨l, hl⟩ := hhead
            refine ⟨m, l, hl, fun s hs hc => ?_⟩
            cases s with
            | nil => simp at hc
            | cons a s =>
              simp only [List.drop_one, List.tail_cons] at hc
              have h1 : s.Sublist M := by
                have := (h _ hs)
                cases this with
                | cons _ h => exact (List.sublist_cons_self _ _).trans h
                | cons_cons _ h => exact h
              exact hm (h1.subset hc)
          · refine ihM hM' fun s hs => ?_
            cases s with
            | nil => exact List.nil_sublist _
            | cons a s => exact sublist_of_cons_ne (h _ hs) fun e => hhead ⟨s, e ▸ hs⟩
      obtain ⟨c₀, l₀, h1, h2⟩ := key L hL fun s hs' => hs s (mem_nonEmpty.mp hs').1
      split
      · rename_i hnone
        obtain ⟨s, hs', hc⟩ := candidate_none hnone c₀ l₀ h1
        exact absurd hc (h2 s hs')
      · rename_i c hc
        obtain ⟨⟨l, hl⟩, ht⟩ := candidate_head hc
        rw [if_pos (htr _ (mem_nonEmpty.mp hl).1 c List.mem_cons_self)]
        have hlt : size ((nonEmpty seqs).map (dropHead c)) < n := by
          rw [← hn, ← size_nonEmpty seqs]; exact size_dropHead hl
        have hsub : ∀ s ∈ seqs, (dropHead c s).Sublist s := by
          intro s _
          cases s with
          | nil => exact List.nil_sublist _
          | cons a s =>
            rw [dropHead]; split
            · exact List.sublist_cons_self _ _
            · exact List.Sublist.refl _
        refine ih _ hlt _ _ L rfl (fun s' hs' => ?_) hL fun s' hs' => ?_
        · obtain ⟨s, hs1, rfl⟩ := List.mem_map.mp hs'
          have := (mem_nonEmpty.mp hs1).1
          exact fun x hx => htr s this x ((hsub s this).subset hx)
        · obtain ⟨s, hs1, rfl⟩ := List.mem_map.mp hs'
          have := (mem_nonEmpty.mp hs1).1
          exact (hsub s this).trans (hs s this)

theorem merge_error {truthy : α → Bool} : ∀ (n : ℕ) (seqs : List (List α)) (res : List α) (e : PyErr), size seqs = n →
    merge truthy seqs res = .error e → e = .typeError := by
  intro n
  induction n using Nat.strong_induction_on with
  | _ n ih =>
    intro seqs res e hn h
    rw [merge] at h
    split at h
    · cases h
    · split at h
      · cases h; rfl
      · rename_i c hc
        obtain ⟨⟨l, hl⟩, -⟩ := candidate_head hc
        split at h
        · exact ih _ (by rw [← hn, ← size_nonEmpty seqs]; exact size_dropHead hl) _ _ _ rfl h
        · cases h; rfl

/-- The lists to be merged: the linearizations of the bases and the bases themselves. -/
def mroInputs (mroOf : α → List α) (bases : List α) : List (List α) := bases :: bases.map mroOf

/-- C58: with classes that are true as Booleans, `mro` returns a common order of the linearizations and of the bases if there is one, and raises TypeError if
there is none. -/
theorem C58 (truthy : α → Bool) (mroOf : α → List α) (bases : List α) (htr : ∀ s ∈ mroInputs mroOf bases, ∀ c ∈ s, truthy c = true) :
    (∃ res, mro truthy mroOf bases = .ok res ∧ IsCommonOrder (mroInputs mroOf bases) res) ∨
      (mro truthy mroOf bases = .error .typeError ∧ ¬ ∃ res, IsCommonOrder (mroInputs mroOf bases) res) := by
  have hiff : ∀ s, s ∈ bases.map mroOf ++ [bases] ↔ s ∈ mroInputs mroOf bases := by
    intro s; simp only [mroInputs, List.mem_append, List.mem_cons]; tauto
  unfold mro
  cases h : merge truthy (bases.map mroOf ++ [bases]) [] with
  | ok out =>
    obtain ⟨r, hr, h1, h2, h3⟩ := merge_ok _ _ _ _ rfl h
    refine .inl ⟨out, rfl, ?_⟩
    rw [hr, List.nil_append]
    exact ⟨h1, fun x => by rw [h2]; simp only [hiff], fun s hs => h3 s ((hiff s).mpr hs)⟩
  | error e =>
    obtain rfl := merge_error _ _ _ _ rfl h
    refine .inr ⟨rfl, ?_⟩
    rintro ⟨L, h1, -, h3⟩
    obtain ⟨out, ho⟩ := merge_succeeds (truthy := truthy) _ (bases.map mroOf ++ [bases]) [] L rfl (fun s hs => htr s ((hiff s).mp hs)) h1
      fun s hs => h3 s ((hiff s).mp hs)
    rw [h] at ho; cases ho

/-- C58 without the condition on truth values: a result is a common order, and the only exception is TypeError. -/
theorem C58_any (truthy : α → Bool) (mroOf : α → List α) (bases : List α) :
    (∃ res, mro truthy mroOf bases = .ok res ∧ IsCommonOrder (mroInputs mroOf bases) res) ∨ mro truthy mroOf bases = .error .typeError := by
  have hiff : ∀ s, s ∈ bases.map mroOf ++ [bases] ↔ s ∈ mroInputs mroOf bases := by
    intro s; simp only [mroInputs, List.mem_append, List.mem_cons]; tauto
  unfold mro
  cases h : merge truthy (bases.map mroOf ++ [bases]) [] with
  | ok out =>
    obtain ⟨r, hr, h1, h2, h3⟩ := merge_ok _ _ _ _ rfl h
    refine .inl ⟨out, rfl, ?_⟩
    rw [hr, List.nil_append]
    exact ⟨h1, fun x => by rw [h2]; simp only [hiff], fun s hs => h3 s ((hiff s).mpr hs)⟩
  | error e => exact .inr (by rw [merge_error _ _ _ _ rfl h])

omit [DecidableEq α] in
theorem sublist_antisymm_order {l l' : List α} (h : l.Sublist l') (hs : l' ⊆ l) (hn : l'.Nodup) : l = l' :=
  h.eq_of_length_le (List.Nodup.subperm hn hs).length_le

/-- C58, docstring: for one class that is the first entry of its duplicate-free linearization, the linearization itself is returned. -/
theorem C58_single (truthy : α → Bool) (mroOf : α → List α) (K : α) (hn : (mroOf K).Nodup) (hK : K ∈ mroOf K)
    (htr : ∀ c ∈ mroOf K, truthy c = true) : mro truthy mroOf [K] = .ok (mroOf K) := by
  have hsub : [K].Sublist (mroOf K) := List.singleton_sublist.mpr hK
  have hco : IsCommonOrder (mroInputs mroOf [K]) (mroOf K) := by
    refine ⟨hn, fun x => ?_, fun s hs => ?_⟩
    · simp only [mroInputs, List.map_cons, List.map_nil, List.mem_cons, List.not_mem_nil, or_false, exists_eq_or_imp, exists_eq_left]
      exact ⟨.inr, fun h => h.elim (fun e => e ▸ hK) id⟩
    · simp only [mroInputs, List.map_cons, List.map_nil, List.mem_cons, List.not_mem_nil, or_false] at hs
      rcases hs with rfl | rfl
      · exact hsub
      · exact List.Sublist.refl _
  rcases C58 truthy mroOf [K] (fun s hs c hc => htr c (by
    simp only [mroInputs, List.map_cons, List.map_nil, List.mem_cons, List.not_mem_nil, or_false] at hs
    rcases hs with rfl | rfl
    · exact hsub.subset hc
    · exact hc)) with ⟨res, h, h1, h2, h3⟩ | ⟨-, h⟩
  · rw [h]
    congr 1
    refine (sublist_antisymm_order (h3 (mroOf K) (by simp [mroInputs])) (fun x hx => ?_) h1).symm
    obtain ⟨s, hs, hxs⟩ := (h2 x).mp hx
    simp only [mroInputs, List.map_cons, List.map_nil, List.mem_cons, List.not_mem_nil, or_false] at hs
    rcases hs with rfl | rfl
    · exact hsub.subset hxs
    · exact hxs
  · exact absurd ⟨_, hco⟩ h

/-! ### Which common order: the C3 choice -/

/-- The rule of C3: `c` is the head of the first list whose head is in no tail. -/
def IsFirstGood (Q : List (List α)) (c : α) : Prop :=
  (∀ s ∈ Q, c ∉ s.drop 1) ∧ ∃ Q₁ l Q₂, Q = Q₁ ++ (c :: l) :: Q₂ ∧ ∀ a l', (a :: l') ∈ Q₁ → ∃ s ∈ Q, a ∈ s.drop 1

/-- What remains of the lists when the classes of `pre` have been removed. -/
def remaining (pre : List α) (Q : List (List α)) : List (List α) := Q.map fun s => s.filter fun x => decide (x ∉ pre)

theorem candidate_first {all : List (List α)} {c : α} : ∀ {rest : List (List α)}, candidate all rest = some c →
    ∃ Q₁ l Q₂, rest = Q₁ ++ (c :: l) :: Q₂ ∧ ∀ a l', (a :: l') ∈ Q₁ → ∃ s ∈ all, a ∈ s.drop 1
  | [], h => by simp [candidate] at h
  | [] :: rest, h => by
    rw [candidate] at h
    obtain ⟨Q₁, l, Q₂, h1, h2⟩ := candidate_first h
    exact ⟨[] :: Q₁, l, Q₂, by rw [h1]; rfl, fun a l' ha => h2 a l' (by simpa using ha)⟩
  | (a :: l) :: rest, h => by
    rw [candidate] at h
    by_cases ha : (all.any fun s => decide (a ∈ s.drop 1)) = true
    · rw [if_pos ha] at h
      obtain ⟨Q₁, l₁, Q₂, h1, h2⟩ := candidate_first h
      refine ⟨(a :: l) :: Q₁, l₁, Q₂, by rw [h1]; rfl, fun b l' hb => ?_⟩
      rcases List.mem_cons.mp hb with hb | hb
      · obtain ⟨rfl, rfl⟩ := List.cons.inj hb
        obtain ⟨s, hs, hc⟩ := List.any_eq_true.mp ha
        exact ⟨s, hs, by simpa using hc⟩
      · exact h2 b l' hb
    · rw [if_neg ha, Option.some.injEq] at h
      subst h
      exact ⟨[], l, rest, rfl, by simp⟩

theorem candidate_isFirst {Q : List (List α)} {c : α} (h : candidate Q Q = some c) : IsFirstGood Q c :=
  ⟨(candidate_head h).2, candidate_first h⟩

theorem any_nonEmpty (c : α) (all : List (List α)) :
    ((nonEmpty all).any fun s => decide (c ∈ s.drop 1)) = all.any fun s => decide (c ∈ s.drop 1) := by
  induction all with
  | nil => rfl
  | cons s all ih =>
    cases s with
    | nil => simpa [nonEmpty] using ih
    | cons a s =>
      have : nonEmpty ((a :: s) :: all) = (a :: s) :: nonEmpty all := by simp [nonEmpty]
      rw [this, List.any_cons, List.any_cons, ih]

theorem candidate_nonEmpty (all rest : List (List α)) : candidate (nonEmpty all) (nonEmpty rest) = candidate all rest := by
  induction rest with
  | nil => rfl
  | cons s rest ih =>
    cases s with
    | nil => rw [candidate]; simpa [nonEmpty] using ih
    | cons a s =>
      have : nonEmpty ((a :: s) :: rest) = (a :: s) :: nonEmpty rest := by simp [nonEmpty]
      rw [this, candidate, candidate, any_nonEmpty, ih]

omit [DecidableEq α] in
theorem nonEmpty_map (f : List α → List α) (hf : f [] = []) (Q : List (List α)) : nonEmpty ((nonEmpty Q).map f) = nonEmpty (Q.map f) := by
  induction Q with
  | nil => rfl
  | cons s Q ih =>
    cases s with
    | nil => simpa [nonEmpty, hf] using ih
    | cons a s => simp only [nonEmpty] at ih ⊢; simp [List.filter_cons, ih]

theorem dropHead_filter {c : α} {s : List α} (h : c ∉ s.drop 1) : dropHead c s = s.filter fun x => decide (x ≠ c) := by
  cases s with
  | nil => rfl
  | cons a l =>
    simp only [List.drop_one, List.tail_cons] at h
    have hl : (l.filter fun x => decide (x ≠ c)) = l := by
      rw [List.filter_eq_self]
      intro x hx
      simp only [ne_eq, decide_eq_true_eq]
      rintro rfl
      exact h hx
    rw [dropHead]
    by_cases ha : a = c
    · rw [if_pos ha, List.filter_cons_of_neg (by simp [ha]), hl]
    · rw [if_neg ha, List.filter_cons_of_pos (by simp [ha]), hl]

theorem merge_first {truthy : α → Bool} : ∀ (n : ℕ) (seqs : List (List α)) (res r : List α), size seqs = n → merge truthy seqs res = .ok (res ++ r) →
    ∀ pre c post, r = pre ++ c :: post → candidate (remaining pre seqs) (remaining pre seqs) = some c := by
  intro n
  induction n using Nat.strong_induction_on with
  | _ n ih =>
    intro seqs res r hn h pre c post hr
    rw [merge] at h
    by_cases he : nonEmpty seqs = []
    · rw [if_pos he, Except.ok.injEq] at h
      obtain rfl : r = [] := by simpa using h
      simp at hr
    · rw [if_neg he] at h
      split at h
      · cases h
      · rename_i d hd
        obtain ⟨⟨l, hl⟩, ht⟩ := candidate_head hd
        split at h
        · have hlt : size ((nonEmpty seqs).map (dropHead d)) < n := by
            rw [← hn, ← size_nonEmpty seqs]; exact size_dropHead hl
          obtain ⟨r', hr', -⟩ := merge_ok _ _ _ _ rfl h
          have e : r = d :: r' := by
            rw [List.append_assoc] at hr'
            exact List.append_cancel_left hr'
          rw [hr'] at h
          cases pre with
          | nil =>
            rw [hr, List.nil_append] at e
            obtain ⟨rfl, -⟩ := List.cons.inj e
            have : remaining [] seqs = seqs := by simp [remaining]
            rw [this]
            rwa [candidate_nonEmpty] at hd
          | cons p pre =>
            rw [hr, List.cons_append] at e
            obtain ⟨rfl, e2⟩ := List.cons.inj e
            have hrec := ih _ hlt _ _ _ rfl h pre c post e2.symm
            have hmap : (nonEmpty seqs).map (dropHead p) = remaining [p] (nonEmpty seqs) := by
              refine List.map_congr_left fun s hs => ?_
              rw [dropHead_filter (ht s hs)]
              simp
            have e3 : remaining pre (remaining [p] (nonEmpty seqs)) = remaining (p :: pre) (nonEmpty seqs) := by
              simp only [remaining, List.map_map]
              refine List.map_congr_left fun s _ => ?_
              simp only [Function.comp_apply, List.filter_filter]
              refine List.filter_congr fun x _ => ?_
              by_cases h1 : x = p <;> by_cases h2 : x ∈ pre <;> simp [h1, h2]
            rw [hmap, e3] at hrec
            rw [← candidate_nonEmpty] at hrec ⊢
            have e4 : nonEmpty (remaining (p :: pre) (nonEmpty seqs)) = nonEmpty (remaining (p :: pre) seqs) := nonEmpty_map _ (by simp) _
            rwa [e4] at hrec
        · cases h

/-- C58: among the common orders the one of C3 is returned. Each class is the first good head (the linearizations in the order of the bases, then the bases)
once the classes before it have been removed. -/
theorem C58_c3 (truthy : α → Bool) (mroOf : α → List α) (bases res : List α) (h : mro truthy mroOf bases = .ok res) (pre : List α) (c : α) (post : List α)
    (hr : res = pre ++ c :: post) : IsFirstGood (remaining pre (bases.map mroOf ++ [bases])) c :=
  candidate_isFirst (merge_first _ _ [] res rfl h pre c post hr)

/-- Classes of an example: `D(B, C)`, `B(A)`, `C(A)`, `A`; `E(A, B)` is inconsistent. -/
inductive Cls | A | B | C
  deriving DecidableEq

/-- Their linearizations. -/
def clsMro : Cls → List Cls
  | .A => [.A]
  | .B => [.B, .A]
  | .C => [.C, .A]

/-- The diamond. -/
example : mro (fun _ => true) clsMro [.B, .C] = .ok [.B, .C, .A] := by decide +kernel

/-- The inconsistent case, and repeated bases. -/
example : mro (fun _ => true) clsMro [.A, .B] = .error .typeError ∧ mro (fun _ => true) clsMro [.B, .B] = .error .typeError := by decide +kernel

/-- C58 needs the condition on truth values: a consistent hierarchy is rejected if a class is false (for instance through a metaclass with `__len__`). -/
theorem C58_falsy : mro (fun c => c != .A) clsMro [.B, .C] = .error .typeError ∧ ∃ res, IsCommonOrder (mroInputs clsMro [.B, .C]) res := by
  refine ⟨by decide +kernel, [.B, .C, .A], by decide, fun x => ?_, ?_⟩
  · cases x <;> decide
  · decide

/-! ### C62 -/

omit [DecidableEq α] in
/-- C62: the docstring is that of the first class in the order that has the method. -/
theorem C62_found (attr : α → Option Fn) (pre post : List α) (c : α) (f : Fn) (hpre : ∀ x ∈ pre, attr x = none) (hc : attr c = some f) :
    copyDoc attr (pre ++ c :: post) ⟨none⟩ = .ok ⟨f.doc⟩ := by
  have : searchDoc attr (pre ++ c :: post) = .ok f.doc := by
    induction pre with
    | nil => simp [searchDoc, hc]
    | cons a pre ih =>
      rw [List.cons_append, searchDoc, hpre a List.mem_cons_self]
      exact ih fun x hx => hpre x (List.mem_cons_of_mem _ hx)
  simp only [copyDoc, this, Except.map]

omit [DecidableEq α] in
/-- C62: RuntimeError if there is a docstring already or if no class has the method; no other exception. -/
theorem C62_rejects (attr : α → Option Fn) (order : List α) (fn : Fn) (e : PyErr) :
    copyDoc attr order fn = .error e ↔ e = .runtimeError ∧ (fn.doc ≠ none ∨ ∀ c ∈ order, attr c = none) := by
  have hs : ∀ l : List α, searchDoc attr l = .error e ↔ e = .runtimeError ∧ ∀ c ∈ l, attr c = none := by
    intro l
    induction l with
    | nil => simp [searchDoc, eq_comm]
    | cons a l ih =>
      rw [searchDoc]
      cases ha : attr a with
      | none => simp only [List.forall_mem_cons, ha, true_and]; exact ih
      | some f => simp [ha]
  unfold copyDoc
  cases hd : fn.doc with
  | some d => simp [eq_comm]
  | none =>
    simp only [ne_eq, not_true_eq_false, false_or]
    rw [← hs]
    cases searchDoc attr order <;> simp [Except.map]

/-- C62 for a class statement: the docstring is that of the first class in a common order of the linearizations of the bases; a class without the method does not hide it. -/
theorem C62 (truthy : α → Bool) (mroOf : α → List α) (attr : α → Option Fn) (bases : List α) (fn out : Fn)
    (h : inheritDoc truthy mroOf attr bases fn = .ok out) :
    fn.doc = none ∧ ∃ pre c post f, IsCommonOrder (mroInputs mroOf bases) (pre ++ c :: post) ∧ (∀ x ∈ pre, attr x = none) ∧ attr c = some f ∧
      out.doc = f.doc := by
  unfold inheritDoc at h
  rcases C58_any truthy mroOf bases with ⟨res, hr, hco⟩ | hr
  · rw [hr] at h
    simp only [Except.bind] at h
    have hdoc : fn.doc = none := by
      by_contra hne
      have := (C62_rejects attr res fn .runtimeError).mpr ⟨rfl, .inl hne⟩
      rw [this] at h; cases h
    have hex : ∃ c ∈ res, attr c ≠ none := by
      by_contra hne
      push Not at hne
      have := (C62_rejects attr res fn .runtimeError).mpr ⟨rfl, .inr hne⟩
      rw [this] at h; cases h
    obtain ⟨pre, c, post, hsplit, hpre, hc⟩ : ∃ pre c post, res = pre ++ c :: post ∧ (∀ x ∈ pre, attr x = none) ∧ attr c ≠ none := by
      clear h hr hco
      induction res with
      | nil => obtain ⟨c, hc, -⟩ := hex; simp at hc
      | cons a l ih =>
        by_cases ha : attr a = none
        · obtain ⟨c, hc, hne⟩ := hex
          have : c ∈ l := by
            rcases List.mem_cons.mp hc with rfl | h
            · exact absurd ha hne
            · exact h
          obtain ⟨pre, c', post, h1, h2, h3⟩ := ih ⟨c, this, hne⟩
          exact ⟨a :: pre, c', post, by rw [h1]; rfl, by simpa [ha] using h2, h3⟩
        · exact ⟨[], a, l, rfl, by simp, ha⟩
    obtain ⟨f, hf⟩ := Option.ne_none_iff_exists'.mp hc
    refine ⟨hdoc, pre, c, post, f, hsplit ▸ hco, hpre, hf, ?_⟩
    have := C62_found attr pre post c f hpre hf
    rw [hsplit, show fn = ⟨none⟩ by cases fn; cases hdoc; rfl, this] at h
    cases h; rfl
  · rw [hr] at h; cases h

/-- A case: the method is defined in `A` (documented) and overridden without docstring in `C`. -/
example : inheritDoc (fun _ => true) clsMro (fun c => if c = .B then none else if c = .C then some ⟨none⟩ else some ⟨some "doc"⟩) [.B, .C] ⟨none⟩ = .ok ⟨none⟩ := by
  have h : mro (fun _ => true) clsMro [.B, .C] = .ok [.B, .C, .A] := by decide +kernel
  unfold inheritDoc
  rw [h]
  rfl

/-- C3 prefers the list given first although `[B, A, C]` and `[C, B, A]` are common orders too. -/
example : merge (fun _ => true) [[Cls.B, .A], [.C]] [] = .ok [.B, .A, .C] := by decide +kernel

end Verif.Props
