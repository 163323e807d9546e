import Verif.Utils.Model
import Verif.Props.Random

/-!
# C86: the fixtures of `matcouply.testing`; C87: looking up the SVD function
-/

namespace Verif.Props

open Verif.Utils Verif.CMF Verif.Spec

variable {S F : Type}

/-! ### C86 -/

/-- What a fixture promises: a factorization with the returned shapes and rank, of at least two matrices with at least `lo` rows each and the same number (at least two) of
columns, whose rank is at least 1 and at most every number of rows. -/
structure GoodFixture (lo : ℤ) (x : Fact ℝ × List (ℤ × ℤ) × ℤ) : Prop where
  shape : x.1.shape.map (fun p => ((p.1 : ℤ), (p.2 : ℤ))) = x.2.1
  rank : (x.1.rank : ℤ) = x.2.2
  count : 2 ≤ x.2.1.length
  rows : ∀ p ∈ x.2.1, lo ≤ p.1 ∧ 2 ≤ p.2 ∧ x.2.2 ≤ p.1
  columns : ∀ p ∈ x.2.1, ∀ q ∈ x.2.1, p.2 = q.2
  pos : 1 ≤ x.2.2

theorem randomLength_ok (g : Rng S) (s : S) {min : ℤ} {mean : ℝ} (h : (min : ℝ) < mean) : ∃ n s', randomLength g s min mean = .ok (n, s') ∧ min ≤ n :=
  ⟨_, _, by rw [randomLength, if_neg (not_le.2 h)], by omega⟩

theorem lengths_ok (g : Rng S) {min : ℤ} {mean : ℝ} (h : (min : ℝ) < mean) (K : ℤ) : ∀ (n : ℕ) (s : S), ∃ l s', lengths g min mean K n s = .ok (l, s') ∧ l.length = n ∧
    ∀ p ∈ l, min ≤ p.1 ∧ p.2 = K
  | 0, s => ⟨[], s, rfl, rfl, by simp⟩
  | n + 1, s => by
    obtain ⟨j, s₁, e1, hj⟩ := randomLength_ok g s h
    obtain ⟨l, s₂, e2, hl, hp⟩ := lengths_ok g h K n s₁
    refine ⟨(j, K) :: l, s₂, ?_, by simp [hl], ?_⟩
    · simp only [lengths, e1, Except.bind, e2]
    · intro p hp'
      rcases List.mem_cons.1 hp' with rfl | h'
      · exact ⟨hj, rfl⟩
      · exact hp p h'

theorem raggedShapes_ok (g : Rng S) (s : S) {min : ℤ} {mean : ℝ} (h : (min : ℝ) < mean) : ∃ l s', raggedShapes g s min mean = .ok (l, s') ∧ 2 ≤ l.length ∧
    (∀ p ∈ l, min ≤ p.1 ∧ 2 ≤ p.2) ∧ ∀ p ∈ l, ∀ q ∈ l, p.2 = q.2 := by
  obtain ⟨n, s₁, e1, hn⟩ := randomLength_ok g s (min := 2) (mean := 5) (by norm_num)
  obtain ⟨K, s₂, e2, hK⟩ := randomLength_ok g s₁ (min := 2) (mean := 5) (by norm_num)
  obtain ⟨l, s₃, e3, hl, hp⟩ := lengths_ok g h K n.toNat s₂
  refine ⟨l, s₃, ?_, by omega, fun p hpl => ⟨(hp p hpl).1, by rw [(hp p hpl).2]; exact hK⟩, fun p hpl q hql => by rw [(hp p hpl).2, (hp q hql).2]⟩
  simp only [raggedShapes, e1, Except.bind, e2, e3]

theorem drawCMF_ok (g : Rng S) (s : S) {shapes : List (ℤ × ℤ)} {rank lo : ℤ} (h0 : 0 ≤ lo) (h1 : 2 ≤ shapes.length) (h2 : ∀ p ∈ shapes, lo ≤ p.1 ∧ 2 ≤ p.2)
    (h3 : ∀ p ∈ shapes, ∀ q ∈ shapes, p.2 = q.2) (h4 : 1 ≤ rank) (h5 : ∀ p ∈ shapes, rank ≤ p.1) :
    ∃ c, drawCMF g s shapes rank = .ok c ∧ GoodFixture lo (c, shapes, rank) := by
  have hpos : ¬ (rank < 0 ∨ ∃ p ∈ shapes, p.1 < 0 ∨ p.2 < 0) := by
    rintro (h | ⟨p, hp, h⟩)
    · omega
    · have := h2 p hp
      omega
  cases e : randomCMF g.mats s (shapes.map fun p => (p.1.toNat, p.2.toNat)) rank.toNat true false with
  | error x =>
    exfalso
    rcases (C14_error _ _ _ _ _ _ _).1 e with ⟨-, p, hp, q, hq, hne⟩ | ⟨-, h⟩
    · obtain ⟨p', hp', rfl⟩ := List.mem_map.1 hp
      obtain ⟨q', hq', rfl⟩ := List.mem_map.1 hq
      exact hne (congrArg Int.toNat (h3 p' hp' q' hq'))
    · rw [List.map_eq_nil_iff.1 h] at h1
      simp at h1
  | ok c =>
    obtain ⟨e1, e2, -⟩ := C14_shapes_nonneg _ _ _ _ _ _ _ e
    refine ⟨c, by rw [drawCMF, if_neg hpos, e], ⟨?_, ?_, h1, fun p hp => ⟨(h2 p hp).1, (h2 p hp).2, h5 p hp⟩, h3, h4⟩⟩
    · show c.shape.map _ = shapes
      rw [e1, List.map_map]
      conv_rhs => rw [← List.map_id shapes]
      refine List.map_congr_left fun p hp => ?_
      have := h2 p hp
      simp only [Function.comp_apply, id]
      rw [Int.toNat_of_nonneg (by omega), Int.toNat_of_nonneg (by omega)]
    · show (c.rank : ℤ) = rank
      rw [e2, Int.toNat_of_nonneg (by omega)]

/-- C86: whatever the random state delivers, the three fixtures return factorizations as promised; for the regular one all matrices have the same shape. -/
theorem C86 (g : Rng S) (s : S) :
    (∃ x, raggedCMF g s = .ok x ∧ GoodFixture 2 x) ∧ (∃ x, rank5CMF g s = .ok x ∧ GoodFixture 5 x ∧ x.2.2 = 5) ∧
    ∃ x, regularCMF g s = .ok x ∧ GoodFixture 2 x ∧ ∀ p ∈ x.2.1, ∀ q ∈ x.2.1, p = q := by
  refine ⟨?_, ?_, ?_⟩
  · obtain ⟨l, s₁, e1, h1, h2, h3⟩ := raggedShapes_ok g s (min := 2) (mean := 5) (by norm_num)
    cases hm : (l.map Prod.fst).min? with
    | none =>
      rw [List.min?_eq_none_iff, List.map_eq_nil_iff] at hm
      rw [hm] at h1
      simp at h1
    | some m =>
      have hmin := List.min?_eq_some_iff.1 hm
      obtain ⟨p, hp, hpm⟩ := List.mem_map.1 hmin.1
      have hm2 : 2 ≤ m := by rw [← hpm]; exact (h2 p hp).1
      obtain ⟨r1, r2⟩ := g.randint_mem s₁ 1 (m + 1) (by omega)
      obtain ⟨c, hc, hg⟩ := drawCMF_ok g (g.randint s₁ 1 (m + 1)).2 (lo := 2) (by norm_num) h1 h2 h3 r1 fun p hp => by
        have := hmin.2 p.1 (List.mem_map.2 ⟨p, hp, rfl⟩)
        omega
      refine ⟨_, ?_, hg⟩
      simp only [raggedCMF, e1, Except.bind, hm]
      rw [if_neg (by omega), hc]
      rfl
  · obtain ⟨l, s₁, e1, h1, h2, h3⟩ := raggedShapes_ok g s (min := 5) (mean := 7) (by norm_num)
    obtain ⟨c, hc, hg⟩ := drawCMF_ok g s₁ (lo := 5) (rank := 5) (by norm_num) h1 h2 h3 (by norm_num) fun p hp => (h2 p hp).1
    refine ⟨_, ?_, hg, rfl⟩
    simp only [rank5CMF, e1, Except.bind, hc]
    rfl
  · obtain ⟨n, s₁, e1, hn⟩ := randomLength_ok g s (min := 2) (mean := 5) (by norm_num)
    obtain ⟨J, s₂, e2, hJ⟩ := randomLength_ok g s₁ (min := 2) (mean := 5) (by norm_num)
    obtain ⟨K, s₃, e3, hK⟩ := randomLength_ok g s₂ (min := 2) (mean := 5) (by norm_num)
    have hmem : ∀ p ∈ List.replicate n.toNat (J, K), p = (J, K) := fun p hp => List.eq_of_mem_replicate hp
    obtain ⟨r1, r2⟩ := g.randint_mem s₃ 1 (J + 1) (by omega)
    obtain ⟨c, hc, hg⟩ := drawCMF_ok g (g.randint s₃ 1 (J + 1)).2 (shapes := List.replicate n.toNat (J, K)) (lo := 2) (by norm_num) (by simp; omega)
      (fun p hp => by rw [hmem p hp]; exact ⟨hJ, hK⟩) (fun p hp q hq => by rw [hmem p hp, hmem q hq]) r1 (fun p hp => by rw [hmem p hp]; show _ ≤ J; omega)
    refine ⟨_, ?_, hg, fun p hp q hq => by rw [hmem p hp, hmem q hq]⟩
    simp only [regularCMF, regularShapes, e1, Except.bind, e2, e3]
    obtain ⟨k, hk⟩ : ∃ k, n.toNat = k + 1 := ⟨n.toNat - 1, by omega⟩
    rw [hk, List.replicate_succ] at hc ⊢
    simp only
    rw [if_neg (by omega), hc]
    rfl

/-- `random_length` raises ValueError exactly if the minimum is not below the mean; otherwise its result is at least the minimum. -/
theorem C86_length (g : Rng S) (s : S) (min : ℤ) (mean : ℝ) :
    ((∃ e, randomLength g s min mean = .error e) ↔ mean ≤ min) ∧ (∀ e, randomLength g s min mean = .error e → e = .valueError) ∧
    ∀ n s', randomLength g s min mean = .ok (n, s') → min ≤ n := by
  by_cases h : mean ≤ min
  · have e : randomLength g s min mean = .error .valueError := by rw [randomLength, if_pos h]
    rw [e]
    exact ⟨⟨fun _ => h, fun _ => ⟨_, rfl⟩⟩, fun x hx => (by cases hx; rfl), fun n s' hx => (by cases hx)⟩
  · have e : randomLength g s min mean = .ok (min + (g.poisson s (mean - min)).1, (g.poisson s (mean - min)).2) := by rw [randomLength, if_neg h]
    rw [e]
    refine ⟨⟨fun ⟨x, hx⟩ => (by cases hx), fun h' => absurd h' h⟩, fun x hx => (by cases hx), fun n s' hx => ?_⟩
    cases hx
    omega

/-- The rank can exceed the number of columns: two columns, rank five. -/
theorem C86_columns : ∃ (S : Type) (g : Rng S) (s : S) (x : _), rank5CMF g s = .ok x ∧ ∀ p ∈ x.2.1, p.2 < x.2.2 := by
  let g : Rng Unit := ⟨⟨fun _ m n => (⟨[m, n], fun _ => 1 / 2⟩, ()), fun _ _ _ => rfl⟩, fun _ _ => (0, ()), fun _ lo _ => (lo, ()), fun _ lo hi h => ⟨le_rfl, h⟩⟩
  obtain ⟨x, hx, hg, h5⟩ := (C86 g ()).2.1
  refine ⟨Unit, g, (), x, hx, fun p hp => ?_⟩
  have e1 : ∀ (s : Unit) (m : ℤ) (mu : ℝ), (m : ℝ) < mu → randomLength g s m mu = .ok (m, ()) := fun s m mu h => by
    rw [randomLength, if_neg (not_le.2 h)]
    simp [g]
  have e2 : raggedShapes g () 5 7 = .ok ([(5, 2), (5, 2)], ()) := by
    simp only [raggedShapes, e1 () 2 5 (by norm_num), Except.bind]
    show lengths g 5 7 2 2 () = _
    simp only [lengths, e1 () 5 7 (by norm_num), Except.bind]
  rw [rank5CMF, e2] at hx
  simp only [Except.bind] at hx
  cases hd : drawCMF g () [(5, 2), (5, 2)] 5 with
  | error e => rw [hd] at hx; cases hx
  | ok c =>
    rw [hd] at hx
    cases hx
    simp at hp
    rw [hp]
    norm_num

/-! ### C87 -/

/-- The function that TensorLy has under a name. -/
def Offers (t : SvdFuns F) (name : String) (f : F) : Prop :=
  match t with
  | .dict d => (name, f) ∈ d
  | .names _ attr => attr name = some f

/-- The possible choices according to the error message, `list(tl.SVD_FUNS)`. -/
def choices (t : SvdFuns F) : List String :=
  match t with
  | .dict d => d.map Prod.fst
  | .names l _ => l

theorem getSvd_iff (t : SvdFuns F) (hd : ∀ d, t = .dict d → (d.map Prod.fst).Nodup) (name : String) :
    (∀ f, getSvd t name = .ok f ↔ Offers t name f) ∧ ∀ e, getSvd t name = .error e ↔ e = .valueError ∧ ¬ ∃ f, Offers t name f := by
  cases t with
  | names l attr =>
    unfold getSvd Offers
    simp only
    cases h : attr name with
    | none => exact ⟨fun f => ⟨fun e => (by cases e), fun e => (by cases e)⟩, fun e => ⟨fun e' => ⟨(by cases e'; rfl), fun ⟨_, e''⟩ => (by cases e'')⟩, fun e' => by rw [e'.1]⟩⟩
    | some f => exact ⟨fun f' => ⟨fun e => (by cases e; rfl), fun e => (by cases e; rfl)⟩, fun e => ⟨fun e' => (by cases e'), fun e' => absurd ⟨f, rfl⟩ e'.2⟩⟩
  | dict d =>
    have hn := hd d rfl
    unfold getSvd Offers
    simp only
    cases h : d.find? fun p => p.1 = name with
    | none =>
      have hnone : ∀ f, (name, f) ∉ d := fun f hf => by
        have := List.find?_eq_none.1 h _ hf
        simp at this
      simp [hnone, eq_comm]
    | some p =>
      have hp : p.1 = name := by simpa using List.find?_some h
      have hmem := List.mem_of_find?_eq_some h
      have huniq : ∀ f, (name, f) ∈ d → f = p.2 := fun f hf => by
        have := List.inj_on_of_nodup_map hn hf hmem hp.symm
        rw [← this]
      refine ⟨fun f => ⟨fun e => ?_, fun hf => by rw [huniq f hf]⟩, fun e => ⟨fun h => (by cases h), fun h => absurd ⟨p.2, hp ▸ hmem⟩ h.2⟩⟩
      cases e
      exact hp ▸ hmem

/-- C87, as far as it holds: TensorLy has a function for every name it lists, and dictionaries have unique keys. Then every listed name gives its function, errors are
ValueErrors, and names that are not listed raise them if `SVD_FUNS` is a dictionary or the module has no other attributes. Missing: unlisted names of other attributes,
see `C87_false`. -/
theorem C87_partial (t : SvdFuns F) (hd : ∀ d, t = .dict d → (d.map Prod.fst).Nodup) (hl : ∀ l attr, t = .names l attr → ∀ n ∈ l, (attr n).isSome) (name : String) :
    (name ∈ choices t → ∃ f, getSvd t name = .ok f ∧ Offers t name f) ∧ (∀ e, getSvd t name = .error e → e = .valueError) ∧
    (name ∉ choices t → (∀ l attr, t = .names l attr → ∀ n, (attr n).isSome → n ∈ l) → getSvd t name = .error .valueError) := by
  obtain ⟨h1, h2⟩ := getSvd_iff t hd name
  refine ⟨fun hn => ?_, fun e he => ((h2 e).1 he).1, fun hn hattr => (h2 _).2 ⟨rfl, fun ⟨f, hf⟩ => ?_⟩⟩
  · have : ∃ f, Offers t name f := by
      cases t with
      | dict d =>
        obtain ⟨p, hp, rfl⟩ := List.mem_map.1 hn
        exact ⟨p.2, hp⟩
      | names l attr => exact Option.isSome_iff_exists.1 (hl l attr rfl name hn)
    obtain ⟨f, hf⟩ := this
    exact ⟨f, (h1 f).2 hf, hf⟩
  · cases t with
    | dict d => exact hn (List.mem_map.2 ⟨_, hf, rfl⟩)
    | names l attr => exact hn (hattr l attr rfl name (Option.isSome_iff_exists.2 ⟨f, hf⟩))

/-- The hypotheses of `C87_partial` hold for a dictionary with two functions, where one of them is found and another name is refused. -/
example : ∃ t : SvdFuns ℕ, (∀ d, t = .dict d → (d.map Prod.fst).Nodup) ∧ (∀ l attr, t = .names l attr → ∀ n ∈ l, (attr n).isSome) ∧
    getSvd t "b" = .ok 2 ∧ getSvd t "c" = .error .valueError :=
  ⟨.dict [("a", 1), ("b", 2)], fun d h => (by cases h; decide), fun l attr h => (by cases h), rfl, rfl⟩

/-- With the attributes of the module, names that TensorLy does not list are accepted too: whatever else the module contains is returned as the SVD function. -/
theorem C87_false : ∃ (t : SvdFuns String) (l : List String) (name : String), (∃ attr, t = .names l attr) ∧ name ∉ l ∧ getSvd t name = .ok "module numpy" :=
  ⟨.names ["truncated_svd"] fun s => if s = "np" then some "module numpy" else some "function", ["truncated_svd"], "np", ⟨_, rfl⟩, by decide, rfl⟩

end Verif.Props
