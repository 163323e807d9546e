import Verif.Kit.Model
import Verif.Props.PenInit
import Verif.Props.PenaltyLaws

/-!
# C109: the test classes for penalties

Penalties that follow the interface pass the tests of `matcouply.testing` for all draws; some that do not pass them for all draws too.
-/

namespace Verif.Props

open Verif.CMF Verif.Penalties Verif.Spec Verif.ADMM Verif.Kit

variable {n : ℕ}

/-! ### Initialisation -/

section
variable {K : Type}

/-- All tests of the initialisation pass: `f s k` is the function of call `k` in a test. `unit` is what is asserted about uniform draws. -/
structure InitTestsPass [Zero K] (f : ℕ → InitFn K) (unit : K → Prop) : Prop where
  uniform : ∀ shapes R, shapes ≠ [] → TestNamed f "random_uniform" unit shapes R
  normal : ∀ shapes R, shapes ≠ [] → TestNamed f "random_standard_normal" (fun _ => True) shapes R
  zeros : ∀ shapes R, shapes ≠ [] → TestNamed f "zeros" (· = 0) shapes R
  given : ∀ shapes R (A : NDArray K) (Bs : List (NDArray K)) (C : NDArray K), shapes ≠ [] → A.shape = [shapes.length, R] →
    Bs.map NDArray.shape = shapes.map (fun x => [x.1, R]) → (∀ x ∈ shapes.head?, C.shape = [x.2, R]) → TestGiven f A Bs C shapes R
  rankMode : ∀ shapes R s, shapes ≠ [] → IsScheme s → TestRankMode f s shapes R
  validating : ∀ shapes R (A A' : NDArray K) (Bs Bs' : List (NDArray K)) (C' : NDArray K), shapes ≠ [] → A.shape = [shapes.length, R] →
    A'.shape = [shapes.length + 1, R] → Bs.map NDArray.shape = shapes.map (fun x => [x.1, R]) →
    Bs'.map NDArray.shape = (shapes.modifyHead fun x => (x.1 + 1, x.2)).map (fun x => [x.1, R]) → (∀ x ∈ shapes.head?, C'.shape = [x.2 + 1, R]) →
    TestValidating f A A' Bs Bs' C' shapes R
  input : ∀ shapes R, shapes ≠ [] → TestInput f shapes R

theorem generate_named [Zero K] (g : ℕ → ℕ → ℕ → K) (P : K → Prop) (hP : ∀ k i j, P (g k i j)) (shapes : List (ℕ × ℕ)) (hs : shapes ≠ []) (R : ℕ) :
    (∃ t, generate g shapes R 0 = .ok (.tensor t) ∧ CheckMatrix P t shapes.length R) ∧
    (∃ l, generate g shapes R 1 = .ok (.list l) ∧ ∀ x ∈ l.zip shapes, ∃ t, x.1 = .tensor t ∧ CheckMatrix P t x.2.1 R) ∧
    ∃ t, generate g shapes R 2 = .ok (.tensor t) ∧ ∃ m, shapes.head? = some m ∧ CheckMatrix P t m.2 R := by
  have hc : ∀ k m, CheckMatrix P (NDArray.mk2 m R (g k)) m R := by
    refine fun k m => ⟨rfl, rfl, fun idx h => ?_⟩
    have hl : idx.length = 2 := h.length_eq
    obtain ⟨a, b, rfl⟩ := List.length_eq_two.1 hl
    exact hP k a b
  refine ⟨⟨_, by simp [generate, sized_nat, Except.map], hc 0 _⟩, ?_, ?_⟩
  · have h : (shapes.zipIdx.mapM fun x => sized x.1.1 (R : ℤ) (g x.2)) = .ok (shapes.zipIdx.map fun x => NDArray.mk2 x.1.1 R (g x.2)) :=
      mapM_ok _ _ _ fun a _ => sized_nat _ _ _
    refine ⟨(shapes.zipIdx.map fun x => NDArray.mk2 x.1.1 R (g x.2)).map .tensor, ?_, ?_⟩
    · unfold generate
      rw [if_neg (by decide), if_pos rfl, h]
      rfl
    · rintro ⟨x, s⟩ hx
      obtain ⟨i, hi⟩ := List.mem_iff_getElem?.1 hx
      rw [List.getElem?_zip_eq_some] at hi
      simp only [List.map_map, List.getElem?_map, List.getElem?_zipIdx] at hi
      obtain ⟨h1, h2⟩ := hi
      rw [h2] at h1
      simp only [Option.map_some, Function.comp, Option.some.injEq] at h1
      exact ⟨_, h1.symm, hc _ _⟩
  · obtain ⟨m, ms, rfl⟩ := List.exists_cons_of_ne_nil hs
    exact ⟨_, by simp [generate, sized_nat, Except.map], m, rfl, hc 0 _⟩

/-- C109, initialisation: `init_aux` and `init_dual` of the package pass all their tests, for all data matrices and all draws, if uniform draws satisfy what is asserted
about them. -/
theorem C109_init [Zero K] (d : ℕ → Draws K) (unit : K → Prop) (hd : ∀ k a i j, unit ((d k).uniform a i j)) :
    InitTestsPass (fun k v mats rank mode => initVar v (d k) mats rank mode) unit := by
  have spec : ∀ v k mats rank mode, mats ≠ [] → (∀ l, v = .list l → ∃ ts : List (NDArray K), l = ts.map .tensor) →
      InitSpec v mats rank mode (initVar v (d k) mats rank mode) := fun v k mats rank mode hm hl => initVar_spec v hl (d k) mats hm rank mode
  have lst : ∀ (ts : List (NDArray K)) l, (InitVal.list (ts.map .tensor) : InitVal K) = .list l → ∃ ts : List (NDArray K), l = ts.map .tensor := by
    rintro ts l h; cases h; exact ⟨ts, rfl⟩
  have ten : ∀ (t : NDArray K) l, InitVal.tensor t = .list l → ∃ ts : List (NDArray K), l = ts.map .tensor := by
    rintro ts l h; cases h
  have str : ∀ (s : String) l, (InitVal.str s : InitVal K) = .list l → ∃ ts : List (NDArray K), l = ts.map .tensor := by
    rintro ts l h; cases h
  have oth : ∀ l, (InitVal.other : InitVal K) = .list l → ∃ ts : List (NDArray K), l = ts.map .tensor := by
    rintro l h; cases h
  refine ⟨fun shapes R hs => ?_, fun shapes R hs => ?_, fun shapes R hs => ?_, ?_, ?_, ?_, ?_⟩
  · exact ⟨(generate_named _ unit (hd 0) shapes hs R).1, (generate_named _ unit (hd 1) shapes hs R).2.1, (generate_named _ unit (hd 2) shapes hs R).2.2⟩
  · have e : ∀ k (m : ℤ), IsMode m → initVar (.str "random_standard_normal") (d k) shapes (.int R) (.int m) = generate (d k).normal shapes R m := by
      intro k m hm
      unfold initVar
      simp only
      rw [if_neg (by unfold IsMode at hm; tauto), if_neg (by decide), if_pos trivial]
    unfold TestNamed
    simp only [e 0 0 (.inl rfl), e 1 1 (.inr (.inl rfl)), e 2 2 (.inr (.inr rfl))]
    exact ⟨(generate_named _ _ (fun _ _ _ => trivial) shapes hs R).1, (generate_named _ _ (fun _ _ _ => trivial) shapes hs R).2.1,
      (generate_named _ _ (fun _ _ _ => trivial) shapes hs R).2.2⟩
  · have e : ∀ k (m : ℤ), IsMode m → initVar (.str "zeros") (d k) shapes (.int R) (.int m) = generate (fun _ _ _ => 0) shapes R m := by
      intro k m hm
      unfold initVar
      simp only
      rw [if_neg (by unfold IsMode at hm; tauto), if_neg (by decide), if_neg (by decide), if_pos trivial]
    unfold TestNamed
    simp only [e 0 0 (.inl rfl), e 1 1 (.inr (.inl rfl)), e 2 2 (.inr (.inr rfl))]
    exact generate_named (fun _ _ _ => (0 : K)) (· = 0) (fun _ _ _ => rfl) shapes hs R
  · intro shapes R A Bs C hs hA hB hC
    refine ⟨?_, ?_, Bs.map .tensor, ?_, ?_⟩
    · exact ((spec _ 0 shapes _ _ hs (ten A)).given _ rfl _).2 ⟨rfl, R, 0, rfl, rfl, .inl ⟨rfl, A, rfl, hA⟩⟩
    · exact ((spec _ 1 shapes _ _ hs (ten C)).given _ rfl _).2 ⟨rfl, R, 2, rfl, rfl, .inr (.inr ⟨rfl, C, rfl, hC⟩)⟩
    · exact ((spec _ 2 shapes _ _ hs (lst Bs)).given _ rfl _).2 ⟨rfl, R, 1, rfl, rfl, .inr (.inl ⟨rfl, Bs, rfl, hB⟩)⟩
    · rintro ⟨B, x⟩ h
      obtain ⟨i, hi⟩ := List.mem_iff_getElem?.1 h
      rw [List.getElem?_zip_eq_some, List.getElem?_map] at hi
      rw [hi.1] at hi
      simpa using hi.2.symm
  · intro shapes R s hs _
    refine ⟨?_, ?_, ?_, ?_⟩
    · exact ((spec _ 0 shapes _ _ hs (str s)).types).2 (.inr (.inl rfl))
    · exact ((spec _ 1 shapes _ _ hs (str s)).types).2 (.inl rfl)
    · exact (spec _ 2 shapes _ _ hs (str s)).modes R (-1) rfl rfl (by unfold IsMode; omega)
    · exact (spec _ 3 shapes _ _ hs (str s)).modes R 3 rfl rfl (by unfold IsMode; omega)
  · intro shapes R A A' Bs Bs' C' hs hA hA' hB hB' hC'
    obtain ⟨x, xs, rfl⟩ := List.exists_cons_of_ne_nil hs
    refine ⟨?_, ?_, ?_, ?_, ?_, ?_, ?_⟩
    · refine (spec _ 0 _ _ _ hs (ten A')).shapes _ R 0 rfl rfl rfl (.inl rfl) (by simp [WrongKind]) ?_
      rintro ⟨R', -, h⟩
      rcases h with ⟨-, t, h, h'⟩ | ⟨h, -⟩ | ⟨h, -⟩
      · cases h; rw [hA'] at h'; simp at h'
      · cases h
      · cases h
    · refine (spec _ 1 _ _ _ hs (ten C')).shapes _ R 2 rfl rfl rfl (.inr (.inr rfl)) (by simp [WrongKind]) ?_
      rintro ⟨R', -, h⟩
      rcases h with ⟨h, -⟩ | ⟨h, -⟩ | ⟨-, t, h, h'⟩
      · cases h
      · cases h
      · cases h
        have := h' x rfl
        rw [hC' x rfl] at this; simp at this
    · refine (spec _ 2 _ _ _ hs (lst Bs')).shapes _ R 1 rfl rfl rfl (.inr (.inl rfl)) (by simp [WrongKind]) ?_
      rintro ⟨R', -, h⟩
      rcases h with ⟨h, -⟩ | ⟨-, ts, h, h'⟩ | ⟨h, -⟩
      · cases h
      · have e : Bs' = ts := by
          have := InitRes.list.inj h
          exact List.map_injective_iff.2 (fun _ _ h => PyVal.tensor.inj h) this
        rw [← e, hB'] at h'
        simp at h'
      · cases h
    · refine (spec _ 3 _ _ _ hs (lst (Bs ++ Bs))).shapes _ R 1 rfl rfl rfl (.inr (.inl rfl)) (by simp [WrongKind]) ?_
      rintro ⟨R', -, h⟩
      rcases h with ⟨h, -⟩ | ⟨-, ts, h, h'⟩ | ⟨h, -⟩
      · cases h
      · have e : Bs ++ Bs = ts := by
          have := InitRes.list.inj h
          exact List.map_injective_iff.2 (fun _ _ h => PyVal.tensor.inj h) this
        have h1 := congrArg List.length hB
        have h2 := congrArg List.length h'
        rw [← e] at h2
        simp at h1 h2
        omega
      · cases h
    · exact (spec _ 4 _ _ _ hs (lst Bs)).types.2 (.inr (.inr ⟨0, rfl, .inl rfl, .inr (.inr ⟨⟨_, rfl⟩, by decide⟩)⟩))
    · exact (spec _ 5 _ _ _ hs (lst Bs)).types.2 (.inr (.inr ⟨2, rfl, .inr (.inr rfl), .inr (.inr ⟨⟨_, rfl⟩, by decide⟩)⟩))
    · exact (spec _ 6 _ _ _ hs (ten A)).types.2 (.inr (.inr ⟨1, rfl, .inr (.inl rfl), .inr (.inl ⟨⟨_, rfl⟩, rfl⟩)⟩))
  · intro shapes R hs
    refine ⟨fun i _ mode hmode => ?_, fun mode hmode => ?_⟩
    · exact (spec _ _ _ _ _ hs oth).types.2 (.inr (.inr ⟨mode, rfl, by unfold IsMode; omega, .inl rfl⟩))
    · exact (spec _ _ _ _ _ hs (str _)).schemes _ R mode rfl (by unfold IsScheme; decide) rfl rfl

/-- An initialisation that returns no matrices in mode 1, and zeros in mode 2 for values that are no initialisation. -/
def lazyInit [Zero K] (d : Draws K) : InitFn K := fun v mats rank mode =>
  match initVar v d mats rank mode with
  | .ok (.tensor t) => .ok (.tensor t)
  | .ok (.list _) => .ok (.list [])
  | .error e =>
    match v, mode with
    | .other, .int z => if z = 2 then initVar (.str "zeros") d mats rank mode else .error e
    | _, _ => .error e

theorem lazyInit_of_tensor [Zero K] {d : Draws K} {v : InitVal K} {mats rank mode t} (h : initVar v d mats rank mode = .ok (.tensor t)) :
    lazyInit d v mats rank mode = .ok (.tensor t) := by
  unfold lazyInit; rw [h]

theorem lazyInit_of_list [Zero K] {d : Draws K} {v : InitVal K} {mats rank mode l} (h : initVar v d mats rank mode = .ok (.list l)) :
    lazyInit d v mats rank mode = .ok (.list []) := by
  unfold lazyInit; rw [h]

theorem lazyInit_of_error [Zero K] {d : Draws K} {v : InitVal K} {mats rank mode e} (h : initVar v d mats rank mode = .error e)
    (hv : v ≠ .other ∨ mode ≠ .int 2) : lazyInit d v mats rank mode = .error e := by
  unfold lazyInit; rw [h]
  cases v <;> cases mode <;> simp_all

/-- C109 is false in the other direction for the initialisation: functions that return no auxiliary matrices in mode 1 and accept `None` in mode 2 pass all tests for all
draws, although they break C25. -/
theorem C109_init_false [Zero K] (d : ℕ → Draws K) (unit : K → Prop) (hd : ∀ k a i j, unit ((d k).uniform a i j)) :
    InitTestsPass (fun k => lazyInit (d k)) unit ∧
    (∀ k mats (R : ℕ), mats ≠ [] → ¬ InitSpec (.str "zeros") mats (.int R) (.int 1) (lazyInit (d k) (.str "zeros") mats (.int R) (.int 1))) ∧
    ∀ k mats (R : ℕ), mats ≠ [] → ¬ InitSpec .other mats (.int R) (.int 2) (lazyInit (d k) .other mats (.int R) (.int 2)) := by
  have H := C109_init d unit hd
  have named : ∀ s P shapes R, TestNamed (fun k v mats rank mode => initVar v (d k) mats rank mode) s P shapes R →
      TestNamed (fun k => lazyInit (d k)) s P shapes R := by
    rintro s P shapes R ⟨⟨t, h1, h1'⟩, ⟨l, h2, -⟩, t', h3, h3'⟩
    exact ⟨⟨t, lazyInit_of_tensor h1, h1'⟩, ⟨[], lazyInit_of_list h2, by simp⟩, t', lazyInit_of_tensor h3, h3'⟩
  refine ⟨⟨fun s R h => named _ _ _ _ (H.uniform s R h), fun s R h => named _ _ _ _ (H.normal s R h), fun s R h => named _ _ _ _ (H.zeros s R h),
    ?_, ?_, ?_, ?_⟩, ?_, ?_⟩
  · intro shapes R A Bs C hs hA hB hC
    obtain ⟨h1, h2, l, h3, -⟩ := H.given shapes R A Bs C hs hA hB hC
    exact ⟨lazyInit_of_tensor h1, lazyInit_of_tensor h2, [], lazyInit_of_list h3, by simp⟩
  · intro shapes R s hs h
    obtain ⟨h1, h2, h3, h4⟩ := H.rankMode shapes R s hs h
    exact ⟨lazyInit_of_error h1 (.inl (by simp)), lazyInit_of_error h2 (.inl (by simp)), lazyInit_of_error h3 (.inl (by simp)),
      lazyInit_of_error h4 (.inl (by simp))⟩
  · intro shapes R A A' Bs Bs' C' hs a b c e f
    obtain ⟨h1, h2, h3, h4, h5, h6, h7⟩ := H.validating shapes R A A' Bs Bs' C' hs a b c e f
    exact ⟨lazyInit_of_error h1 (.inl (by simp)), lazyInit_of_error h2 (.inl (by simp)), lazyInit_of_error h3 (.inl (by simp)),
      lazyInit_of_error h4 (.inl (by simp)), lazyInit_of_error h5 (.inl (by simp)), lazyInit_of_error h6 (.inl (by simp)),
      lazyInit_of_error h7 (.inl (by simp))⟩
  · intro shapes R hs
    obtain ⟨h1, h2⟩ := H.input shapes R hs
    refine ⟨fun i hi mode hm => lazyInit_of_error (h1 i hi mode hm) (.inr ?_), fun mode hm => lazyInit_of_error (h2 mode hm) (.inl (by simp))⟩
    intro h
    have := PyInt.int.inj h
    omega
  · intro k mats R hm hspec
    obtain ⟨r, hr, hsh⟩ := hspec.named "zeros" R 1 rfl (.inr (.inr rfl)) rfl rfl (.inr (.inl rfl))
    obtain ⟨-, ⟨l, hl, -⟩, -⟩ := generate_named (fun _ _ _ => (0 : K)) (fun _ => True) (fun _ _ _ => trivial) mats hm R
    have e : initVar (.str "zeros") (d k) mats (.int R) (.int 1) = .ok (.list l) := by rw [← hl]; rfl
    rw [lazyInit_of_list e] at hr
    cases hr
    rcases hsh with ⟨h, -⟩ | ⟨-, ts, h, h'⟩ | ⟨h, -⟩
    · cases h
    · have := InitRes.list.inj h
      have e0 : ts = [] := by simpa using this.symm
      rw [e0] at h'
      simp at h'
      exact hm h'
    · cases h
  · intro k mats R hm hspec
    have h := hspec.types.2 (.inr (.inr ⟨2, rfl, .inr (.inr rfl), .inl rfl⟩))
    obtain ⟨-, -, t, ht, -⟩ := generate_named (fun _ _ _ => (0 : K)) (fun _ => True) (fun _ _ _ => trivial) mats hm R
    have e : initVar (.str "zeros") (d k) mats (.int R) (.int 2) = .ok (.tensor t) := by rw [← ht]; rfl
    have e2 : lazyInit (d k) .other mats (.int R) (.int 2) = initVar (.str "zeros") (d k) mats (.int R) (.int 2) := rfl
    rw [e2, e] at h
    cases h

end

/-! ### Updates -/

/-- All tests of the updates pass, and those of the helper functions: `inv` and `non` are what the generators of invariant and other matrices return, `ran` is what random
matrices satisfy. -/
structure UpdateTestsPass (c : Cfg) (p : Tested n) (inv non ran : Mat n → Prop) : Prop where
  matsInvariant : ∀ Xs, c.DrawsList Xs → (∀ X ∈ Xs, inv X) → TestMatsInvariant c p Xs
  matsChanges : ∀ Xs, c.DrawsList Xs → (∀ X ∈ Xs, non X) → TestMatsChanges c p Xs
  matsReduces : ∀ Xs, c.DrawsList Xs → (∀ X ∈ Xs, ran X) → TestMatsReduces p Xs
  matInvariant : ∀ X, c.Draws X → inv X → TestMatInvariant c p X
  matChanges : ∀ X, c.Draws X → non X → TestMatChanges c p X
  matReduces : ∀ X, c.Draws X → ran X → TestMatReduces p X
  sub : ∀ Xs, c.DrawsList Xs → TestSub p Xs
  asMat : ∀ X Xs, c.Draws X → c.DrawsList Xs → TestAs p X Xs

/-- The tests of row updates pass. -/
structure RowTestsPass (c : Cfg) (p : Tested n) (inv non : (Fin n → ℝ) → Prop) : Prop where
  invariant : ∀ x, inv x → TestRowInvariant c p x
  changes : ∀ x, non x → TestRowChanges c p x
  reduces : ∀ x, TestRowReduces p x

/-- The object of a convex penalty of the package, with parameters that may depend on the number of rows. The updates do not use the auxiliary variables, so any matrix
can stand for `None`. `subtract_from_aux`, `subtract_from_auxes`, `aux_as_matrix` and `auxes_as_matrices` are those of the base class (`penalties.py` lines 255-334). -/
noncomputable def testedStd (p : (m : ℕ) → StdPen m n) : Tested n where
  mats Xs ρs auxes := .ok (matricesUpdate (fun (X : Mat n) ρ (_ : Option (Mat n)) => Mat.mk X.rows ((p X.rows).mat X.val ρ 0)) Xs ρs auxes)
  mat X ρ _ := .ok ⟨X.rows, (p X.rows).mat X.val ρ 0⟩
  row x ρ _ := match (p 1).row with
    | some f => .ok (f x ρ 0)
    | none => .error .attributeError
  valueMats Xs := (Xs.map fun X => (p X.rows).value X.val).sum
  valueMat X := (p X.rows).value X.val
  valueRow x := (p 1).value fun _ => x
  sub X Y := if h : X.rows = Y.rows then .ok ⟨X.rows, fun i r => X.val i r - Y.val (Fin.cast h i) r⟩ else .error .valueError
  subs Xs Ys := (Xs.zip Ys).mapM fun x => if h : x.1.rows = x.2.rows then .ok ⟨x.1.rows, fun i r => x.1.val i r - x.2.val (Fin.cast h i) r⟩ else .error .valueError
  asMat X := .ok X
  asMats Xs := .ok Xs

theorem matricesUpdate_map {α β γ δ : Type} (f : α → β → γ → δ) (b : β) (g : γ) : ∀ l : List α,
    matricesUpdate f l (List.replicate l.length b) (List.replicate l.length g) = l.map fun x => f x b g
  | [] => rfl
  | x :: l => by
    have := matricesUpdate_map f b g l
    simp only [matricesUpdate] at this ⊢
    simp [List.replicate_succ, this]

theorem mem_zip_map {α β : Type} {l : List α} {f : α → β} {x : α × β} (h : x ∈ l.zip (l.map f)) : x.1 ∈ l ∧ x.2 = f x.1 := by
  obtain ⟨i, hi⟩ := List.mem_iff_getElem?.1 h
  rw [List.getElem?_zip_eq_some, List.getElem?_map] at hi
  obtain ⟨h1, h2⟩ := hi
  rw [h1] at h2
  simp only [Option.map_some, Option.some.injEq] at h2
  exact ⟨List.mem_of_getElem? h1, h2.symm⟩

theorem assertClose_self (c : Cfg) (ha : 0 ≤ c.atol) (hr : 0 ≤ c.rtol) (X : Mat n) : AssertClose c X X := by
  refine ⟨rfl, fun i r => ?_⟩
  simp only [Fin.cast_eq_self, sub_self, abs_zero]
  positivity

theorem testedStd_helpers (p : (m : ℕ) → StdPen m n) (X : Mat n) (Xs : List (Mat n)) : TestSub (testedStd p) Xs ∧ TestAs (testedStd p) X Xs := by
  refine ⟨⟨fun X _ => ⟨⟨X.rows, fun i r => X.val i r - X.val i r⟩, ?_, fun i r => sub_self _⟩,
    (Xs.zip Xs).map fun x => ⟨x.1.rows, fun i r => x.1.val i r - x.1.val i r⟩, ?_, ?_⟩, rfl, Xs, rfl, rfl, ?_⟩
  · simp [testedStd]
  · refine mapM_ok _ _ _ ?_
    rintro ⟨a, b⟩ h
    obtain ⟨i, hi⟩ := List.mem_iff_getElem?.1 h
    rw [List.getElem?_zip_eq_some] at hi
    obtain rfl : a = b := Option.some.inj (hi.1.symm.trans hi.2)
    simp
  · intro Z hZ i r
    obtain ⟨x, -, rfl⟩ := List.mem_map.1 hZ
    exact sub_self _
  · rintro ⟨a, b⟩ h
    obtain ⟨i, hi⟩ := List.mem_iff_getElem?.1 h
    rw [List.getElem?_zip_eq_some] at hi
    exact Option.some.inj (hi.1.symm.trans hi.2)

/-- C109, updates: every convex penalty of the package with accepted parameters passes the tests of `BaseTestFactorMatricesPenalty` and `BaseTestFactorMatrixPenalty` for all
draws, if the generator of invariant matrices returns feasible matrices with penalty 0 and no feasible matrix is within the tolerance of what the generator of other
matrices returns. -/
theorem C109_updates (c : Cfg) (ha : 0 ≤ c.atol) (hr : 0 ≤ c.rtol) (p : (m : ℕ) → StdPen m n) (hp : ∀ m, c.minRows ≤ m → m ≤ c.maxRows → (p m).Valid)
    (inv non : Mat n → Prop) (hinv : ∀ X, c.Draws X → inv X → X.val ∈ (p X.rows).feasible ∧ (p X.rows).value X.val = 0)
    (hnon : ∀ X, c.Draws X → non X → ∀ Z ∈ (p X.rows).feasible, ¬ AllClose c ⟨X.rows, Z⟩ X rfl) : UpdateTestsPass c (testedStd p) inv non fun _ => True := by
  have fixed : ∀ X : Mat n, c.Draws X → inv X → (⟨X.rows, (p X.rows).mat X.val 10 0⟩ : Mat n) = X := by
    intro X hX h
    have := (C79_updates (p X.rows) (hp _ hX.1.1 hX.1.2) (by norm_num : (0 : ℝ) < 10) X.val 0).2.2.2 (hinv X hX h)
    rw [this]
  have moved : ∀ X : Mat n, c.Draws X → non X → AssertNotClose c ⟨X.rows, (p X.rows).mat X.val 10 0⟩ X := by
    intro X hX h
    exact ⟨rfl, hnon X hX h _ ((p X.rows).isProx (hp _ hX.1.1 hX.1.2) (by norm_num : (0 : ℝ) < 10) X.val 0).1⟩
  have less : ∀ X : Mat n, c.Draws X → (p X.rows).value ((p X.rows).mat X.val 10 0) ≤ (p X.rows).value X.val :=
    fun X hX => (C79_updates (p X.rows) (hp _ hX.1.1 hX.1.2) (by norm_num : (0 : ℝ) < 10) X.val 0).1
  have run : ∀ Xs : List (Mat n), (testedStd p).mats Xs (tens Xs) (nones Xs) = .ok (Xs.map fun X => ⟨X.rows, (p X.rows).mat X.val 10 0⟩) := by
    intro Xs
    simp only [testedStd, tens, nones]
    rw [matricesUpdate_map]
  refine ⟨fun Xs hXs h => ⟨_, run Xs, ?_⟩, fun Xs hXs h => ⟨_, run Xs, ?_⟩, fun Xs hXs _ => ⟨_, run Xs, ?_⟩, fun X hX h => ⟨_, rfl, ?_⟩,
    fun X hX h => ⟨_, rfl, moved X hX h⟩, fun X hX _ => ⟨_, rfl, less X hX⟩, fun Xs _ => (testedStd_helpers p ⟨0, 0⟩ Xs).1, fun X Xs _ _ => (testedStd_helpers p X Xs).2⟩
  · rintro ⟨X, Y⟩ hx
    obtain ⟨h1, h2⟩ := mem_zip_map hx
    simp only at h1 h2 ⊢
    rw [h2, fixed X (hXs.2 X h1) (h X h1)]
    exact assertClose_self c ha hr X
  · rintro ⟨X, Y⟩ hx
    obtain ⟨h1, h2⟩ := mem_zip_map hx
    simp only at h1 h2 ⊢
    rw [h2]
    exact moved X (hXs.2 X h1) (h X h1)
  · simp only [testedStd, List.map_map]
    exact List.sum_le_sum fun X hX => less X (hXs.2 X hX)
  · rw [fixed X hX h]
    exact assertClose_self c ha hr X

/-- C109, row updates: the row-wise penalties of the package pass the tests of `BaseTestRowVectorPenalty` for all draws. -/
theorem C109_rows (c : Cfg) (ha : 0 ≤ c.atol) (hr : 0 ≤ c.rtol) (p : (m : ℕ) → StdPen m n) (hp : (p 1).Valid) (hrow : (p 1).row.isSome)
    (inv non : (Fin n → ℝ) → Prop) (hinv : ∀ x, inv x → (fun _ => x) ∈ (p 1).feasible ∧ (p 1).value (fun _ => x) = 0)
    (hnon : ∀ x, non x → ∀ z, (fun _ => z) ∈ (p 1).feasible → ¬ CloseRow c z x) : RowTestsPass c (testedStd p) inv non := by
  have run : ∀ x : Fin n → ℝ, (testedStd p).row x 10 none = .ok ((p 1).mat (fun _ => x) 10 0 0) := by
    intro x
    simp only [testedStd]
    cases h : p 1 <;> rw [h] at hrow <;> first | rfl | cases hrow
  have one : ∀ Z : Matrix (Fin 1) (Fin n) ℝ, Z = fun _ => Z 0 := fun Z => by funext i; rw [Subsingleton.elim i 0]
  refine ⟨fun x h => ⟨_, run x, ?_⟩, fun x h => ⟨_, run x, ?_⟩, fun x => ⟨_, run x, ?_⟩⟩
  · have := (C79_updates (p 1) hp (by norm_num : (0 : ℝ) < 10) (fun _ => x) 0).2.2.2 (hinv x h)
    rw [this]
    intro r
    simp only [sub_self, abs_zero]
    positivity
  · refine hnon x h _ ?_
    rw [← one]
    exact ((p 1).isProx hp (by norm_num : (0 : ℝ) < 10) _ 0).1
  · simp only [testedStd]
    rw [← one]
    exact (C79_updates (p 1) hp (by norm_num : (0 : ℝ) < 10) (fun _ => x) 0).1

/-- `MixinTestHardConstraint` accepts the constraints of the package. -/
theorem C109_hard (p : (m : ℕ) → StdPen m n) (hp : ∀ m, p m = .nonNeg ∨ (∃ lo hi, p m = .box lo hi) ∨ ∃ b nn, p m = .l2Ball b nn) (A : Mat n) (Bs : List (Mat n))
    (C : Mat n) : TestHard (testedStd p) A Bs C := by
  have h : ∀ m X, (p m).value X = 0 := by
    intro m X
    rcases hp m with h | ⟨lo, hi, h⟩ | ⟨b, nn, h⟩ <;> rw [h] <;> rfl
  refine ⟨h _ _, ?_, h _ _⟩
  simp only [testedStd, h]
  simp

/-! ### The generators of `tests/test_penalties.py` -/

/-- `TestNonNegativity` (lines 373-383): uniform entries, and entries -1. -/
def nnInv (X : Mat n) : Prop := ∀ i r, 0 ≤ X.val i r ∧ X.val i r < 1

def nnNon (X : Mat n) : Prop := ∀ i r, X.val i r = -1

/-- `TestBox` (lines 187-198): uniform entries, and these plus 100. -/
def boxNon (X : Mat n) : Prop := ∀ i r, 100 ≤ X.val i r ∧ X.val i r < 101

/-- `TestL2BallConstraint` (lines 201-211): uniform entries divided by the root of the number of rows, and 10 plus (10 plus a uniform entry) divided by that. -/
def ballInv (X : Mat n) : Prop := ∃ U : Matrix (Fin X.rows) (Fin n) ℝ, (∀ i r, 0 ≤ U i r ∧ U i r < 1) ∧ ∀ i r, X.val i r = U i r / √(X.rows : ℝ)

def ballNon (X : Mat n) : Prop := ∃ U : Matrix (Fin X.rows) (Fin n) ℝ, (∀ i r, 0 ≤ U i r ∧ U i r < 1) ∧ ∀ i r, X.val i r = 10 + (U i r + 10) / √(X.rows : ℝ)

/-- C109 for the classes of the test suite with the default tolerances: non-negativity, box constraints and L2 balls pass their own tests for all draws. -/
theorem C109_suite :
    UpdateTestsPass (n := n) {} (testedStd fun _ => .nonNeg) nnInv nnNon (fun _ => True) ∧
    UpdateTestsPass (n := n) {} (testedStd fun _ => .box (some 0) (some 1)) nnInv boxNon (fun _ => True) ∧
    UpdateTestsPass (n := n) {} (testedStd fun _ => .l2Ball 1 false) ballInv ballNon (fun _ => True) := by
  refine ⟨?_, ?_, ?_⟩
  · refine C109_updates {} (by norm_num) (by norm_num) (fun _ => .nonNeg) (fun _ _ _ => trivial) _ _ (fun X _ h => ⟨fun i r => (h i r).1, rfl⟩) ?_
    intro X hX h Z hZ hc
    obtain ⟨⟨h1, -⟩, h2, -⟩ := hX
    have := hc ⟨0, h1⟩ ⟨0, h2⟩
    simp only [Fin.cast_eq_self] at this
    rw [h, show |(-1 : ℝ)| = 1 by norm_num] at this
    have hz : 0 ≤ Z ⟨0, h1⟩ ⟨0, h2⟩ := hZ _ _
    have := (abs_le.1 this).2
    norm_num at this
    linarith
  · refine C109_updates {} (by norm_num) (by norm_num) (fun _ => .box (some 0) (some 1)) (fun _ _ _ => ?_) _ _ (fun X _ h => ⟨?_, rfl⟩) ?_
    · rintro l u ⟨⟩ ⟨⟩; norm_num
    · intro i r
      refine ⟨?_, ?_⟩
      · rintro l ⟨⟩; exact (h i r).1
      · rintro l ⟨⟩; exact (h i r).2.le
    intro X hX h Z hZ hc
    obtain ⟨⟨h1, -⟩, h2, -⟩ := hX
    have := hc ⟨0, h1⟩ ⟨0, h2⟩
    simp only [Fin.cast_eq_self] at this
    obtain ⟨b1, b2⟩ := h ⟨0, h1⟩ ⟨0, h2⟩
    have hz : Z ⟨0, h1⟩ ⟨0, h2⟩ ≤ 1 := (hZ _ _).2 1 rfl
    rw [abs_of_nonneg (by linarith : (0 : ℝ) ≤ X.val ⟨0, h1⟩ ⟨0, h2⟩)] at this
    have := (abs_le.1 this).1
    norm_num at this
    linarith
  · refine C109_updates {} (by norm_num) (by norm_num) (fun _ => .l2Ball 1 false) (fun _ _ _ => one_pos) _ _ ?_ ?_
    · rintro X ⟨⟨h1, -⟩, -⟩ ⟨U, hU, hX⟩
      have h1 : 1 ≤ X.rows := h1
      have hpos : (0 : ℝ) < X.rows := by exact_mod_cast h1
      refine ⟨⟨fun r => ?_, fun h => by cases h⟩, rfl⟩
      rw [Real.sqrt_le_one]
      unfold colSq
      calc ∑ i, X.val i r ^ 2 ≤ ∑ _i : Fin X.rows, 1 / (X.rows : ℝ) := by
            refine Finset.sum_le_sum fun i _ => ?_
            rw [hX, div_pow, Real.sq_sqrt hpos.le]
            have := hU i r
            gcongr
            nlinarith
        _ ≤ 1 := by
            rw [Finset.sum_const, Finset.card_univ, Fintype.card_fin, nsmul_eq_mul]
            field_simp
            exact le_rfl
    · rintro X ⟨⟨h1, -⟩, h2, -⟩ ⟨U, hU, hX⟩ Z ⟨hZ, -⟩ hc
      have h1 : 1 ≤ X.rows := h1
      have hs : 1 ≤ √(X.rows : ℝ) := by
        rw [Real.one_le_sqrt]; exact_mod_cast h1
      have := hc ⟨0, h1⟩ ⟨0, h2⟩
      simp only [Fin.cast_eq_self] at this
      have hu := hU ⟨0, h1⟩ ⟨0, h2⟩
      have hx := hX ⟨0, h1⟩ ⟨0, h2⟩
      set x := X.val ⟨0, h1⟩ ⟨0, h2⟩
      have b1 : 10 ≤ x := by
        rw [hx]
        have : 0 ≤ (U ⟨0, h1⟩ ⟨0, h2⟩ + 10) / √(X.rows : ℝ) := div_nonneg (by linarith) (by linarith)
        linarith
      have b2 : x ≤ 21 := by
        rw [hx]
        have : (U ⟨0, h1⟩ ⟨0, h2⟩ + 10) / √(X.rows : ℝ) ≤ U ⟨0, h1⟩ ⟨0, h2⟩ + 10 := div_le_self (by linarith) hs
        linarith
      have hz : Z ⟨0, h1⟩ ⟨0, h2⟩ ≤ 1 := by
        have e := Real.sqrt_le_one.1 (hZ ⟨0, h2⟩)
        unfold colSq at e
        have e2 := Finset.single_le_sum (f := fun i => Z i ⟨0, h2⟩ ^ 2) (fun i _ => sq_nonneg _) (Finset.mem_univ ⟨0, h1⟩)
        have e3 : Z ⟨0, h1⟩ ⟨0, h2⟩ ^ 2 ≤ 1 := e2.trans e
        nlinarith
      rw [abs_of_nonneg (by linarith : (0 : ℝ) ≤ x)] at this
      have := (abs_le.1 this).1
      norm_num at this
      linarith

/-- The test that an update changes its input fails for every draw that is feasible and has penalty 0. The generators of `TestGeneralizedL2Penalty` (lines 276-277) and
`TestTotalVariationPenalty` (lines 308-309) return uniform draws, among which there are such matrices, for example 0. -/
theorem C109_unlucky (c : Cfg) (ha : 0 ≤ c.atol) (hr : 0 ≤ c.rtol) (p : (m : ℕ) → StdPen m n) (X : Mat n) (hp : (p X.rows).Valid) (hX : X.val ∈ (p X.rows).feasible)
    (h0 : (p X.rows).value X.val = 0) : ¬ TestMatChanges c (testedStd p) X := by
  rintro ⟨out, ho, hne, hc⟩
  have e := (C79_updates (p X.rows) hp (by norm_num : (0 : ℝ) < 10) X.val 0).2.2.2 ⟨hX, h0⟩
  simp only [testedStd, Except.ok.injEq] at ho
  rw [e] at ho
  subst ho
  obtain ⟨_, h⟩ := assertClose_self c ha hr X
  exact hc h

/-- Total variation: the draw 0 is unlucky. -/
theorem C109_unlucky_tv (solver : (m : ℕ) → Matrix (Fin n) (Fin m) ℝ → ℝ → Matrix (Fin n) (Fin m) ℝ) (h : ∀ m, SolvesTV (solver m)) (m : ℕ) :
    ¬ TestMatChanges (n := n) {} (testedStd fun m => .tv (solver m) 1 0) ⟨m, 0⟩ :=
  C109_unlucky {} (by norm_num) (by norm_num) _ _ ⟨h m, one_pos, le_rfl⟩ trivial (by simp [StdPen.value, tvPenalty])

/-! ### Wrong penalties that pass -/

/-- A wrong non-negativity penalty: the update of a matrix replaces negative entries by 1, that of a list returns no matrices. -/
noncomputable def testedWrong : Tested n :=
  { testedStd fun _ => .nonNeg with
    mats := fun _ _ _ => .ok []
    mat := fun X _ _ => .ok ⟨X.rows, fun i r => if X.val i r < 0 then 1 else X.val i r⟩
    row := fun x _ _ => .ok fun r => if x r < 0 then 1 else x r }

/-- C109 is false in the other direction for the updates: a penalty whose matrix update is no projection and whose list update returns nothing passes all tests of
`TestNonNegativity` for all draws. -/
theorem C109_false (hn : 0 < n) : UpdateTestsPass (n := n) {} testedWrong nnInv nnNon (fun _ => True) ∧
    (∀ A Bs C, TestHard (n := n) testedWrong A Bs C) ∧
    RowTestsPass (n := n) {} testedWrong (fun x => ∀ r, 0 ≤ x r ∧ x r < 1) (fun x => ∀ r, x r = -1) ∧
    (∀ Xs ρs auxes, (testedWrong (n := n)).mats Xs ρs auxes = .ok []) ∧
    ∃ X Y : Mat n, (testedWrong (n := n)).mat X 10 none = .ok Y ∧ ∀ h : Y.rows = X.rows, ¬ IsProj {Z | ∀ i r, 0 ≤ Z i r} X.val (fun i => Y.val (Fin.cast h.symm i)) := by
  have fixed : ∀ X : Mat n, nnInv X → (⟨X.rows, fun i r => if X.val i r < 0 then 1 else X.val i r⟩ : Mat n) = X := by
    intro X h
    have : (fun i r => if X.val i r < 0 then 1 else X.val i r) = X.val := by
      funext i r; rw [if_neg (not_lt.2 (h i r).1)]
    rw [this]
  refine ⟨⟨fun Xs _ _ => ⟨[], rfl, by simp⟩, fun Xs _ _ => ⟨[], rfl, by simp⟩, fun Xs _ _ => ⟨[], rfl, ?_⟩, fun X _ h => ⟨_, rfl, ?_⟩, fun X hX h => ⟨_, rfl, rfl, ?_⟩,
    fun X _ _ => ⟨_, rfl, le_rfl⟩, fun Xs _ => (testedStd_helpers (fun _ => .nonNeg) ⟨0, 0⟩ Xs).1, fun X Xs _ _ => (testedStd_helpers (fun _ => .nonNeg) X Xs).2⟩,
    fun A Bs C => C109_hard (fun _ => .nonNeg) (fun _ => .inl rfl) A Bs C, ⟨fun x h => ⟨_, rfl, ?_⟩, fun x h => ⟨_, rfl, ?_⟩, fun x => ⟨_, rfl, le_rfl⟩⟩, fun _ _ _ => rfl, ?_⟩
  · have h := (C109_hard (n := n) (fun _ => .nonNeg) (fun _ => .inl rfl) ⟨0, 0⟩ Xs ⟨0, 0⟩).2.1
    exact le_of_eq (by rw [show (testedWrong (n := n)).valueMats = (testedStd fun _ => .nonNeg).valueMats from rfl, h]; rfl)
  · rw [fixed X h]
    exact assertClose_self {} (by norm_num) (by norm_num) X
  · obtain ⟨⟨h1, -⟩, h2, -⟩ := hX
    intro hc
    have := hc ⟨0, h1⟩ ⟨0, h2⟩
    simp only [Fin.cast_eq_self] at this
    have e : X.val ⟨0, h1⟩ ⟨0, h2⟩ = -1 := h _ _
    simp only [e] at this
    norm_num at this
  · intro r
    simp only
    rw [if_neg (not_lt.2 (h r).1), sub_self, abs_zero]
    positivity
  · intro hc
    have := hc ⟨0, hn⟩
    simp only [h] at this
    norm_num at this
  · refine ⟨⟨1, fun _ _ => -1⟩, _, rfl, fun h hp => ?_⟩
    have := hp.2 0 (fun i r => le_rfl) ?_
    · simp only [frobSq, Matrix.zero_apply] at this
      norm_num at this
      have hn' : (0 : ℝ) < n := by exact_mod_cast hn
      linarith
    · intro e
      have := congrFun (congrFun e 0) ⟨0, hn⟩
      norm_num at this

/-! ### Unit simplex and unimodality -/

/-- A hard constraint whose update may raise, with the other functions of the base class. -/
noncomputable def testedHard (u : (m : ℕ) → Matrix (Fin m) (Fin n) ℝ → ℝ → Except PyErr (Matrix (Fin m) (Fin n) ℝ)) : Tested n :=
  { testedStd fun _ => .nonNeg with
    mats := fun Xs ρs auxes => ((Xs.zip ρs).zip auxes).mapM fun x => (u x.1.1.rows x.1.1.val x.1.2).map fun Z => ⟨x.1.1.rows, Z⟩
    mat := fun X ρ _ => (u X.rows X.val ρ).map fun Z => ⟨X.rows, Z⟩
    row := fun _ _ _ => .error .attributeError }

theorem zip_replicate {α β γ : Type} (b : β) (g : γ) : ∀ l : List α,
    (l.zip (List.replicate l.length b)).zip (List.replicate l.length g) = l.map fun x => ((x, b), g)
  | [] => rfl
  | x :: l => by simp [List.replicate_succ, zip_replicate b g l]

/-- A hard constraint passes if each single update does what the tests ask for. -/
theorem testedHard_passes (c : Cfg) (u : (m : ℕ) → Matrix (Fin m) (Fin n) ℝ → ℝ → Except PyErr (Matrix (Fin m) (Fin n) ℝ)) (inv non ran : Mat n → Prop)
    (hinv : ∀ X, c.Draws X → inv X → ∃ Z, u X.rows X.val 10 = .ok Z ∧ AssertClose c X ⟨X.rows, Z⟩)
    (hnon : ∀ X, c.Draws X → non X → ∃ Z, u X.rows X.val 10 = .ok Z ∧ AssertNotClose c ⟨X.rows, Z⟩ X)
    (hran : ∀ X, c.Draws X → ran X → ∃ Z, u X.rows X.val 10 = .ok Z) : UpdateTestsPass c (testedHard u) inv non ran := by
  classical
  have val : ∀ Xs : List (Mat n), (testedHard u).valueMats Xs = 0 := fun Xs => (C109_hard (n := n) (fun _ => .nonNeg) (fun _ => .inl rfl) ⟨0, 0⟩ Xs ⟨0, 0⟩).2.1
  let g : Mat n → Mat n := fun X => match u X.rows X.val 10 with | .ok Z => ⟨X.rows, Z⟩ | .error _ => X
  have gok : ∀ X Z, u X.rows X.val 10 = .ok Z → g X = ⟨X.rows, Z⟩ := by
    intro X Z h
    simp only [g, h]
  have run : ∀ Xs : List (Mat n), (∀ X ∈ Xs, ∃ Z, u X.rows X.val 10 = .ok Z) → (testedHard u).mats Xs (tens Xs) (nones Xs) = .ok (Xs.map g) := by
    intro Xs h
    simp only [testedHard, tens, nones, zip_replicate]
    rw [mapM_ok _ (fun x => g x.1.1)]
    · rw [List.map_map]; rfl
    · intro x hx
      obtain ⟨X, hX, rfl⟩ := List.mem_map.1 hx
      obtain ⟨Z, hZ⟩ := h X hX
      simp only
      rw [hZ, gok X Z hZ]
      rfl
  have one : ∀ X Z, u X.rows X.val 10 = .ok Z → (testedHard u).mat X 10 none = .ok ⟨X.rows, Z⟩ := by
    intro X Z h
    simp only [testedHard, h]
    rfl
  refine ⟨fun Xs hXs h => ⟨_, run Xs fun X hX => ?_, ?_⟩, fun Xs hXs h => ⟨_, run Xs fun X hX => ?_, ?_⟩, fun Xs hXs h => ⟨_, run Xs fun X hX => hran X (hXs.2 X hX) (h X hX), ?_⟩,
    fun X hX h => ?_, fun X hX h => ?_, fun X hX h => ?_, fun Xs _ => (testedStd_helpers (fun _ => .nonNeg) ⟨0, 0⟩ Xs).1,
    fun X Xs _ _ => (testedStd_helpers (fun _ => .nonNeg) X Xs).2⟩
  · obtain ⟨Z, h1, -⟩ := hinv X (hXs.2 X hX) (h X hX)
    exact ⟨Z, h1⟩
  · rintro ⟨X, Y⟩ hx
    obtain ⟨h1, h2⟩ := mem_zip_map hx
    simp only at h1 h2 ⊢
    obtain ⟨Z, h3, h4⟩ := hinv X (hXs.2 X h1) (h X h1)
    rw [h2, gok X Z h3]
    exact h4
  · obtain ⟨Z, h1, -⟩ := hnon X (hXs.2 X hX) (h X hX)
    exact ⟨Z, h1⟩
  · rintro ⟨X, Y⟩ hx
    obtain ⟨h1, h2⟩ := mem_zip_map hx
    simp only at h1 h2 ⊢
    obtain ⟨Z, h3, h4⟩ := hnon X (hXs.2 X h1) (h X h1)
    rw [h2, gok X Z h3]
    exact h4
  · rw [val, val]
  · obtain ⟨Z, h3, h4⟩ := hinv X hX h
    exact ⟨_, one X Z h3, h4⟩
  · obtain ⟨Z, h3, h4⟩ := hnon X hX h
    exact ⟨_, one X Z h3, h4⟩
  · obtain ⟨Z, h3⟩ := hran X hX h
    exact ⟨_, one X Z h3, le_rfl⟩

/-- `TestUnitSimplex` (lines 231-244): columns of uniform draws divided by their sums, and these plus 10. -/
def simplexNon (X : Mat n) : Prop := ∃ Y ∈ SimplexSet X.rows n, ∀ i r, X.val i r = 10 + Y i r

/-- C109 for the unit simplex, with the tolerances of its test class: it passes for all draws of the generators and random matrices with entries up to 1e18. -/
theorem C109_simplex : UpdateTestsPass (n := n) { rtol := 1 / 10 ^ 5, atol := 1 / 10 ^ 8 } (testedHard fun _ X _ => simplexMat X) (fun X => X.val ∈ SimplexSet X.rows n)
    simplexNon fun X => ∀ i r, |X.val i r| ≤ 10 ^ 18 := by
  have le1 : ∀ (m : ℕ) (Y : Matrix (Fin m) (Fin n) ℝ), Y ∈ SimplexSet m n → ∀ i r, Y i r ≤ 1 := by
    intro m Y hY i r
    have e := Finset.single_le_sum (f := fun i => Y i r) (fun i _ => hY.1 i r) (Finset.mem_univ i)
    exact e.trans (hY.2 r).le
  have tol : ∀ b : ℝ, b ≤ 11 → (2 / 10 ^ 12 + 4 / 2 ^ 52 * (11 / 10 * (b + 1 + 1 / 10 ^ 5)) : ℝ) ≤ 1 / 10 ^ 8 := by
    intro b hb
    have : (2 / 10 ^ 12 + 4 / 2 ^ 52 * (11 / 10 * (11 + 1 + 1 / 10 ^ 5)) : ℝ) ≤ 1 / 10 ^ 8 := by norm_num
    refine le_trans ?_ this
    gcongr
  refine testedHard_passes _ _ _ _ _ ?_ ?_ ?_
  · rintro X ⟨⟨h1, -⟩, -⟩ hX
    have h1 : 0 < X.rows := h1
    have hb : ∀ i r, |X.val i r| ≤ 1 := fun i r => abs_le.2 ⟨by linarith [hX.1 i r], le1 _ _ hX i r⟩
    obtain ⟨Z, hZ⟩ := C19_never_fails_partial h1 X.val fun i r => (hb i r).trans (by norm_num)
    refine ⟨Z, hZ, rfl, fun i r => ?_⟩
    have := C79_simplex h1 X.val Z hX hZ 1 hb i r
    rw [abs_sub_comm]
    simp only [Fin.cast_eq_self]
    have h0 : (0 : ℝ) ≤ 1 / 10 ^ 5 * |Z i r| := by positivity
    linarith [tol 1 (by norm_num)]
  · rintro X ⟨⟨h1, -⟩, h2, -⟩ ⟨Y, hY, hX⟩
    have h1 : 0 < X.rows := h1
    have hb : ∀ i r, |X.val i r| ≤ 11 := fun i r => by
      rw [hX]
      exact abs_le.2 ⟨by linarith [hY.1 i r], by linarith [le1 _ _ hY i r]⟩
    obtain ⟨Z, hZ⟩ := C19_never_fails_partial h1 X.val fun i r => (hb i r).trans (by norm_num)
    refine ⟨Z, hZ, rfl, fun hc => ?_⟩
    obtain ⟨-, -, P, hP, hZP⟩ := C19_accuracy h1 X.val Z hZ 11 hb
    have := hc ⟨0, h1⟩ ⟨0, h2⟩
    simp only [Fin.cast_eq_self] at this
    have e1 := (abs_le.1 (hZP ⟨0, h1⟩ ⟨0, h2⟩)).2
    have e2 := le1 _ _ hP.1 ⟨0, h1⟩ ⟨0, h2⟩
    have e3 := hb ⟨0, h1⟩ ⟨0, h2⟩
    have e4 := hX ⟨0, h1⟩ ⟨0, h2⟩
    have e5 := hY.1 ⟨0, h1⟩ ⟨0, h2⟩
    have e6 := (abs_le.1 this).1
    have e7 : (1 / 10 ^ 5 * |X.val ⟨0, h1⟩ ⟨0, h2⟩| : ℝ) ≤ 1 := by
      have : (1 / 10 ^ 5 * |X.val ⟨0, h1⟩ ⟨0, h2⟩| : ℝ) ≤ 1 / 10 ^ 5 * 11 := by gcongr
      linarith
    have e8 := tol 11 le_rfl
    have e9 : (1 / 10 ^ 8 : ℝ) ≤ 1 := by norm_num
    linarith
  · rintro X ⟨⟨h1, -⟩, -⟩ hX
    exact C19_never_fails_partial h1 X.val hX

/-- `TestUnimodality` (lines 408-412): uniform entries, with the second row set to -1. -/
def uniNon (X : Mat n) : Prop := ∀ i r, if i.val = 1 then X.val i r = -1 else 0 ≤ X.val i r ∧ X.val i r < 1

/-- C109 for unimodality with at least three rows: it passes for all draws, with unimodal columns (for example the densities of the test class) as invariant matrices. -/
theorem C109_unimodal : UpdateTestsPass (n := n) { minRows := 3 } (testedHard fun m X ρ => .ok (unimodalMat false m n X ρ 0))
    (fun X => ∀ r, IsUnimodal fun i => X.val i r) uniNon fun _ => True := by
  refine testedHard_passes _ _ _ _ _ ?_ ?_ fun X _ _ => ⟨_, rfl⟩
  · rintro X ⟨⟨h1, -⟩, h2, -⟩ hX
    have h1 : 3 ≤ X.rows := h1
    refine ⟨_, rfl, ?_⟩
    rw [(C79_unimodal false (by omega) h2 10 X.val 0).2 fun r => ⟨hX r, fun h => by cases h⟩]
    exact assertClose_self _ (by norm_num) (by norm_num) X
  · rintro X ⟨⟨h1, -⟩, h2, -⟩ hX
    have h1 : 3 ≤ X.rows := h1
    have h2 : 0 < n := h2
    refine ⟨_, rfl, rfl, fun hc => ?_⟩
    obtain ⟨hu, -⟩ := unimodalMat_nearest false (by omega) h2 10 X.val 0
    set Z := unimodalMat false X.rows n X.val 10 0
    have near : ∀ i : Fin X.rows, |X.val i ⟨0, h2⟩| ≤ 1 → |Z i ⟨0, h2⟩ - X.val i ⟨0, h2⟩| ≤ 1 / 10 := by
      intro i hi
      have := hc i ⟨0, h2⟩
      simp only [Fin.cast_eq_self] at this
      refine this.trans ?_
      have : (1 / 10 ^ 6 * |X.val i ⟨0, h2⟩| : ℝ) ≤ 1 / 10 ^ 6 * 1 := by gcongr
      norm_num at this ⊢
      linarith
    have f0 : 0 ≤ X.val ⟨0, by omega⟩ ⟨0, h2⟩ ∧ X.val ⟨0, by omega⟩ ⟨0, h2⟩ < 1 := by simpa using hX ⟨0, by omega⟩ ⟨0, h2⟩
    have f1 : X.val ⟨1, by omega⟩ ⟨0, h2⟩ = -1 := by simpa using hX ⟨1, by omega⟩ ⟨0, h2⟩
    have f2 : 0 ≤ X.val ⟨2, by omega⟩ ⟨0, h2⟩ ∧ X.val ⟨2, by omega⟩ ⟨0, h2⟩ < 1 := by simpa using hX ⟨2, by omega⟩ ⟨0, h2⟩
    have g0 := abs_le.1 (near ⟨0, by omega⟩ (abs_le.2 ⟨by linarith, by linarith⟩))
    have g1 := abs_le.1 (near ⟨1, by omega⟩ (by rw [f1]; norm_num))
    have g2 := abs_le.1 (near ⟨2, by omega⟩ (abs_le.2 ⟨by linarith, by linarith⟩))
    obtain ⟨t, ht1, ht2⟩ := (hu ⟨0, h2⟩).1
    rcases le_or_gt 1 t.val with h | h
    · have := ht1 ⟨0, by omega⟩ ⟨1, by omega⟩ (Fin.mk_le_mk.2 (by omega)) (Fin.le_def.2 h)
      simp only at this
      linarith
    · have := ht2 ⟨1, by omega⟩ ⟨2, by omega⟩ (Fin.le_def.2 h.le) (Fin.mk_le_mk.2 (by omega))
      simp only at this
      linarith

/-- The draws exist: `C109_suite` applies to a 2 × 3 matrix for each generator. -/
example : Cfg.Draws (n := 3) {} ⟨2, fun _ _ => -1⟩ ∧ nnNon (n := 3) ⟨2, fun _ _ => -1⟩ ∧ nnInv (n := 3) ⟨2, fun _ _ => 1 / 2⟩ ∧
    boxNon (n := 3) ⟨2, fun _ _ => 100⟩ ∧ ballInv (n := 3) ⟨2, fun _ _ => 0 / √((2 : ℕ) : ℝ)⟩ ∧ ballNon (n := 3) ⟨2, fun _ _ => 10 + (0 + 10) / √((2 : ℕ) : ℝ)⟩ ∧
    simplexNon (n := 3) ⟨2, fun _ _ => 10 + 1 / 2⟩ ∧ uniNon (n := 3) ⟨3, fun i _ => if i.val = 1 then -1 else 0⟩ :=
  ⟨⟨⟨by norm_num, by norm_num⟩, by norm_num, by norm_num⟩, fun _ _ => rfl, fun _ _ => by norm_num, fun _ _ => by norm_num,
    ⟨fun _ _ => 0, fun _ _ => by norm_num, fun _ _ => rfl⟩, ⟨fun _ _ => 0, fun _ _ => by norm_num, fun _ _ => rfl⟩,
    ⟨fun _ _ => 1 / 2, ⟨fun _ _ => by norm_num, fun _ => by norm_num⟩, fun _ _ => rfl⟩, fun i _ => by by_cases h : i.val = 1 <;> simp [h]⟩

end Verif.Props
