import Verif.CMF.Object
import Verif.Props.CMF

/-!
# C71: a factorization object behaves as the pair of its weights and factors
-/

set_option linter.unusedSectionVars false

namespace Verif.Props

open Verif.CMF Verif.Spec

/-! ### Specification -/

section
variable {K : Type}

/-- The pair an object stands for. -/
def pairOf (o : Obj K) : CMFArg K := ⟨o.weights, o.factors.1, o.factors.2.1, o.factors.2.2⟩

/-- An index that Python compares equal to the integer `n`. -/
inductive Equals (n : ℤ) : Item → Prop
  | int : Equals n (.int n)
  | bool (b : Bool) : (b = true ∧ n = 1 ∨ b = false ∧ n = 0) → Equals n (.bool b)
  | float (q : ℚ) : q = n → Equals n (.float q)

/-! ### Helper lemmas -/

theorem eq_iff (n : ℤ) (i : Item) : i.eq n = true ↔ Equals n i := by
  cases i with
  | int m =>
    simp only [Item.eq, decide_eq_true_eq]
    exact ⟨fun h => h ▸ .int, fun h => by cases h; rfl⟩
  | bool b =>
    simp only [Item.eq, decide_eq_true_eq]
    constructor
    · intro h
      refine .bool b ?_
      cases b
      · right; exact ⟨rfl, by simpa using h.symm⟩
      · left; exact ⟨rfl, by simpa using h.symm⟩
    · rintro (_ | ⟨_, ⟨rfl, rfl⟩ | ⟨rfl, rfl⟩⟩) <;> rfl
  | float q =>
    simp only [Item.eq, decide_eq_true_eq]
    exact ⟨fun h => .float q h, fun h => by cases h; assumption⟩
  | other => simp only [Item.eq, Bool.false_eq_true, false_iff]; intro h; cases h

theorem new_ok {x : CMFArg K} {o : Obj K} : Obj.new x = .ok o ↔
    ∃ c, construct x = .ok c ∧ o = ⟨x.weights, (x.A, x.Bs, x.C), c.shape, c.rank⟩ := by
  unfold Obj.new
  rw [bind_ok]
  refine exists_congr fun c => and_congr_right fun _ => ?_
  constructor
  · intro h; cases h; rfl
  · rintro rfl; rfl

theorem pairOf_new {x : CMFArg K} {o : Obj K} (h : Obj.new x = .ok o) : pairOf o = x := by
  obtain ⟨c, -, rfl⟩ := new_ok.mp h
  rfl

theorem mapM_asTensor (l : List (NDArray K)) : (l.map PyVal.tensor).mapM PyVal.asTensor = .ok l := by
  induction l with
  | nil => rfl
  | cons a l ih =>
    rw [List.map_cons, List.mapM_cons, ih]
    rfl

/-- Reading validated components gives the components of the constructor. -/
theorem read_of {x : CMFArg K} {c : Fact K} (h : construct x = .ok c) : x.read = .ok { c with shape := [], rank := 0 } := by
  obtain ⟨g, -⟩ := construct_ok.mp h
  obtain ⟨w, A, B, C⟩ := x
  obtain ⟨hw, hA, -, hC, -, hB, -⟩ := g
  have hA : A = _ := hA
  have hC : C = _ := hC
  subst hA hC
  have hi : B.iter = .ok (c.Bs.map .tensor) := iter_ok.mpr hB
  unfold CMFArg.read
  rcases hw with ⟨h1, h2⟩ | ⟨t, h1, h2, -⟩ <;> have h1 : w = _ := h1 <;> subst h1 <;>
    simp only [PyVal.asTensor, pure_eq_ok, ok_bind, hi, mapM_asTensor, h2]

end

variable {K : Type} [Field K]

theorem prepare_pair {x : CMFArg K} {c : Fact K} (h : construct x = .ok c) (validate : Bool) :
    (Input.pair x).prepare validate = .ok { c with shape := [], rank := 0 } := by
  cases validate with
  | false => exact read_of h
  | true =>
    simp only [Input.prepare, Input.check, if_true, Input.unpack, ok_bind, Obj.new, h, Obj.iter, pure_eq_ok]
    exact read_of h

theorem prepare_obj {x : CMFArg K} {o : Obj K} (h : Obj.new x = .ok o) (validate : Bool) :
    (Input.obj o).prepare validate = (Input.pair x).prepare validate := by
  obtain ⟨c, hc, rfl⟩ := new_ok.mp h
  cases validate with
  | false => rfl
  | true => simp only [Input.prepare, Input.check, if_true, Input.unpack, ok_bind, Obj.new, hc, Obj.iter, pure_eq_ok]

/-! ### C71 -/

/-- C71, sequence protocol: for every object, iteration gives its weights and then its factors, the length is the number of parts, indexing with `n ≥ 0` (or a value
equal to `n`) gives part `n` or raises IndexError exactly if there is none, and other indices, also negative ones, raise IndexError. -/
theorem C71_sequence {K : Type} (o : Obj K) :
    o.iter = [.weights o.weights, .factors o.factors] ∧ o.len = o.iter.length ∧
    (∀ (n : ℕ) i, Equals n i → (∀ p, o.getItem i = .ok p ↔ o.iter[n]? = some p) ∧ (o.getItem i = .error .indexError ↔ o.len ≤ n)) ∧
    ∀ i, (∀ n : ℕ, ¬ Equals n i) → o.getItem i = .error .indexError := by
  refine ⟨rfl, rfl, fun n i h => ?_, fun i h => ?_⟩
  · have h0 : i.eq 0 = true ↔ n = 0 := by
      rw [eq_iff]
      constructor
      · intro h'
        cases h <;> cases h'
        · rfl
        · rename_i h1 h2; rcases h1 with ⟨rfl, h1⟩ | ⟨rfl, h1⟩ <;> rcases h2 with ⟨h2, h3⟩ | ⟨h2, h3⟩ <;> first | omega | cases h2
        · rename_i q h1 h2; rw [h1] at h2; exact_mod_cast h2
      · rintro rfl; exact h
    have h1 : i.eq 1 = true ↔ n = 1 := by
      rw [eq_iff]
      constructor
      · intro h'
        cases h <;> cases h'
        · rfl
        · rename_i h1 h2; rcases h1 with ⟨rfl, h1⟩ | ⟨rfl, h1⟩ <;> rcases h2 with ⟨h2, h3⟩ | ⟨h2, h3⟩ <;> first | omega | cases h2
        · rename_i q h1 h2; rw [h1] at h2; exact_mod_cast h2
      · rintro rfl; exact h
    unfold Obj.getItem Obj.iter Obj.len
    match n with
    | 0 => simp [h0.mpr rfl]
    | 1 => simp [h1.mpr rfl, show i.eq 0 = false by rw [Bool.eq_false_iff]; intro h; simpa using h0.mp h]
    | n + 2 =>
      rw [if_neg (by rw [h0]; omega), if_neg (by rw [h1]; omega)]
      simp
  · unfold Obj.getItem
    rw [if_neg, if_neg]
    · rw [eq_iff]; exact h 1
    · rw [eq_iff]; exact h 0

/-- C71, construction: an object is accepted by the constructor and gives an equal object; so does its pair. -/
theorem C71_construct {K : Type} {x : CMFArg K} {o : Obj K} (h : Obj.new x = .ok o) :
    (Input.obj o).unpack = .ok (pairOf o) ∧ Obj.new (pairOf o) = .ok o ∧ pairOf o = x := by
  have := pairOf_new h
  refine ⟨rfl, ?_, this⟩
  rw [this]; exact h

/-- C71, conversions: for a valid factorization, the method of the object, the function applied to the object and the function applied to the pair, with or without
validation, all give the same result. -/
theorem C71_conversions {x : CMFArg K} {o : Obj K} (h : Obj.new x = .ok o) (v : Input K) (hv : v = .obj o ∨ v = .pair x) (validate : Bool) :
    (∀ i, cmfToMatrix v i validate = o.toMatrix i ∧ cmfToSlice v i validate = o.toMatrix i) ∧
    (cmfToMatrices v validate = o.toMatrices ∧ cmfToSlices v validate = o.toMatrices) ∧
    cmfToTensor v validate = o.toTensor ∧
    (∀ mode pad, cmfToUnfolded v mode pad validate = o.toUnfolded mode pad) ∧
    ∀ pad, cmfToVec v pad validate = o.toVec pad := by
  obtain ⟨c, hc, ho⟩ := new_ok.mp h
  have hp : v.prepare validate = .ok { c with shape := [], rank := 0 } := by
    rcases hv with rfl | rfl
    · rw [prepare_obj h]; exact prepare_pair hc _
    · exact prepare_pair hc _
  have hp' : (Input.obj o).prepare true = .ok { c with shape := [], rank := 0 } := by
    rw [prepare_obj h]; exact prepare_pair hc _
  have hu : v.unpack = .ok x := by
    rcases hv with rfl | rfl
    · rw [ho]; rfl
    · rfl
  have hu' : (Input.obj o).unpack = .ok x := by rw [ho]; rfl
  have h1 : ∀ i, cmfToMatrix v i validate = cmfToMatrix (.obj o) i true := fun i => by simp only [cmfToMatrix, hp, hp']
  have h2 : cmfToMatrices v validate = cmfToMatrices (.obj o) true := by simp only [cmfToMatrices, hp, hp']
  have h3 : cmfToTensor v validate = cmfToTensor (.obj o) true := by simp only [cmfToTensor, hu, hu', h2]
  refine ⟨fun i => ⟨h1 i, h1 i⟩, ⟨h2, h2⟩, h3, fun mode pad => ?_, fun pad => ?_⟩
  · simp only [cmfToUnfolded, Obj.toUnfolded, h2, h3]
  · simp only [cmfToVec, Obj.toVec, h2, h3]

/-- C71, conversions: what they return is the result of the modelled computation on the validated components (to which C06, C08 and C09 apply), and an invalid
pair raises the exception of the constructor. -/
theorem C71_validated (x : CMFArg K) :
    (∀ c, construct x = .ok c → ∃ o, Obj.new x = .ok o ∧ (∀ i, o.toMatrix i = toMatrix c i) ∧ o.toMatrices = toMatrices c ∧ o.toTensor = toTensor c ∧
      (∀ mode pad, o.toUnfolded mode pad = toUnfolded c mode pad) ∧ ∀ pad, o.toVec pad = toVec c pad) ∧
    ∀ e, construct x = .error e → Obj.new x = .error e ∧ (∀ i, cmfToMatrix (.pair x) i = .error e) ∧ cmfToMatrices (.pair x) = .error e ∧
      cmfToTensor (.pair x) = .error e := by
  constructor
  · intro c hc
    have hn : Obj.new x = .ok ⟨x.weights, (x.A, x.Bs, x.C), c.shape, c.rank⟩ := new_ok.mpr ⟨c, hc, rfl⟩
    refine ⟨_, hn, ?_⟩
    have hp := prepare_obj hn true
    rw [prepare_pair hc] at hp
    have hm : cmfToMatrices (.obj ⟨x.weights, (x.A, x.Bs, x.C), c.shape, c.rank⟩) true = toMatrices c := by
      simp only [cmfToMatrices, hp, ok_bind]; rfl
    have ht : cmfToTensor (.obj ⟨x.weights, (x.A, x.Bs, x.C), c.shape, c.rank⟩) true = toTensor c := by
      simp only [cmfToTensor, hm, toTensor]
      have : (Input.obj (⟨x.weights, (x.A, x.Bs, x.C), c.shape, c.rank⟩ : Obj K)).unpack = .ok x := rfl
      rw [this, ok_bind, read_of hc]
      rfl
    refine ⟨fun i => ?_, hm, ht, fun mode pad => ?_, fun pad => ?_⟩
    · simp only [Obj.toMatrix, cmfToMatrix, hp, ok_bind]; rfl
    · simp only [Obj.toUnfolded, cmfToUnfolded, hm, ht, toUnfolded]
    · simp only [Obj.toVec, cmfToVec, hm, ht, toVec]
  · intro e he
    have hn : Obj.new x = .error e := by simp only [Obj.new, he, error_bind]
    have hp : (Input.pair x).prepare true = .error e := by
      simp only [Input.prepare, Input.check, if_true, Input.unpack, ok_bind, hn, error_bind]
    have hm : cmfToMatrices (.pair x) true = .error e := by simp only [cmfToMatrices, hp, error_bind]
    refine ⟨hn, fun i => by simp only [cmfToMatrix, hp, error_bind], hm, ?_⟩
    simp only [cmfToTensor, Input.unpack, ok_bind, hm, error_bind]

/-- C71 applies: two matrices with different numbers of rows and weights. -/
example : ∃ o, Obj.new (K := ℚ) ⟨.tensor (.mk1 2 fun r => r + 1), .tensor (.mk2 2 2 fun i r => i + r),
    .list [.tensor (.mk2 3 2 fun j r => j * r), .tensor (.mk2 1 2 fun _ _ => 5)], .tensor (.mk2 4 2 fun k r => k - r)⟩ = .ok o ∧
    (∃ M, o.toMatrix (-1) = .ok M ∧ M.shape = [1, 4]) ∧ o.getItem (.int (-1)) = .error .indexError ∧ ∃ w, o.getItem (.bool false) = .ok (.weights w) :=
  ⟨_, rfl, ⟨_, rfl, rfl⟩, rfl, _, rfl⟩

end Verif.Props
