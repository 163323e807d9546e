import Verif.ADMM.Contracts
import Verif.Props.Penalties
import Verif.Props.GenL2
import Verif.Props.TV

/-!
# The convex penalties of the package, as penalties on the three modes
-/

namespace Verif.ADMM

open Verif.Penalties Verif.Spec Verif.Props Finset Matrix

variable {I K R n m : ℕ} {J : Fin I → ℕ}

/-- The penalties of `penalties.py` with a convex set and function, for matrices with `m` rows and `R` columns:
`NonNegativity` (488-508), `Box` (511-542), `L1Penalty` (545-592), `L2Ball` (844-925), `GeneralizedL2Penalty` (595-747),
`TotalVariationPenalty` (750-841). -/
inductive StdPen (m R : ℕ)
  | nonNeg
  | box (lo hi : Option ℝ)
  | l1 (γ : ℝ) (nonNeg : Bool)
  | l2Ball (b : ℝ) (nonNeg : Bool)
  | genL2 (M : Matrix (Fin m) (Fin m) ℝ) (d : SVD m m m)
  | tv (solver : Matrix (Fin R) (Fin m) ℝ → ℝ → Matrix (Fin R) (Fin m) ℝ) (α β : ℝ)

/-- Matrix update. -/
noncomputable def StdPen.mat : StdPen m R → MatUpdate m R
  | .nonNeg => nonNegMat m R
  | .box lo hi => boxMat lo hi m R
  | .l1 γ nn => l1Mat γ nn m R
  | .l2Ball b nn => l2BallMat b nn m R
  | .genL2 _ d => genL2Mat d R
  | .tv solver α β => tvMat solver α β

/-- Row update, for the subclasses of `RowVectorPenalty`. -/
noncomputable def StdPen.row : StdPen m R → Option (RowUpdate R)
  | .nonNeg => some (nonNegRow R)
  | .box lo hi => some (boxRow lo hi R)
  | .l1 γ nn => some (l1Row γ nn R)
  | _ => none

/-- `penalty` of a matrix. -/
noncomputable def StdPen.value : StdPen m R → Matrix (Fin m) (Fin R) ℝ → ℝ
  | .l1 γ _ => l1Penalty γ
  | .genL2 M _ => genL2Penalty M
  | .tv _ α β => tvPenalty α β
  | _ => hardPenalty

/-- As a penalty on mode 0. -/
noncomputable def StdPen.toA (p : StdPen I R) : PenA I R := ⟨p.mat, p.row, p.value⟩

/-- As a penalty on mode 2. -/
noncomputable def StdPen.toC (p : StdPen K R) : PenC K R := ⟨p.mat, p.value⟩

/-- As a penalty on mode 1; in the code the same object is used for all matrices. -/
noncomputable def StdPen.toB (p : (i : Fin I) → StdPen (J i) R) : PenB I R J := .ofMat (fun i => (p i).mat) fun Z => ∑ i, (p i).value (Z i)

/-! ### What they are meant to be -/

/-- The constraint set. -/
def StdPen.feasible : StdPen m R → Set (Matrix (Fin m) (Fin R) ℝ)
  | .nonNeg => {Z | ∀ i r, 0 ≤ Z i r}
  | .box lo hi => {Z | ∀ i r, (∀ l, lo = some l → l ≤ Z i r) ∧ (∀ u, hi = some u → Z i r ≤ u)}
  | .l1 _ nn => {Z | nn → ∀ i r, 0 ≤ Z i r}
  | .l2Ball b nn => {Z | (∀ r, √(colSq Z r) ≤ b) ∧ (nn → ∀ i r, 0 ≤ Z i r)}
  | _ => Set.univ

/-- The penalty function. -/
def StdPen.fn : StdPen m R → Matrix (Fin m) (Fin R) ℝ → ℝ
  | .l1 γ _ => fun Z => γ * absSum Z
  | .genL2 M _ => fun Z => ∑ r, ∑ i, ∑ j, Z i r * M i j * Z j r
  | .tv _ α β => fun Z => α * totalVar Z + β * absSum Z
  | _ => fun _ => 0

/-- The parameters are those accepted by the constructors and documented, and the external code meets its contract. -/
def StdPen.Valid : StdPen m R → Prop
  | .nonNeg => True
  | .box lo hi => ∀ l u, lo = some l → hi = some u → l ≤ u
  | .l1 γ _ => 0 ≤ γ
  | .l2Ball b _ => 0 < b
  | .genL2 M d => M.transpose = M ∧ (∀ x : Fin m → ℝ, 0 ≤ ∑ i, ∑ j, x i * M i j * x j) ∧ d.Valid M
  | .tv solver α β => SolvesTV solver ∧ 0 < α ∧ 0 ≤ β

/-! ### They are -/

theorem StdPen.isProx (p : StdPen m R) (h : p.Valid) {ρ : ℝ} (hρ : 0 < ρ) (Y aux : Matrix (Fin m) (Fin R) ℝ) :
    IsProx p.feasible p.fn ρ Y (p.mat Y ρ aux) := by
  cases p with
  | nonNeg => exact (isProj_iff_isProx hρ).2 (C15_nonneg Y ρ aux)
  | box lo hi => exact (isProj_iff_isProx hρ).2 (C16_box lo hi h Y ρ aux)
  | l1 γ nn =>
    have h1 := C17_l1 (((C17_penalty (m := m) (n := R) γ).1 γ).2 ⟨rfl, h⟩) hρ nn Y aux
    have e : l1Penalty γ = fun Z : Matrix (Fin m) (Fin R) ℝ => γ * absSum Z := funext (C17_penalty γ).2.1
    rw [e] at h1
    exact h1
  | l2Ball b nn => exact (isProj_iff_isProx hρ).2 (C18_l2ball ((C18_init b b).2 ⟨rfl, h⟩) nn Y ρ aux)
  | genL2 M d => exact C20_prox M h.1 h.2.1 d h.2.2 ρ hρ Y aux
  | tv solver α β => exact C21_prox solver h.1 α β α β (((C21_penalty (m := m) (n := R) α β).2 true).2 ⟨rfl, h.2⟩) ρ hρ Y aux

theorem StdPen.value_eq (p : StdPen m R) (h : p.Valid) (Z : Matrix (Fin m) (Fin R) ℝ) : p.value Z = p.fn Z := by
  cases p with
  | nonNeg => rfl
  | box lo hi => rfl
  | l1 γ nn => exact (C17_penalty γ).2.1 Z
  | l2Ball b nn => rfl
  | genL2 M d => exact (C20_penalty M h.2.1 Z).1
  | tv solver α β => exact (C21_penalty α β).1 Z

/-! Convexity. -/

theorem convexOn_sum' {V ι : Type} [AddCommGroup V] [Module ℝ V] {S : Set V} (s : Finset ι) {f : ι → V → ℝ} (hS : Convex ℝ S)
    (h : ∀ i ∈ s, ConvexOn ℝ S (f i)) : ConvexOn ℝ S fun x => ∑ i ∈ s, f i x := by
  classical
  induction s using Finset.induction_on with
  | empty => simpa using convexOn_const 0 hS
  | insert a s ha ih =>
    simp only [sum_insert ha]
    exact (h a (mem_insert_self _ _)).add (ih fun i hi => h i (mem_insert_of_mem hi))

theorem convexOn_abs_lin {V : Type} [AddCommGroup V] [Module ℝ V] (l : V →ₗ[ℝ] ℝ) {S : Set V} (hS : Convex ℝ S) :
    ConvexOn ℝ S fun x => |l x| := by
  refine ⟨hS, fun x _ y _ a b ha hb _ => ?_⟩
  simp only [map_add, map_smul, smul_eq_mul]
  refine (abs_add_le _ _).trans ?_
  rw [abs_mul, abs_mul, abs_of_nonneg ha, abs_of_nonneg hb]

/-- An entry as a linear function. -/
def entryLin (i : Fin m) (r : Fin R) : Matrix (Fin m) (Fin R) ℝ →ₗ[ℝ] ℝ where
  toFun Z := Z i r
  map_add' _ _ := rfl
  map_smul' _ _ := rfl

theorem convexOn_absSum {S : Set (Matrix (Fin m) (Fin R) ℝ)} (hS : Convex ℝ S) : ConvexOn ℝ S absSum :=
  convexOn_sum' _ hS fun i _ => convexOn_sum' _ hS fun r _ => convexOn_abs_lin (entryLin i r) hS

theorem convexOn_totalVar {S : Set (Matrix (Fin m) (Fin R) ℝ)} (hS : Convex ℝ S) : ConvexOn ℝ S totalVar :=
  convexOn_sum' _ hS fun r _ => convexOn_sum' _ hS fun i _ =>
    convexOn_abs_lin (entryLin ⟨i + 1, by omega⟩ r - entryLin ⟨i, by omega⟩ r) hS

theorem convexOn_quad {M : Matrix (Fin m) (Fin m) ℝ} (hs : M.transpose = M) (hp : ∀ x : Fin m → ℝ, 0 ≤ ∑ i, ∑ j, x i * M i j * x j) :
    ConvexOn ℝ Set.univ fun Z : Matrix (Fin m) (Fin R) ℝ => ∑ r, ∑ i, ∑ j, Z i r * M i j * Z j r := by
  refine convexOn_sum' _ convex_univ fun r _ => ⟨convex_univ, fun x _ y _ a b ha hb hab => ?_⟩
  have key := hp fun i => x i r - y i r
  simp only [smul_eq_mul, Matrix.add_apply, Matrix.smul_apply]
  have hsym : ∑ i, ∑ j, y i r * M i j * x j r = ∑ i, ∑ j, x i r * M i j * y j r := by
    rw [sum_comm]
    refine sum_congr rfl fun i _ => sum_congr rfl fun j _ => ?_
    rw [show M j i = M i j from congrFun (congrFun hs i) j]
    ring
  have e1 : ∑ i, ∑ j, (x i r - y i r) * M i j * (x j r - y j r) = ∑ i, ∑ j, x i r * M i j * x j r
      - 2 * ∑ i, ∑ j, x i r * M i j * y j r + ∑ i, ∑ j, y i r * M i j * y j r := by
    have : ∑ i, ∑ j, (x i r - y i r) * M i j * (x j r - y j r) = ∑ i, ∑ j, x i r * M i j * x j r
      - ∑ i, ∑ j, x i r * M i j * y j r - ∑ i, ∑ j, y i r * M i j * x j r + ∑ i, ∑ j, y i r * M i j * y j r := by
      simp only [← sum_sub_distrib, ← sum_add_distrib]
      exact sum_congr rfl fun i _ => sum_congr rfl fun j _ => by ring
    rw [this, hsym]; ring
  have e2 : ∑ i, ∑ j, (a * x i r + b * y i r) * M i j * (a * x j r + b * y j r) = a ^ 2 * ∑ i, ∑ j, x i r * M i j * x j r
      + 2 * (a * b) * ∑ i, ∑ j, x i r * M i j * y j r + b ^ 2 * ∑ i, ∑ j, y i r * M i j * y j r := by
    have : ∑ i, ∑ j, (a * x i r + b * y i r) * M i j * (a * x j r + b * y j r) = a ^ 2 * ∑ i, ∑ j, x i r * M i j * x j r
      + a * b * ∑ i, ∑ j, x i r * M i j * y j r + a * b * ∑ i, ∑ j, y i r * M i j * x j r
      + b ^ 2 * ∑ i, ∑ j, y i r * M i j * y j r := by
      simp only [mul_sum, ← sum_add_distrib]
      exact sum_congr rfl fun i _ => sum_congr rfl fun j _ => by ring
    rw [this, hsym]; ring
  rw [e1] at key
  rw [e2]
  have := mul_nonneg (mul_nonneg ha hb) key
  obtain rfl : b = 1 - a := by linarith
  nlinarith

theorem StdPen.convex_feasible (p : StdPen m R) : Convex ℝ p.feasible := by
  have hnn : Convex ℝ {Z : Matrix (Fin m) (Fin R) ℝ | ∀ i r, 0 ≤ Z i r} := by
    intro x hx y hy a b ha hb _ i r
    exact add_nonneg (mul_nonneg ha (hx i r)) (mul_nonneg hb (hy i r))
  have hnn' : ∀ nn : Bool, Convex ℝ {Z : Matrix (Fin m) (Fin R) ℝ | nn → ∀ i r, 0 ≤ Z i r} := by
    intro nn x hx y hy a b ha hb hab hn
    exact hnn (hx hn) (hy hn) ha hb hab
  cases p with
  | nonNeg => exact hnn
  | box lo hi =>
    intro x hx y hy a b ha hb hab i r
    refine ⟨fun l hl => ?_, fun u hu => ?_⟩
    · have h1 := mul_le_mul_of_nonneg_left ((hx i r).1 l hl) ha
      have h2 := mul_le_mul_of_nonneg_left ((hy i r).1 l hl) hb
      have : l = a * l + b * l := by rw [← add_mul, hab, one_mul]
      show l ≤ a * x i r + b * y i r
      linarith
    · have h1 := mul_le_mul_of_nonneg_left ((hx i r).2 u hu) ha
      have h2 := mul_le_mul_of_nonneg_left ((hy i r).2 u hu) hb
      have : u = a * u + b * u := by rw [← add_mul, hab, one_mul]
      show a * x i r + b * y i r ≤ u
      linarith
  | l1 γ nn => exact hnn' nn
  | l2Ball c nn =>
    intro x hx y hy a b ha hb hab
    refine ⟨fun r => ?_, hnn' nn hx.2 hy.2 ha hb hab⟩
    have hc : 0 ≤ c := (Real.sqrt_nonneg _).trans (hx.1 r)
    have h1 := (Real.sqrt_le_left hc).1 (hx.1 r)
    have h2 := (Real.sqrt_le_left hc).1 (hy.1 r)
    refine (Real.sqrt_le_left hc).2 ?_
    have h3 : colSq (a • x + b • y) r ≤ a * colSq x r + b * colSq y r := by
      simp only [colSq, mul_sum, ← sum_add_distrib]
      refine sum_le_sum fun i _ => ?_
      show (a * x i r + b * y i r) ^ 2 ≤ _
      obtain rfl : b = 1 - a := by linarith
      nlinarith [mul_nonneg (mul_nonneg ha hb) (sq_nonneg (x i r - y i r))]
    have h4 := mul_le_mul_of_nonneg_left h1 ha
    have h5 := mul_le_mul_of_nonneg_left h2 hb
    have : c ^ 2 = a * c ^ 2 + b * c ^ 2 := by rw [← add_mul, hab, one_mul]
    linarith
  | genL2 M d => exact convex_univ
  | tv solver α β => exact convex_univ

theorem StdPen.convexOn (p : StdPen m R) (h : p.Valid) : ConvexOn ℝ p.feasible p.fn := by
  have hS := p.convex_feasible
  cases p with
  | nonNeg => exact convexOn_const 0 hS
  | box lo hi => exact convexOn_const 0 hS
  | l1 γ nn => exact (convexOn_absSum hS).smul h
  | l2Ball c nn => exact convexOn_const 0 hS
  | genL2 M d => exact convexOn_quad h.1 h.2.1
  | tv solver α β => exact ((convexOn_totalVar hS).smul h.2.1.le).add ((convexOn_absSum hS).smul h.2.2)

/-! ### On the three modes -/

theorem StdPen.proxC (p : StdPen K R) (h : p.Valid) : p.toC.ProxOf p.feasible p.fn :=
  fun _ hρ Y aux => isProxRows_of_isProx (p.isProx h hρ Y aux)

theorem StdPen.proxB (p : (i : Fin I) → StdPen (J i) R) (h : ∀ i, (p i).Valid) :
    (StdPen.toB p).ProxOf {Z | ∀ i, Z i ∈ (p i).feasible} fun Z => ∑ i, (p i).fn (Z i) :=
  penB_ofMat_prox fun i _ hρ Y aux => (p i).isProx (h i) hρ Y aux

/-- The row of a row-wise penalty as a matrix with one row. -/
theorem StdPen.isProx_row (p : StdPen I R) (q : StdPen 1 R) (h : q.Valid) {u : RowUpdate R}
    (hC : p.feasible = {Z | ∀ i, rowMat (Z i) ∈ q.feasible}) (hg : p.fn = fun Z => ∑ i, q.fn (rowMat (Z i)))
    (hq : ∀ y ρ aux, q.mat (rowMat y) ρ (rowMat aux) = rowMat (u y ρ aux))
    {ρ : Fin I → ℝ} (hρ : ∀ i, 0 < ρ i) (Y aux : Matrix (Fin I) (Fin R) ℝ) :
    IsProxRows p.feasible p.fn ρ Y (Matrix.of fun i => u (Y i) (ρ i) (aux i)) := by
  rw [hC, hg]
  refine isProxRows_of_rows fun i => ?_
  have := q.isProx h (hρ i) (rowMat (Y i)) (rowMat (aux i))
  rw [hq] at this
  exact this

theorem StdPen.proxA (p : StdPen I R) (h : p.Valid) : p.toA.ProxOf p.feasible p.fn where
  mat _ hρ Y aux := isProxRows_of_isProx (p.isProx h hρ Y aux)
  row u hu ρ hρ Y aux := by
    cases p with
    | nonNeg =>
      cases hu
      refine StdPen.isProx_row .nonNeg .nonNeg trivial ?_ ?_ (fun _ _ _ => rfl) hρ Y aux
      · ext Z
        exact ⟨fun h i _ r => h i r, fun h i r => h i 0 r⟩
      · funext Z
        simp [StdPen.fn]
    | box lo hi =>
      cases hu
      refine StdPen.isProx_row (.box lo hi) (.box lo hi) h ?_ ?_ (fun _ _ _ => rfl) hρ Y aux
      · ext Z
        exact ⟨fun h i _ r => h i r, fun h i r => h i 0 r⟩
      · funext Z
        simp [StdPen.fn]
    | l1 γ nn =>
      cases hu
      refine StdPen.isProx_row (.l1 γ nn) (.l1 γ nn) h ?_ ?_ (fun _ _ _ => rfl) hρ Y aux
      · ext Z
        exact ⟨fun h i hn _ r => h hn i r, fun h hn i r => h i hn 0 r⟩
      · funext Z
        simp only [StdPen.fn, absSum, mul_sum, Fin.sum_univ_one]
        rfl
    | l2Ball c nn => cases hu
    | genL2 M d => cases hu
    | tv solver α β => cases hu

theorem StdPen.convexB (p : (i : Fin I) → StdPen (J i) R) (h : ∀ i, (p i).Valid) :
    ConvexOn ℝ {Z : Ragged I R J | ∀ i, Z i ∈ (p i).feasible} fun Z => ∑ i, (p i).fn (Z i) := by
  have hS : Convex ℝ {Z : Ragged I R J | ∀ i, Z i ∈ (p i).feasible} :=
    fun x hx y hy a b ha hb hab i => (p i).convex_feasible (hx i) (hy i) ha hb hab
  refine convexOn_sum' _ hS fun i _ => ⟨hS, fun x hx y hy a b ha hb hab => ((p i).convexOn (h i)).2 (hx i) (hy i) ha hb hab⟩

end Verif.ADMM
