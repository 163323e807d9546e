import Verif.ADMM.LimitModes
import Verif.Props.LoopFixed
import Verif.Props.LoopRidge
import Mathlib.Analysis.SpecificLimits.Basic

/-!
# C115: what convergent runs converge to
-/

set_option linter.unusedSectionVars false

namespace Verif.Props

open Verif.Loop Verif.ADMM Verif.Penalties Verif.Spec Finset Matrix Filter
open scoped Topology

variable {I K R n nA nB nC : ℕ} {J : Fin I → ℕ}

/-! ### Limits of the subproblems -/

theorem tendsto_weightA {scale : ℝ} {F : ℕ → Factors I K R J} {G : Factors I K R J} (hB : ∀ i j r, Tendsto (fun k => (F k).B i j r) atTop (𝓝 (G.B i j r)))
    (hC : ∀ i r, Tendsto (fun k => (F k).C i r) atTop (𝓝 (G.C i r))) (i : Fin I) : Tendsto (fun k => weightA scale (F k) i) atTop (𝓝 (weightA scale G i)) :=
  (tendsto_finsetSum _ fun r _ => tendsto_finsetSum _ fun j _ => tendsto_finsetSum _ fun c _ => ((hB i j r).mul (hC c r)).pow 2).const_mul _

theorem tendsto_weightB {scale : ℝ} {F : ℕ → Factors I K R J} {G : Factors I K R J} (hA : ∀ i r, Tendsto (fun k => (F k).A i r) atTop (𝓝 (G.A i r)))
    (hC : ∀ i r, Tendsto (fun k => (F k).C i r) atTop (𝓝 (G.C i r))) (i : Fin I) : Tendsto (fun k => weightB scale (F k) i) atTop (𝓝 (weightB scale G i)) :=
  (tendsto_finsetSum _ fun r _ => tendsto_finsetSum _ fun c _ => ((hC c r).mul (hA i r)).pow 2).const_mul _

theorem tendsto_weightC {scale : ℝ} {F : ℕ → Factors I K R J} {G : Factors I K R J} (hA : ∀ i r, Tendsto (fun k => (F k).A i r) atTop (𝓝 (G.A i r)))
    (hB : ∀ i j r, Tendsto (fun k => (F k).B i j r) atTop (𝓝 (G.B i j r))) : Tendsto (fun k => weightC scale (F k)) atTop (𝓝 (weightC scale G)) :=
  (tendsto_finsetSum _ fun r _ => tendsto_finsetSum _ fun i _ => tendsto_finsetSum _ fun j _ => ((hB i j r).mul (hA i r)).pow 2).const_mul _

theorem tendsto_fit {X : Ragged I K J} {F : ℕ → Factors I K R J} {G : Factors I K R J} (h : FactorsTo F G) : Tendsto (fun k => sse X (F k)) atTop (𝓝 (sse X G)) :=
  tendsto_finsetSum _ fun i _ => tendsto_finsetSum _ fun j _ => tendsto_finsetSum _ fun k _ =>
    (tendsto_const_nhds.sub (tendsto_finsetSum _ fun r _ => ((h.A i r).mul (h.B i j r)).mul (h.C k r))).pow 2

theorem scaled_pos {a b : ℝ} (hb : 0 ≤ b) (h : 0 < a / 2 * b) : 0 < a := by
  by_contra hn
  have : a / 2 * b ≤ 0 := mul_nonpos_of_nonpos_of_nonneg (by linarith) hb
  linarith

theorem weightA_nonneg_of {scale : ℝ} {G : Factors I K R J} (h : ∀ i, 0 < weightA scale G i) (F : Factors I K R J) (i : Fin I) : 0 ≤ weightA scale F i := by
  have : 0 < scale := scaled_pos (sum_nonneg fun _ _ => sum_nonneg fun _ _ => sum_nonneg fun _ _ => sq_nonneg _) (h i)
  exact mul_nonneg (by linarith) (sum_nonneg fun _ _ => sum_nonneg fun _ _ => sum_nonneg fun _ _ => sq_nonneg _)

theorem weightB_nonneg_of {scale : ℝ} {G : Factors I K R J} (h : ∀ i, 0 < weightB scale G i) (F : Factors I K R J) (i : Fin I) : 0 ≤ weightB scale F i := by
  have : 0 < scale := scaled_pos (sum_nonneg fun _ _ => sum_nonneg fun _ _ => sq_nonneg _) (h i)
  exact mul_nonneg (by linarith) (sum_nonneg fun _ _ => sum_nonneg fun _ _ => sq_nonneg _)

theorem weightC_nonneg_of {scale : ℝ} {G : Factors I K R J} (h : 0 < weightC scale G) (F : Factors I K R J) : 0 ≤ weightC scale F := by
  have : 0 < scale := scaled_pos (sum_nonneg fun _ _ => sum_nonneg fun _ _ => sum_nonneg fun _ _ => sq_nonneg _) h
  exact mul_nonneg (by linarith) (sum_nonneg fun _ _ => sum_nonneg fun _ _ => sum_nonneg fun _ _ => sq_nonneg _)

theorem isWeights_nonneg {constant : Bool} {w ρ : Fin I → ℝ} (h : IsWeights constant w ρ) (hw : ∀ i, 0 ≤ w i) (i : Fin I) : 0 ≤ ρ i := by
  cases constant with
  | false => rw [h.1 rfl]; exact hw i
  | true =>
    obtain ⟨i₀, -, h2⟩ := h.2 rfl
    rw [h2]; exact hw i₀

/-! ### The updates -/

/-- C115, mode 0: a sequence of updates of A, each with at most `n_inner` iterations, whose fixed factors, initial and final variables converge. -/
theorem limitA (P : Params R) (hsvd : ValidSVD P) (hN : 0 < P.nInner) (X : Ragged I K J) {l2 : ℝ} (hl : 0 ≤ l2) (constant : Bool)
    (pens : Fin n → PenA I R) (hn : 0 < n) (C : Fin n → Set (Matrix (Fin I) (Fin R) ℝ)) (g : Fin n → Matrix (Fin I) (Fin R) ℝ → ℝ)
    (hp : ∀ p, (pens p).ProxOf (C p) (g p)) (hg : ∀ p, ConvexOn ℝ (C p) (g p))
    (F : ℕ → Factors I K R J) (G : Factors I K R J) (hB : ∀ i j r, Tendsto (fun k => (F k).B i j r) atTop (𝓝 (G.B i j r)))
    (hC : ∀ i r, Tendsto (fun k => (F k).C i r) atTop (𝓝 (G.C i r))) (hw : ∀ i, 0 < weightA P.scale G i)
    (ρ : Fin I → ℝ) (hρ : IsWeights constant (weightA P.scale G) ρ)
    (aux dual : ℕ → Fin n → Matrix (Fin I) (Fin R) ℝ) (s : ℕ → MatState I R n) (h : ∀ k, admmUpdateA P X pens l2 constant (F k) (aux k) (dual k) = .ok (s k))
    (x : Matrix (Fin I) (Fin R) ℝ) (aux0 dual0 : Fin n → Matrix (Fin I) (Fin R) ℝ)
    (ha : ∀ p i r, Tendsto (fun k => aux k p i r) atTop (𝓝 (aux0 p i r))) (hd : ∀ p i r, Tendsto (fun k => dual k p i r) atTop (𝓝 (dual0 p i r)))
    (hx' : ∀ i r, Tendsto (fun k => (s k).x i r) atTop (𝓝 (x i r))) (ha' : ∀ p i r, Tendsto (fun k => (s k).aux p i r) atTop (𝓝 (aux0 p i r)))
    (hd' : ∀ p i r, Tendsto (fun k => (s k).dual p i r) atTop (𝓝 (dual0 p i r))) :
    (∀ p, aux0 p = x) ∧ IsSaddlePoint Spec.inner (fitA X l2 G) C g x (rowMult ρ dual0) := by
  have hwt := fun i => tendsto_weightA (scale := P.scale) hB hC i
  have hsucc := (admmUpdateA_succeeds P X pens l2 constant (F 0) (aux 0) (dual 0)).1 ⟨_, h 0⟩
  choose M hM seq h0 hs hstep hx hdone hx2 using fun k => C33_A P X pens l2 constant (F k) (aux k) (dual k) (s k) (h k)
  have hρk : ∀ k, ∃ r, IsWeights constant (weightA P.scale (F k)) r := fun k => by
    obtain ⟨o, r, hr, -⟩ := admmUpdateA_ok (h k)
    exact ⟨r, hr⟩
  choose ρk hρk using hρk
  have hnn : ∀ k i, 0 ≤ ρk k i := fun k => isWeights_nonneg (hρk k) (weightA_nonneg_of hw (F k))
  have hpos := hρ.pos hw
  have hwk : ∀ᶠ k in atTop, ∀ i, 0 < weightA P.scale (F k) i := eventually_all.2 fun i => (hwt i).eventually (lt_mem_nhds (hw i))
  obtain ⟨seq0, e0, hseq0⟩ : ∃ seq0 : ℕ → MatState I R n, seq0 0 = ⟨x, aux0, dual0⟩ ∧
      ∀ k, admmUpdateA (once P) X pens l2 constant ⟨(seq0 k).x, G.B, G.C⟩ (seq0 k).aux (seq0 k).dual = .ok (seq0 (k + 1)) := by
    have h : ∀ s : MatState I R n, ∃ s', admmUpdateA (once P) X pens l2 constant ⟨s.x, G.B, G.C⟩ s.aux s.dual = .ok s' := fun s =>
      (admmUpdateA_succeeds _ _ _ _ _ _ _ _).2 ⟨hsucc.1, fun hc _ => hsucc.2 hc hN⟩
    choose f hf using h
    exact ⟨fun k => f^[k] ⟨x, aux0, dual0⟩, rfl, fun k => by simp only [Function.iterate_succ_apply']; exact hf _⟩
  have key := limit_saddle (x := fun k j => (seq k j).x) (z := fun k j => (seq k j).aux) (u := fun k j => (seq k j).dual) (M := M) (N := P.nInner)
    (W := fun k => matIP (ρk k) (hnn k)) (W0 := matIP ρ fun i => (hpos i).le) (f := fun k => fitA X l2 (F k)) (q := fun k => quadA (F k) l2)
    (f0 := fitA X l2 G) (q0 := quadA G l2) (C := C) (g := g) (x0 := fun j => (seq0 j).x) (z0 := fun j => (seq0 j).aux) (u0 := fun j => (seq0 j).dual)
    hn (c := matEntry) (fun v hv => by ext i r; exact hv (i, r)) (fun k => ⟨inner_pos hN (hM k) (hdone k), hM k⟩)
    (.of_forall fun k => matIP_coords (hnn k)) (matIP_coords _) (fun a => tendsto_isWeights hρk hρ hwt a.1) (fun a => hpos a.1)
    (hwk.mono fun k hk j hj => isStepA (F := ⟨(seq k j).x, (F k).B, (F k).C⟩) hsvd hl hn hk (hstep k j hj) hp hg (hρk k))
    (fun j => isStepA (F := ⟨(seq0 j).x, G.B, G.C⟩) hsvd hl hn hw (hseq0 j) hp hg hρ)
    (fun y k => quadAt_A X (F k) l2 y) (fun y => quadAt_A X G l2 y) (fun k => quadA_nonneg (F k) hl) (quadA_nonneg G hl)
    (fun y a => tendsto_lsqGrad _ (fun b c => (hB _ _ _).mul (hC _ _)) l2 _ _ _)
    (fun p a => by simp only [h0, e0]; exact ha p a.1 a.2) (fun p a => by simp only [h0, e0]; exact hd p a.1 a.2) x
    (fun a => by simp only [← hs]; exact hx' a.1 a.2) (fun p a => by simp only [← hs, e0]; exact ha' p a.1 a.2) (fun p a => by simp only [← hs, e0]; exact hd' p a.1 a.2)
  rw [saddle_mat (f := fitA X l2 G) _ (quadA_nonneg G hl) (fun xs S => kktA X G l2 xs S)] at key
  simp only [e0] at key
  exact ⟨fun p => (key.1 p).symm, key.2⟩

/-- C115, mode 1. -/
theorem limitB (P : Params R) (hsvd : ValidSVD P) (hN : 0 < P.nInner) (X : Ragged I K J) {l2 : ℝ} (hl : 0 ≤ l2) (constant : Bool)
    (pens : Fin n → PenB I R J) (hn : 0 < n) (C : Fin n → Set (Ragged I R J)) (g : Fin n → Ragged I R J → ℝ)
    (hp : ∀ p, (pens p).ProxOf (C p) (g p)) (hg : ∀ p, ConvexOn ℝ (C p) (g p))
    (F : ℕ → Factors I K R J) (G : Factors I K R J) (hA : ∀ i r, Tendsto (fun k => (F k).A i r) atTop (𝓝 (G.A i r)))
    (hC : ∀ i r, Tendsto (fun k => (F k).C i r) atTop (𝓝 (G.C i r))) (hw : ∀ i, 0 < weightB P.scale G i)
    (ρ : Fin I → ℝ) (hρ : IsWeights constant (weightB P.scale G) ρ)
    (aux : ℕ → Fin n → AuxB I R J) (dual : ℕ → Fin n → Ragged I R J) (s : ℕ → RagState I R n J)
    (h : ∀ k, admmUpdateB P X pens l2 constant (F k) (aux k) (dual k) = .ok (s k))
    (x : Ragged I R J) (aux0 : Fin n → AuxB I R J) (dual0 : Fin n → Ragged I R J)
    (ha : ∀ p i j r, Tendsto (fun k => (aux k p).toMats i j r) atTop (𝓝 ((aux0 p).toMats i j r)))
    (hd : ∀ p i j r, Tendsto (fun k => dual k p i j r) atTop (𝓝 (dual0 p i j r)))
    (hx' : ∀ i j r, Tendsto (fun k => (s k).x i j r) atTop (𝓝 (x i j r)))
    (ha' : ∀ p i j r, Tendsto (fun k => ((s k).aux p).toMats i j r) atTop (𝓝 ((aux0 p).toMats i j r)))
    (hd' : ∀ p i j r, Tendsto (fun k => (s k).dual p i j r) atTop (𝓝 (dual0 p i j r))) :
    (∀ p, (aux0 p).toMats = x) ∧ IsSaddlePoint ragInner (fitB X l2 G) C g x (ragMult ρ dual0) := by
  have hwt := fun i => tendsto_weightB (scale := P.scale) hA hC i
  have hsucc := (admmUpdateB_succeeds P X pens l2 constant (F 0) (aux 0) (dual 0)).1 ⟨_, h 0⟩
  choose M hM seq h0 hs hstep hx hdone hx2 using fun k => C33_B P X pens l2 constant (F k) (aux k) (dual k) (s k) (h k)
  have hρk : ∀ k, ∃ r, IsWeights constant (weightB P.scale (F k)) r := fun k => by
    obtain ⟨r, hr, -⟩ := admmUpdateB_ok (h k)
    exact ⟨r, hr⟩
  choose ρk hρk using hρk
  have hnn : ∀ k i, 0 ≤ ρk k i := fun k => isWeights_nonneg (hρk k) (weightB_nonneg_of hw (F k))
  have hpos := hρ.pos hw
  have hwk : ∀ᶠ k in atTop, ∀ i, 0 < weightB P.scale (F k) i := eventually_all.2 fun i => (hwt i).eventually (lt_mem_nhds (hw i))
  obtain ⟨seq0, e0, hseq0⟩ := exists_seqB P X pens l2 constant G hsucc ⟨x, aux0, dual0⟩
  have key := limit_saddle (x := fun k j => (seq k j).x) (z := fun k j p => ((seq k j).aux p).toMats) (u := fun k j => (seq k j).dual) (M := M) (N := P.nInner)
    (W := fun k => ragIP (ρk k) (hnn k)) (W0 := ragIP ρ fun i => (hpos i).le) (f := fun k => fitB X l2 (F k)) (q := fun k => quadB (F k) l2)
    (f0 := fitB X l2 G) (q0 := quadB G l2) (C := C) (g := g) (x0 := fun j => (seq0 j).x) (z0 := fun j p => ((seq0 j).aux p).toMats) (u0 := fun j => (seq0 j).dual)
    hn (c := ragEntry) (fun v hv => by funext i; ext j r; exact hv ⟨i, j, r⟩) (fun k => ⟨inner_pos hN (hM k) (hdone k), hM k⟩)
    (.of_forall fun k => ragIP_coords (hnn k)) (ragIP_coords _) (fun a => tendsto_isWeights hρk hρ hwt a.1) (fun a => hpos a.1)
    (hwk.mono fun k hk j hj => isStepB (F := ⟨(F k).A, (seq k j).x, (F k).C⟩) hsvd hl hn hk (hstep k j hj) hp hg (hρk k))
    (fun j => isStepB (F := ⟨G.A, (seq0 j).x, G.C⟩) hsvd hl hn hw (hseq0 j) hp hg hρ)
    (fun y k => quadAt_B X (F k) l2 y) (fun y => quadAt_B X G l2 y) (fun k => quadB_nonneg (F k) hl) (quadB_nonneg G hl)
    (fun y a => tendsto_lsqGrad _ (fun b c => (hC _ _).mul (hA _ _)) l2 _ _ _)
    (fun p a => by simp only [h0, e0]; exact ha p a.1 a.2.1 a.2.2) (fun p a => by simp only [h0, e0]; exact hd p a.1 a.2.1 a.2.2) x
    (fun a => by simp only [← hs]; exact hx' a.1 a.2.1 a.2.2) (fun p a => by simp only [← hs, e0]; exact ha' p a.1 a.2.1 a.2.2)
    (fun p a => by simp only [← hs, e0]; exact hd' p a.1 a.2.1 a.2.2)
  rw [saddle_rag (f := fitB X l2 G) _ (quadB_nonneg G hl) (fun xs S => kktB X G l2 xs S)] at key
  simp only [e0] at key
  exact ⟨fun p => (key.1 p).symm, key.2⟩

/-- C115, mode 2. -/
theorem limitC (P : Params R) (hsvd : ValidSVD P) (hN : 0 < P.nInner) (X : Ragged I K J) {l2 : ℝ} (hl : 0 ≤ l2)
    (pens : Fin n → PenC K R) (hn : 0 < n) (C : Fin n → Set (Matrix (Fin K) (Fin R) ℝ)) (g : Fin n → Matrix (Fin K) (Fin R) ℝ → ℝ)
    (hp : ∀ p, (pens p).ProxOf (C p) (g p)) (hg : ∀ p, ConvexOn ℝ (C p) (g p))
    (F : ℕ → Factors I K R J) (G : Factors I K R J) (hA : ∀ i r, Tendsto (fun k => (F k).A i r) atTop (𝓝 (G.A i r)))
    (hB : ∀ i j r, Tendsto (fun k => (F k).B i j r) atTop (𝓝 (G.B i j r))) (hw : 0 < weightC P.scale G)
    (aux dual : ℕ → Fin n → Matrix (Fin K) (Fin R) ℝ)
    (x : Matrix (Fin K) (Fin R) ℝ) (aux0 dual0 : Fin n → Matrix (Fin K) (Fin R) ℝ)
    (ha : ∀ p i r, Tendsto (fun k => aux k p i r) atTop (𝓝 (aux0 p i r))) (hd : ∀ p i r, Tendsto (fun k => dual k p i r) atTop (𝓝 (dual0 p i r)))
    (hx' : ∀ i r, Tendsto (fun k => (admmUpdateC P X pens l2 (F k) (aux k) (dual k)).x i r) atTop (𝓝 (x i r)))
    (ha' : ∀ p i r, Tendsto (fun k => (admmUpdateC P X pens l2 (F k) (aux k) (dual k)).aux p i r) atTop (𝓝 (aux0 p i r)))
    (hd' : ∀ p i r, Tendsto (fun k => (admmUpdateC P X pens l2 (F k) (aux k) (dual k)).dual p i r) atTop (𝓝 (dual0 p i r))) :
    (∀ p, aux0 p = x) ∧ IsSaddlePoint Spec.inner (fitC X l2 G) C g x (rowMult (fun _ => weightC P.scale G) dual0) := by
  have hwt := tendsto_weightC (scale := P.scale) hA hB
  choose M hM seq h0 hs hstep hx hdone hx2 using fun k => C33_C P X pens l2 (F k) (aux k) (dual k)
  have hnn : ∀ k, 0 ≤ weightC P.scale (F k) := fun k => weightC_nonneg_of hw (F k)
  have hwk : ∀ᶠ k in atTop, 0 < weightC P.scale (F k) := hwt.eventually (lt_mem_nhds hw)
  obtain ⟨seq0, e0, hseq0⟩ : ∃ seq0 : ℕ → MatState K R n, seq0 0 = ⟨x, aux0, dual0⟩ ∧
      ∀ k, admmUpdateC (once P) X pens l2 ⟨G.A, G.B, (seq0 k).x⟩ (seq0 k).aux (seq0 k).dual = seq0 (k + 1) :=
    ⟨fun k => (fun s : MatState K R n => admmUpdateC (once P) X pens l2 ⟨G.A, G.B, s.x⟩ s.aux s.dual)^[k] ⟨x, aux0, dual0⟩, rfl,
      fun k => by simp only [Function.iterate_succ_apply']⟩
  have key := limit_saddle (x := fun k j => (seq k j).x) (z := fun k j => (seq k j).aux) (u := fun k j => (seq k j).dual) (M := M) (N := P.nInner)
    (W := fun k => matIP (fun _ => weightC P.scale (F k)) fun _ => hnn k) (W0 := matIP (fun _ => weightC P.scale G) fun _ => hw.le) (f := fun k => fitC X l2 (F k))
    (q := fun k => quadC (F k) l2)
    (f0 := fitC X l2 G) (q0 := quadC G l2) (C := C) (g := g) (x0 := fun j => (seq0 j).x) (z0 := fun j => (seq0 j).aux) (u0 := fun j => (seq0 j).dual)
    hn (c := matEntry) (fun v hv => by ext i r; exact hv (i, r)) (fun k => ⟨inner_pos hN (hM k) (hdone k), hM k⟩)
    (.of_forall fun k => matIP_coords fun _ => hnn k) (matIP_coords _) (fun _ => hwt) (fun _ => hw)
    (hwk.mono fun k hk j hj => isStepC (F := ⟨(F k).A, (F k).B, (seq k j).x⟩) hsvd hl hn hk (hstep k j hj) hp hg)
    (fun j => isStepC (F := ⟨G.A, G.B, (seq0 j).x⟩) hsvd hl hn hw (hseq0 j) hp hg)
    (fun y k => quadAt_C X (F k) l2 y) (fun y => quadAt_C X G l2 y) (fun k => quadC_nonneg (F k) hl) (quadC_nonneg G hl)
    (fun y a => tendsto_lsqGrad _ (fun b c => (hB _ _ _).mul (hA _ _)) l2 _ _ _)
    (fun p a => by simp only [h0, e0]; exact ha p a.1 a.2) (fun p a => by simp only [h0, e0]; exact hd p a.1 a.2) x
    (fun a => by simp only [← hs]; exact hx' a.1 a.2) (fun p a => by simp only [← hs, e0]; exact ha' p a.1 a.2) (fun p a => by simp only [← hs, e0]; exact hd' p a.1 a.2)
  rw [saddle_mat (f := fitC X l2 G) _ (quadC_nonneg G hl) (fun xs S => kktC X G l2 xs S)] at key
  simp only [e0] at key
  exact ⟨fun p => (key.1 p).symm, key.2⟩

/-! ### Without penalties -/

theorem eventually_solvableA {F : ℕ → Factors I K R J} {G : Factors I K R J} {l2 : ℝ} (hl : 0 ≤ l2) (hB : ∀ i j r, Tendsto (fun k => (F k).B i j r) atTop (𝓝 (G.B i j r)))
    (hC : ∀ i r, Tendsto (fun k => (F k).C i r) atTop (𝓝 (G.C i r))) (h : SolvableA G l2) : ∀ᶠ k in atTop, SolvableA (F k) l2 := by
  have e : ∀ (F : Factors I K R J) (i : Fin I) (v : Fin R → ℝ), ∑ a, (∑ r, designA F i a r * v r) ^ 2 = ∑ j, ∑ k, (∑ r, v r * F.B i j r * F.C k r) ^ 2 := by
    intro F i v
    rw [Fintype.sum_prod_type]
    exact sum_congr rfl fun j _ => sum_congr rfl fun k _ => congrArg (· ^ 2) (sum_congr rfl fun r _ => by simp only [designA, Matrix.of_apply]; ring)
  refine eventually_all.2 fun i => ?_
  have := eventually_solvable (M := fun k => designA (F k) i) (M0 := designA G i) (fun a b => (hB i a.1 b).mul (hC a.2 b)) hl (fun v hv => by rw [e]; exact h i v hv)
  exact this.mono fun k hk v hv => by rw [← e]; exact hk v hv

theorem eventually_solvableB {F : ℕ → Factors I K R J} {G : Factors I K R J} {l2 : ℝ} (hl : 0 ≤ l2) (hA : ∀ i r, Tendsto (fun k => (F k).A i r) atTop (𝓝 (G.A i r)))
    (hC : ∀ i r, Tendsto (fun k => (F k).C i r) atTop (𝓝 (G.C i r))) (h : SolvableB G l2) : ∀ᶠ k in atTop, SolvableB (F k) l2 := by
  have e : ∀ (F : Factors I K R J) (i : Fin I) (v : Fin R → ℝ), ∑ a, (∑ r, designB F i a r * v r) ^ 2 = ∑ k, (∑ r, F.A i r * v r * F.C k r) ^ 2 := by
    intro F i v
    exact sum_congr rfl fun k _ => congrArg (· ^ 2) (sum_congr rfl fun r _ => by simp only [designB, Matrix.of_apply]; ring)
  refine eventually_all.2 fun i => ?_
  have := eventually_solvable (M := fun k => designB (F k) i) (M0 := designB G i) (fun a b => (hC a b).mul (hA i b)) hl (fun v hv => by rw [e]; exact h i v hv)
  exact this.mono fun k hk v hv => by rw [← e]; exact hk v hv

theorem eventually_solvableC {F : ℕ → Factors I K R J} {G : Factors I K R J} {l2 : ℝ} (hl : 0 ≤ l2) (hA : ∀ i r, Tendsto (fun k => (F k).A i r) atTop (𝓝 (G.A i r)))
    (hB : ∀ i j r, Tendsto (fun k => (F k).B i j r) atTop (𝓝 (G.B i j r))) (h : SolvableC G l2) : ∀ᶠ k in atTop, SolvableC (F k) l2 := by
  have e : ∀ (F : Factors I K R J) (v : Fin R → ℝ), ∑ a, (∑ r, designC F a r * v r) ^ 2 = ∑ i, ∑ j, (∑ r, F.A i r * F.B i j r * v r) ^ 2 := by
    intro F v
    rw [Fintype.sum_sigma]
    exact sum_congr rfl fun i _ => sum_congr rfl fun j _ => congrArg (· ^ 2) (sum_congr rfl fun r _ => by simp only [designC, Matrix.of_apply]; ring)
  have := eventually_solvable (M := fun k => designC (F k)) (M0 := designC G) (fun a b => (hB a.1 a.2 b).mul (hA a.1 b)) hl (fun v hv => by rw [e]; exact h v hv)
  exact this.mono fun k hk v hv => by rw [← e]; exact hk v hv

/-! ### Runs -/

/-- The factors, auxiliary variables (as matrices) and dual variables of `s k` converge to those of `t`. -/
structure StateTo (s : ℕ → AOState I K R nA nB nC J) (t : AOState I K R nA nB nC J) : Prop where
  F : FactorsTo (fun k => (s k).F) t.F
  auxA : ∀ p i r, Tendsto (fun k => (s k).auxA p i r) atTop (𝓝 (t.auxA p i r))
  auxB : ∀ p i j r, Tendsto (fun k => ((s k).auxB p).toMats i j r) atTop (𝓝 ((t.auxB p).toMats i j r))
  auxC : ∀ p i r, Tendsto (fun k => (s k).auxC p i r) atTop (𝓝 (t.auxC p i r))
  dualA : ∀ p i r, Tendsto (fun k => (s k).dualA p i r) atTop (𝓝 (t.dualA p i r))
  dualB : ∀ p i j r, Tendsto (fun k => (s k).dualB p i j r) atTop (𝓝 (t.dualB p i j r))
  dualC : ∀ p i r, Tendsto (fun k => (s k).dualC p i r) atTop (𝓝 (t.dualC p i r))

/-- C115, outer iterations: if outer iterations lead from states converging to `t` to states converging to the same `t`, and the penalties are convex, then at `t` for every updated
mode all auxiliary variables equal the factor and the factor is a saddle point of its subproblem. -/
theorem C115_sweep (P : Problem I K R nA nB nC J) (hsvd : ValidSVD P.params) (hN : 0 < P.params.nInner) (s s' : ℕ → AOState I K R nA nB nC J) (t : AOState I K R nA nB nC J)
    (SA : Fin nA → Set (Matrix (Fin I) (Fin R) ℝ)) (gA : Fin nA → Matrix (Fin I) (Fin R) ℝ → ℝ) (ρA : Fin I → ℝ) (hA : P.updA = true → ConvexA P t.F SA gA ρA)
    (SB : Fin nB → Set (Ragged I R J)) (gB : Fin nB → Ragged I R J → ℝ) (ρB : Fin I → ℝ) (hB : P.updB = true → ConvexB P t.F SB gB ρB)
    (SC : Fin nC → Set (Matrix (Fin K) (Fin R) ℝ)) (gC : Fin nC → Matrix (Fin K) (Fin R) ℝ → ℝ) (hC : P.updC = true → ConvexC P t.F SC gC)
    (h : ∀ k, ∃ i, sweep P (s k) = .ok (s' k, i)) (hs : StateTo s t) (hs' : StateTo s' t) :
    (P.updA = true → (∀ p, t.auxA p = t.F.A) ∧ IsSaddlePoint Spec.inner (fitA P.X P.l2.1 t.F) SA gA t.F.A (rowMult ρA t.dualA)) ∧
    (P.updB = true → (∀ p, (t.auxB p).toMats = t.F.B) ∧ IsSaddlePoint ragInner (fitB P.X P.l2.2.1 t.F) SB gB t.F.B (ragMult ρB t.dualB)) ∧
    (P.updC = true → (∀ p, t.auxC p = t.F.C) ∧
      IsSaddlePoint Spec.inner (fitC P.X P.l2.2.2 t.F) SC gC t.F.C (rowMult (fun _ => weightC P.params.scale t.F) t.dualC)) := by
  choose i hi using h
  refine ⟨fun ua => ?_, fun ub => ?_, fun uc => ?_⟩
  · choose a ha e1 e2 e3 using fun k => (sweep_parts (hi k)).2.2.2.2.1 ua
    have hc := hA ua
    rcases hc.well with ⟨hn, hw⟩ | ⟨hn, hsol⟩
    · exact limitA P.params hsvd hN P.X hc.ridge P.constA P.pensA hn SA gA hc.prox hc.convex (fun k => ⟨(s k).F.A, (s' k).F.B, (s' k).F.C⟩) t.F hs'.F.B hs'.F.C hw ρA hc.weights _ _ a ha _ _ _ hs.auxA hs.dualA
        (fun i r => (hs'.F.A i r).congr fun k => by rw [e1]) (fun p i r => (hs'.auxA p i r).congr fun k => by rw [e2])
        (fun p i r => (hs'.dualA p i r).congr fun k => by rw [e3])
    · subst hn
      refine ⟨fun p => p.elim0, saddle_none.2 fun Y => ?_⟩
      have hev := eventually_solvableA (F := fun k => ⟨(s k).F.A, (s' k).F.B, (s' k).F.C⟩) hc.ridge hs'.F.B hs'.F.C hsol
      refine le_of_tendsto_of_tendsto (b := atTop) (f := fun k => fitA P.X P.l2.1 (s' k).F (s' k).F.A) (g := fun k => fitA P.X P.l2.1 (s' k).F Y) ?_ ?_ ?_
      · exact ((tendsto_fit ⟨hs'.F.A, hs'.F.B, hs'.F.C⟩).const_mul _).add ((tendsto_sqNorm hs'.F.A).const_mul _)
      · exact ((tendsto_fit (F := fun k => ⟨Y, (s' k).F.B, (s' k).F.C⟩) (G := ⟨Y, t.F.B, t.F.C⟩) ⟨fun _ _ => tendsto_const_nhds, hs'.F.B, hs'.F.C⟩).const_mul _).add tendsto_const_nhds
      · filter_upwards [hev] with k hk
        exact (fixed_noneA P.params hsvd hN P.X P.l2.1 P.constA _ P.pensA _ _ hk (a k) (ha k) _).1 (e1 k).symm Y
  · choose b hb e1 e2 e3 using fun k => (sweep_parts (hi k)).1 ub
    have hc := hB ub
    rcases hc.well with ⟨hn, hw⟩ | ⟨hn, hsol⟩
    · exact limitB P.params hsvd hN P.X hc.ridge P.constB P.pensB hn SB gB hc.prox hc.convex _ t.F hs.F.A hs.F.C hw ρB hc.weights _ _ b hb _ _ _ hs.auxB hs.dualB
        (fun i j r => (hs'.F.B i j r).congr fun k => by rw [e1]) (fun p i j r => (hs'.auxB p i j r).congr fun k => by rw [e2])
        (fun p i j r => (hs'.dualB p i j r).congr fun k => by rw [e3])
    · subst hn
      refine ⟨fun p => p.elim0, saddle_none.2 fun Y => ?_⟩
      have hev := eventually_solvableB (F := fun k => (s k).F) hc.ridge hs.F.A hs.F.C hsol
      refine le_of_tendsto_of_tendsto (b := atTop) (f := fun k => fitB P.X P.l2.2.1 (s k).F (s' k).F.B) (g := fun k => fitB P.X P.l2.2.1 (s k).F Y) ?_ ?_ ?_
      · exact ((tendsto_fit (F := fun k => ⟨(s k).F.A, (s' k).F.B, (s k).F.C⟩) (G := ⟨t.F.A, t.F.B, t.F.C⟩) ⟨hs.F.A, hs'.F.B, hs.F.C⟩).const_mul _).add
          ((tendsto_raggedSq hs'.F.B).const_mul _)
      · exact ((tendsto_fit (F := fun k => ⟨(s k).F.A, Y, (s k).F.C⟩) (G := ⟨t.F.A, Y, t.F.C⟩) ⟨hs.F.A, fun _ _ _ => tendsto_const_nhds, hs.F.C⟩).const_mul _).add tendsto_const_nhds
      · filter_upwards [hev] with k hk
        exact (fixed_noneB P.params hsvd hN P.X P.l2.2.1 P.constB _ P.pensB _ _ hk (b k) (hb k) _).1 (e1 k).symm Y
  · choose c hcc e1 e2 e3 using fun k => (sweep_parts (hi k)).2.2.1 uc
    have hc := hC uc
    rcases hc.well with ⟨hn, hw⟩ | ⟨hn, hsol⟩
    · exact limitC P.params hsvd hN P.X hc.ridge P.pensC hn SC gC hc.prox hc.convex (fun k => ⟨(s k).F.A, (s' k).F.B, (s k).F.C⟩) t.F hs.F.A hs'.F.B hw _ _ _ _ _ hs.auxC hs.dualC
        (fun i r => (hs'.F.C i r).congr fun k => by rw [e1, hcc]) (fun p i r => (hs'.auxC p i r).congr fun k => by rw [e2, hcc])
        (fun p i r => (hs'.dualC p i r).congr fun k => by rw [e3, hcc])
    · subst hn
      refine ⟨fun p => p.elim0, saddle_none.2 fun Y => ?_⟩
      have hev := eventually_solvableC (F := fun k => ⟨(s k).F.A, (s' k).F.B, (s k).F.C⟩) hc.ridge hs.F.A hs'.F.B hsol
      refine le_of_tendsto_of_tendsto (b := atTop) (f := fun k => fitC P.X P.l2.2.2 ⟨(s k).F.A, (s' k).F.B, (s k).F.C⟩ (s' k).F.C)
        (g := fun k => fitC P.X P.l2.2.2 ⟨(s k).F.A, (s' k).F.B, (s k).F.C⟩ Y) ?_ ?_ ?_
      · exact ((tendsto_fit (F := fun k => ⟨(s k).F.A, (s' k).F.B, (s' k).F.C⟩) (G := ⟨t.F.A, t.F.B, t.F.C⟩) ⟨hs.F.A, hs'.F.B, hs'.F.C⟩).const_mul _).add
          ((tendsto_sqNorm hs'.F.C).const_mul _)
      · exact ((tendsto_fit (F := fun k => ⟨(s k).F.A, (s' k).F.B, Y⟩) (G := ⟨t.F.A, t.F.B, Y⟩) ⟨hs.F.A, hs'.F.B, fun _ _ => tendsto_const_nhds⟩).const_mul _).add tendsto_const_nhds
      · filter_upwards [hev] with k hk
        exact (fixed_noneC P.params hsvd hN P.X P.l2.2.2 _ P.pensC _ _ hk _).1 (by rw [hcc]; exact (e1 k).symm) Y

/-- C115, calls: let `outs n` be what `cmf_aoadmm` returns after `n` iterations. If along some sequence of iteration counts the returned state and the state one iteration later converge
to the same state `t` (in particular if the whole run converges), and the penalties are convex, then every updated factor of `t` equals its auxiliary variables and minimises the
regularized loss among the feasible choices of this factor, the other two factors fixed. -/
theorem C115 (P : Problem I K R nA nB nC J) (hsvd : ValidSVD P.params) (hN : 0 < P.params.nInner) (init : AOState I K R nA nB nC J)
    (outs : ℕ → Output (AOState I K R nA nB nC J)) (h : ∀ n : ℕ, cmfAoadmm P (plain n) init = .ok (outs n)) (t : AOState I K R nA nB nC J) (φ : ℕ → ℕ)
    (ht : StateTo (fun n => (outs (φ n)).st) t) (ht' : StateTo (fun n => (outs (φ n + 1)).st) t)
    (SA : Fin nA → Set (Matrix (Fin I) (Fin R) ℝ)) (gA : Fin nA → Matrix (Fin I) (Fin R) ℝ → ℝ) (ρA : Fin I → ℝ) (hA : P.updA = true → ConvexA P t.F SA gA ρA)
    (SB : Fin nB → Set (Ragged I R J)) (gB : Fin nB → Ragged I R J → ℝ) (ρB : Fin I → ℝ) (hB : P.updB = true → ConvexB P t.F SB gB ρB)
    (SC : Fin nC → Set (Matrix (Fin K) (Fin R) ℝ)) (gC : Fin nC → Matrix (Fin K) (Fin R) ℝ → ℝ) (hC : P.updC = true → ConvexC P t.F SC gC) :
    (P.updA = true → (∀ p, t.auxA p = t.F.A) ∧ IsMinOver (fitA P.X P.l2.1 t.F) SA gA t.F.A) ∧
    (P.updB = true → (∀ p, (t.auxB p).toMats = t.F.B) ∧ IsMinOver (fitB P.X P.l2.2.1 t.F) SB gB t.F.B) ∧
    (P.updC = true → (∀ p, t.auxC p = t.F.C) ∧ IsMinOver (fitC P.X P.l2.2.2 t.F) SC gC t.F.C) := by
  obtain ⟨o1, o2, o3⟩ := C115_sweep P hsvd hN _ _ t SA gA ρA hA SB gB ρB hB SC gC hC (fun k => (outs_succ h).2 (φ k)) ht ht'
  exact ⟨fun u => ⟨(o1 u).1, saddlePoint_min (o1 u).2⟩, fun u => ⟨(o2 u).1, saddlePoint_min (o2 u).2⟩, fun u => ⟨(o3 u).1, saddlePoint_min (o3 u).2⟩⟩

/-! ### A case: data -1, B and C fixed to 1, A non-negative; A is halved in every iteration and the dual variable tends to -1 -/

/-- The problem, with one inner iteration. -/
noncomputable def halvingProblem (prm : Params 1) : Problem 1 1 1 1 0 0 (fun _ => 1) :=
  ⟨dataNeg, fun _ => (StdPen.nonNeg (m := 1) (R := 1)).toA, Fin.elim0, Fin.elim0, (0, 0, 0), prm, false, false, true, false, false⟩

/-- The state with factor `-a`, auxiliary variable 0 and dual variable `a - 1`. -/
def halvingState (a : ℝ) : AOState 1 1 1 1 0 0 (fun _ => 1) :=
  ⟨none, ⟨!![-a], ones.B, ones.C⟩, fun _ => 0, fun _ => !![a - 1], Fin.elim0, Fin.elim0, Fin.elim0, Fin.elim0⟩

/-- One iteration halves `a`. -/
theorem halving_step (prm : Params 1) (hsvd : ValidSVD prm) (hN : prm.nInner = 1) (hscale : prm.scale = 2) {a : ℝ} (ha1 : a ≤ 1) {s t : AOState 1 1 1 1 0 0 (fun _ => 1)}
    (hs : s.F.B = ones.B ∧ s.F.C = ones.C ∧ (∀ p, s.auxA p = 0) ∧ ∀ p, s.dualA p 0 0 = a - 1) {i : Option (Inter 1 1)} (h : sweep (halvingProblem prm) s = .ok (t, i)) :
    t.F.A 0 0 = -(a / 2) ∧ t.F.B = ones.B ∧ t.F.C = ones.C ∧ (∀ p, t.auxA p = 0) ∧ ∀ p, t.dualA p 0 0 = a / 2 - 1 := by
  obtain ⟨-, b2, -, c2, a1, -⟩ := sweep_parts h
  obtain ⟨hB, -⟩ := b2 rfl
  obtain ⟨hC, -⟩ := c2 rfl
  obtain ⟨m, hm, e1, e2, e3⟩ := a1 rfl
  rw [hB, hC, hs.1, hs.2.1] at hm
  have w1 : ∀ A i, weightA prm.scale ⟨A, ones.B, ones.C⟩ i = 1 := by intro A i; rw [hscale]; simp [weightA, ones]
  obtain ⟨ρ, hρ, hx, hz, hu⟩ := C28_A prm hsvd hN (halvingProblem prm).X le_rfl false _ _ _ _ one_pos (fun i => by rw [w1]; norm_num) m hm
  have hρ1 : ∀ i, ρ i = 1 := fun i => by rw [hρ.1 rfl, w1]
  have ex : m.x 0 0 = -(a / 2) := by
    by_contra hne
    have := hx !![-(a / 2)] fun e => hne (by rw [← e]; rfl)
    simp [augA, sse, Factors.entry, halvingProblem, dataNeg, ones, sqNorm, hρ1, hs.2.2] at this
    nlinarith [sq_nonneg (m.x 0 0 + a / 2)]
  have ez : ∀ p, m.aux p = 0 := by
    intro p
    have hp := hz p _ _ (StdPen.proxA (StdPen.nonNeg (m := 1) (R := 1)) trivial)
    by_contra hne
    have h1 := hp.1 0 0
    have h2 := hp.2 0 (fun _ _ => le_rfl) (fun e => hne e.symm)
    have h3 : 0 ≤ m.aux p 0 0 := h1
    simp [StdPen.fn, hρ1, ex, hs.2.2] at h2
    nlinarith
  refine ⟨by rw [e1, ex], hB.trans hs.1, hC.trans hs.2.1, fun p => by rw [e2, ez], fun p => ?_⟩
  rw [e3, hu, ez]
  simp [hs.2.2, ex]
  ring

/-- The run converges, without ever reaching its limit. -/
theorem halving_run : ∃ (prm : Params 1) (outs : ℕ → Output (AOState 1 1 1 1 0 0 (fun _ => 1))), ValidSVD prm ∧ 0 < prm.nInner ∧
    (∀ n : ℕ, cmfAoadmm (halvingProblem prm) (plain n) (halvingState 1) = .ok (outs n)) ∧ (∀ n, (outs n).st.F.A 0 0 = -(1 / 2) ^ n) ∧
    StateTo (fun n => (outs n).st) (halvingState 0) ∧ StateTo (fun n => (outs (n + 1)).st) (halvingState 0) ∧
    ConvexA (halvingProblem prm) (halvingState 0).F (fun _ => (StdPen.nonNeg (m := 1) (R := 1)).feasible) (fun _ => (StdPen.nonNeg (m := 1) (R := 1)).fn) (fun _ => 1) := by
  obtain ⟨prm, hP, hN, -, hscale⟩ := exists_params 1 1 none 2
  have hout : ∀ n : ℕ, ∃ o, cmfAoadmm (halvingProblem prm) (plain n) (halvingState 1) = .ok o := fun n =>
    C61 _ one_pos (fun _ _ => rfl) _ (by intro h; cases h) _
  choose outs ho using hout
  obtain ⟨h0, hs⟩ := outs_succ ho
  have key : ∀ n, (outs n).st.F.A 0 0 = -(1 / 2) ^ n ∧ (outs n).st.F.B = ones.B ∧ (outs n).st.F.C = ones.C ∧ (∀ p, (outs n).st.auxA p = 0) ∧
      ∀ p, (outs n).st.dualA p 0 0 = (1 / 2) ^ n - 1 := by
    intro n
    induction n with
    | zero => rw [h0]; exact ⟨by simp [halvingState], rfl, rfl, fun _ => rfl, fun _ => by simp [halvingState]⟩
    | succ n ih =>
      obtain ⟨i, hi⟩ := hs n
      have := halving_step prm hP hN hscale (pow_le_one₀ (by norm_num) (by norm_num)) ih.2 hi
      rw [show (1 / 2 : ℝ) ^ n / 2 = (1 / 2) ^ (n + 1) by ring] at this
      exact this
  have h2 : Tendsto (fun n : ℕ => (1 / 2 : ℝ) ^ n) atTop (𝓝 0) := tendsto_pow_atTop_nhds_zero_of_lt_one (by norm_num) (by norm_num)
  have hto : StateTo (fun n => (outs n).st) (halvingState 0) := by
    refine ⟨⟨fun i r => ?_, fun i j r => ?_, fun k r => ?_⟩, fun p i r => ?_, fun p => p.elim0, fun p => p.elim0, fun p i r => ?_, fun p => p.elim0, fun p => p.elim0⟩
    · obtain rfl : i = 0 := Subsingleton.elim _ _
      obtain rfl : r = 0 := Subsingleton.elim _ _
      simp only [(key _).1, halvingState]
      simpa using h2.neg
    · simp only [(key _).2.1, halvingState]; exact tendsto_const_nhds
    · simp only [(key _).2.2.1, halvingState]; exact tendsto_const_nhds
    · simp only [(key _).2.2.2.1, halvingState]; exact tendsto_const_nhds
    · obtain rfl : i = 0 := Subsingleton.elim _ _
      obtain rfl : r = 0 := Subsingleton.elim _ _
      simp only [(key _).2.2.2.2, halvingState]
      simpa using h2.sub_const 1
  have hto' : StateTo (fun n => (outs (n + 1)).st) (halvingState 0) := by
    have hc := tendsto_add_atTop_nat 1
    exact ⟨⟨fun i r => (hto.F.A i r).comp hc, fun i j r => (hto.F.B i j r).comp hc, fun k r => (hto.F.C k r).comp hc⟩, fun p i r => (hto.auxA p i r).comp hc, fun p => p.elim0,
      fun p => p.elim0, fun p i r => (hto.dualA p i r).comp hc, fun p => p.elim0, fun p => p.elim0⟩
  have w1 : ∀ i, weightA prm.scale (halvingState 0).F i = 1 := by intro i; rw [hscale]; simp [weightA, halvingState, ones]
  have cA : ConvexA (halvingProblem prm) (halvingState 0).F (fun _ => (StdPen.nonNeg (m := 1) (R := 1)).feasible) (fun _ => (StdPen.nonNeg (m := 1) (R := 1)).fn) (fun _ => 1) :=
    ⟨fun _ => StdPen.proxA _ trivial, fun _ => StdPen.convexOn _ trivial, le_rfl, ⟨fun _ => funext fun i => (w1 i).symm, fun h => by cases h⟩,
      .inl ⟨one_pos, fun i => by rw [show (halvingProblem prm).params = prm from rfl, w1]; norm_num⟩⟩
  exact ⟨prm, outs, hP, by omega, ho, fun n => (key n).1, hto, hto', cA⟩

/-- C115 applies: the limit 0 is the best non-negative choice of A. -/
example : ∃ (prm : Params 1) (outs : ℕ → Output (AOState 1 1 1 1 0 0 (fun _ => 1))), (∀ n : ℕ, cmfAoadmm (halvingProblem prm) (plain n) (halvingState 1) = .ok (outs n)) ∧
    (∀ n, (outs n).st.F.A 0 0 = -(1 / 2) ^ n) ∧ StateTo (fun n => (outs n).st) (halvingState 0) ∧
    IsMinOver (fitA dataNeg 0 (halvingState 0).F) (fun _ : Fin 1 => (StdPen.nonNeg (m := 1) (R := 1)).feasible) (fun _ => (StdPen.nonNeg (m := 1) (R := 1)).fn) (halvingState 0).F.A := by
  obtain ⟨prm, outs, hP, hN, ho, hA, hto, hto', cA⟩ := halving_run
  refine ⟨prm, outs, ho, hA, hto, ?_⟩
  exact ((C115 (halvingProblem prm) hP hN _ outs ho (halvingState 0) id hto hto' _ _ _ (fun _ => cA) Fin.elim0 Fin.elim0 (fun _ => 1) (fun h => by cases h)
    Fin.elim0 Fin.elim0 (fun h => by cases h)).1 rfl).2

end Verif.Props
