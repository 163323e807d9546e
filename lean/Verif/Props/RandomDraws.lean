import Verif.Props.Random

/-!
# C85: every random number is used once
-/

namespace Verif.Props

open Verif.CMF Verif.Spec Finset

/-- A source that reads the numbers `ω 0, ω 1, ...`; the state is the number of numbers read so far. Matrices are filled row by row, as numpy does. -/
noncomputable def streamSampler (ω : ℕ → ℝ) : Sampler ℕ where
  sample s m n := (.mk2 m n fun i j => ω (s + i * n + j), s + m * n)
  shape _ _ _ := rfl

theorem drawBs_stream (ω : ℕ → ℝ) (R : ℕ) : ∀ (sh : List (ℕ × ℕ)) (s : ℕ), (drawBs (streamSampler ω) R s sh).2 = s + (sh.map Prod.fst).sum * R ∧
    ∀ (i : ℕ) (B : NDArray ℝ), (drawBs (streamSampler ω) R s sh).1[i]? = some B →
      ∀ j r, B.get [j, r] = ω (s + (((sh.take i).map Prod.fst).sum + j) * R + r)
  | [], s => by simp [drawBs]
  | (m, k) :: sh, s => by
    obtain ⟨h1, h2⟩ := drawBs_stream ω R sh (s + m * R)
    refine ⟨?_, fun i B hB j r => ?_⟩
    · show (drawBs (streamSampler ω) R (s + m * R) sh).2 = _
      rw [h1]
      simp only [List.map_cons, List.sum_cons]
      ring
    · cases i with
      | zero =>
        obtain rfl : _ = B := Option.some.inj hB
        simp [NDArray.mk2]
      | succ i =>
        rw [h2 i B hB j r]
        simp only [List.take_succ_cons, List.map_cons, List.sum_cons]
        congr 1
        ring

/-- C85: without normalisation the weights are one and the factors contain the numbers the random state delivers, each of them once, in the order A, `B_0`, `B_1`, ..., C. -/
theorem C85 (ω : ℕ → ℝ) (s : ℕ) (shapes : List (ℕ × ℕ)) (R : ℕ) (c : Fact ℝ) (h : randomCMF (streamSampler ω) s shapes R false false = .ok c) :
    (∀ r, weightAt c.weights r = 1) ∧ (∀ i < shapes.length, ∀ r, c.A.get [i, r] = ω (s + i * R + r)) ∧
    (∀ (i : ℕ) (B : NDArray ℝ), c.Bs[i]? = some B → ∀ j r, B.get [j, r] = ω (s + (shapes.length + ((shapes.take i).map Prod.fst).sum + j) * R + r)) ∧
    ∀ l r, c.C.get [l, r] = ω (s + (shapes.length + (shapes.map Prod.fst).sum + l) * R + r) := by
  have hne : shapes ≠ [] := by
    intro h0
    have := (C14_error (streamSampler ω) s shapes R false false .indexError).2 (Or.inr ⟨rfl, h0⟩)
    rw [h] at this
    cases this
  have hk : ∀ p ∈ shapes, p.2 = (shapes.headD (0, 0)).2 := by
    by_contra hc
    push Not at hc
    obtain ⟨p, hp, hpq⟩ := hc
    obtain ⟨q, rest, rfl⟩ := List.exists_cons_of_ne_nil hne
    have := (C14_error (streamSampler ω) s (q :: rest) R false false .valueError).2 (Or.inl ⟨rfl, p, hp, q, by simp, hpq⟩)
    rw [h] at this
    cases this
  obtain ⟨c', x, w, a, γ, b, h1, -, -, h4, -, -, h7, h8, h9, h10, h11, h12, h13⟩ := random_ok (streamSampler ω) s shapes R _ false false hne hk
  obtain rfl := Except.ok.inj (h.symm.trans h1)
  simp only [Bool.false_eq_true, if_false, Bool.or_self] at h8 h12 h13
  obtain ⟨d1, d2⟩ := drawBs_stream ω R shapes (s + shapes.length * R)
  refine ⟨fun r => by rw [h4]; simp [weightAt, h11, h12, h13], fun i hi r => ?_, fun i B hB j r => ?_, fun l r => ?_⟩
  · obtain ⟨_, _, -, -, -, e4, -⟩ := h8 i _ (List.getElem?_eq_getElem hi)
    rw [h9 i hi, e4, h12, mul_one, div_one]
    rfl
  · have hi : i < shapes.length := by rw [← h7]; exact (List.getElem?_eq_some_iff.1 hB).1
    obtain ⟨B', B0, e1, e2, -, e4, e5⟩ := h8 i _ (List.getElem?_eq_getElem hi)
    obtain rfl := Option.some.inj (hB.symm.trans e1)
    rw [e5, e4, div_one, d2 i B0 e2]
    congr 1
    ring
  · rw [h10, h13, div_one]
    show ω ((drawBs (streamSampler ω) R (s + shapes.length * R) shapes).2 + l * R + r) = _
    rw [d1]
    congr 1
    ring

/-- Two matrices of different sizes: the generator accepts the shapes, so C85 applies. -/
example (ω : ℕ → ℝ) : ∃ c, randomCMF (streamSampler ω) 0 [(3, 4), (2, 4)] 2 false false = .ok c ∧ ∀ r < 2, c.C.get [0, r] = ω (14 + r) := by
  obtain ⟨c, -, -, -, -, -, h, -⟩ := random_ok (streamSampler ω) 0 [(3, 4), (2, 4)] 2 4 false false (by simp) (by simp)
  exact ⟨c, h, fun r _ => by rw [(C85 ω 0 _ 2 c h).2.2.2 0 r]; rfl⟩

end Verif.Props
