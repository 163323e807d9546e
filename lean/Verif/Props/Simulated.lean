import Verif.Data.Simulated
import Verif.Spec.Unimodal
import Verif.Tac

/-!
# C57: the simulated data
-/

namespace Verif.Props

open Verif.Data Verif.Spec Finset Matrix

theorem normPdf_pos (m t : ℝ) : 0 < normPdf m t := by
  unfold normPdf
  have := Real.pi_pos
  positivity

/-- The density decreases with the distance to the location. -/
theorem normPdf_lt {m t t' : ℝ} (h : (t - m) ^ 2 < (t' - m) ^ 2) : normPdf m t' < normPdf m t := by
  unfold normPdf
  have := Real.pi_pos
  have h2 : 0 < √(2 * Real.pi) := by positivity
  rw [div_lt_div_iff_of_pos_right h2]
  exact Real.exp_lt_exp.mpr (by linarith)

theorem normPdf_le {m t t' : ℝ} (h : (t - m) ^ 2 ≤ (t' - m) ^ 2) : normPdf m t' ≤ normPdf m t := by
  rcases h.lt_or_eq with h | h
  · exact (normPdf_lt h).le
  · unfold normPdf; rw [show -(t' - m) ^ 2 = -(t - m) ^ 2 by rw [h]]

theorem roll_gram {m n : ℕ} [NeZero m] (X : Matrix (Fin m) (Fin n) ℝ) (i : ℕ) : (roll X i)ᵀ * roll X i = Xᵀ * X := by
  funext r s
  simp only [mul_apply, transpose_apply, roll]
  exact Fintype.sum_equiv (Equiv.subRight (Fin.ofNat m i)) _ _ fun _ => rfl

/-- C57 (partial): for every draw, all `Bᵢ` have the same cross product and positive entries, `C` is non-negative, the entries of `A` are at least 0.1 (and below 1.1) if
the draws are in [0, 1), and the distance between noisy and clean data is `|noise_level|` times the norm of the clean data. Missing:
unimodality of the columns of the `Bᵢ`, which holds for `i = 0` (`C57_first`) and fails for `i ≥ 1`
(`C57_false`, `C57_false_all`). -/
theorem C57_partial (level : ℝ) (u : Matrix (Fin 15) (Fin 3) ℝ) (z : Matrix (Fin 20) (Fin 3) ℝ) (noise : Ragged 15 20 (fun _ => 50)) (hn : noise ≠ 0)
    (hu : ∀ i r, 0 ≤ u i r ∧ u i r < 1) :
    let out := simulated level u z noise
    (∀ i i', (out.2.B i)ᵀ * out.2.B i = (out.2.B i')ᵀ * out.2.B i') ∧ (∀ i j r, 0 < out.2.B i j r) ∧ (∀ k r, 0 ≤ out.2.C k r) ∧
    (∀ i r, 1 / 10 ≤ out.2.A i r ∧ out.2.A i r < 11 / 10) ∧
    √(raggedSq (out.1 - out.2.recon)) = |level| * √(raggedSq out.2.recon) := by
  intro out
  refine ⟨fun i i' => ?_, fun i j r => ?_, fun k r => ?_, fun i r => ?_, ?_⟩
  · show (roll blueprint i)ᵀ * roll blueprint i = (roll blueprint i')ᵀ * roll blueprint i'
    rw [roll_gram, roll_gram]
  · exact normPdf_pos _ _
  · show 0 ≤ if z k r < 0 then 0 else z k r
    split
    · exact le_rfl
    · linarith
  · show 1 / 10 ≤ u i r + 1 / 10 ∧ u i r + 1 / 10 < 11 / 10
    obtain ⟨h1, h2⟩ := hu i r
    constructor <;> linarith
  · set F := simFactors u z
    have hs : ∀ X : Ragged 15 20 (fun _ => 50), stackNorm X = √(raggedSq X) := fun X => rfl
    have hclean : F.recon = simClean F := rfl
    show √(raggedSq (simNoisy level (simClean F) noise - F.recon)) = |level| * √(raggedSq F.recon)
    rw [hclean, ← hs (simClean F)]
    set s := level * (stackNorm (simClean F) / stackNorm noise) with hsdef
    have hdiff : raggedSq (simNoisy level (simClean F) noise - simClean F) = s ^ 2 * raggedSq noise := by
      unfold raggedSq sqNorm
      simp only [mul_sum]
      refine sum_congr rfl fun i _ => sum_congr rfl fun j _ => sum_congr rfl fun k _ => ?_
      show (simClean F i j k + s * noise i j k - simClean F i j k) ^ 2 = _
      ring
    have hpos : 0 < raggedSq noise := by
      have h0 : 0 ≤ raggedSq noise := sum_nonneg fun i _ => sum_nonneg fun j _ => sum_nonneg fun k _ => sq_nonneg _
      refine h0.lt_of_ne fun h => hn ?_
      funext i
      ext j k
      have e1 := (sum_eq_zero_iff_of_nonneg fun i _ => sum_nonneg fun j _ => sum_nonneg fun k _ => sq_nonneg (noise i j k)).mp h.symm i (mem_univ _)
      have e2 := (sum_eq_zero_iff_of_nonneg fun j _ => sum_nonneg fun k _ => sq_nonneg (noise i j k)).mp e1 j (mem_univ _)
      have e3 := (sum_eq_zero_iff_of_nonneg fun k _ => sq_nonneg (noise i j k)).mp e2 k (mem_univ _)
      simpa using e3
    have hsq : 0 < √(raggedSq noise) := Real.sqrt_pos.mpr hpos
    rw [hdiff, Real.sqrt_mul (sq_nonneg s), Real.sqrt_sq_eq_abs, hsdef, abs_mul, hs noise, abs_div, abs_of_pos hsq,
      abs_of_nonneg (show 0 ≤ stackNorm (simClean F) from Real.sqrt_nonneg _)]
    field_simp

theorem roll_apply {m n : ℕ} [NeZero m] (X : Matrix (Fin m) (Fin n) ℝ) (i : ℕ) (j : Fin m) (r : Fin n) : roll X i j r = X (j - Fin.ofNat m i) r := rfl

/-- A column that first decreases and later increases is not unimodal. -/
theorem not_unimodal {n : ℕ} {x : Fin n → ℝ} {a b c : Fin n} (hab : a ≤ b) (hbc : b ≤ c) (h1 : x b < x a) (h2 : x b < x c) : ¬ IsUnimodal x := by
  rintro ⟨t, hup, hdown⟩
  rcases le_total b t with h | h
  · exact absurd (hup a b hab h) (not_le.mpr h1)
  · exact absurd (hdown b c h hbc) (not_le.mpr h2)

/-- The columns of `B₀` are unimodal. -/
theorem C57_first (u : Matrix (Fin 15) (Fin 3) ℝ) (z : Matrix (Fin 20) (Fin 3) ℝ) (r : Fin 3) : IsUnimodal fun j => (simFactors u z).B 0 j r := by
  have hB : ∀ j, (simFactors u z).B 0 j r = normPdf (locs r) (grid j) := by
    intro j
    show blueprint (j - Fin.ofNat 50 0) r = _
    rw [show j - Fin.ofNat 50 0 = j from sub_zero j]
    rfl
  simp only [hB]
  have hmono : ∀ {i j : Fin 50}, i ≤ j → grid i ≤ grid j := by
    intro i j h
    unfold grid
    have : (i : ℝ) ≤ (j : ℝ) := by exact_mod_cast h
    linarith
  have key : ∀ (m : ℝ) (t t' : Fin 50), (t : ℕ) + 1 = t' → grid t ≤ m → m ≤ grid t' → IsUnimodal fun j => normPdf m (grid j) := by
    intro m t t' htt h1 h2
    by_cases hc : (grid t - m) ^ 2 ≤ (grid t' - m) ^ 2
    · refine ⟨t, fun i j hij hj => normPdf_le ?_, fun i j hi hij => normPdf_le ?_⟩
      · have := hmono hij; have := hmono hj; nlinarith
      · rcases eq_or_lt_of_le hi with rfl | hi
        · rcases eq_or_lt_of_le hij with rfl | hij
          · exact le_rfl
          · have : grid t' ≤ grid j := hmono (by rw [Fin.le_def, ← htt]; exact hij)
            nlinarith
        · have : grid t' ≤ grid i := hmono (by rw [Fin.le_def, ← htt]; exact hi)
          have := hmono hij
          nlinarith
    · refine ⟨t', fun i j hij hj => normPdf_le ?_, fun i j hi hij => normPdf_le ?_⟩
      · rcases eq_or_lt_of_le hj with rfl | hj
        · rcases eq_or_lt_of_le hij with rfl | hij
          · exact le_rfl
          · have : grid i ≤ grid t := hmono (by rw [Fin.le_def]; rw [Fin.lt_def, ← htt] at hij; omega)
            nlinarith
        · have : grid j ≤ grid t := hmono (by rw [Fin.le_def]; rw [Fin.lt_def, ← htt] at hj; omega)
          have := hmono hij
          nlinarith
      · have := hmono hi; have := hmono hij; nlinarith
  fin_cases r
  · exact key (-5) 12 13 rfl (by unfold grid; norm_num [Fin.val_ofNat]) (by unfold grid; norm_num [Fin.val_ofNat])
  · exact key 0 24 25 rfl (by unfold grid; norm_num [Fin.val_ofNat]) (by unfold grid; norm_num [Fin.val_ofNat])
  · exact key 2 29 30 rfl (by unfold grid; norm_num [Fin.val_ofNat]) (by unfold grid; norm_num [Fin.val_ofNat])

/-- C57 is false: for every draw and every `i ≥ 1` the third column of `Bᵢ` is not unimodal, because the end of the density is moved to
the front. -/
theorem C57_false (u : Matrix (Fin 15) (Fin 3) ℝ) (z : Matrix (Fin 20) (Fin 3) ℝ) (i : Fin 15) (hi : i ≠ 0) :
    ¬ IsUnimodal fun j => (simFactors u z).B i j 2 := by
  have hB : ∀ j, (simFactors u z).B i j 2 = normPdf 2 (grid (j - Fin.ofNat 50 i)) := fun j => rfl
  simp only [hB]
  have hival : 1 ≤ (i : ℕ) ∧ (i : ℕ) ≤ 14 := ⟨Nat.one_le_iff_ne_zero.mpr fun h => hi (Fin.ext h), by omega⟩
  have hsub : ∀ (j : Fin 50) (k : ℕ) (hk : k < 50), (k + i) % 50 = j → j - Fin.ofNat 50 i = ⟨k, hk⟩ := by
    intro j k hk h
    rw [sub_eq_iff_eq_add]
    ext
    rw [Fin.val_add, ← h]
    simp only [Fin.val_ofNat]
    omega
  have e1 := hsub ⟨i - 1, by omega⟩ 49 (by omega) (by show (49 + (i : ℕ)) % 50 = i - 1; omega)
  have e2 := hsub ⟨i, by omega⟩ 0 (by omega) (by show (0 + (i : ℕ)) % 50 = i; omega)
  have e3 := hsub ⟨i + 29, by omega⟩ 29 (by omega) (by show (29 + (i : ℕ)) % 50 = i + 29; omega)
  refine not_unimodal (a := ⟨i - 1, by omega⟩) (b := ⟨i, by omega⟩) (c := ⟨i + 29, by omega⟩) (by simp [Fin.le_def]) (by simp [Fin.le_def]) ?_ ?_
  · rw [e1, e2]
    refine normPdf_lt ?_
    unfold grid; norm_num
  · rw [e2, e3]
    refine normPdf_lt ?_
    unfold grid; norm_num

/-- From the third matrix on, no column of `Bᵢ` is unimodal. (For `i = 1` one value is moved, which is at most the next one in the first two columns.) -/
theorem C57_false_all (u : Matrix (Fin 15) (Fin 3) ℝ) (z : Matrix (Fin 20) (Fin 3) ℝ) (i : Fin 15) (hi : 2 ≤ (i : ℕ)) (r : Fin 3) :
    ¬ IsUnimodal fun j => (simFactors u z).B i j r := by
  have hB : ∀ j, (simFactors u z).B i j r = normPdf (locs r) (grid (j - Fin.ofNat 50 i)) := fun j => rfl
  simp only [hB]
  have hi' : (i : ℕ) ≤ 14 := by omega
  have hsub : ∀ (j : Fin 50) (k : ℕ) (hk : k < 50), (k + i) % 50 = j → j - Fin.ofNat 50 i = ⟨k, hk⟩ := by
    intro j k hk h
    rw [sub_eq_iff_eq_add]
    ext
    rw [Fin.val_add, ← h]
    simp only [Fin.val_ofNat]
    omega
  have e1 := hsub ⟨0, by omega⟩ (50 - i) (by omega) (by show (50 - (i : ℕ) + i) % 50 = 0; omega)
  have e2 := hsub ⟨i - 1, by omega⟩ 49 (by omega) (by show (49 + (i : ℕ)) % 50 = i - 1; omega)
  have e3 := hsub ⟨i + 20, by omega⟩ 20 (by omega) (by show (20 + (i : ℕ)) % 50 = i + 20; omega)
  have hl : -5 ≤ locs r ∧ locs r ≤ 2 := by fin_cases r <;> simp [locs] <;> norm_num
  have g1 : grid ⟨50 - i, by omega⟩ ≤ 10 - 20 / 49 ∧ 4 ≤ grid ⟨50 - i, by omega⟩ := by
    unfold grid
    have h1 : ((50 - (i : ℕ) : ℕ) : ℝ) ≤ 48 := by exact_mod_cast (by omega : 50 - (i : ℕ) ≤ 48)
    have h2 : (36 : ℝ) ≤ ((50 - (i : ℕ) : ℕ) : ℝ) := by exact_mod_cast (by omega : 36 ≤ 50 - (i : ℕ))
    constructor <;> simp only <;> linarith
  have g2 : grid ⟨49, by omega⟩ = 10 := by unfold grid; norm_num
  have g3 : grid ⟨20, by omega⟩ = -10 + 20 * (20 / 49) := by unfold grid; norm_num
  refine not_unimodal (a := ⟨0, by omega⟩) (b := ⟨i - 1, by omega⟩) (c := ⟨i + 20, by omega⟩) (by simp) (by simp [Fin.le_def]; omega) ?_ ?_
  · rw [e1, e2]
    refine normPdf_lt ?_
    rw [g2]
    nlinarith [g1.1, g1.2, hl.1, hl.2]
  · rw [e2, e3]
    refine normPdf_lt ?_
    rw [g2, g3]
    nlinarith [hl.1, hl.2]

/-- A case: constant draws, one noise entry. -/
example : ∃ noise : Ragged 15 20 (fun _ => 50), noise ≠ 0 ∧ ∀ i r, (0 : ℝ) ≤ (fun _ _ => 1 / 2 : Matrix (Fin 15) (Fin 3) ℝ) i r ∧
    (fun _ _ => 1 / 2 : Matrix (Fin 15) (Fin 3) ℝ) i r < 1 :=
  ⟨fun _ => Matrix.of fun _ _ => 1, fun h => by
    have := congrFun (congrFun (congrFun h 0) 0) 0
    exact one_ne_zero this, fun i r => by norm_num⟩

end Verif.Props
