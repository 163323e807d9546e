import Verif.Data.Etch
import Mathlib.Tactic.Linarith
import Mathlib.Data.List.Basic

/-!
# C69, C70: formatted datasets describe the samples and hours of the raw files
-/

namespace Verif.Props

open Verif.Data

variable {α : Type}

/-! ### Specification -/

/-- The file name `s` is one character, the sample name `n`, and nothing or an extension. -/
def IsSampleName (s n : List Char) : Prop := ∃ c tail, s = c :: (n ++ tail) ∧ '.' ∉ c :: n ∧ (tail = [] ∨ ∃ t, tail = '.' :: t)

/-- Data `d` and metadata `m` (with their keys) describe the sample with file name `s` and array `X`: all rows but the last, columns from the third for the data, the
first two columns for the metadata. -/
structure Describes (int : List Char → Except PyErr ℤ) (labels : List (List Char)) (s : List Char) (X : Arr α) (fault : Option (List Char))
    (d : List Char × Frame α) (m : List Char × Meta α) : Prop where
  name : IsSampleName s d.1
  key : m.1 = d.1
  columns : d.2.columns = labels
  cols : X.cols = labels.length + 2
  rows : d.2.rows = X.rows - 1 ∧ m.2.rows = X.rows - 1
  data : ∀ i j, d.2.get i j = X.get i (j + 2)
  time : ∀ i, m.2.time i = X.get i 0
  step : ∀ i, m.2.step i = X.get i 1
  experiment : int (d.1.take 2) = .ok m.2.experiment
  sample : int (d.1.drop 2) = .ok m.2.sample
  fault : m.2.fault = fault

/-- Names that are used by the function: one for each array. -/
def DistinctNames (names : List (List Char)) (N : ℕ) : Prop :=
  ∀ (k l : ℕ) (s t n : List Char), k < N → l < N → names[k]? = some s → names[l]? = some t → IsSampleName s n → IsSampleName t n → k = l

/-! ### Helper lemmas -/

theorem sampleName_of {s n : List Char} (h : IsSampleName s n) : sampleName s = n := by
  obtain ⟨c, tail, rfl, hd, ht⟩ := h
  have h1 : ∀ x ∈ c :: n, decide (x ≠ '.') = true := by
    intro x hx
    simp only [decide_eq_true_eq]
    rintro rfl
    exact hd hx
  unfold sampleName
  rw [show c :: (n ++ tail) = (c :: n) ++ tail from rfl, List.takeWhile_append_of_pos h1]
  rcases ht with rfl | ⟨t, rfl⟩
  · simp
  · simp

theorem dictSet_new {κ v : Type} [DecidableEq κ] (key : κ) (val : v) : ∀ d : List (κ × v), key ∉ d.map (·.1) → dictSet key val d = d ++ [(key, val)]
  | [], _ => rfl
  | (k, x) :: d, h => by
    simp only [List.map_cons, List.mem_cons, not_or] at h
    rw [dictSet, if_neg (Ne.symm h.1), dictSet_new key val d h.2]
    rfl

theorem dictOf_nodup {κ v : Type} [DecidableEq κ] {l : List (κ × v)} (h : (l.map (·.1)).Nodup) : dictOf l = l := by
  have key : ∀ (l acc : List (κ × v)), ((acc ++ l).map (·.1)).Nodup → l.foldl (fun d p => dictSet p.1 p.2 d) acc = acc ++ l := by
    intro l
    induction l with
    | nil => intro acc _; simp
    | cons p l ih =>
      intro acc hn
      rw [List.foldl_cons, dictSet_new, ih]
      · simp
      · simpa using hn
      · rw [List.map_append, List.map_cons] at hn
        have := (List.nodup_append.mp hn).2.2
        intro hm
        exact this _ hm _ (by simp) rfl
  have := key l [] (by simpa using h)
  rwa [List.nil_append] at this

theorem mapM_getElem {β γ : Type} {f : β → Except PyErr γ} : ∀ {l : List β} {r : List γ}, l.mapM f = .ok r →
    r.length = l.length ∧ ∀ (k : ℕ) (a : β), l[k]? = some a → ∃ b, r[k]? = some b ∧ f a = .ok b
  | [], r, h => by
    cases h
    simp
  | a :: l, r, h => by
    rw [List.mapM_cons] at h
    obtain ⟨b, hb, h⟩ := bind_ok.mp h
    obtain ⟨r', hr', h⟩ := bind_ok.mp h
    cases h
    obtain ⟨h1, h2⟩ := mapM_getElem hr'
    refine ⟨by simp [h1], fun k x hx => ?_⟩
    cases k with
    | zero =>
      simp only [List.getElem?_cons_zero, Option.some.injEq] at hx
      subst hx
      exact ⟨b, by simp, hb⟩
    | succ k =>
      simp only [List.getElem?_cons_succ] at hx
      simpa using h2 k x hx

theorem map_fst_of_mapM {β γ δ : Type} {f : β × γ → Except PyErr δ} {l : List (β × γ)} {r : List (β × δ)}
    (h : l.mapM (fun p => do return (p.1, ← f p)) = .ok r) : r.map (·.1) = l.map (·.1) := by
  obtain ⟨h1, h2⟩ := mapM_getElem h
  refine List.ext_getElem? fun k => ?_
  rw [List.getElem?_map, List.getElem?_map]
  cases hk : l[k]? with
  | none =>
    have : l.length ≤ k := List.getElem?_eq_none_iff.mp hk
    rw [List.getElem?_eq_none_iff.mpr (by omega)]
    rfl
  | some a =>
    obtain ⟨b, hb, hf⟩ := h2 k a hk
    rw [hb]
    obtain ⟨c, -, hc⟩ := bind_ok.mp hf
    cases hc
    rfl

theorem metaOf_key {int : List Char → Except PyErr ℤ} {mats : List (Arr α)} {faults : Option (List (List Char))} {p : List Char × ℕ}
    {m : List Char × Meta α} (h : metaOf int mats faults p = .ok m) :
    m.1 = p.1 ∧ ∃ X, mats[p.2]? = some X ∧ 2 ≤ X.cols ∧ m.2.rows = X.rows - 1 ∧ (∀ i, m.2.time i = X.get i 0) ∧ (∀ i, m.2.step i = X.get i 1) ∧
      int (p.1.take 2) = .ok m.2.experiment ∧ int (p.1.drop 2) = .ok m.2.sample ∧
      ((faults = none ∧ m.2.fault = none) ∨ ∃ fs f, faults = some fs ∧ fs[p.2]? = some f ∧ m.2.fault = some f) := by
  unfold metaOf at h
  obtain ⟨X, hX, h⟩ := bind_ok.mp h
  obtain ⟨y, hy, h⟩ := bind_ok.mp h
  have hX' : mats[p.2]? = some X := by
    unfold listGet at hX
    split at hX
    · cases hX; assumption
    · cases hX
  unfold metaFrame at hy
  split at hy
  · cases hy
  · rename_i hc
    obtain ⟨e, he, hy⟩ := bind_ok.mp hy
    obtain ⟨s, hs, hy⟩ := bind_ok.mp hy
    cases hy
    cases faults with
    | none =>
      cases h
      exact ⟨rfl, X, hX', by omega, rfl, fun _ => rfl, fun _ => rfl, he, hs, .inl ⟨rfl, rfl⟩⟩
    | some fs =>
      simp only at h
      obtain ⟨f, hf, h⟩ := bind_ok.mp h
      cases h
      refine ⟨rfl, X, hX', by omega, rfl, fun _ => rfl, fun _ => rfl, he, hs, .inr ⟨fs, f, rfl, ?_, rfl⟩⟩
      unfold listGet at hf
      split at hf
      · cases hf; assumption
      · cases hf

/-- One half of the function. -/
theorem etchPart_aligned {int : List Char → Except PyErr ℤ} {labels names : List (List Char)} {mats : List (Arr α)} {faults : Option (List (List Char))}
    {data : List (List Char × Frame α)} {metas : List (List Char × Meta α)} (h : etchPart int labels names mats faults = .ok (data, metas))
    (hform : ∀ s ∈ names, ∃ n, IsSampleName s n) (hd : DistinctNames names mats.length) :
    data.length = min names.length mats.length ∧ metas.length = min names.length mats.length ∧
    ∀ (k : ℕ) s X, names[k]? = some s → mats[k]? = some X → ∃ d m f, data[k]? = some d ∧ metas[k]? = some m ∧
      ((faults = none ∧ f = none) ∨ ∃ fs g, faults = some fs ∧ fs[k]? = some g ∧ f = some g) ∧ Describes int labels s X f d m := by
  unfold etchPart at h
  obtain ⟨frames, hfr, h⟩ := bind_ok.mp h
  obtain ⟨ms, hms, h⟩ := bind_ok.mp h
  cases h
  have hkeys := map_fst_of_mapM hfr
  have hnd : (frames.map (·.1)).Nodup := by
    rw [hkeys, List.nodup_iff_injective_getElem]
    rintro ⟨k, hk⟩ ⟨l, hl⟩ he
    simp only [List.length_map, List.length_zip, lt_min_iff] at hk hl
    simp only [List.getElem_map, List.getElem_zip] at he
    obtain ⟨n, hn⟩ := hform _ (List.getElem_mem hk.1)
    obtain ⟨n', hn'⟩ := hform _ (List.getElem_mem hl.1)
    rw [sampleName_of hn, sampleName_of hn'] at he
    subst he
    exact Fin.ext (hd k l _ _ _ hk.2 hl.2 (List.getElem?_eq_getElem hk.1) (List.getElem?_eq_getElem hl.1) hn hn')
  rw [dictOf_nodup hnd] at hms ⊢
  obtain ⟨hlen1, hel1⟩ := mapM_getElem hfr
  obtain ⟨hlen2, hel2⟩ := mapM_getElem hms
  have hkeys2 : ms.map (·.1) = frames.map (·.1) := by
    refine List.ext_getElem? fun k => ?_
    cases hk : (frames.map (·.1))[k]? with
    | none =>
      rw [List.getElem?_eq_none_iff] at hk ⊢
      simp only [List.length_map] at hk ⊢
      rw [hlen2, List.length_zipIdx, List.length_map]
      exact hk
    | some a =>
      obtain ⟨b, hb, hf⟩ := hel2 k (a, k) (by rw [List.getElem?_zipIdx, hk]; simp)
      rw [List.getElem?_map, hb]
      exact congrArg some (metaOf_key hf).1
  have hnd2 : (ms.map (·.1)).Nodup := by rw [hkeys2]; exact hnd
  rw [dictOf_nodup hnd2]
  have hL : frames.length = min names.length mats.length := by rw [hlen1]; simp
  refine ⟨hL, by rw [hlen2]; simp [hL], fun k s X hs hX => ?_⟩
  obtain ⟨d, hd1, hd2⟩ := hel1 k (sampleName s, X) (by
    rw [List.getElem?_zip_eq_some]
    exact ⟨by rw [List.getElem?_map, hs]; rfl, hX⟩)
  obtain ⟨fr, hfr1, hd3⟩ := bind_ok.mp hd2
  cases hd3
  obtain ⟨m, hm1, hm2⟩ := hel2 k (sampleName s, k) (by rw [List.getElem?_zipIdx, List.getElem?_map, hd1]; simp)
  obtain ⟨e1, X', eX, hc, e2, e3, e4, e5, e6, e7⟩ := metaOf_key hm2
  obtain rfl : X = X' := by rw [hX] at eX; exact Option.some.inj eX
  obtain ⟨n, hn⟩ := hform s (List.mem_of_getElem? hs)
  have hnn := sampleName_of hn
  unfold dataFrame at hfr1
  split at hfr1
  · rename_i hcols
    have hcols : X.cols - 2 = labels.length := hcols
    cases hfr1
    refine ⟨_, m, m.2.fault, hd1, hm1, ?_, ⟨?_, e1, rfl, by omega, ⟨rfl, e2⟩, fun _ _ => rfl, e3, e4, e5, e6, rfl⟩⟩
    · exact e7
    · show IsSampleName s (sampleName s)
      rw [hnn]; exact hn
  · cases hfr1

/-! ### C69 -/

/-- C69: with well-formed file names and distinct sample names, entry `k` of the returned training (test) data and of its metadata both describe sample `k` of
the raw file. -/
theorem C69 (int : List Char → Except PyErr ℤ) (raw : EtchRaw α) (out : EtchOut α) (h : etchMachineData int raw = .ok out)
    (hf1 : ∀ s ∈ raw.calibNames, ∃ n, IsSampleName s n) (hf2 : ∀ s ∈ raw.testNames, ∃ n, IsSampleName s n)
    (hd1 : DistinctNames raw.calibNames raw.calibration.length) (hd2 : DistinctNames raw.testNames raw.test.length) :
    (out.train.length = min raw.calibNames.length raw.calibration.length ∧ out.trainMeta.length = out.train.length ∧
      ∀ (k : ℕ) s X, raw.calibNames[k]? = some s → raw.calibration[k]? = some X → ∃ d m, out.train[k]? = some d ∧ out.trainMeta[k]? = some m ∧
        Describes int (raw.varNames.drop 2) s X none d m) ∧
    out.test.length = min raw.testNames.length raw.test.length ∧ out.testMeta.length = out.test.length ∧
      ∀ (k : ℕ) s X, raw.testNames[k]? = some s → raw.test[k]? = some X → ∃ d m f, out.test[k]? = some d ∧ out.testMeta[k]? = some m ∧
        raw.faultNames[k]? = some f ∧ Describes int (raw.varNames.drop 2) s X (some f) d m := by
  unfold etchMachineData at h
  obtain ⟨⟨a, b⟩, h1, h⟩ := bind_ok.mp h
  obtain ⟨⟨c, d⟩, h2, h⟩ := bind_ok.mp h
  cases h
  obtain ⟨l1, l2, l3⟩ := etchPart_aligned h1 hf1 hd1
  obtain ⟨l4, l5, l6⟩ := etchPart_aligned h2 hf2 hd2
  refine ⟨⟨l1, by rw [l1, l2], fun k s X hs hX => ?_⟩, l4, by rw [l4, l5], fun k s X hs hX => ?_⟩
  · obtain ⟨x, y, f, hx, hy, hff, hxy⟩ := l3 k s X hs hX
    rcases hff with ⟨-, rfl⟩ | ⟨_, _, he, -⟩
    · exact ⟨x, y, hx, hy, hxy⟩
    · cases he
  · obtain ⟨x, y, f, hx, hy, hff, hxy⟩ := l6 k s X hs hX
    rcases hff with ⟨he, -⟩ | ⟨fs, g, he, hg, rfl⟩
    · cases he
    · cases he
      exact ⟨x, y, g, hx, hy, hg, hxy⟩

/-- Conversion of digits, the rest is rejected. -/
def digits (s : List Char) : Except PyErr ℤ :=
  if s ≠ [] ∧ s.all Char.isDigit then .ok (s.foldl (fun n c => 10 * n + (c.toNat - '0'.toNat : ℕ)) 0) else .error .valueError

/-- A small array: entry `(i, j)` of sample `k` is `100 k + 10 i + j`. -/
def exArr (k : ℕ) : Arr ℕ := ⟨3, 4, fun i j => 100 * k + 10 * i + j⟩

/-- A small raw file with distinct names. -/
def exRaw (names : List (List Char)) : EtchRaw ℕ :=
  ⟨["Time".toList, "Step".toList, "BCl3".toList, "Cl2".toList], names, [exArr 1, exArr 2, exArr 3],
    ["t3101.txm".toList, "t3102.txm".toList], [exArr 4, exArr 5], ["TCP +50".toList, "RF -12".toList]⟩

/-- C69 applies. -/
example : ∃ out, etchMachineData digits (exRaw ["l2901.txm".toList, "l2902.txm".toList, "l2903.txm".toList]) = .ok out ∧
    ∃ d m, out.train[1]? = some d ∧ out.trainMeta[1]? = some m ∧ d.1 = "2902".toList ∧ d.2.get 0 1 = 203 ∧ m.2.time 1 = 210 ∧ m.2.experiment = 29 ∧
      m.2.sample = 2 := by
  refine ⟨_, rfl, _, _, rfl, rfl, ?_, ?_, ?_, ?_, ?_⟩ <;> decide +kernel

/-- C69 needs distinct names: with a repeated name the last array is the data, and the metadata of later samples are taken from earlier arrays. -/
theorem C69_repeated : ∃ (raw : EtchRaw ℕ) (out : EtchOut ℕ), etchMachineData digits raw = .ok out ∧
    (∃ d, out.train[0]? = some d ∧ d.1 = "2901".toList ∧ d.2.get 0 0 = (exArr 2).get 0 2) ∧ ∃ d m, out.train[1]? = some d ∧ out.trainMeta[1]? = some m ∧ d.1 = "2902".toList ∧ m.1 = "2902".toList ∧
      d.2.get 0 0 = (exArr 3).get 0 2 ∧ m.2.time 0 = (exArr 2).get 0 0 ∧ m.2.time 0 ≠ (exArr 3).get 0 0 := by
  refine ⟨exRaw ["l2901.txm".toList, "l2901.txm".toList, "l2902.txm".toList], _, rfl, ⟨_, rfl, ?_, ?_⟩, _, _, rfl, rfl, ?_, ?_, ?_, ?_, ?_⟩ <;>
    decide +kernel

/-! ### C70 -/

/-- C70: if the columns of the three cities carry the same hours, then every column of every returned frame is labelled with its hour, rows keep their station and their
values. -/
theorem C70 (int : List Char → Except PyErr ℤ) (datasets : List (List Char × RawFrame α)) (cities : List (List Char × BikeFrame α))
    (md : RawFrame α × List ℤ) (h : bikeData int datasets = .ok (cities, md)) :
    cities.map (·.1) = ["oslo".toList, "trondheim".toList, "bergen".toList] ∧
    ∀ city fr, (city, fr) ∈ cities → ∃ raw oslo, dictGet datasets city = .ok raw ∧ dictGet datasets "oslo".toList = .ok oslo ∧
      fr.get = raw.get ∧ fr.columns.length = raw.columns.length ∧ raw.index.mapM int = .ok fr.index ∧
      (raw.columns = oslo.columns → raw.columns.mapM int = .ok fr.columns) := by
  unfold bikeData at h
  obtain ⟨oslo, h1, h⟩ := bind_ok.mp h
  obtain ⟨time, h2, h⟩ := bind_ok.mp h
  obtain ⟨cs, h3, h⟩ := bind_ok.mp h
  obtain ⟨m, h4, h⟩ := bind_ok.mp h
  obtain ⟨idx, h5, h⟩ := bind_ok.mp h
  cases h
  obtain ⟨g1, g2⟩ := mapM_getElem h3
  have hk : ∀ (k : ℕ) city, (["oslo".toList, "trondheim".toList, "bergen".toList] : List (List Char))[k]? = some city →
      ∃ fr raw, cities[k]? = some (city, fr) ∧ dictGet datasets city = .ok raw ∧ bikeCity int time raw = .ok fr := by
    intro k city hc
    obtain ⟨b, hb, hf⟩ := g2 k city hc
    obtain ⟨raw, hr, hf⟩ := bind_ok.mp hf
    obtain ⟨fr, hfr, hf⟩ := bind_ok.mp hf
    cases hf
    exact ⟨fr, raw, hb, hr, hfr⟩
  constructor
  · refine List.ext_getElem? fun k => ?_
    cases hc : (["oslo".toList, "trondheim".toList, "bergen".toList] : List (List Char))[k]? with
    | none =>
      rw [List.getElem?_eq_none_iff] at hc ⊢
      rw [List.length_map, g1]
      exact hc
    | some city =>
      obtain ⟨fr, raw, e, -, -⟩ := hk k city hc
      rw [List.getElem?_map, e]
      rfl
  · intro city fr hm
    obtain ⟨k, hk'⟩ := List.mem_iff_getElem?.mp hm
    have hlt : k < cities.length := (List.getElem?_eq_some_iff.mp hk').1
    obtain ⟨c, hc⟩ : ∃ c, (["oslo".toList, "trondheim".toList, "bergen".toList] : List (List Char))[k]? = some c :=
      ⟨_, List.getElem?_eq_getElem (by rw [← g1]; exact hlt)⟩
    obtain ⟨fr', raw, e, hr, hb⟩ := hk k c hc
    rw [hk'] at e
    obtain ⟨rfl, rfl⟩ : city = c ∧ fr = fr' := by simpa using e
    unfold bikeCity at hb
    split at hb
    · cases hb
    · rename_i hl
      obtain ⟨ix, hix, hb⟩ := bind_ok.mp hb
      cases hb
      refine ⟨raw, oslo, hr, h1, rfl, by push Not at hl; exact hl, hix, fun he => ?_⟩
      rw [he]; exact h2

/-- A small frame: two hours, one station. -/
def exBike (cols : List (List Char)) : RawFrame ℕ := ⟨cols, ["7".toList], fun i j => i + j⟩

/-- C70 applies. -/
example : ∃ cities md, bikeData digits [("oslo".toList, exBike ["2304".toList, "2305".toList]), ("bergen".toList, exBike ["2304".toList, "2305".toList]),
      ("trondheim".toList, exBike ["2304".toList, "2305".toList]), ("station_metadata".toList, exBike ["lat".toList])] = .ok (cities, md) ∧
    ∃ fr, (cities[2]? = some ("bergen".toList, fr)) ∧ fr.columns = [2304, 2305] ∧ fr.index = [7] := by
  refine ⟨_, _, rfl, _, rfl, ?_, ?_⟩ <;> decide +kernel

/-- C70 needs equal hours: other hours in as many columns are relabelled silently. -/
theorem C70_other_hours : ∃ datasets : List (List Char × RawFrame ℕ), ∃ cities md, bikeData digits datasets = .ok (cities, md) ∧
    ∃ fr raw, cities[2]? = some ("bergen".toList, fr) ∧ dictGet datasets "bergen".toList = .ok raw ∧ raw.columns.mapM digits ≠ .ok fr.columns := by
  refine ⟨[("oslo".toList, exBike ["2304".toList, "2305".toList]), ("bergen".toList, exBike ["2305".toList, "2306".toList]),
      ("trondheim".toList, exBike ["2304".toList, "2305".toList]), ("station_metadata".toList, exBike ["lat".toList])], _, _, rfl, _, _, rfl, rfl, ?_⟩
  intro h
  have : (.ok [2305, 2306] : Except PyErr (List ℤ)) = .ok [2304, 2305] := h
  cases this

/-! ### Missing data sets -/

theorem dictGet_mem {κ v : Type} [DecidableEq κ] {d : List (κ × v)} {key : κ} (h : key ∈ d.map Prod.fst) : ∃ x, (key, x) ∈ d ∧ dictGet d key = .ok x := by
  unfold dictGet
  cases hf : d.find? (fun p => p.1 = key) with
  | none =>
    obtain ⟨p, hp, rfl⟩ := List.mem_map.1 h
    simpa using List.find?_eq_none.1 hf p hp
  | some p =>
    have h1 := List.find?_some hf
    have h2 := List.mem_of_find?_eq_some hf
    simp only [decide_eq_true_eq] at h1
    subst h1
    exact ⟨p.2, h2, rfl⟩

theorem dictGet_not_mem {κ v : Type} [DecidableEq κ] {d : List (κ × v)} {key : κ} (h : key ∉ d.map Prod.fst) : dictGet d key = .error .keyError := by
  unfold dictGet
  cases hf : d.find? (fun p => p.1 = key) with
  | none => rfl
  | some p =>
    have h1 := List.find?_some hf
    have h2 := List.mem_of_find?_eq_some hf
    simp only [decide_eq_true_eq] at h1
    exact absurd (h1 ▸ List.mem_map_of_mem h2) h

/-- The call with readable labels and frames of one width: it returns if the file has the three cities and the station metadata, and raises KeyError otherwise. -/
theorem C70_keys (int : List Char → Except PyErr ℤ) (hint : ∀ s, ∃ z, int s = .ok z) (datasets : List (List Char × RawFrame α))
    (hlen : ∀ p ∈ datasets, ∀ q ∈ datasets, p.2.columns.length = q.2.columns.length) :
    ((∃ r, bikeData int datasets = .ok r) ∧ ∀ key ∈ ["oslo", "trondheim", "bergen", "station_metadata"], key.toList ∈ datasets.map Prod.fst) ∨
    (bikeData int datasets = .error .keyError ∧ ∃ key ∈ ["oslo", "trondheim", "bergen", "station_metadata"], key.toList ∉ datasets.map Prod.fst) := by
  have hm : ∀ l : List (List Char), ∃ zs, l.mapM int = .ok zs ∧ zs.length = l.length := by
    intro l
    choose f hf using hint
    exact ⟨l.map f, mapM_ok _ _ _ fun x _ => hf x, by simp⟩
  by_cases h1 : "oslo".toList ∈ datasets.map Prod.fst
  swap
  · refine .inr ⟨?_, _, List.mem_cons_self, h1⟩
    unfold bikeData
    rw [dictGet_not_mem h1]; rfl
  obtain ⟨oslo, ho, ho'⟩ := dictGet_mem h1
  obtain ⟨time, ht, htl⟩ := hm oslo.columns
  have hc : ∀ c df, (c, df) ∈ datasets → ∃ fr, bikeCity int time df = .ok fr := by
    intro c df h
    obtain ⟨idx, hi, -⟩ := hm df.index
    refine ⟨⟨time, idx, df.get⟩, ?_⟩
    unfold bikeCity
    rw [if_neg (by rw [htl, hlen _ ho _ h]; simp), hi]
    rfl
  obtain ⟨f1, hf1⟩ := hc _ _ ho
  by_cases h2 : "trondheim".toList ∈ datasets.map Prod.fst
  swap
  · refine .inr ⟨?_, _, List.mem_cons_of_mem _ List.mem_cons_self, h2⟩
    unfold bikeData
    rw [ho']
    show (oslo.columns.mapM int >>= _) = _
    rw [ht]
    simp only [List.mapM_cons, ho', hf1, dictGet_not_mem h2, bind, Except.bind, pure, Except.pure]
  obtain ⟨tr, htr, htr'⟩ := dictGet_mem h2
  obtain ⟨f2, hf2⟩ := hc _ _ htr
  by_cases h3 : "bergen".toList ∈ datasets.map Prod.fst
  swap
  · refine .inr ⟨?_, _, List.mem_cons_of_mem _ (List.mem_cons_of_mem _ List.mem_cons_self), h3⟩
    unfold bikeData
    rw [ho']
    show (oslo.columns.mapM int >>= _) = _
    rw [ht]
    simp only [List.mapM_cons, ho', hf1, htr', hf2, dictGet_not_mem h3, bind, Except.bind, pure, Except.pure]
  obtain ⟨be, hbe, hbe'⟩ := dictGet_mem h3
  obtain ⟨f3, hf3⟩ := hc _ _ hbe
  by_cases h4 : "station_metadata".toList ∈ datasets.map Prod.fst
  swap
  · refine .inr ⟨?_, _, by simp, h4⟩
    unfold bikeData
    rw [ho']
    show (oslo.columns.mapM int >>= _) = _
    rw [ht]
    simp only [List.mapM_cons, List.mapM_nil, ho', hf1, htr', hf2, hbe', hf3, dictGet_not_mem h4, bind, Except.bind, pure, Except.pure]
  obtain ⟨md, -, hmd⟩ := dictGet_mem h4
  obtain ⟨idx, hi, -⟩ := hm md.index
  refine .inl ⟨?_, ?_⟩
  · unfold bikeData
    rw [ho']
    show ∃ r, (oslo.columns.mapM int >>= _) = _
    rw [ht]
    simp only [List.mapM_cons, List.mapM_nil, ho', hf1, htr', hf2, hbe', hf3, hmd, hi, bind, Except.bind, pure, Except.pure]
    exact ⟨_, rfl⟩
  · intro key hk
    simp only [List.mem_cons, List.not_mem_nil, or_false] at hk
    rcases hk with rfl | rfl | rfl | rfl <;> assumption

/-- C70_keys applies to a file without the station metadata. -/
example : bikeData (fun s => .ok s.length) [("oslo".toList, ⟨["1".toList], ["x".toList], fun _ _ => (0 : ℕ)⟩),
    ("trondheim".toList, ⟨["22".toList], [], fun _ _ => 0⟩), ("bergen".toList, ⟨["3".toList], [], fun _ _ => 0⟩)] = .error .keyError := by
  rcases C70_keys (fun s => .ok s.length) (fun s => ⟨_, rfl⟩) [("oslo".toList, ⟨["1".toList], ["x".toList], fun _ _ => (0 : ℕ)⟩),
    ("trondheim".toList, ⟨["22".toList], [], fun _ _ => 0⟩), ("bergen".toList, ⟨["3".toList], [], fun _ _ => 0⟩)] (by simp) with ⟨-, h⟩ | ⟨h, -⟩
  · exact absurd (h "station_metadata" (by simp)) (by simp)
  · exact h

end Verif.Props
