import Verif.Data.Cache
import Verif.Tac

/-!
# C55, C56, C63: the dataset cache
-/

namespace Verif.Props

open Verif.Data

variable {δ : Type}

/-! ### One file -/

/-- How one file is handled, case by case. -/
inductive OneFile (srv : Server) (loadmat : Bytes → Except PyErr δ) (download save : Bool) (w : World) (name url : String) : Outcome δ → Prop
  | localFile (b : Bytes) : w.file name = some b → OneFile srv loadmat download save w name url ⟨[], w, loadmat b⟩
  | refused : w.file name = none → download = false → OneFile srv loadmat download save w name url ⟨[], w, .error .runtimeError⟩
  | network (w₁ : World) : w.file name = none → download = true → w₁ = ⟨w.dir, w.file, w.net ++ [url]⟩ → srv w.net.length url = .failed →
      OneFile srv loadmat download save w name url ⟨[w₁], w₁, .error .osError⟩
  | status (w₁ : World) (s : ℕ) (c : Bytes) : w.file name = none → download = true → w₁ = ⟨w.dir, w.file, w.net ++ [url]⟩ →
      srv w.net.length url = .response s c → s ≠ 200 → OneFile srv loadmat download save w name url ⟨[w₁], w₁, .error .runtimeError⟩
  | unsaved (w₁ : World) (c : Bytes) : w.file name = none → download = true → w₁ = ⟨w.dir, w.file, w.net ++ [url]⟩ →
      srv w.net.length url = .response 200 c → save = false → OneFile srv loadmat download save w name url ⟨[w₁], w₁, loadmat c⟩
  | saved (st : List World) (w₂ : World) (c : Bytes) : w.file name = none → download = true → srv w.net.length url = .response 200 c → save = true →
      w₂ = ⟨true, fun f => if f = name then some c else w.file f, w.net ++ [url]⟩ →
      (∀ v ∈ st, v.net = w.net ++ [url] ∧ (∀ f, f ≠ name → v.file f = w.file f) ∧ (v.file name = none ∨ ∃ n, v.file name = some (c.take n))) →
      (∀ n ≤ c.length, ∃ v ∈ st, v.file name = some (c.take n)) →
      OneFile srv loadmat download save w name url ⟨st, w₂, loadmat c⟩

theorem loadOne_cases (srv : Server) (loadmat : Bytes → Except PyErr δ) (download save : Bool) (w : World) (name url : String) :
    OneFile srv loadmat download save w name url (loadOne srv loadmat download save w name url) := by
  unfold loadOne
  cases hf : w.file name with
  | some b => exact .localFile b hf
  | none =>
    cases hd : download with
    | false => exact .refused hf rfl
    | true =>
      simp only [if_true]
      cases hs : srv w.net.length url with
      | failed => exact .network _ hf rfl rfl hs
      | response s c =>
        simp only
        by_cases h200 : s = 200
        · subst h200
          rw [if_neg (by simp)]
          cases hv : save with
          | false => exact .unsaved _ c hf rfl rfl hs rfl
          | true =>
            simp only [if_true, saveAndLoad, World.mkdir]
            refine .saved _ _ c hf rfl hs rfl rfl ?_ ?_
            · intro v hv
              simp only [List.mem_cons, List.mem_map] at hv
              rcases hv with rfl | rfl | ⟨n, -, rfl⟩
              · exact ⟨rfl, fun _ _ => rfl, .inl hf⟩
              · exact ⟨rfl, fun _ _ => rfl, .inl hf⟩
              · exact ⟨rfl, fun f hne => by simp [World.write, hne], .inr ⟨n, by simp [World.write]⟩⟩
            · intro n hn
              refine ⟨_, List.mem_cons_of_mem _ (List.mem_cons_of_mem _ (List.mem_map.mpr ⟨n, List.mem_range.mpr (by omega), rfl⟩)), ?_⟩
              simp [World.write]
        · rw [if_pos h200]
          exact .status _ s c hf rfl rfl hs h200

/-! ### All files: what a call observes -/

/-- The contents used for a file by a call: the local file, or else what the server answered to one of the requests of the call. -/
def Source (srv : Server) (w : World) (o : World) (name url : String) (c : Bytes) : Prop :=
  w.file name = some c ∨ (w.file name = none ∧ ∃ i, w.net.length ≤ i ∧ o.net[i]? = some url ∧ srv i url = .response 200 c)

/-- What a call may do (independent of the order of the steps): requests are appended to the log, only for files that are missing; a file changes only if it was
missing, and then holds what the server answered; every returned value is read from the source of the file. -/
structure CallSpec (srv : Server) (loadmat : Bytes → Except PyErr δ) (files : List (String × String)) (w : World)
    (o : Outcome (List (String × δ))) (acc : List (String × δ)) : Prop where
  net : ∃ new, o.world.net = w.net ++ new ∧ ∀ u ∈ new, ∃ f, (f, u) ∈ files ∧ w.file f = none
  stored : ∀ f, o.world.file f = w.file f ∨
    ∃ u c, (f, u) ∈ files ∧ w.file f = none ∧ o.world.file f = some c ∧ Source srv w o.world f u c
  values : ∀ out, o.result = .ok out → ∃ new, out = acc ++ new ∧ new.map Prod.fst = files.map Prod.fst ∧
    ∀ f u, (f, u) ∈ files → ∃ d c, (f, d) ∈ new ∧ Source srv w o.world f u c ∧ loadmat c = .ok d

theorem getElem?_append_last {l : List String} {u : String} {new : List String} : (l ++ [u] ++ new)[l.length]? = some u := by simp

theorem getElem?_prefix {l new : List String} {i : ℕ} {u : String} (h : l[i]? = some u) : (l ++ new)[i]? = some u := by
  rw [List.getElem?_append_left (List.getElem?_eq_some_iff.mp h).1, h]

/-- The world after one file: log, other files, and the contents used. -/
theorem oneFile_ok {srv : Server} {loadmat : Bytes → Except PyErr δ} {download save : Bool} {w : World} {name url : String} {o : Outcome δ}
    (h : OneFile srv loadmat download save w name url o) :
    (o.world.net = w.net ∧ o.world.file = w.file ∧ o.world.dir = w.dir ∨ o.world.net = w.net ++ [url] ∧ w.file name = none) ∧
    (∀ f, f ≠ name → o.world.file f = w.file f) ∧
    (o.world.file name = w.file name ∨ w.file name = none ∧ ∃ c, o.world.file name = some c ∧ srv w.net.length url = .response 200 c ∧ o.world.net = w.net ++ [url]) ∧
    ∀ d, o.result = .ok d → ∃ c, loadmat c = .ok d ∧
      (w.file name = some c ∨ w.file name = none ∧ srv w.net.length url = .response 200 c ∧ o.world.net = w.net ++ [url]) := by
  cases h with
  | localFile b hf => exact ⟨.inl ⟨rfl, rfl, rfl⟩, fun _ _ => rfl, .inl rfl, fun d hd => ⟨b, hd, .inl hf⟩⟩
  | refused hf hd => exact ⟨.inl ⟨rfl, rfl, rfl⟩, fun _ _ => rfl, .inl rfl, fun d hd => by cases hd⟩
  | network w₁ hf _ hw _ => subst hw; exact ⟨.inr ⟨rfl, hf⟩, fun _ _ => rfl, .inl rfl, fun d hd => by cases hd⟩
  | status w₁ s c hf _ hw _ _ => subst hw; exact ⟨.inr ⟨rfl, hf⟩, fun _ _ => rfl, .inl rfl, fun d hd => by cases hd⟩
  | unsaved w₁ c hf _ hw hs _ => subst hw; exact ⟨.inr ⟨rfl, hf⟩, fun _ _ => rfl, .inl rfl, fun d hd => ⟨c, hd, .inr ⟨hf, hs, rfl⟩⟩⟩
  | saved st w₂ c hf _ hs _ hw _ _ =>
    subst hw
    exact ⟨.inr ⟨rfl, hf⟩, fun f hne => by simp [hne], .inr ⟨hf, c, by simp, hs, rfl⟩, fun d hd => ⟨c, hd, .inr ⟨hf, hs, rfl⟩⟩⟩

theorem loadAll_spec (srv : Server) (loadmat : Bytes → Except PyErr δ) (download save : Bool) : ∀ (files : List (String × String)) (w : World)
    (acc : List (String × δ)), (files.map Prod.fst).Nodup → CallSpec srv loadmat files w (loadAll srv loadmat download save files w acc) acc
  | [], w, acc, _ => by
    refine ⟨⟨[], by simp [loadAll], by simp⟩, fun f => .inl rfl, fun out h => ?_⟩
    simp only [loadAll, Except.ok.injEq] at h
    exact ⟨[], by simp [h], rfl, by simp⟩
  | (name, url) :: rest, w, acc, hnd => by
    rw [List.map_cons, List.nodup_cons] at hnd
    obtain ⟨hname, hnd⟩ := hnd
    have hone := oneFile_ok (loadOne_cases srv loadmat download save w name url)
    rw [loadAll]
    set o := loadOne srv loadmat download save w name url with ho
    obtain ⟨h1, h2, h3, h4⟩ := hone
    have hnet1 : ∃ new, o.world.net = w.net ++ new ∧ ∀ u ∈ new, u = url ∧ w.file name = none := by
      rcases h1 with ⟨h, -⟩ | ⟨h, hf⟩
      · exact ⟨[], by simp [h], by simp⟩
      · exact ⟨[url], h, by simp [hf]⟩
    have hfile1 : ∀ (v : World) (new : List String), v.net = o.world.net ++ new → ∀ c, w.file name = none →
        srv w.net.length url = .response 200 c → o.world.net = w.net ++ [url] → Source srv w v name url c := by
      intro v new hv c hf hs hn
      exact .inr ⟨hf, w.net.length, le_rfl, by rw [hv, hn]; simp, hs⟩
    cases hr : o.result with
    | error e =>
      refine ⟨?_, fun f => ?_, fun out h => by cases h⟩
      · obtain ⟨new, hn, hu⟩ := hnet1
        exact ⟨new, hn, fun u hu' => ⟨name, by rw [(hu u hu').1]; exact List.mem_cons_self, (hu u hu').2⟩⟩
      · by_cases hf : f = name
        · subst hf
          rcases h3 with h | ⟨hn, c, hc, hs, hnet⟩
          · exact .inl h
          · exact .inr ⟨url, c, List.mem_cons_self, hn, hc, hfile1 o.world [] (by simp) c hn hs hnet⟩
        · exact .inl (h2 f hf)
    | ok d =>
      simp only
      have ih := loadAll_spec srv loadmat download save rest o.world (acc ++ [(name, d)]) hnd
      set o' := loadAll srv loadmat download save rest o.world (acc ++ [(name, d)]) with ho'
      obtain ⟨⟨new', hn', hu'⟩, hfiles', hvals'⟩ := ih
      have hrest : ∀ f u, (f, u) ∈ rest → f ≠ name := fun f u hfu he => hname (List.mem_map.mpr ⟨(f, u), hfu, he⟩)
      have hsrc : ∀ f u c, (f, u) ∈ rest → Source srv o.world o'.world f u c → Source srv w o'.world f u c := by
        rintro f u c hfu (h | ⟨hf, i, hi, hiu, hs⟩)
        · exact .inl (by rw [← h2 f (hrest f u hfu)]; exact h)
        · refine .inr ⟨by rw [← h2 f (hrest f u hfu)]; exact hf, i, ?_, hiu, hs⟩
          obtain ⟨new, hn, -⟩ := hnet1
          refine le_trans ?_ hi
          rw [hn]; simp
      refine ⟨?_, fun f => ?_, fun out h => ?_⟩
      · obtain ⟨new, hn, hu⟩ := hnet1
        refine ⟨new ++ new', by rw [hn', hn, List.append_assoc], fun u hu'' => ?_⟩
        rcases List.mem_append.mp hu'' with h | h
        · exact ⟨name, by rw [(hu u h).1]; exact List.mem_cons_self, (hu u h).2⟩
        · obtain ⟨f, hf, hfn⟩ := hu' u h
          exact ⟨f, List.mem_cons_of_mem _ hf, by rw [← h2 f (hrest f u hf)]; exact hfn⟩
      · by_cases hf : f = name
        · subst hf
          have hkeep : o'.world.file f = o.world.file f := by
            rcases hfiles' f with h | ⟨u, c, hfu, -⟩
            · exact h
            · exact absurd rfl (hrest f u hfu)
          rcases h3 with h | ⟨hn, c, hc, hs, hnet⟩
          · exact .inl (by show o'.world.file f = _; rw [hkeep, h])
          · exact .inr ⟨url, c, List.mem_cons_self, hn, by show o'.world.file f = _; rw [hkeep, hc], hfile1 o'.world new' hn' c hn hs hnet⟩
        · rcases hfiles' f with h | ⟨u, c, hfu, hfn, hfc, hs⟩
          · exact .inl (by show o'.world.file f = _; rw [h, h2 f hf])
          · exact .inr ⟨u, c, List.mem_cons_of_mem _ hfu, by rw [← h2 f hf]; exact hfn, hfc, hsrc f u c hfu hs⟩
      · obtain ⟨new, hout, hfst, hall⟩ := hvals' out h
        refine ⟨(name, d) :: new, by rw [hout]; simp, by simp [hfst], ?_⟩
        obtain ⟨c, hc, hsr⟩ := h4 d hr
        intro f u hfu
        rcases List.mem_cons.mp hfu with he | hfu
        · obtain ⟨rfl, rfl⟩ := Prod.mk.inj he
          refine ⟨d, c, List.mem_cons_self, ?_, hc⟩
          rcases hsr with h | ⟨hf, hs, hn⟩
          · exact .inl h
          · exact hfile1 o'.world new' hn' c hf hs hn
        · obtain ⟨d', c', hm, hs, hl⟩ := hall f u hfu
          exact ⟨d', c', List.mem_cons_of_mem _ hm, hsrc f u c' hfu hs, hl⟩

theorem dataUrls_nodup : (dataUrls.map Prod.fst).Nodup := by decide

/-! ### C55 -/

/-- C55: what every call does, see `CallSpec`; the names of the result are those of the files. -/
theorem C55 (srv : Server) (loadmat : Bytes → Except PyErr δ) (download save : Bool) (w : World) :
    CallSpec srv loadmat dataUrls w (getRawData srv loadmat download save w) [] :=
  loadAll_spec srv loadmat download save dataUrls w [] dataUrls_nodup

theorem oneFile_frame {srv : Server} {loadmat : Bytes → Except PyErr δ} {download save : Bool} {w : World} {name url : String} {o : Outcome δ}
    (h : OneFile srv loadmat download save w name url o) : (download = false → o.world = w ∧ o.steps = []) ∧
    (save = false → ∀ v, v = o.world ∨ v ∈ o.steps → v.file = w.file ∧ v.dir = w.dir) := by
  cases h with
  | localFile b hf => exact ⟨fun _ => ⟨rfl, rfl⟩, fun _ v hv => by simp at hv; subst hv; exact ⟨rfl, rfl⟩⟩
  | refused hf hd => exact ⟨fun _ => ⟨rfl, rfl⟩, fun _ v hv => by simp at hv; subst hv; exact ⟨rfl, rfl⟩⟩
  | network w₁ _ hd h => exact ⟨fun hd' => (by rw [hd'] at hd; cases hd), fun _ v hv => by subst h; simp at hv; subst hv; exact ⟨rfl, rfl⟩⟩
  | status w₁ _ _ _ hd h => exact ⟨fun hd' => (by rw [hd'] at hd; cases hd), fun _ v hv => by subst h; simp at hv; subst hv; exact ⟨rfl, rfl⟩⟩
  | unsaved w₁ _ _ hd h => exact ⟨fun hd' => (by rw [hd'] at hd; cases hd), fun _ v hv => by subst h; simp at hv; subst hv; exact ⟨rfl, rfl⟩⟩
  | saved _ _ _ _ hd _ h => exact ⟨fun hd' => (by rw [hd'] at hd; cases hd), fun hs => by rw [hs] at h; cases h⟩

theorem loadAll_frame (srv : Server) (loadmat : Bytes → Except PyErr δ) (download save : Bool) : ∀ (files : List (String × String)) (w : World)
    (acc : List (String × δ)),
    (download = false → (loadAll srv loadmat download save files w acc).world = w ∧ (loadAll srv loadmat download save files w acc).steps = []) ∧
    (save = false → ∀ v, v = (loadAll srv loadmat download save files w acc).world ∨ v ∈ (loadAll srv loadmat download save files w acc).steps →
      v.file = w.file ∧ v.dir = w.dir)
  | [], w, acc => ⟨fun _ => ⟨rfl, rfl⟩, fun _ v hv => by simp only [loadAll, List.not_mem_nil, or_false] at hv; subst hv; exact ⟨rfl, rfl⟩⟩
  | (name, url) :: rest, w, acc => by
    have hone := loadOne_cases srv loadmat download save w name url
    rw [loadAll]
    set o := loadOne srv loadmat download save w name url with ho
    obtain ⟨h1, h2⟩ := oneFile_frame hone
    cases hr : o.result with
    | error e => exact ⟨h1, h2⟩
    | ok d =>
      simp only
      obtain ⟨i1, i2⟩ := loadAll_frame srv loadmat download save rest o.world (acc ++ [(name, d)])
      refine ⟨fun hd => ?_, fun hsv v hv => ?_⟩
      · rw [(i1 hd).1, (i1 hd).2, (h1 hd).1, (h1 hd).2]
        exact ⟨rfl, rfl⟩
      · have h0 := h2 hsv o.world (.inl rfl)
        rcases hv with hv | hv
        · have := i2 hsv v (.inl hv)
          exact ⟨this.1.trans h0.1, this.2.trans h0.2⟩
        · rcases List.mem_append.mp hv with hv | hv
          · exact h2 hsv v (.inr hv)
          · have := i2 hsv v (.inr hv)
            exact ⟨this.1.trans h0.1, this.2.trans h0.2⟩

/-- C55: with `download_data=False` there is no network access and nothing changes; with `save_data=False` the files never change, not even in between. -/
theorem C55_flags (srv : Server) (loadmat : Bytes → Except PyErr δ) (download save : Bool) (w : World) :
    (download = false → (getRawData srv loadmat download save w).world = w) ∧
    (save = false → ∀ v, v = (getRawData srv loadmat download save w).world ∨ v ∈ (getRawData srv loadmat download save w).steps →
      v.file = w.file ∧ v.dir = w.dir) :=
  ⟨fun h => ((loadAll_frame srv loadmat download save dataUrls w []).1 h).1, (loadAll_frame srv loadmat download save dataUrls w []).2⟩

/-- If every file is there, a call reads them and does nothing else. -/
theorem loadAll_local (srv : Server) (loadmat : Bytes → Except PyErr δ) (download save : Bool) (value : String → δ) (w : World) :
    ∀ (files : List (String × String)) (acc : List (String × δ)), (∀ f ∈ files.map Prod.fst, ∃ b, w.file f = some b ∧ loadmat b = .ok (value f)) →
    loadAll srv loadmat download save files w acc = ⟨[], w, .ok (acc ++ files.map fun q => (q.1, value q.1))⟩
  | [], acc, _ => by simp [loadAll]
  | (name, url) :: rest, acc, h => by
    obtain ⟨b, hb, hv⟩ := h name (by simp)
    have : loadOne srv loadmat download save w name url = ⟨[], w, .ok (value name)⟩ := by
      unfold loadOne; rw [hb]; simp only [hv]
    rw [loadAll, this]
    simp only
    rw [loadAll_local srv loadmat download save value w rest _ fun f hf => h f (by simp only [List.map_cons, List.mem_cons]; exact .inr hf)]
    simp

/-- C55: if all files are there and readable, they are returned; no network access, nothing changes, whatever the server and the flags. -/
theorem C55_local (srv : Server) (loadmat : Bytes → Except PyErr δ) (download save : Bool) (value : String → δ) (w : World)
    (h : ∀ f ∈ dataUrls.map Prod.fst, ∃ b, w.file f = some b ∧ loadmat b = .ok (value f)) :
    getRawData srv loadmat download save w = ⟨[], w, .ok (dataUrls.map fun q => (q.1, value q.1))⟩ :=
  loadAll_local srv loadmat download save value w dataUrls [] h

theorem loadAll_saved (srv srv' : Server) (loadmat : Bytes → Except PyErr δ) (download download' save' : Bool) :
    ∀ (files : List (String × String)) (w v : World) (acc out : List (String × δ)), (files.map Prod.fst).Nodup →
    (loadAll srv loadmat download true files w acc).result = .ok out →
    (∀ f ∈ files.map Prod.fst, v.file f = (loadAll srv loadmat download true files w acc).world.file f) →
    loadAll srv' loadmat download' save' files v acc = ⟨[], v, .ok out⟩
  | [], w, v, acc, out, _, h, _ => by
    simp only [loadAll, Except.ok.injEq] at h ⊢
    rw [h]
  | (name, url) :: rest, w, v, acc, out, hnd, h, hv => by
    rw [List.map_cons, List.nodup_cons] at hnd
    obtain ⟨hname, hnd⟩ := hnd
    have hone := loadOne_cases srv loadmat download true w name url
    rw [loadAll] at h hv
    revert h hv hone
    generalize loadOne srv loadmat download true w name url = o
    intro h hv hone
    cases hr : o.result with
    | error e => rw [hr] at h; cases h
    | ok d =>
      rw [hr] at h hv
      simp only at h hv
      have hkeep : (loadAll srv loadmat download true rest o.world (acc ++ [(name, d)])).world.file name = o.world.file name := by
        rcases (loadAll_spec srv loadmat download true rest o.world (acc ++ [(name, d)]) hnd).stored name with hk | ⟨u, c, hm, -⟩
        · exact hk
        · exact absurd (List.mem_map.mpr ⟨_, hm, rfl⟩) hname
      obtain ⟨c, hc, hl⟩ : ∃ c, o.world.file name = some c ∧ loadmat c = .ok d := by
        cases hone with
        | localFile b hf => exact ⟨b, hf, hr⟩
        | refused => cases hr
        | network => cases hr
        | status => cases hr
        | unsaved _ _ _ _ _ _ hs => cases hs
        | saved st w₂ c _ _ _ _ hw => subst hw; exact ⟨c, by simp, hr⟩
      have hvn : v.file name = some c := by rw [hv name (by simp), hkeep, hc]
      have : loadOne srv' loadmat download' save' v name url = ⟨[], v, .ok d⟩ := by
        unfold loadOne; rw [hvn]; simp only [hl]
      rw [loadAll, this]
      simp only
      rw [loadAll_saved srv srv' loadmat download download' save' rest o.world v _ out hnd h fun f hf => hv f (by simp only [List.map_cons, List.mem_cons]; exact .inr hf)]
      rfl

/-- C55: after a successful call with `save_data=True` any later call returns the same data without network access and without changing anything, whatever the
server does by then. -/
theorem C55_later (srv srv' : Server) (loadmat : Bytes → Except PyErr δ) (download download' save' : Bool) (w : World) (out : List (String × δ))
    (h : (getRawData srv loadmat download true w).result = .ok out) :
    getRawData srv' loadmat download' save' (getRawData srv loadmat download true w).world = ⟨[], (getRawData srv loadmat download true w).world, .ok out⟩ :=
  loadAll_saved srv srv' loadmat download download' save' dataUrls w _ [] out dataUrls_nodup h fun _ _ => rfl

/-- Requests are only appended to the log. -/
theorem loadAll_net (srv : Server) (loadmat : Bytes → Except PyErr δ) (download save : Bool) : ∀ (files : List (String × String)) (w : World)
    (acc : List (String × δ)), ∃ new, (loadAll srv loadmat download save files w acc).world.net = w.net ++ new
  | [], w, acc => ⟨[], by simp [loadAll]⟩
  | (name, url) :: rest, w, acc => by
    obtain ⟨h1, -⟩ := oneFile_ok (loadOne_cases srv loadmat download save w name url)
    rw [loadAll]
    revert h1
    generalize loadOne srv loadmat download save w name url = o
    intro h1
    have hn : ∃ new, o.world.net = w.net ++ new := by
      rcases h1 with ⟨h, -⟩ | ⟨h, -⟩
      · exact ⟨[], by rw [h, List.append_nil]⟩
      · exact ⟨_, h⟩
    cases hr : o.result with
    | error e => exact hn
    | ok d =>
      obtain ⟨new, hn⟩ := hn
      obtain ⟨new', hn'⟩ := loadAll_net srv loadmat download save rest o.world (acc ++ [(name, d)])
      exact ⟨new ++ new', by show World.net (Outcome.world (loadAll _ _ _ _ _ _ _)) = _; rw [hn', hn, List.append_assoc]⟩

theorem loadAll_status (srv : Server) (loadmat : Bytes → Except PyErr δ) (download save : Bool) : ∀ (files : List (String × String)) (w : World)
    (acc : List (String × δ)) (i : ℕ) (u : String), w.net.length ≤ i → (loadAll srv loadmat download save files w acc).world.net[i]? = some u →
    (∀ s c, srv i u = .response s c → s ≠ 200 → (loadAll srv loadmat download save files w acc).result = .error .runtimeError) ∧
    (srv i u = .failed → (loadAll srv loadmat download save files w acc).result = .error .osError)
  | [], w, acc, i, u, hi, h => by
    rw [loadAll] at h
    have := (List.getElem?_eq_some_iff.mp h).1
    simp only at this
    omega
  | (name, url) :: rest, w, acc, i, u, hi, h => by
    have hone := loadOne_cases srv loadmat download save w name url
    rw [loadAll] at h ⊢
    revert h hone
    generalize loadOne srv loadmat download save w name url = o
    intro h hone
    have hsplit : (o.world.net[i]? = some u → (∀ s c, srv i u = .response s c → s ≠ 200 → o.result = .error .runtimeError) ∧
        (srv i u = .failed → o.result = .error .osError)) ∧ w.net.length ≤ o.world.net.length := by
      have hlast : ∀ l : List String, i < (l ++ [url]).length → l.length ≤ i → (l ++ [url])[i]? = some u → i = l.length ∧ u = url := by
        intro l h1 h2 h3
        have : i = l.length := by simp at h1; omega
        subst this
        simp at h3
        exact ⟨rfl, h3.symm⟩
      cases hone with
      | localFile b hf => exact ⟨fun hu => absurd (List.getElem?_eq_some_iff.mp hu).1 (by simp only; omega), le_rfl⟩
      | refused => exact ⟨fun hu => absurd (List.getElem?_eq_some_iff.mp hu).1 (by simp only; omega), le_rfl⟩
      | network w₁ _ _ hw hs =>
        subst hw
        refine ⟨fun hu => ?_, by simp⟩
        obtain ⟨rfl, rfl⟩ := hlast w.net (List.getElem?_eq_some_iff.mp hu).1 hi hu
        exact ⟨fun s c h => (by rw [hs] at h; cases h), fun _ => rfl⟩
      | status w₁ s c _ _ hw hs _ =>
        subst hw
        refine ⟨fun hu => ?_, by simp⟩
        obtain ⟨rfl, rfl⟩ := hlast w.net (List.getElem?_eq_some_iff.mp hu).1 hi hu
        exact ⟨fun _ _ _ _ => rfl, fun h => by rw [hs] at h; cases h⟩
      | unsaved w₁ c _ _ hw hs _ =>
        subst hw
        refine ⟨fun hu => ?_, by simp⟩
        obtain ⟨rfl, rfl⟩ := hlast w.net (List.getElem?_eq_some_iff.mp hu).1 hi hu
        exact ⟨fun s c h h2 => (by rw [hs] at h; cases h; exact absurd rfl h2), fun h => by rw [hs] at h; cases h⟩
      | saved st w₂ c _ _ hs _ hw =>
        subst hw
        refine ⟨fun hu => ?_, by simp⟩
        obtain ⟨rfl, rfl⟩ := hlast w.net (List.getElem?_eq_some_iff.mp hu).1 hi hu
        exact ⟨fun s c h h2 => (by rw [hs] at h; cases h; exact absurd rfl h2), fun h => by rw [hs] at h; cases h⟩
    cases hr : o.result with
    | error e =>
      rw [hr] at h
      simp only at h ⊢
      have := hsplit.1 h
      rw [hr] at this
      exact ⟨fun s c h1 h2 => by rw [Except.error.inj (this.1 s c h1 h2)], fun h1 => by rw [Except.error.inj (this.2 h1)]⟩
    | ok d =>
      rw [hr] at h
      simp only at h ⊢
      by_cases hlt : o.world.net.length ≤ i
      · exact loadAll_status srv loadmat download save rest o.world _ i u hlt h
      · have hu : o.world.net[i]? = some u := by
          obtain ⟨new, hn⟩ := loadAll_net srv loadmat download save rest o.world (acc ++ [(name, d)])
          rw [hn, List.getElem?_append_left (by omega)] at h
          exact h
        have := hsplit.1 hu
        rw [hr] at this
        exact ⟨fun s c h1 h2 => (by cases this.1 s c h1 h2), fun h1 => (by cases this.2 h1)⟩

/-- C55 (partial): a request answered with another status than 200 makes the call raise RuntimeError, one without answer makes it raise the exception of the network library.
Nothing is stored for the file, see `C55_nothing`. Missing: RuntimeError for requests without answer, see
`C55_false`. -/
theorem C55_status_partial (srv : Server) (loadmat : Bytes → Except PyErr δ) (download save : Bool) (w : World) (i : ℕ) (u : String) (hi : w.net.length ≤ i)
    (h : (getRawData srv loadmat download save w).world.net[i]? = some u) :
    (∀ s c, srv i u = .response s c → s ≠ 200 → (getRawData srv loadmat download save w).result = .error .runtimeError) ∧
    (srv i u = .failed → (getRawData srv loadmat download save w).result = .error .osError) :=
  loadAll_status srv loadmat download save dataUrls w [] i u hi h

/-- Handling one file touches no other file. -/
theorem oneFile_others {srv : Server} {loadmat : Bytes → Except PyErr δ} {download save : Bool} {w : World} {name url : String} {o : Outcome δ}
    (h : OneFile srv loadmat download save w name url o) (v : World) (hv : v = o.world ∨ v ∈ o.steps) (f : String) (hf : f ≠ name) : v.file f = w.file f := by
  cases h with
  | localFile b _ => rcases hv with rfl | hv <;> [rfl; cases hv]
  | refused _ _ => rcases hv with rfl | hv <;> [rfl; cases hv]
  | network w₁ _ _ h _ => rcases hv with rfl | hv <;> [skip; rw [List.mem_singleton.mp hv]] <;> simp [h]
  | status w₁ s c _ _ h _ _ => rcases hv with rfl | hv <;> [skip; rw [List.mem_singleton.mp hv]] <;> simp [h]
  | unsaved w₁ c _ _ h _ _ => rcases hv with rfl | hv <;> [skip; rw [List.mem_singleton.mp hv]] <;> simp [h]
  | saved st w₂ c _ _ _ _ h hst _ =>
    rcases hv with rfl | hv
    · simp [h, hf]
    · exact (hst v hv).2.1 f hf

/-- If the request for one file is not answered with status 200, no file changes and the call stops. -/
theorem oneFile_bad {srv : Server} {loadmat : Bytes → Except PyErr δ} {download save : Bool} {w : World} {name url : String} {o : Outcome δ}
    (h : OneFile srv loadmat download save w name url o) (hnet : o.world.net = w.net ++ [url]) (hbad : ∀ c, srv w.net.length url ≠ .response 200 c) :
    (∃ e, o.result = .error e) ∧ ∀ v, v = o.world ∨ v ∈ o.steps → v.file = w.file := by
  cases h with
  | localFile b _ => simp at hnet
  | refused _ _ => simp at hnet
  | network w₁ _ _ h _ => exact ⟨⟨_, rfl⟩, fun v hv => by rcases hv with rfl | hv <;> [skip; rw [List.mem_singleton.mp hv]] <;> simp [h]⟩
  | status w₁ s c _ _ h _ _ => exact ⟨⟨_, rfl⟩, fun v hv => by rcases hv with rfl | hv <;> [skip; rw [List.mem_singleton.mp hv]] <;> simp [h]⟩
  | unsaved w₁ c _ _ _ hc _ => exact absurd hc (hbad c)
  | saved st w₂ c _ _ hc _ _ _ _ => exact absurd hc (hbad c)

theorem loadAll_nothing (srv : Server) (loadmat : Bytes → Except PyErr δ) (download save : Bool) : ∀ (files : List (String × String)) (w : World)
    (acc : List (String × δ)) (i : ℕ) (u : String), (files.map Prod.fst).Nodup → (files.map Prod.snd).Nodup → w.net.length ≤ i →
    (loadAll srv loadmat download save files w acc).world.net[i]? = some u → (∀ c, srv i u ≠ .response 200 c) →
    u ∈ files.map Prod.snd ∧ ∀ f, (f, u) ∈ files → ∀ v,
      v = (loadAll srv loadmat download save files w acc).world ∨ v ∈ (loadAll srv loadmat download save files w acc).steps → v.file f = w.file f
  | [], w, acc, i, u, _, _, hi, h, _ => by
    rw [loadAll] at h
    have := (List.getElem?_eq_some_iff.mp h).1
    simp only at this
    omega
  | (name, url) :: rest, w, acc, i, u, hn, hu, hi, h, hbad => by
    have hone := loadOne_cases srv loadmat download save w name url
    rw [List.map_cons, List.nodup_cons] at hn hu
    rw [loadAll] at h ⊢
    revert h hone
    generalize loadOne srv loadmat download save w name url = o
    intro h hone
    have hnet : o.world.net = w.net ∨ o.world.net = w.net ++ [url] := by
      rcases (oneFile_ok hone).1 with ⟨h, -⟩ | ⟨h, -⟩
      · exact .inl h
      · exact .inr h
    -- the request is that of the first file
    have hfirst : o.world.net[i]? = some u → u = url ∧ (∃ e, o.result = .error e) ∧ ∀ v, v = o.world ∨ v ∈ o.steps → v.file = w.file := by
      intro hu'
      rcases hnet with hw | hw
      · have := (List.getElem?_eq_some_iff.mp hu').1
        rw [hw] at this; omega
      · have hlt := (List.getElem?_eq_some_iff.mp hu').1
        rw [hw, List.length_append, List.length_singleton] at hlt
        obtain rfl : i = w.net.length := by omega
        rw [hw] at hu'
        obtain rfl : url = u := by simpa using hu'
        exact ⟨rfl, oneFile_bad hone hw hbad⟩
    cases hr : o.result with
    | error e =>
      rw [hr] at h
      obtain ⟨rfl, -, hall⟩ := hfirst h
      exact ⟨by simp, fun f _ v hv => congrFun (hall v hv) f⟩
    | ok d =>
      rw [hr] at h
      simp only at h ⊢
      have hi' : o.world.net.length ≤ i := by
        by_contra hlt
        obtain ⟨new, hnew⟩ := loadAll_net srv loadmat download save rest o.world (acc ++ [(name, d)])
        rw [hnew, List.getElem?_append_left (by omega)] at h
        obtain ⟨-, ⟨e, he⟩, -⟩ := hfirst h
        rw [hr] at he; cases he
      obtain ⟨hmem, ih⟩ := loadAll_nothing srv loadmat download save rest o.world (acc ++ [(name, d)]) i u hn.2 hu.2 hi' h hbad
      refine ⟨by rw [List.map_cons]; exact List.mem_cons_of_mem _ hmem, fun f hf v hv => ?_⟩
      have hfr : (f, u) ∈ rest := by
        rcases List.mem_cons.mp hf with he | hf
        · obtain ⟨rfl, rfl⟩ := Prod.mk.inj he
          exact absurd hmem hu.1
        · exact hf
      have hne : f ≠ name := fun he => hn.1 (he ▸ List.mem_map.mpr ⟨_, hfr, rfl⟩)
      rcases hv with hv | hv
      · exact (ih f hfr v (.inl hv)).trans (oneFile_others hone _ (.inl rfl) f hne)
      · rcases List.mem_append.mp hv with hv | hv
        · exact oneFile_others hone v (.inr hv) f hne
        · exact (ih f hfr v (.inr hv)).trans (oneFile_others hone _ (.inl rfl) f hne)

/-- C55: if a request of a call is not answered with status 200, the file belonging to it does not change at any time during the call. -/
theorem C55_nothing (srv : Server) (loadmat : Bytes → Except PyErr δ) (download save : Bool) (w : World) (i : ℕ) (u : String) (hi : w.net.length ≤ i)
    (h : (getRawData srv loadmat download save w).world.net[i]? = some u) (hbad : ∀ c, srv i u ≠ .response 200 c) (f : String) (hf : (f, u) ∈ dataUrls)
    (v : World) (hv : v = (getRawData srv loadmat download save w).world ∨ v ∈ (getRawData srv loadmat download save w).steps) : v.file f = w.file f :=
  (loadAll_nothing srv loadmat download save dataUrls w [] i u dataUrls_nodup (by decide) hi h hbad).2 f hf v hv

/-- C55 is false in one point: a download that fails because there is no answer does not raise RuntimeError, but lets the exception of the network library through
(`requests` derives its exceptions from OSError). This holds from every state in which the first file is missing. -/
theorem C55_false (srv : Server) (loadmat : Bytes → Except PyErr δ) (save : Bool) (w : World) (hw : w.file "MACHINE_Data.mat" = none)
    (hs : srv w.net.length "http://eigenvector.com/data/Etch/MACHINE_Data.mat" = .failed) :
    (getRawData srv loadmat true save w).result = .error .osError ∧ (getRawData srv loadmat true save w).result ≠ .error .runtimeError := by
  have h : (getRawData srv loadmat true save w).result = .error .osError := by
    unfold getRawData dataUrls
    rw [loadAll]
    unfold loadOne
    simp only [hw, hs, if_true]
  exact ⟨h, by rw [h]; exact fun h => by cases h⟩

/-- C55: with `download_data=False` a call that returns had all files; a missing file (with readable files before it) raises RuntimeError. -/
theorem C55_refused (srv : Server) (loadmat : Bytes → Except PyErr δ) (save : Bool) (w : World) :
    (∀ out, (getRawData srv loadmat false save w).result = .ok out → ∀ f ∈ dataUrls.map Prod.fst, w.file f ≠ none) ∧
    ((∀ b, ∃ d, loadmat b = .ok d) → (∃ f ∈ dataUrls.map Prod.fst, w.file f = none) →
      (getRawData srv loadmat false save w).result = .error .runtimeError) := by
  have key : ∀ (files : List (String × String)) (acc : List (String × δ)),
      (∀ out, (loadAll srv loadmat false save files w acc).result = .ok out → ∀ f ∈ files.map Prod.fst, w.file f ≠ none) ∧
      ((∀ b, ∃ d, loadmat b = .ok d) → (∃ f ∈ files.map Prod.fst, w.file f = none) →
        (loadAll srv loadmat false save files w acc).result = .error .runtimeError) := by
    intro files
    induction files with
    | nil => exact fun acc => ⟨by simp, by simp⟩
    | cons q rest ih =>
      intro acc
      obtain ⟨name, url⟩ := q
      rw [loadAll]
      cases hf : w.file name with
      | none =>
        have : loadOne srv loadmat false save w name url = ⟨[], w, .error .runtimeError⟩ := by unfold loadOne; rw [hf]; rfl
        rw [this]
        exact ⟨fun out h => (by cases h), fun _ _ => rfl⟩
      | some b =>
        have : loadOne srv loadmat false save w name url = ⟨[], w, loadmat b⟩ := by unfold loadOne; rw [hf]
        rw [this]
        cases hl : loadmat b with
        | error e =>
          refine ⟨fun out h => (by cases h), fun hall => ?_⟩
          obtain ⟨d, hd⟩ := hall b
          rw [hl] at hd; cases hd
        | ok d =>
          simp only
          obtain ⟨i1, i2⟩ := ih (acc ++ [(name, d)])
          refine ⟨fun out h f hm => ?_, fun hall ⟨f, hm, hn⟩ => i2 hall ⟨f, ?_, hn⟩⟩
          · rcases List.mem_cons.mp hm with rfl | hm
            · simp [hf]
            · exact i1 out h f hm
          · rcases List.mem_cons.mp hm with rfl | hm
            · rw [hf] at hn; cases hn
            · exact hm
  exact key dataUrls []

/-! ### A working server -/

/-- The server answers every request with status 200 and the contents belonging to the URL. -/
def Works (srv : Server) (content : String → Bytes) : Prop := ∀ i u, srv i u = .response 200 (content u)

/-- With a working server, and files that are missing or complete, a call with `download_data=True` returns the data of the server. -/
theorem loadAll_works {srv : Server} {content : String → Bytes} (hs : Works srv content) (loadmat : Bytes → Except PyErr δ) (value : String → δ) (save : Bool) :
    ∀ (files : List (String × String)) (w : World) (acc : List (String × δ)), (files.map Prod.fst).Nodup →
    (∀ f u, (f, u) ∈ files → loadmat (content u) = .ok (value f)) →
    (∀ f u, (f, u) ∈ files → w.file f = none ∨ w.file f = some (content u)) →
    (loadAll srv loadmat true save files w acc).result = .ok (acc ++ files.map fun q => (q.1, value q.1))
  | [], w, acc, _, _, _ => by simp [loadAll]
  | (name, url) :: rest, w, acc, hnd, hl, hw => by
    rw [List.map_cons, List.nodup_cons] at hnd
    obtain ⟨hname, hnd⟩ := hnd
    have h1 := loadOne_cases srv loadmat true save w name url
    obtain ⟨-, h2, -⟩ := oneFile_ok h1
    rw [loadAll]
    revert h1 h2
    generalize loadOne srv loadmat true save w name url = o
    intro h1 h2
    have hv := hl name url List.mem_cons_self
    have hr : o.result = .ok (value name) := by
      cases h1 with
      | localFile b hf =>
        rcases hw name url List.mem_cons_self with h | h
        · rw [hf] at h; cases h
        · rw [hf] at h; cases h; exact hv
      | refused _ h => cases h
      | network _ _ _ _ h => rw [hs] at h; cases h
      | status _ _ _ _ _ _ h hne => rw [hs] at h; cases h; exact absurd rfl hne
      | unsaved _ c _ _ _ h => rw [hs] at h; cases h; exact hv
      | saved _ _ c _ _ h => rw [hs] at h; cases h; exact hv
    rw [hr]
    simp only
    rw [loadAll_works hs loadmat value save rest o.world _ hnd (fun f u h => hl f u (List.mem_cons_of_mem _ h)) fun f u h => by
      rw [h2 f fun he => hname (List.mem_map.mpr ⟨_, h, he⟩)]
      exact hw f u (List.mem_cons_of_mem _ h)]
    simp

/-! ### C56 -/

/-- Where an interruption can leave the files: each is unchanged, complete, or (one at most) the beginning of the contents. -/
theorem loadAll_steps {srv : Server} {content : String → Bytes} (hs : Works srv content) (loadmat : Bytes → Except PyErr δ) (download save : Bool) :
    ∀ (files : List (String × String)) (w : World) (acc : List (String × δ)) (v : World), (files.map Prod.fst).Nodup →
    v ∈ (loadAll srv loadmat download save files w acc).steps →
    (∀ f, f ∉ files.map Prod.fst → v.file f = w.file f) ∧
    ∃ f₀, (∀ f u, (f, u) ∈ files → f ≠ f₀ → v.file f = w.file f ∨ w.file f = none ∧ v.file f = some (content u)) ∧
      ∀ u, (f₀, u) ∈ files → v.file f₀ = w.file f₀ ∨ w.file f₀ = none ∧ ∃ n, v.file f₀ = some ((content u).take n)
  | [], w, acc, v, _, h => by simp [loadAll] at h
  | (name, url) :: rest, w, acc, v, hnd, h => by
    rw [List.map_cons, List.nodup_cons] at hnd
    obtain ⟨hname, hnd⟩ := hnd
    have h1 := loadOne_cases srv loadmat download save w name url
    obtain ⟨-, h2, h3, -⟩ := oneFile_ok h1
    rw [loadAll] at h
    revert h1 h2 h3 h
    generalize loadOne srv loadmat download save w name url = o
    intro h h1 h2 h3
    have hne : ∀ f u, (f, u) ∈ rest → f ≠ name := fun f u hm he => hname (List.mem_map.mpr ⟨_, hm, he⟩)
    have hfirst : v ∈ o.steps → (∀ f, f ≠ name → v.file f = w.file f) ∧
        (v.file name = w.file name ∨ w.file name = none ∧ ∃ n, v.file name = some ((content url).take n)) := by
      intro hv
      cases h1 with
      | localFile b hf => cases hv
      | refused => cases hv
      | network w₁ _ _ hw _ => subst hw; simp at hv; subst hv; exact ⟨fun _ _ => rfl, .inl rfl⟩
      | status w₁ _ _ _ _ hw _ _ => subst hw; simp at hv; subst hv; exact ⟨fun _ _ => rfl, .inl rfl⟩
      | unsaved w₁ _ _ _ hw _ _ => subst hw; simp at hv; subst hv; exact ⟨fun _ _ => rfl, .inl rfl⟩
      | saved st w₂ c hf _ hsr _ hw hst _ =>
        rw [hs] at hsr; cases hsr
        obtain ⟨-, g2, g3⟩ := hst v hv
        refine ⟨g2, ?_⟩
        rcases g3 with g3 | ⟨n, hn⟩
        · exact .inl (by rw [g3, hf])
        · exact .inr ⟨hf, n, hn⟩
    have hfin : v ∈ o.steps → (∀ f, f ∉ ((name, url) :: rest).map Prod.fst → v.file f = w.file f) ∧
        ∃ f₀, (∀ f u, (f, u) ∈ (name, url) :: rest → f ≠ f₀ → v.file f = w.file f ∨ w.file f = none ∧ v.file f = some (content u)) ∧
        ∀ u, (f₀, u) ∈ (name, url) :: rest → v.file f₀ = w.file f₀ ∨ w.file f₀ = none ∧ ∃ n, v.file f₀ = some ((content u).take n) := by
      intro hv
      obtain ⟨g1, g2⟩ := hfirst hv
      refine ⟨fun f hf => g1 f fun he => hf (by simp [he]), name, fun f u _ hf => .inl (g1 f hf), fun u hu => ?_⟩
      rcases List.mem_cons.mp hu with he | hu
      · obtain ⟨-, rfl⟩ := Prod.mk.inj he
        exact g2
      · exact absurd rfl (hne _ _ hu)
    cases hr : o.result with
    | error e =>
      rw [hr] at h
      exact hfin h
    | ok d =>
      rw [hr] at h
      simp only [List.mem_append] at h
      rcases h with h | h
      · exact hfin h
      · obtain ⟨i0, f₀, i1, i2⟩ := loadAll_steps hs loadmat download save rest o.world _ v hnd h
        have hnamev : v.file name = w.file name ∨ w.file name = none ∧ v.file name = some (content url) := by
          rw [i0 name hname]
          rcases h3 with h3 | ⟨hf, c, hc, hsr, -⟩
          · exact .inl h3
          · rw [hs] at hsr; cases hsr; exact .inr ⟨hf, hc⟩
        have hrest : ∀ f u, (f, u) ∈ rest → o.world.file f = w.file f := fun f u hm => h2 f (hne f u hm)
        refine ⟨fun f hf => ?_, f₀, fun f u hm hf => ?_, fun u hm => ?_⟩
        · rw [List.map_cons, List.mem_cons, not_or] at hf
          rw [i0 f hf.2, h2 f hf.1]
        · rcases List.mem_cons.mp hm with he | hm
          · obtain ⟨rfl, rfl⟩ := Prod.mk.inj he
            exact hnamev
          · have := i1 f u hm hf
            rwa [hrest f u hm] at this
        · rcases List.mem_cons.mp hm with he | hm
          · obtain ⟨rfl, rfl⟩ := Prod.mk.inj he
            refine hnamev.imp_right fun g => ⟨g.1, (content u).length, by rw [g.2, List.take_length]⟩
          · have := i2 u hm
            rwa [hrest f₀ u hm] at this

/-- C56 (partial): a call with a working server, started with files that are missing or complete, is interrupted anywhere. At most one file is then neither missing nor
complete, and it holds a beginning of its contents. Unless there is such a file, a later call returns the data; once it is deleted, too. Missing: interruptions
while a file is being written, see `C56_false`. -/
theorem C56_partial {srv srv' : Server} {content : String → Bytes} (hs : Works srv content) (hs' : Works srv' content) (loadmat : Bytes → Except PyErr δ)
    (value : String → δ) (hl : ∀ f u, (f, u) ∈ dataUrls → loadmat (content u) = .ok (value f)) (download save save' : Bool) (w v : World)
    (hw : ∀ f u, (f, u) ∈ dataUrls → w.file f = none ∨ w.file f = some (content u)) (hv : v ∈ (getRawData srv loadmat download save w).steps) :
    ∃ f₀, (∀ f u, (f, u) ∈ dataUrls → f ≠ f₀ → v.file f = none ∨ v.file f = some (content u)) ∧
      (∀ u, (f₀, u) ∈ dataUrls → v.file f₀ = none ∨ ∃ n, v.file f₀ = some ((content u).take n)) ∧
      ((∀ u, (f₀, u) ∈ dataUrls → v.file f₀ = none ∨ v.file f₀ = some (content u)) →
        (getRawData srv' loadmat true save' v).result = .ok (dataUrls.map fun q => (q.1, value q.1))) ∧
      (getRawData srv' loadmat true save' { v with file := fun f => if f = f₀ then none else v.file f }).result =
        .ok (dataUrls.map fun q => (q.1, value q.1)) := by
  obtain ⟨-, f₀, h1, h2⟩ := loadAll_steps hs loadmat download save dataUrls w [] v dataUrls_nodup hv
  have g1 : ∀ f u, (f, u) ∈ dataUrls → f ≠ f₀ → v.file f = none ∨ v.file f = some (content u) := by
    intro f u hm hf
    rcases h1 f u hm hf with h | h
    · rw [h]; exact hw f u hm
    · exact .inr h.2
  refine ⟨f₀, g1, fun u hm => ?_, fun h => ?_, ?_⟩
  · rcases h2 u hm with h | h
    · rcases hw f₀ u hm with h' | h'
      · exact .inl (by rw [h, h'])
      · exact .inr ⟨(content u).length, by rw [h, h', List.take_length]⟩
    · exact .inr h.2
  · have := loadAll_works hs' loadmat value save' dataUrls v [] dataUrls_nodup hl fun f u hm => by
      by_cases hf : f = f₀
      · subst hf; exact h u hm
      · exact g1 f u hm hf
    exact this
  · have := loadAll_works hs' loadmat value save' dataUrls { v with file := fun f => if f = f₀ then none else v.file f } [] dataUrls_nodup hl fun f u hm => by
      by_cases hf : f = f₀
      · simp [hf]
      · simp only [if_neg hf]; exact g1 f u hm hf
    exact this

/-- A file that cannot be read makes every call fail, without network access, if the files before it can be read or are downloaded. -/
theorem first_unreadable {srv : Server} {loadmat : Bytes → Except PyErr δ} {download save : Bool} {w : World} {b : Bytes} {e : PyErr}
    (hf : w.file "MACHINE_Data.mat" = some b) (he : loadmat b = .error e) : getRawData srv loadmat download save w = ⟨[], w, .error e⟩ := by
  unfold getRawData dataUrls
  rw [loadAll]
  have : loadOne srv loadmat download save w "MACHINE_Data.mat" "http://eigenvector.com/data/Etch/MACHINE_Data.mat" = ⟨[], w, .error e⟩ := by
    unfold loadOne; rw [hf]; simp only [he]
  rw [this]

/-- C56 is false: interrupted right after opening the first file, a first call leaves an empty file; if `loadmat` rejects it, every later call fails although the
server works. -/
theorem C56_false (srv : Server) (content : String → Bytes) (hs : Works srv content) (loadmat : Bytes → Except PyErr δ) (e : PyErr) (he : loadmat [] = .error e) :
    ∃ v ∈ (getRawData srv loadmat true true ⟨false, fun _ => none, []⟩).steps,
      ∀ (srv' : Server) (download save : Bool), getRawData srv' loadmat download save v = ⟨[], v, .error e⟩ := by
  have h1 := loadOne_cases srv loadmat true true ⟨false, fun _ => none, []⟩ "MACHINE_Data.mat" "http://eigenvector.com/data/Etch/MACHINE_Data.mat"
  have hsub : ∀ v ∈ (loadOne srv loadmat true true ⟨false, fun _ => none, []⟩ "MACHINE_Data.mat" "http://eigenvector.com/data/Etch/MACHINE_Data.mat").steps,
      v ∈ (getRawData srv loadmat true true ⟨false, fun _ => none, []⟩).steps := by
    intro v hv
    unfold getRawData dataUrls
    rw [loadAll]
    revert hv
    generalize loadOne srv loadmat true true ⟨false, fun _ => none, []⟩ "MACHINE_Data.mat" "http://eigenvector.com/data/Etch/MACHINE_Data.mat" = o
    intro hv
    cases o.result with
    | error e => exact hv
    | ok d => exact List.mem_append.mpr (.inl hv)
  suffices h : ∃ v ∈ (loadOne srv loadmat true true ⟨false, fun _ => none, []⟩ "MACHINE_Data.mat" "http://eigenvector.com/data/Etch/MACHINE_Data.mat").steps,
      v.file "MACHINE_Data.mat" = some [] by
    obtain ⟨v, hv, hf⟩ := h
    exact ⟨v, hsub v hv, fun srv' d s => first_unreadable hf he⟩
  revert h1
  generalize loadOne srv loadmat true true ⟨false, fun _ => none, []⟩ "MACHINE_Data.mat" "http://eigenvector.com/data/Etch/MACHINE_Data.mat" = o
  intro h1
  cases h1 with
  | localFile b hf => cases hf
  | refused _ h => cases h
  | network _ _ _ _ h => rw [hs] at h; cases h
  | status _ _ _ _ _ _ h hne => rw [hs] at h; cases h; exact absurd rfl hne
  | unsaved _ c _ _ _ _ h => cases h
  | saved st w₂ c _ _ _ _ _ _ h => simpa using h 0 (Nat.zero_le _)

/-! ### C63 -/

/-- C63 (partial): a call that fails because of the network or the status leaves the files so that a later call with a working server returns the data. Missing:
answers with status 200 and contents that cannot be read, see `C63_false`. -/
theorem C63_partial {srv srv' : Server} {content : String → Bytes} (hs' : Works srv' content) (loadmat : Bytes → Except PyErr δ)
    (value : String → δ) (hl : ∀ f u, (f, u) ∈ dataUrls → loadmat (content u) = .ok (value f)) (download save save' : Bool) (w : World)
    (hsrv : ∀ i u c, srv i u = .response 200 c → c = content u)
    (hw : ∀ f u, (f, u) ∈ dataUrls → w.file f = none ∨ w.file f = some (content u)) :
    (getRawData srv' loadmat true save' (getRawData srv loadmat download save w).world).result = .ok (dataUrls.map fun q => (q.1, value q.1)) := by
  have hst := (C55 srv loadmat download save w).stored
  refine loadAll_works hs' loadmat value save' dataUrls _ [] dataUrls_nodup hl fun f u hm => ?_
  rcases hst f with h | ⟨u', c, hm', hf, hc, hsrc⟩
  · rw [h]; exact hw f u hm
  · have huu : u' = u := by
      have := List.inj_on_of_nodup_map dataUrls_nodup hm' hm rfl
      exact (Prod.mk.inj this).2
    subst huu
    rcases hsrc with h | ⟨-, i, -, -, hr⟩
    · rw [hf] at h; cases h
    · exact .inr (by rw [hc, hsrv i u' c hr])

/-- C63 is false: an answer with status 200 and contents that `loadmat` rejects is stored, and every later call fails, whatever the server does. -/
theorem C63_false (srv : Server) (loadmat : Bytes → Except PyErr δ) (b : Bytes) (e : PyErr) (he : loadmat b = .error e)
    (hs : srv 0 "http://eigenvector.com/data/Etch/MACHINE_Data.mat" = .response 200 b) :
    ∀ (srv' : Server) (download save : Bool), (getRawData srv' loadmat download save (getRawData srv loadmat true true ⟨false, fun _ => none, []⟩).world).result = .error e := by
  intro srv' download save
  rw [first_unreadable (b := b) (e := e) ?_ he]
  unfold getRawData dataUrls
  rw [loadAll]
  have h1 := loadOne_cases srv loadmat true true ⟨false, fun _ => none, []⟩ "MACHINE_Data.mat" "http://eigenvector.com/data/Etch/MACHINE_Data.mat"
  revert h1
  generalize loadOne srv loadmat true true ⟨false, fun _ => none, []⟩ "MACHINE_Data.mat" "http://eigenvector.com/data/Etch/MACHINE_Data.mat" = o
  intro h1
  cases h1 with
  | localFile b hf => cases hf
  | refused _ h => cases h
  | network _ _ _ _ h => simp only [List.length_nil] at h; rw [hs] at h; cases h
  | status _ _ _ _ _ _ h hne => simp only [List.length_nil] at h; rw [hs] at h; cases h; exact absurd rfl hne
  | unsaved _ c _ _ _ _ h => cases h
  | saved st w₂ c _ _ h _ hw _ _ =>
    simp only [List.length_nil] at h
    rw [hs] at h; cases h
    simp only [he]
    rw [hw]
    simp

/-- A case: the first call downloads and saves three files of one byte, and the second one runs without server. -/
example : (getRawData (fun _ u => .response 200 [UInt8.ofNat u.length]) (fun b => if b = [] then .error .valueError else .ok b) true true ⟨false, fun _ => none, []⟩).result
      = .ok [("MACHINE_Data.mat", [49]), ("OES_DATA.mat", [45]), ("RFM_DATA.mat", [45])] := by
  rfl

end Verif.Props
