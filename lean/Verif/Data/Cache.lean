import Verif.Py
import Mathlib.Data.List.Nodup
import Mathlib.Data.Nat.Notation

/-!
# Model of the dataset cache

`src/matcouply/data.py` lines 153-201. The world is the download folder (whether it exists, and its files) and the log of network requests. A call also records the
worlds it passes through, so that interruptions can be described. `print` and `tqdm` are not modelled; writing never fails by itself (a full disk acts like an interruption).
-/

namespace Verif.Data

/-- Contents of a file. -/
abbrev Bytes := List UInt8

/-- Download folder and requested URLs. -/
structure World where
  dir : Bool
  file : String → Option Bytes
  net : List String

/-- What `requests.get` does: raise (no connection, ...) or respond. -/
inductive NetResult
  | failed
  | response (status : ℕ) (content : Bytes)

/-- The server: the answer may depend on how many requests were made before. -/
abbrev Server := ℕ → String → NetResult

/-- A file gets new contents. -/
def World.write (w : World) (name : String) (b : Bytes) : World := { w with file := fun f => if f = name then some b else w.file f }

/-- `DOWNLOADED_PARENT.mkdir(exist_ok=True, parents=True)` (line 194). -/
def World.mkdir (w : World) : World := { w with dir := true }

/-- What a piece of code does: worlds passed through, final world, result. -/
structure Outcome (β : Type) where
  steps : List World
  world : World
  result : Except PyErr β

variable {δ : Type}

/-- `with open(file_path, "wb") as f: f.write(content)` (lines 195-196), then `loadmat` (line 198). Opening empties the file (it needs the folder), then the contents arrive bit by bit. -/
def saveAndLoad (loadmat : Bytes → Except PyErr δ) (w : World) (name : String) (content : Bytes) : Outcome δ :=
  if w.dir then
    ⟨w :: (List.range (content.length + 1)).map fun n => w.write name (content.take n), w.write name content, loadmat content⟩
  else ⟨[w], w, .error .osError⟩

/-- Body of the loop (lines 185-200). -/
def loadOne (srv : Server) (loadmat : Bytes → Except PyErr δ) (download save : Bool) (w : World) (name url : String) : Outcome δ :=
  match w.file name with
  | some b => ⟨[], w, loadmat b⟩
  | none =>
    if download then
      let w₁ : World := { w with net := w.net ++ [url] }
      match srv w.net.length url with
      | .failed => ⟨[w₁], w₁, .error .osError⟩
      | .response status content =>
        if status ≠ 200 then ⟨[w₁], w₁, .error .runtimeError⟩
        else if save then
          let o := saveAndLoad loadmat w₁.mkdir name content
          ⟨w₁ :: o.steps, o.world, o.result⟩
        else ⟨[w₁], w₁, loadmat content⟩
    else ⟨[], w, .error .runtimeError⟩

/-- The loop (lines 184-201). The dictionary is a list of pairs (the names are distinct). -/
def loadAll (srv : Server) (loadmat : Bytes → Except PyErr δ) (download save : Bool) :
    List (String × String) → World → List (String × δ) → Outcome (List (String × δ))
  | [], w, acc => ⟨[], w, .ok acc⟩
  | (name, url) :: rest, w, acc =>
    let o := loadOne srv loadmat download save w name url
    match o.result with
    | .error e => ⟨o.steps, o.world, .error e⟩
    | .ok d =>
      let o' := loadAll srv loadmat download save rest o.world (acc ++ [(name, d)])
      ⟨o.steps ++ o'.steps, o'.world, o'.result⟩

/-- `data_urls` (lines 175-179). -/
def dataUrls : List (String × String) :=
  [("MACHINE_Data.mat", "http://eigenvector.com/data/Etch/MACHINE_Data.mat"),
   ("OES_DATA.mat", "http://eigenvector.com/data/Etch/OES_DATA.mat"),
   ("RFM_DATA.mat", "http://eigenvector.com/data/Etch/RFM_DATA.mat")]

/-- `get_semiconductor_etch_raw_data` (lines 153-201). -/
def getRawData (srv : Server) (loadmat : Bytes → Except PyErr δ) (download save : Bool) (w : World) : Outcome (List (String × δ)) :=
  loadAll srv loadmat download save dataUrls w []

end Verif.Data
