import Mathlib.Data.List.Nodup
import Mathlib.Data.Int.Notation
import Verif.Py

/-!
# Model of the formatting of the datasets, `src/matcouply/data.py`

`get_semiconductor_etch_machine_data` (204-274) after the raw file is loaded, and `get_bike_data` (98-150) after the JSON file is read.

Arrays are shapes with an entry function, strings are lists of characters, dictionaries are lists of pairs in insertion order. A pandas data frame is its list
of column labels, its number of rows and its entries. Not modelled: names of indices and columns, `squeeze` of a file with a single sample.
-/

namespace Verif.Data

/-- A two-dimensional array with entries in `α`. -/
structure Arr (α : Type) where
  rows : ℕ
  cols : ℕ
  get : ℕ → ℕ → α

/-- A data frame: column labels, number of rows, entries by row and position of the column. -/
structure Frame (α : Type) where
  columns : List (List Char)
  rows : ℕ
  get : ℕ → ℕ → α

/-- Assignment to a key of a dictionary: an existing key keeps its place. -/
def dictSet {κ v : Type} [DecidableEq κ] (key : κ) (val : v) : List (κ × v) → List (κ × v)
  | [] => [(key, val)]
  | (k, x) :: d => if k = key then (k, val) :: d else (k, x) :: dictSet key val d

/-- A dictionary comprehension. -/
def dictOf {κ v : Type} [DecidableEq κ] (l : List (κ × v)) : List (κ × v) := l.foldl (fun d p => dictSet p.1 p.2 d) []

/-- `d[key]`. -/
def dictGet {κ v : Type} [DecidableEq κ] (d : List (κ × v)) (key : κ) : Except PyErr v :=
  match d.find? (fun p => p.1 = key) with
  | some p => .ok p.2
  | none => .error .keyError

/-- `l[i]`. -/
def listGet {v : Type} (l : List v) (i : ℕ) : Except PyErr v :=
  match l[i]? with
  | some x => .ok x
  | none => .error .indexError

/-- `name.split(".")[0][1:]`, data.py 235, 253. -/
def sampleName (s : List Char) : List Char := (s.takeWhile (· ≠ '.')).drop 1

/-- `pd.DataFrame(Xi[:-1, 2:], columns=varnames)`, data.py 237, 255; raises if the number of columns is not that of the labels. -/
def dataFrame {α : Type} (varnames : List (List Char)) (X : Arr α) : Except PyErr (Frame α) :=
  if X.cols - 2 = varnames.length then .ok ⟨varnames, X.rows - 1, fun i j => X.get i (j + 2)⟩ else .error .valueError

/-- The metadata of one sample. -/
structure Meta (α : Type) where
  rows : ℕ
  time : ℕ → α
  step : ℕ → α
  experiment : ℤ
  sample : ℤ
  fault : Option (List Char)

/-- `Xi[:-1, [0, 1]]` and the constant columns, data.py 245-247, 263-265. `int` is Python's conversion of strings. -/
def metaFrame {α : Type} (int : List Char → Except PyErr ℤ) (X : Arr α) (name : List Char) (fault : Option (List Char)) : Except PyErr (Meta α) :=
  if X.cols < 2 then .error .indexError
  else do
    let e ← int (name.take 2)
    let s ← int (name.drop 2)
    return ⟨X.rows - 1, fun i => X.get i 0, fun i => X.get i 1, e, s, fault⟩

/-- The body of the loop over the names, data.py 241-250 (no fault names) and 259-269. -/
def metaOf {α : Type} (int : List Char → Except PyErr ℤ) (mats : List (Arr α)) (faults : Option (List (List Char))) (p : List Char × ℕ) :
    Except PyErr (List Char × Meta α) := do
  let X ← listGet mats p.2
  let m ← metaFrame int X p.1 none
  match faults with
  | none => return (p.1, m)
  | some fs => do
    let f ← listGet fs p.2
    return (p.1, { m with fault := some f })

/-- One half of the function: names, arrays and, for the test data, fault names; data.py 235-250 and 253-269. -/
def etchPart {α : Type} (int : List Char → Except PyErr ℤ) (varnames : List (List Char)) (names : List (List Char)) (mats : List (Arr α))
    (faults : Option (List (List Char))) : Except PyErr (List (List Char × Frame α) × List (List Char × Meta α)) := do
  let frames ← ((names.map sampleName).zip mats).mapM fun p => do return (p.1, ← dataFrame varnames p.2)
  let data := dictOf frames
  let metas ← (data.map (·.1)).zipIdx.mapM (metaOf int mats faults)
  return (data, dictOf metas)

/-- The fields of the raw file that the function reads. -/
structure EtchRaw (α : Type) where
  varNames : List (List Char)
  calibNames : List (List Char)
  calibration : List (Arr α)
  testNames : List (List Char)
  test : List (Arr α)
  faultNames : List (List Char)

/-- What `get_semiconductor_etch_machine_data` returns: training data and metadata, test data and metadata. -/
structure EtchOut (α : Type) where
  train : List (List Char × Frame α)
  trainMeta : List (List Char × Meta α)
  test : List (List Char × Frame α)
  testMeta : List (List Char × Meta α)

/-- `get_semiconductor_etch_machine_data`, data.py 232-274. -/
def etchMachineData {α : Type} (int : List Char → Except PyErr ℤ) (raw : EtchRaw α) : Except PyErr (EtchOut α) := do
  let varnames := raw.varNames.drop 2
  let (a, b) ← etchPart int varnames raw.calibNames raw.calibration none
  let (c, d) ← etchPart int varnames raw.testNames raw.test (some raw.faultNames)
  return ⟨a, b, c, d⟩

/-! ### `get_bike_data` -/

/-- A data frame as read from the file: labels of columns and rows are strings. -/
structure RawFrame (α : Type) where
  columns : List (List Char)
  index : List (List Char)
  get : ℕ → ℕ → α

/-- A data frame returned by `get_bike_data`: column labels are instants, in hours since the start of 2021 in UTC (`tz_convert` keeps the instant). -/
structure BikeFrame (α : Type) where
  columns : List ℤ
  index : List ℤ
  get : ℕ → ℕ → α

/-- The body of the loop over the cities, data.py 138-143: assigning a list of labels of another length raises. -/
def bikeCity {α : Type} (int : List Char → Except PyErr ℤ) (time : List ℤ) (df : RawFrame α) : Except PyErr (BikeFrame α) :=
  if time.length ≠ df.columns.length then .error .valueError
  else do
    let idx ← df.index.mapM int
    return ⟨time, idx, df.get⟩

/-- `get_bike_data`, data.py 132-150; `datasets` are the frames of the file by key. The last component is the station metadata with its row labels. -/
def bikeData {α : Type} (int : List Char → Except PyErr ℤ) (datasets : List (List Char × RawFrame α)) :
    Except PyErr (List (List Char × BikeFrame α) × (RawFrame α × List ℤ)) := do
  let oslo ← dictGet datasets "oslo".toList
  let time ← oslo.columns.mapM int
  let cities ← ["oslo".toList, "trondheim".toList, "bergen".toList].mapM fun city => do
    let df ← dictGet datasets city
    return (city, ← bikeCity int time df)
  let md ← dictGet datasets "station_metadata".toList
  let idx ← md.index.mapM int
  return (cities, (md, idx))

end Verif.Data
