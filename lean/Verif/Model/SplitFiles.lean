import Verif.Model.Hierarchy
import Verif.Model.Database

/-!
# Splits on disk: `catlearn/cross_validation/k_fold_cv.py` L67-143, `hierarchy_cv.py` L47-63, L111-148, L235-268, L315-335

The file system is a map from file names to contents.  Serialisation keeps the numbers (`json` writes `repr` of a float,
`pickle` its bits; the strings made of the numbers by `np.concatenate` with the column of uuids are `repr` as well), which
is not modelled further.
-/

namespace CatLearn.SplitFiles

open CatLearn CatLearn.Hierarchy

/-! ## k-fold splits -/

/-- A numpy array with one or two dimensions; a two-dimensional one knows its number of columns also without rows. -/
inductive NpArr (V : Type) where
  | d1 (v : List V)
  | d2 (rows : List (List V)) (cols : ℕ)
deriving DecidableEq

/-- A proper two-dimensional array. -/
def NpArr.Matrix {V : Type} : NpArr V → Prop
  | .d1 _ => False
  | .d2 rows c => ∀ r ∈ rows, r.length = c

/-- `np.shape`. -/
def NpArr.shape {V : Type} : NpArr V → List ℕ
  | .d1 v => [v.length]
  | .d2 rows c => [rows.length, c]

/-- Lists as `json` stores them. -/
inductive Nested (V : Type) where
  | flat (v : List V)
  | rows (r : List (List V))
deriving DecidableEq

/-- `tolist()`; the list of an array without rows is `[]`, whatever its number of columns. -/
def NpArr.tolist {V : Type} : NpArr V → Nested V
  | .d1 v => .flat v
  | .d2 [] _ => .flat []
  | .d2 (r :: rs) _ => .rows (r :: rs)

/-- `np.asarray` of a list: the number of columns is the length of the rows.  (Rows of different lengths do not come out of
`tolist` of an array.) -/
def asarray {V : Type} : Nested V → NpArr V
  | .flat v => .d1 v
  | .rows [] => .d1 []
  | .rows (r :: rs) => .d2 (r :: rs) r.length

/-- The contents of a split file: what `json.dump` or `pickle.dump` wrote (the list of feature arrays and the list of target
arrays, the latter `None` for a split made without targets). -/
inductive Content (V : Type) where
  | json (features : List (Nested V)) (targets : List (Nested V))
  | pickle (features : List (NpArr V)) (targets : Option (List (NpArr V)))

/-- The files. -/
abbrev Files (C : Type) := String → Option C

/-- Open for writing and dump. -/
def Files.write {C : Type} (fs : Files C) (name : String) (c : C) : Files C := fun n => if n = name then some c else fs n

/-- `write_split(features, targets, fname, fformat)`, k_fold_cv.py L67-103.  Iterating over `None` for JSON is a
TypeError, raised before the file is opened. -/
def writeSplit {V : Type} (fs : Files (Content V)) (features : List (NpArr V)) (targets : Option (List (NpArr V)))
    (fname fformat : String) : Except PyErr (Files (Content V)) :=
  if fformat = "json" then                                                             -- L82
    match targets with
    | none => .error .type                                                             -- L90
    | some t => .ok (fs.write (fname ++ ".json") (.json (features.map NpArr.tolist) (t.map NpArr.tolist)))
  else if fformat = "pickle" then .ok (fs.write (fname ++ ".pickle") (.pickle features targets))   -- L97-99
  else .error .notImpl                                                                 -- L101-102

/-- `read_split(fname, fformat)`, k_fold_cv.py L105-143.  A missing file is FileNotFoundError; a file of the other kind
cannot be decoded (ValueError). -/
def readSplit {V : Type} (fs : Files (Content V)) (fname fformat : String) :
    Except PyErr (List (NpArr V) × Option (List (NpArr V))) :=
  if fformat = "json" then                                                             -- L120
    match fs (fname ++ ".json") with
    | none => .error .other
    | some (.json f t) => .ok (f.map asarray, some (t.map asarray))                    -- L129-141
    | some (.pickle _ _) => .error .value
  else if fformat = "pickle" then                                                      -- L123
    match fs (fname ++ ".pickle") with
    | none => .error .other
    | some (.pickle f t) => .ok (f, t)
    | some (.json _ _) => .error .value
  else .error .notImpl                                                                 -- L127

/-! ## Splits of the hierarchy -/

/-- The `file_format` of a `Hierarchy`: the string and whether it is the same object as the literals in the code (constants
of a program are interned, strings read from a file or put together are not). -/
structure Fmt where
  str : String
  interned : Bool

/-- A split as it is stored: the keys in order with the uuids. -/
abbrev Stored (ι : Type) := List ((ℕ × ℕ) × List ι)

/-- The dictionary as list of items. -/
def items {ι : Type} (d : Split ι) : Stored ι := d.keys.map fun k => (k, d.val k)

/-- `_write_split(data)`, hierarchy_cv.py L250-268; formats are compared with `==`. -/
def writeHierarchy {ι : Type} (fs : Files (Stored ι)) (file : String) (fmt : Fmt) (d : Split ι) :
    Except PyErr (Files (Stored ι)) :=
  if fmt.str = "json" ∨ fmt.str = "pickle" then .ok (fs.write (file ++ "." ++ fmt.str) (items d)) else .error .notImpl

/-- `load_split()`, hierarchy_cv.py L111-125; formats are compared with `is`.  (The order of the keys is kept by
`json.load` from Python 3.7 on.) -/
def loadSplit {ι : Type} (fs : Files (Stored ι)) (file : String) (fmt : Fmt) : Except PyErr (Stored ι) :=
  if (fmt.str = "json" ∨ fmt.str = "pickle") ∧ fmt.interned = true then
    match fs (file ++ "." ++ fmt.str) with
    | none => .error .other
    | some c => .ok c
  else .error .notImpl

/-- `split_index`, hierarchy_cv.py L65-109, with the file: the split is written where the function returns it (L108). -/
def splitAndWrite {ι : Type} (fs : Files (Stored ι)) (file : String) (fmt : Fmt) (shuf0 : List ι → List ι)
    (shuf : ℕ × ℕ → List ι → List ι) (minSplit : ℕ) (maxSplit : Option ℕ) (all : List ι) : Files (Stored ι) × Option PyErr :=
  match splitIndex shuf0 shuf minSplit maxSplit all with
  | .error e => (fs, some e)
  | .ok none => (fs, none)
  | .ok (some d) =>
    match writeHierarchy fs file fmt d with
    | .error e => (fs, some e)
    | .ok fs' => (fs', none)

/-- The start of `learning_curve.hierarchy` with `new_data` (learning_curve.py L131-136): make a split, then load it. -/
def splitThenLoad {ι : Type} (fs : Files (Stored ι)) (file : String) (fmt : Fmt) (shuf0 : List ι → List ι)
    (shuf : ℕ × ℕ → List ι → List ι) (minSplit : ℕ) (maxSplit : Option ℕ) (all : List ι) : Except PyErr (Stored ι) :=
  match splitAndWrite fs file fmt shuf0 shuf minSplit maxSplit all with
  | (_, some e) => .error e
  | (fs', none) => loadSplit fs' file fmt

/-! ## The data of the hierarchy -/

/-- The names of the columns, hierarchy_cv.py L54-56: `f0`, `f1`, …, `target`. -/
def columnNames (d : ℕ) : List String := (List.range d).map (fun i => "f" ++ toString i) ++ ["target"]

/-- `todb(features, targets)`, hierarchy_cv.py L47-63, for a feature array with `d` columns.  `uids` are the results of
`uuid.uuid4`.  Different numbers of rows are a ValueError (L49). -/
def todb {V : Type} (uids : List String) (d : ℕ) (features : List (List V)) (targets : List V) (s : DB.Store V) :
    DB.Store V × Option PyErr :=
  if features.length ≠ targets.length then (s, some .value)
  else
    match DB.create (columnNames d) s with                                              -- L59-60
    | (s', some e) => (s', some e)
    | (s', none) =>                                                                     -- L63
      DB.fill (columnNames d) (uids.zip ((features.zip targets).map fun p => p.1 ++ [p.2])) s'

/-- `_get_index()`, hierarchy_cv.py L235-248. -/
def getIndex {V : Type} (s : DB.Store V) : Except PyErr (List String) :=
  match s with
  | none => .error .other
  | some t => .ok (t.rows.map Prod.fst)

/-- The part of `get_subset_data` after the lookup, hierarchy_cv.py L140-146: the rows are fetched and cut into features
(without the first and the last column) and targets (the last column).  Without rows the array has one dimension only and
the column index is an IndexError. -/
def subset {V : Type} (s : DB.Store V) (ids : List String) : Except PyErr (List (Option V) × List (List (Option V))) :=
  match s with
  | none => .error .other
  | some t =>
    match compileSplit sqliteLimit t.rows ids with
    | .error e => .error e
    | .ok [] => .error .index
    | .ok (r :: rs) => .ok ((r :: rs).map (fun x => x.2.getLast?.join), (r :: rs).map fun x => x.2.dropLast)

/-- `get_subset_data(index_split, indicies, split)`, hierarchy_cv.py L127-148: `key` is `indicies`, taken apart at the
underscore; with `split` the number after the underscore is replaced for the data, not in what is returned. -/
def getSubsetData {V : Type} (s : DB.Store V) (c : Stored String) (key : ℕ × ℕ) (split : Option ℕ) :
    Except PyErr ((List (Option V) × List (List (Option V))) × (ℕ × ℕ)) :=
  match c.lookup (key.1, split.getD key.2) with
  | none => .error .key
  | some ids =>
    match subset s ids with
    | .error e => .error e
    | .ok r => .ok (r, key)

/-- `globalscaledata(index_split)`, hierarchy_cv.py L315-335: the features of both halves, and features and targets of the
first half. -/
def globalScaleData {V : Type} (s : DB.Store V) (c : Stored String) :
    Except PyErr (List (List (Option V)) × List (List (Option V)) × List (Option V)) :=
  match c.lookup (1, 1), c.lookup (1, 2) with
  | some a, some b =>
    match subset s a with
    | .error e => .error e
    | .ok (t1, f1) =>
      match subset s b with
      | .error e => .error e
      | .ok (_, f2) => .ok (f1 ++ f2, f1, t1)
  | _, _ => .error .key

end CatLearn.SplitFiles
