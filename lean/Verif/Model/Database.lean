import Verif.Model.Py

/-!
# Feature databases: `catlearn/utilities/database_functions.py`

SQLite is modelled by lists of rows.  Column names are compared exactly (SQLite ignores case).  Values are
kept exactly (`GROUP_CONCAT` prints 15 digits).
-/

namespace CatLearn.DB

open CatLearn

/-! ## `DescriptorDatabase`, L7-144 -/

/-- The table: the column `uuid text` followed by the descriptor columns; rows in insertion order, without
uniqueness of `uuid` (L41-46 declares no key); `none` is SQL NULL. -/
structure Table (V : Type) where
  cols : List String
  rows : List (String × List (Option V))

/-- The database file: no table before `create_db`. -/
abbrev Store (V : Type) := Option (Table V)

/-- The operations of the class that change the file. -/
inductive Op (V : Type) where
  | create (names : List String)                               -- `create_db`
  | addColumns (cs : List String)                              -- `create_column`
  | fill (names : List String) (data : List (String × List V)) -- `fill_db`
  | update (descriptor : String) (v : V) (id : String)         -- `update_descriptor`

/-- `create_db`, L31-46: `CREATE TABLE IF NOT EXISTS`; two columns of the same name are an
OperationalError. -/
def create {V : Type} (names : List String) (s : Store V) : Store V × Option PyErr :=
  match s with
  | some t => (some t, none)
  | none => if ("uuid" :: names).Nodup then (some ⟨names, []⟩, none) else (none, some .other)

/-- `create_column`, L48-62: one `alter table` per name, each committed; a duplicate name or a missing table is
an OperationalError, after which the remaining names are not added. -/
def addColumns {V : Type} : List String → Store V → Store V × Option PyErr
  | [], s => (s, none)
  | _ :: _, none => (none, some .other)
  | c :: cs, some t =>
    if c ∈ "uuid" :: t.cols then (some t, some .other)
    else addColumns cs (some ⟨t.cols ++ [c], t.rows.map fun r => (r.1, r.2 ++ [none])⟩)

/-- `executemany` over the rows, L80-82: a row with the wrong number of values is a ProgrammingError; the rows
before it stay inserted for this connection (they reach the file with the next commit). -/
def insertRows {V : Type} (n : Nat) : List (String × List V) → List (String × List (Option V)) →
    List (String × List (Option V)) × Option PyErr
  | [], rows => (rows, none)
  | d :: ds, rows =>
    if d.2.length = n then insertRows n ds (rows ++ [(d.1, d.2.map some)]) else (rows, some .other)

/-- `fill_db`, L64-82: `INSERT INTO table VALUES (?,…,?)` with one placeholder more than there are names in the
call; the names themselves are not used.  A wrong number of placeholders is an OperationalError. -/
def fill {V : Type} (names : List String) (data : List (String × List V)) (s : Store V) :
    Store V × Option PyErr :=
  match s with
  | none => (none, some .other)
  | some t =>
    if names.length = t.cols.length then
      let r := insertRows t.cols.length data t.rows
      (some ⟨t.cols, r.1⟩, r.2)
    else (some t, some .other)

/-- Overwrite the entry of one column in a row. -/
def setCol {V : Type} (cols : List String) (d : String) (v : V) (row : List (Option V)) : List (Option V) :=
  row.set (cols.idxOf d) (some v)

/-- `update_descriptor`, L84-103: all rows of the identifier are changed; an unknown column is an
OperationalError. -/
def update {V : Type} (d : String) (v : V) (id : String) (s : Store V) : Store V × Option PyErr :=
  match s with
  | none => (none, some .other)
  | some t =>
    if d ∈ t.cols then
      (some ⟨t.cols, t.rows.map fun r => if r.1 = id then (r.1, setCol t.cols d v r.2) else r⟩, none)
    else (some t, some .other)

/-- One operation. -/
def exec {V : Type} (s : Store V) : Op V → Store V × Option PyErr
  | .create names => create names s
  | .addColumns cs => addColumns cs s
  | .fill names data => fill names data s
  | .update d v id => update d v id s

/-- `query_db(unique_id, names)`, L105-138, for a given identifier and descriptor names: the first matching row
(`fetchall()[0]`; IndexError if there is none), the named columns (OperationalError for an unknown one).  An empty list
of names is an IndexError (`names[0]`, L121).  The column `uuid` is not asked for by name. -/
def query {V : Type} (s : Store V) (id : String) (names : List String) : Except PyErr (List (Option V)) :=
  if names = [] then .error .index
  else match s with
  | none => .error .other
  | some t =>
    if names.all (· ∈ t.cols) then
      match t.rows.find? (fun r => r.1 == id) with
      | none => .error .index
      | some r => .ok (names.map fun c => (r.2[t.cols.idxOf c]?).join)
    else .error .other

/-- `query_db(unique_id)` without names, L118-119 and L134-136: the whole row (`SELECT *`). -/
def queryRow {V : Type} (s : Store V) (id : String) : Except PyErr (String × List (Option V)) :=
  match s with
  | none => .error .other
  | some t =>
    match t.rows.find? (fun r => r.1 == id) with
    | none => .error .index
    | some r => .ok r

/-- `query_db(names=names)` without an identifier, L129-133: the named columns of all rows. -/
def queryAll {V : Type} (s : Store V) (names : List String) : Except PyErr (List (List (Option V))) :=
  if names = [] then .error .index
  else match s with
  | none => .error .other
  | some t =>
    if names.all (· ∈ t.cols) then .ok (t.rows.map fun r => names.map fun c => (r.2[t.cols.idxOf c]?).join)
    else .error .other

/-- `query_db()`, L118-119 and L129-133: all rows (`SELECT *`). -/
def queryTable {V : Type} (s : Store V) : Except PyErr (List (String × List (Option V))) :=
  match s with
  | none => .error .other
  | some t => .ok t.rows

/-- `get_column_names`, L140-144. -/
def columnNames {V : Type} (s : Store V) : Except PyErr (List String) :=
  match s with
  | none => .error .other
  | some t => .ok ("uuid" :: t.cols)

/-! ## `FingerprintDB`, L147-399 -/

/-- The three tables.  Nothing is ever deleted, so the automatic keys are positions: image `i` (from 0) has
`iid = i + 1`, parameter `p` has `pid = p + 1`.  `fps` holds `(iid, pid, value)` in insertion order. -/
structure FDB (I V : Type) where
  images : List I
  params : List String
  fps : List (Nat × Nat × V)

/-- The two identifiers of an ase-db row: `row.id` and `row.unique_id`. -/
structure AseRow (I : Type) where
  id : I
  uniqueId : I

/-- `image_entry`, L226-255: an identifier that is present already is skipped; the table holds `unique_id`, the
call returns `id`. -/
def imageEntry {I V : Type} [DecidableEq I] (db : FDB I V) (d : AseRow I) : FDB I V × I :=
  (if d.uniqueId ∈ db.images then db else { db with images := db.images ++ [d.uniqueId] }, d.id)

/-- The insertion in `parameter_entry`, L273-283: a symbol that is present already is skipped. -/
def insertParam {I V : Type} (db : FDB I V) (s : String) : FDB I V :=
  if s ∈ db.params then db else { db with params := db.params ++ [s] }

/-- `parameter_entry`, L257-283: without a symbol or with an empty one (`if not symbol`), `str(int(MAX(pid)) + 1)` is
used, which is a TypeError for an empty table. -/
def parameterEntry {I V : Type} (db : FDB I V) (symbol : Option String) : Except PyErr (FDB I V) :=
  if symbol.getD "" = "" then
    if db.params.length = 0 then .error .type else .ok (insertParam db (toString (db.params.length + 1)))
  else .ok (insertParam db (symbol.getD ""))

/-- How `fingerprint_entry` names its parameter: by symbol or by key. -/
inductive ParamRef where
  | symbol (s : String)
  | pid (p : Nat)

/-- L336-345: the key of the parameter; an unknown symbol executes `raise(KeyError, '…')`, which is a TypeError
in Python 3.  An integer is taken as it is. -/
def resolve {I V : Type} (db : FDB I V) : ParamRef → Except PyErr Nat
  | .symbol s => if s ∈ db.params then .ok (db.params.idxOf s + 1) else .error .type
  | .pid p => .ok p

/-- `fingerprint_entry`, L323-357: an unknown image is a TypeError (`None[0]`); a pair of image and parameter
that has a value already is skipped (UNIQUE constraint L214-224, IntegrityError swallowed). -/
def fingerprintEntry {I V : Type} [DecidableEq I] (db : FDB I V) (a : I) (p : ParamRef) (v : V) :
    Except PyErr (FDB I V) :=
  match resolve db p with
  | .error e => .error e
  | .ok pid =>
    if a ∈ db.images then
      let iid := db.images.idxOf a + 1
      .ok (if db.fps.any (fun f => f.1 == iid && f.2.1 == pid) then db
        else { db with fps := db.fps ++ [(iid, pid, v)] })
    else .error .type

/-- `get_parameters(selection)`, L285-321.  Without a selection all keys; an empty table is an IndexError (`T[0]`).  An
unknown symbol leaves `None` in the list, on which `np.array(res).T[0].astype(int)` is an AttributeError. -/
def getParameters {I V : Type} (db : FDB I V) (selection : List String) : Except PyErr (List Nat) :=
  if selection = [] then
    if db.params = [] then .error .index else .ok ((List.range db.params.length).map (· + 1))
  else if selection.all (· ∈ db.params) then .ok (selection.map fun s => db.params.idxOf s + 1)
  else .error .attribute

/-- The image of a key. -/
def imageOf {I V : Type} (db : FDB I V) (iid : Nat) : Option I :=
  if iid = 0 then none else db.images[iid - 1]?

/-- Rows of the join with the `WHERE` clause, L389-391. -/
def matching {I V : Type} [DecidableEq I] (db : FDB I V) (ids : List I) (pids : List Nat) :
    List (I × Nat × V) :=
  db.fps.filterMap fun f => match imageOf db f.1 with
    | none => none
    | some a => if a ∈ ids ∧ f.2.1 ∈ pids then some (a, f.2.1, f.2.2) else none

/-- `GROUP BY ase_id`, L388-393: one group per identifier that has a matching row, in ascending order of the
identifiers.  The order of the values inside `GROUP_CONCAT` is not specified by SQLite: `order` is any
rearrangement. -/
def groups {I V : Type} [LinearOrder I] (order : List (Nat × V) → List (Nat × V)) (m : List (I × Nat × V)) :
    List (List V) :=
  let as := sortAsc id (m.map (·.1)).dedup
  as.map fun a => (order ((m.filter fun r => r.1 = a).map (·.2))).map (·.2)

/-- `fingerprint[i] = f[0].split(',')`, L397: a row of the right length is copied, a single value is broadcast,
everything else is a ValueError. -/
def fitRow {V : Type} (n : Nat) (r : List V) : Except PyErr (List V) :=
  if r.length = n then .ok r
  else match r with
    | [v] => .ok (List.replicate n v)
    | _ => .error .value

/-- `get_fingerprints(ase_ids, params)`, L359-399, for parameter keys: `IN {}` is filled with the Python tuple, so
one identifier gives `('…',)`, an OperationalError; the groups fill the first rows of a zero matrix. -/
def getFingerprints {I V : Type} [LinearOrder I] (zero : V) (order : List (Nat × V) → List (Nat × V))
    (db : FDB I V) (ids : List I) (pids : List Nat) : Except PyErr (List (List V)) :=
  if ids.length = 1 then .error .other
  else match (groups order (matching db ids pids)).mapM (fitRow pids.length) with
    | .error e => .error e
    | .ok rows => .ok (rows ++ List.replicate (ids.length - rows.length) (List.replicate pids.length zero))

end CatLearn.DB
