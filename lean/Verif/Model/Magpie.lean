import Verif.Model.Catmap
import Mathlib.Data.List.Sort

/-!
Tables of fingerprints made by Magpie: `VoronoiFingerprintGenerator` (catlearn/fingerprint/voro.py) and
`PrototypeSites`/`PrototypeFingerprintGenerator` (catlearn/fingerprint/prototype.py).

Magpie is an external Java program.  It is a parameter: what it writes to the csv file, or `none` if it writes no file, given the
files of the temporary directory.  Strings are lists of characters.  The columns of the csv file other than `id` are one value of
type `β`.  Not modelled: the text of the csv files and of the Magpie script, columns whose names clash, properties named
`formula` or `id`, and attributes of a structure that are not strings.
-/

namespace CatLearn.Magpie

open CatLearn

/-! ### voro.py -/

/-- A row of `properties.txt`, voro.py L64-69. -/
structure Entry where
  filename : List Char
  id : ℕ
  formula : List Char
  deriving DecidableEq

/-- The temporary directory: the structures in `cif/`, `properties.txt` and `voro_FP.csv`. -/
structure Dir (α β : Type) where
  files : List (List Char × α)
  table : List Entry
  csv : Option (List (ℕ × β))

/-- Writing a file replaces the one of that name. -/
def writeFile {α : Type} (files : List (List Char × α)) (name : List Char) (x : α) : List (List Char × α) :=
  files.filter (fun f => f.1 ≠ name) ++ [(name, x)]

/-- voro.py L44-50: the directory is created anew, whether or not there is one. -/
def fresh {α β : Type} (disk : Option (Dir α β)) : Dir α β :=
  match disk with
  | none => ⟨[], [], none⟩
  | some _ => ⟨[], [], none⟩

/-- One pass of the loop of voro.py L56-63: the counter, the files and the rows. -/
def writeOne {α : Type} (formula : α → List Char) (s : ℕ × List (List Char × α) × List Entry) (at' : α) :
    ℕ × List (List Char × α) × List Entry :=
  let name := Nat.toDigits 10 s.1 ++ '-' :: formula at'            -- L57
  (s.1 + 1, writeFile s.2.1 name at', s.2.2 ++ [⟨name, s.1, formula at'⟩])   -- L58-63

/-- `write_voro_input`, voro.py L42-73. -/
def writeVoro {α β : Type} (formula : α → List Char) (atoms : List α) (disk : Option (Dir α β)) : Dir α β :=
  let s := atoms.foldl (writeOne formula) (0, (fresh disk).files, (fresh disk).table)
  ⟨s.2.1, s.2.2, (fresh disk).csv⟩

/-- `pd.merge(left, right, left_on='id', right_on='id')` (voro.py L99, prototype.py L156): an inner join in the order of the left
table, rows of equal id in the order of the right one. -/
def merge {γ β : Type} (left : List (ℕ × γ)) (right : List (ℕ × β)) : List (ℕ × γ × β) :=
  left.flatMap fun e => (right.filter fun r => r.1 = e.1).map fun r => (e.1, e.2, r.2)

/-- `generate`, voro.py L80-99: what is left on the disk, and the table without `filename`, `formula` and `id`. -/
def voroGenerate {α β : Type} (formula : α → List Char)
    (magpie : List (List Char × α) → List Entry → Option (List (ℕ × β))) (deleteTemp : Bool) (atoms : List α)
    (disk : Option (Dir α β)) : Option (Dir α β) × Except PyErr (List β) :=
  let d := writeVoro formula atoms disk                            -- L89
  let csv := match magpie d.files d.table with                     -- L90
    | some rows => some rows
    | none => d.csv
  match csv with
  | none => (some d, .error .other)                                -- L93-95
  | some rows => (if deleteTemp then none else some { d with csv := some rows },
      .ok ((merge (d.table.map fun e => (e.id, e)) rows).map fun r => r.2.2))   -- L96-99

/-! ### prototype.py -/

section
variable {κ : Type} [LinearOrder κ]

/-- `site_list`, prototype.py L20-21.  The keys of a dictionary are a list in Python 2 and a view, which has no method `sort`, in
Python 3.  `sites` is the dictionary: its keys are distinct. -/
def siteList (python3 : Bool) (sites : List (κ × ℕ × List (List Char))) : Except PyErr (List κ) :=
  if python3 then .error .attribute
  else .ok ((sites.map fun s => s.1).insertionSort (· ≤ ·))

/-- `site_str`, prototype.py L22-25: a line for each site, its multiplicity and options separated by blanks. -/
def siteStr (sites : List (κ × ℕ × List (List Char))) (siteList : List κ) : List Char :=
  ['\n'].intercalate (siteList.map fun k =>
    match sites.lookup k with
    | some s => [' '].intercalate (Nat.toDigits 10 s.1 :: s.2)
    | none => [])

/-- A row of `prototypes.txt`, prototype.py L102-105. -/
structure Row where
  formula : List Char
  cells : List (Option (List Char))
  deriving DecidableEq

/-- The element and the multiplicity of a site, prototype.py L91-92.  A structure without an attribute named like the site raises an
`AttributeError`. -/
def sitePart {α : Type} (attr : α → κ → Option (List Char)) (sites : List (κ × ℕ × List (List Char))) (at' : α) (k : κ) :
    Except PyErr (List Char × ℕ) :=
  match attr at' k, sites.lookup k with
  | some s, some m => .ok (s, m.1)
  | none, _ => .error .attribute
  | _, none => .error .key

/-- `at_name` of prototype.py L89-94. -/
def atName {α : Type} (attr : α → κ → Option (List Char)) (sites : List (κ × ℕ × List (List Char))) (siteList : List κ) (at' : α) :
    Except PyErr (List Char) := do
  let named ← siteList.mapM (sitePart attr sites at')
  pure (Catmap.formula named)

/-- The rows made by prototype.py L85-101. -/
def protoRows {α : Type} (attr : α → κ → Option (List Char)) (sites : List (κ × ℕ × List (List Char))) (siteList properties : List κ) :
    List α → ℕ → Except PyErr (List (ℕ × Row))
  | [], _ => .ok []
  | a :: rest, i => do
    let name ← atName attr sites siteList a                        -- L89-94
    let more ← protoRows attr sites siteList properties rest (i + 1)
    pure ((i, ⟨name, properties.map fun p => attr a p⟩) :: more)   -- L95-101

/-- The table made by `write_proto_input`, prototype.py L77-105.  A property listed twice has a column twice as long as the
others, which pandas refuses. -/
def writeProto {α : Type} (attr : α → κ → Option (List Char)) (sites : List (κ × ℕ × List (List Char))) (siteList properties : List κ)
    (atoms : List α) : Except PyErr (List (ℕ × Row)) := do
  if siteList.any (fun k => ! properties.contains k) then throw .value   -- L81-83
  let rows ← protoRows attr sites siteList properties atoms 0
  if atoms ≠ [] ∧ ¬ properties.Nodup then throw .value             -- L104
  pure rows

/-- `PrototypeSites(site_dict)` and `PrototypeFingerprintGenerator(atoms, sites, properties=properties).generate_all()`,
prototype.py L12-25, L131-156: the input joined with what Magpie wrote.  Magpie sees `prototypes.txt` and `site-info.txt` of a new
directory. -/
def generateAll {α β : Type} (python3 : Bool) (attr : α → κ → Option (List Char)) (sites : List (κ × ℕ × List (List Char)))
    (properties : List κ) (magpie : List (ℕ × Row) → List Char → Option (List (ℕ × β))) (atoms : List α) :
    Except PyErr (List (ℕ × Row × β)) := do
  let ss ← siteList python3 sites
  let input ← writeProto attr sites ss properties atoms
  match magpie input (siteStr sites ss) with
  | none => throw .other                                           -- L145-147
  | some fp => pure (merge input fp)                               -- L156

end

end CatLearn.Magpie
