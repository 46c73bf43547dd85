import Verif.Model.Py
import Mathlib.Order.Defs.LinearOrder

/-!
Predicted energies for CatMAP (catlearn/api/catmap.py L6-61), and the formulas written for Magpie
(catlearn/fingerprint/prototype.py L88-94).

Strings are lists of characters.  A record of the database is what `_get_adsorbate_fields` makes of it (seven strings) and its
`site`, if it has one.
-/

namespace CatLearn.Catmap

open CatLearn

/-- A database record: the fields of catmap.py L41-42 as strings, and the `site`. -/
structure Record where
  fields : List (List Char)
  site : Option (List Char)

/-- `'_'.join(…)` -/
def join : List (List Char) → List Char
  | [] => []
  | [s] => s
  | s :: t => s ++ '_' :: join t

/-- The key of a record, catmap.py L43-48. -/
def key (siteSpecific : Bool) (r : Record) : List Char :=
  let site := match siteSpecific, r.site with
    | true, some s => s
    | _, _ => "site".toList
  join (r.fields ++ [site])

/-- What the three dictionaries hold for a key: energy, uncertainty and database id. -/
structure Entry (R ι : Type) where
  energy : R
  std : R
  dbid : ι
deriving DecidableEq

variable {R ι : Type} [LinearOrder R]

/-- The dictionaries `formation_energies`, `std` and `dbids` of catmap.py L36-38; they always have the same keys. -/
abbrev Dicts (R ι : Type) := List (List Char × Entry R ι)

/-- `d[k] = e` -/
def assign (d : Dicts R ι) (k : List Char) (e : Entry R ι) : Dicts R ι :=
  if d.any (·.1 == k) then d.map fun p => if p.1 = k then (p.1, e) else p else d ++ [(k, e)]

/-- `d.get(k)` -/
def find (d : Dicts R ι) (k : List Char) : Option (Entry R ι) := (d.find? fun p => p.1 == k).map Prod.snd

/-- An item of a list that may be `None`: TypeError for `None`, IndexError beyond the end. -/
def item (l : Option (List R)) (i : ℕ) : Except PyErr R :=
  match l with
  | none => .error .type
  | some l =>
    match l[i]? with
    | none => .error .index
    | some x => .ok x

/-- The loop of catmap.py L39-56; `get` is `c.get`, KeyError for an unknown id. -/
def loop (get : ι → Option Record) (siteSpecific : Bool) (prediction : List R) (uncertainty : Option (List R)) :
    List ι → ℕ → Dicts R ι → Except PyErr (Dicts R ι)
  | [], _, d => .ok d
  | id :: r, i, d =>
    match get id with
    | none => .error .key
    | some rec =>
      let k := key siteSpecific rec
      match item (some prediction) i with
      | .error e => .error e
      | .ok p =>
        match find d k with
        | none =>
          match item uncertainty i with
          | .error e => .error e
          | .ok u => loop get siteSpecific prediction uncertainty r (i + 1) (assign d k ⟨p, u, id⟩)
        | some old =>
          if old.energy < p then
            match item uncertainty i with
            | .error e => .error e
            | .ok u => loop get siteSpecific prediction uncertainty r (i + 1) (assign d k ⟨p, u, id⟩)
          else loop get siteSpecific prediction uncertainty r (i + 1) d

/-- The CatMAP object: its three dictionaries, as one map. -/
abbrev Landscape (R ι : Type) := List Char → Option (Entry R ι)

/-- `catmap_energy_landscape`, catmap.py L6-61; `none` for the default `catmap=None`, an AttributeError (after the first
record has been read). -/
def energyLandscape (get : ι → Option Record) (ids : List ι) (prediction : List R) (uncertainty : Option (List R))
    (catmap : Option (Landscape R ι)) (siteSpecific : Bool) : Except PyErr (Landscape R ι) :=
  match catmap with
  | none =>
    match ids.head?.map get with
    | some none => .error .key
    | _ => .error .attribute
  | some c =>
    match loop get siteSpecific prediction uncertainty ids 0 [] with
    | .error e => .error e
    | .ok d => .ok fun k => match find d k with | some e => some e | none => c k

/-! ### Formulas for Magpie -/

/-- The formula of a structure, prototype.py L88-94: the symbols on the sites, each followed by the multiplicity of the
site, and all digits `1` removed from the whole. -/
def formula (sites : List (List Char × ℕ)) : List Char :=
  ((sites.map fun s => s.1 ++ (Nat.toDigits 10 s.2)).flatten).filter (· ≠ '1')

end CatLearn.Catmap
