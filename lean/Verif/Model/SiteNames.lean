import Verif.Model.SystemFeatures
import Verif.Model.Py
import Mathlib.Data.Nat.Digits.Defs
import Mathlib.Data.Real.Basic

/-!
Names of compositions and dictionaries of reference energies, catlearn/featurize/site_stability.py L50-76.  Strings are lists of characters.
-/

namespace CatLearn.SiteNames

open CatLearn

/-- `str(n)` for a natural number. -/
def decimal (n : ℕ) : List Char := if n = 0 then ['0'] else ((Nat.digits 10 n).map Nat.digitChar).reverse

/-- `composition_name(atoms)`, site_stability.py L50-58: the items of `stoichiometry(atoms)` (slab_utilities.py L18-38), whose elements come in the
order of a set, `order`. -/
def compositionName (order syms : List (List Char)) : List Char :=
  (SystemFeatures.stoichiometry order syms).flatMap fun p => p.1 ++ decimal p.2

/-- Neighbouring equal symbols together, with their number. -/
def runs : List (List Char) → List (List Char × ℕ)
  | [] => []
  | s :: l => match runs l with
    | [] => [(s, 1)]
    | (s', n) :: t => if s = s' then (s, n + 1) :: t else (s, 1) :: (s', n) :: t

/-- `str(atoms.symbols)` (ASE): equal neighbouring symbols are written once, with their number if it is not one. -/
def strSymbols (syms : List (List Char)) : List Char :=
  (runs syms).flatMap fun p => p.1 ++ if p.2 = 1 then [] else decimal p.2

/-- What is in a file: the symbols of the atoms and their energy. -/
abbrev Content := List (List Char) × ℝ

/-- `d[k] = v`. -/
def setItem (d : List (List Char × ℝ)) (k : List Char) (v : ℝ) : List (List Char × ℝ) :=
  if d.any (fun p => p.1 = k) then d.map fun p => if p.1 = k then (k, v) else p else d ++ [(k, v)]

/-- `d[k]`. -/
def getItem (d : List (List Char × ℝ)) (k : List Char) : Except PyErr ℝ :=
  match d.find? fun p => p.1 = k with
  | none => .error .key
  | some p => .ok p.2

/-- `f.endswith('traj') or f.endswith('json')`, L73. -/
def isReference (name : List Char) : Bool := "traj".toList.isSuffixOf name || "json".toList.isSuffixOf name

/-- `traj_to_reference_dict(folderpath)`, L61-76; `files` are the names in the order of `os.listdir` with what reading them gives. -/
def referenceDict (files : List (List Char × Except PyErr Content)) : Except PyErr (List (List Char × ℝ)) :=
  files.foldlM (fun d f =>
    if isReference f.1 then
      match f.2 with
      | .error e => .error e
      | .ok c => .ok (setItem d (strSymbols c.1) c.2)
    else .ok d) []

end CatLearn.SiteNames
