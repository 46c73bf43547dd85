import Verif.Model.Py
import Mathlib.Data.Real.Basic
import Mathlib.Data.List.Dedup

/-!
# CatApp fingerprints

`catlearn/fingerprint/catapp.py`.  Texts are lists of characters.  The element data are parameters.
-/

namespace CatLearn.Catapp

open CatLearn

/-- The parameter names, L73-98, without suffix. -/
def base : List String :=
  ["atomic_number", "atomic_volume", "boiling_point", "density", "dipole_polarizability", "electron_affinity",
   "group_id", "lattice_constant", "melting_point", "period", "vdw_radius", "covalent_radius_cordero", "en_allen",
   "atomic_weight", "heat_of_formation", "sblock", "pblock", "dblock", "fblock", "ne_outer", "ne_s", "ne_p", "ne_d",
   "ne_f", "ionenergy", "ground_state_magmom"]

/-- `catapp_AB(None)`, L72-172. -/
def names : List String :=
  base.map (· ++ "_m1") ++ base.map (· ++ "_m2") ++ base.map (· ++ "_sum") ++
    ["concentration_catapp", "facet_catapp", "site_catapp"]

/-- `facetdict`, L48-50. -/
def facets : List (List Char × ℝ) :=
  [("001".toList, 1), ("0001step".toList, 2), ("100".toList, 3), ("110".toList, 4), ("111".toList, 5),
   ("211".toList, 6), ("311".toList, 7), ("532".toList, 8)]

/-- `kvp['facet'].replace(')', '').replace('(', '')`, L232. -/
def strip (t : List Char) : List Char := (t.filter (· ≠ ')')).filter (· ≠ '(')

/-- `facetdict[…]`, L232: KeyError for another facet. -/
def facetValue (t : List Char) : Except PyErr ℝ :=
  match facets.find? fun f => f.1 = strip t with
  | some f => .ok f.2
  | none => .error .key

/-- `Z_surf1`, L178-179: stable sort by the number of occurrences, descending. -/
def sorted (raw : List ℕ) : List ℕ := sortDesc (fun z => raw.count z) raw

/-- `z1, z2` after the loop of L180-184; IndexError without ligand atoms. -/
def metals (raw : List ℕ) : Except PyErr (ℕ × ℕ) :=
  match sorted raw with
  | [] => .error .index
  | z1 :: rest => .ok (z1, (z1 :: rest).foldl (fun z2 z => if z ≠ z1 then z else z2) z1)

/-- `site`, L185-192: `Z_surf1[0] == z1` always holds. -/
def site (raw : List ℕ) (z1 z2 : ℕ) : Except PyErr ℝ :=
  if raw.dedup.length = 1 then
    if (sorted raw).head? = some z1 then .ok 1
    else if (sorted raw).head? = some z2 then .ok 3
    else .error .name
  else .ok 2

/-- `conc`, L195-204.  `parse` is `string2symbols` followed by the atomic numbers. -/
def conc (parse : List Char → Except PyErr (List ℕ)) (term : List Char) : Except PyErr ℝ :=
  match parse term with
  | .error e => .error e
  | .ok z =>
    if '3' ∈ term then .ok 3
    else if z.dedup.length = 1 then .ok 1
    else if z.dedup.length = 2 then .ok 2
    else .error .notImpl

/-- `catapp_AB`, L173-234.  `raw` are the atomic numbers of the ligand atoms, `elem` the row of an element (parameters,
block, outer electrons, ionisation energy, magnetic moment), L215-229; entries that are missing in the table are not
modelled. -/
noncomputable def catappAB (elem : ℕ → Except PyErr (List ℝ)) (parse : List Char → Except PyErr (List ℕ)) (raw : List ℕ)
    (term facet : List Char) : Except PyErr (List ℝ) :=
  match metals raw with
  | .error e => .error e
  | .ok (z1, z2) =>
    match site raw z1 z2 with
    | .error e => .error e
    | .ok s =>
      match conc parse term with
      | .error e => .error e
      | .ok c =>
        match elem z1 with
        | .error e => .error e
        | .ok f1 =>
          match if z1 = z2 then .ok f1 else elem z2 with
          | .error e => .error e
          | .ok f2 =>
            match facetValue facet with
            | .error e => .error e
            | .ok f => .ok (f1 ++ f2 ++ List.zipWith (· + ·) f1 f2 ++ [c] ++ [f] ++ [s])

end CatLearn.Catapp
