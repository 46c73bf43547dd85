import Verif.Model.Py
import Mathlib.Data.List.ProdSigma
import Mathlib.Data.List.Dedup
import Mathlib.Data.List.OfFn
import Mathlib.Algebra.Order.Field.Rat

/-!
# Fingerprints of nanoparticles, atomic pairs and default sets

`catlearn/fingerprint/particle.py` and parts of `catlearn/featurize/setup.py`.  A structure with `n` atoms has atomic
numbers `z` and distances `dm`; `nndist` is the position of the first peak of ASE's radial distribution function plus
0.2 (particle.py L101-102, L147-148), a parameter here.
-/

namespace CatLearn.Particle

open CatLearn

variable {n : ℕ}

/-- `[j for j in range(len(types)) if number == types[j]][0]`, L109-110, L113-114. -/
def lookup (types : List ℕ) (z : ℕ) : Except PyErr ℕ := if z ∈ types then .ok (types.idxOf z) else .error .index

/-- Neighbours in `nearestneighbour_vec`, L111. -/
def nnNeighbors (dm : Fin n → Fin n → Rat) (nndist : Rat) (i : Fin n) : List (Fin n) :=
  (List.finRange n).filter fun j => dm i j < nndist

/-- The entries `[row][column]` that the loop raises by one for atom `i`, L108-115. -/
def nnPairs (types : List ℕ) (z : Fin n → ℕ) (dm : Fin n → Fin n → Rat) (nndist : Rat) (i : Fin n) :
    Except PyErr (List (ℕ × ℕ)) :=
  match lookup types (z i) with
  | .error e => .error e
  | .ok row =>
    match (nnNeighbors dm nndist i).mapM fun j => lookup types (z j) with
    | .error e => .error e
    | .ok cols => .ok (cols.map fun c => (row, c))

/-- `nnmat`, L105-120, flattened: the counts divided by the number of atoms of the row's element; `0/0` becomes 0 by
`np.nan_to_num`, L123. -/
def nnVec (types : List ℕ) (z : Fin n → ℕ) (dm : Fin n → Fin n → Rat) (nndist : Rat) : Except PyErr (List Rat) :=
  match (List.finRange n).mapM fun i => nnPairs types z dm nndist i with
  | .error e => .error e
  | .ok ps => .ok ((List.range types.length ×ˢ List.range types.length).map fun rc =>
      let atoms := (List.ofFn z).count (types.getD rc.1 0)
      if atoms = 0 then 0 else (ps.flatten.count rc : Rat) / (atoms : Rat))

/-- Names, L84-91. -/
def nnNames (types : List ℕ) : List String :=
  (types ×ˢ types).map fun p => toString p.1 ++ "_" ++ toString p.2 ++ "_nnmat"

/-- `sorted(frozenset(numbers))`, L98, L143, L183, L200. -/
def elements (z : Fin n → ℕ) : List ℕ := sortAsc id (List.ofFn z).dedup

/-- `nearestneighbour_vec`, L67-125, with the attribute `atom_types` as state, set by the first structure if missing. -/
def nearestneighbour (atomTypes : Option (List ℕ)) (z : Fin n → ℕ) (dm : Fin n → Fin n → Rat) (nndist : Rat) :
    Option (List ℕ) × Except PyErr (List Rat) :=
  let types := atomTypes.getD (elements z)
  (some types, nnVec types z dm nndist)

/-- Neighbours in `bond_count_vec`, L152-153. -/
def bcNeighbors (dm : Fin n → Fin n → Rat) (nndist : Rat) (i : Fin n) : List (Fin n) :=
  (List.finRange n).filter fun j => 1 / 10 < dm i j ∧ dm i j < nndist

/-- The entries `[ln][row][column]` that the loop raises by one for atom `i`, L150-159: none for more than 12
neighbours; an index beyond `max_bonds` raises IndexError. -/
def bcEntries (maxBonds : ℕ) (z : Fin n → ℕ) (dm : Fin n → Fin n → Rat) (nndist : Rat) (i : Fin n) :
    Except PyErr (List ((ℕ × ℕ) × ℕ)) :=
  let nb := bcNeighbors dm nndist i
  if 12 < nb.length then .ok []
  else if nb ≠ [] ∧ maxBonds ≤ nb.length then .error .index
  else .ok (nb.map fun j => ((nb.length, z i), z j))

/-- `bond_count_vec`, L127-161, flattened; rows and columns are the sorted elements of the structure. -/
def bondCount (maxBonds : ℕ) (z : Fin n → ℕ) (dm : Fin n → Fin n → Rat) (nndist : Rat) : Except PyErr (List ℕ) :=
  match (List.finRange n).mapM fun i => bcEntries maxBonds z dm nndist i with
  | .error e => .error e
  | .ok es => .ok (((List.range maxBonds ×ˢ elements z) ×ˢ elements z).map fun c => es.flatten.count c)

/-- `bond_count_vec(None)`: `None.get_atomic_numbers()`, base.py L93, raises AttributeError. -/
def bondCountNames : Except PyErr (List String) := .error .attribute

/-- Cell (a box) and positions of a structure. -/
structure Geom (n : ℕ) where
  cell : Fin 3 → Rat
  pos : Fin n → Fin 3 → Rat

/-- Lowest and highest coordinate. -/
def lowest (l : List Rat) : Rat := l.foldl min (l.headD 0)

/-- See `lowest`. -/
def highest (l : List Rat) : Rat := l.foldl max (l.headD 0)

/-- `data.set_cell([size] * 3); data.center()`, L166-167: the effect of `distribution_vec` on the structure it is given.
ASE's `Atoms.center` moves the middle of the atoms' bounding box to the middle of the cell. -/
def distributionEffect (size : Rat) (g : Geom n) : Geom n where
  cell := fun _ => size
  pos := fun i k =>
    let xs := List.ofFn fun j => g.pos j k
    g.pos i k + (size / 2 - (lowest xs + highest xs) / 2)

/-! ### Default sets, setup.py L28-56 -/

/-- `default_molecule_fingerprinters`, standard.py L22-30: Python joins adjacent string literals, there is no comma after
`'bag_elements'`. -/
def defaultMolecule : List String :=
  ["element_parameter_vec", "eigenspectrum_vec", "composition_vec", "distance_vec",
    "bag_elements" ++ "bag_edges", "bag_element_cn"]

/-- `default_particle_fingerprinters`, particle.py L29-31. -/
def defaultParticle : List String := ["nearestneighbour_vec"]

/-- `default_sets` for `'fragment'` and the other keys, L28-33; the other lists are parameters. -/
def defaultSet (bulk adsorbates chalcogenides : List String) : String → Option (List String)
  | "bulk" => some bulk
  | "fragment" => some (defaultMolecule ++ defaultParticle)
  | "adsorbates" => some adsorbates
  | "chalcogenides" => some chalcogenides
  | _ => none

/-- `default_fingerprinters`, L36-56: `methods` are the attributes of the generator. -/
def defaultFingerprinters (methods : List String) (bulk adsorbates chalcogenides : List String) (dataType : String) :
    Except PyErr (List String) :=
  match defaultSet bulk adsorbates chalcogenides dataType with
  | none => .error .value
  | some l => l.mapM fun m => if m ∈ methods then .ok m else (.error .attribute : Except PyErr String)

/-! ### `featurize_atomic_pairs`, setup.py L118-155 -/

/-- A structure: atomic numbers and distances of its atoms. -/
structure Pairs where
  n : ℕ
  z : Fin n → ℕ
  dist : Fin n → Fin n → Rat

/-- One row, L147-151: distance, occurrences of the elements in `atom_types` (one-hot rows of both atoms added), atomic
numbers of the two atoms. -/
def pairRow (types : List ℕ) (s : Pairs) (i j : Fin s.n) : List Rat :=
  s.dist i j :: (types.map fun t => (if s.z i = t then (1 : Rat) else 0) + (if s.z j = t then 1 else 0)) ++
    [(s.z i : Rat), (s.z j : Rat)]

/-- The rows of one structure, L137-153: `np.unravel_index` goes through the pairs row by row. -/
def pairRows (types : List ℕ) (s : Pairs) : List (List Rat) :=
  (List.finRange s.n ×ˢ List.finRange s.n).map fun p => pairRow types s p.1 p.2

/-- `_get_atom_types`, L283-306. -/
def allTypes (l : List Pairs) : List ℕ := sortAsc id (l.flatMap fun s => List.ofFn s.z).dedup

/-- `featurize_atomic_pairs`, L118-155; `np.concatenate([])` raises ValueError. -/
def featurizePairs (atomTypes : Option (List ℕ)) (l : List Pairs) : Except PyErr (List (List Rat)) :=
  if l = [] then .error .value else .ok (l.flatMap (pairRows (atomTypes.getD (allTypes l))))

end CatLearn.Particle
