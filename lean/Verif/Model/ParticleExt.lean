import Verif.Model.Particle

/-!
# Connections, distributions and partial radial distribution functions of particles (catlearn/fingerprint/particle.py L163-218)

`get_atoms_connections` of ASE (ase/ga/utilities.py) and the neighbour list it uses are written out as far as the elements that are not counted are
concerned.  Which atoms are near each other (nearer than the covalent radii plus 0.2), the histogram of distances from the centre of the cell and the radial
distribution function of two elements are parameters.
-/

namespace CatLearn.Particle

open CatLearn

variable {n : ℕ}

/-- ASE's `get_neighbor_list(atoms, no_count_types)[i]`: no bonds of atoms whose element is in `no_count_types`. -/
def aseNeighbors (z : Fin n → ℕ) (near : Fin n → Fin n → Bool) (noCount : List ℕ) (i : Fin n) : List (Fin n) :=
  (List.finRange n).filter fun j => i ≠ j ∧ z i ∉ noCount ∧ z j ∉ noCount ∧ near i j = true

/-- The loop of ASE's `get_atoms_connections`: `no_of_conn[len] += 1`, or `no_of_conn[-1] += 1` for `max_conn` or more (IndexError for an empty list). -/
def tally (maxConn : ℕ) (acc : List ℕ) (l : ℕ) : Except PyErr (List ℕ) :=
  if l < maxConn then .ok (acc.set l (acc.getD l 0 + 1))
  else if maxConn = 0 then .error .index
  else .ok (acc.set (maxConn - 1) (acc.getD (maxConn - 1) 0 + 1))

/-- ASE's `get_atoms_connections(atoms, max_conn, no_count_types)`. -/
def connections (maxConn : ℕ) (z : Fin n → ℕ) (near : Fin n → Fin n → Bool) (noCount : List ℕ) : Except PyErr (List ℕ) :=
  ((List.finRange n).map fun i => (aseNeighbors z near noCount i).length).foldlM (tally maxConn) (List.replicate maxConn 0)

/-- `connections_vec`, L183-199: the attribute `atom_types` afterwards, and the fingerprint. -/
def connectionsVec (maxBonds : ℕ) (atomTypes : Option (List ℕ)) (z : Fin n → ℕ) (near : Fin n → Fin n → Bool) :
    Option (List ℕ) × Except PyErr (List ℕ) :=
  let types := atomTypes.getD (elements z)                                     -- L186-190
  (some types, (types.mapM fun an => connections maxBonds z near [an]).map List.flatten)

/-- `distribution_vec`, L163-181, after the structure was centred; `hist` is ASE's histogram of a number of atoms. -/
def distributionVec (hist : List (Fin n) → List ℕ) (atomTypes : Option (List ℕ)) (z : Fin n → ℕ) : Option (List ℕ) × List ℕ :=
  let types := atomTypes.getD (elements z)                                     -- L170-174
  (some types, types.flatMap fun an => hist ((List.finRange n).filter fun i => z i ∉ [an]))

/-- `rdf_vec`, L201-218: `order` is the order in which Python goes through `set(data.numbers)`, `rdf a b` the partial radial distribution function. -/
def rdfVec {V : Type} (order : List ℕ) (rdf : ℕ → ℕ → List V) : List V := (order ×ˢ order).flatMap fun c => rdf c.1 c.2

end CatLearn.Particle
