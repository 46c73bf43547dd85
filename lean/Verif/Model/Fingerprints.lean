import Verif.Model.Neighbors
import Mathlib.Analysis.SpecialFunctions.Pow.Real
import Mathlib.LinearAlgebra.Matrix.Charpoly.Basic
import Mathlib.Algebra.Polynomial.Roots
import Mathlib.Data.List.ProdSigma

/-!
# Fingerprints of molecules: `catlearn/fingerprint/standard.py`, `catlearn/fingerprint/molecule.py`

A structure with `n` atoms: atomic numbers `z`, distances or positions, connectivity `cm`.
-/

namespace CatLearn.Fpr

open CatLearn CatLearn.Nb

variable {n : ℕ}

/-- `composition_vec`, L79-109. -/
def composition (types : List ℕ) (z : Fin n → ℕ) : List ℕ := types.map fun t => (List.ofFn z).count t

/-- Names of `composition_vec`, L97. -/
def compositionNames (types : List ℕ) : List String := types.map fun t => toString t ++ "_count"

/-- `bag_elements`, L292-315. -/
def bagElements (types : List ℕ) (z : Fin n → ℕ) : List ℕ := types.map fun t => (List.ofFn z).count t

/-- Names of `bag_elements`, L306; `sym` is the table of chemical symbols. -/
def bagElementsNames (sym : ℕ → String) (types : List ℕ) : List String := types.map fun t => "bag_" ++ sym t

/-- `_get_coulomb`, L183-214: products of atomic numbers over distances, `0.5 z^2.4` on the diagonal. -/
noncomputable def coulomb (z : Fin n → ℕ) (dist : Mat n ℝ) : Matrix (Fin n) (Fin n) ℝ := fun i j =>
  if i = j then 0.5 * (z i : ℝ) ^ (2.4 : ℝ) else (z i : ℝ) * (z j : ℝ) / dist i j

/-- Contract of `np.linalg.eigvals` for symmetric matrices: the roots of the characteristic polynomial with their
multiplicities, in any order. -/
def IsEig (eig : ∀ n : ℕ, Matrix (Fin n) (Fin n) ℝ → List ℝ) : Prop :=
  ∀ (n : ℕ) (A : Matrix (Fin n) (Fin n) ℝ), A.IsSymm → (eig n A : Multiset ℝ) = A.charpoly.roots

/-- `eigenspectrum_vec`, L216-244: eigenvalues in descending order, padded with zeros to `atom_len`; ValueError for
fewer than two or more than `atom_len` atoms. -/
noncomputable def eigenspectrum (eig : ∀ n : ℕ, Matrix (Fin n) (Fin n) ℝ → List ℝ) (atomLen : ℕ) (z : Fin n → ℕ)
    (dist : Mat n ℝ) : Except PyErr (List ℝ) :=
  if n < 2 then .error .value
  else
    let v := sortDesc id (eig n (coulomb z dist))
    if v.length ≤ atomLen then .ok (v ++ List.replicate (atomLen - v.length) 0) else .error .value

/-- Names of `eigenspectrum_vec`, L234. -/
def eigenspectrumNames (atomLen : ℕ) : List String := (List.range atomLen).map fun i => "eig_" ++ toString i

/-- Pairs of atoms that `distance_vec` counts, L281-284: both of the element, and different in all coordinates
(`all(j != l)`). -/
noncomputable def countedPairs (z : Fin n → ℕ) (pos : Fin n → Fin 3 → ℝ) (t : ℕ) : Finset (Fin n × Fin n) :=
  Finset.univ.filter fun p => z p.1 = t ∧ z p.2 = t ∧ ∀ k, pos p.1 k ≠ pos p.2 k

/-- `distance_vec`, L246-290: the count divided by the sum of the distances, L287-288. -/
noncomputable def distanceVec (types : List ℕ) (z : Fin n → ℕ) (pos : Fin n → Fin 3 → ℝ) : List ℝ :=
  types.map fun t =>
    let co : ℝ := (countedPairs z pos t).card
    let ad : ℝ := ∑ p ∈ countedPairs z pos t, distance (pos p.1) (pos p.2)
    if co ≠ 0 then co / ad else co

/-- Names of `distance_vec`, L264. -/
def distanceNames (types : List ℕ) : List String := types.map fun t => toString t ++ "-" ++ toString t ++ "_dist"

/-- Sum of the entries that are numbers (`np.nansum`). -/
def nansum (l : List (Option ℝ)) : ℝ := (l.filterMap id).sum

/-- Mean of the entries that are numbers (`np.nanmean`). -/
noncomputable def nanmean (l : List (Option ℝ)) : ℝ := (l.filterMap id).sum / (l.filterMap id).length

/-- One parameter of `element_parameter_vec`, L149-160: `none` is NaN.  The sum and the mean are taken over the array
of length `len(comp) + 2`, whose last two entries are still zero. -/
noncomputable def elementParameter (types : List ℕ) (par : ℕ → Option ℝ) (z : Fin n → ℕ) : List (Option ℝ) :=
  let f := (List.zip (composition types z) types).map fun ct => (par ct.2).map fun x => (ct.1 : ℝ) * x
  let f2 := f ++ [some 0, some 0]
  f ++ [some (nansum f2), some (nanmean f2)]

/-- Names for one parameter, L137-139. -/
def elementParameterNames (types : List ℕ) (p : String) : List String :=
  types.map (fun t => "sum_" ++ toString t ++ "_" ++ p) ++ ["sum_all_" ++ p, "mean_all_" ++ p]

/-! ## Bags of bonds -/

/-- `np.triu_indices_from`: row-major upper triangle. -/
def triu (k : ℕ) : List (ℕ × ℕ) := (List.range k).flatMap fun a => ((List.range k).filter (a ≤ ·)).map fun b => (a, b)

/-- The positive entries of the upper triangle of the connectivity with cleared diagonal, L340-343. -/
def bonds (cm : Fin n → Fin n → ℤ) : List (Fin n × Fin n) :=
  ((List.finRange n) ×ˢ (List.finRange n)).filter fun p => p.1 < p.2 ∧ 0 < cm p.1 p.2

/-- `bond_type` of two elements, L347-350: positions of the smaller and the larger number in `atom_types`;
`list.index` raises ValueError. -/
def cell (types : List ℕ) (z1 z2 : ℕ) : Except PyErr (ℕ × ℕ) :=
  if min z1 z2 ∈ types ∧ max z1 z2 ∈ types then .ok (types.idxOf (min z1 z2), types.idxOf (max z1 z2))
  else .error .value

/-- `bag_edges`, L317-356: `boc[bond_type] += 1` for every bond, then the upper triangle. -/
def bagEdges (types : List ℕ) (z : Fin n → ℕ) (cm : Fin n → Fin n → ℤ) : Except PyErr (List ℕ) :=
  match (bonds cm).mapM fun p => cell types (z p.1) (z p.2) with
  | .error e => .error e
  | .ok cells => .ok ((triu types.length).map fun ab => cells.count ab)

/-- Names of `bag_edges`, L332-336: entry `(a, b)` is named by the symbols of `b` and `a`. -/
def bagEdgesNames (sym : ℕ → String) (types : List ℕ) : List String :=
  (triu types.length).map fun ab => "bag_" ++ (sym (types.getD ab.2 0) ++ sym (types.getD ab.1 0))

/-- Coordination number, `cm[i, :].sum()`, L386. -/
def cn (cm : Fin n → Fin n → ℤ) (i : Fin n) : ℤ := ∑ j, cm i j

/-- The loop of `bag_element_cn`, L385-392: the cells of the atoms; `none` when a coordination number is out of
bounds (NaN vector), which first prints `atoms.info['key_value_pairs']`, a KeyError if that is missing; an element
that is not in `atom_types` is a KeyError. -/
def cnCells (info : Bool) (types : List ℕ) (lo hi : ℤ) (z : Fin n → ℕ) (cm : Fin n → Fin n → ℤ) :
    List (Fin n) → Except PyErr (Option (List (ℕ × ℤ)))
  | [] => .ok (some [])
  | i :: is =>
    if hi < cn cm i ∨ cn cm i < lo then (if info then .ok none else .error .key)
    else if z i ∈ types then
      match cnCells info types lo hi z cm is with
      | .error e => .error e
      | .ok none => .ok none
      | .ok (some cs) => .ok (some ((types.idxOf (z i), cn cm i - lo) :: cs))
    else .error .key

/-- `bag_element_cn`, L358-394: element by element, coordination numbers from `cn_min` to `cn_max`. -/
def bagElementCn (info : Bool) (types : List ℕ) (lo hi : ℤ) (z : Fin n → ℕ) (cm : Fin n → Fin n → ℤ) :
    Except PyErr (Option (List ℕ)) :=
  match cnCells info types lo hi z cm (List.finRange n) with
  | .error e => .error e
  | .ok none => .ok none
  | .ok (some cs) => .ok (some ((List.range types.length).flatMap fun a =>
      (List.range (hi + 1 - lo).toNat).map fun k : ℕ => cs.count (a, (k : ℤ))))

/-- Connectivity with cleared diagonal, L427. -/
def cleared (cm : Fin n → Fin n → ℤ) : Fin n → Fin n → ℤ := fun i j => if i = j then 0 else cm i j

/-- The nodes of `bag_edges_cn`, L412-415: element and coordination number; the model keeps the pair instead of the
string. -/
def nodes (types : List ℕ) (lo hi : ℤ) : List (ℕ × ℤ) :=
  types.flatMap fun t => (List.range (hi + 1 - lo).toNat).map fun k : ℕ => (t, lo + (k : ℤ))

/-- `bond_type` of two nodes, L432-446: ordered by element, then coordination number (`np.lexsort`, stable). -/
def cnCell (types : List ℕ) (lo hi : ℤ) (a b : ℕ × ℤ) : Except PyErr (ℕ × ℕ) :=
  let p := if a.1 < b.1 ∨ (a.1 = b.1 ∧ a.2 ≤ b.2) then (a, b) else (b, a)
  if p.1 ∈ nodes types lo hi ∧ p.2 ∈ nodes types lo hi then
    .ok ((nodes types lo hi).idxOf p.1, (nodes types lo hi).idxOf p.2)
  else .error .value

/-- `bag_edges_cn`, L396-447. -/
def bagEdgesCn (types : List ℕ) (lo hi : ℤ) (z : Fin n → ℕ) (cm : Fin n → Fin n → ℤ) : Except PyErr (List ℕ) :=
  match (bonds cm).mapM fun p =>
      cnCell types lo hi (z p.1, cn (cleared cm) p.1) (z p.2, cn (cleared cm) p.2) with
  | .error e => .error e
  | .ok cells => .ok ((triu (nodes types lo hi).length).map fun ab => cells.count ab)

/-! ## Autocorrelation, `molecule.py` -/

/-- A walk of a given number of bonds. -/
def Walk (cm : Fin n → Fin n → ℤ) : ℕ → Fin n → Fin n → Prop
  | 0, i, j => i = j
  | k + 1, i, j => ∃ m, cm i m ≠ 0 ∧ Walk cm k m j

/-- `distance_matrix == dd`, L49-57: shortest path of `dd` bonds.  (`nx.floyd_warshall_numpy`; bonds have weight 1.) -/
def atDistance (cm : Fin n → Fin n → ℤ) (dd : ℕ) (i j : Fin n) : Prop :=
  Walk cm dd i j ∧ ∀ k < dd, ¬ Walk cm k i j

open Classical in
/-- `get_autocorrelation`, L44-62: entry `n dd + p` is the diagonal entry `p` of `W B Wᵀ`. -/
noncomputable def autocorrelation (params : List (ℕ → ℝ)) (dstar : ℕ) (z : Fin n → ℕ) (cm : Fin n → Fin n → ℤ) :
    List ℝ :=
  (List.range (dstar + 1)).flatMap fun dd => params.map fun w =>
    ∑ i, ∑ j, w (z i) * (if atDistance cm dd i j then 1 else 0) * w (z j)

/-- `get_autocorrelation` called with a structure or, for the names, with `None`, L44-46: `None.connectivity` is an
AttributeError. -/
noncomputable def getAutocorrelation (params : List (ℕ → ℝ)) (dstar : ℕ) :
    Option (Σ n : ℕ, (Fin n → ℕ) × (Fin n → Fin n → ℤ)) → Except PyErr (List ℝ)
  | none => .error .attribute
  | some a => .ok (autocorrelation params dstar a.2.1 a.2.2)

end CatLearn.Fpr
