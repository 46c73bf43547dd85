import Verif.Model.Py
import Mathlib.Analysis.Real.Sqrt
import Mathlib.Algebra.BigOperators.Fin
import Mathlib.Algebra.BigOperators.Field
import Mathlib.Algebra.Order.Field.Basic

/-!
# Neighbour lists and connection matrices

`catlearn/utilities/neighborlist.py` and `catlearn/featurize/neighbor_matrix.py`.  A structure with `n` atoms is given
by atomic numbers `z`, positions or a distance matrix; `radius` stands for the table of covalent radii.  Arrays are
functions on `Fin n`.
-/

namespace CatLearn.Nb

open CatLearn

variable {K : Type} [Field K] [LinearOrder K] [IsStrictOrderedRing K] {n : ℕ}

/-- A square array. -/
abbrev Mat (n : ℕ) (K : Type) := Fin n → Fin n → K

/-! ## `neighborlist.py` -/

/-- `radius_matrix`, L82: row vector plus column vector. -/
def radiusMatrix (r : Fin n → K) : Mat n K := fun i j => r j + r i

/-- `buffer_matrix`, L83-84: the division binds to the column vector only. -/
def bufferMatrix (b : Fin n → K) : Mat n K := fun i j => b j + b i / 2

/-- Default buffers, L70-73: a fifth of the radius. -/
def defaultDx (radius : ℕ → K) : ℕ → Option K := fun z => some (radius z / 5)

/-- One entry of `res` in `_neighbor_iterator`, L132-135: positive entries become 0, then negative ones `k + 1`. -/
def resEntry (dist rb : K) (k : ℕ) : K :=
  let res := dist - rb * (k + 1)
  let res1 := if 0 < res then 0 else res
  if res1 < 0 then (k : K) + 1 else res1

/-- `_neighbor_iterator`, L106-143, for the pair of arrays `dist`, `connection_matrix`. -/
def iter (rb : Mat n K) (k : ℕ) (s : Mat n K × Mat n K) : Mat n K × Mat n K :=
  (fun i j => s.1 i j + resEntry (s.1 i j) (rb i j) k * 10000,
   fun i j => s.2 i j + resEntry (s.1 i j) (rb i j) k)

/-- `unconnected`, L141: entries that are zero. -/
def unconnected (c : Mat n K) : ℕ :=
  ((List.finRange n).flatMap fun i => (List.finRange n).filter fun j => c i j = 0).length

/-- `for n in range(max_neighbor)`, L87-90. -/
def shells (rb : Mat n K) : ℕ → Mat n K × Mat n K → Mat n K × Mat n K
  | 0, s => s
  | N + 1, s => iter rb N (shells rb N s)

/-- `while unconnected > 0`, L91-96, with fuel: `none` when the fuel is used up. -/
def full (rb : Mat n K) : ℕ → ℕ → Mat n K × Mat n K → Option (Mat n K × Mat n K)
  | 0, _, _ => none
  | fuel + 1, k, s =>
    let s' := iter rb k s
    if 0 < unconnected s'.2 then full rb fuel (k + 1) s' else some s'

/-- `np.fill_diagonal(connection_matrix, 0.)`, L101. -/
def zeroDiag (c : Mat n K) : Mat n K := fun i j => if i = j then 0 else c i j

/-- Sum of the radius and the buffer matrix. -/
def reachMatrix (radius : ℕ → K) (z : Fin n → ℕ) (b : Fin n → K) : Mat n K :=
  fun i j => radiusMatrix (fun i => radius (z i)) i j + bufferMatrix b i j

/-- `b_list`, L77-80: a missing element is a KeyError. -/
def buffers (dx : ℕ → Option K) (z : Fin n → ℕ) : Except PyErr (Fin n → K) :=
  if ∀ i, (dx (z i)).isSome then .ok fun i => (dx (z i)).getD 0 else .error .key

/-- `catlearn_neighborlist(atoms, dx, max_neighbor)` for an integer `max_neighbor`, L43-103. -/
def neighborlist (radius : ℕ → K) (dx : Option (ℕ → Option K)) (z : Fin n → ℕ) (dist : Mat n K) (N : ℕ) :
    Except PyErr (Mat n K) :=
  match buffers (dx.getD (defaultDx radius)) z with
  | .error e => .error e
  | .ok b => .ok (zeroDiag (shells (reachMatrix radius z b) N (dist, fun _ _ => 0)).2)

/-- `catlearn_neighborlist(atoms, dx, max_neighbor='full')`. -/
def neighborlistFull (radius : ℕ → K) (dx : Option (ℕ → Option K)) (z : Fin n → ℕ) (dist : Mat n K) (fuel : ℕ) :
    Except PyErr (Option (Mat n K)) :=
  match buffers (dx.getD (defaultDx radius)) z with
  | .error e => .error e
  | .ok b => .ok ((full (reachMatrix radius z b) fuel 0 (dist, fun _ _ => 0)).map fun s => zeroDiag s.2)

/-! ## `neighbor_matrix.py` -/

/-- Distance of two positions, `np.linalg.norm` of the difference, L184. -/
noncomputable def distance (p q : Fin 3 → ℝ) : ℝ := Real.sqrt (∑ k, (p k - q k) ^ 2)

/-! ## `ase_connectivity` -/

/-- A periodic structure as ASE stores it: positions, rows of the cell, periodic directions. -/
structure Crystal (n : ℕ) where
  pos : Fin n → Fin 3 → ℝ
  cell : Fin 3 → Fin 3 → ℝ
  pbc : Fin 3 → Bool

/-- The position of the image of atom `j` in the cell number `o`. -/
noncomputable def Crystal.image (s : Crystal n) (j : Fin n) (o : Fin 3 → ℤ) : Fin 3 → ℝ :=
  fun k => s.pos j k + ∑ l, (o l : ℝ) * s.cell l k

/-- ASE's `NeighborList(cutoffs, skin=0, bothways=True, self_interaction=False)` lists the image `o` of atom `j` as a
neighbour of atom `i`, `neighborlist.py` L167-169: nearer than the sum of the cutoffs, cells only repeated in periodic
directions, an atom not its own neighbour (its images may be).  ASE is not part of the repository; this is its documented
behaviour. -/
def listed (s : Crystal n) (c : Fin n → ℝ) (i j : Fin n) (o : Fin 3 → ℤ) : Prop :=
  (∀ l, s.pbc l = false → o l = 0) ∧ ¬ (i = j ∧ o = 0) ∧ distance (s.pos i) (s.image j o) < c i + c j

open Classical in
/-- `get_connectivity_matrix(sparse=False)` of ASE, L170: the entry is set to 1 for each listed neighbour. -/
noncomputable def listedMatrix (s : Crystal n) (c : Fin n → ℝ) : Mat n ℤ :=
  fun i j => if ∃ o, listed s c i j o then 1 else 0

/-- `ase_connectivity`, L146-172.  With a stored `neighborlist` attribute the variable `conn_mat` is never assigned
(UnboundLocalError, a NameError).  Without cutoffs ASE adds the skin to `None` (TypeError); a wrong number of cutoffs is
refused by ASE (ValueError).  `count_bonds` is not used. -/
noncomputable def aseConnectivity (hasList : Bool) (cutoffs : Option (List ℝ)) (s : Crystal n) : Except PyErr (Mat n ℤ) :=
  if hasList then .error .name
  else
    match cutoffs with
    | none => .error .type
    | some c => if c.length ≠ n then .error .value else .ok (listedMatrix s fun i => c.getD i 0)

/-- The condition `d > d_max1 and d < d_max2`, L189-194 (and L227-232 for the periodic version). -/
def inShell (d r1 r2 dx : K) (num : ℕ) : Prop :=
  (if num = 1 then 0 else (((num : ℤ) - 1 : ℤ) : K) * (r2 + r1) + dx) < d ∧ d < (num : K) * (r2 + r1) + dx

instance (d r1 r2 dx : K) (num : ℕ) : Decidable (inShell d r1 r2 dx num) := by
  unfold inShell; infer_instance

/-- `_get_neighborlist`, L166-196 and `_get_periodic_neighborlist`, L199-234, with the distance function of the
variant: the neighbours of each atom in ascending order.  An atom without neighbours has no key in the
`defaultdict`. -/
def getNeighborlist (radius : ℕ → K) (z : Fin n → ℕ) (d : Mat n K) (dx : K) (num : ℕ) : Fin n → List (Fin n) :=
  fun i => (List.finRange n).filter fun j => i ≠ j ∧ inShell (d i j) (radius (z i)) (radius (z j)) dx num

/-- `connection_matrix`, L61-100: 1 for the listed pairs. -/
def connectionMatrix (nl : Fin n → List (Fin n)) : Mat n K := fun i j => if j ∈ nl i then 1 else 0

/-- Indices as Python integers. -/
def asInts (l : List (Fin n)) : List ℤ := l.map fun j => (j.val : ℤ)

/-- `connection_dict`, L103-135: keys with a list, each padded with -1 to the longest; `max([])` is a ValueError.
`neighbor_number` is not passed on: the lists are those of the first shell. -/
def connectionDict (radius : ℕ → K) (z : Fin n → ℕ) (d : Mat n K) (dx : K) (_num : ℕ) :
    Except PyErr (List (Fin n × List ℤ)) :=
  let nl := getNeighborlist radius z d dx 1
  let keys := (List.finRange n).filter fun i => nl i ≠ []
  if keys = [] then .error .value
  else
    let mlen := (keys.map fun i => (nl i).length).foldl max 0
    .ok (keys.map fun i => (i, asInts (nl i) ++ List.replicate (mlen - (nl i).length) (-1)))

/-- `_element_list`, L237-254. -/
def elementList (z : Fin n → ℕ) (e : ℕ) : Fin n → K := fun i => if z i = e then 1 else 0

/-- `_heteroatomic_matrix(an, [e, eo])`, L257-280: `eo` is not used. -/
def heteroMatrix (z : Fin n → ℕ) (e _eo : ℕ) : Mat n K := fun i j => if z i = e then (if z j ≠ e then 1 else 0) else 0

/-- `_generalized_matrix`, L283-299: for every non-zero entry of the row the sum of the same row. -/
def generalized (c : Mat n K) : Fin n → K := fun i => (∑ j, if c i j ≠ 0 then ∑ k, c i k else 0) / 12

/-- Level one, L320-322, first entry: `np.sum(sum_cm * el)`. -/
def levelOne (z : Fin n → ℕ) (c : Mat n K) (e : ℕ) : K := ∑ i, (∑ j, c i j) * elementList z e i

/-- Level two, L327-329: `el` along each row times the connection matrix. -/
def levelTwo (z : Fin n → ℕ) (c : Mat n K) (e : ℕ) : K := ∑ i, ∑ j, elementList z e j * c i j

/-- Level two for a pair of elements, L332-336. -/
def levelTwoPair (z : Fin n → ℕ) (c : Mat n K) (e eo : ℕ) : K := ∑ i, ∑ j, heteroMatrix z e eo i j * c i j

/-- Level three, L339-340: `np.sum(gen_mat * el)`. -/
def levelThree (z : Fin n → ℕ) (c : Mat n K) (e : ℕ) : K := ∑ i, generalized c i * elementList z e i

end CatLearn.Nb
