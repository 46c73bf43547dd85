import Verif.Model.PeriodicTable
import Mathlib.Algebra.BigOperators.Fin
import Mathlib.Analysis.Real.Sqrt

/-!
# Fingerprints that summarise the elemental data of a group of atoms

* `catlearn/fingerprint/adsorbate.py`: `term`, `bulk`, `mean_chemisorbed_atoms`, `mean_site`, `min_site`, `max_site`,
  `median_site`, `sum_site`, `mean_surf_ligands`, `ads_sum`, `ads_av`, `strain`
* `catlearn/fingerprint/chalcogenide.py`: `mean_cation`, `min_cation`, `max_cation`, `median_cation`, `sum_cation`
* `catlearn/fingerprint/bulk.py`: `bulk_summation`, `bulk_average`, `bulk_std`
* `catlearn/fingerprint/convoluted.py`: `conv_bulk`, `conv_term`
* `catlearn/featurize/periodic_table_data.py`: `get_radius`

Floating-point numbers are rational or real numbers, `none` is nan.
-/

namespace CatLearn.SiteStats

open CatLearn CatLearn.PeriodicTable

/-- The entries of a column that are numbers. -/
def known (l : List (Option Rat)) : List Rat := l.filterMap id

/-- The reductions over the atoms of a group. -/
inductive Stat where
  | sum | mean | min | max | median
  deriving DecidableEq

/-- `np.nansum`, `np.nanmean`, `np.nanmin`, `np.nanmax`, `np.nanmedian` of a column with at least one entry: nan if no
entry is a number, but 0 for the sum. -/
def Stat.col : Stat → List (Option Rat) → Option Rat
  | .sum, l => some (known l).sum
  | .mean, l => if known l = [] then none else some ((known l).sum / (known l).length)
  | .min, l => (known l).min?
  | .max, l => (known l).max?
  | .median, l => if known l = [] then none else some (PeriodicTable.median (known l))

/-- The same of a list that may be empty, as in `np.nanmin([gs_magmom[z] for z in numbers])`: `np.nanmin` and
`np.nanmax` of an empty list raise ValueError, the others give nan or 0. -/
def Stat.ofList (st : Stat) (l : List (Option Rat)) : Except PyErr (Option Rat) :=
  if l = [] ∧ (st = .min ∨ st = .max) then .error .value else .ok (st.col l)

/-- `check_labels`, featurize/base.py L127-147. -/
def checkLabels {K : Type} (labels : List String) (result : List K) : Except PyErr (List K) :=
  if result.length ≠ labels.length then .error .assertion else .ok result

/-- Column `j` of the array of `list_mendeleev_params`. -/
def column (rows : List (List (Option Rat))) (j : ℕ) : List (Option Rat) := rows.map fun r => r.getD j none

/-- The columns reduced one by one, then the ground state magnetic moments (`gs_magmom` of `ase.data`), e.g. adsorbate.py
L194-196. -/
def reduced (table : ℕ → Option Elem) (magmom : ℕ → Rat) (st : Stat) (params : List String) (numbers : List ℕ) :
    Except PyErr (List (Option Rat)) :=
  match listParams table numbers params with
  | .error e => .error e
  | .ok rows =>
    match st.ofList (numbers.map fun z => some (magmom z)) with
    | .error e => .error e
    | .ok m => .ok ((List.range (nParams params)).map (fun j => st.col (column rows j)) ++ [m])

/-- The names: `make_labels(params, '', suffix)` and the magnetic moment, e.g. adsorbate.py L189-190. -/
def statLabels (params : List String) (suf : String) : List String :=
  makeLabels params "" suf ++ ["ground_state_magmom" ++ suf]

/-- `mean_site`, `min_site`, `max_site`, `median_site`, `sum_site` (adsorbate.py L175-308), `mean_chemisorbed_atoms`
(L142-173), `ads_sum`, `ads_av` (L536-588) and the five `…_cation` functions (chalcogenide.py L108-211), called with the
atomic numbers of the group. -/
def statFp (table : ℕ → Option Elem) (magmom : ℕ → Rat) (st : Stat) (params : List String) (suf : String)
    (numbers : List ℕ) : Except PyErr (List (Option Rat)) :=
  match reduced table magmom st params numbers with
  | .error e => .error e
  | .ok r => checkLabels (statLabels params suf) r

/-- `mean_surf_ligands`, adsorbate.py L504-534: the number of ligand atoms and the number of different elements stand in
front. -/
def surfLigands (table : ℕ → Option Elem) (magmom : ℕ → Rat) (params : List String) (numbers : List ℕ) :
    Except PyErr (List (Option Rat)) :=
  match reduced table magmom .mean params numbers with
  | .error e => .error e
  | .ok r => checkLabels (["nn_surf_ligands", "identnn_surf_ligands"] ++ statLabels params "_surf_ligands")
      ([some (numbers.length : Rat), some (numbers.dedup.length : Rat)] ++ r)

/-- Where `term`, `bulk` and `strain` take the elements from (adsorbate.py L92-101, L126-135, L605-626): a formula among
the key-value pairs of the structure, read by `string2symbols` (`none` if it cannot be read, a ValueError or KeyError),
else the subset, else NotImplementedError. -/
def groupNumbers (formula : Option (Option (List ℕ))) (subset : Option (List ℕ)) : Except PyErr (List ℕ) :=
  match formula, subset with
  | some (some l), _ => .ok l
  | some none, _ => .error .value
  | none, some l => .ok l
  | none, none => .error .notImpl

/-- `term`, `bulk`, adsorbate.py L80-140. -/
def termBulk (table : ℕ → Option Elem) (magmom : ℕ → Rat) (params : List String) (suf : String)
    (formula : Option (Option (List ℕ))) (subset : Option (List ℕ)) : Except PyErr (List (Option Rat)) :=
  match groupNumbers formula subset with
  | .error e => .error e
  | .ok numbers => statFp table magmom .mean params suf numbers

/-! ### `get_radius`, periodic_table_data.py L281-299, and `strain`, adsorbate.py L590-643 -/

/-- `get_radius` with the default preference; `radii` is `covalent_radii` of `ase.data`. -/
def getRadius (table : ℕ → Option Elem) (radii : ℕ → Rat) (z : ℕ) : Except PyErr Rat :=
  match table z with
  | none => .error .key
  | some e => .ok (match e.plain "atomic_radius" with
    | some r => r / 100
    | none => match e.plain "covalent_radius_cordero" with
      | some r => r / 100
      | none => radii z)

/-- `np.average` of a list (nan for an empty one). -/
def average (l : List Rat) : Option Rat := if l = [] then none else some (l.sum / l.length)

/-- `(a - b) / b`, L641-642: nan if one is nan.  An average of radii is positive, so the division is defined; a zero
average would give nan or infinity. -/
def relative (a b : Option Rat) : Option Rat :=
  match a, b with
  | some a, some b => if b = 0 then none else some ((a - b) / b)
  | _, _ => none

/-- `strain`, L603-643. -/
def strain (table : ℕ → Option Elem) (radii : ℕ → Rat) (termF bulkF : Option (Option (List ℕ)))
    (termS bulkS : Option (List ℕ)) (site : List ℕ) : Except PyErr (List (Option Rat)) :=
  match groupNumbers termF termS, groupNumbers bulkF bulkS with
  | .error e, _ => .error e
  | _, .error e => .error e
  | .ok term, .ok bulk =>
    match bulk.mapM (getRadius table radii), term.mapM (getRadius table radii), site.mapM (getRadius table radii) with
    | .error e, _, _ => .error e
    | _, .error e, _ => .error e
    | _, _, .error e => .error e
    | .ok rb, .ok rt, .ok rs => .ok [relative (average rs) (average rb), relative (average rt) (average rb)]

/-! ### `bulk.py` -/

/-- `default_params`, periodic_table_data.py L26-39. -/
def defaultParams : List String :=
  ["atomic_number", "atomic_volume", "boiling_point", "density", "dipole_polarizability", "electron_affinity",
    "group_id", "lattice_constant", "melting_point", "period", "vdw_radius", "covalent_radius_cordero", "en_allen",
    "atomic_weight"]

/-- `extra_slab_params`, adsorbate.py L36-48, convoluted.py L12-24. -/
def extraSlabParams : List String :=
  ["atomic_radius", "heat_of_formation", "dft_bulk_modulus", "dft_density", "dbcenter", "dbfilling", "dbwidth",
    "dbskew", "dbkurt", "oxistates", "block", "econf", "ionenergies"]

/-- `default_extra_params`, bulk.py L11-34. -/
def defaultExtraParams : List String :=
  ["c6", "c6_gb", "en_allred-rochow", "en_cottrell-sutton", "en_gordy", "en_martynov-batsanov", "en_mulliken",
    "en_nagle", "en_ghosh", "gas_basicity", "metallic_radius_c12", "atomic_radius", "heat_of_formation",
    "dft_std_modulus", "dft_density", "en_pauling", "dbcenter", "dbfilling", "dbwidth", "dbskew", "dbkurt", "block",
    "econf", "ionenergies"]

/-- The 46 names that `bulk_average` returns, bulk.py L117-162. -/
def averageNames : List String :=
  ["atomic_number_av", "atomic_volume_av", "boiling_point_av", "density_av", "dipole_polarizability_av",
    "electron_affinity_av", "group_id_av", "lattice_constant_av", "melting_point_av", "period_av", "vdw_radius_av",
    "covalent_radius_cordero_av", "en_allen_av", "atomic_weight_av", "c6_av", "c6_gb_av", "en_allred-rochow_av",
    "en_cottrell-sutton_av", "en_gordy", "en_martynov-batsanov_av", "en_mulliken_av", "en_nagle_av", "en_ghosh_av",
    "gas_basicity_av", "metallic_radius_av", "atomic_radius_av", "heat_of_formation_av", "dft_av_modulus_av",
    "dft_rhodensity_av", "en_pauling_av", "dbcenter_av", "dbfilling_av", "dbwidth_av", "dbskew_av", "dbkurtosis_av",
    "sblock_av", "pblock_av", "dblock_av", "fblock_av", "ne_outer_av", "ne_s_av", "ne_p_av", "ne_d_av", "ne_f_av",
    "ionenergy_av", "ground_state_magmom_av"]

/-- The 46 names that `bulk_std` returns, bulk.py L175-220. -/
def stdNames : List String :=
  ["atomic_number_std", "atomic_volume_std", "boiling_point_std", "density_std", "dipole_polarizability_std",
    "electron_affinity_std", "group_id_std", "lattice_constant_std", "melting_point_std", "period_std",
    "vdw_radius_std", "covalent_radius_cordero_std", "en_allen_std", "atomic_weight_std", "c6_std", "c6_gb_std",
    "en_allred-rochow_std", "en_cottrell-sutton_std", "en_gordy", "en_martynov-batsanov_std", "en_mulliken_std",
    "en_nagle_std", "en_ghosh_std", "gas_basicity_std", "metallic_radius_std", "atomic_radius",
    "heat_of_formation_std", "dft_std_modulus_std", "dft_rhodensity_std", "en_pauling_std", "dbcenter_std",
    "dbfilling_std", "dbwidth_std", "dbskew_std", "dbkurtosis_std", "sblock_std", "pblock_std", "dblock_std",
    "fblock_std", "ne_outer_std", "ne_s_std", "ne_p_std", "ne_d_std", "ne_f_std", "ionenergy_std",
    "ground_state_magmom_std"]

/-- `bulk_summation`, `bulk_average`, bulk.py L55-170, for a structure: no check against the names. -/
def bulkFp (table : ℕ → Option Elem) (magmom : ℕ → Rat) (st : Stat) (extra : List String) (numbers : List ℕ) :
    Except PyErr (List (Option Rat)) :=
  reduced table magmom st (defaultParams ++ extra) numbers

/-- `np.nanstd` of a column: root of the mean squared deviation of the known entries. -/
noncomputable def nanstd (l : List (Option Rat)) : Option ℝ :=
  if known l = [] then none
  else
    let mean := (known l).sum / (known l).length
    some (Real.sqrt ((((known l).map fun x => (x - mean) ^ 2).sum / (known l).length : Rat) : ℝ))

/-- `bulk_std`, bulk.py L172-227. -/
noncomputable def bulkStd (table : ℕ → Option Elem) (magmom : ℕ → Rat) (extra : List String) (numbers : List ℕ) :
    Except PyErr (List (Option ℝ)) :=
  match listParams table numbers (defaultParams ++ extra) with
  | .error e => .error e
  | .ok rows => .ok ((List.range (nParams (defaultParams ++ extra))).map (fun j => nanstd (column rows j)) ++
      [nanstd (numbers.map fun z => some (magmom z))])

/-! ### `convoluted.py` -/

/-- All entries are numbers. -/
def complete (l : List (Option Rat)) : Option (List Rat) := l.mapM id

/-- `np.sqrt`: nan for negative numbers. -/
noncomputable def npSqrt (x : Rat) : Option ℝ := if x < 0 then none else some (Real.sqrt (x : ℝ))

/-- One entry of `conv_0`, L163-165: the root of the sum of squares over the group, divided by the number of its atoms;
`np.sum` gives nan as soon as one entry is nan, and 0/0 is nan. -/
noncomputable def conv0 (l : List (Option Rat)) : Option ℝ :=
  match complete l with
  | none => none
  | some v => if l = [] then none else (npSqrt (v.map fun x => x * x).sum).map (· / (l.length : ℝ))

/-- One entry of `conv_1`, L166-169, for the column `d` of a structure with `n` atoms and the group `sub`: row `r` of
`connectivity` belongs to the `r`-th atom of the group, but is multiplied by entry `r` of the column.  If the group has
more entries than the structure, `reshape` raises ValueError.  `0 * nan` is nan, so one nan in the column makes the
result nan. -/
noncomputable def conv1 {n : ℕ} (d : Fin n → Option Rat) (cm : Fin n → Fin n → ℤ) (sub : List (Fin n)) :
    Except PyErr (Option ℝ) :=
  if h : sub.length ≤ n then
    .ok (if sub = [] then none
      else if ∃ i, d i = none then none
      else
        let v : Fin n → Rat := fun i => (d i).getD 0
        (npSqrt (∑ r : Fin sub.length, ∑ j, v ⟨r, Nat.lt_of_lt_of_le r.2 h⟩ * (v j * (cm sub[r] j : Rat)))).map
          (· / (sub.length : ℝ)))
  else .error .value

/-- `conv_bulk`, `conv_term`, L69-289, for the subset of atoms, if present; there are 74 labels. -/
noncomputable def convFp (table : ℕ → Option Elem) (magmom : ℕ → Rat) (params : List String) {n : ℕ} (z : Fin n → ℕ)
    (cm : Fin n → Fin n → ℤ) (sub : Option (List (Fin n))) : Except PyErr (List (Option ℝ)) :=
  match sub with
  | none => .error .notImpl
  | some sub =>
    match listParams table (sub.map z) params, listParams table (List.ofFn z) params with
    | .error e, _ => .error e
    | _, .error e => .error e
    | .ok datB, .ok dat =>
      let first := (List.range (nParams params)).map (fun j => conv0 (column datB j)) ++
        [conv0 (sub.map fun i => some (magmom (z i)))]
      match ((List.range (nParams params)).map fun j => fun i : Fin n => (dat.getD i []).getD j none).mapM
          (fun d => conv1 d cm sub), conv1 (fun i => some (magmom (z i))) cm sub with
      | .error e, _ => .error e
      | _, .error e => .error e
      | .ok second, .ok m =>
        let result := first ++ (second ++ [m])
        if result.length ≠ 74 then .error .assertion else .ok result

end CatLearn.SiteStats
