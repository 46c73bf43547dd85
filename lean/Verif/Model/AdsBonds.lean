import Verif.Model.Fingerprints
import Verif.Model.PeriodicTable
import Mathlib.Algebra.Order.Field.Rat

/-!
# Bonds and coordination numbers of adsorbates

* `catlearn/fingerprint/adsorbate.py`: `generalized_cn`, `bag_cn`, `bag_atoms_ads`, `count_chemisorbed_fragment`,
  `bag_edges_ads`, `bag_edges_chemi`, `bag_edges_all`, `en_difference_ads`, `en_difference_chemi`,
  `en_difference_active`, `db_size`
* `catlearn/fingerprint/chalcogenide.py`: `formal_charges`

A structure with `n` atoms: atomic numbers `z`, connectivity `cm`, subsets of atoms as lists of indices.
-/

namespace CatLearn.AdsB

open CatLearn CatLearn.Fpr CatLearn.PeriodicTable

variable {n : ℕ}

/-! ### Bags of bonds -/

/-- `cm[slab, :] = 0; cm[:, slab] = 0`, L672-675. -/
def masked (slab : List (Fin n)) (cm : Fin n → Fin n → ℤ) : Fin n → Fin n → ℤ := fun i j =>
  if i ∈ slab ∨ j ∈ slab then 0 else cleared cm i j

/-- `bag_edges_ads`, L645-691. -/
def bagEdgesAds (types : List ℕ) (z : Fin n → ℕ) (cm : Fin n → Fin n → ℤ) (slab : List (Fin n)) :
    Except PyErr (List ℕ) := bagEdges types z (masked slab cm)

/-- `bag_edges_chemi`, L693-740.  The assignments `cm[slab, :][:, slab] = 0` and `cm[:, slab][slab, :] = 0` (L723-724)
write to copies (indexing with a list copies), so the matrix is used as it was. -/
def bagEdgesChemi (types : List ℕ) (z : Fin n → ℕ) (cm : Fin n → Fin n → ℤ) (_slab : List (Fin n)) :
    Except PyErr (List ℕ) := bagEdges types z (cleared cm)

/-- The pairs that `bag_edges_all` counts, L782-788: `np.fill_diagonal` and `np.triu` act on the matrix whose rows are
the adsorbate atoms, so entry `(k, j)` counts if `j` is larger than the position `k` of the atom in `ads_atoms`. -/
def adsPairs (cm : Fin n → Fin n → ℤ) (ads : List (Fin n)) : List (ℕ × Fin n) :=
  ((List.range ads.length) ×ˢ (List.finRange n)).filter fun p =>
    p.1 < p.2.val ∧ 0 < ((ads[p.1]?).map fun i => cm i p.2).getD 0

/-- `bond_type`, L790-793; `list.index` raises ValueError. -/
def adsCell (types adsTypes : List ℕ) (za zb : ℕ) : Except PyErr (ℕ × ℕ) :=
  if za ∈ adsTypes ∧ zb ∈ types then .ok (adsTypes.idxOf za, types.idxOf zb) else .error .value

/-- `np.triu_indices_from` of a rectangular matrix. -/
def triuRect (r c : ℕ) : List (ℕ × ℕ) := (List.range r).flatMap fun a => ((List.range c).filter (a ≤ ·)).map fun b => (a, b)

/-- `bag_edges_all`, L742-797. -/
def bagEdgesAll (types adsTypes : List ℕ) (z : Fin n → ℕ) (cm : Fin n → Fin n → ℤ) (ads : List (Fin n)) :
    Except PyErr (List ℕ) :=
  match (adsPairs cm ads).mapM fun p => adsCell types adsTypes (((ads[p.1]?).map z).getD 0) (z p.2) with
  | .error e => .error e
  | .ok cells => .ok ((triuRect adsTypes.length types.length).map fun ab => cells.count ab)

/-- `bag_atoms_ads`, L437-466: `list.index` raises ValueError for an element that is not in `atom_types`. -/
def bagAtomsAds (types : List ℕ) (z : Fin n → ℕ) (ads : List (Fin n)) : Except PyErr (List ℕ) :=
  match ads.mapM fun i => if z i ∈ types then .ok (types.idxOf (z i)) else (.error .value : Except PyErr ℕ) with
  | .error e => .error e
  | .ok cells => .ok ((List.range types.length).map fun k => cells.count k)

/-- `count_chemisorbed_fragment`, L468-502: per element the sum of the connectivities to the chemisorbed atoms, then
the connectivity of site and chemisorbed atoms, then the number of site atoms. -/
def chemisorbedFragment (types : List ℕ) (z : Fin n → ℕ) (cm : Fin n → Fin n → ℤ) (chemi site : List (Fin n)) : List ℤ :=
  types.map (fun t => ∑ i, (chemi.map fun c => cm i c * (if z i = t then 1 else 0)).sum) ++
    [(site.map fun i => (chemi.map fun c => cm i c).sum).sum, (site.length : ℤ)]

/-! ### Coordination numbers -/

/-- `np.unique(ligand_atoms)`. -/
def unique (l : List (Fin n)) : List (Fin n) := (List.finRange n).filter fun i => i ∈ l

/-- `np.sum(cm[atom, :][slab])`. -/
def slabCn (cm : Fin n → Fin n → ℤ) (slab : List (Fin n)) (i : Fin n) : ℤ := (slab.map fun j => cleared cm i j).sum

/-- Indexing an array of length 28: negative indices count from the end, others outside raise IndexError. -/
def index28 (k : ℤ) : Except PyErr ℕ :=
  if 0 ≤ k ∧ k < 28 then .ok k.toNat else if -28 ≤ k ∧ k < 0 then .ok (k + 28).toNat else .error .index

/-- `bag_cn`, L379-416. -/
def bagCn (cm : Fin n → Fin n → ℤ) (slab ligand : List (Fin n)) : Except PyErr (List ℕ) :=
  match (unique ligand).mapM fun i => index28 (slabCn cm slab i) with
  | .error e => .error e
  | .ok cells => .ok ((List.range 28).map fun k => cells.count k)

/-- The labels of `bag_cn`, L401. -/
def bagCnLabels : List String := (List.range' 3 28).map fun j => "count_" ++ toString j ++ "nn_site"

/-- `cn_max`, L326-337, for a site of 1 to 5 atoms. -/
def cnMax (k : ℕ) : ℕ := if k = 1 then 12 else if k = 2 then 18 else if k = 3 then 22 else if k = 4 then 26 else 30

/-- `len([k for k in row if k > 0])`. -/
def positives (row : Fin n → ℤ) : ℕ := (List.finRange n).countP fun j => 0 < row j

/-- The inner loop over a chemisorbed atom, L370-373: `cm[btom, :]` with the connectivity `btom` as index. -/
def gcnChemi (cm : Fin n → Fin n → ℤ) (atom : Fin n) : List (Fin n) → Except PyErr Rat
  | [] => .ok 0
  | j :: js =>
    if 0 < cleared cm atom j then
      if h : (cleared cm atom j).toNat < n then
        match gcnChemi cm atom js with
        | .error e => .error e
        | .ok s => .ok ((cleared cm atom j : Rat) * (positives (cleared cm ⟨(cleared cm atom j).toNat, h⟩) : Rat) / 12 + s)
      else .error .index
    else gcnChemi cm atom js

/-- The loop over the chemisorbed atoms, L364-373: the sum of the coordination numbers and the last `gcn_chemi`. -/
def chemiLoop (cm : Fin n → Fin n → ℤ) : List (Fin n) → Rat → Rat → Except PyErr (Rat × Rat)
  | [], c, g => .ok (c, g)
  | a :: as, c, _ =>
    match gcnChemi cm a (List.finRange n) with
    | .error e => .error e
    | .ok g => chemiLoop cm as (c + (positives (cleared cm a) : Rat)) g

/-- `generalized_cn`, L310-377.  A site of six or more atoms raises AssertionError; an empty site, an empty set of
ligands or no chemisorbed atom a ZeroDivisionError. -/
def generalizedCn (cm : Fin n → Fin n → ℤ) (site slab ligand chemi : List (Fin n)) : Except PyErr (List Rat) :=
  if 6 ≤ site.length then .error .assertion
  else if site = [] then .error .zeroDiv
  else
    let nb := unique ligand
    let av : Rat := ((site.map fun i => slabCn cm slab i).sum : ℤ) / (site.length : Rat)
    if nb = [] then .error .zeroDiv
    else
      let gcn : Rat := ((nb.map fun i => slabCn cm slab i).sum : ℤ) / ((cnMax site.length * nb.length : ℕ) : Rat)
      match chemiLoop cm chemi 0 0 with
      | .error e => .error e
      | .ok (c, g) =>
        if chemi = [] then .error .zeroDiv
        else .ok [av, nb.length, gcn, c / chemi.length, g / chemi.length]

/-! ### Electronegativity differences -/

/-- One column of `np.einsum("ij,ijk->k", bonds, delta_en)`, L819-822: the sum over all pairs of the connectivity times
the squared difference; `none` is nan, and `0 * nan` is nan. -/
def enSum (cm : Fin n → Fin n → ℤ) (en : Fin n → Option Rat) (rows cols : List (Fin n)) : Option Rat :=
  if ∃ i ∈ rows, ∃ j ∈ cols, en i = none ∨ en j = none then none
  else some (rows.map fun i => (cols.map fun j =>
    (cm i j : Rat) * ((en i).getD 0 - (en j).getD 0) ^ 2).sum).sum

/-- The value of parameter `p` of each atom, from the table (all electronegativities are plain columns). -/
def enOf (table : ℕ → Option Elem) (z : Fin n → ℕ) (p : String) (i : Fin n) : Option Rat :=
  (table (z i)).bind fun e => e.plain p

/-- `electronegativities`, periodic_table_data.py L41-48. -/
def electronegativities : List String :=
  ["en_allen", "en_nagle", "en_gordy", "en_martynov-batsanov", "en_allred-rochow", "en_cottrell-sutton",
    "en_pauling", "en_mulliken"]

/-- `en_difference_ads` (rows and columns the adsorbate), `en_difference_chemi` (rows the chemisorbed atoms, columns the
site) and `en_difference_active` (rows the adsorbate, columns adsorbate and site), L799-888, for nonempty groups;
an element outside the table raises KeyError. -/
def enDifference (table : ℕ → Option Elem) (z : Fin n → ℕ) (cm : Fin n → Fin n → ℤ) (rows cols : List (Fin n)) :
    Except PyErr (List (Option Rat)) :=
  if ∃ i ∈ rows ++ cols, table (z i) = none then .error .key
  else .ok (electronegativities.map fun p => enSum cm (enOf table z p) rows cols)

/-! ### `db_size`, L913-942 -/

/-- `float(value)` of the key-value pairs `layers` and `n` if present (nan else), the number of termination atoms, and
the coverage `n / size`; `np.true_divide` by zero gives nan or infinity (here both `none`). -/
def dbSize (layers adsorbates : Option Rat) (termination : ℕ) : List (Option Rat) :=
  [layers, some (termination : Rat), if termination = 0 then none else adsorbates.map (· / (termination : Rat))]

/-! ### `formal_charges`, chalcogenide.py L58-106 -/

/-- `anion_charges`, L74-77. -/
def anionCharge (z : Fin n → ℕ) (slab : List (Fin n)) (ion : ℕ) (q : Rat) (i : Fin n) : Rat :=
  if i ∈ slab ∧ z i = ion then q else 0

/-- `shared`, L78-80; `none` is nan.  The connectivity has no negative entries, so the numerator vanishes with the row
sum and the quotient is nan, not infinite. -/
def sharedCharge (z : Fin n → ℕ) (cm : Fin n → Fin n → Rat) (slab : List (Fin n)) (ion : ℕ) (q : Rat) (i j : Fin n) :
    Option Rat :=
  let row := ∑ k, cm i k * anionCharge z slab ion q i
  if row = 0 then none else some (q * (cm i j * anionCharge z slab ion q i) / row)

/-- `all_charges`, L81-82. -/
def oxideCharges (z : Fin n → ℕ) (cm : Fin n → Fin n → Rat) (slab : List (Fin n)) (ion : ℕ) (q : Rat) (j : Fin n) : Rat :=
  anionCharge z slab ion q j + -(∑ i, (sharedCharge z cm slab ion q i j).getD 0)

/-- `oxistates[np.argmin(np.abs(charge - oxistates))]`, L95-96: the first of the nearest oxidation states. -/
def nearest (c : Rat) : List Rat → Option Rat
  | [] => none
  | x :: xs => some (xs.foldl (fun best y => if |c - y| < |c - best| then y else best) x)

/-- `charge - oxistate` of one atom, L87-101; 0 if the charge is an oxidation state (`continue`).  Oxidation states that
are missing (`None`) raise TypeError, an empty list ValueError (`np.argmin`). -/
def excess (table : ℕ → Option Elem) (z : ℕ) (c : Rat) : Except PyErr Rat :=
  match table z with
  | none => .error .key
  | some e =>
    match e.oxistates with
    | none => .error .type
    | some l =>
      if c ∈ l then .ok 0
      else match nearest c l with
        | none => .error .value
        | some o => .ok (c - o)

/-- `formal_charges`, L58-106: mean and sum of the charges of the site, excess of the site, excess of the slab,
transferred charge; five zeros if no slab atom is the ion.  `np.nanmean` of an empty site is nan. -/
def chalcFormalCharges (table : ℕ → Option Elem) (z : Fin n → ℕ) (cm : Fin n → Fin n → Rat) (slab site : List (Fin n))
    (ion : ℕ) (q : Rat) : Except PyErr (List (Option Rat)) :=
  if ¬ ∃ i ∈ slab, z i = ion then .ok (List.replicate 5 (some 0))
  else
    let c := oxideCharges z cm slab ion q
    match slab.mapM fun i => (excess table (z i) (c i)).map fun x => (i, x) with
    | .error e => .error e
    | .ok xs => .ok
      [if site = [] then none else some ((site.map c).sum / site.length), some (site.map c).sum,
        some ((xs.filter fun p => p.1 ∈ site).map (·.2)).sum, some (xs.map (·.2)).sum, some (xs.map fun p => |p.2|).sum]

end CatLearn.AdsB
