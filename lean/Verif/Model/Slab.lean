import Verif.Model.Py
import Mathlib.Data.List.Dedup
import Mathlib.Data.Rat.Defs
import Mathlib.Algebra.Order.Ring.Rat

/-!
# Adsorbate and slab atoms: `catlearn/featurize/adsorbate_prep.py`, `catlearn/featurize/slab_utilities.py`

A structure: the list `z` of atomic numbers (chemical symbols are identified with atomic numbers), the list of tags,
the connectivity `cm`.  Indices are integers, as in the lists the user may attach to `atoms.subsets`.
-/

namespace CatLearn.Slab

open CatLearn

/-- The indices of `n` atoms. -/
def indices (n : ℕ) : List ℤ := (List.range n).map Int.ofNat

/-- `slab_index`, L238-252. -/
def slabIndex (n : ℕ) (ads : List ℤ) : List ℤ := (indices n).filter (· ∉ ads)

/-- `ads_index`, L255-268. -/
def adsIndex (n : ℕ) (slab : List ℤ) : List ℤ := (indices n).filter (· ∉ slab)

/-- `np.unique`. -/
def unique (l : List ℤ) : List ℤ := sortAsc id l.dedup

/-- `info2primary_index`, L511-554: chemisorbed, site and ligand atoms. -/
def primaryIndex (cm : ℤ → ℤ → ℤ) (slab ads : List ℤ) : List ℤ × List ℤ × List ℤ :=
  let pairs := ads.flatMap fun a => (slab.filter fun s => 0 < cm a s).map fun s => (a, s)
  let chemi := unique (pairs.map (·.1))
  let site := unique (pairs.map (·.2))
  let ligand := (unique (site.flatMap fun j => slab.filter fun s => 0 < cm s j)).filter (· ∉ site)
  (chemi, site, ligand)

/-- Entries of `atoms.subsets`. -/
structure Subsets where
  ads : Option (List ℤ) := none
  slab : Option (List ℤ) := none
  primary : Option (List ℤ × List ℤ × List ℤ) := none
  /-- Under the names `bulk_atoms`, `termination_atoms` and `subsurf_atoms`. -/
  bulk : Option (List ℤ) := none
  term : Option (List ℤ) := none
  subsurf : Option (List ℤ) := none

/-- The key `species` of `atoms.info['key_value_pairs']`: a formula, as the list of its atomic numbers (ASE
`string2symbols`/`symbols2numbers`; the empty string is the empty list), or one with `-`, `+` or `,`. -/
inductive Species where
  | formula (comp : List ℕ)
  | coadsorption

/-- A structure.  `layers` are the layer numbers from `auto_layers` (ASE `get_layers`), `layersKey` tells whether
`key_value_pairs` exists and has the key `layers`, `fixed` are the indices of the constraints, one list for each. -/
structure Atoms where
  z : List ℕ
  tags : List ℤ
  cm : ℤ → ℤ → ℤ
  species : Option Species := none
  hasInfo : Bool := true
  layersKey : Bool := false
  layers : ℤ → ℤ := fun _ => 0
  fixed : List (List ℤ) := []
  subsets : Subsets := {}

/-- Number of atoms. -/
def Atoms.n (a : Atoms) : ℕ := a.z.length

/-- Atomic number of atom `i` (0 outside). -/
def Atoms.num (a : Atoms) (i : ℤ) : ℕ := a.z.getD i.toNat 0

/-- Tag of atom `i`. -/
def Atoms.tag (a : Atoms) (i : ℤ) : ℤ := a.tags.getD i.toNat 0

/-- `atoms[idx].numbers`: negative indices count from the end, others out of range are an IndexError. -/
def numbersAt (z : List ℕ) (idx : List ℤ) : Except PyErr (List ℕ) :=
  idx.mapM fun i : ℤ =>
    if 0 ≤ i ∧ i < z.length then .ok (z.getD i.toNat 0)
    else if i < 0 ∧ -i ≤ z.length then .ok (z.getD (z.length + i).toNat 0)
    else .error .index

/-- `sorted(symbols2numbers(species)) != sorted(atoms[ads_atoms].numbers)`, raising AssertionError. -/
def checked (z : List ℕ) (comp : List ℕ) (idx : List ℤ) : Except PyErr (List ℤ) :=
  match numbersAt z idx with
  | .error e => .error e
  | .ok ns => if sortAsc id comp = sortAsc id ns then .ok idx else .error .assertion

/-- `formula2ads_index`, L435-461. -/
def formulaIndex (a : Atoms) (comp : List ℕ) : Except PyErr (List ℤ) :=
  checked a.z comp ((indices a.n).filter fun i => a.num i ∈ comp)

/-- `last2ads_index`, L409-432: `range(natoms - n_ads, natoms)`. -/
def lastIndex (a : Atoms) (comp : List ℕ) : Except PyErr (List ℤ) :=
  checked a.z comp ((List.range comp.length).map fun k : ℕ => (a.n : ℤ) - comp.length + k)

/-- `connectivity2ads_index`, L285-331.  The final check compares `np.unique(None)` with itself, because
`list.sort()` returns `None`; it never raises. -/
def connectivityIndex (a : Atoms) (comp : List ℕ) : Except PyErr (List ℤ) :=
  let ads := comp.flatMap fun s =>
    if comp.count s = a.z.count s then (indices a.n).filter fun i => a.num i = s else []
  if ads.length = comp.length then .ok ads
  else if ads.length = 0 then .error .assertion
  else
    let connected := ads.flatMap fun j =>
      (indices a.n).filter fun i => 0 < a.cm j i ∧ a.num i ∈ comp ∧ a.num i ≠ a.num j
    .ok (unique (ads ++ connected))

/-- `len(np.unique(tags)) >= 4 and min(tags) <= lo and max(tags) > 2`, L115-117 and L149-151. -/
def tagged (tags : List ℤ) (lo : ℤ) : Bool :=
  decide (4 ≤ tags.dedup.length) && tags.any (· ≤ lo) && tags.any (2 < ·)

/-- `tags2ads_index`, L388-406; a composite species is a ValueError of `symbols2numbers`. -/
def tagsIndex (a : Atoms) : Except PyErr (List ℤ) :=
  let ads := (indices a.n).filter fun i => a.tag i < 0
  match a.species with
  | none => .ok ads
  | some (.formula comp) => checked a.z comp ads
  | some .coadsorption => .error .value

/-- The global list of adsorbate elements, L19: H, C, O, N, S, F, Cl, P, Na, K. -/
def adsSyms : List ℕ := [1, 6, 8, 7, 16, 9, 17, 15, 11, 19]

/-- `except AssertionError`. -/
def orElse (x : Except PyErr (List ℤ)) (y : Except PyErr (List ℤ)) : Except PyErr (List ℤ) :=
  match x with
  | .error .assertion => y
  | r => r

/-- `detect_adsorbate`, L102-134. -/
def detectAdsorbate (a : Atoms) : Except PyErr (List ℤ) :=
  match a.subsets.ads with
  | some l => .ok l
  | none =>
    match a.subsets.slab with
    | some s => .ok (adsIndex a.n s)
    | none =>
      if tagged a.tags (-1) then tagsIndex a
      else
        match a.species with
        | none => .ok ((indices a.n).filter fun i => a.num i ∈ adsSyms)
        | some .coadsorption => .error .notImpl
        | some (.formula comp) =>
          if comp = [] then .ok []
          else orElse (formulaIndex a comp) (orElse (connectivityIndex a comp) (lastIndex a comp))

/-! ## Termination -/

/-- The three lists in the order `bulk, term, subsurf`. -/
abbrev Layers := List ℤ × List ℤ × List ℤ

/-- `tags_termination`, L557-571. -/
def tagsTermination (a : Atoms) : Layers :=
  ((indices a.n).filter (fun i => 1 < a.tag i), (indices a.n).filter (fun i => a.tag i = 1),
    (indices a.n).filter (fun i => a.tag i = 2))

/-- Coordination number within the slab, diagonal cleared, L628-632. -/
def slabCoord (cm : ℤ → ℤ → ℤ) (slab : List ℤ) (i : ℤ) : ℕ := (slab.filter fun j => i ≠ j ∧ cm i j ≠ 0).length

/-- Maximum of a list of coordination numbers. -/
def maxCoord (cm : ℤ → ℤ → ℤ) (slab : List ℤ) : ℕ := (slab.map (slabCoord cm slab)).foldr max 0

/-- `constraints_termination`, L615-652; the maximum of an empty array is a ValueError. -/
def constraintsTermination (cm : ℤ → ℤ → ℤ) (slab fixed : List ℤ) : Except PyErr Layers :=
  if slab = [] then .error .value
  else
    let isBulk := fun i : ℤ => decide (i ∈ fixed) || decide (maxCoord cm slab ≤ slabCoord cm slab i + 2)
    let bulk := slab.filter isBulk
    let term := slab.filter fun i => ! isBulk i
    let subsurf := unique (bulk.flatMap fun b => (term.filter fun t => t ≠ b ∧ 0 < cm t b).map fun _ => b)
    .ok (bulk, term, subsurf)

/-- `layers_termination`, L574-612; the adsorbate indices are valid and without repetitions. -/
def layersTermination (a : Atoms) (ads : List ℤ) : Layers :=
  let nlayers : ℤ := (((indices a.n).filter (· ∉ ads)).map a.layers).dedup.length
  ((indices a.n).filter (fun i => a.layers i ≤ nlayers - 2),
    (indices a.n).filter (fun i => nlayers - 1 ≤ a.layers i ∧ i ∉ ads),
    (indices a.n).filter (fun i => a.layers i = nlayers - 2))

/-- `detect_termination`, L137-192, without the warnings; `connectivity_termination`, L655, always raises
NotImplementedError.  A missing key of `atoms.subsets` is a KeyError. -/
def detectTermination (a : Atoms) : Except PyErr Layers :=
  if tagged a.tags 0 then .ok (tagsTermination a)
  else
    match a.fixed with
    | [f] =>
      match a.subsets.slab with
      | none => .error .key
      | some s => constraintsTermination a.cm s f
    | _ =>
      if a.hasInfo && a.layersKey then
        match a.subsets.slab, a.subsets.ads with
        | some _, some ads => .ok (layersTermination a ads)
        | _, _ => .error .key
      else .error .notImpl

/-- The last part of `autogen_info`, L66-74. -/
def autogenTermination (a : Atoms) : Except PyErr Atoms :=
  match detectTermination a with
  | .error e => .error e
  | .ok (bulk, term, subsurf) =>
    .ok { a with subsets := { a.subsets with bulk := some bulk, term := some term, subsurf := some subsurf } }

/-- L66-68: layers that are all there are kept. -/
def finish (a : Atoms) : Except PyErr Atoms :=
  if a.subsets.bulk.isSome && a.subsets.term.isSome && a.subsets.subsurf.isSome then .ok a else autogenTermination a

/-- `termination_info`, L78-99: `bulk, subsurf, term = detect_termination(atoms)`, L95. -/
def terminationInfo (a : Atoms) : Except PyErr Atoms :=
  match detectTermination a with
  | .error e => .error e
  | .ok (bulk, subsurf, term) =>
    .ok { a with subsets := { a.subsets with bulk := some bulk, term := some term, subsurf := some subsurf } }

/-- The body of the loop of `autogen_info`, L39-74, for one structure with its connectivity. -/
def autogen (a : Atoms) : Except PyErr Atoms :=
  match (match a.subsets.ads with
    | some l => (.ok (l, false) : Except PyErr (List ℤ × Bool))
    | none =>
      match detectAdsorbate a with
      | .error e => .error e
      | .ok l => .ok (l, l.isEmpty)) with
  | .error e => .error e
  | .ok (ads, stop) =>
    if stop then .ok { a with subsets := { a.subsets with ads := some ads } }
    else
      let slab := a.subsets.slab.getD (slabIndex a.n ads)
      if slab.length + ads.length ≠ a.n then .error .assertion
      else
        finish { a with
          subsets := { a.subsets with
            ads := some ads
            slab := some slab
            primary := some (a.subsets.primary.getD (primaryIndex a.cm slab ads)) } }

/-- `attach_cations`, L713-729. -/
def attachCations (a : Atoms) (anion : ℕ) : Except PyErr (List ℤ × List ℤ) :=
  if anion ∈ a.z then
    .ok ((indices a.n).filter (fun i => a.num i ≠ anion), (indices a.n).filter (fun i => a.num i = anion))
  else .error .value

/-! ## Oxides, `slab_utilities.py` -/

/-- Metals, L6-15, as a predicate on elements; oxygen is not one of them. -/
structure MetalTable where
  metal : ℕ → Bool
  oxygen : metal 8 = false

/-- `is_oxide`, L60-94.  `order` is the order of `list(set(symbols))`, which depends on the hash seed.  The branches for
transition metals and other metals do the same.  An empty structure is an IndexError. -/
def isOxide (m : MetalTable) (z : List ℕ) (order : List ℕ) : Except PyErr Bool :=
  match order with
  | [] => .error .index
  | first :: elements =>
    .ok (elements.any fun e => m.metal e && decide ((z.count e : ℚ) / z.count first > 1 / 4) &&
      decide (8 ∈ order ∧ (z.count 8 : ℚ) / z.count e ≥ 1))

end CatLearn.Slab
