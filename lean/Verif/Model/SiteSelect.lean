import Verif.Model.Py
import Mathlib.Data.Rat.Defs
import Mathlib.Algebra.Order.Field.Rat
import Mathlib.Data.List.Dedup

/-!
Sites of materials, catlearn/featurize/site_stability.py: finding and creating defects, stabilities and cohesive
energies, selection of sites, removal of outliers.  Numbers are rational (no rounding).
-/

namespace CatLearn.SiteSelect

open CatLearn

/-! ### Defects -/

/-- `np.allclose(pos, defpos, rtol=1e-03)` (L142) for two positions; `atol` is 1e-8. -/
def close (p q : Fin 3 → ℚ) : Bool := decide (∀ k, |p k - q k| ≤ 1 / 100000000 + 1 / 1000 * |q k|)

/-- `get_site_index(material, defect)`, site_stability.py L129-146: the first atom of the material without a counterpart in
the defect structure; `none` for NaN. -/
def getSiteIndex (mat defect : List (Fin 3 → ℚ)) : Option ℕ :=
  (List.range mat.length).find? fun i =>
    match mat[i]? with
    | none => false
    | some p => !(defect.any fun q => close p q)

/-- `create_defect(site_index)`, L430-439: a copy without that atom; `del` raises IndexError beyond the
end (indices are not negative). -/
def createDefect {α : Type} (atoms : List α) (i : ℕ) : Except PyErr (List α) :=
  if i < atoms.length then .ok (atoms.eraseIdx i) else .error .index

/-! ### Energies -/

section
variable {S : Type} [DecidableEq S]

/-- The loop in `cohesive_energy`, L240-242, over the items of `composition` (`stoichiometry`, slab_utilities.py L18-38);
`c` is `None` while there is no energy. -/
def cohesiveLoop (ref : S → Option ℚ) (syms : List S) : List S → Option ℚ → Except PyErr (Option ℚ)
  | [], c => .ok c
  | e :: es, c =>
    match ref e with
    | none => .error .key
    | some r =>
      match c with
      | none => .error .type
      | some c => cohesiveLoop ref syms es (some (c - r * (syms.count e : ℕ)))

/-- `cohesive_energy`, L236-245; `order` are the elements in the order of the set. -/
def cohesive (ref : S → Option ℚ) (order syms : List S) (E : Option ℚ) : Except PyErr ℚ :=
  match cohesiveLoop ref syms order E with
  | .error e => .error e
  | .ok none => .error .type
  | .ok (some c) => if syms.length = 0 then .error .zeroDiv else .ok (c / (syms.length : ℕ))

/-- `get_DFT_site_stability(site)`, L574-592; `none` is NaN. -/
def stability (ref : S → Option ℚ) (syms : List S) (i : ℕ) (eMat eDef : Option ℚ) : Except PyErr (Option ℚ) :=
  match syms[i]? with
  | none => .error .index
  | some s =>
    match ref s with
    | none => .error .key
    | some r =>
      match eMat, eDef with
      | some a, some b => .ok (some (a - b - r))
      | _, _ => .ok none

/-- `get_EMT_site_stability(site_index)`, L441-466, for the potential energy `energy` of a structure (EMT).  The free atom is
`ase.Atoms(symbol)`: one atom at the origin, without cell and periodicity, which the structure gives to `free`. -/
def emtStability {P : Type} (energy : List (S × P) → ℚ) (free : S → ℚ) (atoms : List (S × P)) (i : ℕ) : Except PyErr ℚ :=
  match atoms[i]? with                                                     -- L448
  | none => .error .index
  | some a =>
    match createDefect atoms i with                                        -- L461
    | .error e => .error e
    | .ok defect => .ok (energy atoms - free a.1 - energy defect)

/-- The reference energies used by the materials that `select_specific_sites` and `select_random_sites` create (L645,
L647, L682, L684): `Material(…)` is called without `reference_dict`, so it takes the default table (L172-173). -/
def selectedRef (default _given : S → Option ℚ) : S → Option ℚ := default

end

/-! ### Selection of sites -/

/-- `unique_sites`, L620-630: the pairs of image and atom; `natoms` are the numbers of atoms of the images. -/
def uniqueSites (natoms : List ℕ) : List (ℕ × ℕ) :=
  (natoms.mapIdx fun i n => (List.range n).map fun k => (i, k)).flatten

/-- The candidates of `select_random_sites`, L664-672; the difference of sets comes in some order. -/
def candidates (natoms : List ℕ) (exclude : Option (List (ℕ × ℕ))) (order : List (ℕ × ℕ) → List (ℕ × ℕ)) : List (ℕ × ℕ) :=
  match exclude with
  | none => uniqueSites natoms
  | some ex => order ((uniqueSites natoms).filter (· ∉ ex))

/-- A site: image, atom and the image without the atom (`RS`, L678-686). -/
structure Site (α : Type) where
  image : ℕ
  index : ℕ
  material : List α
  defect : List α

/-- One entry of `self.sites` (L640-649 and L678-686). -/
def makeSite {α : Type} (images : List (List α)) (t : ℕ × ℕ) : Except PyErr (Site α) :=
  match images[t.1]? with
  | none => .error .index
  | some m =>
    match createDefect m t.2 with
    | .error e => .error e
    | .ok d => .ok ⟨t.1, t.2, m, d⟩

/-- `select_specific_sites`, L632-650. -/
def selectSites {α : Type} (images : List (List α)) : List (ℕ × ℕ) → Except PyErr (List (Site α))
  | [] => .ok []
  | t :: ts =>
    match makeSite images t with
    | .error e => .error e
    | .ok s =>
      match selectSites images ts with
      | .error e => .error e
      | .ok l => .ok (s :: l)

/-- `new_candidates[random_sites]`, L676. -/
def pick (cs : List (ℕ × ℕ)) (draws : List ℕ) : List (ℕ × ℕ) := draws.filterMap fun d => cs[d]?

/-- `select_random_sites`, L652-687; `draws` are the results of `np.random.choice(len(new_candidates), size=n_sites)`
(L674), which draws with replacement. -/
def selectRandom {α : Type} (images : List (List α)) (exclude : Option (List (ℕ × ℕ)))
    (order : List (ℕ × ℕ) → List (ℕ × ℕ)) (draws : List ℕ) : Except PyErr (List (Site α)) :=
  let cs := candidates (images.map List.length) exclude order
  if cs = [] ∧ draws ≠ [] then .error .value
  else selectSites images (pick cs draws)

/-! ### Tables of features -/

/-- `SiteFeaturizer` as far as the features of the sites are concerned (L472-496): the sites and two caches. -/
structure Featurizer (σ ρ : Type) where
  sites : List σ
  features : Option (List ρ)
  normalized : Option (List ρ)

variable {σ ρ : Type}

/-- `site_features`, L531-557: computed once.  A row depends on its site only (simplification: the filling of missing
columns is left out). -/
def siteFeatures (f : σ → ρ) (s : Featurizer σ ρ) : List ρ × Featurizer σ ρ :=
  match s.features with
  | some t => (t, s)
  | none => (s.sites.map f, { s with features := some (s.sites.map f) })

/-- `normalized_site_features`, L560-572; `scale` is the scaling of a whole table. -/
def normalizedFeatures (f : σ → ρ) (scale : List ρ → List ρ) (s : Featurizer σ ρ) : List ρ × Featurizer σ ρ :=
  match s.normalized with
  | some t => (t, s)
  | none =>
    let r := siteFeatures f s
    (scale r.1, { r.2 with normalized := some (scale r.1) })

/-- `refresh()`, L523-528. -/
def refresh (s : Featurizer σ ρ) : Featurizer σ ρ := { s with features := none, normalized := none }

/-- A new selection of sites (L639, L662): the caches stay. -/
def setSites (sites : List σ) (s : Featurizer σ ρ) : Featurizer σ ρ := { s with sites := sites }

/-- The loop `for idx in index_list: self.sites.pop(idx)`, L832-833. -/
def popAll {α : Type} : List ℕ → List α → Except PyErr (List α)
  | [], l => .ok l
  | i :: is, l => if i < l.length then popAll is (l.eraseIdx i) else .error .index

/-- The rows with the value (`outlier_df.index`, L827-829). -/
def outliers (out : ρ → Bool) (t : List ρ) : List ℕ :=
  (List.range t.length).filter fun i => t[i]?.any out

/-- `remove_outlier(column, value)`, L819-834; `out` tells whether the column of a row has the value. -/
def removeOutlier (f : σ → ρ) (out : ρ → Bool) (s : Featurizer σ ρ) : Except PyErr (Featurizer σ ρ) :=
  let r := siteFeatures f s
  let idx := outliers out r.1
  if idx = [] then .ok r.2
  else
    match popAll idx r.2.sites with
    | .error e => .error e
    | .ok sites => .ok { r.2 with sites := sites, features := some (r.1.filter fun x => !out x) }

end CatLearn.SiteSelect
