import Verif.Model.SiteSelect

/-!
# Stored sites: energies, files and numbers

Models `Material.total_energy`, `update_site_file`, `SiteFeaturizer._update_materials`,
`SiteFeaturizer.write_site_trajectories`, `SiteFeaturizer.read_sites` and `SiteFeaturizer.traj_to_sites` in
catlearn/featurize/site_stability.py (L91-126, L222-245, L498-521, L689-775).

Simplifications.  Numbers are rational.  The connection matrix and the cached features of a `Material` are left out.
The name `material4_site6` of a row of the energy file is given as the two numbers that L107-109 read from it.
Reading back a file gives what was written (ase.io and pickle); constraints are left out.  `total_energy` keeps the
energy it found (L229-230), which is not visible as long as the calculator returns the same energy.
-/

namespace CatLearn.SiteStore

open CatLearn CatLearn.SiteSelect

variable {S : Type} [DecidableEq S]

/-- An ASE `Atoms` object: symbols, positions and the energy of its calculator, if any. -/
structure Atoms (S : Type) where
  syms : List S
  pos : List (Fin 3 → ℚ)
  energy : Option ℚ

/-- A `Material` (L164-219): the atoms, the table of reference energies, `_total_energy` and `_cohesive_energy`. -/
structure Material (S : Type) where
  atoms : Atoms S
  ref : S → Option ℚ
  stored : Option ℚ
  cohesive : Option ℚ

/-- `Material(atoms, reference_dict=ref)`, L166-219. -/
def newMaterial (ref : S → Option ℚ) (a : Atoms S) : Material S := ⟨a, ref, none, none⟩

/-- `total_energy`, L221-233: the stored energy, otherwise that of the calculator, otherwise `None`. -/
def totalEnergy (m : Material S) : Option ℚ :=
  match m.stored with
  | some e => some e
  | none => m.atoms.energy

/-- `cohesive_energy`, L235-245; `order` is the order of a set of symbols. -/
def cohesiveEnergy (order : List S → List S) (m : Material S) : Except PyErr ℚ :=
  match m.cohesive with
  | some c => .ok c
  | none => SiteSelect.cohesive m.ref (order m.atoms.syms) m.atoms.syms (totalEnergy m)

/-- `_ = material.cohesive_energy` (L118, L514, L517): the value is kept in the object. -/
def withCohesive (order : List S → List S) (m : Material S) : Except PyErr (Material S) :=
  match cohesiveEnergy order m with
  | .error e => .error e
  | .ok c => .ok { m with cohesive := some c }

/-- An entry of `sites` (L766-772); `index` is `none` for NaN (L145), `comp` the text `defect_composition`. -/
structure Site (S : Type) where
  image : ℕ
  index : Option ℕ
  material : Material S
  defect : Material S
  comp : String

/-! ### Energies -/

/-- A row of the energy file of `update_site_file`: the numbers in its name and the energy. -/
structure Row where
  image : ℕ
  index : ℕ
  energy : ℚ

/-- The row has the name of the site (L115). -/
def Row.names (r : Row) (s : Site S) : Prop := s.image = r.image ∧ s.index = some r.index

instance (r : Row) (s : Site S) : Decidable (r.names s) := by unfold Row.names; infer_instance

/-- One round of the inner loop of `update_site_file`, L114-121: both materials are made anew with the default table
of reference energies (L116-117) and the energy of the row is stored in the defect. -/
def updateOne (dflt : S → Option ℚ) (order : List S → List S) (r : Row) (s : Site S) :
    Except PyErr (Site S) :=
  if r.names s then
    match withCohesive order { newMaterial dflt s.defect.atoms with stored := some r.energy } with
    | .error e => .error e
    | .ok d => .ok { s with material := newMaterial dflt s.material.atoms, defect := d }
  else .ok s

/-- The loops of `update_site_file`, L113-121. -/
def updateFile (dflt : S → Option ℚ) (order : List S → List S) :
    List Row → List (Site S) → Except PyErr (List (Site S))
  | [], sites => .ok sites
  | r :: rows, sites =>
    match sites.mapM (updateOne dflt order r) with
    | .error e => .error e
    | .ok sites => updateFile dflt order rows sites

/-- One round of `_update_materials`, L502-520: the site afterwards and the exception, if any.  The material is replaced
before the defect is treated. -/
def refreshSite (ref : S → Option ℚ) (order : List S → List S) (s : Site S) : Site S × Option PyErr :=
  match totalEnergy s.material, totalEnergy s.defect with
  | some em, some ed =>
    match withCohesive order { newMaterial ref s.material.atoms with stored := some em } with
    | .error e => (s, some e)
    | .ok m =>
      match withCohesive order { newMaterial ref s.defect.atoms with stored := some ed } with
      | .error e => ({ s with material := m }, some e)
      | .ok d => ({ s with material := m, defect := d }, none)
  | _, _ => (s, none)                                       -- L511-512

/-- `_update_materials`, L498-521: the sites afterwards and the exception, if any. -/
def updateMaterials (ref : S → Option ℚ) (order : List S → List S) :
    List (Site S) → List (Site S) × Option PyErr
  | [] => ([], none)
  | s :: rest =>
    match refreshSite ref order s with
    | (s', some e) => (s' :: rest, some e)
    | (s', none) => (s' :: (updateMaterials ref order rest).1, (updateMaterials ref order rest).2)

/-! ### Files -/

/-- The folder written by `write_site_trajectories`: existing directories `material{i}`, the files
`material{i}/defect_free/init.traj` and `material{i}/site{j}_{comp}/init.traj`. -/
structure Folder (S : Type) where
  dir : ℕ → Bool
  mat : ℕ → Option (Atoms S)
  defect : ℕ → Option ℕ → String → Option (Atoms S)

/-- One round of `write_site_trajectories`, L701-711. -/
def writeSite (f : Folder S) (s : Site S) : Folder S :=
  let f : Folder S :=
    if f.dir s.image then f                                               -- L704
    else { f with mat := Function.update f.mat s.image (some s.material.atoms) }   -- L705-706
  { f with
    dir := Function.update f.dir s.image true                             -- L705, L710
    defect := fun i j c => if i = s.image ∧ j = s.index ∧ c = s.comp then some s.defect.atoms
      else f.defect i j c }                                               -- L711

/-- `write_site_trajectories`, L689-712. -/
def writeSites (f : Folder S) (sites : List (Site S)) : Folder S := sites.foldl writeSite f

/-! ### Reading -/

/-- `read_sites`, L714-730; `file` are the sites in the file. -/
def readSites (sites : Option (List (Site S))) (file : List (Site S)) (extend : Bool) : List (Site S) :=
  match sites with
  | some l => if extend then l ++ file else file
  | none => file

/-- `traj_to_sites`, L732-775, for two existing files; `name` writes `str(atoms.symbols)` of the defect. -/
def trajToSites (ref : S → Option ℚ) (name : Atoms S → String) (sites : Option (List (Site S)))
    (material defect : Atoms S) (extend : Bool) : List (Site S) :=
  let l := sites.getD []                                                  -- L761-762
  let s : Site S := ⟨l.length, getSiteIndex material.pos defect.pos, newMaterial ref material, newMaterial ref defect,
    name defect⟩                                                          -- L764-770
  if extend then l ++ [s] else [s]                                        -- L772-775

end CatLearn.SiteStore
