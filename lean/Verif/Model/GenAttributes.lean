import Verif.Model.Features
import Verif.Model.AdsBonds

/-!
# The attributes of a `FeatureGenerator` on which the bags of atoms and bonds depend

`catlearn/featurize/setup.py` L60-358 and `catlearn/fingerprint/adsorbate.py` L437-466, L645-797.
-/

namespace CatLearn.GenAttr

open CatLearn

/-- A structure: numbers, connectivity and the subsets `slab_atoms` and `ads_atoms`. -/
structure Struct where
  n : ℕ
  z : Fin n → ℕ
  cm : Fin n → Fin n → ℤ
  slab : List (Fin n)
  ads : List (Fin n)

/-- `get_atomic_numbers()`. -/
def Struct.numbers (s : Struct) : List ℕ := List.ofFn s.z

/-- The attributes; `adsTypes` is `none` as long as `self.ads_atom_types` does not exist (no constructor assigns it). -/
structure Attr where
  gen : Feat.Gen
  adsTypes : Option (List ℕ)

/-- `FeatureGenerator(atom_types, atom_len)`, setup.py L83-103. -/
def Attr.new (types : Option (List ℕ)) (len : Option ℕ) : Attr := ⟨⟨types, len⟩, none⟩

/-- `normalize_features(train, test)`, setup.py L105-119: `_get_atom_types` and `_get_atom_length` on both lists. -/
def Attr.normalize (a : Attr) (train : List Struct) (test : Option (List Struct)) : Attr :=
  let d := (train ++ test.getD []).map Struct.numbers
  { a with gen := ⟨some (Feat.atomTypes d), some (Feat.atomLength d)⟩ }

/-- `_get_ads_atom_types(train, test)`, setup.py L308-332 (not called by the package). -/
def Attr.adsorbates (a : Attr) (train : List Struct) (test : Option (List Struct)) : Attr :=
  { a with adsTypes := some (Feat.atomTypes ((train ++ test.getD []).map fun s => s.ads.map s.z)) }

/-- `len(None)` and iterating over `None` raise TypeError. -/
def Attr.withTypes {R : Type} (a : Attr) (f : List ℕ → Except PyErr R) : Except PyErr R :=
  match a.gen.atomTypes with
  | none => .error .type
  | some t => f t

/-- `bag_atoms_ads`, adsorbate.py L437-466. -/
def bagAtomsAds (a : Attr) (s : Struct) : Except PyErr (List ℕ) := a.withTypes fun t => AdsB.bagAtomsAds t s.z s.ads

/-- `bag_edges_ads`, adsorbate.py L645-691. -/
def bagEdgesAds (a : Attr) (s : Struct) : Except PyErr (List ℕ) := a.withTypes fun t => AdsB.bagEdgesAds t s.z s.cm s.slab

/-- `bag_edges_chemi`, adsorbate.py L693-740. -/
def bagEdgesChemi (a : Attr) (s : Struct) : Except PyErr (List ℕ) := a.withTypes fun t => AdsB.bagEdgesChemi t s.z s.cm s.slab

/-- `bag_edges_all`, adsorbate.py L742-797: `self.ads_atom_types` (L761) raises AttributeError if it does not exist. -/
def bagEdgesAll (a : Attr) (s : Struct) : Except PyErr (List ℕ) := a.withTypes fun t =>
  match a.adsTypes with
  | none => .error .attribute
  | some u => AdsB.bagEdgesAll t u s.z s.cm s.ads

/-- The beginning of `return_vec(candidates)`, setup.py L181-185: attributes that are None are found from the candidates. -/
def Attr.vec (a : Attr) (l : List Struct) : Attr :=
  let d := l.map Struct.numbers
  { a with gen := ⟨some (a.gen.atomTypes.getD (Feat.atomTypes d)), some (a.gen.atomLen.getD (Feat.atomLength d))⟩ }

/-- `featurize_atomic_pairs(candidates)`, setup.py L132-133. -/
def Attr.pairs (a : Attr) (l : List Struct) : Attr :=
  { a with gen := ⟨some (a.gen.atomTypes.getD (Feat.atomTypes (l.map Struct.numbers))), a.gen.atomLen⟩ }

/-- The public calls that change the attributes. -/
inductive Step where
  | normalize (train : List Struct) (test : Option (List Struct))
  | vec (l : List Struct)
  | pairs (l : List Struct)

/-- The attributes after one call. -/
def Attr.step (a : Attr) : Step → Attr
  | .normalize tr te => a.normalize tr te
  | .vec l => a.vec l
  | .pairs l => a.pairs l

/-- The attributes after public calls. -/
def Attr.after (a : Attr) (l : List Step) : Attr := l.foldl Attr.step a

end CatLearn.GenAttr
