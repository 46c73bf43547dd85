import Verif.Model.Slab
import Mathlib.Algebra.Order.Field.Rat

/-!
Further ways to find the adsorbate and the comparison with a reference slab: catlearn/featurize/adsorbate_prep.py L195-235,
L272-282, L334-385, L462-508.  Numbers are rational (no rounding).
-/

namespace CatLearn.AdsFind

open CatLearn CatLearn.Slab

/-- `l[-k:]`: everything for `k = 0`. -/
def lastK {α : Type} (k : ℕ) (l : List α) : List α := if k = 0 then l else l.drop (l.length - k)

/-- `np.argsort` and indexing with it: some order by the key (the algorithm is not stable). -/
structure Sorter where
  srt : (ℤ → ℚ) → List ℤ → List ℤ
  perm : ∀ f l, (srt f l).Perm l
  sorted : ∀ f l, (srt f l).Pairwise fun i j => f i ≤ f j

/-- `sym2ads_index`, adsorbate_prep.py L272-282 (symbols are atomic numbers). -/
def symIndex (a : Atoms) (syms : List ℕ) : List ℤ := (indices a.n).filter fun i => a.num i ∈ syms

/-- `layers2ads_index`, L462-482: `key` is the value of the key `layers`; a missing key is a KeyError. -/
def layersIndex (a : Atoms) (key : Option ℤ) (comp : List ℕ) : Except PyErr (List ℤ) :=
  match key with
  | none => .error .key
  | some k => checked a.z comp ((indices a.n).filter fun i => a.layers i > k - 1)

/-- `z2ads_index`, L485-508: `h` are the heights of the atoms. -/
def zIndex (s : Sorter) (a : Atoms) (h : ℤ → ℚ) (comp : List ℕ) : Except PyErr (List ℤ) :=
  checked a.z comp (lastK comp.length (s.srt h (indices a.n)))

/-! ### `slab_positions2ads_index`, L334-385 -/

/-- The atoms of elements of which the structure has as many as the adsorbate, L343-348: once for each occurrence of the
element in the formula. -/
def exclusive (a : Atoms) (comp : List ℕ) : List ℤ :=
  comp.flatMap fun s => if comp.count s = a.z.count s then (indices a.n).filter fun i => a.num i = s else []

/-- `np.min` of the distances of atom `i` to the atoms of the reference, L367; `none` if there are none. -/
def deviation (dist : ℤ → ℤ → ℚ) (ref : List ℤ) (i : ℤ) : Option ℚ := (ref.map (dist i)).min?

/-- The loop L358-371 over the elements that are left; `dist i j` is the distance of atom `i` to atom `j` of the reference
slab, `zr` its atomic numbers. -/
def positionLoop (s : Sorter) (a : Atoms) (zr : List ℕ) (dist : ℤ → ℤ → ℚ) (comp : List ℕ) :
    List ℕ → List ℤ → Except PyErr (List ℤ)
  | [], ads => .ok ads
  | e :: es, ads =>
    if e ∈ ads.map a.num then positionLoop s a zr dist comp es ads
    else
      let own := (indices a.n).filter fun i => a.num i = e
      let ref := (indices zr.length).filter fun j => zr.getD j.toNat 0 = e
      if ref = [] then .error .value
      else positionLoop s a zr dist comp es
        (ads ++ lastK (comp.count e) (s.srt (fun i => (deviation dist ref i).getD 0) own))

/-- `slab_positions2ads_index`, L334-385.  The comparison on L352 is between integers and strings and never true; the
check at the end compares `np.unique(None)` with itself and never raises. -/
def positionsIndex (s : Sorter) (a : Atoms) (zr : List ℕ) (dist : ℤ → ℤ → ℚ) (comp : List ℕ) : Except PyErr (List ℤ) :=
  positionLoop s a zr dist comp comp (exclusive a comp)

/-! ### Comparison with a reference slab -/

/-- `np.isclose(x, y)` with the default tolerances. -/
def isclose (x y : ℚ) : Bool := decide (|x - y| ≤ 1 / 100000000 + 1 / 100000 * |y|)

/-- `np.allclose` of a `k × k` and an `m × m` matrix: equal shapes, or one of them of one element, which is compared with
all elements of the other; ValueError for other shapes. -/
def allclose (k m : ℕ) (x y : ℕ → ℕ → ℚ) : Except PyErr Bool :=
  if k = m ∨ m = 1 then
    .ok ((List.range k).all fun i => (List.range k).all fun j =>
      isclose (x i j) (if m = 1 then y 0 0 else y i j))
  else if k = 1 then .ok ((List.range m).all fun i => (List.range m).all fun j => isclose (x 0 0) (y i j))
  else .error .value

/-- A reference slab: its number of atoms and its connectivity. -/
structure Reference where
  n : ℕ
  cm : ℕ → ℕ → ℚ

/-- `compare_slab_connectivity`, L214-235, for `slab_atoms` that are indices of atoms. -/
def compareSlab (cm : ℤ → ℤ → ℚ) (slab : List ℤ) (r : Reference) : Except PyErr Bool :=
  allclose slab.length r.n (fun i j => cm (slab.getD i 0) (slab.getD j 0)) r.cm

/-- `check_reconstructions`, L195-211, from pair `i` on. -/
def checkFrom : ℕ → List ((ℤ → ℤ → ℚ) × List ℤ × Reference) → Except PyErr (List ℕ)
  | _, [] => .ok []
  | i, p :: ps =>
    match compareSlab p.1 p.2.1 p.2.2 with
    | .error e => .error e
    | .ok identical =>
      match checkFrom (i + 1) ps with
      | .error e => .error e
      | .ok l => .ok (if identical then l else i :: l)

/-- `check_reconstructions`, L195-211. -/
def checkReconstructions (pairs : List ((ℤ → ℤ → ℚ) × List ℤ × Reference)) : Except PyErr (List ℕ) := checkFrom 0 pairs

end CatLearn.AdsFind
