import Verif.Model.Py
import Mathlib.Data.Real.Basic
import Mathlib.Analysis.Real.Pi.Bounds
import Mathlib.Algebra.BigOperators.Group.List.Basic
import Mathlib.Algebra.Group.Pi.Basic

/-!
Pair distributions (catlearn/utilities/distribution.py).

Distances are real numbers.  A structure carries its distances with and without the minimum image convention; how ase
computes them is not modelled.  The histogram of numpy is given by its documentation: half open bins of equal width,
the last one closed.
-/

namespace CatLearn.Distribution

open CatLearn

/-- An atoms object: atomic numbers, and the distances under the minimum image convention and without. -/
structure Image where
  numbers : List ℤ
  dist : ℕ → ℕ → ℝ
  distFree : ℕ → ℕ → ℝ

/-- The argument `element`: `None`, an atomic number or a pair of atomic numbers. -/
inductive Element
  | all
  | one (z : ℤ)
  | pair (a b : ℤ)

/-- The indices of the atoms with atomic number `z` (distribution.py L105, L119, L122-123). -/
def members (img : Image) (z : ℤ) : List ℕ :=
  (List.range img.numbers.length).filter fun i => decide (img.numbers[i]? = some z)

/-- Rows of the distance matrix that are used (distribution.py L104-106, L118-124). -/
def rows (img : Image) : Element → List ℕ
  | .all => List.range img.numbers.length
  | .one z => members img z
  | .pair a _ => members img a

/-- Columns of the distance matrix that are used (distribution.py L104-106, L118-124; for a pair of equal elements the
structure is reduced to these atoms). -/
def cols (img : Image) : Element → List ℕ
  | .all => List.range img.numbers.length
  | .one _ => List.range img.numbers.length
  | .pair _ b => members img b

/-- The atoms whose cutoff radii are looked up (distribution.py L110-111): those of the structure, which has been
reduced for a pair of equal elements. -/
def looked (img : Image) : Element → List ℕ
  | .pair a b => if a = b then members img a else List.range img.numbers.length
  | _ => List.range img.numbers.length

/-- The matrix of distances, distribution.py L104-124.  `mic` is not used: L107 is
`d = atoms.get_all_distances(atoms)`, which passes the structure for the argument `mic` of ase, true for any structure
that is not empty.  Only dictionaries are modelled for the cutoffs;
`np.vstack` raises ValueError if there are none (L116). -/
noncomputable def matrix (img : Image) (_mic : Bool) (el : Element) (cutoffs : Option (ℤ → Option ℝ)) :
    Except PyErr (List (List ℝ)) :=
  match cutoffs with
  | none => .ok ((rows img el).map fun i => (cols img el).map fun j => img.dist i j)
  | some c =>
    let radius : ℕ → Option ℝ := fun i => (img.numbers[i]?).bind c
    if ∃ i ∈ looked img el, radius i = none then .error .key
    else if looked img el = [] then .error .value
    else .ok ((rows img el).map fun i => (cols img el).map fun j => img.dist i j - (radius j).getD 0 - (radius i).getD 0)

/-- The edges of the bins, as returned by `np.histogram`. -/
noncomputable def edge (bins : ℕ) (lo hi : ℝ) (i : ℕ) : ℝ := lo + i * ((hi - lo) / bins)

/-- Bin `i` of `np.histogram`: half open, the last one closed. -/
def InBin (bins : ℕ) (lo hi : ℝ) (i : ℕ) (x : ℝ) : Prop :=
  edge bins lo hi i ≤ x ∧ (x < edge bins lo hi (i + 1) ∨ (i + 1 = bins ∧ x ≤ hi))

open Classical in
/-- `np.histogram(row, bins=bins, range=bounds)[0]`. -/
noncomputable def hist (bins : ℕ) (lo hi : ℝ) (row : List ℝ) : Fin bins → ℝ :=
  fun i => (row.countP fun x => decide (InBin bins lo hi i x) : ℕ)

/-- `_distance_hist`, distribution.py L84-135: the histograms of the rows are added and divided by the number of rows;
`none` for NaN, when there are no rows. -/
noncomputable def distanceHist (bins : ℕ) (lo hi : ℝ) (mic : Bool) (el : Element) (cutoffs : Option (ℤ → Option ℝ))
    (img : Image) : Except PyErr (Option (Fin bins → ℝ)) :=
  match matrix img mic el cutoffs with
  | .error e => .error e
  | .ok d =>
    if d = [] then .ok none
    else .ok (some fun k => (d.map (hist bins lo hi)).sum k / d.length)

/-- The loop over the images, distribution.py L30-35 and L70-77: `np.nansum` takes NaN for 0. -/
noncomputable def addAll {bins : ℕ} (h : Image → Except PyErr (Option (Fin bins → ℝ))) :
    List Image → (Fin bins → ℝ) → Except PyErr (Fin bins → ℝ)
  | [], acc => .ok acc
  | img :: t, acc =>
    match h img with
    | .error e => .error e
    | .ok none => addAll h t acc
    | .ok (some v) => addAll h t (acc + v)

/-- The range `np.histogram` uses: one unit around the value if both bounds are the same. -/
noncomputable def range (lo hi : ℝ) : ℝ × ℝ := if lo = hi then (lo - 1 / 2, hi + 1 / 2) else (lo, hi)

/-- The positions returned, distribution.py L41-42 and L80-81: `dx` is the range divided by the number of edges. -/
noncomputable def positions (bins : ℕ) (lo hi : ℝ) : Fin bins → ℝ :=
  fun k => edge bins lo hi k + (hi - lo) / (bins + 1) / 2

/-- The volume of the shell of bin `k`, distribution.py L38. -/
noncomputable def shell (bins : ℕ) (lo hi : ℝ) (k : ℕ) : ℝ :=
  4 * Real.pi * (edge bins lo hi (k + 1) ^ 3 - edge bins lo hi k ^ 3) / 3

/-- `pair_distribution`, distribution.py L9-42; `none` for NaN, when there are no images.  `np.histogram` raises ValueError
for no bins and for bounds in the wrong order. -/
noncomputable def pairDistribution (images : List Image) (bins : ℕ) (bounds : ℝ × ℝ) (mic : Bool) (el : Element) :
    Except PyErr (Option (Fin bins → ℝ) × (Fin bins → ℝ)) :=
  if bins = 0 ∨ bounds.2 < bounds.1 then .error .value
  else
    let b := range bounds.1 bounds.2
    match addAll (distanceHist bins b.1 b.2 mic el none) images 0 with
    | .error e => .error e
    | .ok pdf =>
      .ok (if images = [] then none else some fun k => pdf k / (images.length * shell bins b.1 b.2 k),
        positions bins b.1 b.2)

/-- `pair_deviation`, distribution.py L45-81. -/
noncomputable def pairDeviation (images : List Image) (cutoffs : ℤ → Option ℝ) (bins : ℕ) (bounds : ℝ × ℝ) (mic : Bool)
    (el : Element) : Except PyErr (Option (Fin bins → ℝ) × (Fin bins → ℝ)) :=
  if bins = 0 ∨ bounds.2 < bounds.1 then .error .value
  else
    let b := range bounds.1 bounds.2
    match addAll (distanceHist bins b.1 b.2 mic el (some cutoffs)) images 0 with
    | .error e => .error e
    | .ok pdf =>
      .ok (if images = [] then none else some fun k => pdf k / images.length, positions bins b.1 b.2)

end CatLearn.Distribution
