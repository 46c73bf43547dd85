import Verif.Model.Neighbors
import Mathlib.Analysis.SpecialFunctions.Trigonometric.Inverse

/-!
# The features of a site: `Material.get_site_features`, catlearn/featurize/site_stability.py L262-399

Numbers are exact reals; NaN, and the value of a statistic of no entries, is `none`.
-/

namespace CatLearn.SiteGeom

open CatLearn CatLearn.Nb

/-- Minimum, maximum, mean and (population) standard deviation. -/
structure Stats where
  min : ℝ
  max : ℝ
  mean : ℝ
  std : ℝ

/-- `min()`, `max()`, `mean()` and `std()` of an array; `none` for an empty one. -/
noncomputable def stats : List ℝ → Option Stats
  | [] => none
  | x :: l =>
    let m := (x :: l).sum / (x :: l).length
    some ⟨l.foldl min x, l.foldl max x, m, Real.sqrt (((x :: l).map fun y => (y - m) ^ 2).sum / (x :: l).length)⟩

/-- `unique_set(iterable)` for combinations of two, L149-159. -/
def pairs {α : Type} : List α → List (α × α)
  | [] => []
  | x :: l => l.map (fun y => (x, y)) ++ pairs l

/-- The angle at `b` in degrees, L347-354; 0/0 is NaN, which is left out (L357). -/
noncomputable def angle (a b c : Fin 3 → ℝ) : Option ℝ :=
  if distance a b * distance c b = 0 then none
  else some (Real.arccos ((∑ k, (a k - b k) * (c k - b k)) / (distance a b * distance c b)) * 180 / Real.pi)

/-- The row of site features, L305-325, without the optional columns; the statistics of coordination numbers and atomic numbers of the
neighbours, of the distances and of the angles. -/
structure Features (n : ℕ) where
  index : Fin n
  number : ℕ
  valence : ℕ
  cn : ℝ
  neighborCn : Option Stats
  neighborNumber : Option Stats
  distance : Option Stats
  angle : Option Stats

variable {n : ℕ}

/-- `self.cm`, L178: bonds up to the sum of the radii plus 2 Å; not periodic. -/
noncomputable def cm (radius : ℕ → ℝ) (z : Fin n → ℕ) (p : Fin n → Fin 3 → ℝ) : Mat n ℝ :=
  connectionMatrix (getNeighborlist radius z (fun i j => Nb.distance (p i) (p j)) 2 1)

/-- `self.cn_list`, L179. -/
noncomputable def cnList (radius : ℕ → ℝ) (z : Fin n → ℕ) (p : Fin n → Fin 3 → ℝ) : Fin n → ℝ := fun i => ∑ j, cm radius z p i j

/-- An array over the atoms times the row of the site, zeros masked: L278-279 and L287-288. -/
noncomputable def masked (row a : Fin n → ℝ) : List ℝ := ((List.finRange n).map fun j => a j * row j).filter fun x => x ≠ 0

/-- `neighbors`, L337-339 and L381-383: `cm_site[self.site_index] = 0` is assigned to the row first. -/
noncomputable def neighbors (row : Fin n → ℝ) (i : Fin n) : List (Fin n) :=
  (List.finRange n).filter fun j => (Function.update row i 0) j = 1

/-- `get_site_features(site_index)`, L262-329, for an atom of the structure; `valence` is `nvalence()` of `mendeleev`.  Without neighbours
`np.min` raises ValueError (L397; in `site_angles`, L360-370, that is caught). -/
noncomputable def siteFeatures (radius : ℕ → ℝ) (valence : ℕ → ℕ) (z : Fin n → ℕ) (p : Fin n → Fin 3 → ℝ) (i : Fin n) :
    Except PyErr (Features n) :=
  let row := cm radius z p i
  let nb := neighbors row i
  let angles := (pairs nb).filterMap fun q => angle (p q.1) (p i) (p q.2)
  let dists := nb.map fun j => Nb.distance (p j) (p i)
  if dists = [] then .error .value
  else .ok {
    index := i
    number := z i
    valence := valence (z i)
    cn := cnList radius z p i
    neighborCn := stats (masked row (cnList radius z p))
    neighborNumber := stats (masked row fun j => (z j : ℝ))
    distance := stats dists
    angle := stats angles }

end CatLearn.SiteGeom
