import Verif.Model.Slab
import Mathlib.Data.Real.Sqrt

/-!
`slab_layers`, catlearn/featurize/slab_utilities.py L97-159: the layers of a slab by k-means clustering of the heights.
`KMeans` of scikit-learn is a parameter; heights are real numbers.
-/

namespace CatLearn.SlabLayers

open CatLearn CatLearn.Slab

/-- An atom that takes part: its index and its height (`indices` and `zpos`). -/
abbrev Point := ℕ × ℝ

/-- The atoms whose heights are clustered, slab_utilities.py L116-129.  In an oxide these are the atoms of the last metal in
`list(stoi.keys())[1:]`; `order` is the order of the elements.  NameError if there is no metal (this does not happen after
`is_oxide`, which has found one). -/
noncomputable def points (m : MetalTable) (z : List ℕ) (order : List ℕ) (h : ℕ → ℝ) : Except PyErr (List Point) :=
  match isOxide m z order with
  | .error e => .error e
  | .ok false => .ok ((List.range z.length).map fun i => (i, h i))
  | .ok true =>
    match (order.tail.filter m.metal).getLast? with
    | none => .error .name
    | some e => .ok (((List.range z.length).filter fun i => z[i]? = some e).map fun i => (i, h i))

/-- `np.mean` of the heights of a layer, L145. -/
noncomputable def mean (l : List Point) : ℝ := (l.map Prod.snd).sum / l.length

/-- `np.var` of the heights of a layer, L146. -/
noncomputable def var (l : List Point) : ℝ := (l.map fun p => (p.2 - mean l) ^ 2).sum / l.length

/-- The points with their labels, L134 and L142-148: one list for each label, in the order of `set(clusters)`. -/
def layersOf (setOrder : List ℕ → List ℕ) (labels : List ℕ) (pts : List Point) : List (List Point) :=
  (setOrder labels.dedup).map fun i => ((pts.zip labels).filter fun p => p.2 = i).map Prod.fst

open Classical in
/-- `pooled_standart_deviation <= tolerance`, L149-152.  With one atom in every layer the quotient is `0.0 / 0`, which is
NaN for numpy floats, and the comparison is false. -/
noncomputable def converged (tol : ℝ) (ls : List (List Point)) : Bool :=
  let den := (ls.map List.length).sum - ls.length
  if den = 0 then false
  else decide (Real.sqrt ((ls.map fun l => var l * ((l.length : ℝ) - 1)).sum / den) ≤ tol)

/-- The loop of L131-159 for `n, n + 1, …`; `k` passes are left.  `kmeans n` labels the points with `n` clusters; it raises
ValueError if there are fewer points.  After the last pass the function ends without a result (`none`). -/
noncomputable def layerLoop (kmeans : ℕ → List ℝ → List ℕ) (setOrder : List ℕ → List ℕ) (tol : ℝ) (pts : List Point) :
    ℕ → ℕ → Except PyErr (Option (List ℝ × List (List ℕ)))
  | 0, _ => .ok none
  | k + 1, n =>
    if pts.length < n then .error .value
    else
      let ls := layersOf setOrder (kmeans n (pts.map Prod.snd)) pts
      if converged tol ls then
        let r := sortAsc mean ls                                          -- L153-154
        .ok (some (r.map mean, r.map fun l => l.map Prod.fst))
      else layerLoop kmeans setOrder tol pts k (n + 1)

/-- `slab_layers`, L97-159. -/
noncomputable def slabLayers (kmeans : ℕ → List ℝ → List ℕ) (setOrder : List ℕ → List ℕ) (m : MetalTable) (z order : List ℕ)
    (h : ℕ → ℝ) (maxLayers : ℕ) (tol : ℝ) : Except PyErr (Option (List ℝ × List (List ℕ))) :=
  match points m z order h with
  | .error e => .error e
  | .ok pts => layerLoop kmeans setOrder tol pts maxLayers 1

end CatLearn.SlabLayers
