import Verif.Model.Py
import Mathlib.Data.Real.Basic

/-!
k-means clustering of the data (catlearn/utilities/clustering.py).

`kmeans2` of scipy is a parameter: it gives the centroids and the labels of the training rows.  Distances to the centroids
are real numbers.
-/

namespace CatLearn.Clustering

open CatLearn

variable {α β γ : Type}

/-- A `defaultdict(list)` with the labels as keys: an association list in order of insertion. -/
abbrev Dict (α : Type) := List (ℕ × List α)

/-- `split[l].append(x)`. -/
def append (d : Dict α) (l : ℕ) (x : α) : Dict α :=
  if d.any (·.1 == l) then d.map fun p => if p.1 = l then (p.1, p.2 ++ [x]) else p else d ++ [(l, [x])]

/-- The loop of `_cluster_split`, clustering.py L57-59. -/
def splitLoop : List (α × β × ℕ) → Dict α × Dict β → Dict α × Dict β
  | [], d => d
  | (f, t, l) :: r, d => splitLoop r (append d.1 l f, append d.2 l t)

/-- `_cluster_split`, clustering.py L52-65.  Without targets the loop unpacks pairs into three names (L62): ValueError,
unless there is nothing to unpack. -/
def clusterSplit (features : List α) (target : Option (List β)) (order : List ℕ) : Except PyErr (Dict α × Option (Dict β)) :=
  match target with
  | some t =>
    let d := splitLoop (features.zip (t.zip order)) ([], [])
    .ok (d.1, some d.2)
  | none => if features = [] ∨ order = [] then .ok ([], none) else .error .value

/-- The search for the nearest centroid, clustering.py L36-41; the accumulator holds `td` (`none` for infinity) and
`mini`, which keeps its value of the previous test row (`none`: not assigned yet). -/
noncomputable def nearest (dist : ℕ → ℝ) : List ℕ → Option ℝ × Option ℕ → Option ℝ × Option ℕ
  | [], acc => acc
  | i :: r, acc =>
    nearest dist r (match acc.1 with
      | none => (some (dist i), some i)
      | some td => if dist i < td then (some (dist i), some i) else acc)

/-- The loop over the test rows, clustering.py L35-42: `zip` stops at the shorter list; a `mini` that was never assigned is
a NameError. -/
noncomputable def assign (dist : α → γ → ℝ) (centroids : List γ) : List (α × β) → Option ℕ → List ℕ → Except PyErr (List ℕ)
  | [], _, acc => .ok acc
  | (t, _) :: r, mini, acc =>
    match (nearest (fun i => ((centroids[i]?).map (dist t)).getD 0) (List.range centroids.length)
        (none, mini)).2 with
    | none => .error .name
    | some k => assign dist centroids r (some k) (acc ++ [k])

/-- The result of `cluster_features`. -/
structure Result (α β : Type) where
  trainOrder : List ℕ
  trainFeatures : Dict α
  trainTarget : Option (Dict β)
  testOrder : List ℕ
  testFeatures : Dict α
  testTarget : Option (Dict β)

/-- `cluster_features`, clustering.py L7-49, for the centroids and labels found by `kmeans2`.  `zip(None, …)` is a
TypeError. -/
noncomputable def clusterFeatures (dist : α → γ → ℝ) (centroids : List γ) (order : List ℕ) (train : List α)
    (trainTarget : Option (List β)) (test : Option (List α)) (testTarget : Option (List β)) :
    Except PyErr (Result α β) :=
  match clusterSplit train trainTarget order with
  | .error e => .error e
  | .ok tr =>
    match test, testTarget with
    | some te, some tt =>
      match assign dist centroids (te.zip tt) none [] with
      | .error e => .error e
      | .ok o =>
        match clusterSplit te (some tt) o with
        | .error e => .error e
        | .ok ts => .ok ⟨order, tr.1, tr.2, o, ts.1, ts.2⟩
    | _, _ => .error .type

end CatLearn.Clustering
