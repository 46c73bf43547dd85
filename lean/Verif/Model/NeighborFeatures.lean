import Verif.Model.Neighbors

/-!
# `neighbor_features`, catlearn/featurize/neighbor_matrix.py L16-58, with `_get_features`, L302-344

Numbers are exact reals, NaN is `none`.
-/

namespace CatLearn.NbFeat

open CatLearn CatLearn.Nb

/-! ### The order of a set of integers

`for e in set(an)` (L319 and L332) runs through the table of CPython's set, which has eight slots up to four elements.  The hash of
a nonnegative integer below 2^61-1 is the integer. -/

/-- `set_add_entry` of CPython for a table of eight slots: starting at `i`, the next slot is `(5 i + 1 + perturb) mod 8`, where `perturb` is
shifted by five bits at each collision.  `fuel` bounds the number of slots tried. -/
def addEntry : ℕ → (ℕ → Option ℕ) → ℕ → ℕ → ℕ → ℕ → Option ℕ
  | 0, t, _, _, _ => t
  | fuel + 1, t, x, i, perturb =>
    match t i with
    | none => Function.update t i (some x)
    | some y => if y = x then t else addEntry fuel t x ((5 * i + 1 + perturb / 32) % 8) (perturb / 32)

/-- The table after the elements of a list. -/
def setTable (l : List ℕ) : ℕ → Option ℕ := l.foldl (fun t x => addEntry 32 t x (x % 8) x) fun _ => none

/-- `list(set(l))` for at most four different elements. -/
def pySet (l : List ℕ) : List ℕ := (List.range 8).filterMap (setTable l)

/-! ### The features -/

variable {n : ℕ}

open Classical in
/-- `np.sum(x ** 0.5)`, L325 and L342; NaN with negative entries. -/
noncomputable def rootSum (x : Fin n → ℝ) : Option ℝ := if ∀ i, 0 ≤ x i then some (∑ i, Real.sqrt (x i)) else none

/-- The entries of an array times the mask of an element, L322-325 and L340-342: sum, sum of squares, sum of roots. -/
noncomputable def moments (z : Fin n → ℕ) (s : Fin n → ℝ) (e : ℕ) : List (Option ℝ) :=
  [some (∑ i, s i * elementList z e i), some (∑ i, (s i * elementList z e i) ^ 2), rootSum fun i => s i * elementList z e i]

/-- The features of one element, L320-342; `later` are the elements not done. -/
noncomputable def elementFeatures (z : Fin n → ℕ) (c : Mat n ℝ) (later : List ℕ) (e : ℕ) : List (Option ℝ) :=
  moments z (fun i => ∑ j, c i j) e ++ [some (levelTwo z c e)] ++ later.map (fun eo => some (levelTwoPair z c e eo)) ++
    moments z (generalized c) e

/-- The loop L319-342 over the elements still to come. -/
noncomputable def featureLoop (z : Fin n → ℕ) (c : Mat n ℝ) (all : List ℕ) : List ℕ → List ℕ → List (Option ℝ)
  | [], _ => []
  | e :: es, done =>
    let done := if e ∈ done then done else done ++ [e]
    elementFeatures z c (all.filter (· ∉ done)) e ++ featureLoop z c all es done

/-- `_get_features`, L302-344; `order` are the elements in the order of the set. -/
noncomputable def getFeatures (order : List ℕ) (z : Fin n → ℕ) (c : Mat n ℝ) : List (Option ℝ) := featureLoop z c order order []

/-- The connection matrix times `property_matrix`, L51-52 and L138-163: the value of the atom of the column. -/
def weighted (z : Fin n → ℕ) (c : Mat n ℝ) (p : ℕ → ℝ) : Mat n ℝ := fun i j => c i j * p (z j)

/-- `neighbor_features`, L16-58, without stored neighbour lists, for distances `d`; a property is its values for the elements. -/
noncomputable def neighborFeatures (radius : ℕ → ℝ) (dx : ℝ) (num : ℕ) (props : List (ℕ → ℝ)) (z : Fin n → ℕ) (d : Mat n ℝ) :
    List (Option ℝ) :=
  let c := connectionMatrix (getNeighborlist radius z d dx num)
  let order := pySet (List.ofFn z)
  getFeatures order z c ++ props.flatMap fun p => getFeatures order z (weighted z c p)

end CatLearn.NbFeat
