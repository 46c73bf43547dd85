import Verif.Model.FeatureGA

/-!
The statistics recorded by `GAFeatureSelection.evolve`, catlearn/featurize/site_stability.py L908-912 and L1053-1084.
-/

namespace CatLearn.FeatureGA

open CatLearn

/-- `mean_population_fitness`, L908-912 (`none`: the mean of nothing is not a number). -/
def meanFitness (pop : List Ind) : Option ℚ :=
  if pop = [] then none else some ((pop.map Ind.score).sum / (pop.length : ℕ))

/-- A row of the table `evolution`, L1064-1067. -/
structure Row where
  generation : ℕ
  max : ℚ
  mean : ℚ
  homogeneity : ℚ
deriving DecidableEq

/-- What is recorded before a generation, L1062-1067.  Without any gene `np.bincount` gets an array of floats (TypeError). -/
def record {α : Type} (names : List α) (i : ℕ) (pop : List Ind) : Except PyErr (Row × List (α × ℚ)) :=
  if (pop.map Ind.genes).flatten = [] then .error .type
  else
    match maxFitness pop, meanFitness pop with
    | some a, some b => .ok (⟨i, a, b, homogeneity names.length pop⟩, featureFrequencies names pop)
    | _, _ => .error .value

/-- The loop of `evolve`, L1059-1073, from generation `i` on: population, rows and frequencies recorded so far.  The total number of
features is the number of columns. -/
def evolveLoop {α : Type} (names : List α) (score : List ℕ → ℚ) (m N n : ℕ) (r : ℕ → Rng) :
    ℕ → ℕ → List Ind → List Row → List (List (α × ℚ)) → Except PyErr (List Ind × List Row × List (List (α × ℚ)))
  | 0, _, pop, rows, freqs => .ok (pop, rows, freqs)
  | k + 1, i, pop, rows, freqs =>
    match record names i pop with
    | .error e => .error e
    | .ok (row, f) =>
      match generation score m N n names.length (r i) pop with
      | .error e => .error e
      | .ok pop' => evolveLoop names score m N n r k (i + 1) pop' (rows ++ [row]) (freqs ++ [f])

/-- The attributes `population`, `evolution_history` and `feature_frequency_evolution` (the values in the order of its keys 0, 1, …). -/
structure Run (α : Type) where
  pop : List Ind
  history : Option (List Row)
  freqs : List (List (α × ℚ))

/-- `generation = index` after `reset_index`, L1082-1083. -/
def renumber (rows : List Row) : List Row := rows.mapIdx fun i x => { x with generation := i }

/-- `evolve(generations)`, L1053-1084: the new state and the table it returns.  An exception leaves the object in the middle of a
generation; that state is not described. -/
def evolveCall {α : Type} (names : List α) (score : List ℕ → ℚ) (m N n : ℕ) (r : ℕ → Rng) (generations : ℕ) (s : Run α) :
    Except PyErr (Run α × List Row) :=
  match evolveLoop names score m N n r generations 0 s.pop [] s.freqs with
  | .error e => .error e
  | .ok (pop, evolution, freqs) =>
    let history := match s.history with
      | none => evolution                                                -- L1079-1080
      | some h => renumber (h ++ evolution)                              -- L1081-1083
    .ok (⟨pop, some history, freqs⟩, evolution)

end CatLearn.FeatureGA
