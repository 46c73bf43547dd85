import Verif.Model.Py
import Mathlib.Data.Real.Basic

/-!
# Model of `catlearn/preprocess/greedy_elimination.py` and `catlearn/preprocess/importance_testing.py`
-/

namespace CatLearn.Elim

open CatLearn

/-- What a caller may assume of `np.argsort`: it returns the positions in an order of non-decreasing value.
(The default quicksort is not stable, so nothing is assumed about ties.) -/
def IsArgsort (argsort : List ℝ → List Nat) : Prop :=
  ∀ l, (argsort l).Perm (List.range l.length) ∧
    (argsort l).Pairwise fun i j => l.getD i 0 ≤ l.getD j 0

/-- One worker result `(f, error)` or `(f, error, meta)`, `_single_elimination` L321-359 and `_predictor`
(importance_testing) L252-294. -/
structure Worker (M : Type) where
  pos : Nat
  error : ℝ
  info : Option M

/-- Body of `_serial_iterator`/`_parallel_iterator` (greedy L229-318, importance L158-249): results are
stored in the row of the result table by position, metadata is appended in the order in which results
arrive.  `arrivals` is `range d` in order for the serial iterator and any rearrangement for
`imap_unordered`. -/
def collect {M : Type} (row : List ℝ) (arrivals : List (Worker M)) : List ℝ × List M :=
  arrivals.foldl (fun s r => (s.1.set r.pos r.error, s.2 ++ r.info.toList)) (row, [])

/-- State of the elimination loop: `output` (feature, score), `survivors`, `total_features`. -/
structure St where
  output : List (Nat × ℝ)
  survivors : List Nat
  total : Nat

/-- The initial state, greedy L176-179, importance L85-88. -/
def St.init (d : Nat) : St := ⟨[], List.range d, d⟩

/-- `scores = np.mean(self.result, axis=0)`, greedy L125, importance L139: the table has `nsplit` rows and
`total` columns. -/
noncomputable def meanRows (nsplit total : Nat) (table : List (List ℝ)) : List ℝ :=
  (List.range total).map fun x => ((List.range nsplit).map fun k => (table.getD k []).getD x 0).sum / nsplit

/-- One round of `greedy_elimination` (L86-142) / `importance_elimination` (L98-154) without metadata.
`entry k sv x` is the error of fold `k` when the survivors are `sv` and position `x` is removed
(greedy) or perturbed (importance).  Reading beyond the survivors raises IndexError. -/
noncomputable def round (argsort : List ℝ → List Nat) (entry : Nat → List Nat → Nat → ℝ)
    (nsplit step : Nat) (st : St) : Except PyErr St :=
  let d := st.survivors.length
  -- L87-122: the table of zeros, filled by the (serial) iterator
  let table := (List.range nsplit).map fun k =>
    (collect (M := Unit) (List.replicate st.total 0)
      ((List.range d).map fun x => ⟨x, entry k st.survivors x, none⟩)).1
  let scores := meanRows nsplit st.total table                                  -- L125
  let s := argsort scores                                                       -- L127
  -- L128-138
  if step ≤ s.length ∧ (∀ i ∈ s, i < st.survivors.length) then
    let elim := (s.take step).map fun i => (st.survivors.getD i 0, scores.getD i 0)
    -- L140-142
    let keep := (st.survivors.zipIdx.filter fun p => !(s.take step).contains p.2).map Prod.fst
    .ok ⟨st.output ++ elim, keep, st.total - step⟩
  else .error .index

/-- Run a number of rounds. -/
noncomputable def rounds (argsort : List ℝ → List Nat) (entry : Nat → List Nat → Nat → ℝ)
    (nsplit step : Nat) : Nat → St → Except PyErr St
  | 0, st => .ok st
  | n + 1, st => do
    let st' ← round argsort entry nsplit step st
    rounds argsort entry nsplit step n st'

/-- The whole loop from a given state: `(total_features - 1) // step` rounds, L80-86. -/
noncomputable def runFrom (argsort : List ℝ → List Nat) (entry : Nat → List Nat → Nat → ℝ)
    (nsplit step : Nat) (st : St) : Except PyErr St :=
  if step = 0 then .error .zeroDiv
  else rounds argsort entry nsplit step ((st.total - 1) / step) st

/-- The entry of the result table in `greedy_elimination`: `_single_elimination` deletes column `x` of
the surviving columns and evaluates the user's predict function on the fold; `err k cols` is its error
on fold `k` using the columns `cols`. -/
def greedyEntry (err : Nat → List Nat → ℝ) (k : Nat) (sv : List Nat) (x : Nat) : ℝ := err k (sv.eraseIdx x)

/-- The entry of the result table in `importance_elimination`: the model trained on the surviving columns
is evaluated after perturbing the column at position `x`; `err k cols f` is its error on fold `k` using
the columns `cols` when feature `f` is perturbed. -/
def importanceEntry (err : Nat → List Nat → Nat → ℝ) (k : Nat) (sv : List Nat) (x : Nat) : ℝ :=
  err k sv (sv.getD x 0)

/-- The save file of `GreedyElimination`. `D` is the k-fold split data. `torn` is the file between
`open(…, 'w')` and the end of `json.dump` (L226-227). -/
inductive File (D : Type) where
  | absent
  | saved (st : St) (folds : D)
  | torn

/-- `_load_data`, L150-200: `split` is `k_fold` with its shuffle.  A torn file makes `json.load` raise
ValueError, which is not caught.  The JSON round trip of numbers is taken to be exact. -/
def load {X D : Type} (split : X → D) (width : X → Nat) (data : X) : File D → Except PyErr (D × St)
  | .absent => .ok (split data, St.init (width data))
  | .saved st folds => .ok (folds, st)
  | .torn => .error .value

/-- One complete run of `greedy_elimination` with a save file, and the file states it goes through, in
order: before each round's save, during it, and after it (L86-146).  Returns the result and the trace of
file states after the start. -/
noncomputable def roundsTrace {D : Type} (argsort : List ℝ → List Nat)
    (entry : Nat → List Nat → Nat → ℝ) (nsplit step : Nat) (folds : D) :
    Nat → St → Except PyErr (St × List (File D))
  | 0, st => .ok (st, [])
  | n + 1, st => do
    let st' ← round argsort entry nsplit step st
    let (fin, tr) ← roundsTrace argsort entry nsplit step folds n st'
    .ok (fin, .torn :: .saved st' folds :: tr)

/-- `greedy_elimination` with a save file in state `file`. The prediction errors depend on the folds. -/
noncomputable def greedySaved {X D : Type} (argsort : List ℝ → List Nat)
    (err : D → Nat → List Nat → ℝ) (split : X → D) (width : X → Nat) (nsplit step : Nat) (data : X)
    (file : File D) : Except PyErr (List (Nat × ℝ) × List (File D)) := do
  let (folds, st) ← load split width data file
  if step = 0 then .error .zeroDiv else
  let (fin, tr) ← roundsTrace argsort (greedyEntry (err folds)) nsplit step folds ((st.total - 1) / step) st
  .ok (fin.output, tr)

/-- The rows appended to `output` in one round of `importance_elimination` when the workers return
metadata (one number each): `mean_meta = np.mean(meta, axis=0)` over the folds, and row `g` gets
`mean_meta[g]` (L142-148).  `metas` has one list of metadata per fold, in arrival order. -/
noncomputable def importanceRows (survivors : List Nat) (scores : List ℝ) (s : List Nat)
    (metas : List (List ℝ)) (step : Nat) : List (Nat × ℝ × ℝ) :=
  (List.range step).map fun g =>
    (survivors.getD (s.getD g 0) 0, scores.getD (s.getD g 0) 0,
      (metas.map fun m => m.getD g 0).sum / metas.length)

/-- The row appended to `output` in `greedy_elimination` when predict returned a list (L131-136):
`np.concatenate([eliminated, float(mean_meta[g])])`.  `float` of an array of other than one element
raises TypeError, and `np.concatenate` of a list and a plain number raises ValueError
("zero-dimensional arrays cannot be concatenated").  `meta` is `mean_meta[g]`. -/
def greedyRowMeta (_eliminated : Nat × ℝ) (info : List ℝ) : Except PyErr (List ℝ) :=
  if info.length ≠ 1 then .error .type else .error .value

/-! ### Perturbing one feature (`importance_testing.py` L297-418); matrices are lists of rows -/

/-- Column `f` of a matrix. -/
def getCol {V : Type} (X : List (List V)) (f : Nat) : List V := X.filterMap fun r => r[f]?

/-- `X[:, f] = c` on a copy of `X`. -/
def setCol {V : Type} (X : List (List V)) (f : Nat) (c : List V) : List (List V) :=
  List.zipWith (fun r v => r.set f v) X c

/-- Mean and standard deviation of a column of all rows, L325-327 and L366-368. -/
noncomputable def colStats (sqrt : ℝ → ℝ) (c : List ℝ) : ℝ × ℝ :=
  let m := c.sum / c.length
  (m, sqrt ((c.map fun x => (x - m) ^ 2).sum / c.length))

/-- `feature_invariance`, L297-335. -/
noncomputable def featureInvariance (sqrt : ℝ → ℝ) (f : Nat) (train test : List (List ℝ)) :
    List (List ℝ) × List (List ℝ) :=
  let (m, s) := colStats sqrt (getCol (train ++ test) f)
  (setCol train f (List.replicate train.length (s + m)), setCol test f (List.replicate test.length (s + m)))

/-- `feature_randomize`, L338-378; `r1`, `r2` are the uniform draws. -/
noncomputable def featureRandomize (sqrt : ℝ → ℝ) (f : Nat) (train test : List (List ℝ)) (r1 r2 : List ℝ) :
    List (List ℝ) × List (List ℝ) :=
  let (m, s) := colStats sqrt (getCol (train ++ test) f)
  (setCol train f (r1.map fun r => r * s + m), setCol test f (r2.map fun r => r * s + m))

/-- `feature_shuffle`, L381-418; the shuffles of the two columns are parameters. -/
def featureShuffle {V : Type} (shuf1 shuf2 : List V → List V) (f : Nat) (train test : List (List V)) :
    List (List V) × List (List V) :=
  (setCol train f (shuf1 (getCol train f)), setCol test f (shuf2 (getCol test f)))

end CatLearn.Elim
