import Verif.Model.Py

/-!
# Model of `catlearn/active_learning/algorithm.py`
-/

namespace CatLearn.AL

open CatLearn

/-- One iteration: training indices, candidate indices, acquired indices. -/
structure Step where
  train : List Nat
  test : List Nat
  acquired : List Nat
  deriving DecidableEq, Repr

/-- `a[idx]` for an array of rows and a list of indices; IndexError if one is out of range. -/
def gather {R : Type} (rows : List R) (idx : List Nat) : Except PyErr (List R) :=
  if ∀ i ∈ idx, i < rows.length then .ok (idx.filterMap fun i => rows[i]?) else .error .index

/-- `np.delete(np.arange(n), train_index)`, L85-86. -/
def testIndex (n : Nat) (train : List Nat) : List Nat := (List.range n).filter fun i => !train.contains i

/-- The loop of `test_acquisition`, L83-110 (`stopEmpty = true`), and of `_test_acquisition`, L288-313
(`stopEmpty = false`), for the given number of iterations.  `surrogate train test` returns the sample and the
score.  Returns the scores, the iterations and the final `train_index`. -/
def loop {R S : Type} (stopEmpty : Bool) (surrogate : List R → List R → List Nat × S) (rows : List R) :
    Nat → Nat → List Nat → Except PyErr (List S × List Step × List Nat)
  | 0, _, train => .ok ([], [], train)
  | k + 1, batch, train =>
    match gather rows train with
    | .error e => .error e
    | .ok trainRows =>
      let test := testIndex rows.length train
      let testRows := test.filterMap fun i => rows[i]?
      if test.length = 0 then .ok ([], [], train)
      else
        let batch' := if test.length < batch then test.length else batch
        let (sample, score) := surrogate trainRows testRows
        match gather test (sample.take batch') with
        | .error e => .error e
        | .ok acquired =>
          if stopEmpty ∧ acquired = [] then .ok ([], [], train)
          else
            match loop stopEmpty surrogate rows k batch' (train ++ acquired) with
            | .error e => .error e
            | .ok (scores, steps, final) => .ok (score :: scores, ⟨train, test, acquired⟩ :: steps, final)

/-- `test_acquisition`, L51-110, and `_test_acquisition`, L193-313.  `rows` are the rows after the optional
permutation by the seed.  Returns also the list `train_index` at the end: it is the caller's own list
if `initial` was given. -/
def run {R S : Type} (stopEmpty : Bool) (surrogate : List R → List R → List Nat × S) (rows : List R)
    (initial : Option (List Nat)) (batch : Nat) (nMax : Option Nat) :
    Except PyErr (List S × List Step × List Nat) :=
  let train := initial.getD (List.range (max batch 2))
  if batch = 0 then .error .zeroDiv
  else loop stopEmpty surrogate rows (nMax.getD rows.length / batch) batch train

/-- `ensemble_test` with `nprocs=1`, L185-189: every member is given the same list object `initial_subset`, and
extends it in place.  `rowsOf` gives the rows permuted by the seed of each member. -/
def ensembleSerial {R S : Type} (surrogate : List R → List R → List Nat × S) (batch : Nat) (nMax : Option Nat) :
    Option (List Nat) → List (List R) → Except PyErr (List (List S × List Step))
  | _, [] => .ok []
  | initial, rows :: rest =>
    match run false surrogate rows initial batch nMax with
    | .error e => .error e
    | .ok (scores, steps, final) =>
      -- the caller's list now holds `final`; without a list, `None` is passed again
      match ensembleSerial surrogate batch nMax (initial.map fun _ => final) rest with
      | .error e => .error e
      | .ok out => .ok ((scores, steps) :: out)

/-- `ensemble_test` in parallel, L172-184: every worker gets a copy of the list; results are appended in the
order of arrival, here a permutation of the members. -/
def ensembleParallel {R S : Type} (surrogate : List R → List R → List Nat × S) (initial : Option (List Nat))
    (batch : Nat) (nMax : Option Nat) (arrival : List (List R)) : List (Except PyErr (List S)) :=
  arrival.map fun rows => (run false surrogate rows initial batch nMax).map fun r => r.1

/-- `acquire(unlabeled_data, batch_size)`, L112-141, for the training data given to the object. -/
def acquire {R S : Type} (surrogate : List R → List R → List Nat × S) (train unlabeled : List R) (batch : Nat) :
    List Nat × S :=
  let (sample, score) := surrogate train unlabeled
  (sample.take batch, score)

end CatLearn.AL
