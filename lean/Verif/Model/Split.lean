import Verif.Model.Py

/-!
# Learning curves and data splits

`catlearn/learning_curve/learning_curve.py`, `holdout_set` of `catlearn/utilities/utilities.py`,
`catlearn/api/ase_data_setup.py`.
-/

namespace CatLearn.Split

open CatLearn

/-! ## `LearningCurve.run` -/

/-- Python's `l[-k:]`. -/
def lastSlice {α : Type} (k : ℕ) (l : List α) : List α := if k = 0 then l else l.drop (l.length - k)

/-- `_single_test`, L242-284: `n = x * step` and the slices `[-n:]`. -/
def singleTest {X Y T R : Type} (model : List X → List Y → T → R) (step x : ℕ) (train : List X) (target : List Y)
    (test : T) : R :=
  let k := x * step
  model (lastSlice k train) (lastSlice k target) test

/-- Number of iterations, L64: `(n - min_data) // step`; a negative number gives no iteration. -/
def total (n minData step : ℕ) : ℕ := (n - minData) / step

/-- `LearningCurve.run`, L27-89; `order` is `none` for the serial branch, else the order in which the tasks finish
(`imap_unordered`).  A step of zero is a ZeroDivisionError. -/
def run {X Y T R : Type} (model : List X → List Y → T → R) (train : List X) (target : List Y) (test : T)
    (step minData : ℕ) (order : Option (List ℕ)) : Except PyErr (List R) :=
  if step = 0 then .error .zeroDiv
  else
    .ok ((order.getD (List.range (total train.length minData step))).map fun x =>
      singleTest model step x train target test)

/-! ## `holdout_set` -/

/-- `holdout_set`, L42-74; `shuffled` is the matrix after `np.random.shuffle`, which changes only the matrix, and
`index = int(len(matrix) * fraction)`.  The slices of the target are as in the code. -/
def holdout {X Y : Type} (shuffled : List X) (index : ℕ) (target : List Y) : List X × List Y × List X × List Y :=
  (shuffled.drop index, target.take index, shuffled.take index, target.drop index)

/-! ## `get_unique`, `get_train` -/

/-- What the functions collect for a structure: its number, the structure, its target. -/
structure Entry (A Y : Type) where
  index : ℕ
  atoms : A
  target : Y

/-- The loop of `get_unique`, L26-33: `acc` is the data set so far; a missing key is a KeyError. -/
def uniqueLoop {A Y : Type} (key : A → Option Y) (size : ℕ) : List (ℕ × A) → List (Entry A Y) →
    Except PyErr (List (Entry A Y))
  | [], acc => .ok acc
  | a :: rest, acc =>
    if acc.length < size then
      match key a.2 with
      | none => .error .key
      | some y => uniqueLoop key size rest (acc ++ [⟨a.1, a.2, y⟩])
    else .ok acc

/-- `get_unique`, L9-36; `order` is the shuffled `enumerate(atoms)`. -/
def getUnique {A Y : Type} (key : A → Option Y) (size : ℕ) (order : List (ℕ × A)) : Except PyErr (List (Entry A Y)) :=
  uniqueLoop key size order []

/-- The loop of `get_train`, L57-66. -/
def trainLoop {A Y : Type} (key : A → Option Y) (size : Option ℕ) (taken : Option (List ℕ)) : List (ℕ × A) →
    List (Entry A Y) → Except PyErr (List (Entry A Y))
  | [], acc => .ok acc
  | a :: rest, acc =>
    if size = none ∨ ∃ s ∈ size, acc.length < s then
      if taken = none ∨ ∃ t ∈ taken, a.1 ∉ t then
        match key a.2 with
        | none => .error .key
        | some y => trainLoop key size taken rest (acc ++ [⟨a.1, a.2, y⟩])
      else trainLoop key size taken rest acc
    else if ∃ s ∈ size, acc.length = s then .ok acc
    else trainLoop key size taken rest acc

/-- `get_train`, L39-67. -/
def getTrain {A Y : Type} (key : A → Option Y) (size : Option ℕ) (taken : Option (List ℕ)) (order : List (ℕ × A)) :
    Except PyErr (List (Entry A Y)) :=
  trainLoop key size taken order []

/-- `list(enumerate(atoms))`. -/
def enumerate {A : Type} (l : List A) : List (ℕ × A) := (List.range l.length).zip l

end CatLearn.Split
