import Mathlib.Data.List.Sort
import Mathlib.Order.Basic

/-!
# Shared vocabulary: Python errors, shuffles, numpy splitting

Small pieces of Python/numpy behaviour that several modelled functions use.
-/

namespace CatLearn

/-- The Python exceptions the modelled code can raise. -/
inductive PyErr where
  | assertion    -- AssertionError
  | value        -- ValueError
  | index        -- IndexError
  | key          -- KeyError
  | type         -- TypeError
  | attribute    -- AttributeError
  | name         -- NameError / UnboundLocalError
  | zeroDiv      -- ZeroDivisionError
  | notImpl      -- NotImplementedError
  | linalg       -- numpy.linalg.LinAlgError
  | other        -- anything else, named where used
  deriving DecidableEq, Repr

/-- A shuffle (`random.shuffle`, `np.random.shuffle` along axis 0): any function that returns a
rearrangement of the list it is given.  The random generator is the choice of the function. -/
def IsShuffle {α : Type _} (shuf : List α → List α) : Prop := ∀ l, (shuf l).Perm l

/-- Section sizes used by `np.array_split(X, k)`: with `q, r = divmod(n, k)` the first `r` sections
have `q + 1` elements, the others `q` (numpy documentation and source of `array_split`). -/
def splitSizes (n k : Nat) : List Nat :=
  (List.range k).map fun i => n / k + (if i < n % k then 1 else 0)

/-- Cut a list in consecutive pieces of the given sizes. -/
def splitBySizes {α : Type _} : List Nat → List α → List (List α)
  | [], _ => []
  | s :: ss, l => l.take s :: splitBySizes ss (l.drop s)

/-- `np.array_split(X, k)` for `k ≥ 1`; `k = 0` raises ValueError. -/
def arraySplit {α : Type _} (l : List α) (k : Nat) : Except PyErr (List (List α)) :=
  if k = 0 then .error .value else .ok (splitBySizes (splitSizes l.length k) l)

/-- A stable ascending sort by a key: `sorted(l, key=…)`, `list.sort(key=…)`. -/
def sortAsc {A F : Type _} [LinearOrder F] (key : A → F) (l : List A) : List A :=
  l.insertionSort fun a b => key a ≤ key b

/-- A stable descending sort by a key: `sorted(l, key=…, reverse=True)`. -/
def sortDesc {A F : Type _} [LinearOrder F] (key : A → F) (l : List A) : List A :=
  l.insertionSort fun a b => key b ≤ key a

end CatLearn
