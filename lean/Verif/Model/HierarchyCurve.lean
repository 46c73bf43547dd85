import Verif.Model.Hierarchy

/-!
The learning curve of the hierarchical cross-validation: `split_predict` and `transform_output`,
catlearn/cross_validation/hierarchy_cv.py L149-233.
-/

namespace CatLearn.Hierarchy

open CatLearn

/-- What the prediction function of the user returns, hierarchy_cv.py L197-199: a dictionary with `'result'` and, maybe,
`'size'`. -/
structure Prediction (R : Type) where
  result : R
  size : Option Nat

variable {ι ρ R : Type} [DecidableEq ι]

/-- The inner loop of `split_predict`, hierarchy_cv.py L180-199, for the subset named `i` whose rows are `train`.  The rows
are handed to the prediction function as they come (the code separates them in columns of features and the column of
targets). -/
def testLoop (table : List (ι × ρ)) (predict : List (ι × ρ) → List (ι × ρ) → Except PyErr (Prediction R))
    (sp : Split ι) (i : Nat × Nat) (train : List (ι × ρ)) :
    List (Nat × Nat) → List R × List Nat → Except PyErr (List R × List Nat)
  | [], acc => .ok acc
  | m :: ms, acc =>
    if m.1 == i.1 && m.2 != i.2 then                                          -- L182-184
      match compileSplit sqliteLimit table (sp.val m) with                     -- L185
      | .error e => .error e
      | .ok test =>
        match predict train test with                                         -- L192-195
        | .error e => .error e
        | .ok p =>
          let sizes := match p.size with                                       -- L197-198
            | some s => acc.2 ++ [s]
            | none => acc.2
          testLoop table predict sp i train ms (acc.1 ++ [p.result], sizes)    -- L199
    else testLoop table predict sp i train ms acc

/-- The outer loop of `split_predict`, hierarchy_cv.py L170-199. -/
def trainLoop (table : List (ι × ρ)) (predict : List (ι × ρ) → List (ι × ρ) → Except PyErr (Prediction R))
    (sp : Split ι) : List (Nat × Nat) → List R × List Nat → Except PyErr (List R × List Nat)
  | [], acc => .ok acc
  | i :: is, acc =>
    match compileSplit sqliteLimit table (sp.val i) with                       -- L173
    | .error e => .error e
    | .ok train =>
      match testLoop table predict sp i train sp.keys.reverse acc with         -- L179-199
      | .error e => .error e
      | .ok acc => trainLoop table predict sp is acc

/-- `split_predict(index_split, predict)`, hierarchy_cv.py L149-201: the errors and the sizes. -/
def splitPredict (table : List (ι × ρ)) (predict : List (ι × ρ) → List (ι × ρ) → Except PyErr (Prediction R))
    (sp : Split ι) : Except PyErr (List R × List Nat) :=
  trainLoop table predict sp sp.keys.reverse ([], [])

/-- The size under which `transform_output` collects a result of size `j`, hierarchy_cv.py L223-225. -/
def groupOf (sizes : List Nat) (j : Nat) : Nat := if j + 1 ∈ sizes then j + 1 else j

/-- `if c not in d: d[c] = []` and `d[c].append(x)`, hierarchy_cv.py L226-228; the dictionary is the list of its items in
the order of insertion. -/
def collect (d : List (Nat × List R)) (c : Nat) (x : R) : List (Nat × List R) :=
  if d.any (·.1 == c) then d.map fun p => if p.1 = c then (p.1, p.2 ++ [x]) else p
  else d ++ [(c, [x])]

/-- The loop of `transform_output`, hierarchy_cv.py L222-228.  `all` are all sizes; `data[0][i]` raises `IndexError` when
there are fewer results than sizes. -/
def groupLoop (all : List Nat) : List R → List Nat → List (Nat × List R) → Except PyErr (List (Nat × List R))
  | _, [], d => .ok d
  | [], _ :: _, _ => .error .index
  | x :: xs, j :: js, d => groupLoop all xs js (collect d (groupOf all j) x)

/-- `transform_output(data)`, hierarchy_cv.py L203-234. -/
def transformOutput [Add R] [Zero R] [Div R] [NatCast R] (results : List R) (sizes : List Nat) :
    Except PyErr (List Nat × List R) :=
  match groupLoop sizes results sizes [] with
  | .error e => .error e
  | .ok d => .ok (d.map (·.1), d.map fun p => p.2.foldl (· + ·) 0 / (p.2.length : R))   -- L229-232

end CatLearn.Hierarchy
