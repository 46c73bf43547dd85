import Verif.Model.Py

/-!
# Model of `catlearn/cross_validation/hierarchy_cv.py`
-/

namespace CatLearn.Hierarchy

open CatLearn

/-- The `OrderedDict` built by `split_index` (hierarchy_cv.py L77): keys in insertion order and their
values.  The string key `'i_j'` is represented by the pair `(i, j)`. -/
structure Split (ι : Type) where
  keys : List (Nat × Nat)
  val : Nat × Nat → List ι

/-- `data[k] = v`: a new key is appended, an old key keeps its place. -/
def Split.set {ι : Type} (d : Split ι) (k : Nat × Nat) (v : List ι) : Split ι where
  keys := if k ∈ d.keys then d.keys else d.keys ++ [k]
  val := fun k' => if k' = k then v else d.val k'

/-- One pass of the inner loop, hierarchy_cv.py L98-109, over `j = j₀, j₀+1, …` (`n` more values),
with the running name counter `sn`.  `shuf k` is the shuffle of L100 applied when key `k` is visited;
it works in place on the stored list, hence the `set`.  Looking up an absent key raises `KeyError`.
The result is `.inl d` when the function returned `d` on L108-109 (after writing it), `.inr d` when the loop ran to its
end. -/
def innerLoop {ι : Type} (shuf : Nat × Nat → List ι → List ι) (minSplit i : Nat) :
    Nat → Nat → Nat → Split ι → Except PyErr (Split ι ⊕ Split ι)
  | 0, _, _, d => .ok (.inr d)
  | n + 1, j, sn, d =>
    if (i, j) ∈ d.keys then
      let cur := shuf (i, j) (d.val (i, j))                     -- L99-100
      let d := d.set (i, j) cur
      let half := cur.length / 2                                -- L101
      if half ≥ minSplit then                                   -- L102
        let d := d.set (i + 1, sn) (cur.take half)              -- L103, L105
        let d := d.set (i + 1, sn + 1) (cur.drop half)          -- L104, L106
        innerLoop shuf minSplit i n (j + 1) (sn + 2) d
      else .ok (.inl d)                                         -- L107-109
    else .error .key

/-- The outer loop, hierarchy_cv.py L95-109, for `i = i₀, i₀+1, …` (`n` more values).  `none` is the
value of a Python function that runs off its end: nothing was written and nothing is returned. -/
def outerLoop {ι : Type} (shuf : Nat × Nat → List ι → List ι) (minSplit : Nat) :
    Nat → Nat → Split ι → Except PyErr (Option (Split ι))
  | 0, _, _ => .ok none
  | n + 1, i, d =>
    match innerLoop shuf minSplit i (2 ^ i) 1 1 d with          -- L96-98
    | .error e => .error e
    | .ok (.inl d) => .ok (some d)
    | .ok (.inr d) => outerLoop shuf minSplit n (i + 1) d

/-- `Hierarchy.split_index(min_split, max_split, all_index)`, hierarchy_cv.py L65-109, given the
index list.  `shuf0` is the shuffle of L82, `shuf` those of L100.  The result is the dictionary
written to file and returned, or `none` when the function ends without writing or returning.
`int(a / b)` on non-negative integers is floor division (exact below 2^53); `min_split = 0` raises
`ZeroDivisionError` on L93. -/
def splitIndex {ι : Type} (shuf0 : List ι → List ι) (shuf : Nat × Nat → List ι → List ι)
    (minSplit : Nat) (maxSplit : Option Nat) (allIndex : List ι) :
    Except PyErr (Option (Split ι)) := do
  let all := shuf0 allIndex                                      -- L82
  let all ← match maxSplit with                                  -- L83-86
    | none => pure all
    | some m =>
      if all.length > m ∧ m ≥ 2 * minSplit then pure (all.take m) else throw .assertion
  if ¬ all.length > minSplit then throw .assertion               -- L88
  let size := all.length / 2                                     -- L89
  let d : Split ι := ⟨[], fun _ => []⟩
  let d := d.set (1, 1) (all.take size)                          -- L90
  let d := d.set (1, 2) (all.drop size)
  if minSplit = 0 then throw .zeroDiv
  let noSplit := min (d.val (1, 1)).length (d.val (1, 2)).length / minSplit   -- L93
  outerLoop shuf minSplit noSplit 1 d                            -- L95-109

/-- The (train, test) key pairs on which `split_predict` calls the prediction function, in call
order, hierarchy_cv.py L169-195: both loops run over the dictionary in reverse; the test key must
have the same level and a different number. -/
def splitPredictPairs (keys : List (Nat × Nat)) : List ((Nat × Nat) × (Nat × Nat)) :=
  keys.reverse.flatMap fun i =>
    (keys.reverse.filter fun m => m.1 == i.1 && m.2 != i.2).map fun m => (i, m)

/-- `_get_data(id_list)`, hierarchy_cv.py L300-313: the rows of the table whose uuid is in the list,
in table order (`SELECT … WHERE uuid IN (…)`).  The table is the list of (uuid, row) pairs. -/
def getData {ι ρ : Type} [DecidableEq ι] (table : List (ι × ρ)) (ids : List ι) : List (ι × ρ) :=
  table.filter fun r => r.1 ∈ ids

/-- The chunk loop of `_compile_split`, hierarchy_cv.py L285-292, for `i = i₀, …` (`n` more values).
`np.concatenate((store_data, more_data), axis=0)` of a two-dimensional array with the empty
(one-dimensional) list raises `ValueError`. -/
def chunkLoop {ι ρ : Type} [DecidableEq ι] (chunk : Nat) (table : List (ι × ρ)) (ids : List ι) :
    Nat → Nat → List (ι × ρ) → Except PyErr (List (ι × ρ))
  | 0, _, store => .ok store
  | n + 1, i, store =>
    let start := i * chunk                                       -- L286
    let more :=
      if (ids.drop start).length < chunk then                    -- L287
        getData table (ids.drop start)                           -- L288
      else getData table ((ids.take ((i + 1) * chunk)).drop start)  -- L290-291
    if more = [] ∨ store = [] then                               -- L292
      (if more = [] ∧ store = [] then chunkLoop chunk table ids n (i + 1) [] else .error .value)
    else chunkLoop chunk table ids n (i + 1) (store ++ more)

/-- `_compile_split(id_list)`, hierarchy_cv.py L270-298.  `chunk` is the literal 999. -/
def compileSplit {ι ρ : Type} [DecidableEq ι] (chunk : Nat) (table : List (ι × ρ)) (ids : List ι) :
    Except PyErr (List (ι × ρ)) := do
  let store ←
    if ids.length > chunk then                                   -- L283
      chunkLoop chunk table ids (ids.length / chunk) 1 (getData table (ids.take chunk))  -- L284-292
    else pure (getData table ids)                                -- L294
  if store.length = ids.length then pure store else throw .assertion   -- L296

/-- The literal used by the code (L283-291). -/
def sqliteLimit : Nat := 999

end CatLearn.Hierarchy
