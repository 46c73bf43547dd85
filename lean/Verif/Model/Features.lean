import Verif.Model.Py
import Mathlib.Data.List.Dedup

/-!
# Assembling feature matrices: `catlearn/featurize/setup.py`

`A` is the type of the Python objects that may stand for structures, `K` the type of feature values.
-/

namespace CatLearn.Feat

open CatLearn

/-- A numpy vector: floats or strings. -/
inductive Vals (K : Type) where
  | nums (l : List K)
  | strs (l : List String)

/-- Attributes of the generator that the fingerprint functions read. -/
structure Gen where
  atomTypes : Option (List ℕ)
  atomLen : Option ℕ

/-- A fingerprint function: a vector for a structure, names for `None`. -/
abbrev Fp (A K : Type) := Gen → Option A → Except PyErr (Vals K)

/-- One round of the loop in `_concatenate_vec`, L266-279: strings and numbers do not mix once something is there. -/
def join {K : Type} (acc arr : Vals K) : Except PyErr (Vals K) :=
  match acc, arr with
  | .nums a, .nums b => .ok (.nums (a ++ b))
  | .strs a, .strs b => .ok (.strs (a ++ b))
  | .nums a, .strs b => if a = [] then .ok (.strs b) else .error .assertion
  | .strs a, .nums b => if a = [] then .ok (.nums b) else .error .assertion

/-- `np.array(name(atoms))`: an empty list becomes an empty float array. -/
def toArray {K : Type} : Vals K → Vals K
  | .strs [] => .nums []
  | v => v

/-- `_concatenate_vec`, L248-281. -/
def concatenate {A K : Type} (g : Gen) (a : Option A) : List (Fp A K) → Vals K → Except PyErr (Vals K)
  | [], acc => .ok acc
  | f :: fs, acc =>
    match f g a with
    | .error e => .error e
    | .ok v =>
      match join acc (toArray v) with
      | .error e => .error e
      | .ok acc' => concatenate g a fs acc'

/-- `_get_vec`, L225-246, and the body of `return_names`, L217-223. -/
def getVec {A K : Type} (g : Gen) (fs : List (Fp A K)) (a : Option A) : Except PyErr (Vals K) :=
  match fs with
  | [f] => f g a
  | _ => concatenate g a fs (.nums [])

/-- `return_names`, L204-223. -/
def returnNames {A K : Type} (g : Gen) (fs : List (Fp A K)) : Except PyErr (Vals K) := getVec g fs none

/-- `_get_atom_types`, L283-306. -/
def atomTypes (numbers : List (List ℕ)) : List ℕ := sortAsc id numbers.flatten.dedup

/-- `_get_atom_length`, L334-358. -/
def atomLength (numbers : List (List ℕ)) : ℕ := numbers.foldl (fun m a => if m < a.length then a.length else m) 0

/-- The argument `candidates`: a list, a `defaultdict` (its items), or something else. -/
inductive Cands (A : Type) where
  | list (l : List A)
  | defaultdict (items : List (A × A))
  | other

/-- The serial branch, L196-200. -/
def serial {A K : Type} (g : Gen) (fs : List (Fp A K)) (l : List A) : Except PyErr (List (Vals K)) :=
  l.mapM fun a => getVec g fs (some a)

/-- The slots of `multiprocessing.pool.MapResult`: chunk `i` is stored in slot `i`, whenever it arrives. -/
def collect {R : Type} (slots : List (Option R)) : List (ℕ × R) → List (Option R)
  | [] => slots
  | (i, r) :: rest => collect (slots.set i (some r)) rest

/-- The parallel branch, L189-195, `order` being the order in which the tasks finish.  The callback gets the list of
all results, once; it is not called if a task raises, nor for an empty list of tasks, and then
`np.asarray([])[0]` is an IndexError. -/
def parallel {A K : Type} (order : List ℕ) (g : Gen) (fs : List (Fp A K)) (l : List A) :
    Except PyErr (List (Vals K)) :=
  match serial g fs l with
  | .error _ => .error .index
  | .ok rows =>
    if rows = [] then .error .index
    else
      let arrivals := order.filterMap fun i => rows[i]?.map fun r => (i, r)
      match (collect (List.replicate rows.length none) arrivals).mapM id with
      | none => .error .index
      | some rs => .ok rs

/-- The structures over which `return_vec` iterates: for a dictionary its keys. -/
def iterated {A : Type} : Cands A → Except PyErr (List A)
  | .list l => .ok l
  | .defaultdict items => .ok (items.map (·.1))
  | .other => .error .type

/-- `self.atom_types`/`self.atom_len` are set by the first call, L179-184; `numbers` gives the atomic numbers of a
structure, `none` for an object that is no structure (AttributeError). -/
def prepare {A : Type} (numbers : A → Option (List ℕ)) (g : Gen) (l : List A) : Except PyErr Gen :=
  if g.atomTypes.isSome ∧ g.atomLen.isSome then .ok g
  else
    match l.mapM numbers with
    | none => .error .attribute
    | some zs => .ok ⟨some (g.atomTypes.getD (atomTypes zs)), some (g.atomLen.getD (atomLength zs))⟩

/-- `return_vec`, L157-202; `par` is `none` for `nprocs = 1`, else the order in which the tasks finish. -/
def returnVec {A K : Type} (numbers : A → Option (List ℕ)) (par : Option (List ℕ)) (g : Gen) (c : Cands A)
    (fs : List (Fp A K)) : Except PyErr (Gen × List (Vals K)) :=
  match iterated c with
  | .error e => .error e
  | .ok l =>
    match prepare numbers g l with
    | .error e => .error e
    | .ok g' =>
      match (match par with
        | none => serial g' fs l
        | some order => parallel order g' fs l) with
      | .error e => .error e
      | .ok rows => .ok (g', rows)

end CatLearn.Feat
