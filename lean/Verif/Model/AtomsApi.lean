import Verif.Model.Py
import Mathlib.Data.List.FinRange
import Mathlib.Logic.Function.Basic

/-!
# Data attached to structures, and graphs

`catlearn/api/ase_atoms_api.py`, `catlearn/api/networkx_graph_api.py` and the neighbour lists of
`catlearn/featurize/base.py`.  A structure is a geometry of any type with the attributes the code adds.  Storing `None`
is not modelled.
-/

namespace CatLearn.Api

open CatLearn

/-- An atoms object: its geometry, whether `extend_atoms_class` added the methods, and the attribute `catlearn` (`none`
before `_initialize_catlearn`). -/
structure Obj (G V : Type) where
  geometry : G
  extended : Bool
  store : Option (String → Option V)

variable {G V : Type}

/-- `extend_atoms_class`, L75-89. -/
def extend (o : Obj G V) : Obj G V := { o with extended := true }

/-- `_initialize_catlearn`, L205-210. -/
def initStore (o : Obj G V) : Obj G V := { o with store := some (o.store.getD fun _ => none) }

/-- `set_features`, `set_neighborlist`, `set_graph`, L92-106, L131-145, L167-181: AttributeError for an object without
the methods. -/
def setSlot (k : String) (v : V) (o : Obj G V) : Except PyErr (Obj G V) :=
  if o.extended then
    .ok { o with store := some (Function.update (o.store.getD fun _ => none) k (some v)) }
  else .error .attribute

/-- `get_features`, `get_neighborlist`, `get_graph`, L109-128, L148-164, L184-202: `None` when nothing is stored. -/
def getSlot (k : String) (o : Obj G V) : Except PyErr (Obj G V × Option V) :=
  if o.extended then .ok (initStore o, (o.store.getD fun _ => none) k) else .error .attribute

/-- `make_neighborlist`, base.py L25-48; `ase` is `ase_neighborlist` without cutoffs. -/
def makeNeighborlist (dtype : String) (ase : G → V) (o : Obj G V) : Except PyErr (Obj G V × V) :=
  if dtype = "atoms" then
    match setSlot "neighborlist" (ase o.geometry) (extend o) with
    | .error e => .error e
    | .ok o' => .ok (o', ase o.geometry)
  else .error .notImpl

/-- `get_neighborlist`, base.py L50-70: a stored list, or a new one; an object without the methods has no list. -/
def getNeighborlist (dtype : String) (ase : G → V) (o : Obj G V) : Except PyErr (Obj G V × V) :=
  match getSlot "neighborlist" o with
  | .ok (o', some v) => .ok (o', v)
  | .ok (o', none) => makeNeighborlist dtype ase o'
  | .error .attribute => makeNeighborlist dtype ase o
  | .error e => .error e

/-- `images_connectivity` for one structure, L37-58: the attribute `connectivity` is kept when it is there, otherwise
calculated from the geometry. -/
def imagesConnectivity (conn : G → V) (images : List (G × Option V)) : List (G × Option V) :=
  images.map fun a => match a.2 with
    | some c => (a.1, some c)
    | none => (a.1, some (conn a.1))

/-! ## Graphs -/

variable {n : ℕ}

/-- Neighbour lists as dictionaries on the atoms. -/
abbrev NL (n : ℕ) := Fin n → List (Fin n)

/-- A networkx graph on the atoms: atomic numbers and (undirected) edges. -/
structure Graph (n : ℕ) where
  number : Fin n → ℤ
  edge : Fin n → Fin n → Bool

/-- `ase_to_networkx`, L15-52: a stored neighbour list is used and `cutoffs` only matter without one; `add_edges_from`
on an undirected graph. -/
def aseToNetworkx {C : Type} (ase : G → Option C → NL n) (number : Fin n → ℤ) (o : Obj G (NL n)) (cutoffs : Option C) :
    Graph n :=
  let nl := ((o.store.getD fun _ => none) "neighborlist").getD (ase o.geometry cutoffs)
  { number := number, edge := fun i j => decide (j ∈ nl i) || decide (i ∈ nl j) }

/-- `networkx_to_adjacency`, L55-79: 1 for edges, plus the atomic numbers on the diagonal. -/
def adjacency (g : Graph n) : Fin n → Fin n → ℤ :=
  fun i j => (if g.edge i j then 1 else 0) + (if i = j then g.number i else 0)

/-- `matrix_to_nl`, L82-100: diagonal cleared, AssertionError if not symmetric, then the columns with entry 1.  (The
matrix has integer entries.) -/
def matrixToNl (m : Fin n → Fin n → ℤ) : Except PyErr (NL n) :=
  let c : Fin n → Fin n → ℤ := fun i j => if i = j then 0 else m i j
  if ∀ i j, c i j = c j i then .ok fun i => (List.finRange n).filter fun j => c i j = 1 else .error .assertion

end CatLearn.Api
