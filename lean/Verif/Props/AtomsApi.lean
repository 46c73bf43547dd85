import Verif.Model.AtomsApi
import Mathlib.Data.List.Sort
import Mathlib.Data.Fin.VecNotation
import Mathlib.Algebra.Group.Basic
import Mathlib.Tactic.FinCases

/-!
# Data attached to structures: C177, C178
-/

namespace CatLearn.Api

open CatLearn

variable {G V : Type}

/-- What a program can do with a structure. -/
inductive Op (G V : Type) where
  | extend
  | set (k : String) (v : V)
  | get (k : String)
  | move (g : G)

/-- One step; reads are allowed to change the object. -/
def step (o : Obj G V) : Op G V → Except PyErr (Obj G V)
  | .extend => .ok (extend o)
  | .set k v => setSlot k v o
  | .get k => (getSlot k o).map (·.1)
  | .move g => .ok { o with geometry := g }

/-- A program. -/
def run (o : Obj G V) : List (Op G V) → Except PyErr (Obj G V)
  | [] => .ok o
  | op :: ops => match step o op with
    | .error e => .error e
    | .ok o' => run o' ops

/-- The values written to a slot, in order. -/
def written (k : String) (ops : List (Op G V)) : List V :=
  ops.filterMap fun op => match op with
    | .set k' v => if k' = k then some v else none
    | _ => none

theorem run_spec (ops : List (Op G V)) (o : Obj G V) (he : o.extended = true) (k : String) :
    ∃ o', run o ops = .ok o' ∧ o'.extended = true ∧
      (o'.store.getD fun _ => none) k = ((written k ops).getLast?).or ((o.store.getD fun _ => none) k) := by
  induction ops generalizing o with
  | nil => exact ⟨o, rfl, he, by simp [written]⟩
  | cons op ops ih =>
    cases op with
    | extend =>
      obtain ⟨o', h1, h2, h3⟩ := ih (extend o) rfl
      exact ⟨o', h1, h2, h3⟩
    | set k' v =>
      obtain ⟨o', h1, h2, h3⟩ := ih
        { o with store := some (Function.update (o.store.getD fun _ => none) k' (some v)) } he
      refine ⟨o', by simp only [run, step, setSlot]; rw [if_pos he]; exact h1, h2, ?_⟩
      rw [h3]
      by_cases hk : k' = k
      · subst hk
        simp only [written, List.filterMap_cons, if_true, Option.getD_some, Function.update_self]
        cases hl : (List.filterMap (fun op => match op with
            | Op.set k'_1 v => if k'_1 = k' then some v else none
            | _ => none) ops).getLast? with
        | none =>
          rw [List.getLast?_eq_none_iff] at hl
          rw [hl]; rfl
        | some x =>
          rw [List.getLast?_cons, hl]
          rfl
      · simp only [written, List.filterMap_cons, hk, if_false, Option.getD_some]
        rw [Function.update_of_ne (Ne.symm hk)]
    | get k' =>
      obtain ⟨o', h1, h2, h3⟩ := ih (initStore o) he
      refine ⟨o', by simp only [run, step, getSlot]; rw [if_pos he]; exact h1, h2, ?_⟩
      rw [h3]
      rfl
    | move g =>
      obtain ⟨o', h1, h2, h3⟩ := ih { o with geometry := g } he
      exact ⟨o', h1, h2, h3⟩

/-- C177: after `extend_atoms_class`, whatever a program stores, reads, extends again or moves, reading a slot gives the
value last written to this slot, and nothing (`None`) when it was never written; no step raises. -/
theorem C177_slots (o : Obj G V) (hs : o.store = none) (ops : List (Op G V)) (k : String) :
    ∃ o' o'', run o (.extend :: ops) = .ok o' ∧ getSlot k o' = .ok (o'', (written k ops).getLast?) := by
  obtain ⟨o', h1, h2, h3⟩ := run_spec ops (extend o) rfl k
  refine ⟨o', initStore o', h1, ?_⟩
  rw [getSlot, if_pos h2, h3]
  simp [extend, hs]

/-- Features overwritten, a graph in between. -/
example : written "features" ([.set "features" 1, .set "graph" 5, .get "features", .set "features" 2, .move ()] :
    List (Op Unit ℕ)) = [1, 2] := by decide

/-- C177: without `extend_atoms_class` the methods do not exist (AttributeError). -/
theorem C177_not_extended (o : Obj G V) (he : o.extended = false) (k : String) (v : V) :
    setSlot k v o = .error .attribute ∧ getSlot k o = .error .attribute := by
  simp [setSlot, getSlot, he]

/-- C177: the first `get_neighborlist` of a structure that has no stored list, extended or not, gives the list of its
geometry, and later calls return the same list without changing the object. -/
theorem C177_neighborlist (ase : G → V) (o : Obj G V) (hs : (o.store.getD fun _ => none) "neighborlist" = none) :
    ∃ o', getNeighborlist "atoms" ase o = .ok (o', ase o.geometry) ∧ o'.geometry = o.geometry ∧
      (∀ k, k ≠ "neighborlist" → (o'.store.getD fun _ => none) k = (o.store.getD fun _ => none) k) ∧
      ∀ dtype ase', getNeighborlist dtype ase' o' = .ok (o', ase o.geometry) := by
  cases he : o.extended
  · refine ⟨⟨o.geometry, true,
      some (Function.update (o.store.getD fun _ => none) "neighborlist" (some (ase o.geometry)))⟩, ?_, rfl, ?_, ?_⟩
    · simp [getNeighborlist, getSlot, he, makeNeighborlist, setSlot, extend]
    · intro k hk
      simp [Function.update_of_ne hk]
    · intro dtype ase'
      simp [getNeighborlist, getSlot, initStore]
  · refine ⟨⟨o.geometry, true,
      some (Function.update (o.store.getD fun _ => none) "neighborlist" (some (ase o.geometry)))⟩, ?_, rfl, ?_, ?_⟩
    · simp [getNeighborlist, getSlot, he, makeNeighborlist, setSlot, extend, initStore, hs]
    · intro k hk
      simp [Function.update_of_ne hk]
    · intro dtype ase'
      simp [getNeighborlist, getSlot, initStore]

/-- A fresh structure. -/
example : ((⟨(), false, none⟩ : Obj Unit ℕ).store.getD fun _ => none) "neighborlist" = none := rfl

/-- C177: another data type than atoms is refused when a list must be made. -/
theorem C177_dtype (dtype : String) (hd : dtype ≠ "atoms") (ase : G → V) (o : Obj G V)
    (hs : (o.store.getD fun _ => none) "neighborlist" = none) : getNeighborlist dtype ase o = .error .notImpl := by
  cases he : o.extended <;> simp [getNeighborlist, getSlot, he, makeNeighborlist, hd, hs, initStore]

example : "molecule" ≠ "atoms" := by decide

/-- C177 fails after the atoms move: whenever the lists of two geometries differ, `get_neighborlist` of a structure moved
from one to the other still returns the list of the old geometry. -/
theorem C177_stale_violated (ase : G → V) (g g' : G) (hne : ase g ≠ ase g') :
    ∃ o' o'', getNeighborlist "atoms" ase ⟨g, false, none⟩ = .ok (o', ase g) ∧
      getNeighborlist "atoms" ase { o' with geometry := g' } = .ok (o'', ase g) ∧ ase g ≠ ase g' := by
  refine ⟨⟨g, true, some (Function.update (fun _ => none) "neighborlist" (some (ase g)))⟩,
    ⟨g', true, some (Function.update (fun _ => none) "neighborlist" (some (ase g)))⟩, ?_, ?_, hne⟩
  · simp [getNeighborlist, getSlot, makeNeighborlist, setSlot, extend]
  · simp [getNeighborlist, getSlot, initStore]

example : (fun g : ℕ => g) 1 ≠ (fun g : ℕ => g) 2 := by decide

/-- C177: after `images_connectivity` every structure, in the same order and with its geometry, has a connectivity; a
structure that came without one has that of its geometry, the others keep theirs; a second call changes nothing. -/
theorem C177_images_connectivity (conn : G → V) (images : List (G × Option V)) :
    (imagesConnectivity conn images).map (·.1) = images.map (·.1) ∧
    (∀ (i : ℕ) (g : G) (c : Option V), images[i]? = some (g, c) →
      (imagesConnectivity conn images)[i]? = some (g, some (c.getD (conn g)))) ∧
    imagesConnectivity conn (imagesConnectivity conn images) = imagesConnectivity conn images := by
  refine ⟨?_, ?_, ?_⟩
  · rw [imagesConnectivity, List.map_map]
    refine List.map_congr_left fun a _ => ?_
    rcases a with ⟨g, _ | c⟩ <;> rfl
  · intro i g c h
    rw [imagesConnectivity, List.getElem?_map, h]
    cases c <;> rfl
  · rw [imagesConnectivity, imagesConnectivity, List.map_map]
    refine List.map_congr_left fun a _ => ?_
    rcases a with ⟨g, _ | c⟩ <;> rfl

/-! ## C178: graphs -/

variable {n : ℕ}

theorem edge_iff {C : Type} (ase : G → Option C → NL n) (number : Fin n → ℤ) (o : Obj G (NL n)) (cutoffs : Option C)
    (i j : Fin n) : (aseToNetworkx ase number o cutoffs).edge i j = true ↔
      j ∈ ((o.store.getD fun _ => none) "neighborlist").getD (ase o.geometry cutoffs) i ∨
      i ∈ ((o.store.getD fun _ => none) "neighborlist").getD (ase o.geometry cutoffs) j := by
  unfold aseToNetworkx
  rw [Bool.or_eq_true, decide_eq_true_eq, decide_eq_true_eq]

theorem adjacency_off (g : Graph n) (i j : Fin n) (h : i ≠ j) : adjacency g i j = if g.edge i j then 1 else 0 := by
  simp [adjacency, h]

/-- C178: graph, adjacency matrix and neighbour list.  The list recovered from the adjacency matrix of the graph of a
structure has, for each atom, in ascending order and once, the other atoms that it lists or that list it. -/
theorem C178_round_trip {C : Type} (ase : G → Option C → NL n) (number : Fin n → ℤ) (o : Obj G (NL n)) (cutoffs : Option C)
    (nl : NL n) (hnl : nl = ((o.store.getD fun _ => none) "neighborlist").getD (ase o.geometry cutoffs)) :
    ∃ r, matrixToNl (adjacency (aseToNetworkx ase number o cutoffs)) = .ok r ∧
      ∀ i, (r i).Pairwise (· < ·) ∧ ∀ j, j ∈ r i ↔ i ≠ j ∧ (j ∈ nl i ∨ i ∈ nl j) := by
  subst hnl
  refine ⟨fun i => (List.finRange n).filter fun j =>
    (if i = j then 0 else adjacency (aseToNetworkx ase number o cutoffs) i j) = 1, ?_, ?_⟩
  · simp only [matrixToNl]
    rw [if_pos]
    intro i j
    by_cases h : i = j
    · rw [if_pos h, if_pos h.symm]
    · rw [if_neg h, if_neg (Ne.symm h)]
      rw [adjacency_off _ _ _ h, adjacency_off _ _ _ (Ne.symm h)]
      refine if_congr ?_ rfl rfl
      rw [edge_iff, edge_iff, or_comm]
  · intro i
    refine ⟨(List.pairwise_lt_finRange n).filter _, fun j => ?_⟩
    rw [List.mem_filter, decide_eq_true_eq]
    by_cases h : i = j
    · simp [h]
    · rw [if_neg h, adjacency_off _ _ _ h, ← edge_iff ase number o cutoffs]
      simp [h]

/-- C178: for a neighbour list as `ase_neighborlist` makes it for a molecule (ascending, symmetric, no atom its own
neighbour), the round trip returns the list itself. -/
theorem C178_identity {C : Type} (ase : G → Option C → NL n) (number : Fin n → ℤ) (o : Obj G (NL n)) (cutoffs : Option C)
    (nl : NL n) (hnl : nl = ((o.store.getD fun _ => none) "neighborlist").getD (ase o.geometry cutoffs))
    (hp : ∀ i, (nl i).Pairwise (· < ·)) (hs : ∀ i j, j ∈ nl i → i ∈ nl j) (hi : ∀ i, i ∉ nl i) :
    matrixToNl (adjacency (aseToNetworkx ase number o cutoffs)) = .ok nl := by
  obtain ⟨r, h1, h2⟩ := C178_round_trip ase number o cutoffs nl hnl
  rw [h1]
  congr 1
  funext i
  have hm : ∀ j, j ∈ r i ↔ j ∈ nl i := by
    intro j
    rw [(h2 i).2]
    constructor
    · rintro ⟨_, h | h⟩
      · exact h
      · exact hs j i h
    · intro h
      refine ⟨?_, Or.inl h⟩
      rintro rfl
      exact hi i h
  refine List.Perm.eq_of_pairwise (le := (· < ·)) (fun a b _ _ h1 h2 => absurd h2 h1.asymm) (h2 i).1 (hp i) ?_
  exact (List.perm_ext_iff_of_nodup ((h2 i).1.imp ne_of_lt) ((hp i).imp ne_of_lt)).2 hm

/-- Water. -/
example : (∀ i, (![[1], [0, 2], [1]] i : List (Fin 3)).Pairwise (· < ·)) ∧
    (∀ i j, j ∈ (![[1], [0, 2], [1]] i : List (Fin 3)) → i ∈ (![[1], [0, 2], [1]] j : List (Fin 3))) ∧
    ∀ i, i ∉ (![[1], [0, 2], [1]] i : List (Fin 3)) := by decide

/-- C178: the atomic numbers are read off the diagonal of the adjacency matrix, unless an atom is its own neighbour
(through the periodic boundary), when the number is one too large. -/
theorem C178_diagonal_violated {C : Type} (ase : G → Option C → NL n) (number : Fin n → ℤ) (o : Obj G (NL n))
    (cutoffs : Option C) (nl : NL n)
    (hnl : nl = ((o.store.getD fun _ => none) "neighborlist").getD (ase o.geometry cutoffs)) (i : Fin n) :
    (i ∉ nl i → adjacency (aseToNetworkx ase number o cutoffs) i i = number i) ∧
    (i ∈ nl i → adjacency (aseToNetworkx ase number o cutoffs) i i = number i + 1) := by
  subst hnl
  constructor
  · intro h; simp [adjacency, aseToNetworkx, h]
  · intro h; simp [adjacency, aseToNetworkx, h, Int.add_comm]

/-- C178 fails for cutoffs when a neighbour list is stored: they are ignored. -/
theorem C178_cutoffs_violated {C : Type} (ase : G → Option C → NL n) (number : Fin n → ℤ) (o : Obj G (NL n)) (nl : NL n)
    (hs : (o.store.getD fun _ => none) "neighborlist" = some nl) (c c' : Option C) :
    aseToNetworkx ase number o c = aseToNetworkx ase number o c' := by
  simp [aseToNetworkx, hs]

/-- C178 fails for connectivity matrices that count bonds (as `ase_connectivity` gives them for small cells): a pair with
two bonds is not in the neighbour list. -/
theorem C178_multiple_violated (m : Fin n → Fin n → ℤ) (i j : Fin n) (h : m i j ≠ 1) (r : NL n)
    (hr : matrixToNl m = .ok r) : j ∉ r i := by
  simp only [matrixToNl] at hr
  split at hr
  · cases hr
    rw [List.mem_filter, decide_eq_true_eq]
    rintro ⟨_, h2⟩
    split at h2
    · cases h2
    · exact h h2
  · cases hr

/-- Two atoms with two bonds. -/
example : (matrixToNl (fun i j : Fin 2 => if i = j then 0 else 2)).toOption.isSome = true := by decide

/-- C178: a matrix that is not symmetric off the diagonal is refused, and only such a matrix. -/
theorem C178_refused (m : Fin n → Fin n → ℤ) : matrixToNl m = .error .assertion ↔ ∃ i j, i ≠ j ∧ m i j ≠ m j i := by
  simp only [matrixToNl]
  constructor
  · intro h
    split at h
    · cases h
    · rename_i hn
      push Not at hn
      obtain ⟨i, j, hij⟩ := hn
      refine ⟨i, j, ?_, ?_⟩
      · rintro rfl; exact hij rfl
      · intro he
        by_cases h1 : i = j
        · subst h1; exact hij rfl
        · rw [if_neg h1, if_neg (Ne.symm h1)] at hij; exact hij he
  · rintro ⟨i, j, h1, h2⟩
    rw [if_neg]
    intro hall
    have := hall i j
    rw [if_neg h1, if_neg (Ne.symm h1)] at this
    exact h2 this

end CatLearn.Api
