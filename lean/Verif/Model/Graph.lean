import Verif.Model.Neighbors

/-!
# Neighbour sums

`catlearn/fingerprint/graph.py`.  NaN is `none`; single precision of the property matrix is not modelled.  The shells
come from `catlearn_neighborlist` (`Model/Neighbors.lean`).
-/

namespace CatLearn.Graph

open CatLearn CatLearn.Nb

variable {n : ℕ}

/-- Sum of numbers of which some may be NaN. -/
noncomputable def osum (l : List (Option ℝ)) : Option ℝ :=
  if l.any Option.isNone then none else some (l.filterMap id).sum

/-- Product of numbers that may be NaN; zero times NaN is NaN. -/
noncomputable def omul : Option ℝ → Option ℝ → Option ℝ
  | some x, some y => some (x * y)
  | _, _ => none

/-- `np.max(connection_matrix)`, L169; the diagonal is zero, so the maximum is not negative. -/
noncomputable def maxEntry (c : Mat n ℝ) : ℝ :=
  ((List.finRange n ×ˢ List.finRange n).map fun p => c p.1 p.2).foldl max 0

open Classical in
/-- L169-171: the maximum over the entry; infinity becomes 0, zero over zero stays NaN. -/
noncomputable def weight (c : Mat n ℝ) (i j : Fin n) : Option ℝ :=
  if c i j = 0 then (if maxEntry c = 0 then none else some 0) else some (maxEntry c / c i j)

/-- The padded array `con`, L173-174. -/
noncomputable def con (c : Mat n ℝ) (r m : ℕ) : Option ℝ :=
  if h : r < n ∧ m < n then weight c ⟨r, h.1⟩ ⟨m, h.2⟩ else some 0

/-- `_prop2matrix`, L193-205: the values of the atoms on the diagonal; a missing value (`None`) becomes NaN. -/
noncomputable def pro (p : ℕ → Option ℝ) (z : Fin n → ℕ) (m k : ℕ) : Option ℝ :=
  if h : m < n ∧ m = k then p (z ⟨m, h.1⟩) else some 0

/-- Row `r` of `np.dot(con, pro)`, L77, summed, L81. -/
noncomputable def rowSum (atomLen : ℕ) (c : Mat n ℝ) (p : ℕ → Option ℝ) (z : Fin n → ℕ) (r : ℕ) : Option ℝ :=
  osum ((List.range atomLen).map fun k => osum ((List.range atomLen).map fun m => omul (con c r m) (pro p z m k)))

/-- `np.sort(x)[::-1]`: NaN first, then descending. -/
noncomputable def sortNan (l : List (Option ℝ)) : List (Option ℝ) :=
  l.filter Option.isNone ++ (sortDesc id (l.filterMap id)).map some

/-- One block of `neighbor_sum_vec`, L76-81. -/
noncomputable def sumBlock (atomLen : ℕ) (c : Mat n ℝ) (p : ℕ → Option ℝ) (z : Fin n → ℕ) : List (Option ℝ) :=
  sortNan ((List.range atomLen).map (rowSum atomLen c p z))

/-- One block of `neighbor_mean_vec`, L109-114: `np.mean` over the `atom_len` columns. -/
noncomputable def meanBlock (atomLen : ℕ) (c : Mat n ℝ) (p : ℕ → Option ℝ) (z : Fin n → ℕ) : List (Option ℝ) :=
  sortNan ((List.range atomLen).map fun r => (rowSum atomLen c p z r).map (· / atomLen))

/-- `neighbor_sum_vec` (`mean = false`), L54-83, and `neighbor_mean_vec`, L85-116.  `params` is `element_parameters`
made a list, L134-139; `element` is the table of element data, `none` for an element that is not in the table; `shell`
is the outcome of `catlearn_neighborlist`.  No structure at all (the call that asks for names) is an AttributeError of
`None`.  The maximum of no entries is a ValueError; a structure larger than `atom_len` does not fit into `con` (a single
atom is broadcast). -/
noncomputable def vec (mean : Bool) (atomLen : ℕ) (params : Option (List String))
    (element : ℕ → Option (String → Option ℝ)) :
    Option (Σ n : ℕ, (Fin n → ℕ) × Except PyErr (Mat n ℝ)) → Except PyErr (List (Option ℝ))
  | data =>
    match params with
    | none => .error .assertion
    | some ps =>
      match data with
      | none => .error .attribute
      | some ⟨n, z, shell⟩ =>
        match shell with
        | .error e => .error e
        | .ok c =>
          if n = 0 then .error .value
          else if ¬ (n ≤ atomLen ∨ n = 1) then .error .value
          else if ps ≠ [] ∧ ∃ i, (element (z i)).isNone then .error .key
          else .ok (ps.flatMap fun ep =>
            let p := fun e => (element e).bind fun f => f ep
            if mean then meanBlock atomLen c p z else sumBlock atomLen c p z)

end CatLearn.Graph
