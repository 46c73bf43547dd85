import Verif.Model.Utilities
import Verif.Lemmas.MapM
import Mathlib.Tactic.Linarith

/-!
# Properties of the conversions of `catlearn/optimize/io.py`
-/

namespace CatLearn.Props

open CatLearn CatLearn.Utilities

private theorem flatten_block {A : Type} (cols : Nat) :
    ∀ (l : List (List A)), (∀ r ∈ l, r.length = cols) → ∀ k (hk : k < l.length),
      (l.flatten.drop (k * cols)).take cols = l[k] := by
  intro l
  induction l with
  | nil => intro _ k hk; simp at hk
  | cons r l ih =>
    intro h k hk
    have hr := h r (by simp)
    cases k with
    | zero => simp [← hr]
    | succ k =>
      have e : (k + 1) * cols = r.length + k * cols := by rw [hr, Nat.succ_mul]; omega
      have e2 : r.length + k * cols - r.length = k * cols := by omega
      rw [List.flatten_cons, e, List.drop_append, List.drop_eq_nil_of_le (by omega), List.nil_append, e2]
      simpa using ih (fun s hs => h s (by simp [hs])) k (by simpa using hk)

private theorem flatten_length {A : Type} (cols : Nat) (l : List (List A)) (h : ∀ r ∈ l, r.length = cols) :
    l.flatten.length = l.length * cols := by
  induction l with
  | nil => simp
  | cons r l ih =>
    rw [List.flatten_cons, List.length_append, h r (by simp), ih fun s hs => h s (by simp [hs]), List.length_cons,
      Nat.succ_mul, Nat.add_comm]

private theorem reshape_flatten {A : Type} (cols : Nat) (l : List (List A)) (h : ∀ r ∈ l, r.length = cols) :
    reshape l.length cols l.flatten = .ok l := by
  rw [reshape, if_pos (flatten_length cols l h)]
  congr 1
  apply List.ext_getElem
  · simp
  · intro k h1 h2
    simp only [List.getElem_map, List.getElem_range]
    exact flatten_block cols l h k h2

private theorem flatten_reshape {A : Type} (cols : Nat) :
    ∀ (rows : Nat) (a : List A), a.length = rows * cols →
      ((List.range rows).map fun k => (a.drop (k * cols)).take cols).flatten = a ∧
      ∀ r ∈ ((List.range rows).map fun k => (a.drop (k * cols)).take cols), r.length = cols := by
  intro rows
  induction rows with
  | zero => intro a h; simp at h; simp [h]
  | succ rows ih =>
    intro a h
    rw [Nat.succ_mul] at h
    obtain ⟨h1, h2⟩ := ih (a.drop cols) (by rw [List.length_drop]; omega)
    have e : ((List.range (rows + 1)).map fun k => (a.drop (k * cols)).take cols) =
        a.take cols :: (List.range rows).map fun k => ((a.drop cols).drop (k * cols)).take cols := by
      rw [List.range_succ_eq_map, List.map_cons, List.map_map]
      congr 1
      · simp
      · apply List.map_congr_left
        intro k _
        simp only [Function.comp, List.drop_drop]
        rw [Nat.succ_mul, Nat.add_comm]
    rw [e]
    constructor
    · rw [List.flatten_cons, h1, List.take_append_drop]
    · intro r hr
      rcases List.mem_cons.mp hr with rfl | hr
      · rw [List.length_take]; omega
      · exact h2 r hr

private theorem flat_flatten {A : Type} (l : List (A × A × A)) : flat l = (l.map fun v => [v.1, v.2.1, v.2.2]).flatten := by
  rw [flat, List.flatMap_def]

private theorem flat_len {A : Type} (l : List (A × A × A)) : (flat l).length = l.length * 3 := by
  rw [flat_flatten, flatten_length 3 _ (by
    intro r hr; obtain ⟨v, _, rfl⟩ := List.mem_map.mp hr; rfl), List.length_map]

/-! ### C156: `ase_to_catlearn` -/

/-- C156 (partial): for two or more images with the same number of atoms, row `k` of the training data, targets and gradients
are the flattened positions, the energy and the negative forces of image `k`; all images are returned in order. -/
theorem C156_data_partial (l : List Image) (n : Nat) (hlen : 2 ≤ l.length)
    (hp : ∀ i ∈ l, i.positions.length = n) (hf : ∀ i ∈ l, i.forces.length = n) :
    ∃ t, aseToCatlearn l = .ok t ∧ t.images = l ∧ l[0]? = some t.first ∧ t.numAtoms = n ∧
      t.train = l.map (fun i => flat i.positions) ∧ t.targets = l.map (fun i => [i.energy]) ∧
      t.gradients = l.map (fun i => (flat i.forces).map (- ·)) ∧ l[1]? = some t.last := by
  have h0 : l[0]? = some (l[0]'(by omega)) := List.getElem?_eq_getElem (by omega)
  have h1 : l[1]? = some (l[1]'(by omega)) := List.getElem?_eq_getElem (by omega)
  have hn : (l[0]'(by omega)).positions.length = n := hp _ (List.getElem_mem _)
  have ht : reshape l.length (n * 3) (l.flatMap fun i => flat i.positions) = .ok (l.map fun i => flat i.positions) := by
    have := reshape_flatten (n * 3) (l.map fun i => flat i.positions) (by
      intro r hr; obtain ⟨i, hi, rfl⟩ := List.mem_map.mp hr; rw [flat_len, hp i hi])
    rwa [List.length_map, ← List.flatMap_def] at this
  have he : reshape l.length 1 (l.map (·.energy)) = .ok (l.map fun i => [i.energy]) := by
    have := reshape_flatten 1 (l.map fun i => [i.energy]) (by simp)
    rw [List.length_map, ← List.flatMap_def] at this
    have e : (l.flatMap fun i => [i.energy]) = l.map (·.energy) := by
      clear this h0 h1 hn ht hp hf hlen
      induction l with
      | nil => rfl
      | cons a l ih => rw [List.flatMap_cons, ih]; rfl
    rwa [e] at this
  have hg : reshape l.length (n * 3) (l.flatMap fun i => (flat i.forces).map (- ·)) =
      .ok (l.map fun i => (flat i.forces).map (- ·)) := by
    have := reshape_flatten (n * 3) (l.map fun i => (flat i.forces).map (- ·)) (by
      intro r hr; obtain ⟨i, hi, rfl⟩ := List.mem_map.mp hr; rw [List.length_map, flat_len, hf i hi])
    rwa [List.length_map, ← List.flatMap_def] at this
  refine ⟨⟨l[0]'(by omega), l[1]'(by omega), l, _, _, _, n⟩, ?_, rfl, h0, rfl, rfl, rfl, rfl, h1⟩
  simp only [aseToCatlearn, h0, hn, ht, he, hg, h1]

/-- C156 is violated: `last_image` is the second image, so with three or more different images it is not the last. -/
theorem C156_last_image_violated (l : List Image) (n : Nat) (hlen : 3 ≤ l.length) (hid : (l.map (·.id)).Nodup)
    (hp : ∀ i ∈ l, i.positions.length = n) (hf : ∀ i ∈ l, i.forces.length = n) :
    ∃ t, aseToCatlearn l = .ok t ∧ l.getLast? ≠ some t.last := by
  obtain ⟨t, h, _, _, _, _, _, _, h1⟩ := C156_data_partial l n (by omega) hp hf
  refine ⟨t, h, ?_⟩
  rw [← h1, List.getLast?_eq_getElem?]
  intro e
  have e' := congrArg (Option.map Image.id) e
  rw [← List.getElem?_map, ← List.getElem?_map] at e'
  have h2 : (l.length - 1) < (l.map (·.id)).length := by rw [List.length_map]; omega
  have h3 : 1 < (l.map (·.id)).length := by rw [List.length_map]; omega
  rw [List.getElem?_eq_getElem h2, List.getElem?_eq_getElem h3, Option.some.injEq] at e'
  have := (List.Nodup.getElem_inj_iff hid).mp e'
  omega

/-- C156 (partial): with exactly two images `last_image` is the last one. -/
theorem C156_last_image_partial (l : List Image) (n : Nat) (hlen : l.length = 2)
    (hp : ∀ i ∈ l, i.positions.length = n) (hf : ∀ i ∈ l, i.forces.length = n) :
    ∃ t, aseToCatlearn l = .ok t ∧ l.getLast? = some t.last := by
  obtain ⟨t, h, _, _, _, _, _, _, h1⟩ := C156_data_partial l n (by omega) hp hf
  exact ⟨t, h, by rw [← h1, List.getLast?_eq_getElem?, hlen]⟩

/-- C156 is violated: a trajectory of a single image cannot be converted. -/
theorem C156_single_image_violated (i : Image) : ∃ e, aseToCatlearn [i] = .error e := by
  simp only [aseToCatlearn, List.getElem?_cons_zero]
  split
  · exact ⟨_, rfl⟩
  · exact ⟨_, rfl⟩
  · exact ⟨_, rfl⟩
  · exact ⟨_, rfl⟩

/-- C156 (partial): different numbers of atoms are refused when their total does not happen to be that of images of the first
size. -/
theorem C156_refused_partial (i : Image) (l : List Image)
    (h : ((i :: l).map fun j => j.positions.length).sum ≠ (l.length + 1) * i.positions.length) :
    aseToCatlearn (i :: l) = .error .value := by
  have hlen : ∀ l : List Image, (l.flatMap fun j => flat j.positions).length = (l.map fun j => j.positions.length).sum * 3 := by
    intro l
    induction l with
    | nil => rfl
    | cons a l ih => rw [List.flatMap_cons, List.length_append, ih, flat_len, List.map_cons, List.sum_cons, Nat.add_mul]
  have hr : reshape (i :: l).length (i.positions.length * 3) ((i :: l).flatMap fun j => flat j.positions) = .error .value := by
    rw [reshape, if_neg]
    rw [hlen, List.length_cons]
    intro e
    apply h
    have : (l.length + 1) * (i.positions.length * 3) = (l.length + 1) * i.positions.length * 3 := by rw [Nat.mul_assoc]
    omega
  simp only [aseToCatlearn, List.getElem?_cons_zero, hr]

/-- Images of two, one and three atoms: the total is that of three images of two atoms. -/
private def uneven : List Image :=
  [⟨0, [(1, 1, 1), (2, 2, 2)], 0, [(0, 0, 0), (0, 0, 0)]⟩, ⟨1, [(3, 3, 3)], 1, [(0, 0, 0)]⟩,
    ⟨2, [(4, 4, 4), (5, 5, 5), (6, 6, 6)], 2, [(0, 0, 0), (0, 0, 0), (0, 0, 0)]⟩]

/-- C156 is violated: otherwise they are accepted silently and rows mix the atoms of different images: the second row here
holds the only atom of the second image and the first atom of the third. -/
theorem C156_misaligned_violated : (aseToCatlearn uneven).toOption.map (·.train) =
    some [[1, 1, 1, 2, 2, 2], [3, 3, 3, 4, 4, 4], [5, 5, 5, 6, 6, 6]] := by decide +kernel

example : (aseToCatlearn [⟨0, [(1, 2, 3)], 5, [(1, 0, 0)]⟩, ⟨1, [(4, 5, 6)], 6, [(0, 1, 0)]⟩,
    ⟨2, [(7, 8, 9)], 4, [(0, 0, 1)]⟩]).toOption.map (fun t => (t.train, t.gradients, t.last.id)) =
    some ([[1, 2, 3], [4, 5, 6], [7, 8, 9]], [[-1, 0, 0], [0, -1, 0], [0, 0, -1]], 1) := by decide +kernel

/-! ### C157: `array_to_ase` and `array_to_atoms` -/

/-- C157. Flattened positions are read back as they were. -/
theorem C157_round_trip (l : List Vec) : arrayToAse (flat l) l.length = .ok l := by
  have := reshape_flatten 3 (l.map fun v => [v.1, v.2.1, v.2.2]) (by
    intro r hr; obtain ⟨v, _, rfl⟩ := List.mem_map.mp hr; rfl)
  rw [List.length_map, ← flat_flatten] at this
  rw [arrayToAse, this]
  simp [List.map_map, Function.comp_def]

/-- C157. An array of `3 n` numbers becomes `n` positions which flatten to the same array; any other length is refused. -/
theorem C157_array_to_ase (a : List Rat) (n : Nat) :
    (a.length = n * 3 → ∃ l, arrayToAse a n = .ok l ∧ l.length = n ∧ flat l = a) ∧
    (a.length ≠ n * 3 → arrayToAse a n = .error .value) := by
  constructor
  · intro h
    obtain ⟨h1, h2⟩ := flatten_reshape 3 n a h
    refine ⟨_, by rw [arrayToAse, reshape, if_pos h], by simp, ?_⟩
    rw [flat_flatten, List.map_map]
    conv_rhs => rw [← h1]
    congr 1
    conv_rhs => rw [← List.map_id ((List.range n).map _)]
    apply List.map_congr_left
    intro r hr
    have := h2 r hr
    match r, this with
    | [x, y, z], _ => rfl
  · intro h; rw [arrayToAse, reshape, if_neg h]

/-- C157. The same without the number of atoms: any array whose length is a multiple of 3. -/
theorem C157_array_to_atoms (a : List Rat) :
    (a.length % 3 = 0 → ∃ l, arrayToAtoms a = .ok l ∧ (∀ r ∈ l, r.length = 3) ∧ l.flatten = a) ∧
    (a.length % 3 ≠ 0 → arrayToAtoms a = .error .value) := by
  constructor
  · intro h
    have h' : a.length = a.length / 3 * 3 := by omega
    obtain ⟨h1, h2⟩ := flatten_reshape 3 (a.length / 3) a h'
    exact ⟨_, by rw [arrayToAtoms, reshape, if_pos h'], h2, h1⟩
  · intro h; rw [arrayToAtoms, reshape, if_neg (by omega)]

example : arrayToAse [1, 2, 3, 4, 5, 6] 2 = .ok [(1, 2, 3), (4, 5, 6)] := by decide +kernel

end CatLearn.Props
