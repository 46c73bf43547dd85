import Verif.Model.ParticleExt
import Verif.Props.Particle

/-!
# Properties of connections, distributions and partial radial distribution functions of particles (C266, C267)
-/

namespace CatLearn.Props

open CatLearn CatLearn.Particle

variable {n : ℕ}

private theorem tally_fold (m : ℕ) (hm : 0 < m) (ls : List ℕ) (acc : List ℕ) (ha : acc.length = m) :
    ls.foldlM (tally m) acc = .ok ((List.range m).map fun k => acc.getD k 0 + (ls.map fun l => min l (m - 1)).count k) := by
  induction ls generalizing acc with
  | nil =>
    simp only [List.foldlM_nil, pure, Except.pure, List.map_nil, List.count_nil, Nat.add_zero]
    congr 1
    apply List.ext_getElem (by simp [ha])
    intro k h1 h2
    simp [List.getD, h1]
  | cons l ls ih =>
    have hstep : tally m acc l = .ok (acc.set (min l (m - 1)) (acc.getD (min l (m - 1)) 0 + 1)) := by
      unfold tally
      by_cases hl : l < m
      · rw [if_pos hl, min_eq_left (by omega)]
      · rw [if_neg hl, if_neg (by omega), min_eq_right (by omega)]
    rw [List.foldlM_cons, hstep]
    simp only [bind, Except.bind]
    rw [ih _ (by simp [ha])]
    congr 1
    apply List.map_congr_left
    intro k hk
    rw [List.mem_range] at hk
    rw [List.map_cons, List.count_cons]
    by_cases h : min l (m - 1) = k
    · subst h
      simp only [List.getD, List.getElem?_set_self (by omega : min l (m - 1) < acc.length), Option.getD_some, beq_self_eq_true, if_true]
      ring
    · simp only [List.getD, List.getElem?_set_ne h]
      have : (min l (m - 1) == k) = false := by simpa using h
      rw [this]
      simp

/-- The bonds of atom `i` between atoms that are not of element `an`. -/
private def others (z : Fin n → ℕ) (near : Fin n → Fin n → Bool) (an : ℕ) (i : Fin n) : Finset (Fin n) :=
  Finset.univ.filter fun j => i ≠ j ∧ z i ≠ an ∧ z j ≠ an ∧ near i j = true

private theorem ase_length (z : Fin n → ℕ) (near : Fin n → Fin n → Bool) (an : ℕ) (i : Fin n) :
    (aseNeighbors z near [an] i).length = (others z near an i).card := by
  unfold aseNeighbors others
  rw [← List.toFinset_card_of_nodup ((List.nodup_finRange n).filter _)]
  congr 1
  ext j
  simp

private theorem connections_eq (m : ℕ) (hm : 0 < m) (z : Fin n → ℕ) (near : Fin n → Fin n → Bool) (an : ℕ) :
    connections m z near [an] =
      .ok ((List.range m).map fun k => (Finset.univ.filter fun i => min (others z near an i).card (m - 1) = k).card) := by
  unfold connections
  rw [tally_fold m hm _ _ (by simp)]
  congr 1
  apply List.map_congr_left
  intro k hk
  rw [List.mem_range] at hk
  have h0 : (List.replicate m 0).getD k 0 = 0 := by simp [List.getD, hk]
  rw [h0, Nat.zero_add, List.map_map, List.count_eq_countP, List.countP_map, List.countP_eq_length_filter,
    ← List.toFinset_card_of_nodup ((List.nodup_finRange n).filter _)]
  congr 1
  ext i
  simp [ase_length]

private theorem connectionsVec_eq (m : ℕ) (hm : 0 < m) (types : Option (List ℕ)) (z : Fin n → ℕ) (near : Fin n → Fin n → Bool) :
    connectionsVec m types z near = (some (types.getD (elements z)), .ok ((types.getD (elements z)).map fun an =>
      (List.range m).map fun k => (Finset.univ.filter fun i => min (others z near an i).card (m - 1) = k).card).flatten) := by
  unfold connectionsVec
  simp only
  rw [MapM.mapM_ok_map _ _ _ fun an _ => connections_eq m hm z near an]
  rfl

/-- C266 (partial: what the blocks contain).  `connections_vec` returns one block of `max_bonds` numbers for every element of `atom_types`, in their order; every block
counts every atom of the structure once.  In the block of element `an` the atoms are counted by the number of their bonds between atoms that are *not* of that element.
Elements outside `atom_types` are accepted, and `atom_types` is set by the first structure if it was missing. -/
theorem C266_blocks_partial (m : ℕ) (hm : 0 < m) (atomTypes : Option (List ℕ)) (z : Fin n → ℕ) (near : Fin n → Fin n → Bool) :
    ∃ (types : List ℕ) (blocks : List (List ℕ)), connectionsVec m atomTypes z near = (some types, .ok blocks.flatten) ∧
      (∀ ts, atomTypes = some ts → types = ts) ∧ (atomTypes = none → types.Pairwise (· < ·) ∧ ∀ e, e ∈ types ↔ ∃ i, z i = e) ∧
      blocks.flatten.length = types.length * m ∧ blocks.length = types.length ∧
      ∀ (t an : ℕ) (b : List ℕ), types[t]? = some an → blocks[t]? = some b → b.length = m ∧ b.sum = n ∧
        ∀ k < m, b[k]? = some (Finset.univ.filter fun i : Fin n =>
          min (Finset.univ.filter fun j : Fin n => i ≠ j ∧ z i ≠ an ∧ z j ≠ an ∧ near i j = true).card (m - 1) = k).card := by
  refine ⟨_, _, connectionsVec_eq m hm atomTypes z near, ?_, ?_, ?_, by simp, ?_⟩
  · rintro ts rfl
    rfl
  · rintro rfl
    refine ⟨?_, fun e => ?_⟩
    · have h1 := sortAsc_pairwise id (List.ofFn z).dedup
      have h2 : (sortAsc id (List.ofFn z).dedup).Nodup := (sortAsc_perm id _).nodup_iff.2 (List.nodup_dedup _)
      exact (h1.and h2).imp fun h => lt_of_le_of_ne h.1 h.2
    · show e ∈ elements z ↔ _
      rw [elements, (sortAsc_perm id _).mem_iff, List.mem_dedup, List.mem_ofFn]
  · simp [List.length_flatten, Function.comp_def]
  · intro t an b ht hb
    rw [List.getElem?_map, ht] at hb
    simp only [Option.map_some, Option.some.injEq] at hb
    subst hb
    refine ⟨by simp, ?_, fun k hk => ?_⟩
    · have := Finset.card_eq_sum_card_fiberwise (s := (Finset.univ : Finset (Fin n))) (t := Finset.range m)
        (f := fun i => min (others z near an i).card (m - 1)) (fun i _ => by simp; omega)
      rw [Finset.card_univ, Fintype.card_fin] at this
      exact this.symm
    · rw [List.getElem?_map, List.getElem?_range hk]
      rfl

/-- C266: the numbering of the atoms does not matter. -/
theorem C266_numbering (m : ℕ) (hm : 0 < m) (types : List ℕ) (z : Fin n → ℕ) (near : Fin n → Fin n → Bool) (σ : Equiv.Perm (Fin n)) :
    connectionsVec m (some types) (fun i => z (σ i)) (fun i j => near (σ i) (σ j)) = connectionsVec m (some types) z near := by
  rw [connectionsVec_eq m hm, connectionsVec_eq m hm]
  simp only [Option.getD_some]
  congr 3
  apply List.map_congr_left
  intro an _
  apply List.map_congr_left
  intro k _
  have ho : ∀ i, (others (fun i => z (σ i)) (fun i j => near (σ i) (σ j)) an i).card = (others z near an (σ i)).card := by
    intro i
    refine Finset.card_bij' (fun j _ => σ j) (fun j _ => σ.symm j) ?_ ?_ (by simp) (by simp)
    · intro j hj
      simpa [others] using hj
    · intro j hj
      simp only [others, Finset.mem_filter, Finset.mem_univ, true_and, Equiv.apply_symm_apply] at hj ⊢
      refine ⟨fun h => hj.1 (by rw [h]; simp), hj.2⟩
  simp only [ho]
  refine Finset.card_bij' (fun i _ => σ i) (fun i _ => σ.symm i) ?_ ?_ (by simp) (by simp)
  · intro i hi; simpa using hi
  · intro i hi; simpa using hi

/-- C266 is violated: the block of an element says nothing about the atoms of that element.  For a particle of one element every atom is counted as having no connection,
whatever its shape, and the histogram of its distances is that of no atom. -/
theorem C266_one_element_violated (m : ℕ) (hm : 0 < m) (e : ℕ) (z : Fin n → ℕ) (hz : ∀ i, z i = e) (near : Fin n → Fin n → Bool) (hist : List (Fin n) → List ℕ) :
    (connectionsVec m (some [e]) z near).2 = .ok (n :: List.replicate (m - 1) 0) ∧ (distributionVec hist (some [e]) z).2 = hist [] := by
  constructor
  · rw [connectionsVec_eq m hm]
    have ho : ∀ i, (others z near e i).card = 0 := by
      intro i
      simp [others, hz]
    simp only [Option.getD_some, List.map_cons, List.map_nil, List.flatten_cons, List.flatten_nil, List.append_nil, ho, Nat.zero_min]
    congr 1
    obtain ⟨m, rfl⟩ := Nat.exists_eq_succ_of_ne_zero hm.ne'
    rw [Nat.succ_eq_add_one, Nat.add_sub_cancel, List.range_succ_eq_map, List.map_cons, List.map_map]
    congr 1
    · simp
    · apply List.ext_getElem (by simp)
      intro k h1 h2
      simp
  · simp [distributionVec, hz]

/-- C266 is violated: bonds of atoms of an element can be changed at will without any effect on the block of this element. -/
theorem C266_block_violated (m : ℕ) (e : ℕ) (z : Fin n → ℕ) (near near' : Fin n → Fin n → Bool)
    (h : ∀ i j, z i ≠ e → z j ≠ e → near i j = near' i j) : connections m z near [e] = connections m z near' [e] := by
  have : ∀ i, aseNeighbors z near [e] i = aseNeighbors z near' [e] i := by
    intro i
    apply List.filter_congr
    intro j _
    simp only [List.mem_singleton, decide_eq_decide]
    constructor
    · rintro ⟨h1, h2, h3, h4⟩; exact ⟨h1, h2, h3, by rw [← h i j h2 h3]; exact h4⟩
    · rintro ⟨h1, h2, h3, h4⟩; exact ⟨h1, h2, h3, by rw [h i j h2 h3]; exact h4⟩
  simp only [connections, this]

/-- C266 (partial: two elements).  The two blocks are exchanged: from one connection upwards the second one counts the atoms of the first element by their number of
neighbours of the first element, and the other way round; the second histogram is that of the atoms of the first element. -/
theorem C266_two_elements_partial (m : ℕ) (hm : 1 < m) (a b : ℕ) (hab : a ≠ b) (z : Fin n → ℕ) (hz : ∀ i, z i = a ∨ z i = b) (near : Fin n → Fin n → Bool)
    (hist : List (Fin n) → List ℕ) :
    (∃ ba bb : List ℕ, (connectionsVec m (some [a, b]) z near).2 = .ok (ba ++ bb) ∧ ba.length = m ∧ bb.length = m ∧
      ∀ k, 0 < k → k < m →
        bb[k]? = some (Finset.univ.filter fun i : Fin n => z i = a ∧
          min (Finset.univ.filter fun j : Fin n => i ≠ j ∧ z j = a ∧ near i j = true).card (m - 1) = k).card ∧
        ba[k]? = some (Finset.univ.filter fun i : Fin n => z i = b ∧
          min (Finset.univ.filter fun j : Fin n => i ≠ j ∧ z j = b ∧ near i j = true).card (m - 1) = k).card) ∧
    (distributionVec hist (some [a, b]) z).2 = hist ((List.finRange n).filter fun i => z i = b) ++ hist ((List.finRange n).filter fun i => z i = a) := by
  have hother : ∀ i, z i ≠ b ↔ z i = a := fun i => ⟨fun h => (hz i).resolve_right h, fun h => by rw [h]; exact hab⟩
  have hother' : ∀ i, z i ≠ a ↔ z i = b := fun i => ⟨fun h => (hz i).resolve_left h, fun h => by rw [h]; exact hab.symm⟩
  have key : ∀ (x y : ℕ), (∀ i, z i ≠ y ↔ z i = x) → ∀ k, 0 < k → k < m →
      (Finset.univ.filter fun i => min (others z near y i).card (m - 1) = k) =
        Finset.univ.filter fun i : Fin n => z i = x ∧ min (Finset.univ.filter fun j : Fin n => i ≠ j ∧ z j = x ∧ near i j = true).card (m - 1) = k := by
    intro x y hxy k hk hkm
    ext i
    simp only [Finset.mem_filter, Finset.mem_univ, true_and, others, hxy]
    by_cases hi : z i = x
    · simp [hi]
    · simp only [hi, false_and, and_false, Finset.filter_false, Finset.card_empty, Nat.zero_min, iff_false]
      omega
  have heq : (connectionsVec m (some [a, b]) z near).2 = .ok
      (((List.range m).map fun k => (Finset.univ.filter fun i => min (others z near a i).card (m - 1) = k).card) ++
        (List.range m).map fun k => (Finset.univ.filter fun i => min (others z near b i).card (m - 1) = k).card) := by
    rw [connectionsVec_eq m (by omega)]
    simp only [Option.getD_some, List.map_cons, List.map_nil, List.flatten_cons, List.flatten_nil, List.append_nil]
  refine ⟨⟨_, _, heq, by simp, by simp, fun k hk hkm => ⟨?_, ?_⟩⟩, ?_⟩
  · rw [List.getElem?_map, List.getElem?_range hkm, Option.map_some, key a b hother k hk hkm]
  · rw [List.getElem?_map, List.getElem?_range hkm, Option.map_some, key b a hother' k hk hkm]
  · simp only [distributionVec, Option.getD_some, List.flatMap_cons, List.flatMap_nil, List.append_nil, List.mem_singleton, hother, hother']

/-- A bond between two atoms of copper (29) and one atom of gold (79): the block of copper has no bond, the block of gold the one bond of the copper atoms. -/
example : connectionsVec 3 (some [29, 79]) ![29, 29, 79] (fun i j => i ≠ 2 && j ≠ 2) = (some [29, 79], .ok [3, 0, 0, 1, 2, 0]) := by decide +kernel

/-! ### Partial radial distribution functions -/

/-- C267 (partial: one structure and one order of its elements).  `rdf_vec` has `nbin` numbers for every ordered pair of elements of the structure; those of a pair are its
partial radial distribution function. -/
theorem C267_blocks_partial {V : Type} (order : List ℕ) (rdf : ℕ → ℕ → List V) (nbin : ℕ) (hr : ∀ a b, (rdf a b).length = nbin) :
    (rdfVec order rdf).length = order.length ^ 2 * nbin ∧
    ∀ (i j k a b : ℕ), order[i]? = some a → order[j]? = some b → k < nbin → (rdfVec order rdf)[(i * order.length + j) * nbin + k]? = (rdf a b)[k]? := by
  have flat : ∀ (l : List (ℕ × ℕ)) (p k : ℕ), k < nbin →
      (l.flatMap fun c => rdf c.1 c.2)[p * nbin + k]? = (l[p]?).bind fun c => (rdf c.1 c.2)[k]? := by
    intro l
    induction l with
    | nil => intro p k _; simp
    | cons c l ih =>
      intro p k hk
      rw [List.flatMap_cons]
      cases p with
      | zero =>
        rw [Nat.zero_mul, Nat.zero_add, List.getElem?_append_left (by rw [hr]; exact hk)]
        rfl
      | succ p =>
        rw [List.getElem?_append_right (by rw [hr]; nlinarith), hr, show (p + 1) * nbin + k - nbin = p * nbin + k by
          rw [Nat.succ_mul]; omega, ih p k hk]
        rfl
  constructor
  · simp [rdfVec, List.length_flatMap, hr, List.length_product, sq]
  · intro i j k a b hi hj hk
    have hj' : j < order.length := (List.getElem?_eq_some_iff.1 hj).1
    rw [rdfVec, flat _ _ _ hk, product_getElem? _ _ _ _ hj', hi, hj]
    rfl

/-- C267 is violated: the vectors of structures with different numbers of elements have different lengths; there are no names that tell the pairs. -/
theorem C267_lengths_violated {V : Type} (order order' : List ℕ) (rdf rdf' : ℕ → ℕ → List V) (nbin : ℕ) (hn : 0 < nbin)
    (hr : ∀ a b, (rdf a b).length = nbin) (hr' : ∀ a b, (rdf' a b).length = nbin) (h : order.length ≠ order'.length) :
    (rdfVec order rdf).length ≠ (rdfVec order' rdf').length := by
  rw [(C267_blocks_partial order rdf nbin hr).1, (C267_blocks_partial order' rdf' nbin hr').1]
  intro he
  have := Nat.eq_of_mul_eq_mul_right hn he
  exact h (Nat.pow_left_injective (n := 2) (by norm_num) this)

/-- C267 is violated: the same elements in another order of the set give another vector, as soon as the functions of the two elements differ. -/
theorem C267_set_order_violated {V : Type} (a b : ℕ) (rdf : ℕ → ℕ → List V) (nbin : ℕ) (hr : ∀ a b, (rdf a b).length = nbin) (h : rdf a a ≠ rdf b b) :
    [a, b].Perm [b, a] ∧ rdfVec [a, b] rdf ≠ rdfVec [b, a] rdf := by
  refine ⟨List.Perm.swap _ _ _, fun he => ?_⟩
  have h1 : rdfVec [a, b] rdf = rdf a a ++ (rdf a b ++ (rdf b a ++ rdf b b)) := by simp [rdfVec, List.product_cons, SProd.sprod, List.product]
  have h2 : rdfVec [b, a] rdf = rdf b b ++ (rdf b a ++ (rdf a b ++ rdf a a)) := by simp [rdfVec, List.product_cons, SProd.sprod, List.product]
  rw [h1, h2] at he
  exact h (List.append_inj_left he (by rw [hr, hr]))

example : rdfVec [29, 79] (fun a b => [a, b]) = [29, 29, 29, 79, 79, 29, 79, 79] ∧ rdfVec [79, 29] (fun a b => [a, b]) = [79, 79, 79, 29, 29, 79, 29, 29] := by
  decide +kernel

end CatLearn.Props
