import Verif.Model.Particle
import Verif.Lemmas.Py
import Verif.Lemmas.MapM
import Verif.Props.Fingerprints
import Mathlib.Tactic.FieldSimp
import Mathlib.Tactic.Linarith
import Mathlib.Tactic.FinCases

/-!
# Properties of the nanoparticle fingerprints, atomic pairs and default sets
-/

namespace CatLearn.Props

open CatLearn CatLearn.Particle

variable {n : ℕ}

/-! ## Lists of pairs -/

theorem product_getElem? {α β : Type} (l : List α) (m : List β) (i j : ℕ) (hj : j < m.length) :
    (l ×ˢ m)[i * m.length + j]? = (l[i]?).bind fun a => (m[j]?).map fun b => (a, b) := by
  induction l generalizing i with
  | nil => simp
  | cons a l ih =>
    rw [List.product_cons]
    cases i with
    | zero =>
      rw [List.getElem?_append_left (by simpa using hj)]
      simp
    | succ i =>
      rw [List.getElem?_append_right (by simp; nlinarith)]
      have : (i + 1) * m.length + j - (m.map fun b => (a, b)).length = i * m.length + j := by
        simp only [List.length_map]
        have : (i + 1) * m.length = i * m.length + m.length := by ring
        omega
      rw [this, ih]
      simp

private theorem count_pairs {γ : Type} [DecidableEq γ] [BEq γ] [LawfulBEq γ] (nb : Fin n → List (Fin n)) (hn : ∀ i, (nb i).Nodup)
    (g : Fin n → Fin n → γ) (c : γ) :
    ((List.finRange n).map fun i => (nb i).map (g i)).flatten.count c =
      (Finset.univ.filter fun p : Fin n × Fin n => p.2 ∈ nb p.1 ∧ g p.1 p.2 = c).card := by
  rw [List.count_flatten, List.map_map, ← List.ofFn_eq_map, List.sum_ofFn, Finset.card_filter, ← Finset.univ_product_univ,
    Finset.sum_product]
  apply Finset.sum_congr rfl
  intro i _
  simp only [Function.comp_apply]
  rw [List.count_eq_countP, List.countP_map, List.countP_eq_length_filter, ← Finset.card_filter,
    ← List.toFinset_card_of_nodup ((hn i).filter _)]
  congr 1
  ext j
  simp

private theorem lookup_ok (types : List ℕ) (z : ℕ) (h : z ∈ types) : lookup types z = .ok (types.idxOf z) := by
  rw [lookup, if_pos h]

private theorem idx_eq (types : List ℕ) (ht : types.Nodup) (z r t : ℕ) (hz : z ∈ types) (hr : types[r]? = some t) :
    types.idxOf z = r ↔ z = t := by
  obtain ⟨hlt, he⟩ := List.getElem?_eq_some_iff.1 hr
  constructor
  · rintro rfl; rw [List.getElem_idxOf] at he; exact he
  · rintro rfl; rw [← he]; exact ht.idxOf_getElem r hlt

private theorem nn_nodup (dm : Fin n → Fin n → Rat) (d : Rat) (i : Fin n) : (nnNeighbors dm d i).Nodup :=
  (List.nodup_finRange n).filter _

private theorem mem_nn (dm : Fin n → Fin n → Rat) (d : Rat) (i j : Fin n) : j ∈ nnNeighbors dm d i ↔ dm i j < d := by
  simp [nnNeighbors]

private theorem nnVec_eq (types : List ℕ) (z : Fin n → ℕ) (dm : Fin n → Fin n → Rat) (d : Rat) (hz : ∀ i, z i ∈ types) :
    nnVec types z dm d = .ok ((List.range types.length ×ˢ List.range types.length).map fun rc =>
      if (List.ofFn z).count (types.getD rc.1 0) = 0 then 0 else
        ((Finset.univ.filter fun p : Fin n × Fin n => dm p.1 p.2 < d ∧
          (types.idxOf (z p.1), types.idxOf (z p.2)) = rc).card : Rat) /
            ((List.ofFn z).count (types.getD rc.1 0) : Rat)) := by
  have h1 : (List.finRange n).mapM (fun i => nnPairs types z dm d i) =
      .ok ((List.finRange n).map fun i => (nnNeighbors dm d i).map fun j => (types.idxOf (z i), types.idxOf (z j))) := by
    apply MapM.mapM_ok_map
    intro i _
    have h2 : (nnNeighbors dm d i).mapM (fun j => lookup types (z j)) =
        .ok ((nnNeighbors dm d i).map fun j => types.idxOf (z j)) := by
      apply MapM.mapM_ok_map
      intro j _
      exact lookup_ok _ _ (hz j)
    simp only [nnPairs, lookup_ok _ _ (hz i), h2, List.map_map]
    rfl
  simp only [nnVec, h1]
  congr 1
  apply List.map_congr_left
  intro rc _
  have h3 := count_pairs (nnNeighbors dm d) (nn_nodup dm d) (fun i j => (types.idxOf (z i), types.idxOf (z j))) rc
  rw [h3]
  simp only [mem_nn]

/-! ## C169: nearest neighbours -/

/-- C169 (partial: every atom counts as its own neighbour, see below).  For different types that contain all elements of
the structure the vector has one entry per name, and the entry at row `r`, column `s` times the number of atoms of the
row's element is the number of ordered pairs of different atoms of the two elements closer than `nndist`, plus, on the
diagonal, the number of atoms of the element. -/
theorem C169_entries_partial (types : List ℕ) (ht : types.Nodup) (z : Fin n → ℕ) (hz : ∀ i, z i ∈ types)
    (dm : Fin n → Fin n → Rat) (d : Rat) (h0 : ∀ i, dm i i = 0) (hd : 0 < d) :
    ∃ v, nnVec types z dm d = .ok v ∧ v.length = (nnNames types).length ∧
      ∀ (r s a b : ℕ), types[r]? = some a → types[s]? = some b →
        (nnNames types)[r * types.length + s]? = some (toString a ++ "_" ++ toString b ++ "_nnmat") ∧
        ∃ x, v[r * types.length + s]? = some x ∧ x * ((List.ofFn z).count a : Rat) =
          ((Finset.univ.filter fun p : Fin n × Fin n => p.1 ≠ p.2 ∧ z p.1 = a ∧ z p.2 = b ∧ dm p.1 p.2 < d).card : Rat) +
            (if a = b then ((List.ofFn z).count a : Rat) else 0) := by
  refine ⟨_, nnVec_eq types z dm d hz, by simp [nnNames, List.length_product], ?_⟩
  intro r s a b hr hs
  obtain ⟨hr', _⟩ := List.getElem?_eq_some_iff.1 hr
  obtain ⟨hs', _⟩ := List.getElem?_eq_some_iff.1 hs
  constructor
  · rw [nnNames, List.getElem?_map, product_getElem? _ _ _ _ hs', hr, hs]
    rfl
  have hp : (List.range types.length ×ˢ List.range types.length)[r * types.length + s]? = some (r, s) := by
    have := product_getElem? (List.range types.length) (List.range types.length) r s (by simpa using hs')
    rw [List.length_range] at this
    rw [this, List.getElem?_range hr', List.getElem?_range hs']
    rfl
  have hg : types.getD r 0 = a := by rw [List.getD_eq_getElem?_getD, hr]; rfl
  have hc : (List.ofFn z).count a = (Finset.univ.filter fun i => z i = a).card := by
    rw [List.count_eq_countP, List.ofFn_eq_map, List.countP_map, List.countP_eq_length_filter,
      ← List.toFinset_card_of_nodup ((List.nodup_finRange n).filter _)]
    congr 1
    ext i
    simp
  refine ⟨_, by rw [List.getElem?_map, hp]; rfl, ?_⟩
  simp only [hg]
  have hset : (Finset.univ.filter fun p : Fin n × Fin n => dm p.1 p.2 < d ∧
      (types.idxOf (z p.1), types.idxOf (z p.2)) = (r, s)) =
      (Finset.univ.filter fun p : Fin n × Fin n => p.1 ≠ p.2 ∧ z p.1 = a ∧ z p.2 = b ∧ dm p.1 p.2 < d) ∪
      (Finset.univ.filter fun p : Fin n × Fin n => p.1 = p.2 ∧ z p.1 = a ∧ z p.2 = b) := by
    ext ⟨i, j⟩
    simp only [Finset.mem_filter, Finset.mem_univ, true_and, Finset.mem_union, Prod.mk.injEq,
      idx_eq types ht (z i) r a (hz i) hr, idx_eq types ht (z j) s b (hz j) hs]
    by_cases hij : i = j
    · subst hij; simp [h0, hd]
    · simp only [hij, ne_eq, not_false_eq_true, true_and, false_and, or_false]
      tauto
  have hdis : Disjoint
      (Finset.univ.filter fun p : Fin n × Fin n => p.1 ≠ p.2 ∧ z p.1 = a ∧ z p.2 = b ∧ dm p.1 p.2 < d)
      (Finset.univ.filter fun p : Fin n × Fin n => p.1 = p.2 ∧ z p.1 = a ∧ z p.2 = b) := by
    rw [Finset.disjoint_left]
    intro p h1 h2
    simp only [Finset.mem_filter, Finset.mem_univ, true_and] at h1 h2
    exact h1.1 h2.1
  have hdiag : (Finset.univ.filter fun p : Fin n × Fin n => p.1 = p.2 ∧ z p.1 = a ∧ z p.2 = b).card =
      if a = b then (List.ofFn z).count a else 0 := by
    split
    · rename_i hab
      subst hab
      rw [hc]
      refine Finset.card_bij' (fun p _ => p.1) (fun i _ => (i, i)) ?_ ?_ ?_ ?_
      · intro p h
        exact Finset.mem_filter.2 ⟨Finset.mem_univ _, (Finset.mem_filter.1 h).2.2.1⟩
      · intro i h
        have h' := (Finset.mem_filter.1 h).2
        exact Finset.mem_filter.2 ⟨Finset.mem_univ _, rfl, h', h'⟩
      · intro p h
        have h' := (Finset.mem_filter.1 h).2.1
        exact Prod.ext rfl h'
      · intro i _; rfl
    · rename_i hab
      rw [Finset.card_eq_zero, Finset.filter_eq_empty_iff]
      rintro ⟨i, j⟩ _ ⟨h1, h2, h3⟩
      simp only at h1 h2 h3
      subst h1
      exact hab (h2.symm.trans h3)
  rw [hset, Finset.card_union_of_disjoint hdis, hdiag]
  by_cases hca : (List.ofFn z).count a = 0
  · rw [if_pos hca]
    have : (Finset.univ.filter fun p : Fin n × Fin n => p.1 ≠ p.2 ∧ z p.1 = a ∧ z p.2 = b ∧ dm p.1 p.2 < d).card = 0 := by
      rw [Finset.card_eq_zero, Finset.filter_eq_empty_iff]
      rintro ⟨i, j⟩ _ ⟨_, h2, _⟩
      rw [hc, Finset.card_eq_zero, Finset.filter_eq_empty_iff] at hca
      exact hca (Finset.mem_univ i) h2
    rw [this, hca]; simp
  · rw [if_neg hca, div_mul_cancel₀ _ (by exact_mod_cast hca)]
    push_cast
    split <;> simp

/-- C169 is violated: in a structure without any two atoms within `nndist` of each other every element present still has
one nearest neighbour of its own kind. -/
theorem C169_own_neighbour_violated (types : List ℕ) (ht : types.Nodup) (z : Fin n → ℕ) (hz : ∀ i, z i ∈ types)
    (dm : Fin n → Fin n → Rat) (d : Rat) (h0 : ∀ i, dm i i = 0) (hd : 0 < d) (hfar : ∀ i j, i ≠ j → d ≤ dm i j)
    (i : Fin n) (r : ℕ) (hr : types[r]? = some (z i)) :
    ∃ v, nnVec types z dm d = .ok v ∧ v[r * types.length + r]? = some 1 := by
  obtain ⟨v, hv, _, hx⟩ := C169_entries_partial types ht z hz dm d h0 hd
  obtain ⟨_, x, hx1, hx2⟩ := hx r r (z i) (z i) hr hr
  have hne : ((List.ofFn z).count (z i) : Rat) ≠ 0 := by
    have : 0 < (List.ofFn z).count (z i) := List.count_pos_iff.2 (by simp [List.mem_ofFn])
    exact_mod_cast this.ne'
  have he : (Finset.univ.filter fun p : Fin n × Fin n => p.1 ≠ p.2 ∧ z p.1 = z i ∧ z p.2 = z i ∧ dm p.1 p.2 < d).card = 0 := by
    rw [Finset.card_eq_zero, Finset.filter_eq_empty_iff]
    rintro ⟨a, b⟩ _ ⟨h1, _, _, h4⟩
    exact absurd h4 (not_lt.2 (hfar a b h1))
  rw [he] at hx2
  simp only [if_true, Nat.cast_zero, zero_add] at hx2
  have : x = 1 := by
    have := mul_right_cancel₀ hne (hx2.trans (one_mul _).symm)
    exact this
  exact ⟨v, hv, by rw [hx1, this]⟩

/-- C169: an element outside `atom_types` raises IndexError. -/
theorem C169_unknown_element (types : List ℕ) (z : Fin n → ℕ) (dm : Fin n → Fin n → Rat) (d : Rat) (i : Fin n)
    (hi : z i ∉ types) : nnVec types z dm d = .error .index := by
  have hl : ∀ x e, lookup types x = .error e → e = .index := by
    intro x e h
    simp only [lookup] at h
    split at h
    · cases h
    · cases h; rfl
  have hp : ∀ k e, nnPairs types z dm d k = .error e → e = .index := by
    intro k e h
    simp only [nnPairs] at h
    split at h
    · rename_i h'; cases h; exact hl _ _ h'
    · split at h
      · rename_i h'
        cases h
        obtain ⟨j, _, hj⟩ := MapM.mapM_error_exists _ _ _ h'
        exact hl _ _ hj
      · cases h
  have hi' : nnPairs types z dm d i = .error .index := by simp [nnPairs, lookup, hi]
  obtain ⟨e, he⟩ := MapM.mapM_error_of_mem (fun i => nnPairs types z dm d i) (List.finRange n)
    ⟨i, List.mem_finRange i, _, hi'⟩
  obtain ⟨k, _, hk⟩ := MapM.mapM_error_exists _ _ _ he
  rw [nnVec, he, hp k e hk]

/-- C169: so `atom_types`, once set by the first structure, makes every later structure with another element fail; a
generator that has seen a copper particle cannot describe a gold particle. -/
theorem C169_first_structure_violated {m : ℕ} (z : Fin n → ℕ) (dm : Fin n → Fin n → Rat) (d : Rat) (z' : Fin m → ℕ)
    (dm' : Fin m → Fin m → Rat) (d' : Rat) (j : Fin m) (hj : ∀ i, z i ≠ z' j) :
    let s := (nearestneighbour none z dm d).1
    (nearestneighbour s z' dm' d').2 = .error .index ∧ (nearestneighbour none z' dm' d').2 ≠ .error .index := by
  have hmem : ∀ {k : ℕ} (y : Fin k → ℕ) (t : ℕ), t ∈ elements y ↔ ∃ i, y i = t := by
    intro k y t
    rw [elements, (sortAsc_perm id _).mem_iff, List.mem_dedup, List.mem_ofFn]
  constructor
  · simp only [nearestneighbour, Option.getD_some, Option.getD_none]
    apply C169_unknown_element _ _ _ _ j
    rw [hmem]
    rintro ⟨i, hi⟩
    exact hj i hi
  · simp only [nearestneighbour, Option.getD_none]
    rw [nnVec_eq _ _ _ _ fun i => (hmem z' _).2 ⟨i, rfl⟩]
    simp

/-- C169: the order of the atoms does not matter. -/
theorem C169_order_of_atoms (types : List ℕ) (z : Fin n → ℕ) (hz : ∀ i, z i ∈ types) (dm : Fin n → Fin n → Rat)
    (d : Rat) (σ : Equiv.Perm (Fin n)) :
    nnVec types (fun i => z (σ i)) (fun i j => dm (σ i) (σ j)) d = nnVec types z dm d := by
  rw [nnVec_eq _ _ _ _ hz, nnVec_eq _ _ _ _ fun i => hz (σ i)]
  congr 1
  apply List.map_congr_left
  intro rc _
  have h1 : (List.ofFn fun i => z (σ i)).count (types.getD rc.1 0) = (List.ofFn z).count (types.getD rc.1 0) :=
    (Fpr.ofFn_perm z σ).count_eq _
  have h2 : (Finset.univ.filter fun p : Fin n × Fin n => dm (σ p.1) (σ p.2) < d ∧
      (types.idxOf (z (σ p.1)), types.idxOf (z (σ p.2))) = rc).card =
      (Finset.univ.filter fun p : Fin n × Fin n => dm p.1 p.2 < d ∧
        (types.idxOf (z p.1), types.idxOf (z p.2)) = rc).card := by
    apply Finset.card_bij' (fun p _ => (σ p.1, σ p.2)) (fun p _ => (σ.symm p.1, σ.symm p.2)) <;> simp
  rw [h1, h2]

/-- A carbon monoxide molecule. -/
def coDist : Fin 2 → Fin 2 → Rat := ![![0, 6 / 5], ![6 / 5, 0]]

example : nnVec [6, 8] ![6, 8] coDist (7 / 5) = .ok [1, 1, 1, 1] ∧ (∀ i, coDist i i = 0) ∧
    nnNames [6, 8] = ["6_6_nnmat", "6_8_nnmat", "8_6_nnmat", "8_8_nnmat"] := by decide +kernel

/-! ## C170: counting bonds -/

/-- The atoms within the bonding range of atom `i`. -/
def bonded (dm : Fin n → Fin n → Rat) (d : Rat) (i : Fin n) : Finset (Fin n) :=
  Finset.univ.filter fun j => 1 / 10 < dm i j ∧ dm i j < d

private theorem bc_nodup (dm : Fin n → Fin n → Rat) (d : Rat) (i : Fin n) : (bcNeighbors dm d i).Nodup :=
  (List.nodup_finRange n).filter _

private theorem mem_bc (dm : Fin n → Fin n → Rat) (d : Rat) (i j : Fin n) : j ∈ bcNeighbors dm d i ↔ j ∈ bonded dm d i := by
  simp [bcNeighbors, bonded]

private theorem bc_length (dm : Fin n → Fin n → Rat) (d : Rat) (i : Fin n) :
    (bcNeighbors dm d i).length = (bonded dm d i).card := by
  rw [← List.toFinset_card_of_nodup (bc_nodup dm d i)]
  congr 1
  ext j
  simp [mem_bc]

private theorem mem_elements (z : Fin n → ℕ) (t : ℕ) : t ∈ elements z ↔ ∃ i, z i = t := by
  rw [elements, (sortAsc_perm id _).mem_iff, List.mem_dedup, List.mem_ofFn]

/-- C170 (partial: atoms with more than twelve neighbours are left out, see below).  If every atom with one to twelve
neighbours has fewer than `max_bonds` of them, as with the default value 13, there is one number per coordination number
and ordered pair of elements of the structure: the number of ordered pairs of bonded atoms of these elements, the first
of them with this coordination number. -/
theorem C170_entries_partial (maxBonds : ℕ) (z : Fin n → ℕ) (dm : Fin n → Fin n → Rat) (d : Rat)
    (hb : ∀ i, (bonded dm d i).card ≤ 12 → (bonded dm d i).card ≠ 0 → (bonded dm d i).card < maxBonds) :
    ∃ v, bondCount maxBonds z dm d = .ok v ∧ v.length = maxBonds * (elements z).length * (elements z).length ∧
      ∀ (c r s a b : ℕ), c < maxBonds → (elements z)[r]? = some a → (elements z)[s]? = some b →
        v[(c * (elements z).length + r) * (elements z).length + s]? =
          some (Finset.univ.filter fun p : Fin n × Fin n => p.2 ∈ bonded dm d p.1 ∧ (bonded dm d p.1).card = c ∧ c ≤ 12 ∧
            z p.1 = a ∧ z p.2 = b).card := by
  have h1 : (List.finRange n).mapM (fun i => bcEntries maxBonds z dm d i) =
      .ok ((List.finRange n).map fun i => (if 12 < (bonded dm d i).card then [] else bcNeighbors dm d i).map fun j =>
        (((bonded dm d i).card, z i), z j)) := by
    apply MapM.mapM_ok_map
    intro i _
    simp only [bcEntries, bc_length]
    split
    · simp
    · rename_i h12
      rw [if_neg]
      rintro ⟨hne, hle⟩
      have : (bonded dm d i).card ≠ 0 := by
        rw [← bc_length]; exact fun h => hne (List.length_eq_zero_iff.1 h)
      have := hb i (by omega) this
      omega
  refine ⟨_, by rw [bondCount, h1], ?_, ?_⟩
  · simp [List.length_product]
  · intro c r s a b hc hr hs
    obtain ⟨hr', _⟩ := List.getElem?_eq_some_iff.1 hr
    obtain ⟨hs', _⟩ := List.getElem?_eq_some_iff.1 hs
    rw [List.getElem?_map, product_getElem? _ _ _ _ hs', product_getElem? _ _ _ _ hr', List.getElem?_range hc, hr, hs]
    simp only [Option.bind_some, Option.map_some, Option.some.injEq]
    rw [count_pairs _ _ (fun i j => (((bonded dm d i).card, z i), z j))]
    · congr 1
      ext ⟨i, j⟩
      simp only [Finset.mem_filter, Finset.mem_univ, true_and, Prod.mk.injEq]
      by_cases h12 : 12 < (bonded dm d i).card
      · simp only [if_pos h12, List.not_mem_nil, false_and, false_iff]
        omega
      · simp only [if_neg h12, mem_bc]
        constructor
        · rintro ⟨h1, ⟨h2, h3⟩, h4⟩
          exact ⟨h1, h2, by omega, h3, h4⟩
        · rintro ⟨h1, h2, _, h3, h4⟩
          exact ⟨h1, ⟨h2, h3⟩, h4⟩
    · intro i
      split
      · exact List.nodup_nil
      · exact bc_nodup dm d i

/-- C170 is violated: `max_bonds` is said to be the highest number of bonds counted, but an atom with `max_bonds` (at
most twelve) neighbours raises IndexError: twelve, the documented default, fails for the atoms of a close-packed
bulk. -/
theorem C170_max_bonds_violated (maxBonds : ℕ) (z : Fin n → ℕ) (dm : Fin n → Fin n → Rat) (d : Rat) (i : Fin n)
    (hi : (bonded dm d i).card = maxBonds) (h0 : 0 < maxBonds) (h12 : maxBonds ≤ 12) :
    bondCount maxBonds z dm d = .error .index := by
  have hi' : bcEntries maxBonds z dm d i = .error .index := by
    simp only [bcEntries, bc_length, hi]
    rw [if_neg (by omega), if_pos]
    refine ⟨?_, le_refl _⟩
    intro h
    have := bc_length dm d i
    rw [h, hi] at this
    simp at this
    omega
  obtain ⟨e, he⟩ := MapM.mapM_error_of_mem (fun i => bcEntries maxBonds z dm d i) (List.finRange n)
    ⟨i, List.mem_finRange i, _, hi'⟩
  obtain ⟨k, _, hk⟩ := MapM.mapM_error_exists _ _ _ he
  rw [bondCount, he]
  simp only [bcEntries] at hk
  split at hk
  · cases hk
  · split at hk
    · cases hk; rfl
    · cases hk

/-- C170 is violated: if every atom has more than twelve neighbours nothing is counted, for every value of
`max_bonds`. -/
theorem C170_thirteen_violated (maxBonds : ℕ) (z : Fin n → ℕ) (dm : Fin n → Fin n → Rat) (d : Rat)
    (h : ∀ i, 12 < (bonded dm d i).card) :
    ∃ v, bondCount maxBonds z dm d = .ok v ∧ ∀ x ∈ v, x = 0 := by
  have h1 : (List.finRange n).mapM (fun i => bcEntries maxBonds z dm d i) =
      .ok ((List.finRange n).map fun _ => []) := by
    apply MapM.mapM_ok_map
    intro i _
    simp only [bcEntries, bc_length]
    rw [if_pos (h i)]
  refine ⟨_, by rw [bondCount, h1], ?_⟩
  intro x hx
  obtain ⟨c, _, rfl⟩ := List.mem_map.1 hx
  simp

/-- C170 is violated: the vector of a structure with one element and that of a structure with two elements have different
lengths, whatever `atom_types` says; and there are no names. -/
theorem C170_length_violated {m : ℕ} (maxBonds : ℕ) (hm : 0 < maxBonds) (z : Fin n → ℕ) (dm : Fin n → Fin n → Rat) (d : Rat)
    (z' : Fin m → ℕ) (dm' : Fin m → Fin m → Rat) (d' : Rat) (v v' : List ℕ) (hv : bondCount maxBonds z dm d = .ok v)
    (hv' : bondCount maxBonds z' dm' d' = .ok v')
    (hlen : (Finset.univ.image z).card ≠ (Finset.univ.image z').card) :
    v.length ≠ v'.length ∧ bondCountNames = .error .attribute := by
  have hel : ∀ {k : ℕ} (y : Fin k → ℕ), (elements y).length = (Finset.univ.image y).card := by
    intro k y
    rw [elements, (sortAsc_perm id _).length_eq, ← List.toFinset_card_of_nodup (List.nodup_dedup _)]
    congr 1
    ext t
    simp [List.mem_ofFn]
  have hl : ∀ {k : ℕ} (y : Fin k → ℕ) (e : Fin k → Fin k → Rat) (d : Rat) (w : List ℕ), bondCount maxBonds y e d = .ok w →
      w.length = maxBonds * (Finset.univ.image y).card * (Finset.univ.image y).card := by
    intro k y e d w hw
    simp only [bondCount] at hw
    split at hw
    · cases hw
    · cases hw
      simp [List.length_product, hel]
  refine ⟨?_, rfl⟩
  rw [hl _ _ _ _ hv, hl _ _ _ _ hv']
  intro he
  rw [mul_assoc, mul_assoc] at he
  have := Nat.eq_of_mul_eq_mul_left hm he
  exact hlen (Nat.mul_self_inj.1 this)

example : bondCount 13 ![6, 8] coDist (7 / 5) = .ok ([0, 0, 0, 0] ++ [0, 1, 1, 0] ++ List.replicate 44 0) ∧
    bondCount 1 ![6, 8] coDist (7 / 5) = .error .index ∧ (bonded coDist (7 / 5) 0).card = 1 := by decide +kernel

/-- C170, `distribution_vec`: computing the fingerprint changes the structure it is given.  The cell is replaced by a cube
(so periodic neighbours are lost for all later fingerprints), the positions are shifted; the distances within the
structure are kept. -/
theorem C170_distribution_changes_structure_violated (size : Rat) (g : Geom n) :
    (distributionEffect size g).cell = (fun _ => size) ∧
    ((∃ k, g.cell k ≠ size) → distributionEffect size g ≠ g) ∧
    ∀ (i j : Fin n) (k : Fin 3), (distributionEffect size g).pos i k - (distributionEffect size g).pos j k =
      g.pos i k - g.pos j k := by
  refine ⟨rfl, ?_, ?_⟩
  · rintro ⟨k, hk⟩ h
    exact hk (by rw [← h]; rfl)
  · intro i j k
    simp only [distributionEffect]
    ring

/-! ## C171: default sets -/

/-- C171 (partial): a data type that is not a key raises ValueError; the lists of the other keys are returned in their order
if the generator has all of their functions. -/
theorem C171_default_sets_partial (methods bulk ads chalc : List String) :
    (∀ t, t ∉ ["bulk", "fragment", "adsorbates", "chalcogenides"] →
      defaultFingerprinters methods bulk ads chalc t = .error .value) ∧
    ((∀ m ∈ bulk, m ∈ methods) → defaultFingerprinters methods bulk ads chalc "bulk" = .ok bulk) ∧
    ((∀ m ∈ ads, m ∈ methods) → defaultFingerprinters methods bulk ads chalc "adsorbates" = .ok ads) ∧
    ((∀ m ∈ chalc, m ∈ methods) → defaultFingerprinters methods bulk ads chalc "chalcogenides" = .ok chalc) := by
  have key : ∀ l : List String, (∀ m ∈ l, m ∈ methods) →
      l.mapM (fun m => if m ∈ methods then .ok m else (.error .attribute : Except PyErr String)) = .ok l := by
    intro l hl
    rw [MapM.mapM_ok_map _ id l fun m hm => by rw [if_pos (hl m hm)]; rfl, List.map_id]
  refine ⟨?_, fun h => ?_, fun h => ?_, fun h => ?_⟩
  · intro t ht
    simp only [List.mem_cons, List.not_mem_nil, or_false, not_or] at ht
    have : defaultSet bulk ads chalc t = none := by
      unfold defaultSet
      split <;> simp_all
    rw [defaultFingerprinters, this]
  · simp only [defaultFingerprinters, defaultSet]; exact key _ h
  · simp only [defaultFingerprinters, defaultSet]; exact key _ h
  · simp only [defaultFingerprinters, defaultSet]; exact key _ h

/-- C171 is violated: a comma is missing in the default list for molecules, so the default set for fragments can never be
obtained from a generator, which has no function called `bag_elementsbag_edges`. -/
theorem C171_fragment_violated (methods bulk ads chalc : List String) (h : "bag_elementsbag_edges" ∉ methods) :
    defaultFingerprinters methods bulk ads chalc "fragment" = .error .attribute := by
  simp only [defaultFingerprinters, defaultSet]
  obtain ⟨e, he⟩ := MapM.mapM_error_of_mem
    (fun m => if m ∈ methods then .ok m else (.error .attribute : Except PyErr String))
    (defaultMolecule ++ defaultParticle) ⟨"bag_elementsbag_edges", by decide, .attribute, if_neg h⟩
  obtain ⟨a, _, ha⟩ := MapM.mapM_error_exists _ _ _ he
  rw [he]
  split at ha
  · cases ha
  · cases ha; rfl

example : defaultFingerprinters ["bulk_average", "bulk_std"] ["bulk_average"] [] [] "bulk" = .ok ["bulk_average"] := by
  decide +kernel

/-! ## C172: pairs of atoms -/

private theorem product_getElem_fin {k : ℕ} (i j : Fin k) :
    (List.finRange k ×ˢ List.finRange k)[i.val * k + j.val]? = some (i, j) := by
  have := product_getElem? (List.finRange k) (List.finRange k) i j (by simp)
  rw [List.length_finRange] at this
  rw [this]
  simp

/-- C172: the matrix has one row per structure and ordered pair of its atoms, structure by structure, in row-major order;
the row holds their distance, how many of the two atoms are of each type, and their atomic numbers. -/
theorem C172_rows (types : Option (List ℕ)) (before after : List Pairs) (s : Pairs) :
    ∃ rows, featurizePairs types (before ++ s :: after) = .ok rows ∧
      rows.length = ((before ++ s :: after).map fun t => t.n ^ 2).sum ∧
      ∀ i j : Fin s.n, rows[(before.map fun t => t.n ^ 2).sum + (i.val * s.n + j.val)]? =
        some (s.dist i j :: ((types.getD (allTypes (before ++ s :: after))).map fun t =>
          (([s.z i, s.z j].count t : ℕ) : Rat)) ++ [(s.z i : Rat), (s.z j : Rat)]) := by
  have hlen : ∀ (ty : List ℕ) (l : List Pairs), (l.flatMap (pairRows ty)).length = (l.map fun t => t.n ^ 2).sum := by
    intro ty l
    rw [List.length_flatMap]
    congr 1
    apply List.map_congr_left
    intro t _
    simp [pairRows, List.length_product, sq]
  refine ⟨_, by rw [featurizePairs, if_neg (by simp)], hlen _ _, ?_⟩
  intro i j
  generalize types.getD (allTypes (before ++ s :: after)) = ty
  rw [List.flatMap_append, List.flatMap_cons, List.getElem?_append_right (by rw [hlen]; omega), hlen,
    Nat.add_sub_cancel_left, List.getElem?_append_left, pairRows, List.getElem?_map, product_getElem_fin]
  · simp only [Option.map_some, pairRow]
    congr 3
    apply List.map_congr_left
    intro t _
    rw [List.count_cons, List.count_cons, List.count_nil]
    push_cast
    by_cases h1 : s.z i = t <;> by_cases h2 : s.z j = t <;> simp [h1, h2]
  · simp only [pairRows, List.length_map, List.length_product, List.length_finRange]
    have hi := i.2
    have hj := j.2
    calc i.val * s.n + j.val < i.val * s.n + s.n := by omega
      _ = (i.val + 1) * s.n := by ring
      _ ≤ s.n * s.n := Nat.mul_le_mul_right _ hi

/-- C172: with the types taken from the data the occurrences in a row add up to two; an element missing from a given list
of types is left out without notice. -/
theorem C172_occurrences (types : List ℕ) (ht : types.Nodup) (a b : ℕ) :
    (types.map fun t => [a, b].count t).sum = (if a ∈ types then 1 else 0) + (if b ∈ types then 1 else 0) := by
  have h1 : ∀ x : ℕ, (types.map fun t => if x = t then 1 else 0).sum = if x ∈ types then 1 else 0 := by
    intro x
    have : (types.map fun t => if x = t then 1 else 0) = types.map fun t => [x].count t := by
      apply List.map_congr_left
      intro t _
      by_cases h : x = t <;> simp [h, List.count_cons]
    rw [← List.sum_toFinset _ ht]
    simp
  have h2 : (types.map fun t => [a, b].count t) = types.map fun t => (if a = t then 1 else 0) + (if b = t then 1 else 0) := by
    apply List.map_congr_left
    intro t _
    rw [List.count_cons, List.count_cons, List.count_nil]
    by_cases h1 : a = t <;> by_cases h2 : b = t <;> simp [h1, h2]
  rw [h2, List.sum_map_add, h1, h1]

/-- C172: the types taken from the data are the elements of all structures, ascending, so the sum is always two. -/
theorem C172_types (l : List Pairs) :
    (allTypes l).Pairwise (· < ·) ∧ ∀ t, t ∈ allTypes l ↔ ∃ s ∈ l, ∃ i, s.z i = t := by
  constructor
  · have h1 := sortAsc_pairwise id (l.flatMap fun s => List.ofFn s.z).dedup
    have h2 : (allTypes l).Nodup := (sortAsc_perm id _).nodup_iff.2 (List.nodup_dedup _)
    have : (allTypes l).Pairwise fun a b => a ≤ b ∧ a ≠ b := h1.and h2
    exact this.imp fun h => lt_of_le_of_ne h.1 h.2
  · intro t
    rw [allTypes, (sortAsc_perm id _).mem_iff, List.mem_dedup, List.mem_flatMap]
    simp [List.mem_ofFn]

/-- C172: an empty list of structures raises ValueError. -/
theorem C172_empty (types : Option (List ℕ)) : featurizePairs types [] = .error .value := rfl

example : featurizePairs none [⟨2, ![6, 8], coDist⟩] =
    .ok [[0, 2, 0, 6, 6], [6 / 5, 1, 1, 6, 8], [6 / 5, 1, 1, 8, 6], [0, 0, 2, 8, 8]] := by decide +kernel

end CatLearn.Props
