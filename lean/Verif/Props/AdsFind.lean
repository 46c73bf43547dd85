import Verif.Model.AdsFind
import Verif.Props.Slab
import Mathlib.Tactic.Linarith
import Mathlib.Tactic.NormNum

/-!
C200-C203: finding the adsorbate by height, layer, element or by comparison with the clean slab, and slabs that
reconstruct.
-/

namespace CatLearn.AdsFind

open CatLearn CatLearn.Slab

/-! ### The highest values of a list -/

theorem lastK_mem {α : Type} (k : ℕ) (l : List α) (x : α) (h : x ∈ lastK k l) : x ∈ l := by
  unfold lastK at h
  split at h
  · exact h
  · exact List.mem_of_mem_drop h

theorem lastK_sublist {α : Type} (k : ℕ) (l : List α) : (lastK k l).Sublist l := by
  unfold lastK
  split
  · exact List.Sublist.refl _
  · exact List.drop_sublist _ _

theorem lastK_length {α : Type} (k : ℕ) (l : List α) (hk : k ≠ 0) (h : k ≤ l.length) : (lastK k l).length = k := by
  unfold lastK
  rw [if_neg hk, List.length_drop]
  omega

/-- Everything outside of the last `k` entries of a sorted list is not above them. -/
theorem lastK_above (f : ℤ → ℚ) (k : ℕ) (hk : k ≠ 0) (l : List ℤ) (hs : l.Pairwise fun i j => f i ≤ f j) (i j : ℤ)
    (hi : i ∈ lastK k l) (hj : j ∈ l) (hjn : j ∉ lastK k l) : f j ≤ f i := by
  unfold lastK at hi hjn
  rw [if_neg hk] at hi hjn
  rw [← List.take_append_drop (l.length - k) l] at hj hs
  rw [List.mem_append] at hj
  exact (List.pairwise_append.1 hs).2.2 j (hj.resolve_right hjn) i hi

theorem perm_of_subset (a b : List ℤ) (ha : a.Nodup) (hab : ∀ x ∈ a, x ∈ b) (hl : b.length ≤ a.length) : a.Perm b :=
  (List.subperm_of_subset ha hab).perm_of_length_le hl

/-- If the members of `S` lie above everything else, they are the last entries in any order by height. -/
theorem top (s : Sorter) (f : ℤ → ℚ) (l S : List ℤ) (hl : l.Nodup) (hS : S.Nodup) (hsub : ∀ i ∈ S, i ∈ l) (hne : S ≠ [])
    (hsep : ∀ i ∈ S, ∀ j ∈ l, j ∉ S → f j < f i) : (lastK S.length (s.srt f l)).Perm S := by
  have hk : S.length ≠ 0 := by
    intro h; exact hne (List.length_eq_zero_iff.1 h)
  have hlen : S.length ≤ (s.srt f l).length := by
    rw [(s.perm f l).length_eq]
    exact (List.subperm_of_subset hS hsub).length_le
  have hD := lastK_length S.length (s.srt f l) hk hlen
  have hDn : (lastK S.length (s.srt f l)).Nodup := ((s.perm f l).nodup_iff.2 hl).sublist (lastK_sublist _ _)
  by_contra hcon
  have h1 : ¬ ∀ x ∈ lastK S.length (s.srt f l), x ∈ S := fun h => hcon (perm_of_subset _ _ hDn h hD.ge)
  have h2 : ¬ ∀ x ∈ S, x ∈ lastK S.length (s.srt f l) := fun h => hcon (perm_of_subset _ _ hS h hD.le).symm
  push Not at h1 h2
  obtain ⟨j, hj, hjS⟩ := h1
  obtain ⟨i, hi, hiD⟩ := h2
  have := lastK_above f S.length hk _ (s.sorted f l) j i hj ((s.perm f l).mem_iff.2 (hsub i hi)) hiD
  have h3 := hsep i hi j ((s.perm f l).mem_iff.1 (lastK_mem _ _ _ hj)) hjS
  linarith

theorem checked_eq (z comp : List ℕ) (idx : List ℤ) (hi : ∀ i ∈ idx, 0 ≤ i ∧ i < z.length) :
    checked z comp idx = .ok idx ∧ (idx.map fun i => z.getD i.toNat 0).Perm comp ∨
    checked z comp idx = .error .assertion ∧ ¬ (idx.map fun i => z.getD i.toNat 0).Perm comp := by
  simp only [checked, numbersAt_ok z idx hi]
  by_cases h : sortAsc id comp = sortAsc id (idx.map fun i => z.getD i.toNat 0)
  · left; rw [if_pos h]; exact ⟨rfl, ((sortAsc_eq_iff _ _).1 h).symm⟩
  · right; rw [if_neg h]; exact ⟨rfl, fun hp => h ((sortAsc_eq_iff _ _).2 hp.symm)⟩

/-! ### C200: by height -/

theorem zin (s : Sorter) (a : Atoms) (h : ℤ → ℚ) (k : ℕ) : ∀ i ∈ lastK k (s.srt h (indices a.n)), 0 ≤ i ∧ i < a.z.length := by
  intro i hi
  exact (mem_indices _ i).1 ((s.perm h _).mem_iff.1 (lastK_mem _ _ _ hi))

/-- C200: what `z2ads_index` returns are distinct atoms with the composition of the species, none of the other atoms lies
above one of them, and the only error is AssertionError. -/
theorem C200_highest (s : Sorter) (a : Atoms) (h : ℤ → ℚ) (comp : List ℕ) (hc : comp ≠ []) :
    (∀ r, zIndex s a h comp = .ok r → r.Nodup ∧ (∀ i ∈ r, 0 ≤ i ∧ i < a.n) ∧ (r.map a.num).Perm comp ∧
      ∀ i ∈ r, ∀ j : ℤ, 0 ≤ j → j < a.n → j ∉ r → h j ≤ h i) ∧
    (∀ e, zIndex s a h comp = .error e → e = .assertion) := by
  have hk : comp.length ≠ 0 := fun h => hc (List.length_eq_zero_iff.1 h)
  rcases checked_eq a.z comp _ (zin s a h comp.length) with ⟨h1, h2⟩ | ⟨h1, -⟩
  · refine ⟨fun r hr => ?_, fun e he => ?_⟩
    · unfold zIndex at hr
      rw [h1] at hr
      cases hr
      refine ⟨((s.perm h _).nodup_iff.2 (indices_nodup _)).sublist (lastK_sublist _ _), zin s a h _, h2, ?_⟩
      intro i hi j hj0 hjn hj
      exact lastK_above h _ hk _ (s.sorted h _) i j hi ((s.perm h _).mem_iff.2 ((mem_indices _ j).2 ⟨hj0, hjn⟩)) hj
    · unfold zIndex at he
      rw [h1] at he
      cases he
  · refine ⟨fun r hr => ?_, fun e he => ?_⟩
    · unfold zIndex at hr
      rw [h1] at hr
      cases hr
    · unfold zIndex at he
      rw [h1] at he
      cases he
      rfl

/-- C200: if the atoms of the adsorbate lie above all others, `z2ads_index` finds exactly them, however the sorting orders
equal heights. -/
theorem C200_found (s : Sorter) (a : Atoms) (h : ℤ → ℚ) (comp : List ℕ) (hc : comp ≠ []) (S : List ℤ) (hS : S.Nodup)
    (hin : ∀ i ∈ S, 0 ≤ i ∧ i < a.n) (hcomp : (S.map a.num).Perm comp)
    (hsep : ∀ i ∈ S, ∀ j : ℤ, 0 ≤ j → j < a.n → j ∉ S → h j < h i) :
    ∃ r, zIndex s a h comp = .ok r ∧ r.Perm S := by
  have hlen : comp.length = S.length := by rw [← hcomp.length_eq, List.length_map]
  have hne : S ≠ [] := by rintro rfl; exact hc (List.length_eq_zero_iff.1 (by simpa using hlen))
  have htop := top s h (indices a.n) S (indices_nodup _) hS (fun i hi => (mem_indices _ i).2 (hin i hi)) hne
    (fun i hi j hj hn => hsep i hi j ((mem_indices _ j).1 hj).1 ((mem_indices _ j).1 hj).2 hn)
  rw [← hlen] at htop
  refine ⟨_, ?_, htop⟩
  rcases checked_eq a.z comp _ (zin s a h comp.length) with ⟨h1, -⟩ | ⟨-, h2⟩
  · exact h1
  · exact absurd ((htop.map _).trans hcomp) h2

/-- C200 is violated for the empty species: `z[-0:]` is every atom, so a clean slab is refused. -/
theorem C200_empty_violated (s : Sorter) (a : Atoms) (h : ℤ → ℚ) (ha : 0 < a.n) : zIndex s a h [] = .error .assertion := by
  rcases checked_eq a.z [] _ (zin s a h ([] : List ℕ).length) with ⟨-, h1⟩ | ⟨h1, -⟩
  · have := h1.length_eq
    rw [List.length_map, List.length_nil] at this
    have h2 : (lastK ([] : List ℕ).length (s.srt h (indices a.n))).length = a.n := by
      simp [lastK, (s.perm h _).length_eq, indices_length]
    exact absurd (h2.symm.trans this) (by omega)
  · exact h1

/-- A stable sort is one of the orders. -/
def stableSorter : Sorter := ⟨sortAsc, sortAsc_perm, fun f l => sortAsc_pairwise f l⟩

example : zIndex stableSorter { z := [6, 29, 29, 8], tags := [], cm := fun _ _ => 0 }
    (fun i => [3, 0, 0, 4].getD i.toNat 0) [8, 6] = .ok [0, 3] := by decide +kernel

/-! ### C201: by layer and by element -/

/-- C201: `layers2ads_index` returns the atoms in the layers from the stored number on (layers count from 0), in order, if
they have the composition of the species, and raises AssertionError if not (KeyError if no number is stored). -/
theorem C201_layers (a : Atoms) (k : ℤ) (comp : List ℕ) :
    (∀ r, layersIndex a (some k) comp = .ok r ↔ (r.Pairwise (· < ·) ∧ (∀ i, i ∈ r ↔ (0 ≤ i ∧ i < a.n) ∧ k ≤ a.layers i) ∧
      (r.map a.num).Perm comp)) ∧
    (∀ e, layersIndex a (some k) comp = .error e → e = .assertion) ∧ layersIndex a none comp = .error .key := by
  have hmem : ∀ i, i ∈ (indices a.n).filter (fun i => a.layers i > k - 1) ↔ (0 ≤ i ∧ i < a.n) ∧ k ≤ a.layers i := by
    intro i
    rw [List.mem_filter, mem_indices, decide_eq_true_eq]
    constructor
    · rintro ⟨h, h'⟩; exact ⟨h, by omega⟩
    · rintro ⟨h, h'⟩; exact ⟨h, by omega⟩
  have hin : ∀ i ∈ (indices a.n).filter (fun i => a.layers i > k - 1), 0 ≤ i ∧ i < a.z.length :=
    fun i hi => ((hmem i).1 hi).1
  have hsort : ((indices a.n).filter (fun i => a.layers i > k - 1)).Pairwise (· < ·) := (indices_sorted _).filter _
  have huniq : ∀ r : List ℤ, r.Pairwise (· < ·) → (∀ i, i ∈ r ↔ (0 ≤ i ∧ i < a.n) ∧ k ≤ a.layers i) →
      r = (indices a.n).filter (fun i => a.layers i > k - 1) := by
    intro r hr hm
    refine List.Perm.eq_of_pairwise' (r := fun a b : ℤ => a ≤ b) (hr.imp fun h => h.le) (hsort.imp fun h => h.le) ?_
    rw [List.perm_ext_iff_of_nodup (hr.imp fun h => h.ne) (hsort.imp fun h => h.ne)]
    intro i; rw [hm, hmem]
  refine ⟨fun r => ?_, fun e he => ?_, rfl⟩
  · simp only [layersIndex]
    rcases checked_eq a.z comp _ hin with ⟨h1, h2⟩ | ⟨h1, h2⟩
    · rw [h1]
      constructor
      · rintro ⟨⟩; exact ⟨hsort, hmem, h2⟩
      · rintro ⟨hr, hm, -⟩; rw [huniq r hr hm]
    · rw [h1]
      constructor
      · rintro ⟨⟩
      · rintro ⟨hr, hm, hp⟩
        rw [huniq r hr hm] at hp
        exact absurd hp h2
  · simp only [layersIndex] at he
    rcases checked_eq a.z comp _ hin with ⟨h1, h2⟩ | ⟨h1, h2⟩
    · rw [h1] at he; cases he
    · rw [h1] at he; cases he; rfl

example : layersIndex { z := [29, 29, 6, 8], tags := [], cm := fun _ _ => 0, layers := fun i => i } (some 2) [8, 6] =
    .ok [2, 3] := by decide +kernel

/-- C201: `sym2ads_index` returns all atoms of the given elements and no others, in order. -/
theorem C201_symbols (a : Atoms) (syms : List ℕ) :
    (symIndex a syms).Pairwise (· < ·) ∧ ∀ i, i ∈ symIndex a syms ↔ (0 ≤ i ∧ i < a.n) ∧ a.num i ∈ syms := by
  refine ⟨(indices_sorted _).filter _, fun i => ?_⟩
  rw [symIndex, List.mem_filter, mem_indices, decide_eq_true_eq]

/-! ### C202: by comparison with the clean slab -/

/-- The invariant of the loop: only atoms of the adsorbate, and all atoms of an element or none. -/
def Whole (a : Atoms) (S ads : List ℤ) : Prop := ∀ i ∈ ads, i ∈ S ∧ ∀ j ∈ S, a.num j = a.num i → j ∈ ads

/-- The atoms of `S` are indices with the composition `comp`, and the others of an element that the slab has as well are
closer to some reference atom of the same element. -/
structure Adsorbate (a : Atoms) (zr : List ℕ) (dist : ℤ → ℤ → ℚ) (comp : List ℕ) (S : List ℤ) : Prop where
  nodup : S.Nodup
  inside : ∀ i ∈ S, 0 ≤ i ∧ i < a.n
  composition : (S.map a.num).Perm comp
  /-- The reference has the element. -/
  ref : ∀ e ∈ comp, comp.count e ≠ a.z.count e → e ∈ zr
  /-- Every slab atom `j` is closer to a reference atom of its element than any adsorbate atom `i` of this element to any. -/
  sep : ∀ i ∈ S, ∀ j : ℤ, 0 ≤ j → j < a.n → j ∉ S → a.num j = a.num i →
    ∃ k : ℕ, zr[k]? = some (a.num i) ∧ ∀ k' : ℕ, zr[k']? = some (a.num i) → dist j k < dist i k'

variable {a : Atoms} {zr : List ℕ} {dist : ℤ → ℤ → ℚ} {comp : List ℕ} {S : List ℤ}

theorem countP_getD (l : List ℕ) (p : ℕ → Bool) :
    ((indices l.length).filter fun i => p (l.getD i.toNat 0)).length = l.countP p := by
  unfold indices
  rw [← List.countP_eq_length_filter, List.countP_map]
  induction l using List.reverseRecOn with
  | nil => rfl
  | append_singleton l x ih =>
    rw [List.length_append, List.length_singleton, List.range_succ, List.countP_append, List.countP_append, ← ih]
    congr 1
    · apply List.countP_congr
      intro i hi
      have := List.mem_range.1 hi
      simp [List.getElem?_append_left this]
    · simp

/-- As many atoms of an element in the adsorbate as in the formula. -/
theorem count_S (hS : Adsorbate a zr dist comp S) (e : ℕ) : (S.filter fun i => a.num i = e).length = comp.count e := by
  rw [← hS.composition.count_eq e, List.count_eq_countP, List.countP_map, List.countP_eq_length_filter]
  congr 1

theorem num_eq (a : Atoms) (e : ℕ) : ((indices a.n).filter fun i => a.num i = e).length = a.z.count e := by
  rw [List.count_eq_countP]
  exact countP_getD a.z (fun x => decide (x = e)) |>.trans (List.countP_congr (by simp))

/-- All atoms of an exclusive element belong to the adsorbate. -/
theorem exclusive_mem (hS : Adsorbate a zr dist comp S) (i : ℤ) :
    i ∈ exclusive a comp ↔ i ∈ S ∧ comp.count (a.num i) = a.z.count (a.num i) := by
  have key : ∀ e, comp.count e = a.z.count e → ∀ i : ℤ, (0 ≤ i ∧ i < a.n) → a.num i = e → i ∈ S := by
    intro e he i hi hn
    have h1 : (S.filter fun i => a.num i = e).Perm ((indices a.n).filter fun i => a.num i = e) := by
      apply perm_of_subset _ _ (hS.nodup.filter _)
      · intro x hx
        rw [List.mem_filter] at hx ⊢
        exact ⟨(mem_indices _ _).2 (hS.inside x hx.1), hx.2⟩
      · rw [num_eq, count_S hS, he]
    have h2 : i ∈ (indices a.n).filter fun i => a.num i = e := by
      rw [List.mem_filter]; exact ⟨(mem_indices _ _).2 hi, by simpa using hn⟩
    exact (List.mem_filter.1 (h1.mem_iff.2 h2)).1
  unfold exclusive
  rw [List.mem_flatMap]
  constructor
  · rintro ⟨e, he, hi⟩
    split at hi
    · rename_i hc
      rw [List.mem_filter, mem_indices, decide_eq_true_eq] at hi
      obtain ⟨hi, rfl⟩ := hi
      exact ⟨key _ hc i hi rfl, hc⟩
    · simp at hi
  · rintro ⟨hi, hc⟩
    refine ⟨a.num i, hS.composition.mem_iff.1 (List.mem_map.2 ⟨i, hi, rfl⟩), ?_⟩
    rw [if_pos hc, List.mem_filter]
    exact ⟨(mem_indices _ _).2 (hS.inside i hi), by simp⟩

theorem min_lt (l l' : List ℚ) (x : ℚ) (hx : x ∈ l) (h : ∀ y ∈ l', x < y) (hl' : l' ≠ []) :
    (l.min?).getD 0 < (l'.min?).getD 0 := by
  obtain ⟨m, hm⟩ : ∃ m, l.min? = some m := by
    cases h' : l.min? with
    | none => rw [List.min?_eq_none_iff] at h'; subst h'; simp at hx
    | some m => exact ⟨m, rfl⟩
  obtain ⟨m', hm'⟩ : ∃ m, l'.min? = some m := by
    cases h' : l'.min? with
    | none => rw [List.min?_eq_none_iff] at h'; exact absurd h' hl'
    | some m => exact ⟨m, rfl⟩
  rw [hm, hm', Option.getD_some, Option.getD_some]
  rw [List.min?_eq_some_iff] at hm hm'
  exact lt_of_le_of_lt (hm.2 x hx) (h m' hm'.1)

/-- The block of one element. -/
theorem block (s : Sorter) (hS : Adsorbate a zr dist comp S) (e : ℕ) (he : e ∈ comp) (ref : List ℤ)
    (hr : ref = (indices zr.length).filter fun j => zr.getD j.toNat 0 = e) :
    (lastK (comp.count e) (s.srt (fun i => (deviation dist ref i).getD 0) ((indices a.n).filter fun i => a.num i = e))).Perm
      (S.filter fun i => a.num i = e) := by
  have hpos : 0 < comp.count e := List.count_pos_iff.2 he
  rw [← count_S hS e] at hpos ⊢
  apply top s _ _ _ ((indices_nodup _).filter _) (hS.nodup.filter _)
  · intro i hi
    rw [List.mem_filter] at hi ⊢
    exact ⟨(mem_indices _ _).2 (hS.inside i hi.1), hi.2⟩
  · exact List.length_pos_iff.1 hpos
  · intro i hi j hj hn
    rw [List.mem_filter, decide_eq_true_eq] at hi hj
    rw [mem_indices] at hj
    have hjS : j ∉ S := fun h => hn (List.mem_filter.2 ⟨h, by simpa using hj.2⟩)
    obtain ⟨k, hk, hlt⟩ := hS.sep i hi.1 j hj.1.1 hj.1.2 hjS (by rw [hi.2, hj.2])
    rw [hi.2] at hk hlt
    have hmem : ∀ x : ℤ, x ∈ ref ↔ ∃ k : ℕ, x = k ∧ zr[k]? = some e := by
      intro x
      rw [hr, List.mem_filter, mem_indices, decide_eq_true_eq, List.getD_eq_getElem?_getD]
      constructor
      · rintro ⟨⟨h1, h2⟩, h3⟩
        refine ⟨x.toNat, by omega, ?_⟩
        have hlt : x.toNat < zr.length := by omega
        rw [List.getElem?_eq_getElem hlt] at h3 ⊢
        simpa using h3
      · rintro ⟨k, rfl, h⟩
        obtain ⟨h1, -⟩ := List.getElem?_eq_some_iff.1 h
        refine ⟨⟨by omega, by omega⟩, ?_⟩
        simp [h]
    apply min_lt _ _ (dist j k)
    · exact List.mem_map.2 ⟨k, (hmem _).2 ⟨k, rfl, hk⟩, rfl⟩
    · intro y hy
      obtain ⟨x, hx, rfl⟩ := List.mem_map.1 hy
      obtain ⟨k', rfl, hk'⟩ := (hmem x).1 hx
      exact hlt k' hk'
    · intro h
      rw [List.map_eq_nil_iff] at h
      have := (hmem k).2 ⟨k, rfl, hk⟩
      rw [h] at this
      simp at this

theorem loop_spec (s : Sorter) (hS : Adsorbate a zr dist comp S) (es : List ℕ) (hes : ∀ e ∈ es, e ∈ comp) (ads : List ℤ)
    (hex : ∀ i ∈ exclusive a comp, i ∈ ads) (hw : Whole a S ads) :
    ∃ r, positionLoop s a zr dist comp es ads = .ok r ∧ Whole a S r ∧ (∀ i ∈ ads, i ∈ r) ∧
      (∀ e ∈ es, ∀ i ∈ S, a.num i = e → i ∈ r) ∧
      (ads.Nodup → r.Nodup) ∧ ads.Sublist r := by
  induction es generalizing ads with
  | nil => exact ⟨ads, rfl, hw, fun _ h => h, by simp, fun h => h, List.Sublist.refl _⟩
  | cons e es ih =>
    have hes' : ∀ e ∈ es, e ∈ comp := fun x hx => hes x (List.mem_cons_of_mem _ hx)
    simp only [positionLoop]
    split
    · rename_i hin
      obtain ⟨r, h1, h2, h3, h4, h5⟩ := ih hes' ads hex hw
      refine ⟨r, h1, h2, h3, ?_, h5⟩
      intro x hx i hi hn
      rcases List.mem_cons.1 hx with rfl | hx
      · obtain ⟨j, hj, hjn⟩ := List.mem_map.1 hin
        exact h3 i ((hw j hj).2 i hi (by rw [hn, hjn]))
      · exact h4 x hx i hi hn
    · rename_i hin
      set ref := (indices zr.length).filter fun j => decide (zr.getD j.toNat 0 = e) with href
      have hb := block s hS e (hes e (by simp)) ref href
      have hnone : ∀ i ∈ ads, a.num i ≠ e := fun i hi h => hin (List.mem_map.2 ⟨i, hi, h⟩)
      have hcount : comp.count e ≠ a.z.count e := by
        intro hc
        obtain ⟨i, hi, hn⟩ := List.mem_map.1 (hS.composition.mem_iff.2 (hes e (by simp)))
        exact hnone i (hex i ((exclusive_mem hS i).2 ⟨hi, by rw [hn]; exact hc⟩)) hn
      have hrne : ref ≠ [] := by
        obtain ⟨k, hk, hk'⟩ := List.mem_iff_getElem.1 (hS.ref e (hes e (by simp)) hcount)
        apply List.ne_nil_of_mem (a := (k : ℤ))
        rw [href, List.mem_filter, mem_indices]
        exact ⟨⟨by omega, by omega⟩, by simp [List.getElem?_eq_getElem hk, hk']⟩
      rw [if_neg hrne]
      set blk := lastK (comp.count e) (s.srt (fun i => (deviation dist ref i).getD 0)
        ((indices a.n).filter fun i => decide (a.num i = e))) with hblk
      obtain ⟨r, h1, h2, h3, h4, h5, h6⟩ := ih hes' (ads ++ blk) (fun i hi => List.mem_append_left _ (hex i hi)) (by
        intro i hi
        rw [List.mem_append] at hi
        rcases hi with hi | hi
        · exact ⟨(hw i hi).1, fun j hj hn => List.mem_append_left _ ((hw i hi).2 j hj hn)⟩
        · rw [hb.mem_iff, List.mem_filter, decide_eq_true_eq] at hi
          refine ⟨hi.1, fun j hj hn => List.mem_append_right _ ?_⟩
          rw [hb.mem_iff, List.mem_filter, decide_eq_true_eq]
          exact ⟨hj, by rw [hn, hi.2]⟩)
      refine ⟨r, h1, h2, fun i hi => h3 i (List.mem_append_left _ hi), ?_, ?_, (List.sublist_append_left _ _).trans h6⟩
      · intro x hx i hi hn
        rcases List.mem_cons.1 hx with rfl | hx
        · apply h3 i
          rw [List.mem_append, hb.mem_iff, List.mem_filter, decide_eq_true_eq]
          exact Or.inr ⟨hi, hn⟩
        · exact h4 x hx i hi hn
      · intro hnd
        apply h5
        rw [List.nodup_append]
        refine ⟨hnd, hb.nodup_iff.2 (hS.nodup.filter _), ?_⟩
        intro i hi j hj hij
        rw [hb.mem_iff, List.mem_filter, decide_eq_true_eq] at hj
        exact hnone i hi (hij ▸ hj.2)

theorem exclusive_whole (hS : Adsorbate a zr dist comp S) : Whole a S (exclusive a comp) := by
  intro i hi
  rw [exclusive_mem hS] at hi
  refine ⟨hi.1, fun j hj hn => ?_⟩
  rw [exclusive_mem hS]
  exact ⟨hj, by rw [hn]; exact hi.2⟩

/-- C202 (`_partial`: see the next theorem for the repetitions): if the slab atoms are closer to reference atoms of their
element than the adsorbate atoms of this element, `slab_positions2ads_index` returns the atoms of the adsorbate and no
others; each once, if no element that only the adsorbate has occurs twice in the formula. -/
theorem C202_positions_partial (s : Sorter) (hS : Adsorbate a zr dist comp S) :
    ∃ r, positionsIndex s a zr dist comp = .ok r ∧ (∀ i, i ∈ r ↔ i ∈ S) ∧
      ((∀ e, comp.count e = a.z.count e → comp.count e ≤ 1) → r.Perm S) := by
  obtain ⟨r, h1, h2, h3, h4, h5, -⟩ := loop_spec s hS comp (fun _ h => h) _ (fun _ h => h) (exclusive_whole hS)
  have hmem : ∀ i, i ∈ r ↔ i ∈ S := fun i => ⟨fun h => (h2 i h).1, fun h =>
    h4 (a.num i) (hS.composition.mem_iff.1 (List.mem_map.2 ⟨i, h, rfl⟩)) i h rfl⟩
  refine ⟨r, h1, hmem, fun hone => ?_⟩
  have hnd : (exclusive a comp).Nodup := by
    unfold exclusive
    rw [List.nodup_flatMap]
    constructor
    · intro e _
      split
      · exact (indices_nodup _).filter _
      · exact List.nodup_nil
    · have key : ∀ l : List ℕ, (∀ e, comp.count e = a.z.count e → l.count e ≤ 1) →
          l.Pairwise (Function.onFun List.Disjoint fun e =>
            if comp.count e = a.z.count e then (indices a.n).filter fun i => a.num i = e else []) := by
        intro l hl
        induction l with
        | nil => exact List.Pairwise.nil
        | cons x l ih =>
          rw [List.pairwise_cons]
          refine ⟨?_, ih fun e he => le_trans (List.count_le_count_cons ..) (hl e he)⟩
          intro y hy i hi hi'
          dsimp only at hi hi'
          split at hi
          · rename_i hc
            split at hi'
            · rw [List.mem_filter, decide_eq_true_eq] at hi hi'
              have : x = y := by rw [← hi.2, ← hi'.2]
              subst this
              have h1 := hl x hc
              rw [List.count_cons_self] at h1
              have := List.count_pos_iff.2 hy
              omega
            · simp at hi'
          · simp at hi
      exact key comp hone
  exact (List.perm_ext_iff_of_nodup (h5 hnd) hS.nodup).2 hmem

/-- C202 is violated when the adsorbate has several atoms of an element that the slab does not have (two hydrogen atoms of
water on platinum): these atoms are returned more than once, because the comparison that should end the function early
compares indices with symbols. -/
theorem C202_repeated_violated (s : Sorter) (hS : Adsorbate a zr dist comp S) (e : ℕ) (he : comp.count e = a.z.count e)
    (h2 : 2 ≤ comp.count e) : ∃ r, positionsIndex s a zr dist comp = .ok r ∧ ¬ r.Nodup := by
  obtain ⟨r, h1, -, -, -, -, h6⟩ := loop_spec s hS comp (fun _ h => h) _ (fun _ h => h) (exclusive_whole hS)
  refine ⟨r, h1, fun hr => ?_⟩
  have hnd := hr.sublist h6
  obtain ⟨i, hi, hn⟩ := List.mem_map.1 (hS.composition.mem_iff.2 (List.count_pos_iff.1 (show 0 < comp.count e by omega)))
  have hi2 : i ∈ (if comp.count e = a.z.count e then (indices a.n).filter fun i => a.num i = e else []) := by
    rw [if_pos he, List.mem_filter, mem_indices]
    exact ⟨hS.inside i hi, by simpa using hn⟩
  unfold exclusive at hnd
  rw [List.nodup_flatMap] at hnd
  obtain ⟨l1, l2, hl⟩ : ∃ l1 l2, List.Sublist [e, e] comp ∧ l1 = (0 : ℕ) ∧ l2 = (0 : ℕ) := by
    refine ⟨0, 0, ?_, rfl, rfl⟩
    rw [show [e, e] = List.replicate 2 e from rfl, List.replicate_sublist_iff]
    exact h2
  have := (hnd.2).sublist hl.1
  rw [List.pairwise_cons] at this
  exact this.1 e (by simp) hi2 hi2

theorem loop_missing (s : Sorter) (e : ℕ) (he : e ∉ zr) (es : List ℕ) (hes : e ∈ es) (ads : List ℤ) (ha : e ∉ ads.map a.num) :
    positionLoop s a zr dist comp es ads = .error .value := by
  induction es generalizing ads with
  | nil => simp at hes
  | cons x xs ih =>
    unfold positionLoop
    by_cases hx : e = x
    · subst hx
      rw [if_neg ha]
      have : ((indices zr.length).filter fun j => decide (zr.getD j.toNat 0 = e)) = [] := by
        rw [List.filter_eq_nil_iff]
        intro j hj
        have hj := (mem_indices _ _).1 hj
        have hlt : j.toNat < zr.length := by omega
        simp only [decide_eq_true_eq]
        rw [List.getD_eq_getElem?_getD, List.getElem?_eq_getElem hlt, Option.getD_some]
        exact fun h => he (h ▸ List.getElem_mem hlt)
      simp only [this, if_true]
    · have hxs : e ∈ xs := by simpa [hx] using hes
      split
      · exact ih hxs ads ha
      · simp only
        split
        · rfl
        · refine ih hxs _ ?_
          rw [List.map_append, List.mem_append]
          rintro (h | h)
          · exact ha h
          · obtain ⟨i, hi, rfl⟩ := List.mem_map.1 h
            have hi := (s.perm _ _).mem_iff.1 (lastK_mem _ _ _ hi)
            exact hx (by simpa using (List.mem_filter.1 hi).2)

/-- C202: an element that slab and adsorbate share must be in the reference slab: otherwise there is nothing to measure the distance to
and the call raises. -/
theorem C202_missing (s : Sorter) (a : Atoms) (zr : List ℕ) (dist : ℤ → ℤ → ℚ) (comp : List ℕ) (e : ℕ) (he : e ∈ comp)
    (hc : comp.count e ≠ a.z.count e) (hr : e ∉ zr) : positionsIndex s a zr dist comp = .error .value := by
  refine loop_missing s e hr comp he _ ?_
  rw [List.mem_map]
  rintro ⟨i, hi, rfl⟩
  unfold exclusive at hi
  obtain ⟨x, -, hx⟩ := List.mem_flatMap.1 hi
  split at hx
  · rename_i h
    have : a.num i = x := by simpa using (List.mem_filter.1 hx).2
    exact hc (this ▸ h)
  · simp at hx

/-- C202 is violated when the structure does not have the atoms of the species: the check at the end never fails. -/
theorem C202_check_violated (s : Sorter) (a : Atoms) (zr : List ℕ) (dist : ℤ → ℤ → ℚ) (e : ℕ) (ha : a.z.count e = 1) :
    ∃ i, positionsIndex s a (e :: zr) dist [e, e] = .ok [i] := by
  have hown : ((indices a.n).filter fun i => a.num i = e).length = 1 := by rw [num_eq, ha]
  obtain ⟨i, hi⟩ := List.length_eq_one_iff.1 hown
  refine ⟨i, ?_⟩
  have hni : a.num i = e := by
    have : i ∈ (indices a.n).filter fun i => a.num i = e := by rw [hi]; simp
    simpa using (List.mem_filter.1 this).2
  have hex : exclusive a [e, e] = [] := by simp [exclusive, ha]
  have href : (indices (e :: zr).length).filter (fun j => decide ((e :: zr).getD j.toNat 0 = e)) ≠ [] := by
    apply List.ne_nil_of_mem (a := (0 : ℤ))
    rw [List.mem_filter, mem_indices]
    exact ⟨⟨by omega, by simp⟩, by simp⟩
  have hsrt : ∀ f, s.srt f [i] = [i] := fun f => List.perm_singleton.1 (s.perm f [i])
  simp only [positionsIndex, hex, positionLoop, List.map_nil, List.not_mem_nil, if_false, if_neg href, hi, hsrt]
  simp [lastK, hni]

/-- Water and one copper atom of the adsorbate on a copper slab. -/
def wet : Atoms := { z := [29, 29, 1, 1, 8, 29], tags := [], cm := fun _ _ => 0 }

example (s : Sorter) (dist : ℤ → ℤ → ℚ) : positionsIndex s wet [78, 78] dist [1, 1, 8, 29] = .error .value :=
  C202_missing s wet [78, 78] dist [1, 1, 8, 29] 29 (by decide) (by decide) (by decide)

example : Adsorbate wet [29, 29] (fun i _ => if i ≤ 1 then 0 else 1) [8, 1, 1, 29] [2, 3, 4, 5] where
  nodup := by decide
  inside := by decide
  composition := by decide +kernel
  ref := by decide +kernel
  sep := by
    intro i hi j h0 hn hj hnum
    have hn' : j < 6 := hn
    have : j = 0 ∨ j = 1 := by
      have : j = 0 ∨ j = 1 ∨ j = 2 ∨ j = 3 ∨ j = 4 ∨ j = 5 := by omega
      rcases this with h | h | h | h | h | h <;> subst h <;> simp at hj ⊢
    have hi' : i = 2 ∨ i = 3 ∨ i = 4 ∨ i = 5 := by simpa using hi
    rcases this with rfl | rfl <;> rcases hi' with rfl | rfl | rfl | rfl <;> first
      | exact absurd hnum (by decide +kernel)
      | exact ⟨0, by decide +kernel, fun _ _ => by norm_num⟩

example : positionsIndex stableSorter wet [29, 29] (fun i _ => if i ≤ 1 then 0 else 1) [8, 1, 1, 29] =
    .ok [4, 2, 3, 2, 3, 5] := by decide +kernel

/-! ### C203: reconstructed slabs -/

theorem isclose_int (x y : ℤ) (hy : |y| ≤ 90000) : isclose x y = decide (x = y) := by
  unfold isclose
  apply decide_eq_decide.2
  constructor
  · intro h
    by_contra hne
    have h1 : (1 : ℤ) ≤ |x - y| := Int.one_le_abs (sub_ne_zero.2 hne)
    have h2 : (1 : ℚ) ≤ |(x : ℚ) - y| := by exact_mod_cast h1
    have h3 : |(y : ℚ)| ≤ 90000 := by exact_mod_cast hy
    linarith
  · rintro rfl
    have := abs_nonneg (x : ℚ)
    simp
    positivity

/-- C203 (`_partial`: the reference has as many atoms as the slab): for connectivity matrices of integers (up to 90000
bonds) `compare_slab_connectivity` tells whether the bonds between the slab atoms, in the order in which they are listed,
are those of the reference. -/
theorem C203_compare_partial (cm : ℤ → ℤ → ℤ) (slab : List ℤ) (n : ℕ) (ref : ℕ → ℕ → ℤ) (hn : slab.length = n)
    (hb : ∀ i j, |ref i j| ≤ 90000) :
    ∃ b, compareSlab (fun i j => cm i j) slab ⟨n, fun i j => ref i j⟩ = .ok b ∧
      (b = true ↔ ∀ (i j : ℕ) (p q : ℤ), slab[i]? = some p → slab[j]? = some q → cm p q = ref i j) := by
  subst hn
  simp only [compareSlab, allclose, true_or, if_true]
  refine ⟨_, rfl, ?_⟩
  rw [List.all_eq_true]
  simp only [List.all_eq_true, List.mem_range]
  have hval : ∀ i < slab.length, ∀ j < slab.length,
      (if slab.length = 1 then ((ref 0 0 : ℤ) : ℚ) else (ref i j : ℤ)) = (ref i j : ℤ) := by
    intro i hi j hj
    split
    · have h0 : i = 0 := by omega
      have h1 : j = 0 := by omega
      rw [h0, h1]
    · rfl
  constructor
  · intro h i j p q hp hq
    obtain ⟨hi, hp⟩ := List.getElem?_eq_some_iff.1 hp
    obtain ⟨hj, hq⟩ := List.getElem?_eq_some_iff.1 hq
    have h1 := h i hi j hj
    rw [hval i hi j hj, isclose_int _ _ (hb i j), decide_eq_true_eq] at h1
    simpa [List.getD_eq_getElem?_getD, hi, hj, hp, hq] using h1
  · intro h i hi j hj
    rw [hval i hi j hj, isclose_int _ _ (hb i j), decide_eq_true_eq]
    rw [List.getD_eq_getElem?_getD, List.getD_eq_getElem?_getD, List.getElem?_eq_getElem hi, List.getElem?_eq_getElem hj]
    exact h i j _ _ (List.getElem?_eq_getElem hi) (List.getElem?_eq_getElem hj)

theorem checkFrom_spec (ps : List ((ℤ → ℤ → ℚ) × List ℤ × Reference)) (i : ℕ) (l : List ℕ) (h : checkFrom i ps = .ok l) :
    l.Pairwise (· < ·) ∧ ∀ k, k ∈ l ↔ i ≤ k ∧ ∃ p, ps[k - i]? = some p ∧ compareSlab p.1 p.2.1 p.2.2 = .ok false := by
  induction ps generalizing i l with
  | nil => cases h; simp
  | cons p ps ih =>
    simp only [checkFrom] at h
    cases hc : compareSlab p.1 p.2.1 p.2.2 with
    | error e => rw [hc] at h; cases h
    | ok b =>
      rw [hc] at h
      simp only at h
      cases hr : checkFrom (i + 1) ps with
      | error e => rw [hr] at h; cases h
      | ok l' =>
        rw [hr] at h
        obtain ⟨h1, h2⟩ := ih (i + 1) l' hr
        have hstep : ∀ k, k ≠ i → ((i + 1 ≤ k ∧ ∃ q, ps[k - (i + 1)]? = some q ∧ compareSlab q.1 q.2.1 q.2.2 = .ok false) ↔
            (i ≤ k ∧ ∃ q, (p :: ps)[k - i]? = some q ∧ compareSlab q.1 q.2.1 q.2.2 = .ok false)) := by
          intro k hk
          by_cases hle : i + 1 ≤ k
          · have : k - i = (k - (i + 1)) + 1 := by omega
            rw [this, List.getElem?_cons_succ]
            constructor
            · rintro ⟨-, h⟩; exact ⟨by omega, h⟩
            · rintro ⟨-, h⟩; exact ⟨hle, h⟩
          · constructor
            · rintro ⟨h, -⟩; exact absurd h hle
            · rintro ⟨h, -⟩; omega
        cases b with
        | true =>
          cases h
          refine ⟨h1, fun k => ?_⟩
          rw [if_pos rfl]
          by_cases hk : k = i
          · subst hk
            rw [h2]
            constructor
            · rintro ⟨h, -⟩; omega
            · rintro ⟨-, q, hq, hf⟩
              simp at hq
              subst hq
              rw [hc] at hf
              cases hf
          · rw [h2, hstep k hk]
        | false =>
          cases h
          refine ⟨?_, fun k => ?_⟩
          · simp only [Bool.false_eq_true, if_false, List.pairwise_cons]
            exact ⟨fun k hk => by have := ((h2 k).1 hk).1; omega, h1⟩
          · simp only [Bool.false_eq_true, if_false, List.mem_cons]
            by_cases hk : k = i
            · subst hk
              simp [hc]
            · rw [h2, hstep k hk]
              simp [hk]

/-- C203: `check_reconstructions` returns the positions of the pairs whose slabs differ, in ascending order. -/
theorem C203_reconstructions (ps : List ((ℤ → ℤ → ℚ) × List ℤ × Reference)) (l : List ℕ)
    (h : checkReconstructions ps = .ok l) :
    l.Pairwise (· < ·) ∧ ∀ k, k ∈ l ↔ ∃ p, ps[k]? = some p ∧ compareSlab p.1 p.2.1 p.2.2 = .ok false := by
  simpa using checkFrom_spec ps 0 l h

/-- C203 is violated for a reference with another number of atoms: ValueError, and with it no result for any of the
pairs. -/
theorem C203_shape_violated (cm : ℤ → ℤ → ℚ) (slab : List ℤ) (r : Reference) (h1 : slab.length ≠ r.n)
    (h2 : slab.length ≠ 1) (h3 : r.n ≠ 1) (ps qs : List ((ℤ → ℤ → ℚ) × List ℤ × Reference)) :
    compareSlab cm slab r = .error .value ∧ ∃ e, checkReconstructions (ps ++ (cm, slab, r) :: qs) = .error e := by
  have hc : compareSlab cm slab r = .error .value := by simp [compareSlab, allclose, h1, h2, h3]
  refine ⟨hc, ?_⟩
  unfold checkReconstructions
  generalize (0 : ℕ) = i
  induction ps generalizing i with
  | nil => exact ⟨.value, by simp [checkFrom, hc]⟩
  | cons p ps ih =>
    simp only [List.cons_append, checkFrom]
    cases compareSlab p.1 p.2.1 p.2.2 with
    | error e => exact ⟨e, rfl⟩
    | ok b =>
      obtain ⟨e, he⟩ := ih (i + 1)
      simp only [he]
      exact ⟨e, rfl⟩

/-- C203 is violated for a reference of one atom: its single entry is compared with every pair of slab atoms, so that two
atoms without bonds count as the same slab as one atom. -/
theorem C203_single_violated (slab : List ℤ) : compareSlab (fun _ _ => 0) slab ⟨1, fun _ _ => 0⟩ = .ok true := by
  simp [compareSlab, allclose, isclose]

example : compareSlab (fun i j => if i = j then 0 else 1) [0, 1] ⟨2, fun i j => if i = j then 0 else 1⟩ = .ok true ∧
    checkReconstructions [(fun _ _ => 0, [0, 1], ⟨2, fun i j => if i = j then 0 else 1⟩)] = .ok [0] := by
  constructor <;> decide +kernel

end CatLearn.AdsFind
