import Verif.Model.Hierarchy
import Verif.Spec.Hierarchy
import Verif.Lemmas.Hierarchy
import Mathlib.Data.List.Nodup
import Mathlib.Data.List.Range

/-!
# Properties of the hierarchy cross-validation (C03, C04, C05)
-/

namespace CatLearn.Props

open CatLearn CatLearn.Hierarchy CatLearn.Spec

private theorem two_pow_bound (h m : Nat) (hm : 0 < m) : h / 2 ^ (h / m) < m := by
  have h1 : h / m < 2 ^ (h / m) := Nat.lt_two_pow_self
  rw [Nat.div_lt_iff_lt_mul (by positivity)]
  rw [Nat.div_lt_iff_lt_mul hm] at h1
  rw [Nat.mul_comm]; exact h1

private theorem inv_init {ι : Type} (all : List ι) :
    Inv (((⟨[], fun _ => []⟩ : Split ι).set (1, 1) (all.take (all.length / 2))).set (1, 2)
      (all.drop (all.length / 2))) all 1 0 := by
  constructor
  · simp [Split.set, hierarchyKeys, List.range_succ]
  · simp [Split.set]
  · intro l j hl hj hc; omega
  · intro l j hl hj hc
    have : l = 1 := by omega
    subst this
    have : j = 0 ∨ j = 1 := by omega
    rcases this with rfl | rfl <;> simp [Split.set] <;> omega
  · intro l hl hc
    have : l = 1 := by omega
    subst this
    simp [Split.set]; omega

private theorem splitIndex_core {ι : Type} (shuf : Nat × Nat → List ι → List ι)
    (hs : ∀ k, IsShuffle (shuf k)) (m : Nat) (hm : 0 < m) (all : List ι) (hlen : m ≤ all.length / 2) :
    ∃ d L, outerLoop shuf m (all.length / 2 / m) 1
        (((⟨[], fun _ => []⟩ : Split ι).set (1, 1) (all.take (all.length / 2))).set (1, 2)
      (all.drop (all.length / 2))) = .ok (some d) ∧
      GoodHierarchy d.keys (fun l j => d.val (l, j)) all m L := by
  obtain ⟨d, L, hd, hL, hI, h1, h2⟩ := outerLoop_spec shuf hs m all (all.length / 2 / m) 1 _ le_rfl
    (inv_init all) (by simpa using hlen) (by
      rw [pow_add, pow_one, ← Nat.div_div_eq_div_mul]
      exact two_pow_bound _ _ hm)
  exact ⟨d, L, hd, hI.good hL h1 h2⟩

private theorem good_perm {ι : Type} {keys : List (Nat × Nat)} {f : Nat → Nat → List ι}
    {a b : List ι} {m L : Nat} (h : GoodHierarchy keys f a m L) (p : a.Perm b) :
    GoodHierarchy keys f b m L where
  levels := h.levels
  keys_eq := h.keys_eq
  partition := fun l h1 h2 => (h.partition l h1 h2).trans p
  sizes := by rw [← p.length_eq]; exact h.sizes
  large := h.large
  nested := h.nested
  maximal := by rw [← p.length_eq]; exact h.maximal

private theorem min_lengths {ι : Type} (all : List ι) :
    min (((((⟨[], fun _ => []⟩ : Split ι).set (1, 1) (all.take (all.length / 2))).set (1, 2)
      (all.drop (all.length / 2))).val (1, 1)).length)
      ((((⟨[], fun _ => []⟩ : Split ι).set (1, 1) (all.take (all.length / 2))).set (1, 2)
      (all.drop (all.length / 2))).val (1, 2)).length = all.length / 2 := by
  simp [Split.set]; omega

/-- C03.  Whatever the shuffles do, if half of the data set is not smaller than `min_split ≥ 1`,
`split_index` returns (and writes) a hierarchy over all the given indices: `2^l` subsets on every
level `l = 1 … L`, each level a partition of the indices in parts whose sizes differ by at most one and
are at least `min_split`, each level refining the previous, and `L` as large as possible. -/
theorem C03_split_index {ι : Type} (shuf0 : List ι → List ι) (shuf : Nat × Nat → List ι → List ι)
    (hs0 : IsShuffle shuf0) (hs : ∀ k, IsShuffle (shuf k)) (minSplit : Nat) (hm : 0 < minSplit)
    (allIndex : List ι) (hlen : minSplit ≤ allIndex.length / 2) :
    ∃ d L, splitIndex shuf0 shuf minSplit none allIndex = .ok (some d) ∧
      GoodHierarchy d.keys (fun l j => d.val (l, j)) allIndex minSplit L := by
  have hp := hs0 allIndex
  have hl := hp.length_eq
  obtain ⟨d, L, hd, hG⟩ := splitIndex_core shuf hs minSplit hm (shuf0 allIndex) (by omega)
  refine ⟨d, L, ?_, good_perm hG hp⟩
  have h1 : (shuf0 allIndex).length > minSplit := by omega
  have h2 : minSplit ≠ 0 := by omega
  simp only [splitIndex, bind, Except.bind, pure, Except.pure, h1, not_true_eq_false, ↓reduceIte, h2,
    min_lengths]
  exact hd

/-- C03 with `max_split`: the hierarchy is over exactly `max_split` of the given indices. -/
theorem C03_split_index_max {ι : Type} (shuf0 : List ι → List ι)
    (shuf : Nat × Nat → List ι → List ι) (hs0 : IsShuffle shuf0) (hs : ∀ k, IsShuffle (shuf k))
    (minSplit : Nat) (hm : 0 < minSplit) (maxSplit : Nat) (allIndex : List ι)
    (hmax : maxSplit < allIndex.length) (h2 : 2 * minSplit ≤ maxSplit) :
    ∃ d L used, splitIndex shuf0 shuf minSplit (some maxSplit) allIndex = .ok (some d) ∧
      used.length = maxSplit ∧ used.Subperm allIndex ∧
      GoodHierarchy d.keys (fun l j => d.val (l, j)) used minSplit L := by
  have hp := hs0 allIndex
  have hl := hp.length_eq
  have hul : ((shuf0 allIndex).take maxSplit).length = maxSplit := by simp; omega
  obtain ⟨d, L, hd, hG⟩ := splitIndex_core shuf hs minSplit hm ((shuf0 allIndex).take maxSplit)
    (by omega)
  refine ⟨d, L, _, ?_, hul, (List.take_sublist _ _).subperm.trans hp.subperm, hG⟩
  have h1 : ((shuf0 allIndex).take maxSplit).length > minSplit := by omega
  have h3 : minSplit ≠ 0 := by omega
  have h4 : (shuf0 allIndex).length > maxSplit ∧ maxSplit ≥ 2 * minSplit := by omega
  simp only [splitIndex, bind, Except.bind, pure, Except.pure, h1, not_true_eq_false, ↓reduceIte, h3,
    min_lengths, h4, and_self]
  exact hd

/-- C03, the remaining inputs: with `n/2 < min_split < n` every assertion passes but
`split_index` neither writes nor returns a split. -/
theorem C03_split_index_silent {ι : Type} (shuf0 : List ι → List ι)
    (shuf : Nat × Nat → List ι → List ι) (hs0 : IsShuffle shuf0) (minSplit : Nat)
    (allIndex : List ι) (h1 : allIndex.length / 2 < minSplit) (h2 : minSplit < allIndex.length) :
    splitIndex shuf0 shuf minSplit none allIndex = .ok none := by
  have hl := (hs0 allIndex).length_eq
  have h3 : (shuf0 allIndex).length > minSplit := by omega
  have h4 : minSplit ≠ 0 := by omega
  have h5 : (shuf0 allIndex).length / 2 / minSplit = 0 := Nat.div_eq_of_lt (by omega)
  simp only [splitIndex, bind, Except.bind, pure, Except.pure, h3, not_true_eq_false, ↓reduceIte, h4,
    min_lengths, h5, outerLoop]

/-- C03, refused inputs: at most `min_split` indices. -/
theorem C03_split_index_refused {ι : Type} (shuf0 : List ι → List ι)
    (shuf : Nat × Nat → List ι → List ι) (hs0 : IsShuffle shuf0) (minSplit : Nat)
    (allIndex : List ι) (h : allIndex.length ≤ minSplit) :
    splitIndex shuf0 shuf minSplit none allIndex = .error .assertion := by
  have hl := (hs0 allIndex).length_eq
  have h3 : ¬ (shuf0 allIndex).length > minSplit := by omega
  simp [splitIndex, bind, Except.bind, pure, Except.pure, h3, throw, throwThe,
    MonadExceptOf.throw]

example : IsShuffle (fun l : List Nat => l.reverse) ∧ 0 < 2 ∧ 2 ≤ (List.range 11).length / 2 :=
  ⟨fun l => List.reverse_perm l, by decide, by decide⟩

example : ((splitIndex (fun l => l.reverse) (fun _ l => l) 2 none (List.range 11)).toOption.join.map
    fun d => d.keys.map d.val) = some [[10, 9, 8, 7, 6], [5, 4, 3, 2, 1, 0],
      [10, 9], [8, 7, 6], [5, 4, 3], [2, 1, 0]] := by decide

theorem hierarchyKeys_nodup (L : Nat) : (hierarchyKeys L).Nodup := by
  unfold hierarchyKeys
  rw [List.nodup_flatMap]
  constructor
  · intro l _
    exact List.Nodup.map (fun a b h => by simpa using h) List.nodup_range
  · refine List.Pairwise.imp_of_mem ?_ (List.nodup_range (n := L))
    intro a b _ _ hab x hx hy
    obtain ⟨_, _, rfl⟩ := List.mem_map.mp hx
    obtain ⟨_, _, h⟩ := List.mem_map.mp hy
    simp at h; omega

/-- C04.  On any correct hierarchy over distinct indices, `split_predict` calls the prediction
function exactly once for every ordered pair of different subsets of the same level and for nothing
else, and the train and test subsets of a call never share an index. -/
theorem C04_split_predict {ι : Type} (keys : List (Nat × Nat)) (subset : Nat → Nat → List ι)
    (all : List ι) (m L : Nat) (hG : GoodHierarchy keys subset all m L) (hnd : all.Nodup) :
    (splitPredictPairs keys).Nodup ∧
    (∀ l j l' j', ((l, j), (l', j')) ∈ splitPredictPairs keys ↔
      l = l' ∧ j ≠ j' ∧ 1 ≤ l ∧ l ≤ L ∧ 1 ≤ j ∧ j ≤ 2 ^ l ∧ 1 ≤ j' ∧ j' ≤ 2 ^ l) ∧
    (∀ a b, (a, b) ∈ splitPredictPairs keys →
      List.Disjoint (subset a.1 a.2) (subset b.1 b.2)) := by
  have hk : keys = hierarchyKeys L := hG.keys_eq
  have hknd : keys.Nodup := hk ▸ hierarchyKeys_nodup L
  have hmem : ∀ l j l' j', ((l, j), (l', j')) ∈ splitPredictPairs keys ↔
      l = l' ∧ j ≠ j' ∧ 1 ≤ l ∧ l ≤ L ∧ 1 ≤ j ∧ j ≤ 2 ^ l ∧ 1 ≤ j' ∧ j' ≤ 2 ^ l := by
    intro l j l' j'
    simp only [splitPredictPairs, List.mem_flatMap, List.mem_map, List.mem_filter, List.mem_reverse]
    constructor
    · rintro ⟨i, hi, m', ⟨hm, hc⟩, he⟩
      rw [Prod.mk.injEq] at he
      obtain ⟨rfl, rfl⟩ := he
      rw [hk, mem_hierarchyKeys] at hi hm
      simp at hc
      obtain ⟨rfl, hne⟩ := hc
      exact ⟨rfl, fun h => hne h.symm, hi.1, hi.2.1, hi.2.2.1, hi.2.2.2, hm.2.2.1, hm.2.2.2⟩
    · rintro ⟨rfl, hne, h1, h2, h3, h4, h5, h6⟩
      refine ⟨(l, j), ?_, (l, j'), ⟨?_, ?_⟩, rfl⟩
      · rw [hk, mem_hierarchyKeys]; exact ⟨h1, h2, h3, h4⟩
      · rw [hk, mem_hierarchyKeys]; exact ⟨h1, h2, h5, h6⟩
      · simp; exact fun h => hne h.symm
  refine ⟨?_, hmem, ?_⟩
  · unfold splitPredictPairs
    rw [List.nodup_flatMap]
    constructor
    · intro i _
      exact List.Nodup.map (fun a b h => by simpa using h)
        ((List.nodup_reverse.mpr hknd).filter _)
    · refine List.Pairwise.imp_of_mem ?_ (List.nodup_reverse.mpr hknd)
      intro a b _ _ hab x hx hy
      obtain ⟨_, _, rfl⟩ := List.mem_map.mp hx
      obtain ⟨_, _, h⟩ := List.mem_map.mp hy
      rw [Prod.mk.injEq] at h
      exact hab h.1.symm
  · rintro ⟨l, j⟩ ⟨l', j'⟩ hp
    obtain ⟨rfl, hne, h1, h2, h3, h4, h5, h6⟩ := (hmem _ _ _ _).mp hp
    have hpart := hG.partition l h1 h2
    have hnd' := hpart.nodup_iff.mpr hnd
    rw [List.nodup_flatten] at hnd'
    have hpw := List.pairwise_iff_getElem.mp hnd'.2
    have key : ∀ a b : Nat, 1 ≤ a → a < b → b ≤ 2 ^ l →
        List.Disjoint (subset l a) (subset l b) := by
      intro a b ha hab hb
      have := hpw (a - 1) (b - 1) (by simp; omega) (by simp; omega) (by omega)
      simp only [List.getElem_map, List.getElem_range] at this
      rwa [show a - 1 + 1 = a by omega, show b - 1 + 1 = b by omega] at this
    rcases Nat.lt_or_gt_of_ne hne with h | h
    · exact key j j' h3 h h6
    · exact fun x hx hy => key j' j h5 h h4 hy hx

example : splitPredictPairs [(1, 1), (1, 2)] = [((1, 2), (1, 1)), ((1, 1), (1, 2))] := by decide

/-! ### C05: fetching rows in chunks -/

private theorem getData_keys {ι ρ : Type} [DecidableEq ι] (table : List (ι × ρ)) (ids : List ι)
    (ht : (table.map Prod.fst).Nodup) (hid : ids.Nodup) (hin : ∀ x ∈ ids, x ∈ table.map Prod.fst) :
    ((getData table ids).map Prod.fst).Perm ids := by
  rw [List.perm_ext_iff_of_nodup _ hid]
  · intro a
    simp only [getData, List.mem_map, List.mem_filter, decide_eq_true_eq]
    constructor
    · rintro ⟨r, ⟨_, hr⟩, rfl⟩; exact hr
    · intro ha
      obtain ⟨r, hr, rfl⟩ := List.mem_map.mp (hin a ha)
      exact ⟨r, ⟨hr, ha⟩, rfl⟩
  · exact ht.sublist (List.filter_sublist.map _)

private theorem getData_mem {ι ρ : Type} [DecidableEq ι] (table : List (ι × ρ)) (ids : List ι) :
    ∀ r ∈ getData table ids, r ∈ table := by
  intro r hr; exact (List.mem_filter.mp hr).1

private theorem nonempty_of_perm {ι ρ : Type} (s : List (ι × ρ)) (l : List ι)
    (h : (s.map Prod.fst).Perm l) (hl : 0 < l.length) : s ≠ [] := by
  rintro rfl
  have := h.length_eq
  simp at this; omega

private theorem chunkLoop_ok {ι ρ : Type} [DecidableEq ι] (c : Nat) (hc : 0 < c)
    (table : List (ι × ρ)) (ids : List ι) (ht : (table.map Prod.fst).Nodup) (hid : ids.Nodup)
    (hin : ∀ x ∈ ids, x ∈ table.map Prod.fst) (hdvd : ¬ c ∣ ids.length) :
    ∀ (n i : Nat) (store : List (ι × ρ)), n + i = ids.length / c + 1 → 1 ≤ i →
      i ≤ ids.length / c + 1 →
      (store.map Prod.fst).Perm (ids.take (i * c)) → (∀ r ∈ store, r ∈ table) →
      ∃ rows, chunkLoop c table ids n i store = .ok rows ∧ (rows.map Prod.fst).Perm ids ∧
        ∀ r ∈ rows, r ∈ table := by
  have hmod : 0 < ids.length % c := Nat.pos_of_ne_zero fun h => hdvd (Nat.dvd_of_mod_eq_zero h)
  have hlen : ids.length = c * (ids.length / c) + ids.length % c := (Nat.div_add_mod _ _).symm
  have hmlt := Nat.mod_lt ids.length hc
  intro n
  induction n with
  | zero =>
    intro i store hn _ _ hp hm
    refine ⟨store, rfl, ?_, hm⟩
    rw [List.take_of_length_le] at hp
    · exact hp
    · have : i = ids.length / c + 1 := by omega
      rw [this]
      calc ids.length = c * (ids.length / c) + ids.length % c := hlen
        _ ≤ (ids.length / c + 1) * c := by rw [Nat.add_mul, Nat.mul_comm]; omega
  | succ n ih =>
    intro i store hn hi hi' hp hm
    have hile : i ≤ ids.length / c := by omega
    have hic : i * c < ids.length := by
      have : i * c ≤ ids.length / c * c := Nat.mul_le_mul_right _ hile
      rw [Nat.mul_comm (ids.length / c)] at this
      omega
    have hstore : store ≠ [] := by
      refine nonempty_of_perm _ _ hp ?_
      simp only [List.length_take, Nat.lt_min]
      exact ⟨Nat.mul_pos (by omega) hc, by omega⟩
    -- both branches fetch the ids from `i * c` up to `(i + 1) * c`
    have hmore : (if (ids.drop (i * c)).length < c then getData table (ids.drop (i * c))
        else getData table ((ids.take ((i + 1) * c)).drop (i * c)))
        = getData table ((ids.take ((i + 1) * c)).drop (i * c)) := by
      split
      · rename_i h
        rw [List.take_of_length_le]
        simp at h; rw [Nat.add_mul]; omega
      · rfl
    have hsub : ((ids.take ((i + 1) * c)).drop (i * c)).Sublist ids :=
      (List.drop_sublist _ _).trans (List.take_sublist _ _)
    have hk := getData_keys table ((ids.take ((i + 1) * c)).drop (i * c)) ht (hid.sublist hsub)
      (fun x hx => hin x (hsub.subset hx))
    have hne : getData table ((ids.take ((i + 1) * c)).drop (i * c)) ≠ [] := by
      refine nonempty_of_perm _ _ hk ?_
      simp only [List.length_drop, List.length_take, Nat.add_mul]; omega
    rw [chunkLoop]
    simp only [hmore, hne, hstore, or_self, ↓reduceIte]
    refine ih (i + 1) _ (by omega) (by omega) (by omega) ?_ ?_
    · rw [List.map_append]
      refine (hp.append hk).trans (List.Perm.of_eq ?_)
      conv_rhs => rw [← List.take_append_drop (i * c) (ids.take ((i + 1) * c))]
      rw [List.take_take, Nat.min_eq_left (by rw [Nat.add_mul]; omega)]
    · intro r hr
      rcases List.mem_append.mp hr with h | h
      · exact hm r h
      · exact getData_mem _ _ r h

/-- C05 (partial).  In a table with distinct ids, fetching any list of distinct stored ids returns
exactly the rows with these ids, each once, *except* when the number of ids is a multiple of 999
above 999 (see `C05_fetch_violated`).  The rows come in table order per chunk, not in request
order. -/
theorem C05_fetch_partial {ι ρ : Type} [DecidableEq ι] (table : List (ι × ρ)) (ids : List ι)
    (ht : (table.map Prod.fst).Nodup) (hid : ids.Nodup) (hin : ∀ x ∈ ids, x ∈ table.map Prod.fst)
    (hlen : ids.length ≤ 999 ∨ ¬ 999 ∣ ids.length) :
    ∃ rows, compileSplit sqliteLimit table ids = .ok rows ∧
      (rows.map Prod.fst).Perm ids ∧ ∀ r ∈ rows, r ∈ table := by
  by_cases hbig : ids.length > 999
  · have hd : ¬ 999 ∣ ids.length := by omega
    obtain ⟨rows, hr, hp, hm⟩ := chunkLoop_ok 999 (by omega) table ids ht hid hin hd
      (ids.length / 999) 1 (getData table (ids.take 999)) (by omega) le_rfl (by omega)
      (by simpa using getData_keys table (ids.take 999) ht (hid.sublist (List.take_sublist _ _))
            (fun x hx => hin x (List.mem_of_mem_take hx)))
      (getData_mem _ _)
    refine ⟨rows, ?_, hp, hm⟩
    have hl : rows.length = ids.length := by simpa using hp.length_eq
    simp only [compileSplit, sqliteLimit, hbig, ↓reduceIte, hr, bind, Except.bind, hl, pure,
      Except.pure]
  · have hp := getData_keys table ids ht hid hin
    refine ⟨getData table ids, ?_, hp, getData_mem _ _⟩
    have hl : (getData table ids).length = ids.length := by simpa using hp.length_eq
    simp only [compileSplit, sqliteLimit, hbig, ↓reduceIte, bind, Except.bind, hl, pure,
      Except.pure]

example : ((List.range 2000).map fun i => (i, i * i)).map Prod.fst = List.range 2000 ∧
    (List.range 1001).Nodup ∧ ¬ 999 ∣ (List.range 1001).length := by
  refine ⟨by simp [Function.comp_def], List.nodup_range, by simp⟩

private theorem chunkLoop_fails {ι ρ : Type} [DecidableEq ι] (c : Nat) (hc : 0 < c)
    (table : List (ι × ρ)) (ids : List ι) (k : Nat) (hlen : ids.length = k * c) :
    ∀ (n i : Nat) (store : List (ι × ρ)), n + i = k + 1 → i ≤ k → store ≠ [] →
      chunkLoop c table ids n i store = .error .value := by
  intro n
  induction n with
  | zero => intro i _ h1 h2; omega
  | succ n ih =>
    intro i store h1 h2 hst
    rw [chunkLoop]
    simp only [hst, or_false, and_false, ↓reduceIte]
    by_cases hik : i = k
    · subst hik
      have h0 : ids.drop (i * c) = [] := by simp [hlen]
      simp [h0, hc, getData]
    · generalize (if (ids.drop (i * c)).length < c then getData table (ids.drop (i * c))
        else getData table ((ids.take ((i + 1) * c)).drop (i * c))) = more
      by_cases hmore : more = []
      · simp [hmore]
      · simp only [hmore, ↓reduceIte]
        exact ih (i + 1) _ (by omega) (by omega) (by simp [hst])

private theorem chunkLoop_keys {ι ρ : Type} [DecidableEq ι] (c : Nat) (table : List (ι × ρ))
    (ids : List ι) (ht : (table.map Prod.fst).Nodup) (hid : ids.Nodup) :
    ∀ (n i : Nat) (store : List (ι × ρ)) (rows : List (ι × ρ)),
      (store.map Prod.fst).Nodup → (∀ r ∈ store, r.1 ∈ ids.take (i * c) ∧ r ∈ table) →
      chunkLoop c table ids n i store = .ok rows →
      (rows.map Prod.fst).Nodup ∧ ∀ r ∈ rows, r.1 ∈ ids ∧ r ∈ table := by
  intro n
  induction n with
  | zero =>
    intro i store rows hn hs h
    simp only [chunkLoop, Except.ok.injEq] at h
    subst h
    exact ⟨hn, fun r hr => ⟨List.mem_of_mem_take (hs r hr).1, (hs r hr).2⟩⟩
  | succ n ih =>
    intro i store rows hn hs h
    rw [chunkLoop] at h
    have hmore : (if (ids.drop (i * c)).length < c then getData table (ids.drop (i * c))
        else getData table ((ids.take ((i + 1) * c)).drop (i * c))) =
        getData table ((ids.take ((i + 1) * c)).drop (i * c)) := by
      split
      · rename_i hl
        rw [List.length_drop] at hl
        rw [List.take_of_length_le]
        rw [Nat.add_mul, Nat.one_mul]; omega
      · rfl
    simp only [hmore] at h
    set more := getData table ((ids.take ((i + 1) * c)).drop (i * c))
    have hsplit : ids.take ((i + 1) * c) = ids.take (i * c) ++ (ids.take ((i + 1) * c)).drop (i * c) := by
      conv_lhs => rw [← List.take_append_drop (i * c) (ids.take ((i + 1) * c))]
      rw [List.take_take, Nat.min_eq_left (Nat.mul_le_mul_right _ (Nat.le_succ i))]
    have hmm : ∀ r ∈ more, r.1 ∈ (ids.take ((i + 1) * c)).drop (i * c) ∧ r ∈ table := by
      intro r hr
      have := List.mem_filter.mp hr
      exact ⟨by simpa using this.2, this.1⟩
    have hmn : (more.map Prod.fst).Nodup := ht.sublist (List.filter_sublist.map _)
    have hdis : (ids.take (i * c) ++ (ids.take ((i + 1) * c)).drop (i * c)).Nodup := by
      rw [← hsplit]; exact hid.sublist (List.take_sublist _ _)
    split at h
    · split at h
      · exact ih (i + 1) [] rows (by simp) (by simp) h
      · simp at h
    · refine ih (i + 1) (store ++ more) rows ?_ ?_ h
      · rw [List.map_append, List.nodup_append]
        refine ⟨hn, hmn, ?_⟩
        intro a ha b hb hab
        obtain ⟨r, hr, rfl⟩ := List.mem_map.mp ha
        obtain ⟨q, hq, rfl⟩ := List.mem_map.mp hb
        exact (List.nodup_append.mp hdis).2.2 _ (hs r hr).1 _ (hmm q hq).1 hab
      · intro r hr
        rw [hsplit]
        rcases List.mem_append.mp hr with hr | hr
        · exact ⟨List.mem_append_left _ (hs r hr).1, (hs r hr).2⟩
        · exact ⟨List.mem_append_right _ (hmm r hr).1, (hmm r hr).2⟩

/-- C05, refusal: if a requested id is not in the table, the fetch does not return: it raises an
exception (AssertionError up to 999 ids). -/
theorem C05_fetch_missing {ι ρ : Type} [DecidableEq ι] (table : List (ι × ρ)) (ids : List ι)
    (ht : (table.map Prod.fst).Nodup) (hid : ids.Nodup) (x : ι) (hx : x ∈ ids)
    (hmiss : x ∉ table.map Prod.fst) :
    (∃ err, compileSplit sqliteLimit table ids = .error err) ∧
    (ids.length ≤ 999 → compileSplit sqliteLimit table ids = .error .assertion) := by
  have hlt : ∀ rows : List (ι × ρ), (rows.map Prod.fst).Nodup → (∀ r ∈ rows, r.1 ∈ ids ∧ r ∈ table) →
      rows.length ≠ ids.length := by
    intro rows hn hr hl
    have hsub : (rows.map Prod.fst) ⊆ ids.erase x := by
      intro a ha
      obtain ⟨r, hrm, rfl⟩ := List.mem_map.mp ha
      rw [hid.mem_erase_iff]
      refine ⟨?_, (hr r hrm).1⟩
      rintro rfl
      exact hmiss (List.mem_map_of_mem (hr r hrm).2)
    have := (List.subperm_of_subset hn hsub).length_le
    rw [List.length_map, List.length_erase_of_mem hx] at this
    have := List.length_pos_of_mem hx
    omega
  have hkeys : ∀ l : List ι, ((getData table l).map Prod.fst).Nodup ∧
      ∀ r ∈ getData table l, r.1 ∈ l ∧ r ∈ table := by
    intro l
    refine ⟨ht.sublist (List.filter_sublist.map _), fun r hr => ?_⟩
    have := List.mem_filter.mp hr
    exact ⟨by simpa using this.2, this.1⟩
  by_cases hbig : ids.length > sqliteLimit
  · refine ⟨?_, fun h => absurd hbig (by simp only [sqliteLimit]; omega)⟩
    simp only [compileSplit, if_pos hbig, bind, Except.bind]
    cases hr : chunkLoop sqliteLimit table ids (ids.length / sqliteLimit) 1
        (getData table (ids.take sqliteLimit)) with
    | error e => exact ⟨e, rfl⟩
    | ok rows =>
      obtain ⟨h1, h2⟩ := chunkLoop_keys sqliteLimit table ids ht hid _ 1 _ rows (hkeys _).1
        (by simpa using (hkeys (ids.take sqliteLimit)).2) hr
      refine ⟨.assertion, ?_⟩
      simp only
      rw [if_neg (hlt rows h1 h2)]; rfl
  · have h0 : compileSplit sqliteLimit table ids = .error .assertion := by
      simp only [compileSplit, if_neg hbig, bind, Except.bind, pure, Except.pure]
      rw [if_neg (hlt _ (hkeys ids).1 (hkeys ids).2)]; rfl
    exact ⟨⟨_, h0⟩, fun _ => h0⟩

example : compileSplit sqliteLimit [(1, "a"), (2, "b")] [2, 3] = .error .assertion := by rfl

/-- C05 is violated: when the number of requested ids is a multiple of 999 above 999, the last chunk
is empty and the fetch raises `ValueError`, although every id is present in the table. -/
theorem C05_fetch_violated {ι ρ : Type} [DecidableEq ι] (table : List (ι × ρ)) (ids : List ι)
    (ht : (table.map Prod.fst).Nodup) (hid : ids.Nodup) (hin : ∀ x ∈ ids, x ∈ table.map Prod.fst)
    (k : Nat) (hk : 2 ≤ k) (hlen : ids.length = k * 999) :
    compileSplit sqliteLimit table ids = .error .value := by
  have hbig : ids.length > 999 := by omega
  have hp := getData_keys table (ids.take 999) ht (hid.sublist (List.take_sublist _ _))
    (fun x hx => hin x (List.mem_of_mem_take hx))
  have hne : getData table (ids.take 999) ≠ [] := by
    refine nonempty_of_perm _ _ hp ?_
    simp; omega
  have hq : ids.length / 999 = k := by rw [hlen]; exact Nat.mul_div_cancel _ (by omega)
  have := chunkLoop_fails 999 (by omega) table ids k hlen k 1 _ (by omega) (by omega) hne
  simp only [compileSplit, sqliteLimit, hbig, ↓reduceIte, hq, this, bind, Except.bind]

example : ((List.range 1998).map fun i => (i, i)).map Prod.fst = List.range 1998 ∧
    (List.range 1998).Nodup ∧ (List.range 1998).length = 2 * 999 := by
  refine ⟨by simp [Function.comp_def], List.nodup_range, by simp⟩

end CatLearn.Props
