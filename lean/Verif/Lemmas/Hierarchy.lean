import Verif.Model.Hierarchy
import Verif.Spec.Hierarchy
import Mathlib.Data.List.Perm.Basic
import Mathlib.Tactic.Linarith
import Mathlib.Tactic.Ring
import Mathlib.Data.List.Flatten
import Mathlib.Data.Nat.Log

namespace CatLearn.Hierarchy

open CatLearn CatLearn.Spec

variable {ι : Type}

/-- Invariant of the loops: levels `1 … i` complete, of level `i+1` the first `2k` subsets. -/
structure Inv (d : Split ι) (all : List ι) (i k : Nat) : Prop where
  keys : d.keys = hierarchyKeys i ++ (List.range (2 * k)).map fun j => (i + 1, j + 1)
  top : (d.val (1, 1) ++ d.val (1, 2)).Perm all
  ref : ∀ l j, 1 ≤ l → j < 2 ^ l → (l < i ∨ (l = i ∧ j < k)) →
    (d.val (l + 1, 2 * j + 1) ++ d.val (l + 1, 2 * j + 2)).Perm (d.val (l, j + 1))
  size : ∀ l j, 1 ≤ l → j < 2 ^ l → (l ≤ i ∨ (l = i + 1 ∧ j < 2 * k)) →
    all.length / 2 ^ l ≤ (d.val (l, j + 1)).length ∧
      (d.val (l, j + 1)).length ≤ all.length / 2 ^ l + 1
  first : ∀ l, 1 ≤ l → (l ≤ i ∨ (l = i + 1 ∧ 0 < k)) →
    (d.val (l, 1)).length = all.length / 2 ^ l

theorem mem_hierarchyKeys (L l j : Nat) :
    (l, j) ∈ hierarchyKeys L ↔ 1 ≤ l ∧ l ≤ L ∧ 1 ≤ j ∧ j ≤ 2 ^ l := by
  simp only [hierarchyKeys, List.mem_flatMap, List.mem_range, List.mem_map, Prod.mk.injEq]
  constructor
  · rintro ⟨a, ha, b, hb, rfl, rfl⟩
    omega
  · rintro ⟨h1, h2, h3, h4⟩
    refine ⟨l - 1, by omega, j - 1, ?_, by omega, by omega⟩
    have : l - 1 + 1 = l := by omega
    rw [this]; omega

theorem hierarchyKeys_succ (i : Nat) :
    hierarchyKeys (i + 1) =
      hierarchyKeys i ++ (List.range (2 * 2 ^ i)).map fun j => (i + 1, j + 1) := by
  simp [hierarchyKeys, List.range_succ, List.flatMap_append, pow_succ, Nat.mul_comm]

theorem Inv.next {d : Split ι} {all : List ι} {i : Nat} (h : Inv d all i (2 ^ i)) (_hi : 1 ≤ i) :
    Inv d all (i + 1) 0 where
  keys := by rw [h.keys, hierarchyKeys_succ]; simp
  top := h.top
  ref := by
    intro l j hl hj hc
    refine h.ref l j hl hj ?_
    rcases hc with hc | hc
    · rcases Nat.lt_succ_iff_lt_or_eq.mp hc with h' | h'
      · exact .inl h'
      · subst h'; exact .inr ⟨rfl, hj⟩
    · omega
  size := by
    intro l j hl hj hc
    refine h.size l j hl hj ?_
    rcases hc with hc | hc
    · rcases Nat.lt_or_ge i l with h' | h'
      · have : l = i + 1 := by omega
        subst this
        refine .inr ⟨rfl, ?_⟩
        rw [pow_succ] at hj; omega
      · exact .inl h'
    · omega
  first := by
    intro l hl hc
    refine h.first l hl ?_
    rcases hc with hc | hc
    · rcases Nat.lt_or_ge i l with h' | h'
      · exact .inr ⟨by omega, by positivity⟩
      · exact .inl h'
    · omega

theorem set_val_same (d : Split ι) (k : Nat × Nat) (v : List ι) : (d.set k v).val k = v := by
  simp [Split.set]

theorem set_val_ne (d : Split ι) (k k' : Nat × Nat) (v : List ι) (h : k' ≠ k) :
    (d.set k v).val k' = d.val k' := by
  simp [Split.set, h]

theorem set_keys_mem (d : Split ι) (k : Nat × Nat) (v : List ι) (h : k ∈ d.keys) :
    (d.set k v).keys = d.keys := by
  simp [Split.set, h]

theorem set_keys_new (d : Split ι) (k : Nat × Nat) (v : List ι) (h : k ∉ d.keys) :
    (d.set k v).keys = d.keys ++ [k] := by
  simp [Split.set, h]

/-- shuffling an entry in place keeps the invariant -/
theorem Inv.shuffle {d : Split ι} {all : List ι} {i k a b : Nat} (h : Inv d all i k)
    (v : List ι) (hv : v.Perm (d.val (a, b))) (hm : (a, b) ∈ d.keys) :
    Inv (d.set (a, b) v) all i k := by
  have hp : ∀ key, ((d.set (a, b) v).val key).Perm (d.val key) := by
    intro key
    by_cases hk : key = (a, b)
    · subst hk; rw [set_val_same]; exact hv
    · rw [set_val_ne _ _ _ _ hk]
  constructor
  · rw [set_keys_mem _ _ _ hm, h.keys]
  · exact ((hp _).append (hp _)).trans h.top
  · intro l j hl hj hc
    exact (((hp _).append (hp _)).trans (h.ref l j hl hj hc)).trans (hp _).symm
  · intro l j hl hj hc
    rw [(hp _).length_eq]; exact h.size l j hl hj hc
  · intro l hl hc
    rw [(hp _).length_eq]; exact h.first l hl hc

/-- one successful step of the inner loop -/
theorem Inv.step {d : Split ι} {all : List ι} {i k : Nat} (h : Inv d all i k) (hi : 1 ≤ i)
    (hk : k < 2 ^ i) (cur : List ι) (hcur : cur = d.val (i, k + 1)) :
    Inv ((d.set (i + 1, 2 * k + 1) (cur.take (cur.length / 2))).set (i + 1, 2 * k + 2)
      (cur.drop (cur.length / 2))) all i (k + 1) := by
  set d1 := d.set (i + 1, 2 * k + 1) (cur.take (cur.length / 2)) with hd1
  set d2 := d1.set (i + 1, 2 * k + 2) (cur.drop (cur.length / 2)) with hd2
  have hn1 : (i + 1, 2 * k + 1) ∉ d.keys := by
    rw [h.keys]; intro hm
    rcases List.mem_append.mp hm with hm | hm
    · have := (mem_hierarchyKeys _ _ _).mp hm; omega
    · obtain ⟨j, hj, he⟩ := List.mem_map.mp hm
      have := List.mem_range.mp hj
      simp at he; omega
  have hn2 : (i + 1, 2 * k + 2) ∉ d1.keys := by
    rw [hd1, set_keys_new _ _ _ hn1, h.keys]; intro hm
    rcases List.mem_append.mp hm with hm | hm
    · rcases List.mem_append.mp hm with hm | hm
      · have := (mem_hierarchyKeys _ _ _).mp hm; omega
      · obtain ⟨j, hj, he⟩ := List.mem_map.mp hm
        have := List.mem_range.mp hj
        simp at he; omega
    · simp at hm
  have v1 : d2.val (i + 1, 2 * k + 1) = cur.take (cur.length / 2) := by
    rw [hd2, set_val_ne _ _ _ _ (by simp), hd1, set_val_same]
  have v2 : d2.val (i + 1, 2 * k + 2) = cur.drop (cur.length / 2) := by
    rw [hd2, set_val_same]
  have vo : ∀ l j, ¬ (l = i + 1 ∧ (j = 2 * k + 1 ∨ j = 2 * k + 2)) → d2.val (l, j) = d.val (l, j) := by
    intro l j hne
    rw [hd2, set_val_ne _ _ _ _ (by simp; tauto), hd1, set_val_ne _ _ _ _ (by simp; tauto)]
  have hsz := h.size i k hi hk (.inl le_rfl)
  rw [← hcur] at hsz
  have hdiv : all.length / 2 ^ (i + 1) = all.length / 2 ^ i / 2 := by
    rw [pow_succ, Nat.div_div_eq_div_mul]
  constructor
  · rw [hd2, set_keys_new _ _ _ hn2, hd1, set_keys_new _ _ _ hn1, h.keys]
    simp [show 2 * (k + 1) = 2 * k + 1 + 1 by ring, List.range_succ]
  · rw [vo 1 1 (by omega), vo 1 2 (by omega)]; exact h.top
  · intro l j hl hj hc
    by_cases hlk : l = i ∧ j = k
    · obtain ⟨rfl, rfl⟩ := hlk
      rw [v1, v2, vo _ _ (by omega), ← hcur, List.take_append_drop]
    · rw [vo (l+1) _ (by omega), vo (l+1) _ (by omega), vo _ _ (by omega)]
      exact h.ref l j hl hj (by omega)
  · intro l j hl hj hc
    by_cases h1 : l = i + 1 ∧ j = 2 * k
    · obtain ⟨rfl, rfl⟩ := h1
      rw [v1, List.length_take, hdiv]; omega
    · by_cases h2 : l = i + 1 ∧ j = 2 * k + 1
      · obtain ⟨rfl, rfl⟩ := h2
        rw [v2, List.length_drop, hdiv]; omega
      · rw [vo _ _ (by omega)]
        exact h.size l j hl hj (by omega)
  · intro l hl hc
    by_cases h1 : l = i + 1 ∧ k = 0
    · obtain ⟨rfl, rfl⟩ := h1
      have hf := h.first i hi (.inl le_rfl)
      have : cur.length = all.length / 2 ^ i := by rw [hcur]; simpa using hf
      simp only [Nat.mul_zero, Nat.zero_add] at v1
      rw [v1, List.length_take, hdiv]; omega
    · rw [vo _ _ (by omega)]
      exact h.first l hl (by omega)

theorem innerLoop_full (shuf : Nat × Nat → List ι → List ι) (hs : ∀ k, IsShuffle (shuf k))
    (m i : Nat) (hi : 1 ≤ i) (all : List ι) (hm : m ≤ all.length / 2 ^ (i + 1)) :
    ∀ (n k : Nat) (d : Split ι), n + k = 2 ^ i → Inv d all i k →
      ∃ d', innerLoop shuf m i n (k + 1) (2 * k + 1) d = .ok (.inr d') ∧ Inv d' all i (2 ^ i) := by
  intro n
  induction n with
  | zero => intro k d hk h; refine ⟨d, rfl, ?_⟩; rw [← hk]; simpa using h
  | succ n ih =>
    intro k d hk h
    have hkey : (i, k + 1) ∈ d.keys := by
      rw [h.keys]; refine List.mem_append_left _ ((mem_hierarchyKeys _ _ _).mpr ?_); omega
    set cur := shuf (i, k + 1) (d.val (i, k + 1)) with hcur
    have hperm : cur.Perm (d.val (i, k + 1)) := hs _ _
    have h1 := h.shuffle cur hperm hkey
    have hv : cur = (d.set (i, k + 1) cur).val (i, k + 1) := (set_val_same _ _ _).symm
    have h2 := h1.step hi (by omega) cur hv
    have hsz := (h.size i k hi (by omega) (.inl le_rfl)).1
    rw [← hperm.length_eq] at hsz
    have hdiv : all.length / 2 ^ (i + 1) = all.length / 2 ^ i / 2 := by
      rw [pow_succ, Nat.div_div_eq_div_mul]
    have hge : cur.length / 2 ≥ m := by omega
    obtain ⟨d', hd', hI⟩ := ih (k + 1) _ (by omega) h2
    refine ⟨d', ?_, hI⟩
    rw [innerLoop]
    simp only [hkey, ↓reduceIte]
    rw [← hcur]
    simp only [hge, ↓reduceIte]
    exact hd'

theorem innerLoop_stop (shuf : Nat × Nat → List ι → List ι) (hs : ∀ k, IsShuffle (shuf k))
    (m i : Nat) (hi : 1 ≤ i) (all : List ι) (hm : all.length / 2 ^ (i + 1) < m)
    (d : Split ι) (h : Inv d all i 0) :
      ∃ d', innerLoop shuf m i (2 ^ i) 1 1 d = .ok (.inl d') ∧ Inv d' all i 0 := by
  obtain ⟨n, hn⟩ : ∃ n, 2 ^ i = n + 1 := ⟨2 ^ i - 1, by have : 0 < 2 ^ i := by positivity
                                                        omega⟩
  have hkey : (i, 1) ∈ d.keys := by
    rw [h.keys]; refine List.mem_append_left _ ((mem_hierarchyKeys _ _ _).mpr ?_); omega
  set cur := shuf (i, 1) (d.val (i, 1)) with hcur
  have hperm : cur.Perm (d.val (i, 1)) := hs _ _
  have hf := h.first i hi (.inl le_rfl)
  rw [← hperm.length_eq] at hf
  have hdiv : all.length / 2 ^ (i + 1) = all.length / 2 ^ i / 2 := by
    rw [pow_succ, Nat.div_div_eq_div_mul]
  have hlt : ¬ cur.length / 2 ≥ m := by omega
  refine ⟨d.set (i, 1) cur, ?_, h.shuffle cur hperm hkey⟩
  rw [hn, innerLoop]
  simp only [hkey, ↓reduceIte]
  rw [← hcur]
  simp only [hlt, ↓reduceIte]

/-- The outer loop stops at the last level that fits, provided it is allowed that many rounds. -/
theorem outerLoop_spec (shuf : Nat × Nat → List ι → List ι) (hs : ∀ k, IsShuffle (shuf k))
    (m : Nat) (all : List ι) :
    ∀ (n i : Nat) (d : Split ι), 1 ≤ i → Inv d all i 0 → m ≤ all.length / 2 ^ i →
      all.length / 2 ^ (i + n) < m →
      ∃ d' L, outerLoop shuf m n i d = .ok (some d') ∧ 1 ≤ L ∧ Inv d' all L 0 ∧
        m ≤ all.length / 2 ^ L ∧ all.length / 2 ^ (L + 1) < m := by
  intro n
  induction n with
  | zero => intro i d _ _ h1 h2; simp at h2; omega
  | succ n ih =>
    intro i d hi h h1 h2
    rw [outerLoop]
    by_cases hm : m ≤ all.length / 2 ^ (i + 1)
    · obtain ⟨d', hd', hI⟩ := innerLoop_full shuf hs m i hi all hm (2 ^ i) 0 d (by simp) h
      simp only [Nat.zero_add, Nat.mul_zero] at hd'
      rw [hd']
      refine ih (i + 1) d' (by omega) (hI.next hi) hm ?_
      rwa [show i + 1 + n = i + (n + 1) by ring]
    · obtain ⟨d', hd', hI⟩ := innerLoop_stop shuf hs m i hi all (by omega) d h
      rw [hd']
      exact ⟨d', i, rfl, hi, hI, h1, by omega⟩

private theorem flatten_pairs (f : Nat → List ι) (g : Nat → List ι) (n : Nat)
    (h : ∀ j < n, (f (2 * j) ++ f (2 * j + 1)).Perm (g j)) :
    ((List.range (2 * n)).map f).flatten.Perm ((List.range n).map g).flatten := by
  induction n with
  | zero => simp
  | succ n ih =>
    rw [show 2 * (n + 1) = 2 * n + 1 + 1 by ring, List.range_succ, List.range_succ, List.range_succ]
    simp only [List.map_append, List.map_cons, List.map_nil, List.flatten_append, List.append_assoc,
      List.flatten_cons, List.flatten_nil, List.append_nil]
    exact (ih fun j hj => h j (by omega)).append (h n (by omega))

theorem Inv.partition {d : Split ι} {all : List ι} {L : Nat} (h : Inv d all L 0) :
    ∀ l, 1 ≤ l → l ≤ L →
      ((List.range (2 ^ l)).map fun j => d.val (l, j + 1)).flatten.Perm all := by
  intro l hl
  induction l, hl using Nat.le_induction with
  | base =>
    intro _
    have : List.range (2 ^ 1) = [0, 1] := by decide
    rw [this]; simpa using h.top
  | succ l hl ih =>
    intro hL
    refine List.Perm.trans ?_ (ih (by omega))
    rw [pow_succ, Nat.mul_comm]
    exact flatten_pairs (fun j => d.val (l + 1, j + 1)) (fun j => d.val (l, j + 1)) _
      fun j hj => h.ref l j hl hj (.inl (by omega))

theorem Inv.good {d : Split ι} {all : List ι} {L m : Nat} (h : Inv d all L 0) (hL : 1 ≤ L)
    (h1 : m ≤ all.length / 2 ^ L) (h2 : all.length / 2 ^ (L + 1) < m) :
    GoodHierarchy d.keys (fun l j => d.val (l, j)) all m L where
  levels := hL
  keys_eq := by rw [h.keys]; simp
  partition := h.partition
  sizes := by
    intro l j hl hL' hj hj'
    have := h.size l (j - 1) hl (by omega) (.inl hL')
    rw [show j - 1 + 1 = j by omega] at this
    omega
  large := by
    intro l j hl hL' hj hj'
    have := h.size l (j - 1) hl (by omega) (.inl hL')
    rw [show j - 1 + 1 = j by omega] at this
    have hmono : all.length / 2 ^ L ≤ all.length / 2 ^ l :=
      Nat.div_le_div_left (Nat.pow_le_pow_right (by omega) hL') (by positivity)
    omega
  nested := by
    intro l j hl hL' hj hj'
    have := h.ref l (j - 1) hl (by omega) (.inl hL')
    rw [show j - 1 + 1 = j by omega, show 2 * (j - 1) + 1 = 2 * j - 1 by omega,
      show 2 * (j - 1) + 2 = 2 * j by omega] at this
    exact this
  maximal := h2

end CatLearn.Hierarchy
