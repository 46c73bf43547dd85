import Verif.Model.HierarchyCurve
import Verif.Props.Hierarchy
import Mathlib.Algebra.Order.BigOperators.Group.List
import Mathlib.Algebra.BigOperators.Group.Finset.Basic
import Mathlib.Data.Finset.Prod
import Mathlib.Algebra.BigOperators.Group.Finset.Sigma
import Mathlib.Algebra.Field.Basic
import Mathlib.Algebra.Field.Rat
import Mathlib.Order.Interval.Finset.Nat
import Mathlib.Data.Finset.Prod
import Mathlib.Tactic.Ring
import Mathlib.Tactic.Linarith

/-!
C248: the learning curve of the hierarchical cross-validation.
-/

namespace CatLearn.Hierarchy

open CatLearn CatLearn.Spec CatLearn.Props

section Loops

variable {ι ρ R : Type} [DecidableEq ι]

private theorem testLoop_ok (table : List (ι × ρ)) (predict : List (ι × ρ) → List (ι × ρ) → Except PyErr (Prediction R))
    (err : List (ι × ρ) → List (ι × ρ) → R) (hp : ∀ tr te, predict tr te = .ok ⟨err tr te, some tr.length⟩)
    (sp : Split ι) (rows : Nat × Nat → List (ι × ρ)) (i : Nat × Nat) (train : List (ι × ρ)) (ms : List (Nat × Nat))
    (hms : ∀ m ∈ ms, compileSplit sqliteLimit table (sp.val m) = .ok (rows m)) (acc : List R × List Nat) :
    testLoop table predict sp i train ms acc =
      .ok (acc.1 ++ (ms.filter fun m => m.1 == i.1 && m.2 != i.2).map (fun m => err train (rows m)),
        acc.2 ++ (ms.filter fun m => m.1 == i.1 && m.2 != i.2).map (fun _ => train.length)) := by
  induction ms generalizing acc with
  | nil => simp [testLoop]
  | cons m ms ih =>
    have ih' := ih (fun m hm => hms m (by simp [hm]))
    unfold testLoop
    by_cases h : (m.1 == i.1 && m.2 != i.2) = true
    · rw [if_pos h, hms m (by simp)]
      simp only [hp]
      rw [ih', List.filter_cons_of_pos (by simpa using h)]
      simp
    · rw [if_neg h, ih', List.filter_cons_of_neg (by simpa using h)]

private theorem trainLoop_ok (table : List (ι × ρ)) (predict : List (ι × ρ) → List (ι × ρ) → Except PyErr (Prediction R))
    (err : List (ι × ρ) → List (ι × ρ) → R) (hp : ∀ tr te, predict tr te = .ok ⟨err tr te, some tr.length⟩)
    (sp : Split ι) (rows : Nat × Nat → List (ι × ρ))
    (hk : ∀ m ∈ sp.keys, compileSplit sqliteLimit table (sp.val m) = .ok (rows m)) (is : List (Nat × Nat))
    (his : ∀ i ∈ is, i ∈ sp.keys) (acc : List R × List Nat) :
    trainLoop table predict sp is acc =
      .ok (acc.1 ++ is.flatMap fun i => (sp.keys.reverse.filter fun m => m.1 == i.1 && m.2 != i.2).map
          fun m => err (rows i) (rows m),
        acc.2 ++ is.flatMap fun i => (sp.keys.reverse.filter fun m => m.1 == i.1 && m.2 != i.2).map
          fun _ => (rows i).length) := by
  induction is generalizing acc with
  | nil => simp [trainLoop]
  | cons i is ih =>
    unfold trainLoop
    rw [hk i (his i (by simp))]
    simp only
    rw [testLoop_ok table predict err hp sp rows i (rows i) _ (fun m hm => hk m (by simpa using hm))]
    simp only
    rw [ih (fun x hx => his x (by simp [hx]))]
    simp [List.append_assoc]

private theorem splitPredict_ok (table : List (ι × ρ)) (predict : List (ι × ρ) → List (ι × ρ) → Except PyErr (Prediction R))
    (err : List (ι × ρ) → List (ι × ρ) → R) (hp : ∀ tr te, predict tr te = .ok ⟨err tr te, some tr.length⟩)
    (sp : Split ι) (rows : Nat × Nat → List (ι × ρ))
    (hk : ∀ m ∈ sp.keys, compileSplit sqliteLimit table (sp.val m) = .ok (rows m)) :
    splitPredict table predict sp =
      .ok ((splitPredictPairs sp.keys).map (fun p => err (rows p.1) (rows p.2)),
        (splitPredictPairs sp.keys).map fun p => (rows p.1).length) := by
  unfold splitPredict
  rw [trainLoop_ok table predict err hp sp rows hk _ (fun i hi => by simpa using hi)]
  unfold splitPredictPairs
  simp only [List.nil_append, List.map_flatMap, List.map_map]
  rfl

private theorem groupLoop_append (all : List Nat) (xs ys : List R) (js ks : List Nat) (h : xs.length = js.length)
    (d : List (Nat × List R)) :
    groupLoop all (xs ++ ys) (js ++ ks) d = (groupLoop all xs js d).bind fun d => groupLoop all ys ks d := by
  induction xs generalizing js d with
  | nil =>
    cases js with
    | nil => cases ys <;> cases ks <;> rfl
    | cons j js => simp at h
  | cons x xs ih =>
    cases js with
    | nil => simp at h
    | cons j js =>
      simp only [List.cons_append, groupLoop]
      exact ih js (by simpa using h) _

/-- A run of results that all belong to the group whose values were `vs` so far. -/
private theorem groupLoop_run (all : List Nat) {π : Type} (f : π → R) (g : π → Nat) (c : Nat) (ps : List π)
    (hc : ∀ p ∈ ps, groupOf all (g p) = c) (d : List (Nat × List R)) (hd : c ∉ d.map (·.1)) (vs : List R) :
    groupLoop all (ps.map f) (ps.map g) (d ++ [(c, vs)]) = .ok (d ++ [(c, vs ++ ps.map f)]) := by
  induction ps generalizing vs with
  | nil => simp [groupLoop]
  | cons p ps ih =>
    simp only [List.map_cons, groupLoop]
    rw [hc p (by simp)]
    have : collect (d ++ [(c, vs)]) c (f p) = d ++ [(c, vs ++ [f p])] := by
      unfold collect
      rw [if_pos (by simp)]
      simp only [List.map_append, List.map_cons, List.map_nil, if_true]
      congr 1
      conv_rhs => rw [← List.map_id d]
      apply List.map_congr_left
      intro q hq
      have : q.1 ≠ c := by
        rintro rfl
        exact hd (List.mem_map_of_mem hq)
      simp [this]
    rw [this, ih (fun q hq => hc q (by simp [hq]))]
    simp

private theorem groupLoop_block (all : List Nat) {π : Type} (f : π → R) (g : π → Nat) (c : Nat) (ps : List π)
    (hne : ps ≠ []) (hc : ∀ p ∈ ps, groupOf all (g p) = c) (d : List (Nat × List R)) (hd : c ∉ d.map (·.1)) :
    groupLoop all (ps.map f) (ps.map g) d = .ok (d ++ [(c, ps.map f)]) := by
  cases ps with
  | nil => exact absurd rfl hne
  | cons p ps =>
    simp only [List.map_cons, groupLoop]
    rw [hc p (by simp)]
    have : collect d c (f p) = d ++ [(c, [f p])] := by
      unfold collect
      rw [if_neg]
      intro h
      rw [List.any_eq_true] at h
      obtain ⟨q, hq, e⟩ := h
      exact hd (List.mem_map.mpr ⟨q, hq, by simpa using e⟩)
    rw [this, groupLoop_run all f g c ps (fun q hq => hc q (by simp [hq])) d hd [f p]]
    rfl

private theorem groupLoop_blocks (all : List Nat) {π : Type} (f : π → R) (g : π → Nat) (blocks : List (Nat × List π))
    (hne : ∀ b ∈ blocks, b.2 ≠ []) (hc : ∀ b ∈ blocks, ∀ p ∈ b.2, groupOf all (g p) = b.1)
    (hnd : (blocks.map (·.1)).Nodup) (d : List (Nat × List R)) (hd : ∀ b ∈ blocks, b.1 ∉ d.map (·.1)) :
    groupLoop all ((blocks.flatMap (·.2)).map f) ((blocks.flatMap (·.2)).map g) d =
      .ok (d ++ blocks.map fun b => (b.1, b.2.map f)) := by
  induction blocks generalizing d with
  | nil => simp [groupLoop]
  | cons b bs ih =>
    rw [List.flatMap_cons, List.map_append, List.map_append, groupLoop_append _ _ _ _ _ (by simp),
      groupLoop_block all f g b.1 b.2 (hne b (by simp)) (hc b (by simp)) d (hd b (by simp))]
    rw [List.map_cons, List.nodup_cons] at hnd
    simp only [Except.bind]
    rw [ih (fun x hx => hne x (by simp [hx])) (fun x hx => hc x (by simp [hx])) hnd.2]
    · simp
    · intro x hx
      have h1 := hd x (by simp [hx])
      have h2 : x.1 ≠ b.1 := by
        intro e
        exact hnd.1 (e ▸ List.mem_map_of_mem hx)
      simp [h2] at h1 ⊢
      exact h1

end Loops

/-! ### The sizes of a hierarchy -/

section Sizes

variable {ι : Type} {keys : List (Nat × Nat)} {subset : Nat → Nat → List ι} {all : List ι} {m L : Nat}

private theorem level_total (hG : GoodHierarchy keys subset all m L) (l : Nat) (h1 : 1 ≤ l) (h2 : l ≤ L) :
    ((List.range (2 ^ l)).map fun j => (subset l (j + 1)).length).sum = all.length := by
  have := (hG.partition l h1 h2).length_eq
  rw [List.length_flatten, List.map_map] at this
  exact this

/-- Some subset of a level has the size rounded down, so it is not less than `min_split`. -/
private theorem floor_large (hG : GoodHierarchy keys subset all m L) (l : Nat) (h1 : 1 ≤ l) (h2 : l ≤ L) :
    m ≤ all.length / 2 ^ l := by
  by_contra hlt
  have hall : ∀ x ∈ (List.range (2 ^ l)).map (fun j => (subset l (j + 1)).length), m ≤ x := by
    intro x hx
    obtain ⟨j, hj, rfl⟩ := List.mem_map.mp hx
    rw [List.mem_range] at hj
    exact hG.large l (j + 1) h1 h2 (by omega) (by omega)
  have hsum := List.card_nsmul_le_sum _ m hall
  rw [level_total hG l h1 h2, List.length_map, List.length_range, nsmul_eq_mul, Nat.cast_id] at hsum
  have : m ≤ all.length / 2 ^ l := by
    rw [Nat.le_div_iff_mul_le (by positivity)]
    linarith [Nat.mul_comm m (2 ^ l)]
  exact hlt this

/-- A subset one larger exists exactly if the level does not divide evenly. -/
private theorem ceil_exists (hG : GoodHierarchy keys subset all m L) (l : Nat) (h1 : 1 ≤ l) (h2 : l ≤ L) :
    (∃ j, 1 ≤ j ∧ j ≤ 2 ^ l ∧ (subset l j).length = all.length / 2 ^ l + 1) ↔ ¬ 2 ^ l ∣ all.length := by
  have ht := level_total hG l h1 h2
  constructor
  · rintro ⟨j, hj1, hj2, hj⟩ ⟨q, hq⟩
    have hq' : all.length / 2 ^ l = q := by rw [hq]; exact Nat.mul_div_cancel_left _ (by positivity)
    have hlt : ((List.range (2 ^ l)).map fun _ => q).sum <
        ((List.range (2 ^ l)).map fun j => (subset l (j + 1)).length).sum := by
      apply List.sum_lt_sum
      · intro i hi
        rw [List.mem_range] at hi
        rcases hG.sizes l (i + 1) h1 h2 (by omega) (by omega) with h | h <;> omega
      · refine ⟨j - 1, List.mem_range.mpr (by omega), ?_⟩
        rw [show j - 1 + 1 = j by omega]
        omega
    rw [ht, List.map_const', List.sum_replicate, List.length_range, nsmul_eq_mul, Nat.cast_id, hq] at hlt
    exact lt_irrefl _ hlt
  · intro hdvd
    by_contra hno
    push Not at hno
    apply hdvd
    have he : ((List.range (2 ^ l)).map fun j => (subset l (j + 1)).length) =
        (List.range (2 ^ l)).map fun _ => all.length / 2 ^ l := by
      apply List.map_congr_left
      intro i hi
      rw [List.mem_range] at hi
      exact (hG.sizes l (i + 1) h1 h2 (by omega) (by omega)).resolve_right (hno (i + 1) (by omega) (by omega))
    rw [he, List.map_const', List.sum_replicate, List.length_range, nsmul_eq_mul, Nat.cast_id] at ht
    exact ⟨_, ht.symm⟩

private theorem ceil_eq (n p : Nat) (hp : 0 < p) :
    (n + p - 1) / p = if p ∣ n then n / p else n / p + 1 := by
  have hdm := Nat.div_add_mod n p
  have hlt := Nat.mod_lt n hp
  split
  · next h =>
    have h0 := Nat.mod_eq_zero_of_dvd h
    rw [Nat.div_eq_iff hp]
    constructor
    · rw [Nat.mul_comm]; omega
    · rw [Nat.mul_comm]; omega
  · next h =>
    have h0 : n % p ≠ 0 := fun e => h (Nat.dvd_of_mod_eq_zero e)
    rw [Nat.div_eq_iff hp, Nat.add_mul, Nat.mul_comm (n / p)]
    constructor <;> omega

private theorem floor_halves (n k l : Nat) (h : k < l) : 2 * (n / 2 ^ l) ≤ n / 2 ^ k := by
  obtain ⟨e, rfl⟩ := Nat.exists_eq_add_of_lt h
  rw [Nat.le_div_iff_mul_le (by positivity)]
  have h1 : n / 2 ^ (k + e + 1) * 2 ^ (k + e + 1) ≤ n := Nat.div_mul_le_self _ _
  have h2 : 2 * (n / 2 ^ (k + e + 1)) * 2 ^ k = n / 2 ^ (k + e + 1) * 2 ^ (k + 1) := by rw [pow_succ]; ring
  rw [h2]
  refine le_trans (Nat.mul_le_mul_left _ (Nat.pow_le_pow_right (by omega) (by omega))) h1

/-- With at least three in every subset, the levels do not mix: results are collected under the size of the level rounded
up. -/
private theorem groupOf_level (hG : GoodHierarchy keys subset all m L) (hm : 3 ≤ m) (sizes : List Nat)
    (hs : ∀ s, s ∈ sizes ↔ ∃ l j, 1 ≤ l ∧ l ≤ L ∧ 1 ≤ j ∧ j ≤ 2 ^ l ∧ (subset l j).length = s)
    (l j : Nat) (h1 : 1 ≤ l) (h2 : l ≤ L) (h3 : 1 ≤ j) (h4 : j ≤ 2 ^ l) :
    groupOf sizes (subset l j).length = (all.length + 2 ^ l - 1) / 2 ^ l := by
  have hq := floor_large hG l h1 h2
  have hce := ceil_exists hG l h1 h2
  -- a size on another level is far away
  have far : ∀ l' j', 1 ≤ l' → l' ≤ L → 1 ≤ j' → j' ≤ 2 ^ l' → l' ≠ l →
      (subset l' j').length ≠ all.length / 2 ^ l + 1 ∧ (subset l' j').length ≠ all.length / 2 ^ l + 2 := by
    intro l' j' g1 g2 g3 g4 hne
    have hs' := hG.sizes l' j' g1 g2 g3 g4
    have hq' := floor_large hG l' g1 g2
    rcases Nat.lt_or_gt_of_ne hne with h | h
    · have := floor_halves all.length l' l h
      omega
    · have := floor_halves all.length l l' h
      omega
  have none2 : all.length / 2 ^ l + 2 ∉ sizes := by
    rw [hs]
    rintro ⟨l', j', g1, g2, g3, g4, e⟩
    by_cases hl : l' = l
    · subst hl
      rcases hG.sizes l' j' g1 g2 g3 g4 with h | h <;> omega
    · exact (far l' j' g1 g2 g3 g4 hl).2 e
  have one : all.length / 2 ^ l + 1 ∈ sizes ↔ ¬ 2 ^ l ∣ all.length := by
    rw [hs, ← hce]
    constructor
    · rintro ⟨l', j', g1, g2, g3, g4, e⟩
      by_cases hl : l' = l
      · subst hl
        exact ⟨j', g3, g4, e⟩
      · exact absurd e (far l' j' g1 g2 g3 g4 hl).1
    · rintro ⟨j', g3, g4, e⟩
      exact ⟨l, j', h1, h2, g3, g4, e⟩
  rw [ceil_eq _ _ (by positivity)]
  unfold groupOf
  rcases hG.sizes l j h1 h2 h3 h4 with h | h
  · rw [h]
    by_cases hd : 2 ^ l ∣ all.length
    · rw [if_pos hd, if_neg (fun e => one.mp e hd)]
    · rw [if_neg hd, if_pos (one.mpr hd)]
  · have hd : ¬ 2 ^ l ∣ all.length := hce.mp ⟨j, h3, h4, h⟩
    rw [h, if_neg none2, if_neg hd]

private theorem ceil_strict (hG : GoodHierarchy keys subset all m L) (hm : 3 ≤ m) (k l : Nat) (h1 : 1 ≤ k) (h : k < l)
    (h2 : l ≤ L) : (all.length + 2 ^ l - 1) / 2 ^ l < (all.length + 2 ^ k - 1) / 2 ^ k := by
  have hq := floor_large hG l (by omega) h2
  have hf := floor_halves all.length k l h
  rw [ceil_eq _ _ (by positivity), ceil_eq _ _ (by positivity)]
  split <;> split <;> omega

end Sizes

/-! ### The pairs level by level -/

/-- The pairs of subsets of level `l + 1`, in the order in which they are visited. -/
private def pairsAt (L l : Nat) : List ((Nat × Nat) × (Nat × Nat)) :=
  ((List.range (2 ^ (l + 1))).map fun j => (l + 1, j + 1)).reverse.flatMap fun i =>
    ((hierarchyKeys L).reverse.filter fun m => m.1 == i.1 && m.2 != i.2).map fun m => (i, m)

private theorem pairs_blocks (L : Nat) :
    splitPredictPairs (hierarchyKeys L) = (List.range L).reverse.flatMap (pairsAt L) := by
  have h : (hierarchyKeys L).reverse = (List.range L).reverse.flatMap
      fun l => ((List.range (2 ^ (l + 1))).map fun j => (l + 1, j + 1)).reverse := by
    unfold hierarchyKeys
    rw [List.reverse_flatMap]
    rfl
  unfold splitPredictPairs pairsAt
  conv_lhs => rw [h]
  rw [List.flatMap_assoc, h]

private theorem mem_pairsAt (L l : Nat) (hl : l < L) (a b : Nat × Nat) :
    (a, b) ∈ pairsAt L l ↔ a.1 = l + 1 ∧ b.1 = l + 1 ∧ a.2 ≠ b.2 ∧ 1 ≤ a.2 ∧ a.2 ≤ 2 ^ (l + 1) ∧ 1 ≤ b.2 ∧
      b.2 ≤ 2 ^ (l + 1) := by
  obtain ⟨a1, a2⟩ := a
  obtain ⟨b1, b2⟩ := b
  unfold pairsAt
  simp only [List.mem_flatMap, List.mem_reverse, List.mem_map, List.mem_range, List.mem_filter, Prod.mk.injEq]
  constructor
  · rintro ⟨i, ⟨j, hj, hij⟩, ⟨m1, m2⟩, ⟨hm, hc⟩, hi, hm'⟩
    subst hij
    obtain ⟨rfl, rfl⟩ := hi
    obtain ⟨rfl, rfl⟩ := hm'
    rw [mem_hierarchyKeys] at hm
    simp at hc
    obtain ⟨rfl, hne⟩ := hc
    exact ⟨rfl, rfl, fun h => hne h.symm, by omega, by omega, hm.2.2.1, hm.2.2.2⟩
  · rintro ⟨rfl, rfl, hne, h1, h2, h3, h4⟩
    refine ⟨(l + 1, a2), ⟨a2 - 1, by omega, by rw [show a2 - 1 + 1 = a2 by omega]⟩, (l + 1, b2), ⟨?_, ?_⟩, rfl, rfl⟩
    · rw [mem_hierarchyKeys]
      exact ⟨by omega, by omega, h3, h4⟩
    · simp
      exact fun h => hne h.symm

private theorem pairsAt_nodup (L l : Nat) : (pairsAt L l).Nodup := by
  unfold pairsAt
  rw [List.nodup_flatMap]
  constructor
  · intro i _
    exact List.Nodup.map (fun a b h => by simpa using h)
      ((List.nodup_reverse.mpr (hierarchyKeys_nodup L)).filter _)
  · refine List.Pairwise.imp_of_mem ?_ (List.nodup_reverse.mpr
      (List.Nodup.map (fun a b h => by simpa using h) List.nodup_range))
    intro a b _ _ hab x hx hy
    obtain ⟨_, _, rfl⟩ := List.mem_map.mp hx
    obtain ⟨_, _, h⟩ := List.mem_map.mp hy
    rw [Prod.mk.injEq] at h
    exact hab h.1.symm

/-- The ordered pairs of different subsets of a level. -/
private theorem pairsAt_sum {K : Type} [Field K] (L l : Nat) (hl : l < L) (f : Nat → Nat → K) :
    ((pairsAt L l).map fun p => f p.1.2 p.2.2).sum =
      ∑ p ∈ ((Finset.Icc 1 (2 ^ (l + 1))) ×ˢ (Finset.Icc 1 (2 ^ (l + 1)))).filter (fun p => p.1 ≠ p.2), f p.1 p.2 := by
  rw [← List.sum_toFinset _ (pairsAt_nodup L l)]
  refine Finset.sum_bij' (fun p _ => (p.1.2, p.2.2)) (fun p _ => ((l + 1, p.1), (l + 1, p.2))) ?_ ?_ ?_ ?_ ?_
  · rintro ⟨a, b⟩ h
    rw [List.mem_toFinset, mem_pairsAt L l hl] at h
    simp only [Finset.mem_filter, Finset.mem_product, Finset.mem_Icc]
    exact ⟨⟨⟨h.2.2.2.1, h.2.2.2.2.1⟩, h.2.2.2.2.2.1, h.2.2.2.2.2.2⟩, h.2.2.1⟩
  · rintro ⟨a, b⟩ h
    simp only [Finset.mem_filter, Finset.mem_product, Finset.mem_Icc] at h
    rw [List.mem_toFinset, mem_pairsAt L l hl]
    exact ⟨rfl, rfl, h.2, h.1.1.1, h.1.1.2, h.1.2.1, h.1.2.2⟩
  · rintro ⟨⟨a1, a2⟩, b1, b2⟩ h
    rw [List.mem_toFinset, mem_pairsAt L l hl] at h
    obtain ⟨rfl, rfl, _⟩ := h
    rfl
  · intro p h; rfl
  · intro p h; rfl

private theorem pairsAt_length (L l : Nat) (hl : l < L) : (pairsAt L l).length = 2 ^ (l + 1) * (2 ^ (l + 1) - 1) := by
  have h := pairsAt_sum (K := ℚ) L l hl (fun _ _ => 1)
  rw [List.map_const', List.sum_replicate, Finset.sum_const, nsmul_eq_mul, nsmul_eq_mul, mul_one, mul_one] at h
  have h' : (pairsAt L l).length =
      (((Finset.Icc 1 (2 ^ (l + 1))) ×ˢ (Finset.Icc 1 (2 ^ (l + 1)))).filter (fun p : Nat × Nat => p.1 ≠ p.2)).card := by
    exact_mod_cast h
  rw [h']
  have := Finset.offDiag_card (Finset.Icc 1 (2 ^ (l + 1)))
  rw [Nat.card_Icc, Nat.add_sub_cancel] at this
  rw [Nat.mul_sub, Nat.mul_one, ← this]
  congr 1
  ext p
  simp [Finset.mem_offDiag, and_assoc]

/-! ### The learning curve -/

section Curve

variable {ι ρ K : Type} [DecidableEq ι] [Field K]

/-- C248, when every subset has at least three members: the curve has one point for every level of the hierarchy, from the
smallest subsets to the largest.  Its abscissa is the size of the subsets of the level, rounded up; its ordinate the mean
of the errors over all ordered pairs of different subsets of the level, trained on the rows of the first and tested on the
rows of the second.  Missing: subsets of one or two members, see `C248_curve_violated`, and subsets whose size is a multiple
of 999 above 999, see `C05_fetch_violated`. -/
theorem C248_curve_partial (table : List (ι × ρ)) (ht : (table.map Prod.fst).Nodup)
    (predict : List (ι × ρ) → List (ι × ρ) → Except PyErr (Prediction K))
    (err : List (ι × ρ) → List (ι × ρ) → K) (hp : ∀ tr te, predict tr te = .ok ⟨err tr te, some tr.length⟩)
    (sp : Split ι) (all : List ι) (m L : Nat) (hG : GoodHierarchy sp.keys (fun l j => sp.val (l, j)) all m L) (hm : 3 ≤ m)
    (hnd : all.Nodup) (hin : ∀ x ∈ all, x ∈ table.map Prod.fst)
    (h999 : ∀ k ∈ sp.keys, (sp.val k).length ≤ 999 ∨ ¬ 999 ∣ (sp.val k).length) :
    ∃ (rows : Nat → Nat → List (ι × ρ)) (out : List K × List Nat),
      (∀ l j, 1 ≤ l → l ≤ L → 1 ≤ j → j ≤ 2 ^ l →
        ((rows l j).map Prod.fst).Perm (sp.val (l, j)) ∧ ∀ r ∈ rows l j, r ∈ table) ∧
      splitPredict table predict sp = .ok out ∧
      transformOutput out.1 out.2 =
        .ok ((List.range L).reverse.map fun l => (all.length + 2 ^ (l + 1) - 1) / 2 ^ (l + 1),
          (List.range L).reverse.map fun l =>
            (∑ p ∈ ((Finset.Icc 1 (2 ^ (l + 1))) ×ˢ (Finset.Icc 1 (2 ^ (l + 1)))).filter (fun p => p.1 ≠ p.2),
              err (rows (l + 1) p.1) (rows (l + 1) p.2)) / ((2 ^ (l + 1) * (2 ^ (l + 1) - 1) : ℕ) : K)) := by
  have hkey : ∀ l j, (l, j) ∈ sp.keys ↔ 1 ≤ l ∧ l ≤ L ∧ 1 ≤ j ∧ j ≤ 2 ^ l := by
    intro l j
    rw [hG.keys_eq, mem_hierarchyKeys]
  have hsub : ∀ k ∈ sp.keys, (sp.val k).Nodup ∧ ∀ x ∈ sp.val k, x ∈ all := by
    rintro ⟨l, j⟩ hk
    obtain ⟨h1, h2, h3, h4⟩ := (hkey l j).mp hk
    have hpart := hG.partition l h1 h2
    have hmem : sp.val (l, j) ∈ (List.range (2 ^ l)).map fun j => sp.val (l, j + 1) :=
      List.mem_map.mpr ⟨j - 1, List.mem_range.mpr (by omega), by rw [show j - 1 + 1 = j by omega]⟩
    have hnd' := hpart.nodup_iff.mpr hnd
    rw [List.nodup_flatten] at hnd'
    exact ⟨hnd'.1 _ hmem, fun x hx => hpart.subset (List.mem_flatten.mpr ⟨_, hmem, hx⟩)⟩
  have hf : ∀ k, ∃ r : List (ι × ρ), k ∈ sp.keys → compileSplit sqliteLimit table (sp.val k) = .ok r ∧
      (r.map Prod.fst).Perm (sp.val k) ∧ ∀ x ∈ r, x ∈ table := by
    intro k
    by_cases hk : k ∈ sp.keys
    · obtain ⟨r, h⟩ := C05_fetch_partial table (sp.val k) ht (hsub k hk).1
        (fun x hx => hin x ((hsub k hk).2 x hx)) (h999 k hk)
      exact ⟨r, fun _ => h⟩
    · exact ⟨[], fun h => absurd h hk⟩
  choose rows hrows using hf
  have hlen : ∀ k ∈ sp.keys, (rows k).length = (sp.val k).length := by
    intro k hk
    have := (hrows k hk).2.1.length_eq
    simpa using this
  refine ⟨fun l j => rows (l, j), _, ?_, splitPredict_ok table predict err hp sp rows (fun k hk => (hrows k hk).1), ?_⟩
  · intro l j h1 h2 h3 h4
    exact (hrows (l, j) ((hkey l j).mpr ⟨h1, h2, h3, h4⟩)).2
  · simp only
    have hpairs : splitPredictPairs sp.keys = ((List.range L).reverse.map fun l =>
        ((all.length + 2 ^ (l + 1) - 1) / 2 ^ (l + 1), pairsAt L l)).flatMap (·.2) := by
      rw [hG.keys_eq, pairs_blocks, List.flatMap_map]
    have hmemL : ∀ l ∈ (List.range L).reverse, l < L := fun l h => by simpa using h
    set sizes := (splitPredictPairs sp.keys).map fun p => (rows p.1).length with hsizes
    have hs : ∀ s, s ∈ sizes ↔ ∃ l j, 1 ≤ l ∧ l ≤ L ∧ 1 ≤ j ∧ j ≤ 2 ^ l ∧ (sp.val (l, j)).length = s := by
      intro s
      rw [hsizes, hG.keys_eq, pairs_blocks, List.mem_map]
      constructor
      · rintro ⟨⟨⟨a1, a2⟩, b⟩, hp', rfl⟩
        obtain ⟨l, hl, hab⟩ := List.mem_flatMap.mp hp'
        have hl' := hmemL l hl
        obtain ⟨rfl, _, _, h3, h4, _⟩ := (mem_pairsAt L l hl' _ _).mp hab
        exact ⟨l + 1, a2, by omega, by omega, h3, h4, (hlen _ ((hkey _ _).mpr ⟨by omega, by omega, h3, h4⟩)).symm⟩
      · rintro ⟨l, j, h1, h2, h3, h4, rfl⟩
        have h2l : 2 ≤ 2 ^ l := by
          calc 2 = 2 ^ 1 := rfl
            _ ≤ 2 ^ l := Nat.pow_le_pow_right (by omega) h1
        refine ⟨((l, j), (l, if j = 1 then 2 else 1)), ?_, hlen _ ((hkey _ _).mpr ⟨h1, h2, h3, h4⟩)⟩
        refine List.mem_flatMap.mpr ⟨l - 1, by simp; omega, ?_⟩
        rw [mem_pairsAt L (l - 1) (by omega), show l - 1 + 1 = l by omega]
        refine ⟨rfl, rfl, ?_, h3, h4, ?_, ?_⟩ <;> simp only <;> split <;> omega
    unfold transformOutput
    have hfl : ∀ vs : List K, vs.foldl (· + ·) 0 = vs.sum := fun vs => List.sum_eq_foldl.symm
    rw [hsizes]
    conv_lhs => rw [hpairs]
    rw [← hpairs, ← hsizes]
    have hrun := groupLoop_blocks sizes (fun p : (Nat × Nat) × (Nat × Nat) => err (rows p.1) (rows p.2))
      (fun p => (rows p.1).length) ((List.range L).reverse.map fun l =>
        ((all.length + 2 ^ (l + 1) - 1) / 2 ^ (l + 1), pairsAt L l)) ?_ ?_ ?_ [] (by simp)
    · rw [← hpairs, ← hsizes] at hrun
      rw [hrun]
      simp only [List.nil_append, List.map_map]
      refine congrArg Except.ok (Prod.ext ?_ ?_)
      · simp only
        apply List.map_congr_left
        intro l _
        rfl
      · simp only
        apply List.map_congr_left
        intro l hl
        have hl' := hmemL l hl
        simp only [Function.comp_apply, hfl, List.length_map]
        rw [pairsAt_length L l hl', ← pairsAt_sum L l hl' (fun a b => err (rows (l + 1, a)) (rows (l + 1, b)))]
        congr 2
        apply List.map_congr_left
        rintro ⟨⟨a1, a2⟩, b1, b2⟩ hab
        obtain ⟨rfl, rfl, _⟩ := (mem_pairsAt L l hl' _ _).mp hab
        rfl
    · intro b hb
      obtain ⟨l, hl, rfl⟩ := List.mem_map.mp hb
      have h2l : 2 ≤ 2 ^ (l + 1) := by rw [pow_succ]; have := Nat.one_le_two_pow (n := l); omega
      have : ((l + 1, 1), (l + 1, 2)) ∈ pairsAt L l := by
        rw [mem_pairsAt L l (hmemL l hl)]
        exact ⟨rfl, rfl, by simp, by simp, by simp only; omega, by simp, h2l⟩
      exact List.ne_nil_of_mem this
    · intro b hb
      obtain ⟨l, hl, rfl⟩ := List.mem_map.mp hb
      rintro ⟨⟨a1, a2⟩, b1, b2⟩ hab
      have hl' := hmemL l hl
      obtain ⟨rfl, _, _, h3, h4, _⟩ := (mem_pairsAt L l hl' _ _).mp hab
      simp only at h3 h4 ⊢
      rw [hlen _ ((hkey _ _).mpr ⟨by omega, by omega, h3, h4⟩)]
      exact groupOf_level hG hm sizes hs (l + 1) a2 (by omega) (by omega) h3 h4
    · rw [List.map_map]
      refine List.Nodup.map_on ?_ (List.nodup_reverse.mpr List.nodup_range)
      intro k hk l hl e
      have hk' := hmemL k hk
      have hl' := hmemL l hl
      simp only [Function.comp_apply] at e
      rcases Nat.lt_trichotomy k l with h | h | h
      · have := ceil_strict hG hm (k + 1) (l + 1) (by omega) (by omega) (by omega)
        omega
      · exact h
      · have := ceil_strict hG hm (l + 1) (k + 1) (by omega) (by omega) (by omega)
        omega

/-- C248 from the data to the curve: `split_index`, `split_predict` and `transform_output` on a table of at most 1997 rows,
with `min_split` from three to half of them. -/
theorem C248_workflow_partial (table : List (ι × ρ)) (ht : (table.map Prod.fst).Nodup)
    (predict : List (ι × ρ) → List (ι × ρ) → Except PyErr (Prediction K))
    (err : List (ι × ρ) → List (ι × ρ) → K) (hp : ∀ tr te, predict tr te = .ok ⟨err tr te, some tr.length⟩)
    (shuf0 : List ι → List ι) (shuf : Nat × Nat → List ι → List ι) (hs0 : IsShuffle shuf0) (hs : ∀ k, IsShuffle (shuf k))
    (m : Nat) (hm : 3 ≤ m) (hlen : m ≤ table.length / 2) (hbig : table.length ≤ 1997) :
    ∃ (sp : Split ι) (L : Nat) (out : List K × List Nat) (curve : List Nat × List K),
      splitIndex shuf0 shuf m none (table.map Prod.fst) = .ok (some sp) ∧
      splitPredict table predict sp = .ok out ∧
      transformOutput out.1 out.2 = .ok curve ∧
      table.length / 2 ^ (L + 1) < m ∧ m ≤ table.length / 2 ^ L ∧
      curve.1 = ((List.range L).reverse.map fun l => (table.length + 2 ^ (l + 1) - 1) / 2 ^ (l + 1)) ∧
      curve.2.length = L := by
  obtain ⟨sp, L, hsp, hG⟩ := C03_split_index shuf0 shuf hs0 hs m (by omega) (table.map Prod.fst) (by simpa using hlen)
  have h999 : ∀ k ∈ sp.keys, (sp.val k).length ≤ 999 ∨ ¬ 999 ∣ (sp.val k).length := by
    rintro ⟨l, j⟩ hk
    left
    rw [hG.keys_eq, mem_hierarchyKeys] at hk
    obtain ⟨h1, h2, h3, h4⟩ := hk
    have hd : (table.map Prod.fst).length / 2 ^ l ≤ (table.map Prod.fst).length / 2 :=
      Nat.div_le_div_left (by calc 2 = 2 ^ 1 := rfl
                                _ ≤ 2 ^ l := Nat.pow_le_pow_right (by omega) h1) (by omega)
    have hl : (table.map Prod.fst).length = table.length := by simp
    have := hG.sizes l j h1 h2 h3 h4
    omega
  obtain ⟨rows, out, _, h1, h2⟩ := C248_curve_partial table ht predict err hp sp _ m L hG hm ht (fun x hx => hx) h999
  have hfl := floor_large hG L hG.levels le_rfl
  have hmax := hG.maximal
  rw [List.length_map] at hfl hmax h2
  exact ⟨sp, L, out, _, hsp, h1, h2, hmax, hfl, rfl, by simp⟩

/-- C248, a prediction function that does not report sizes: the curve is empty, whatever the results. -/
theorem C248_no_sizes (results : List K) : transformOutput results [] = .ok ([], []) := by
  cases results <;> rfl

omit [Field K] in
private theorem groupLoop_short (all : List Nat) (xs : List K) (js : List Nat) (h : xs.length < js.length)
    (d : List (Nat × List K)) : groupLoop all xs js d = .error .index := by
  induction xs generalizing js d with
  | nil =>
    cases js with
    | nil => simp at h
    | cons j js => rfl
  | cons x xs ih =>
    cases js with
    | nil => simp at h
    | cons j js => exact ih js (by simpa using h) _

/-- C248, fewer results than sizes: IndexError. -/
theorem C248_too_few (results : List K) (sizes : List Nat) (h : results.length < sizes.length) :
    transformOutput results sizes = .error .index := by
  unfold transformOutput
  rw [groupLoop_short sizes results sizes h]

end Curve

/-! ### Small subsets -/

/-- The identity in place of the shuffles, and the size of the training set as error. -/
private def smallCurve : Option (List Nat × List ℚ) :=
  match splitIndex id (fun _ => id) 2 none (List.range 17) with
  | .ok (some sp) =>
    match splitPredict ((List.range 17).map fun i => (i, ())) (fun tr _ => .ok ⟨(tr.length : ℚ), some tr.length⟩) sp with
    | .ok out => (transformOutput out.1 out.2).toOption
    | .error _ => none
  | _ => none

/-- C248 fails for subsets of two: with 17 data and `min_split = 2` there are three levels, of subsets of 8 or 9, 4 or 5 and
2 or 3, but the curve has four points, and the error reported for the size 4 is that of training sets of three alone: the
errors of the subsets of four are reported for the size 5.  (Here the error of a prediction is the size of the training
set.) -/
theorem C248_curve_violated :
    ∃ (sp : Split ℕ) (out : List ℚ × List Nat),
      splitIndex id (fun _ => id) 2 none (List.range 17) = .ok (some sp) ∧
      splitPredict ((List.range 17).map fun i => (i, ())) (fun tr _ => .ok ⟨(tr.length : ℚ), some tr.length⟩) sp = .ok out ∧
      transformOutput out.1 out.2 = .ok ([4, 3, 5, 9], [3, 2, 17 / 4, 17 / 2]) := by
  have h : smallCurve = some ([4, 3, 5, 9], [3, 2, 17 / 4, 17 / 2]) := by decide +kernel
  unfold smallCurve at h
  split at h
  · next sp hsp =>
    split at h
    · next out hout =>
      refine ⟨sp, out, hsp, hout, ?_⟩
      cases ho : transformOutput out.1 out.2 with
      | error e => rw [ho] at h; simp [Except.toOption] at h
      | ok v =>
        rw [ho] at h
        simp only [Except.toOption, Option.some.injEq] at h
        rw [h]
    · simp at h
  · simp at h

/-- Eleven rows in subsets of at least three: one level of 5 and 6, or two with `min_split = 2`. -/
example : (((List.range 11).map fun i => (i, ())).map Prod.fst).Nodup ∧ 3 ≤ 3 ∧
    3 ≤ ((List.range 11).map fun i => (i, ())).length / 2 ∧ ((List.range 11).map fun i => (i, ())).length ≤ 1997 ∧
    IsShuffle (fun l : List ℕ => l.reverse) :=
  ⟨by decide, by decide, by decide, by decide, fun l => List.reverse_perm l⟩

example : (transformOutput [(1 : ℚ), 2, 3] [5, 6, 5]).toOption = some ([6], [2]) := by decide +kernel

end CatLearn.Hierarchy
