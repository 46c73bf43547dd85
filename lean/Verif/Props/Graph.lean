import Verif.Model.Graph
import Verif.Props.Neighbors
import Verif.Lemmas.Py
import Mathlib.Data.List.ProdSigma
import Mathlib.Tactic.Linarith
import Mathlib.Tactic.Ring
import Mathlib.Tactic.NormNum
import Mathlib.Tactic.FinCases

/-!
# Neighbour sums: C175
-/

namespace CatLearn.Graph

open CatLearn CatLearn.Nb

variable {n : ℕ}

theorem osum_none (l : List (Option ℝ)) : osum l = none ↔ none ∈ l := by
  unfold osum
  split
  · rename_i h
    obtain ⟨x, hx, hn⟩ := List.any_eq_true.1 h
    rw [Option.isNone_iff_eq_none] at hn
    subst hn
    simp [hx]
  · rename_i h
    simp only [reduceCtorEq, false_iff]
    intro hm
    exact h (List.any_eq_true.2 ⟨none, hm, rfl⟩)

theorem osum_some {α : Type} (l : List α) (f : α → Option ℝ) (h : ∀ a ∈ l, f a ≠ none) :
    osum (l.map f) = some (l.map fun a => (f a).getD 0).sum := by
  have h1 : ¬ (l.map f).any Option.isNone := by
    intro hc
    obtain ⟨x, hx, hn⟩ := List.any_eq_true.1 hc
    obtain ⟨a, ha, rfl⟩ := List.mem_map.1 hx
    exact h a ha (Option.isNone_iff_eq_none.1 hn)
  unfold osum
  rw [if_neg h1]
  congr 1
  clear h1
  induction l with
  | nil => rfl
  | cons a l ih =>
    obtain ⟨x, hx⟩ := Option.ne_none_iff_exists'.1 (h a List.mem_cons_self)
    rw [List.map_cons, List.map_cons, hx, List.filterMap_cons_some (f := id) (a := some x) (b := x) rfl, List.sum_cons, List.sum_cons,
      ih fun a ha => h a (List.mem_cons_of_mem _ ha)]
    rfl

theorem sum_range_list (L : ℕ) (f : ℕ → ℝ) : ((List.range L).map f).sum = ∑ k ∈ Finset.range L, f k := by
  induction L with
  | zero => rfl
  | succ L ih => rw [List.range_succ, List.map_append, List.sum_append, ih, Finset.sum_range_succ]; simp

theorem omul_none (x y : Option ℝ) : omul x y = none ↔ x = none ∨ y = none := by
  cases x <;> cases y <;> simp [omul]

theorem omul_getD (x y : Option ℝ) (hx : x ≠ none) (hy : y ≠ none) : (omul x y).getD 0 = x.getD 0 * y.getD 0 := by
  cases x <;> cases y <;> simp_all [omul]

theorem rowSum_none (L : ℕ) (hL : n ≤ L) (c : Mat n ℝ) (p : ℕ → Option ℝ) (z : Fin n → ℕ) (hn : 0 < n) (r : ℕ) :
    rowSum L c p z r = none ↔ (∃ k, p (z k) = none) ∨ ∃ (h : r < n) (m : Fin n), weight c ⟨r, h⟩ m = none := by
  rw [rowSum, osum_none]
  simp only [List.mem_map, List.mem_range]
  constructor
  · rintro ⟨k, hk, h⟩
    rw [osum_none] at h
    obtain ⟨m, hm, h⟩ := List.mem_map.1 h
    rcases (omul_none _ _).1 h with h | h
    · unfold con at h
      split at h
      · rename_i hrm
        exact Or.inr ⟨hrm.1, ⟨m, hrm.2⟩, h⟩
      · cases h
    · unfold pro at h
      split at h
      · exact Or.inl ⟨_, h⟩
      · cases h
  · rintro (⟨k, hk⟩ | ⟨h, m, hm⟩)
    · refine ⟨k, by omega, ?_⟩
      rw [osum_none, List.mem_map]
      refine ⟨k, by rw [List.mem_range]; omega, (omul_none _ _).2 (Or.inr ?_)⟩
      rw [pro, dif_pos ⟨k.2, rfl⟩]
      exact hk
    · refine ⟨m, by omega, ?_⟩
      rw [osum_none, List.mem_map]
      refine ⟨m, by rw [List.mem_range]; omega, (omul_none _ _).2 (Or.inl ?_)⟩
      rw [con, dif_pos ⟨h, m.2⟩]
      exact hm

theorem rowSum_some (L : ℕ) (hL : n ≤ L) (c : Mat n ℝ) (p : ℕ → Option ℝ) (z : Fin n → ℕ) (hn : 0 < n) (r : ℕ)
    (h : rowSum L c p z r ≠ none) :
    rowSum L c p z r = some (if h : r < n then ∑ k, (weight c ⟨r, h⟩ k).getD 0 * (p (z k)).getD 0 else 0) := by
  have hnn := (rowSum_none L hL c p z hn r).not.1 h
  push Not at hnn
  have hc : ∀ m, con c r m ≠ none := by
    intro m
    unfold con
    split
    · exact hnn.2 _ _
    · simp
  have hp : ∀ m k, pro p z m k ≠ none := by
    intro m k
    unfold pro
    split
    · exact hnn.1 _
    · simp
  have hin : ∀ k, osum ((List.range L).map fun m => omul (con c r m) (pro p z m k)) =
      some (((List.range L).map fun m => (con c r m).getD 0 * (pro p z m k).getD 0).sum) := by
    intro k
    rw [osum_some]
    · congr 2
      refine List.map_congr_left fun m _ => omul_getD _ _ (hc _) (hp _ _)
    · intro m _ h0
      rcases (omul_none _ _).1 h0 with h0 | h0
      · exact hc _ h0
      · exact hp _ _ h0
  rw [rowSum]
  simp only [hin]
  rw [osum_some _ _ (by simp)]
  congr 1
  simp only [Option.getD_some]
  rw [sum_range_list]
  simp only [sum_range_list]
  have h1 : ∀ k ∈ Finset.range L, ∑ m ∈ Finset.range L, (con c r m).getD 0 * (pro p z m k).getD 0 =
      (con c r k).getD 0 * (pro p z k k).getD 0 := by
    intro k hk
    rw [Finset.sum_eq_single k]
    · intro m _ hmk
      rw [pro, dif_neg (by tauto)]
      simp
    · intro h; exact absurd hk h
  rw [Finset.sum_congr rfl h1]
  have h2 : ∑ k ∈ Finset.range L, (con c r k).getD 0 * (pro p z k k).getD 0 =
      ∑ k ∈ Finset.range n, (con c r k).getD 0 * (pro p z k k).getD 0 := by
    symm
    refine Finset.sum_subset (by simpa using hL) fun k _ hk => ?_
    rw [Finset.mem_range] at hk
    rw [pro, dif_neg (by tauto)]
    rw [con, dif_neg (by tauto)]
    simp
  rw [h2, Finset.sum_range]
  split
  · rename_i hr
    refine Finset.sum_congr rfl fun k _ => ?_
    rw [con, dif_pos ⟨hr, k.2⟩, pro, dif_pos ⟨k.2, rfl⟩]
  · rename_i hr
    refine Finset.sum_eq_zero fun k _ => ?_
    rw [con, dif_neg (by tauto)]
    simp

theorem range_split (L : ℕ) (hL : n ≤ L) {β : Type} (f : ℕ → β) (x : β) (hx : ∀ r, n ≤ r → f r = x) :
    (List.range L).map f = ((List.finRange n).map fun i : Fin n => f i) ++ List.replicate (L - n) x := by
  obtain ⟨d, rfl⟩ := Nat.exists_eq_add_of_le hL
  rw [List.range_add, List.map_append, Nat.add_sub_cancel_left]
  congr 1
  · rw [← List.map_coe_finRange_eq_range, List.map_map]
    rfl
  · refine List.ext_getElem (by simp) fun i h1 h2 => ?_
    simp [hx]

/-- Sum over the neighbours of atom `i`, weighted by the maximum shell over the shell of the neighbour. -/
noncomputable def neighbourSum (c : Mat n ℝ) (q : ℕ → ℝ) (z : Fin n → ℕ) (i : Fin n) : ℝ :=
  ∑ j with c i j ≠ 0, maxEntry c / c i j * q (z j)

theorem foldl_max_spec (l : List ℝ) (a : ℝ) :
    a ≤ l.foldl max a ∧ (∀ x ∈ l, x ≤ l.foldl max a) ∧ (l.foldl max a = a ∨ l.foldl max a ∈ l) := by
  induction l generalizing a with
  | nil => simp
  | cons y l ih =>
    obtain ⟨h1, h2, h3⟩ := ih (max a y)
    refine ⟨le_trans (le_max_left _ _) h1, ?_, ?_⟩
    · intro x hx
      rcases List.mem_cons.1 hx with rfl | hx
      · exact le_trans (le_max_right _ _) h1
      · exact h2 x hx
    · rw [List.foldl_cons]
      rcases h3 with h3 | h3
      · rcases max_choice a y with h | h
        · exact Or.inl (h3.trans h)
        · exact Or.inr (by rw [h3, h]; exact List.mem_cons_self)
      · exact Or.inr (List.mem_cons_of_mem _ h3)

theorem le_maxEntry (c : Mat n ℝ) (i j : Fin n) : c i j ≤ maxEntry c :=
  (foldl_max_spec _ 0).2.1 _ (List.mem_map.2 ⟨(i, j), by simp [List.pair_mem_product], rfl⟩)

theorem maxEntry_ne (c : Mat n ℝ) (i j : Fin n) (h : 0 < c i j) : maxEntry c ≠ 0 :=
  (lt_of_lt_of_le h (le_maxEntry c i j)).ne'

theorem maxEntry_spec (c : Mat n ℝ) (i j : Fin n) (h : 0 < c i j) :
    (∀ i j, c i j ≤ maxEntry c) ∧ ∃ i j, c i j = maxEntry c := by
  refine ⟨le_maxEntry c, ?_⟩
  rcases (foldl_max_spec ((List.finRange n ×ˢ List.finRange n).map fun p => c p.1 p.2) 0).2.2 with h1 | h1
  · exact absurd h1 (maxEntry_ne c i j h)
  · obtain ⟨p, _, hp⟩ := List.mem_map.1 h1
    exact ⟨p.1, p.2, hp⟩

theorem maxEntry_one (c : Mat n ℝ) (hc : ∀ i j, c i j = 0 ∨ c i j = 1) (i j : Fin n) (h : 0 < c i j) :
    maxEntry c = 1 := by
  obtain ⟨a, b, hab⟩ := (maxEntry_spec c i j h).2
  rcases hc a b with h1 | h1
  · exact absurd (hab.symm.trans h1) (maxEntry_ne c i j h)
  · exact hab.symm.trans h1

theorem rowSum_atom (L : ℕ) (hL : n ≤ L) (c : Mat n ℝ) (q : ℕ → ℝ) (p : ℕ → Option ℝ) (z : Fin n → ℕ)
    (hp : ∀ i, p (z i) = some (q (z i))) (hn : 0 < n) (hm : maxEntry c ≠ 0) (r : ℕ) :
    rowSum L c p z r = some (if h : r < n then neighbourSum c q z ⟨r, h⟩ else 0) := by
  rw [rowSum_some L hL c p z hn r]
  · congr 1
    split
    · rw [neighbourSum, Finset.sum_filter]
      refine Finset.sum_congr rfl fun k _ => ?_
      rw [hp, Option.getD_some]
      unfold weight
      rw [if_neg hm]
      split
      · rename_i h0; rw [if_neg (not_not.2 h0)]; simp
      · rename_i h0; simp [h0]
    · rfl
  · rw [Ne, rowSum_none L hL c p z hn r]
    rintro (⟨k, hk⟩ | ⟨h, m, hw⟩)
    · rw [hp] at hk; cases hk
    · unfold weight at hw
      rw [if_neg hm] at hw
      split at hw <;> cases hw

theorem sortNan_some (l : List ℝ) : sortNan (l.map some) = (sortDesc id l).map some := by
  have h1 : (l.map some).filter Option.isNone = [] := by
    rw [List.filter_eq_nil_iff]; intro x hx; obtain ⟨y, _, rfl⟩ := List.mem_map.1 hx; simp
  have h2 : (l.map some).filterMap id = l := by
    induction l with
    | nil => rfl
    | cons a l ih => simp
  rw [sortNan, h1, h2, List.nil_append]

theorem sumBlock_atoms (L : ℕ) (hL : n ≤ L) (c : Mat n ℝ) (q : ℕ → ℝ) (p : ℕ → Option ℝ) (z : Fin n → ℕ)
    (hp : ∀ i, p (z i) = some (q (z i))) (hn : 0 < n) (hm : maxEntry c ≠ 0) :
    sumBlock L c p z =
      (sortDesc id ((List.finRange n).map (neighbourSum c q z) ++ List.replicate (L - n) 0)).map some := by
  rw [sumBlock, range_split L hL (rowSum L c p z) (some 0)]
  · rw [← sortNan_some, List.map_append, List.map_map, List.map_replicate]
    congr 2
    refine List.map_congr_left fun i _ => ?_
    rw [rowSum_atom L hL c q p z hp hn hm, dif_pos i.2]
    rfl
  · intro r hr
    rw [rowSum_atom L hL c q p z hp hn hm, dif_neg (by omega)]

theorem flatMap_block {α β : Type} (l : List α) (f : α → List β) (L : ℕ) (hf : ∀ a ∈ l, (f a).length = L) (i : ℕ) (a : α)
    (hi : l[i]? = some a) : ((l.flatMap f).drop (i * L)).take L = f a := by
  induction l generalizing i with
  | nil => simp at hi
  | cons b l ih =>
    cases i with
    | zero =>
      obtain rfl : b = a := by simpa using hi
      rw [List.flatMap_cons, Nat.zero_mul, List.drop_zero, List.take_append_of_le_length (by rw [hf b (by simp)]),
        List.take_of_length_le (by rw [hf b (by simp)])]
    | succ i =>
      rw [List.flatMap_cons, Nat.succ_mul, Nat.add_comm, ← List.drop_drop, ← hf b (by simp), List.drop_left,
        hf b (by simp)]
      exact ih (fun a ha => hf a (List.mem_cons_of_mem _ ha)) i (by simpa using hi)

theorem sortNan_length (l : List (Option ℝ)) : (sortNan l).length = l.length := by
  rw [sortNan, List.length_append, List.length_map, (sortDesc_perm id _).length_eq]
  induction l with
  | nil => rfl
  | cons a l ih =>
    cases a with
    | none => simp only [List.filter_cons, Option.isNone_none, if_true, List.length_cons,
        List.filterMap_cons_none (f := id) (a := none) rfl]; omega
    | some x => simp only [List.filter_cons, Option.isNone_some, List.length_cons,
        List.filterMap_cons_some (f := id) (a := some x) (b := x) rfl, Bool.false_eq_true, if_false]; omega

theorem sumBlock_length (L : ℕ) (c : Mat n ℝ) (p : ℕ → Option ℝ) (z : Fin n → ℕ) : (sumBlock L c p z).length = L := by
  rw [sumBlock, sortNan_length]; simp

theorem meanBlock_length (L : ℕ) (c : Mat n ℝ) (p : ℕ → Option ℝ) (z : Fin n → ℕ) : (meanBlock L c p z).length = L := by
  rw [meanBlock, sortNan_length]; simp

/-- C175 (partial: the table has the property for every element of the structure, and at least two atoms are
neighbours): the fingerprint has `atom_len` entries for each parameter; those of a parameter are, in descending order,
the sums over the neighbours of each atom, weighted by the inverse of the shell, and zeros up to `atom_len`. -/
theorem C175_sum_partial (L : ℕ) (ps : List String) (element : ℕ → Option (String → Option ℝ)) (z : Fin n → ℕ)
    (c : Mat n ℝ) (hL : n ≤ L) (hc : ∃ i j, 0 < c i j) (q : String → ℕ → ℝ)
    (hq : ∀ i, ∃ f, element (z i) = some f ∧ ∀ ep ∈ ps, f ep = some (q ep (z i))) :
    ∃ fp, vec false L (some ps) element (some ⟨n, z, .ok c⟩) = .ok fp ∧ fp.length = ps.length * L ∧
      ∃ M, (∀ i j, c i j ≤ M) ∧ (∃ i j, c i j = M) ∧
      ∀ (k : ℕ) (ep : String), ps[k]? = some ep → ∃ s : List ℝ, (fp.drop (k * L)).take L = s.map some ∧
        s.Pairwise (· ≥ ·) ∧
        s.Perm ((List.finRange n).map (fun i => ∑ j with c i j ≠ 0, M / c i j * q ep (z j)) ++
          List.replicate (L - n) 0) := by
  obtain ⟨i0, j0, h0⟩ := hc
  have hn : 0 < n := i0.pos
  have hel : ¬ (ps ≠ [] ∧ ∃ i, (element (z i)).isNone) := by
    rintro ⟨_, i, hi⟩
    obtain ⟨f, hf, _⟩ := hq i
    rw [hf] at hi; cases hi
  refine ⟨_, by simp only [vec]; rw [if_neg (by omega), if_neg (by tauto), if_neg hel], ?_, maxEntry c,
    (maxEntry_spec c i0 j0 h0).1, (maxEntry_spec c i0 j0 h0).2, ?_⟩
  · rw [List.length_flatMap]
    simp [sumBlock_length]
  · intro k ep hk
    have hb := flatMap_block ps (fun ep => sumBlock L c (fun e => (element e).bind fun f => f ep) z) L
      (fun a _ => sumBlock_length _ _ _ _) k ep hk
    simp only [Bool.false_eq_true, if_false]
    rw [hb, sumBlock_atoms L hL c (q ep) _ z ?_ hn (maxEntry_ne c i0 j0 h0)]
    · exact ⟨_, rfl, sortDesc_pairwise id _, sortDesc_perm id _⟩
    · intro i
      obtain ⟨f, hf, hfe⟩ := hq i
      rw [hf]
      exact hfe ep (List.mem_of_getElem? hk)

/-- Carbon monoxide with its atomic numbers, padded to three atoms. -/
example : (∃ i j : Fin 2, (0 : ℝ) < (fun i j : Fin 2 => if i = j then (0 : ℝ) else 1) i j) ∧
    ∀ i : Fin 2, ∃ f : String → Option ℝ, (fun e : ℕ => some fun _ => some (e : ℝ)) (![6, 8] i) = some f ∧
      ∀ ep ∈ ["atomic_number"], f ep = some ((![6, 8] i : ℕ) : ℝ) :=
  ⟨⟨0, 1, by norm_num⟩, fun i => ⟨_, rfl, fun _ _ => rfl⟩⟩

/-- C175 (partial: as above, and with one shell): the sums are plain sums over the atoms within reach of the radii and
buffers. -/
theorem C175_first_shell_partial (radius : ℕ → ℝ) (dx : Option (ℕ → Option ℝ)) (z : Fin n → ℕ) (dist : Mat n ℝ)
    (c : Mat n ℝ) (h : neighborlist radius dx z dist 1 = .ok c) (L : ℕ) (hL : n ≤ L) (i0 j0 : Fin n) (h0 : c i0 j0 ≠ 0)
    (p : ℕ → Option ℝ) (q : ℕ → ℝ) (hp : ∀ i, p (z i) = some (q (z i))) :
    ∃ s : List ℝ, sumBlock L c p z = s.map some ∧ s.Pairwise (· ≥ ·) ∧
      s.Perm ((List.finRange n).map (fun i => ∑ j with c i j ≠ 0, q (z j)) ++ List.replicate (L - n) 0) := by
  have hval : ∀ i j, c i j = 0 ∨ c i j = 1 := by
    unfold neighborlist at h
    split at h
    · cases h
    · cases h
      intro i j
      by_cases hij : i = j
      · simp [zeroDiag, hij]
      · simp only [zeroDiag, if_neg hij, shells, iter, resEntry_eq]
        split <;> simp
  have hmax : maxEntry c = 1 := by
    refine maxEntry_one c hval i0 j0 ?_
    rcases hval i0 j0 with h | h
    · exact absurd h h0
    · rw [h]; norm_num
  have hb := sumBlock_atoms L hL c q p z hp i0.pos (by rw [hmax]; norm_num)
  refine ⟨_, hb, sortDesc_pairwise id _, (sortDesc_perm id _).trans (List.Perm.of_eq ?_)⟩
  congr 1
  refine List.map_congr_left fun i _ => Finset.sum_congr rfl fun j hj => ?_
  have := (Finset.mem_filter.1 hj).2
  rcases hval i j with h | h
  · exact absurd h this
  · rw [hmax, h]; simp

theorem weight_perm (c : Mat n ℝ) (σ : Equiv.Perm (Fin n)) (i j : Fin n) :
    weight (fun i j => c (σ i) (σ j)) i j = weight c (σ i) (σ j) := by
  have hm : maxEntry (fun i j => c (σ i) (σ j)) = maxEntry c := by
    unfold maxEntry
    refine List.Perm.foldl_eq ?_ 0
    have h1 : ((List.finRange n ×ˢ List.finRange n).map fun p => c (σ p.1) (σ p.2)) =
        ((List.finRange n ×ˢ List.finRange n).map (Prod.map σ σ)).map fun p => c p.1 p.2 := by
      rw [List.map_map]; rfl
    rw [h1]
    refine List.Perm.map _ ?_
    refine (List.perm_ext_iff_of_nodup ?_ ?_).2 ?_
    · exact ((List.nodup_finRange n).product (List.nodup_finRange n)).map (σ.injective.prodMap σ.injective)
    · exact (List.nodup_finRange n).product (List.nodup_finRange n)
    · rintro ⟨a, b⟩
      rw [List.mem_map]
      refine ⟨fun _ => by simp, fun _ => ⟨(σ.symm a, σ.symm b), by simp, by simp⟩⟩
  unfold weight
  rw [hm]

theorem rowSum_perm (L : ℕ) (hL : n ≤ L) (c : Mat n ℝ) (p : ℕ → Option ℝ) (z : Fin n → ℕ) (hn : 0 < n)
    (σ : Equiv.Perm (Fin n)) (r : Fin n) :
    rowSum L (fun i j => c (σ i) (σ j)) p (fun i => z (σ i)) r = rowSum L c p z (σ r) := by
  have hnone : rowSum L (fun i j => c (σ i) (σ j)) p (fun i => z (σ i)) r = none ↔ rowSum L c p z (σ r) = none := by
    rw [rowSum_none L hL _ _ _ hn, rowSum_none L hL _ _ _ hn]
    simp only [weight_perm]
    constructor
    · rintro (⟨k, hk⟩ | ⟨_, m, hm⟩)
      · exact Or.inl ⟨σ k, hk⟩
      · exact Or.inr ⟨(σ r).2, σ m, hm⟩
    · rintro (⟨k, hk⟩ | ⟨_, m, hm⟩)
      · exact Or.inl ⟨σ.symm k, by simpa using hk⟩
      · exact Or.inr ⟨r.2, σ.symm m, by simpa using hm⟩
  by_cases h : rowSum L c p z (σ r) = none
  · rw [h, hnone.2 h]
  · rw [rowSum_some L hL _ _ _ hn _ h, rowSum_some L hL _ _ _ hn _ (hnone.not.2 h), dif_pos r.2, dif_pos (σ r).2]
    congr 1
    simp only [weight_perm]
    exact Equiv.sum_comp σ fun k => (weight c (σ r) k).getD 0 * (p (z k)).getD 0

theorem sortNan_perm (l m : List (Option ℝ)) (h : l.Perm m) : sortNan l = sortNan m := by
  unfold sortNan
  congr 1
  · have h1 : ∀ l : List (Option ℝ), l.filter Option.isNone = List.replicate (l.filter Option.isNone).length none := by
      intro l
      refine List.eq_replicate_of_mem fun x hx => ?_
      exact Option.isNone_iff_eq_none.1 (List.mem_filter.1 hx).2
    rw [h1 l, h1 m, (h.filter _).length_eq]
  · congr 1
    refine List.Perm.eq_of_pairwise (le := (· ≥ ·)) (fun a b _ _ h1 h2 => le_antisymm h2 h1) (sortDesc_pairwise id _)
      (sortDesc_pairwise id _) ?_
    exact (sortDesc_perm id _).trans ((h.filterMap id).trans (sortDesc_perm id _).symm)

theorem rowSum_pad (L : ℕ) (hL : n ≤ L) (c : Mat n ℝ) (p : ℕ → Option ℝ) (z : Fin n → ℕ) (hn : 0 < n) (r : ℕ)
    (hr : n ≤ r) : rowSum L c p z r = rowSum L c p z n := by
  have hnone : ∀ s, n ≤ s → (rowSum L c p z s = none ↔ ∃ k, p (z k) = none) := by
    intro s hs
    rw [rowSum_none L hL _ _ _ hn]
    constructor
    · rintro (h | ⟨h, _⟩)
      · exact h
      · omega
    · exact Or.inl
  by_cases h : ∃ k, p (z k) = none
  · rw [(hnone r hr).2 h, (hnone n (le_refl _)).2 h]
  · rw [rowSum_some L hL _ _ _ hn _ ((hnone r hr).not.2 h), rowSum_some L hL _ _ _ hn _ ((hnone n (le_refl _)).not.2 h),
      dif_neg (by omega), dif_neg (by omega)]

/-- C175: both fingerprints do not depend on the numbering of the atoms, missing values and errors included. -/
theorem C175_numbering (mean : Bool) (L : ℕ) (params : Option (List String))
    (element : ℕ → Option (String → Option ℝ)) (z : Fin n → ℕ) (c : Mat n ℝ) (σ : Equiv.Perm (Fin n)) :
    vec mean L params element (some ⟨n, fun i => z (σ i), .ok fun i j => c (σ i) (σ j)⟩) =
      vec mean L params element (some ⟨n, z, .ok c⟩) := by
  cases params with
  | none => rfl
  | some ps =>
    simp only [vec]
    by_cases hn : n = 0
    · rw [if_pos hn, if_pos hn]
    rw [if_neg hn, if_neg hn]
    by_cases hL : n ≤ L
    · have hsz : ¬ ¬ (n ≤ L ∨ n = 1) := by tauto
      rw [if_neg hsz, if_neg hsz]
      have hel : (∃ i, (element (z (σ i))).isNone) ↔ ∃ i, (element (z i)).isNone :=
        ⟨fun ⟨i, h⟩ => ⟨σ i, h⟩, fun ⟨i, h⟩ => ⟨σ.symm i, by simpa using h⟩⟩
      rw [if_congr (and_congr_right fun _ => hel) rfl rfl]
      split
      · rfl
      · congr 2
        funext ep
        have hperm : ∀ g : Option ℝ → Option ℝ, ((List.range L).map fun r => g (rowSum L (fun i j => c (σ i) (σ j))
            (fun e => (element e).bind fun f => f ep) (fun i => z (σ i)) r)).Perm
            ((List.range L).map fun r => g (rowSum L c (fun e => (element e).bind fun f => f ep) z r)) := by
          intro g
          have hn' : 0 < n := Nat.pos_of_ne_zero hn
          rw [range_split L hL _ _ fun r hr => by rw [rowSum_pad L hL _ _ _ hn' r hr],
            range_split L hL _ _ fun r hr => by rw [rowSum_pad L hL c _ _ hn' r hr]]
          refine List.Perm.append ?_ (List.Perm.of_eq ?_)
          · simp only [rowSum_perm L hL c _ z hn' σ]
            have : ((List.finRange n).map fun i => g (rowSum L c (fun e => (element e).bind fun f => f ep) z (σ i))) =
                ((List.finRange n).map σ).map fun i : Fin n => g (rowSum L c (fun e => (element e).bind fun f => f ep) z i) := by
              rw [List.map_map]; rfl
            rw [this]
            exact (Equiv.Perm.map_finRange_perm σ).map _
          · congr 2
            have hnn : ∀ (c : Mat n ℝ) (z : Fin n → ℕ) (p : ℕ → Option ℝ),
                rowSum L c p z n = none ↔ ∃ k, p (z k) = none := by
              intro c z p
              rw [rowSum_none L hL _ _ _ hn']
              constructor
              · rintro (h | ⟨h, _⟩)
                · exact h
                · omega
              · exact Or.inl
            by_cases h : ∃ k, ((element (z k)).bind fun f => f ep) = none
            · rw [(hnn c z (fun e => (element e).bind fun f => f ep)).2 h,
                (hnn (fun i j => c (σ i) (σ j)) (fun i => z (σ i)) (fun e => (element e).bind fun f => f ep)).2
                  (by obtain ⟨k, hk⟩ := h; exact ⟨σ.symm k, by simpa using hk⟩)]
            · rw [rowSum_some L hL _ _ _ hn' _ ((hnn c z (fun e => (element e).bind fun f => f ep)).not.2 h),
                rowSum_some L hL _ _ _ hn' _ ((hnn (fun i j => c (σ i) (σ j)) (fun i => z (σ i))
                  (fun e => (element e).bind fun f => f ep)).not.2
                  (by rintro ⟨k, hk⟩; exact h ⟨σ k, hk⟩)), dif_neg (by omega), dif_neg (by omega)]
        cases mean
        · simp only [Bool.false_eq_true, if_false]
          exact sortNan_perm _ _ (hperm id)
        · simp only [if_true]
          exact sortNan_perm _ _ (hperm (Option.map (· / (L : ℝ))))
    · by_cases h1 : n = 1
      · subst h1
        have : σ = Equiv.refl _ := Subsingleton.elim _ _
        subst this
        rfl
      · rw [if_pos (by tauto), if_pos (by tauto)]

/-- C175: what is refused: no parameters (AssertionError), no structure, as in the call for names (AttributeError), an
empty structure and one with more than `atom_len` atoms (ValueError). -/
theorem C175_refused (mean : Bool) (L : ℕ) (ps : List String) (element : ℕ → Option (String → Option ℝ))
    (data : Option (Σ n : ℕ, (Fin n → ℕ) × Except PyErr (Mat n ℝ))) (z : Fin n → ℕ) (c : Mat n ℝ)
    (hn : n = 0 ∨ (L < n ∧ 2 ≤ n)) :
    vec mean L none element data = .error .assertion ∧ vec mean L (some ps) element none = .error .attribute ∧
    vec mean L (some ps) element (some ⟨n, z, .ok c⟩) = .error .value := by
  refine ⟨rfl, rfl, ?_⟩
  rcases hn with hn | ⟨h1, h2⟩
  · simp only [vec]; rw [if_pos hn]
  · simp only [vec]; rw [if_neg (by omega), if_pos (by omega)]

/-- Three atoms in two places. -/
example : (3 : ℕ) = 0 ∨ (2 < 3 ∧ 2 ≤ 3) := by decide

/-- C175 fails for the mean: every entry is the sum over the neighbours divided by `atom_len`, the length of the padding,
not by the number of neighbours.  A property that is `x` for all atoms has mean `x` times the number of neighbours over
`atom_len`. -/
theorem C175_mean_violated (L : ℕ) (hL : n ≤ L) (c : Mat n ℝ) (hc : ∀ i j, c i j = 0 ∨ c i j = 1) (hb : ∃ i j, 0 < c i j)
    (x : ℝ) (z : Fin n → ℕ) : ∃ s : List ℝ, meanBlock L c (fun _ => some x) z = s.map some ∧
      s.Perm ((List.finRange n).map (fun i => ((Finset.univ.filter fun j => c i j ≠ 0).card : ℝ) * x / L) ++
        List.replicate (L - n) 0) := by
  obtain ⟨i0, j0, h0⟩ := hb
  have hn : 0 < n := i0.pos
  have hm := maxEntry_ne c i0 j0 h0
  have hmax := maxEntry_one c hc i0 j0 h0
  refine ⟨sortDesc id ((List.finRange n).map (fun i => neighbourSum c (fun _ => x) z i / L) ++ List.replicate (L - n) 0),
    ?_, ?_⟩
  · rw [meanBlock, range_split L hL _ (some 0)]
    · rw [← sortNan_some, List.map_append, List.map_map, List.map_replicate]
      congr 2
      refine List.map_congr_left fun i _ => ?_
      rw [rowSum_atom L hL c (fun _ => x) _ z (fun _ => rfl) hn hm, dif_pos i.2]
      rfl
    · intro r hr
      rw [rowSum_atom L hL c (fun _ => x) _ z (fun _ => rfl) hn hm, dif_neg (by omega)]
      simp
  · refine (sortDesc_perm id _).trans (List.Perm.of_eq ?_)
    congr 1
    refine List.map_congr_left fun i _ => ?_
    congr 1
    rw [neighbourSum, Finset.sum_congr rfl (g := fun _ => x)]
    · rw [Finset.sum_const, nsmul_eq_mul]
    · intro j hj
      rcases hc i j with h | h
      · exact absurd h (Finset.mem_filter.1 hj).2
      · rw [hmax, h]; ring

/-- C175 fails when the structure has no neighbours, for instance a single atom: the entries of all atoms are NaN. -/
theorem C175_isolated_violated (L : ℕ) (hn : 0 < n) (hL : n ≤ L) (x : ℝ) (z : Fin n → ℕ) :
    sumBlock L (fun _ _ => 0 : Mat n ℝ) (fun _ => some x) z = List.replicate n none ++ List.replicate (L - n) (some 0) := by
  have hm : maxEntry (fun _ _ => 0 : Mat n ℝ) = 0 := by
    unfold maxEntry
    generalize (List.finRange n ×ˢ List.finRange n) = l
    induction l with
    | nil => rfl
    | cons a l ih => simpa using ih
  have hw : ∀ i j, weight (fun _ _ => 0 : Mat n ℝ) i j = none := by
    intro i j
    simp [weight, hm]
  have h1 : (List.range L).map (rowSum L (fun _ _ => 0 : Mat n ℝ) (fun _ => some x) z) =
      List.replicate n none ++ List.replicate (L - n) (some 0) := by
    rw [range_split L hL _ (some 0)]
    · congr 1
      refine List.eq_replicate_iff.2 ⟨by simp, ?_⟩
      intro y hy
      obtain ⟨i, _, rfl⟩ := List.mem_map.1 hy
      exact (rowSum_none L hL _ _ _ hn _).2 (Or.inr ⟨i.2, ⟨0, hn⟩, hw _ _⟩)
    · intro r hr
      rw [rowSum_some L hL _ _ _ hn, dif_neg (by omega)]
      rw [Ne, rowSum_none L hL _ _ _ hn]
      rintro (⟨k, hk⟩ | ⟨h, _⟩)
      · cases hk
      · omega
  rw [sumBlock, h1, sortNan]
  congr 1
  · simp [List.filter_append, List.filter_replicate]
  · have : (List.replicate n none ++ List.replicate (L - n) (some (0 : ℝ))).filterMap id = List.replicate (L - n) 0 := by
      rw [List.filterMap_append]
      have g1 : (List.replicate n (none : Option ℝ)).filterMap id = [] := by
        rw [List.filterMap_eq_nil_iff]; intro y hy; exact (List.mem_replicate.1 hy).2
      have g2 : (List.replicate (L - n) (some (0 : ℝ))).filterMap id = List.replicate (L - n) 0 := by
        rw [List.filterMap_replicate_of_some (f := id) (a := some (0 : ℝ)) (b := 0) rfl]
      rw [g1, g2, List.nil_append]
    rw [this]
    have h2 : sortDesc id (List.replicate (L - n) (0 : ℝ)) = List.replicate (L - n) 0 :=
      List.perm_replicate.1 (sortDesc_perm id _)
    rw [h2, List.map_replicate]

/-- C175 fails when the table lacks the property for one element of the structure: all entries of the parameter are NaN,
also those of atoms that are not its neighbours and of the padding. -/
theorem C175_missing_violated (L : ℕ) (hL : n ≤ L) (c : Mat n ℝ) (p : ℕ → Option ℝ) (z : Fin n → ℕ) (k : Fin n)
    (hk : p (z k) = none) : sumBlock L c p z = List.replicate L none := by
  have h1 : (List.range L).map (rowSum L c p z) = List.replicate L none := by
    refine List.eq_replicate_iff.2 ⟨by simp, ?_⟩
    intro y hy
    obtain ⟨i, _, rfl⟩ := List.mem_map.1 hy
    exact (rowSum_none L hL _ _ _ k.pos _).2 (Or.inl ⟨k, hk⟩)
  rw [sumBlock, h1, sortNan]
  have g1 : (List.replicate L (none : Option ℝ)).filterMap id = [] := by
    rw [List.filterMap_eq_nil_iff]; intro y hy; exact (List.mem_replicate.1 hy).2
  rw [g1]
  have : sortDesc id ([] : List ℝ) = [] := List.length_eq_zero_iff.1 ((sortDesc_perm id []).length_eq)
  rw [this]
  simp [List.filter_replicate]

/-- Two atoms of different elements that are bonded, where the table lacks the second. -/
example : (fun e : ℕ => if e = 8 then none else some (1 : ℝ)) (![6, 8] 1) = none := by simp

end CatLearn.Graph
