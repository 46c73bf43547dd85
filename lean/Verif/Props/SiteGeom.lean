import Verif.Model.SiteGeom
import Verif.Props.Neighbors
import Mathlib.Algebra.Order.Chebyshev
import Mathlib.Data.Finset.Prod
import Mathlib.Data.List.FinRange
import Mathlib.Tactic.FieldSimp
import Mathlib.Tactic.Linarith
import Mathlib.Tactic.Positivity
import Mathlib.Tactic.FinCases

/-!
C215: the features of a site.
-/

namespace CatLearn.SiteGeom

open CatLearn CatLearn.Nb Finset

/-- The four numbers describe the values of `f` on a nonempty set. -/
structure Describes {ι : Type} (s : Stats) (N : Finset ι) (f : ι → ℝ) : Prop where
  min_mem : ∃ j ∈ N, f j = s.min
  min_le : ∀ j ∈ N, s.min ≤ f j
  max_mem : ∃ j ∈ N, f j = s.max
  le_max : ∀ j ∈ N, f j ≤ s.max
  mean_eq : s.mean = (∑ j ∈ N, f j) / (N.card : ℝ)
  std_eq : s.std = Real.sqrt ((∑ j ∈ N, (f j - s.mean) ^ 2) / (N.card : ℝ))

private theorem describes_unique {ι κ : Type} {s s' : Stats} {N : Finset ι} {N' : Finset κ} {f : ι → ℝ} {f' : κ → ℝ} (h : Describes s N f)
    (h' : Describes s' N' f') (hs : ∀ g : ℝ → ℝ, ∑ j ∈ N, g (f j) = ∑ j ∈ N', g (f' j))
    (h1 : ∀ j ∈ N, ∃ k ∈ N', f' k = f j) (h2 : ∀ k ∈ N', ∃ j ∈ N, f j = f' k) : s = s' := by
  have hc : (N.card : ℝ) = N'.card := by simpa using hs fun _ => 1
  have hm : s.mean = s'.mean := by rw [h.mean_eq, h'.mean_eq, hc]; congr 1; exact hs id
  have hd : s.std = s'.std := by
    rw [h.std_eq, h'.std_eq, hc, hm]
    congr 2
    exact hs fun x => (x - s'.mean) ^ 2
  have hmin : s.min = s'.min := by
    obtain ⟨j, hj, e⟩ := h.min_mem
    obtain ⟨k, hk, e'⟩ := h'.min_mem
    obtain ⟨k2, hk2, e2⟩ := h1 j hj
    obtain ⟨j2, hj2, e3⟩ := h2 k hk
    apply le_antisymm
    · rw [← e', ← e3]; exact h.min_le _ hj2
    · rw [← e, ← e2]; exact h'.min_le _ hk2
  have hmax : s.max = s'.max := by
    obtain ⟨j, hj, e⟩ := h.max_mem
    obtain ⟨k, hk, e'⟩ := h'.max_mem
    obtain ⟨k2, hk2, e2⟩ := h1 j hj
    obtain ⟨j2, hj2, e3⟩ := h2 k hk
    apply le_antisymm
    · rw [← e, ← e2]; exact h'.le_max _ hk2
    · rw [← e', ← e3]; exact h.le_max _ hj2
  rcases s with ⟨a, b, c, d⟩
  rcases s' with ⟨a', b', c', d'⟩
  simp only at hmin hmax hm hd
  rw [hmin, hmax, hm, hd]

private theorem foldl_min (l : List ℝ) (x : ℝ) : l.foldl min x ∈ x :: l ∧ ∀ y ∈ x :: l, l.foldl min x ≤ y := by
  induction l generalizing x with
  | nil => simp
  | cons a l ih =>
    obtain ⟨h1, h2⟩ := ih (min x a)
    rw [List.foldl_cons]
    constructor
    · rcases List.mem_cons.1 h1 with h | h
      · rcases min_choice x a with e | e
        · rw [h, e]; simp
        · rw [h, e]; simp
      · simp [h]
    · intro y hy
      have h3 := h2 _ (List.mem_cons_self ..)
      rcases List.mem_cons.1 hy with rfl | hy
      · exact h3.trans (min_le_left _ _)
      · rcases List.mem_cons.1 hy with rfl | hy
        · exact h3.trans (min_le_right _ _)
        · exact h2 y (List.mem_cons_of_mem _ hy)

private theorem foldl_max (l : List ℝ) (x : ℝ) : l.foldl max x ∈ x :: l ∧ ∀ y ∈ x :: l, y ≤ l.foldl max x := by
  induction l generalizing x with
  | nil => simp
  | cons a l ih =>
    obtain ⟨h1, h2⟩ := ih (max x a)
    rw [List.foldl_cons]
    constructor
    · rcases List.mem_cons.1 h1 with h | h
      · rcases max_choice x a with e | e
        · rw [h, e]; simp
        · rw [h, e]; simp
      · simp [h]
    · intro y hy
      have h3 := h2 _ (List.mem_cons_self ..)
      rcases List.mem_cons.1 hy with rfl | hy
      · exact (le_max_left _ _).trans h3
      · rcases List.mem_cons.1 hy with rfl | hy
        · exact (le_max_right _ _).trans h3
        · exact h2 y (List.mem_cons_of_mem _ hy)

/-- If the values on the set are those of a list, `c` times. -/
private theorem stats_describes {ι : Type} (l : List ℝ) (N : Finset ι) (f : ι → ℝ) (c : ℝ) (hc : 0 < c) (hl : l ≠ [])
    (hm : ∀ x, x ∈ l ↔ ∃ j ∈ N, f j = x) (hs : ∀ g : ℝ → ℝ, ∑ j ∈ N, g (f j) = c * (l.map g).sum) :
    ∃ s, stats l = some s ∧ Describes s N f := by
  cases l with
  | nil => exact absurd rfl hl
  | cons x l =>
    have hcard : (N.card : ℝ) = c * ((x :: l).length : ℝ) := by
      have := hs fun _ => 1
      simp only [Finset.sum_const, nsmul_eq_mul, mul_one, List.map_const', List.sum_replicate] at this
      exact this
    have hlen : ((x :: l).length : ℝ) ≠ 0 := by
      have : (x :: l).length ≠ 0 := by simp
      exact_mod_cast this
    have hmean : (x :: l).sum / (x :: l).length = (∑ j ∈ N, f j) / (N.card : ℝ) := by
      have := hs id
      simp only [id_eq, List.map_id] at this
      rw [this, hcard, mul_div_mul_left _ _ hc.ne']
    refine ⟨_, rfl, ?_, ?_, ?_, ?_, hmean, ?_⟩
    · exact (hm _).1 (foldl_min l x).1
    · intro j hj
      exact (foldl_min l x).2 _ ((hm _).2 ⟨j, hj, rfl⟩)
    · exact (hm _).1 (foldl_max l x).1
    · intro j hj
      exact (foldl_max l x).2 _ ((hm _).2 ⟨j, hj, rfl⟩)
    · have := hs fun y => (y - (x :: l).sum / (x :: l).length) ^ 2
      simp only
      rw [this, hcard, mul_div_mul_left _ _ hc.ne']

variable {n : ℕ}

/-- The atoms other than the site, not at the same place, nearer than the sum of the radii plus 2 Å. -/
noncomputable def near (radius : ℕ → ℝ) (z : Fin n → ℕ) (p : Fin n → Fin 3 → ℝ) (i : Fin n) : Finset (Fin n) :=
  univ.filter fun j => j ≠ i ∧ p j ≠ p i ∧ Nb.distance (p i) (p j) < radius (z i) + radius (z j) + 2

private theorem dist_pos (a b : Fin 3 → ℝ) : 0 < Nb.distance a b ↔ b ≠ a := by
  unfold Nb.distance
  rw [Real.sqrt_pos]
  constructor
  · rintro h rfl
    simp at h
  · intro h
    obtain ⟨k, hk⟩ := Function.ne_iff.1 h
    refine lt_of_lt_of_le ?_ (Finset.single_le_sum (f := fun k => (a k - b k) ^ 2) (fun k _ => sq_nonneg _) (mem_univ k))
    exact lt_of_le_of_ne (sq_nonneg _) (Ne.symm (pow_ne_zero _ (sub_ne_zero.2 (Ne.symm hk))))

theorem cm_eq (radius : ℕ → ℝ) (z : Fin n → ℕ) (p : Fin n → Fin 3 → ℝ) (i j : Fin n) :
    cm radius z p i j = if j ∈ near radius z p i then 1 else 0 := by
  unfold cm connectionMatrix
  congr 1
  simp only [getNeighborlist, near, inShell, List.mem_filter, List.mem_finRange, true_and, if_true, Finset.mem_filter, mem_univ,
    decide_eq_true_eq, Nat.cast_one, one_mul, dist_pos, eq_iff_iff]
  rw [add_comm (radius (z j)), ne_comm (a := i)]

private theorem cn_eq (radius : ℕ → ℝ) (z : Fin n → ℕ) (p : Fin n → Fin 3 → ℝ) (i : Fin n) :
    cnList radius z p i = ((near radius z p i).card : ℝ) := by
  unfold cnList
  simp [cm_eq]

private theorem nb_eq (radius : ℕ → ℝ) (z : Fin n → ℕ) (p : Fin n → Fin 3 → ℝ) (i : Fin n) :
    neighbors (cm radius z p i) i = (List.finRange n).filter fun j => j ∈ near radius z p i := by
  unfold neighbors
  apply List.filter_congr
  intro j _
  by_cases h : j = i
  · subst h
    have : j ∉ near radius z p j := by simp [near]
    simp [this]
  · rw [Function.update_of_ne h, cm_eq]
    by_cases h' : j ∈ near radius z p i <;> simp [h']

private theorem masked_eq (radius : ℕ → ℝ) (z : Fin n → ℕ) (p : Fin n → Fin 3 → ℝ) (i : Fin n) (a : Fin n → ℝ)
    (ha : ∀ j ∈ near radius z p i, a j ≠ 0) :
    masked (cm radius z p i) a = ((List.finRange n).filter fun j => j ∈ near radius z p i).map a := by
  unfold masked
  rw [List.filter_map]
  have e : ∀ l : List (Fin n), (l.filter ((fun x => decide (x ≠ 0)) ∘ fun j => a j * cm radius z p i j)).map (fun j => a j * cm radius z p i j) =
      (l.filter fun j => j ∈ near radius z p i).map a := by
    intro l
    induction l with
    | nil => rfl
    | cons j l ih =>
      by_cases h : j ∈ near radius z p i
      · have h1 : a j * cm radius z p i j = a j := by rw [cm_eq, if_pos h, mul_one]
        rw [List.filter_cons_of_pos (by simp [h1, ha j h]), List.filter_cons_of_pos (by simpa using h), List.map_cons, List.map_cons, ih, h1]
      · have h1 : a j * cm radius z p i j = 0 := by rw [cm_eq, if_neg h, mul_zero]
        rw [List.filter_cons_of_neg (by simp [h1]), List.filter_cons_of_neg (by simpa using h), ih]
  exact e _

private theorem sum_list (N : Finset (Fin n)) (g : Fin n → ℝ) :
    ∑ j ∈ N, g j = (((List.finRange n).filter fun j => j ∈ N).map g).sum := by
  rw [← List.sum_toFinset g ((List.nodup_finRange n).filter _)]
  congr 1
  ext j
  simp

private theorem list_describes (N : Finset (Fin n)) (hN : N.Nonempty) (f : Fin n → ℝ) :
    ∃ s, stats (((List.finRange n).filter fun j => j ∈ N).map f) = some s ∧ Describes s N f := by
  refine stats_describes _ N f 1 one_pos ?_ ?_ ?_
  · obtain ⟨j, hj⟩ := hN
    intro h
    rw [List.map_eq_nil_iff, List.filter_eq_nil_iff] at h
    exact h j (List.mem_finRange j) (by simpa using hj)
  · intro x
    simp
  · intro g
    rw [one_mul, sum_list N fun j => g (f j), List.map_map]
    rfl

/-- Pairs and ordered pairs. -/
private theorem pairs_sum {α : Type} [DecidableEq α] (l : List α) (hl : l.Nodup) (g : α × α → ℝ) (hg : ∀ a b, g (a, b) = g (b, a)) :
    ∑ q ∈ l.toFinset.offDiag, g q = 2 * ((pairs l).map g).sum := by
  induction l with
  | nil => simp [pairs]
  | cons x l ih =>
    obtain ⟨hx, hl⟩ := List.nodup_cons.1 hl
    have hx' : x ∉ l.toFinset := by simpa using hx
    rw [List.toFinset_cons, Finset.offDiag_insert hx', Finset.sum_union, Finset.sum_union, ih hl, Finset.sum_product, Finset.sum_product_right,
      Finset.sum_singleton, Finset.sum_singleton]
    · simp only [pairs, List.map_append, List.map_map, List.sum_append]
      rw [List.sum_toFinset _ hl, List.sum_toFinset _ hl]
      have : (l.map fun y => g (y, x)) = l.map (g ∘ fun y => (x, y)) := List.map_congr_left fun y _ => hg y x
      rw [this]
      have : (l.map fun y => g (x, y)) = l.map (g ∘ fun y => (x, y)) := rfl
      rw [this]
      ring
    · rw [Finset.disjoint_left]
      rintro ⟨a, b⟩ h1 h2
      simp only [Finset.mem_offDiag, Finset.mem_product, Finset.mem_singleton] at h1 h2
      exact hx' (h2.1 ▸ h1.1)
    · rw [Finset.disjoint_left]
      rintro ⟨a, b⟩ h1 h2
      simp only [Finset.mem_union, Finset.mem_offDiag, Finset.mem_product, Finset.mem_singleton] at h1 h2
      rcases h1 with h1 | h1
      · exact hx' (h2.2 ▸ h1.2.1)
      · exact hx' (h2.2 ▸ h1.2)

private theorem pairs_mem {α : Type} (l : List α) (hl : l.Nodup) (q : α × α) : q ∈ pairs l → q.1 ∈ l ∧ q.2 ∈ l ∧ q.1 ≠ q.2 := by
  induction l with
  | nil => simp [pairs]
  | cons x l ih =>
    obtain ⟨hx, hl⟩ := List.nodup_cons.1 hl
    intro h
    rcases List.mem_append.1 h with h | h
    · obtain ⟨y, hy, rfl⟩ := List.mem_map.1 h
      exact ⟨by simp, by simp [hy], fun e => hx ((show x = y from e) ▸ hy)⟩
    · obtain ⟨h1, h2, h3⟩ := ih hl h
      exact ⟨by simp [h1], by simp [h2], h3⟩

private theorem mem_pairs {α : Type} (l : List α) (a b : α) (ha : a ∈ l) (hb : b ∈ l) (hne : a ≠ b) : (a, b) ∈ pairs l ∨ (b, a) ∈ pairs l := by
  induction l with
  | nil => cases ha
  | cons x l ih =>
    simp only [pairs, List.mem_append, List.mem_map]
    rcases List.mem_cons.1 ha with rfl | ha
    · rcases List.mem_cons.1 hb with rfl | hb
      · exact absurd rfl hne
      · exact Or.inl (Or.inl ⟨b, hb, rfl⟩)
    · rcases List.mem_cons.1 hb with hb | hb
      · exact Or.inr (Or.inl ⟨a, ha, by rw [hb]⟩)
      · exact (ih ha hb).imp Or.inr Or.inr

/-- The angle between the directions from `b` to `a` and to `c`, in degrees. -/
noncomputable def degrees (a b c : Fin 3 → ℝ) : ℝ :=
  Real.arccos ((∑ k, (a k - b k) * (c k - b k)) / (Real.sqrt (∑ k, (a k - b k) ^ 2) * Real.sqrt (∑ k, (c k - b k) ^ 2))) * 180 / Real.pi

private theorem degrees_symm (a b c : Fin 3 → ℝ) : degrees a b c = degrees c b a := by
  unfold degrees
  rw [mul_comm (Real.sqrt (∑ k, (a k - b k) ^ 2))]
  congr 4
  exact Finset.sum_congr rfl fun k _ => mul_comm _ _

private theorem degrees_range (a b c : Fin 3 → ℝ) : 0 ≤ degrees a b c ∧ degrees a b c ≤ 180 := by
  unfold degrees
  have h := Real.pi_pos
  constructor
  · exact div_nonneg (mul_nonneg (Real.arccos_nonneg _) (by norm_num)) h.le
  · rw [div_le_iff₀ h, mul_comm]
    exact mul_le_mul_of_nonneg_left (Real.arccos_le_pi _) (by norm_num)

private theorem angle_some (a b c : Fin 3 → ℝ) (ha : a ≠ b) (hc : c ≠ b) : angle a b c = some (degrees a b c) := by
  unfold angle
  rw [if_neg (mul_ne_zero ((dist_pos a b).2 ha.symm).ne' ((dist_pos c b).2 hc.symm).ne')]
  rfl

private theorem angles_eq (radius : ℕ → ℝ) (z : Fin n → ℕ) (p : Fin n → Fin 3 → ℝ) (i : Fin n) :
    ((pairs ((List.finRange n).filter fun j => j ∈ near radius z p i)).filterMap fun q => angle (p q.1) (p i) (p q.2)) =
      (pairs ((List.finRange n).filter fun j => j ∈ near radius z p i)).map fun q => degrees (p q.1) (p i) (p q.2) := by
  rw [← List.filterMap_eq_map]
  apply List.filterMap_congr
  intro q hq
  obtain ⟨h1, h2, -⟩ := pairs_mem _ ((List.nodup_finRange n).filter _) q hq
  have h1 : p q.1 ≠ p i := by
    have := (List.mem_filter.1 h1).2
    simp only [near, Finset.mem_filter, decide_eq_true_eq] at this
    exact this.2.2.1
  have h2 : p q.2 ≠ p i := by
    have := (List.mem_filter.1 h2).2
    simp only [near, Finset.mem_filter, decide_eq_true_eq] at this
    exact this.2.2.1
  rw [angle_some _ _ _ h1 h2]
  rfl

private theorem angles_describes (N : Finset (Fin n)) (hN : 1 < N.card) (f : Fin n × Fin n → ℝ) (hf : ∀ a b, f (a, b) = f (b, a)) :
    ∃ s, stats ((pairs ((List.finRange n).filter fun j => j ∈ N)).map f) = some s ∧ Describes s N.offDiag f := by
  classical
  have hnd : ((List.finRange n).filter fun j => j ∈ N).Nodup := (List.nodup_finRange n).filter _
  have hto : ((List.finRange n).filter fun j => j ∈ N).toFinset = N := by ext j; simp
  have hmem : ∀ a, a ∈ ((List.finRange n).filter fun j => j ∈ N) ↔ a ∈ N := by simp
  refine stats_describes _ _ f 2 two_pos ?_ ?_ ?_
  · obtain ⟨a, ha, b, hb, hab⟩ := Finset.one_lt_card.1 hN
    intro h
    rw [List.map_eq_nil_iff] at h
    rcases mem_pairs _ a b ((hmem a).2 ha) ((hmem b).2 hb) hab with h' | h' <;> rw [h] at h' <;> cases h'
  · intro x
    rw [List.mem_map]
    constructor
    · rintro ⟨q, hq, rfl⟩
      obtain ⟨h1, h2, h3⟩ := pairs_mem _ hnd q hq
      exact ⟨q, Finset.mem_offDiag.2 ⟨(hmem _).1 h1, (hmem _).1 h2, h3⟩, rfl⟩
    · rintro ⟨⟨a, b⟩, hq, rfl⟩
      obtain ⟨h1, h2, h3⟩ := Finset.mem_offDiag.1 hq
      rcases mem_pairs _ a b ((hmem a).2 h1) ((hmem b).2 h2) h3 with h | h
      · exact ⟨_, h, rfl⟩
      · exact ⟨_, h, hf b a⟩
  · intro g
    have := pairs_sum _ hnd (fun q => g (f q)) fun a b => by rw [hf]
    rw [hto] at this
    rw [this, List.map_map]
    rfl

private theorem near_symm (radius : ℕ → ℝ) (z : Fin n → ℕ) (p : Fin n → Fin 3 → ℝ) (i j : Fin n) (h : j ∈ near radius z p i) :
    i ∈ near radius z p j := by
  simp only [near, Finset.mem_filter, mem_univ, true_and] at h ⊢
  refine ⟨h.1.symm, h.2.1.symm, ?_⟩
  rw [distance_symm, add_comm (radius (z j))]
  exact h.2.2

/-- C215: the features of a site describe its neighbours, the atoms elsewhere within the sum of the radii plus 2 Å: their number, the
minimum, maximum, mean and standard deviation of their numbers of neighbours, of their atomic numbers, of their distances and, if there are at
least two, of the angles between them (each pair counted once, or twice, which is the same), which are between 0 and 180 degrees.  A site
without neighbours is refused. -/
theorem C215_features (radius : ℕ → ℝ) (valence : ℕ → ℕ) (z : Fin n → ℕ) (hz : ∀ j, z j ≠ 0) (p : Fin n → Fin 3 → ℝ) (i : Fin n) :
    (near radius z p i = ∅ → siteFeatures radius valence z p i = .error .value) ∧
    ((near radius z p i).Nonempty → ∃ f sc sz sd, siteFeatures radius valence z p i = .ok f ∧ f.index = i ∧ f.number = z i ∧
      f.valence = valence (z i) ∧ f.cn = (near radius z p i).card ∧
      f.neighborCn = some sc ∧ Describes sc (near radius z p i) (fun j => ((near radius z p j).card : ℝ)) ∧
      f.neighborNumber = some sz ∧ Describes sz (near radius z p i) (fun j => (z j : ℝ)) ∧
      f.distance = some sd ∧ Describes sd (near radius z p i) (fun j => Nb.distance (p j) (p i)) ∧
      ((near radius z p i).card = 1 → f.angle = none) ∧
      (1 < (near radius z p i).card → ∃ sa, f.angle = some sa ∧ Describes sa (near radius z p i).offDiag
        (fun q => degrees (p q.1) (p i) (p q.2)) ∧ 0 ≤ sa.min ∧ sa.max ≤ 180)) := by
  classical
  have hnb := nb_eq radius z p i
  constructor
  · intro h
    unfold siteFeatures
    simp only [hnb, h, Finset.notMem_empty, decide_false, List.filter_false, List.map_nil, if_true]
  · intro h
    obtain ⟨sc, hc1, hc2⟩ := list_describes _ h fun j => ((near radius z p j).card : ℝ)
    obtain ⟨sz, hz1, hz2⟩ := list_describes _ h fun j => (z j : ℝ)
    obtain ⟨sd, hd1, hd2⟩ := list_describes _ h fun j => Nb.distance (p j) (p i)
    have hne : ((neighbors (cm radius z p i) i).map fun j => Nb.distance (p j) (p i)) ≠ [] := by
      rw [hnb]
      intro e
      rw [e] at hd1
      cases hd1
    refine ⟨_, sc, sz, sd, by unfold siteFeatures; simp only [if_neg hne]; rfl, rfl, rfl, rfl, cn_eq .., ?_, hc2, ?_, hz2, ?_, hd2, ?_, ?_⟩
    · simp only
      rw [masked_eq, ← hc1]
      · congr 2
        funext j
        rw [cn_eq]
      · intro j hj
        rw [cn_eq]
        have : 0 < (near radius z p j).card := Finset.card_pos.2 ⟨i, near_symm radius z p i j hj⟩
        exact_mod_cast this.ne'
    · simp only
      rw [masked_eq, ← hz1]
      intro j _
      exact_mod_cast hz j
    · simp only
      rw [hnb, hd1]
    · intro h1
      simp only
      rw [hnb]
      have hlen : ((List.finRange n).filter fun j => j ∈ near radius z p i).length = 1 := by
        rw [← h1, ← List.toFinset_card_of_nodup ((List.nodup_finRange n).filter _)]
        congr 1
        ext j; simp
      obtain ⟨a, ha⟩ := List.length_eq_one_iff.1 hlen
      rw [ha]
      simp [pairs, stats]
    · intro h1
      obtain ⟨sa, ha1, ha2⟩ := angles_describes _ h1 (fun q => degrees (p q.1) (p i) (p q.2)) fun a b => degrees_symm ..
      refine ⟨sa, ?_, ha2, ?_, ?_⟩
      · simp only
        rw [hnb, angles_eq, ha1]
      · obtain ⟨q, -, hq⟩ := ha2.min_mem
        rw [← hq]; exact (degrees_range ..).1
      · obtain ⟨q, -, hq⟩ := ha2.max_mem
        rw [← hq]; exact (degrees_range ..).2

private theorem dist_sq (a b : Fin 3 → ℝ) : Nb.distance a b ^ 2 = ∑ k, (a k - b k) ^ 2 := Real.sq_sqrt (Finset.sum_nonneg fun _ _ => sq_nonneg _)

private theorem dot_eq (a b c : Fin 3 → ℝ) :
    ∑ k, (a k - b k) * (c k - b k) = (Nb.distance a b ^ 2 + Nb.distance c b ^ 2 - Nb.distance a c ^ 2) / 2 := by
  rw [dist_sq, dist_sq, dist_sq, ← Finset.sum_add_distrib, ← Finset.sum_sub_distrib, Finset.sum_div]
  exact Finset.sum_congr rfl fun k _ => by ring

/-- C215: the features only depend on the distances between the atoms: moving, rotating or reflecting the structure changes nothing. -/
theorem C215_rigid (radius : ℕ → ℝ) (valence : ℕ → ℕ) (z : Fin n → ℕ) (p p' : Fin n → Fin 3 → ℝ)
    (h : ∀ j k, ∑ a, (p' j a - p' k a) ^ 2 = ∑ a, (p j a - p k a) ^ 2) (i : Fin n) :
    siteFeatures radius valence z p' i = siteFeatures radius valence z p i := by
  have hd : ∀ j k, Nb.distance (p' j) (p' k) = Nb.distance (p j) (p k) := by
    intro j k
    unfold Nb.distance
    rw [h]
  have hcm : cm radius z p' = cm radius z p := by
    unfold cm
    congr 2
    funext j k
    exact hd j k
  have hcn : cnList radius z p' = cnList radius z p := by unfold cnList; rw [hcm]
  have ha : ∀ j k, angle (p' j) (p' i) (p' k) = angle (p j) (p i) (p k) := by
    intro j k
    unfold angle
    rw [dot_eq, dot_eq, hd, hd, hd]
  unfold siteFeatures
  simp only [hcm, hcn, ha, hd]

/-- C215: the numbering of the atoms does not matter. -/
theorem C215_relabel (radius : ℕ → ℝ) (valence : ℕ → ℕ) (z : Fin n → ℕ) (hz : ∀ j, z j ≠ 0) (p : Fin n → Fin 3 → ℝ) (σ : Equiv.Perm (Fin n))
    (i : Fin n) : siteFeatures radius valence (z ∘ σ) (p ∘ σ) i =
      (siteFeatures radius valence z p (σ i)).map fun f => { f with index := i } := by
  classical
  have hn : ∀ j, (near radius (z ∘ σ) (p ∘ σ) j).map σ.toEmbedding = near radius z p (σ j) := by
    intro j
    ext k
    simp only [Finset.mem_map_equiv, near, Finset.mem_filter, mem_univ, true_and, Function.comp_apply, Equiv.apply_symm_apply]
    rw [ne_eq, Equiv.symm_apply_eq]
  have hcard : ∀ j, (near radius (z ∘ σ) (p ∘ σ) j).card = (near radius z p (σ j)).card := by
    intro j
    rw [← hn j, Finset.card_map]
  have hsum : ∀ (f : Fin n → ℝ) (g : ℝ → ℝ), ∑ j ∈ near radius (z ∘ σ) (p ∘ σ) i, g (f (σ j)) = ∑ j ∈ near radius z p (σ i), g (f j) := by
    intro f g
    rw [← hn i, Finset.sum_map]
    rfl
  have hmem1 : ∀ f : Fin n → ℝ, ∀ j ∈ near radius (z ∘ σ) (p ∘ σ) i, ∃ k ∈ near radius z p (σ i), f k = f (σ j) := by
    intro f j hj
    refine ⟨σ j, ?_, rfl⟩
    rw [← hn i]
    simpa using hj
  have hmem2 : ∀ f : Fin n → ℝ, ∀ k ∈ near radius z p (σ i), ∃ j ∈ near radius (z ∘ σ) (p ∘ σ) i, f (σ j) = f k := by
    intro f k hk
    rw [← hn i] at hk
    exact ⟨σ.symm k, by simpa using hk, by simp⟩
  have huniq : ∀ (f : Fin n → ℝ) (s s' : Stats), Describes s (near radius (z ∘ σ) (p ∘ σ) i) (fun j => f (σ j)) →
      Describes s' (near radius z p (σ i)) f → s = s' := fun f s s' h h' => describes_unique h h' (hsum f) (hmem1 f) (hmem2 f)
  obtain ⟨e1, o1⟩ := C215_features radius valence (z ∘ σ) (fun j => hz (σ j)) (p ∘ σ) i
  obtain ⟨e2, o2⟩ := C215_features radius valence z hz p (σ i)
  rcases Finset.eq_empty_or_nonempty (near radius (z ∘ σ) (p ∘ σ) i) with h | h
  · rw [e1 h, e2 (by rw [← hn i, h]; rfl)]
    rfl
  · obtain ⟨f, sc, sz, sd, hf, a1, a2, a3, a4, a5, a6, a7, a8, a9, a10, a11, a12⟩ := o1 h
    obtain ⟨f', sc', sz', sd', hf', b1, b2, b3, b4, b5, b6, b7, b8, b9, b10, b11, b12⟩ := o2 (by rw [← hn i]; exact h.map)
    rw [hf, hf']
    simp only [Except.map, Except.ok.injEq]
    have u1 : sc = sc' := by
      refine huniq (fun j => ((near radius z p j).card : ℝ)) sc sc' ?_ b6
      simpa only [hcard] using a6
    have u2 : sz = sz' := huniq (fun j => (z j : ℝ)) sz sz' a8 b8
    have u3 : sd = sd' := huniq (fun j => Nb.distance (p j) (p (σ i))) sd sd' a10 b10
    have u4 : f.angle = f'.angle := by
      rcases Nat.lt_or_ge 1 (near radius (z ∘ σ) (p ∘ σ) i).card with hc | hc
      · obtain ⟨sa, c1, c2, -⟩ := a12 hc
        obtain ⟨sa', d1, d2, -⟩ := b12 (by rw [← hcard i]; exact hc)
        rw [c1, d1]
        congr 1
        have hoff : (near radius (z ∘ σ) (p ∘ σ) i).offDiag.map (σ.toEmbedding.prodMap σ.toEmbedding) = (near radius z p (σ i)).offDiag := by
          rw [← hn i]
          ext ⟨a, b⟩
          simp only [Finset.mem_map, Finset.mem_offDiag, Function.Embedding.prodMap, Function.Embedding.coeFn_mk, Prod.map, Prod.mk.injEq, Prod.exists]
          constructor
          · rintro ⟨c, d, ⟨h1, h2, h3⟩, rfl, rfl⟩
            exact ⟨⟨c, h1, rfl⟩, ⟨d, h2, rfl⟩, fun e => h3 (σ.toEmbedding.injective e)⟩
          · rintro ⟨⟨c, h1, rfl⟩, ⟨d, h2, rfl⟩, h3⟩
            exact ⟨c, d, ⟨h1, h2, fun e => h3 (by rw [e])⟩, rfl, rfl⟩
        refine describes_unique c2 d2 ?_ ?_ ?_
        · intro g
          rw [← hoff, Finset.sum_map]
          rfl
        · intro q hq
          refine ⟨(σ.toEmbedding.prodMap σ.toEmbedding) q, ?_, rfl⟩
          rw [← hoff]
          exact Finset.mem_map_of_mem _ hq
        · intro q hq
          rw [← hoff] at hq
          obtain ⟨q', h1, rfl⟩ := Finset.mem_map.1 hq
          exact ⟨q', h1, rfl⟩
      · have hc1 : (near radius (z ∘ σ) (p ∘ σ) i).card = 1 := le_antisymm hc (Finset.card_pos.2 h)
        rw [a11 hc1, b11 (by rw [← hcard i]; exact hc1)]
    rcases f with ⟨f1, f2, f3, f4, f5, f6, f7, f8⟩
    rcases f' with ⟨g1, g2, g3, g4, g5, g6, g7, g8⟩
    simp only at a1 a2 a3 a4 a5 a7 a9 b1 b2 b3 b4 b5 b7 b9 u4
    subst a1 a2 a3 a4 a5 a7 a9 b1 b2 b3 b4 b5 b7 b9 u4 u1 u2 u3
    simp [hcard]

/-- C215 is violated for periodic structures: the features depend on the copy of an atom the cell happens to contain.  Two atoms at distance
`d` are neighbours; moved by any lattice vector that is long enough, one of them has no neighbours any more and is refused. -/
theorem C215_periodic_violated (radius : ℕ → ℝ) (valence : ℕ → ℕ) (a b : ℕ) (ha : a ≠ 0) (hb : b ≠ 0) (d L : ℝ) (hd : 0 < d)
    (hr : d < radius a + radius b + 2) (hL : radius a + radius b + 2 ≤ d + L) :
    (∃ f, siteFeatures radius valence ![a, b] ![![0, 0, 0], ![d, 0, 0]] 0 = .ok f ∧ f.cn = 1) ∧
      siteFeatures radius valence ![a, b] ![![0, 0, 0], ![d + L, 0, 0]] 0 = .error .value := by
  have hz : ∀ j, (![a, b] : Fin 2 → ℕ) j ≠ 0 := by intro j; fin_cases j <;> simp [ha, hb]
  have hdist : ∀ x : ℝ, 0 < x → Nb.distance ![0, 0, 0] ![x, 0, 0] = x := by
    intro x hx
    unfold Nb.distance
    simp [Fin.sum_univ_three, Real.sqrt_sq hx.le]
  have hnear : ∀ x : ℝ, 0 < x → near radius ![a, b] ![![0, 0, 0], ![x, 0, 0]] 0 = if x < radius a + radius b + 2 then {1} else ∅ := by
    intro x hx
    ext j
    fin_cases j
    · have h0 : (0 : Fin 2) ∉ near radius ![a, b] ![![0, 0, 0], ![x, 0, 0]] 0 := by
        intro h
        exact (Finset.mem_filter.1 h).2.1 rfl
      split <;> simpa using h0
    · have hne : (![x, 0, 0] : Fin 3 → ℝ) ≠ ![0, 0, 0] := by
        intro e
        have := congrFun e 0
        simp at this
        exact hx.ne' this
      have := hdist x hx
      split
      · rename_i h
        simp only [near, Finset.mem_filter, mem_univ, true_and, Fin.mk_one, Finset.mem_singleton, iff_true]
        refine ⟨by decide, hne, ?_⟩
        show Nb.distance ![0, 0, 0] ![x, 0, 0] < radius a + radius b + 2
        rw [this]; exact h
      · rename_i h
        simp only [near, Finset.mem_filter, mem_univ, true_and, Fin.mk_one, Finset.notMem_empty, iff_false, not_and]
        intro _ _
        show ¬ Nb.distance ![0, 0, 0] ![x, 0, 0] < radius a + radius b + 2
        rw [this]; exact h
  constructor
  · obtain ⟨f, _, _, _, h1, _, _, _, h2, _⟩ := (C215_features radius valence _ hz ![![0, 0, 0], ![d, 0, 0]] 0).2 (by
      rw [hnear d hd, if_pos hr]; exact Finset.singleton_nonempty _)
    refine ⟨f, h1, ?_⟩
    rw [h2, hnear d hd, if_pos hr]
    simp
  · refine (C215_features radius valence _ hz _ 0).1 ?_
    rw [hnear (d + L) (by linarith), if_neg (by linarith)]

/-- The hypotheses of the violation: copper atoms at 2.5 Å in a cell of 10 Å. -/
example : ∃ (radius : ℕ → ℝ) (d L : ℝ), 0 < d ∧ d < radius 29 + radius 29 + 2 ∧ radius 29 + radius 29 + 2 ≤ d + L :=
  ⟨fun _ => 1.32, 2.5, 10, by norm_num, by norm_num, by norm_num⟩

/-- A rotation about the third axis. -/
example : ∃ p p' : Fin 2 → Fin 3 → ℝ, p ≠ p' ∧ ∀ j k, ∑ a, (p' j a - p' k a) ^ 2 = ∑ a, (p j a - p k a) ^ 2 := by
  refine ⟨![![1, 2, 3], ![4, 5, 6]], ![![-2, 1, 3], ![-5, 4, 6]], ?_, ?_⟩
  · intro h
    have := congrFun (congrFun h 0) 0
    norm_num at this
  · intro j k
    fin_cases j <;> fin_cases k <;> simp [Fin.sum_univ_three, Matrix.cons_val] <;> norm_num

end CatLearn.SiteGeom
