import Verif.Props.ScreeningUnits

/-!
# C254: correlations, screening and the order of the data
-/

namespace CatLearn.Props

open CatLearn CatLearn.Screen CatLearn.Correlation Finset

private theorem pearson_perm {n : ℕ} (σ : Equiv.Perm (Fin n)) (x y : Fin n → ℝ) : pearson (fun i => x (σ i)) (fun i => y (σ i)) = pearson x y := by
  have hm : ∀ x : Fin n → ℝ, mean (fun i => x (σ i)) = mean x := fun x => by
    unfold mean
    rw [Equiv.sum_comp σ x]
  unfold pearson
  simp only [hm]
  rw [Equiv.sum_comp σ fun i => (x i - mean x) ^ 2, Equiv.sum_comp σ fun i => (y i - mean y) ^ 2,
    Equiv.sum_comp σ fun i => (x i - mean x) * (y i - mean y)]

open Classical in
private theorem card_perm {α : Type} [Fintype α] (e : Equiv.Perm α) (P : α → Prop) : (univ.filter fun j => P (e j)).card = (univ.filter P).card := by
  refine Finset.card_bij (fun a _ => e a) ?_ ?_ ?_
  · intro a ha
    simpa using ha
  · intro a _ b _ h
    exact e.injective h
  · intro b hb
    exact ⟨e.symm b, by simpa using hb, by simp⟩

open Classical in
private theorem rank_perm {n : ℕ} (σ : Equiv.Perm (Fin n)) (x : Fin n → ℝ) : rank (fun i => x (σ i)) = fun i => rank x (σ i) := by
  funext i
  unfold rank
  rw [card_perm σ fun j => x j < x (σ i), card_perm σ fun j => x j = x (σ i)]

open Classical in
private theorem double {n : ℕ} (P : Fin n × Fin n → Prop) (hs : ∀ i j, P (i, j) → P (j, i)) (hi : ∀ i, ¬ P (i, i)) :
    (univ.filter P).card = 2 * ((pairs n).filter P).card := by
  have h1 : (univ.filter P) = ((pairs n).filter P) ∪ ((pairs n).filter P).image Prod.swap := by
    ext ⟨i, j⟩
    simp only [pairs, mem_filter, mem_univ, true_and, mem_union, mem_image, Prod.exists, Prod.swap_prod_mk, Prod.mk.injEq]
    constructor
    · intro h
      rcases lt_trichotomy i j with hlt | rfl | hlt
      · exact Or.inl ⟨hlt, h⟩
      · exact absurd h (hi i)
      · exact Or.inr ⟨j, i, ⟨hlt, hs i j h⟩, rfl, rfl⟩
    · rintro (h | ⟨a, b, ⟨-, h⟩, rfl, rfl⟩)
      · exact h.2
      · exact hs a b h
  rw [h1, Finset.card_union_of_disjoint, Finset.card_image_of_injective _ Prod.swap_injective, two_mul]
  rw [Finset.disjoint_left]
  rintro ⟨i, j⟩ ha hb
  simp only [pairs, mem_filter, mem_univ, true_and, mem_image, Prod.exists, Prod.swap_prod_mk, Prod.mk.injEq] at ha hb
  obtain ⟨a, b, ⟨h, -⟩, rfl, rfl⟩ := hb
  exact absurd ha.1 (not_lt.mpr h.le)

open Classical in
private theorem pairs_perm {n : ℕ} (σ : Equiv.Perm (Fin n)) (P : Fin n × Fin n → Prop) (hs : ∀ i j, P (i, j) → P (j, i)) (hi : ∀ i, ¬ P (i, i)) :
    ((pairs n).filter fun p => P (σ p.1, σ p.2)).card = ((pairs n).filter P).card := by
  have h1 := double P hs hi
  have h2 := double (fun p => P (σ p.1, σ p.2)) (fun i j h => hs _ _ h) (fun i => hi _)
  have h3 := card_perm (σ.prodCongr σ) P
  simp only [Equiv.prodCongr_apply, Prod.map] at h3
  omega

/-- C254, correlations.  Each coefficient is the same for the data in another order. -/
theorem C254_coefficients {n : ℕ} (k : Kind) (σ : Equiv.Perm (Fin n)) (x y : Fin n → ℝ) :
    coef k (fun i => x (σ i)) (fun i => y (σ i)) = coef k x y := by
  cases k with
  | pearson => exact pearson_perm σ x y
  | spearman =>
    show spearman _ _ = spearman _ _
    unfold spearman
    rw [rank_perm, rank_perm, pearson_perm]
  | kendall =>
    show kendall (fun i => x (σ i)) (fun i => y (σ i)) = kendall x y
    have c1 := pairs_perm σ (fun p => 0 < (x p.1 - x p.2) * (y p.1 - y p.2)) (fun i j h => by nlinarith) (fun i => by simp)
    have c2 := pairs_perm σ (fun p => (x p.1 - x p.2) * (y p.1 - y p.2) < 0) (fun i j h => by nlinarith) (fun i => by simp)
    have c3 := pairs_perm σ (fun p => x p.1 ≠ x p.2) (fun i j h => Ne.symm h) (fun i => by simp)
    have c4 := pairs_perm σ (fun p => y p.1 ≠ y p.2) (fun i j h => Ne.symm h) (fun i => by simp)
    unfold kendall
    simp only at c1 c2 c3 c4 ⊢
    simp only [c1, c2, c3, c4]
    congr!

/-- A column with its entries in another order: entry `i` is the old entry `σ i`. -/
def reorder {n : ℕ} (σ : Equiv.Perm (Fin n)) (d : Col) : Col := List.ofFn fun i => d.getD (σ i) 0

private theorem coefOf_reorder {n : ℕ} (k : Kind) (σ : Equiv.Perm (Fin n)) (d t : Col) (hd : d.length = n) :
    coefOf (fun {n} => coef (n := n) k) (reorder σ d) (reorder σ t) = coefOf (fun {n} => coef (n := n) k) d t := by
  have cast : ∀ (m : ℕ) (h : m = n) (x y : Fin m → ℝ) (x' y' : Fin n → ℝ), (∀ i, x i = x' (i.cast h)) → (∀ i, y i = y' (i.cast h)) →
      coef k x y = coef k x' y' := by
    intro m h x y x' y' hx hy
    subst h
    congr
    · funext i; exact hx i
    · funext i; exact hy i
  unfold coefOf
  congr 1
  show coef k _ _ = coef k _ _
  rw [cast _ hd d.get (fun i => t.getD i 0) (fun i => d.getD i 0) (fun i => t.getD i 0) (fun i => by simp) (fun i => rfl),
    ← C254_coefficients k σ]
  refine cast _ (by simp [reorder]) _ _ _ _ ?_ ?_
  · intro i
    rw [List.get_eq_getElem]
    unfold reorder
    rw [List.getElem_ofFn]
    rfl
  · intro i
    have hi : (i : ℕ) < n := by simpa [reorder] using i.2
    simp [reorder, List.getD_eq_getElem?_getD, hi]
    rfl

/-- C254 (partial: the test for constant features must give the same answers, see below).  Screening data in another order gives the same
order of features, the same correlations and the same number of features. -/
theorem C254_order_partial {n : ℕ} (σ : Equiv.Perm (Fin n)) (lin : List Col → Col → List ℝ) (c : String) (rc : Bool) (fresh : Nat → List Col) (t : Col)
    (cols : List Col) (hlen : ∀ d ∈ cols, d.length = n) (hfresh : ∀ r, ∀ d ∈ fresh r, d.length = n)
    (hconst : ∀ d ∈ cols, allclose (reorder σ d) = allclose d) (hcf : ∀ r, ∀ d ∈ fresh r, allclose (reorder σ d) = allclose d) :
    screen (scipy lin) c rc (fun r => (fresh r).map (reorder σ)) (reorder σ t) n (cols.map (reorder σ)) = screen (scipy lin) c rc fresh t n cols := by
  have hcorr : ∀ l : List Col, (∀ d ∈ l, d.length = n) → (∀ d ∈ l, allclose (reorder σ d) = allclose d) →
      getCorrelation (scipy lin) c (reorder σ t) (l.map (reorder σ)) = getCorrelation (scipy lin) c t l := by
    intro l h1 h2
    unfold getCorrelation
    rw [List.filterMap_map]
    apply List.filterMap_congr
    intro d hd
    have hp := coefOf_reorder .pearson σ d t (h1 d hd)
    have hs := coefOf_reorder .spearman σ d t (h1 d hd)
    have hk := coefOf_reorder .kendall σ d t (h1 d hd)
    simp only [coef] at hp hs hk
    simp only [Function.comp_apply, corrOf, scipy, h2 d hd, hp, hs, hk]
    rfl
  have hcore : ∀ (l : List Col) (randf : List Nat), (∀ d ∈ l, d.length = n) → (∀ d ∈ l, allclose (reorder σ d) = allclose d) →
      screenCore (scipy lin) c (reorder σ t) n (l.map (reorder σ)) randf = screenCore (scipy lin) c t n l randf := by
    intro l randf h1 h2
    unfold screenCore
    rw [hcorr l h1 h2]
    by_cases h : l = []
    · subst h; rfl
    · rw [if_neg h, if_neg (by simpa using h)]
  unfold screen setIndex
  cases rc with
  | false =>
    simpa [bind, Except.bind] using hcore cols [] hlen hconst
  | true =>
    simp only [if_true, List.length_map, bind, Except.bind]
    by_cases h : cols.length / 10 = 0
    · simp only [h, if_true]
    · simp only [h, if_false]
      rw [← List.map_append]
      refine hcore _ _ ?_ ?_
      · intro d hd
        rcases List.mem_append.mp hd with hd | hd
        · exact hlen d hd
        · exact hfresh _ d hd
      · intro d hd
        rcases List.mem_append.mp hd with hd | hd
        · exact hconst d hd
        · exact hcf _ d hd

private theorem other2 : ∃ v, coefOf pearson [1, 0, 0] [1, -1, 0] = v ∧ v ≠ 0 ∧ |v| < 1 := by
  obtain ⟨r, h1, h2, h3, h4⟩ := pearson3 ![1, 0, 0] ![1, -1, 0] ⟨0, 1, by simp⟩ ⟨0, 2, by simp⟩
  have hpos : 0 < r := by
    have h1' := h1
    unfold pearson at h1'
    simp only at h1'
    split at h1'
    · cases h1'
    · rename_i hne
      push Not at hne
      have s1 := Real.sqrt_pos.mpr (lt_of_le_of_ne (Finset.sum_nonneg fun i _ => sq_nonneg _) (Ne.symm hne.1))
      have s2 := Real.sqrt_pos.mpr (lt_of_le_of_ne (Finset.sum_nonneg fun i _ => sq_nonneg _) (Ne.symm hne.2))
      rw [← Option.some.inj h1']
      refine div_pos ?_ (mul_pos s1 s2)
      simp [mean, Fin.sum_univ_three]
  refine ⟨r, by rw [coefOf3, h1]; rfl, hpos.ne', ?_⟩
  rw [abs_lt]
  constructor
  · linarith
  · refine lt_of_le_of_ne h3 fun h => ?_
    obtain ⟨a, -, b, hb⟩ := h4.mp h
    have b1 := hb 1
    have b2 := hb 2
    simp at b1 b2
    linarith

/-- C254 is violated: the test for constant features compares with the first entry, with a tolerance relative to this entry.  With the first
two data exchanged, the feature that is the target itself but for its zero and unit comes first instead of last. -/
theorem C254_order_violated (lin : List Col → Col → List ℝ) (fresh : Nat → List Col) :
    (∃ r, screen (scipy lin) "spearman" false fresh [1, -1, 0] 3 [[100000 + 1 / 2, 100000 - 1 / 2, 100000], [1, 0, 0]] = .ok r ∧ r.index = [1, 0]) ∧
      ∃ r, screen (scipy lin) "spearman" false fresh [-1, 1, 0] 3 [[100000 - 1 / 2, 100000 + 1 / 2, 100000], [0, 1, 0]] = .ok r ∧ r.index = [0, 1] := by
  obtain ⟨v, hv, hv0, hv1⟩ := other2
  have c1 : allclose [100000 + 1 / 2, 100000 - 1 / 2, 100000] = true := by
    unfold allclose
    rw [decide_eq_true_iff]
    intro x hx
    simp only [List.mem_cons, List.not_mem_nil, or_false] at hx
    rcases hx with rfl | rfl | rfl <;> norm_num [abs_le]
  have c2 : allclose [1, 0, 0] = false := by
    unfold allclose
    rw [decide_eq_false_iff_not]
    intro h
    have := h 0 (by simp)
    norm_num at this
  have c2' : allclose [0, 1, 0] = false := by
    unfold allclose
    rw [decide_eq_false_iff_not]
    intro h
    have := h 1 (by simp)
    norm_num at this
  have c3 : allclose [100000 - 1 / 2, 100000 + 1 / 2, 100000] = false := by
    unfold allclose
    rw [decide_eq_false_iff_not]
    intro h
    have := h (100000 + 1 / 2) (by simp)
    norm_num at this
  have p3 : coefOf pearson [100000 - 1 / 2, 100000 + 1 / 2, 100000] [-1, 1, 0] = 1 := by
    rw [coefOf3]
    have : pearson ![100000 - 1 / 2, 100000 + 1 / 2, 100000] ![-1, 1, 0] = some 1 := by
      rw [(C214_perfect _ _ ⟨0, 1, by norm_num⟩ ⟨0, 2, by simp⟩).1]
      refine ⟨2, by norm_num, -200000, fun i => ?_⟩
      fin_cases i <;> norm_num
    rw [this]
    rfl
  have hv' : coefOf pearson [0, 1, 0] [-1, 1, 0] = v := by
    have e1 : reorder (Equiv.swap (0 : Fin 3) 1) [1, 0, 0] = [0, 1, 0] := by
      simp [reorder, List.ofFn_succ, Equiv.swap_apply_def]
    have e2 : reorder (Equiv.swap (0 : Fin 3) 1) [1, -1, 0] = [-1, 1, 0] := by
      simp [reorder, List.ofFn_succ, Equiv.swap_apply_def]
    have := coefOf_reorder .pearson (Equiv.swap (0 : Fin 3) 1) [1, 0, 0] [1, -1, 0] rfl
    rw [e1, e2] at this
    exact this.trans hv
  have hother := corr_pearson lin [1, -1, 0] [1, 0, 0] c2
  rw [hv] at hother
  have hother' := corr_pearson lin [-1, 1, 0] [0, 1, 0] c2'
  rw [hv'] at hother'
  constructor
  · exact (order_two lin fresh _ _ _ 3 0 v (corr_const lin _ _ c1) hother (by simpa using hv0)).1
  · have := corr_pearson lin [-1, 1, 0] [100000 - 1 / 2, 100000 + 1 / 2, 100000] c3
    rw [p3] at this
    exact (order_two lin fresh _ _ _ 3 v 1 hother' this (by simpa using hv1)).2

/-- Ordinary features meet the hypotheses of the partial statement. -/
example : allclose (reorder (Equiv.swap (0 : Fin 3) 2) [0, 1, 3]) = allclose [0, 1, 3] ∧ ([0, 1, 3] : Col).length = 3 := by
  have e : reorder (Equiv.swap (0 : Fin 3) 2) [0, 1, 3] = [3, 1, 0] := by
    simp [reorder, List.ofFn_succ, Equiv.swap_apply_def]
  have a : allclose [3, 1, 0] = false := by
    unfold allclose
    rw [decide_eq_false_iff_not]
    intro h
    have := h 1 (by simp)
    norm_num at this
  have b : allclose [0, 1, 3] = false := by
    unfold allclose
    rw [decide_eq_false_iff_not]
    intro h
    have := h 1 (by simp)
    norm_num at this
  rw [e, a, b]
  exact ⟨rfl, rfl⟩

end CatLearn.Props
