import Verif.Model.NeighborFeatures
import Mathlib.Algebra.BigOperators.Fin
import Mathlib.Data.Finset.Dedup
import Mathlib.Data.Finset.Card
import Mathlib.Data.Fintype.Card
import Mathlib.Tactic.FinCases
import Mathlib.Tactic.Linarith
import Mathlib.Tactic.NormNum
import Mathlib.Tactic.Ring

/-!
C218: the vector of `neighbor_features`.
-/

namespace CatLearn.NbFeat

open CatLearn CatLearn.Nb

/-! ### Sets of integers -/

private theorem table_step (t : ℕ → Option ℕ) (seen : List ℕ) (x : ℕ) (ht : ∀ i y, t i = some y ↔ y ∈ seen ∧ y % 8 = i)
    (hx : ∀ y ∈ seen, y % 8 = x % 8 → y = x) (i y : ℕ) : addEntry 32 t x (x % 8) x i = some y ↔ y ∈ seen ++ [x] ∧ y % 8 = i := by
  unfold addEntry
  cases h : t (x % 8) with
  | none =>
    simp only [List.mem_append, List.mem_singleton]
    by_cases hi : i = x % 8
    · subst hi
      rw [Function.update_self]
      constructor
      · intro e
        injection e with e
        subst e
        exact ⟨Or.inr rfl, rfl⟩
      · rintro ⟨hy | rfl, e⟩
        · rw [(ht _ _).2 ⟨hy, e⟩] at h
          simp at h
        · rfl
    · rw [Function.update_of_ne hi, ht]
      constructor
      · exact fun h => ⟨Or.inl h.1, h.2⟩
      · rintro ⟨hy | rfl, e⟩
        · exact ⟨hy, e⟩
        · exact absurd e.symm hi
  | some w =>
    obtain ⟨hw, e⟩ := (ht _ _).1 h
    have hwx := hx w hw e
    subst hwx
    simp only [if_true, List.mem_append, List.mem_singleton]
    rw [ht]
    constructor
    · exact fun h => ⟨Or.inl h.1, h.2⟩
    · rintro ⟨hy | rfl, e'⟩
      · exact ⟨hy, e'⟩
      · exact ⟨hw, e'⟩

private theorem table_spec : ∀ (l : List ℕ) (t : ℕ → Option ℕ) (seen : List ℕ), (∀ i y, t i = some y ↔ y ∈ seen ∧ y % 8 = i) →
    (∀ x ∈ seen ++ l, ∀ y ∈ seen ++ l, x % 8 = y % 8 → x = y) → ∀ i y,
      l.foldl (fun t x => addEntry 32 t x (x % 8) x) t i = some y ↔ y ∈ seen ++ l ∧ y % 8 = i := by
  intro l
  induction l with
  | nil => intro t seen ht _ i y; simpa using ht i y
  | cons x l ih =>
    intro t seen ht hd i y
    rw [List.foldl_cons, ih _ (seen ++ [x]) (table_step t seen x ht fun y hy e => hd y (by simp [hy]) x (by simp) e) (by simpa using hd)]
    simp

private theorem setTable_spec (l : List ℕ) (hd : ∀ x ∈ l, ∀ y ∈ l, x % 8 = y % 8 → x = y) (i y : ℕ) :
    setTable l i = some y ↔ y ∈ l ∧ y % 8 = i := by
  unfold setTable
  rw [table_spec l _ [] (by simp) (by simpa using hd)]
  simp

private theorem pySet_congr (l l' : List ℕ) (hd : ∀ x ∈ l, ∀ y ∈ l, x % 8 = y % 8 → x = y) (h : ∀ x, x ∈ l ↔ x ∈ l') : pySet l = pySet l' := by
  unfold pySet
  congr 1
  funext i
  apply Option.ext
  intro y
  rw [setTable_spec l hd, setTable_spec l' (by simpa only [← h] using hd), h]

/-- The slots tried for `x`. -/
private def probe (x : ℕ) : ℕ → ℕ × ℕ
  | 0 => (x % 8, x)
  | k + 1 => ((5 * (probe x k).1 + 1 + (probe x k).2 / 32) % 8, (probe x k).2 / 32)

private theorem probe_all : ∀ x < 128, ∀ s < 8, ∃ k < 32, (probe x k).1 = s := by decide +kernel

private theorem probe_lt (x k : ℕ) : (probe x k).1 < 8 := by
  cases k <;> exact Nat.mod_lt _ (by norm_num)

private theorem addEntry_walk (t : ℕ → Option ℕ) (x : ℕ) : ∀ (m fuel k : ℕ), m < fuel →
    (∀ j < m, ∃ w, w ≠ x ∧ t (probe x (k + j)).1 = some w) →
    addEntry fuel t x (probe x k).1 (probe x k).2 = addEntry (fuel - m) t x (probe x (k + m)).1 (probe x (k + m)).2 := by
  intro m
  induction m with
  | zero => intro fuel k _ _; rfl
  | succ m ih =>
    intro fuel k hf h
    obtain ⟨fuel, rfl⟩ : ∃ f, fuel = f + 1 := ⟨fuel - 1, by omega⟩
    obtain ⟨w, hw, hw'⟩ := h 0 (by omega)
    rw [Nat.add_zero] at hw'
    have h1 : addEntry (fuel + 1) t x (probe x k).1 (probe x k).2 = addEntry fuel t x (probe x (k + 1)).1 (probe x (k + 1)).2 := by
      conv_lhs => unfold addEntry
      simp only [hw', if_neg hw]
      rfl
    rw [h1, ih fuel (k + 1) (by omega) fun j hj => by
      have := h (j + 1) (by omega)
      rwa [show k + (j + 1) = k + 1 + j by omega] at this]
    rw [show k + 1 + m = k + (m + 1) by omega, show fuel + 1 - (m + 1) = fuel - m by omega]

/-- What the table looks like after the elements of `seen`. -/
private structure Table (t : ℕ → Option ℕ) (seen : List ℕ) : Prop where
  mem : ∀ i y, t i = some y → i < 8 ∧ y ∈ seen
  inj : ∀ i j y, t i = some y → t j = some y → i = j
  placed : ∀ y ∈ seen, ∃ k < 32, t (probe y k).1 = some y ∧ ∀ j < k, ∃ w, w ≠ y ∧ t (probe y j).1 = some w

private theorem table_free {t : ℕ → Option ℕ} {seen : List ℕ} (h : Table t seen) (h4 : seen.dedup.length ≤ 4) : ∃ s < 8, t s = none := by
  by_contra hc
  have hall : ∀ s : Fin 8, ∃ y, t s = some y := by
    intro s
    cases e : t s with
    | none => exact absurd ⟨s.val, s.isLt, e⟩ hc
    | some y => exact ⟨y, rfl⟩
  choose f hf using hall
  have hinj : Function.Injective f := by
    intro a b hab
    exact Fin.ext (h.inj a b (f a) (hf a) (hab ▸ hf b))
  have hsub : Finset.univ.image f ⊆ seen.toFinset := by
    intro y hy
    obtain ⟨s, -, rfl⟩ := Finset.mem_image.1 hy
    exact List.mem_toFinset.2 (h.mem _ _ (hf s)).2
  have := Finset.card_le_card hsub
  rw [Finset.card_image_of_injective _ hinj, Finset.card_univ, Fintype.card_fin, List.card_toFinset] at this
  omega

private theorem table_add {t : ℕ → Option ℕ} {seen : List ℕ} (h : Table t seen) (x : ℕ) (hx : x < 128) (h4 : seen.dedup.length ≤ 4) :
    Table (addEntry 32 t x (x % 8) x) (seen ++ [x]) := by
  obtain ⟨s, hs, hfree⟩ := table_free h h4
  obtain ⟨k0, hk0, e0⟩ := probe_all x hx s hs
  have hex : ∃ k, t (probe x k).1 = none ∨ t (probe x k).1 = some x := ⟨k0, Or.inl (e0 ▸ hfree)⟩
  classical
  obtain ⟨k, hk, hmin⟩ : ∃ k, (t (probe x k).1 = none ∨ t (probe x k).1 = some x) ∧
      ∀ j < k, ¬(t (probe x j).1 = none ∨ t (probe x j).1 = some x) := ⟨Nat.find hex, Nat.find_spec hex, fun j hj => Nat.find_min hex hj⟩
  have hk32 : k < 32 := by
    by_contra hc
    exact hmin k0 (by omega) (Or.inl (e0 ▸ hfree))
  have hocc : ∀ j < k, ∃ w, w ≠ x ∧ t (probe x j).1 = some w := by
    intro j hj
    have := hmin j hj
    push Not at this
    obtain ⟨w, hw⟩ := Option.ne_none_iff_exists'.1 this.1
    exact ⟨w, fun e => this.2 (e ▸ hw), hw⟩
  have hwalk := addEntry_walk t x k 32 0 hk32 (by simpa using hocc)
  rw [Nat.zero_add] at hwalk
  obtain ⟨f, hf⟩ : ∃ f, 32 - k = f + 1 := ⟨31 - k, by omega⟩
  change Table (addEntry 32 t x (probe x 0).1 (probe x 0).2) _
  rw [hwalk, hf]
  rcases hk with hk | hk
  · have hnew : addEntry (f + 1) t x (probe x k).1 (probe x k).2 = Function.update t (probe x k).1 (some x) := by
      unfold addEntry
      simp only [hk]
    rw [hnew]
    have hxn : ∀ i, t i ≠ some x := by
      intro i hi
      obtain ⟨k', -, h1, h2⟩ := h.placed x (h.mem i x hi).2
      rcases lt_trichotomy k' k with hlt | rfl | hlt
      · exact hmin k' hlt (Or.inr h1)
      · rw [hk] at h1
        simp at h1
      · obtain ⟨w, -, hw⟩ := h2 k hlt
        rw [hk] at hw
        simp at hw
    have hkeep : ∀ i w, t i = some w → Function.update t (probe x k).1 (some x) i = some w := by
      intro i w hi
      rw [Function.update_of_ne]
      · exact hi
      · rintro rfl
        rw [hk] at hi
        simp at hi
    have hcase : ∀ i y, Function.update t (probe x k).1 (some x) i = some y → (i = (probe x k).1 ∧ y = x) ∨ t i = some y := by
      intro i y hi
      by_cases e : i = (probe x k).1
      · rw [e, Function.update_self] at hi
        injection hi with hi
        exact Or.inl ⟨e, hi.symm⟩
      · rw [Function.update_of_ne e] at hi
        exact Or.inr hi
    refine ⟨?_, ?_, ?_⟩
    · intro i y hi
      rcases hcase i y hi with ⟨rfl, rfl⟩ | hi
      · exact ⟨probe_lt _ _, by simp⟩
      · exact ⟨(h.mem i y hi).1, List.mem_append_left _ (h.mem i y hi).2⟩
    · intro i j y hi hj
      rcases hcase i y hi with ⟨e1, e2⟩ | hi' <;> rcases hcase j y hj with ⟨e3, e4⟩ | hj'
      · rw [e1, e3]
      · exact absurd (e2 ▸ hj') (hxn j)
      · exact absurd (e4 ▸ hi') (hxn i)
      · exact h.inj i j y hi' hj'
    · intro y hy
      rcases List.mem_append.1 hy with hy | hy
      · obtain ⟨k', hk', h1, h2⟩ := h.placed y hy
        refine ⟨k', hk', hkeep _ _ h1, fun j hj => ?_⟩
        obtain ⟨w, hw, hw'⟩ := h2 j hj
        exact ⟨w, hw, hkeep _ _ hw'⟩
      · rw [List.mem_singleton.1 hy]
        refine ⟨k, hk32, Function.update_self .., fun j hj => ?_⟩
        obtain ⟨w, hw, hw'⟩ := hocc j hj
        exact ⟨w, hw, hkeep _ _ hw'⟩
  · have hold : addEntry (f + 1) t x (probe x k).1 (probe x k).2 = t := by
      unfold addEntry
      simp only [hk, if_true]
    rw [hold]
    refine ⟨fun i y hi => ⟨(h.mem i y hi).1, List.mem_append_left _ (h.mem i y hi).2⟩, h.inj, fun y hy => ?_⟩
    rcases List.mem_append.1 hy with hy | hy
    · exact h.placed y hy
    · rw [List.mem_singleton.1 hy]
      exact h.placed x (h.mem _ _ hk).2

private theorem table_all : ∀ (l : List ℕ) (t : ℕ → Option ℕ) (seen : List ℕ), Table t seen → (∀ x ∈ l, x < 128) → (seen ++ l).dedup.length ≤ 4 →
    Table (l.foldl (fun t x => addEntry 32 t x (x % 8) x) t) (seen ++ l) := by
  intro l
  induction l with
  | nil => intro t seen h _ _; simpa using h
  | cons x l ih =>
    intro t seen h hx h4
    have hle : seen.dedup.length ≤ 4 := by
      refine le_trans ?_ h4
      rw [← List.card_toFinset, ← List.card_toFinset]
      exact Finset.card_le_card fun y hy => by
        rw [List.mem_toFinset] at hy ⊢
        exact List.mem_append_left _ hy
    have := ih _ (seen ++ [x]) (table_add h x (hx x (by simp)) hle) (fun y hy => hx y (List.mem_cons_of_mem _ hy)) (by simpa using h4)
    simpa using this

/-- The elements of a small set: each once. -/
private theorem pySet_perm (l : List ℕ) (hl : ∀ x ∈ l, x < 128) (h4 : l.dedup.length ≤ 4) : (pySet l).Nodup ∧ ∀ x, x ∈ pySet l ↔ x ∈ l := by
  have h : Table (setTable l) l := by
    have := table_all l (fun _ => none) [] ⟨by simp, by simp, by simp⟩ hl (by simpa using h4)
    simpa [setTable] using this
  constructor
  · unfold pySet
    refine List.Nodup.filterMap ?_ List.nodup_range
    intro a b y ha hb
    exact h.inj a b y ha hb
  · intro x
    unfold pySet
    rw [List.mem_filterMap]
    constructor
    · rintro ⟨i, -, hi⟩
      exact (h.mem i x hi).2
    · intro hx
      obtain ⟨k, -, h1, -⟩ := h.placed x hx
      exact ⟨_, List.mem_range.2 (probe_lt x k), h1⟩

/-! ### Renumbering -/

variable {n : ℕ}

private theorem elementList_perm (z : Fin n → ℕ) (σ : Equiv.Perm (Fin n)) (e : ℕ) (i : Fin n) :
    elementList (K := ℝ) (fun i => z (σ i)) e i = elementList z e (σ i) := rfl

private theorem rootSum_perm (x : Fin n → ℝ) (σ : Equiv.Perm (Fin n)) : rootSum (fun i => x (σ i)) = rootSum x := by
  unfold rootSum
  have h : (∀ i, 0 ≤ x (σ i)) ↔ ∀ i, 0 ≤ x i := ⟨fun h i => by simpa using h (σ.symm i), fun h i => h _⟩
  simp only [h, Equiv.sum_comp σ fun i => Real.sqrt (x i)]

private theorem moments_perm (z : Fin n → ℕ) (s s' : Fin n → ℝ) (σ : Equiv.Perm (Fin n)) (hs : ∀ i, s' i = s (σ i)) (e : ℕ) :
    moments (fun i => z (σ i)) s' e = moments z s e := by
  unfold moments
  simp only [hs, elementList_perm]
  rw [Equiv.sum_comp σ fun i => s i * elementList z e i, Equiv.sum_comp σ fun i => (s i * elementList z e i) ^ 2,
    rootSum_perm fun i => s i * elementList z e i]

private theorem getFeatures_perm (order : List ℕ) (z : Fin n → ℕ) (c c' : Mat n ℝ) (σ : Equiv.Perm (Fin n)) (hc : ∀ i j, c' i j = c (σ i) (σ j)) :
    getFeatures order (fun i => z (σ i)) c' = getFeatures order z c := by
  have hsum : ∀ i, ∑ j, c' i j = ∑ j, c (σ i) j := fun i => by
    simp only [hc]
    exact Equiv.sum_comp σ fun j => c (σ i) j
  have hgen : ∀ i, generalized c' i = generalized c (σ i) := by
    intro i
    unfold generalized
    simp only [hc]
    rw [Equiv.sum_comp σ fun j => c (σ i) j, Equiv.sum_comp σ fun j => if c (σ i) j ≠ 0 then ∑ k, c (σ i) k else 0]
  have h2 : ∀ e, levelTwo (fun i => z (σ i)) c' e = levelTwo z c e := by
    intro e
    unfold levelTwo
    simp only [hc, elementList_perm]
    rw [← Equiv.sum_comp σ fun i => ∑ j, elementList z e j * c i j]
    refine Finset.sum_congr rfl fun i _ => ?_
    exact Equiv.sum_comp σ fun j => elementList z e j * c (σ i) j
  have h3 : ∀ e eo, levelTwoPair (fun i => z (σ i)) c' e eo = levelTwoPair z c e eo := by
    intro e eo
    unfold levelTwoPair heteroMatrix
    simp only [hc]
    rw [← Equiv.sum_comp σ fun i => ∑ j, (if z i = e then (if z j ≠ e then (1 : ℝ) else 0) else 0) * c i j]
    refine Finset.sum_congr rfl fun i _ => ?_
    exact Equiv.sum_comp σ fun j => (if z (σ i) = e then (if z j ≠ e then (1 : ℝ) else 0) else 0) * c (σ i) j
  have he : ∀ later e, elementFeatures (fun i => z (σ i)) c' later e = elementFeatures z c later e := by
    intro later e
    unfold elementFeatures
    rw [moments_perm z (fun i => ∑ j, c i j) _ σ hsum e, moments_perm z (generalized c) _ σ hgen e, h2]
    simp only [h3]
  have hl : ∀ es done, featureLoop (fun i => z (σ i)) c' order es done = featureLoop z c order es done := by
    intro es
    induction es with
    | nil => intro _; rfl
    | cons e es ih =>
      intro done
      simp only [featureLoop, he, ih]
  exact hl _ _

private theorem connection_perm (radius : ℕ → ℝ) (dx : ℝ) (num : ℕ) (z : Fin n → ℕ) (d : Mat n ℝ) (σ : Equiv.Perm (Fin n)) (i j : Fin n) :
    connectionMatrix (K := ℝ) (getNeighborlist radius (fun i => z (σ i)) (fun i j => d (σ i) (σ j)) dx num) i j =
      connectionMatrix (getNeighborlist radius z d dx num) (σ i) (σ j) := by
  unfold connectionMatrix getNeighborlist
  simp [List.mem_filter]

/-- C218: the features do not depend on the numbering of the atoms.  Partial: for up to four elements whose atomic numbers differ modulo 8. -/
theorem C218_renumber_partial (radius : ℕ → ℝ) (dx : ℝ) (num : ℕ) (props : List (ℕ → ℝ)) (z : Fin n → ℕ) (d : Mat n ℝ) (σ : Equiv.Perm (Fin n))
    (_h4 : (List.ofFn z).dedup.length ≤ 4) (h8 : ∀ i j, z i % 8 = z j % 8 → z i = z j) :
    neighborFeatures radius dx num props (fun i => z (σ i)) (fun i j => d (σ i) (σ j)) = neighborFeatures radius dx num props z d := by
  have ho : pySet (List.ofFn fun i => z (σ i)) = pySet (List.ofFn z) := by
    apply pySet_congr
    · intro x hx y hy
      rw [List.mem_ofFn] at hx hy
      obtain ⟨i, rfl⟩ := hx
      obtain ⟨j, rfl⟩ := hy
      exact h8 _ _
    · intro x
      rw [List.mem_ofFn, List.mem_ofFn]
      constructor
      · rintro ⟨i, rfl⟩
        exact ⟨σ i, rfl⟩
      · rintro ⟨i, rfl⟩
        exact ⟨σ.symm i, by simp⟩
  unfold neighborFeatures
  simp only [ho]
  congr 1
  · exact getFeatures_perm _ z _ _ σ (connection_perm radius dx num z d σ)
  · congr 1
    funext p
    refine getFeatures_perm _ z _ _ σ fun i j => ?_
    simp only [weighted, connection_perm radius dx num z d σ]

example : ∀ i j : Fin 3, (![1, 8, 1] : Fin 3 → ℕ) i % 8 = (![1, 8, 1] : Fin 3 → ℕ) j % 8 → (![1, 8, 1] : Fin 3 → ℕ) i = (![1, 8, 1] : Fin 3 → ℕ) j := by
  decide

/-! ### The length -/

private theorem elementFeatures_length (z : Fin n → ℕ) (c : Mat n ℝ) (later : List ℕ) (e : ℕ) : (elementFeatures z c later e).length = 7 + later.length := by
  simp [elementFeatures, moments]
  omega

private theorem loop_length (z : Fin n → ℕ) (c : Mat n ℝ) : ∀ (es done : List ℕ), (done ++ es).Nodup →
    2 * (featureLoop z c (done ++ es) es done).length = 14 * es.length + es.length * (es.length - 1) := by
  intro es
  induction es with
  | nil => intro done _; simp [featureLoop]
  | cons e es ih =>
    intro done hn
    have hne : e ∉ done := fun h => by
      rw [List.nodup_append] at hn
      exact hn.2.2 e h e (by simp) rfl
    have happ : done ++ e :: es = (done ++ [e]) ++ es := by simp
    have hf : (done ++ e :: es).filter (fun x => decide (x ∉ done ++ [e])) = es := by
      rw [happ, List.filter_append]
      have h1 : (done ++ [e]).filter (fun x => decide (x ∉ done ++ [e])) = [] := by
        rw [List.filter_eq_nil_iff]
        intro x hx
        rw [decide_eq_true_eq, not_not]
        exact hx
      have h2 : es.filter (fun x => decide (x ∉ done ++ [e])) = es := by
        rw [List.filter_eq_self]
        intro x hx
        rw [happ, List.nodup_append] at hn
        rw [decide_eq_true_eq]
        exact fun h => hn.2.2 x h x hx rfl
      rw [h1, h2, List.nil_append]
    simp only [featureLoop, if_neg hne, List.length_append, elementFeatures_length]
    rw [hf, happ, mul_add, ih (done ++ [e]) (by rwa [← happ])]
    rcases es with - | ⟨x, xs⟩
    · simp
    · simp only [List.length_cons, Nat.add_sub_cancel]
      ring

/-- C218: the number of entries only depends on the number of elements and of properties: with `k` elements, `7 k + k (k - 1) / 2` for the
structure and as many for each property.  Up to four elements. -/
theorem C218_length (radius : ℕ → ℝ) (dx : ℝ) (num : ℕ) (props : List (ℕ → ℝ)) (z : Fin n → ℕ) (d : Mat n ℝ)
    (h4 : (List.ofFn z).dedup.length ≤ 4) (hz : ∀ i, z i < 119) :
    2 * (neighborFeatures radius dx num props z d).length =
      (props.length + 1) * (14 * (List.ofFn z).dedup.length + (List.ofFn z).dedup.length * ((List.ofFn z).dedup.length - 1)) := by
  obtain ⟨hnd, hmem⟩ := pySet_perm (List.ofFn z) (by
    intro x hx
    rw [List.mem_ofFn] at hx
    obtain ⟨i, rfl⟩ := hx
    exact (hz i).trans (by norm_num)) h4
  have hlen : (pySet (List.ofFn z)).length = (List.ofFn z).dedup.length := by
    apply List.Perm.length_eq
    rw [List.perm_ext_iff_of_nodup hnd (List.nodup_dedup _)]
    intro x
    rw [hmem, List.mem_dedup]
  have hone : ∀ c : Mat n ℝ, 2 * (getFeatures (pySet (List.ofFn z)) z c).length =
      14 * (List.ofFn z).dedup.length + (List.ofFn z).dedup.length * ((List.ofFn z).dedup.length - 1) := by
    intro c
    rw [← hlen]
    exact loop_length z c _ [] (by rw [List.nil_append]; exact hnd)
  unfold neighborFeatures
  simp only []
  rw [List.length_append, mul_add, hone]
  induction props with
  | nil => simp
  | cons p ps ih =>
    rw [List.flatMap_cons, List.length_append, mul_add, hone, List.length_cons]
    have := ih
    linarith

example : (List.ofFn (![9, 1, 9] : Fin 3 → ℕ)).dedup.length ≤ 4 ∧ ∀ i, (![9, 1, 9] : Fin 3 → ℕ) i < 119 := by
  constructor
  · simp [List.ofFn_succ]
  · decide

private theorem at_two {α : Type} (x y z : α) : (![x, y, z] : Fin 3 → α) 2 = z := rfl

/-- C218 is violated: numbers that agree modulo 8 collide in the table of the set, and the element of the first atom comes first.  For F-H-F the
second entry is 2, the sum of the squares of the coordination numbers of fluorine, if a fluorine atom is the first, and 4, that of hydrogen, if
hydrogen is. -/
theorem C218_numbering_violated (radius : ℕ → ℝ) (h1 : radius 1 = 0.31) (h9 : radius 9 = 0.57) :
    ∃ (z : Fin 3 → ℕ) (d : Mat 3 ℝ) (σ : Equiv.Perm (Fin 3)), (∀ i j, d i j = d j i) ∧ (∀ i, d i i = 0) ∧
      (neighborFeatures radius 0.2 1 [] z d)[1]? = some (some 2) ∧
      (neighborFeatures radius 0.2 1 [] (fun i => z (σ i)) (fun i j => d (σ i) (σ j)))[1]? = some (some 4) := by
  refine ⟨![9, 1, 9], ![![0, 1, 2], ![1, 0, 1], ![2, 1, 0]], Equiv.swap 0 1, ?_, ?_, ?_, ?_⟩
  · intro i j
    fin_cases i <;> fin_cases j <;> rfl
  · intro i
    fin_cases i <;> rfl
  · have ho : pySet (List.ofFn (![9, 1, 9] : Fin 3 → ℕ)) = [9, 1] := by decide +kernel
    have hc : connectionMatrix (K := ℝ) (getNeighborlist radius ![9, 1, 9] ![![0, 1, 2], ![1, 0, 1], ![2, 1, 0]] 0.2 1) =
        ![![0, 1, 0], ![1, 0, 1], ![0, 1, 0]] := by
      funext i j
      fin_cases i <;> fin_cases j <;> simp [connectionMatrix, getNeighborlist, inShell, h1, h9, at_two, -Matrix.cons_val] <;> norm_num
    unfold neighborFeatures
    simp only [ho, hc, getFeatures, featureLoop, elementFeatures, moments]
    simp [Fin.sum_univ_three, elementList, at_two, -Matrix.cons_val]
    norm_num [-Matrix.cons_val]
  · have hz : (fun i => (![9, 1, 9] : Fin 3 → ℕ) (Equiv.swap 0 1 i)) = ![1, 9, 9] := by
      funext i
      fin_cases i <;> rfl
    have hd : (fun i j => (![![0, 1, 2], ![1, 0, 1], ![2, 1, 0]] : Mat 3 ℝ) (Equiv.swap 0 1 i) (Equiv.swap 0 1 j)) =
        ![![0, 1, 1], ![1, 0, 2], ![1, 2, 0]] := by
      funext i j
      fin_cases i <;> fin_cases j <;> rfl
    have ho : pySet (List.ofFn (![1, 9, 9] : Fin 3 → ℕ)) = [1, 9] := by decide +kernel
    have hc : connectionMatrix (K := ℝ) (getNeighborlist radius ![1, 9, 9] ![![0, 1, 1], ![1, 0, 2], ![1, 2, 0]] 0.2 1) =
        ![![0, 1, 1], ![1, 0, 0], ![1, 0, 0]] := by
      funext i j
      fin_cases i <;> fin_cases j <;> simp [connectionMatrix, getNeighborlist, inShell, h1, h9, at_two, -Matrix.cons_val] <;> norm_num
    rw [hz, hd]
    unfold neighborFeatures
    simp only [ho, hc, getFeatures, featureLoop, elementFeatures, moments]
    simp [Fin.sum_univ_three, elementList, at_two, -Matrix.cons_val]
    norm_num [-Matrix.cons_val]

end CatLearn.NbFeat
