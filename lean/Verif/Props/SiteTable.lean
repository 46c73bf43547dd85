import Verif.Model.SiteTable
import Mathlib.Data.List.Range
import Mathlib.Data.List.Nodup
import Mathlib.Data.List.Forall2
import Mathlib.Tactic.IntervalCases
import Mathlib.Tactic.NormNum
import Mathlib.Tactic.Linarith

/-!
C216, C217: the tables of site features.
-/

namespace CatLearn.SiteTable

open CatLearn

private def atomCols (a b : ℕ) : List Col := (List.range' a (b - a)).flatMap fun i => [.atom .Z i, .atom .n i, .atom .e i]

private theorem mem_atomCols (a b : ℕ) (c : Col) : c ∈ atomCols a b ↔ ∃ k i, c = .atom k i ∧ a ≤ i ∧ i < b := by
  simp only [atomCols, List.mem_flatMap, List.mem_range', List.mem_cons, List.not_mem_nil, or_false]
  constructor
  · rintro ⟨i, ⟨j, hj, rfl⟩, rfl | rfl | rfl⟩
    · exact ⟨.Z, _, rfl, by omega, by omega⟩
    · exact ⟨.n, _, rfl, by omega, by omega⟩
    · exact ⟨.e, _, rfl, by omega, by omega⟩
  · rintro ⟨k, i, rfl, h1, h2⟩
    refine ⟨i, ⟨i - a, by omega, by omega⟩, ?_⟩
    cases k <;> simp

private theorem atomCols_append {a b c : ℕ} (h : a ≤ b) (h' : b ≤ c) : atomCols a b ++ atomCols b c = atomCols a c := by
  unfold atomCols
  rw [← List.flatMap_append]
  congr 1
  have : c - a = (b - a) + (c - b) := by omega
  rw [this, ← List.range'_append_1]
  congr 2
  omega

private theorem atomCols_nodup (a b : ℕ) : (atomCols a b).Nodup := by
  unfold atomCols
  rw [List.nodup_flatMap]
  refine ⟨fun i _ => by simp, ?_⟩
  refine (List.nodup_range' (step := 1)).pairwise_of_forall_ne ?_
  intro i _ j _ hij
  simp only [Function.onFun, List.Disjoint]
  intro c h1 h2
  simp only [List.mem_cons, List.not_mem_nil, or_false] at h1 h2
  rcases h1 with rfl | rfl | rfl <;> rcases h2 with h | h | h <;> simp at h <;> exact hij h

private theorem atomCols_last (a b : ℕ) (h : a < b) : atomCols a b = (atomCols a (b - 1) ++ [.atom .Z (b - 1), .atom .n (b - 1)]) ++ [.atom .e (b - 1)] := by
  rw [← atomCols_append (show a ≤ b - 1 by omega) (show b - 1 ≤ b by omega)]
  have : b - (b - 1) = 1 := by omega
  simp [atomCols, this]

private theorem row_cols (r : Row) :
    r.cols = (List.range r.head.length).map .head ++ atomCols 0 r.elems.length ++ (List.range r.tail.length).map .tail := by
  simp [Row.cols, atomCols, List.range_eq_range']

private theorem mem_row (r : Row) (c : Col) : c ∈ r.cols ↔ (∃ k, c = .head k ∧ k < r.head.length) ∨
    (∃ k i, c = .atom k i ∧ i < r.elems.length) ∨ ∃ k, c = .tail k ∧ k < r.tail.length := by
  rw [row_cols]
  simp only [List.mem_append, List.mem_map, List.mem_range, mem_atomCols, Nat.zero_le, true_and, or_assoc]
  constructor
  · rintro (⟨k, h, rfl⟩ | h | ⟨k, h, rfl⟩)
    · exact Or.inl ⟨k, rfl, h⟩
    · exact Or.inr (Or.inl h)
    · exact Or.inr (Or.inr ⟨k, rfl, h⟩)
  · rintro (⟨k, rfl, h⟩ | h | ⟨k, rfl, h⟩)
    · exact Or.inl ⟨k, h, rfl⟩
    · exact Or.inr (Or.inl h)
    · exact Or.inr (Or.inr ⟨k, h, rfl⟩)

private theorem row_nodup (r : Row) : r.cols.Nodup := by
  rw [row_cols, List.nodup_append, List.nodup_append]
  refine ⟨⟨(List.nodup_range).map fun a b h => by simpa using h, atomCols_nodup _ _, ?_⟩, (List.nodup_range).map fun a b h => by simpa using h, ?_⟩
  · rintro c hc d hd rfl
    obtain ⟨k, -, rfl⟩ := List.mem_map.1 hc
    obtain ⟨k, i, h, -⟩ := (mem_atomCols _ _ _).1 hd
    cases h
  · rintro c hc d hd rfl
    obtain ⟨k, -, rfl⟩ := List.mem_map.1 hd
    rcases List.mem_append.1 hc with hc | hc
    · obtain ⟨k, -, h⟩ := List.mem_map.1 hc
      cases h
    · obtain ⟨k, i, h, -⟩ := (mem_atomCols _ _ _).1 hc
      cases h

private theorem value_none (r : Row) (c : Col) (h : c ∉ r.cols) : r.value c = none := by
  rw [mem_row] at h
  cases c with
  | head k =>
    have : r.head.length ≤ k := by by_contra hc; exact h (Or.inl ⟨k, rfl, by omega⟩)
    simp [Row.value, List.getElem?_eq_none this]
  | atom k i =>
    have : r.elems.length ≤ i := by by_contra hc; exact h (Or.inr (Or.inl ⟨k, i, rfl, by omega⟩))
    simp [Row.value, List.getElem?_eq_none this]
  | tail k =>
    have : r.tail.length ≤ k := by by_contra hc; exact h (Or.inr (Or.inr ⟨k, rfl, by omega⟩))
    simp [Row.value, List.getElem?_eq_none this]

/-- The state of the loop after the rows `rs`, the first of them `r0`. -/
private structure Inv (f : Frame) (r0 : Row) (rs : List Row) (M : ℕ) : Prop where
  le : r0.elems.length ≤ M
  bound : ∀ r ∈ rs, r.elems.length ≤ M
  reached : ∃ r ∈ rs, r.elems.length = M
  dims : ∀ r ∈ rs, r.head.length = r0.head.length ∧ r.tail.length = r0.tail.length
  cols : f.cols = r0.cols ++ atomCols r0.elems.length M
  rows : List.Forall₂ (fun v r => (∀ c ∈ f.cols, (v c).getD 0 = (r.value c).getD 0) ∧ ∀ c ∉ f.cols, v c = none) f.rows rs

/-- All rows are filled. -/
private def Full (f : Frame) (rs : List Row) : Prop :=
  f.rows = rs.map fun r c => if c ∈ f.cols then some ((r.value c).getD 0) else none

private theorem Inv.mem {f : Frame} {r0 : Row} {rs : List Row} {M : ℕ} (h : Inv f r0 rs M) (c : Col) :
    c ∈ f.cols ↔ (∃ k, c = .head k ∧ k < r0.head.length) ∨ (∃ k i, c = .atom k i ∧ i < M) ∨ ∃ k, c = .tail k ∧ k < r0.tail.length := by
  have hle := h.le
  rw [h.cols, List.mem_append, mem_row, mem_atomCols]
  constructor
  · rintro ((h | ⟨k, i, rfl, h⟩ | h) | ⟨k, i, rfl, h1, h2⟩)
    · exact Or.inl h
    · exact Or.inr (Or.inl ⟨k, i, rfl, by omega⟩)
    · exact Or.inr (Or.inr h)
    · exact Or.inr (Or.inl ⟨k, i, rfl, h2⟩)
  · rintro (h | ⟨k, i, rfl, h⟩ | h)
    · exact Or.inl (Or.inl h)
    · by_cases hi : i < r0.elems.length
      · exact Or.inl (Or.inr (Or.inl ⟨k, i, rfl, hi⟩))
      · exact Or.inr ⟨k, i, rfl, by omega, h⟩
    · exact Or.inl (Or.inr (Or.inr h))

private theorem Inv.nodup {f : Frame} {r0 : Row} {rs : List Row} {M : ℕ} (h : Inv f r0 rs M) : f.cols.Nodup := by
  rw [h.cols, List.nodup_append]
  refine ⟨row_nodup r0, atomCols_nodup _ _, ?_⟩
  rintro c hc d hd rfl
  obtain ⟨k, i, rfl, h1, h2⟩ := (mem_atomCols _ _ _).1 hd
  rcases (mem_row _ _).1 hc with ⟨_, h, _⟩ | ⟨_, _, h, h3⟩ | ⟨_, h, _⟩
  · cases h
  · cases h; omega
  · cases h

private theorem inv_first (r : Row) : Inv r.frame r [r] r.elems.length where
  le := le_rfl
  bound := by simp
  reached := ⟨r, by simp, rfl⟩
  dims := by simp
  cols := by simp [Row.frame, atomCols]
  rows := by
    refine .cons ⟨fun _ _ => rfl, fun c hc => value_none r c hc⟩ .nil

private theorem new_cols {f : Frame} {r0 : Row} {rs : List Row} {M : ℕ} (h : Inv f r0 rs M) (r : Row) (hh : r.head.length = r0.head.length)
    (ht : r.tail.length = r0.tail.length) : r.cols.filter (· ∉ f.cols) = atomCols M (max M r.elems.length) := by
  have hm := h.mem
  rw [row_cols, List.filter_append, List.filter_append]
  have e1 : ((List.range r.head.length).map Col.head).filter (fun c => decide (c ∉ f.cols)) = [] := by
    rw [List.filter_eq_nil_iff]
    intro c hc
    obtain ⟨k, hk, rfl⟩ := List.mem_map.1 hc
    simp only [decide_eq_true_eq, not_not]
    exact (hm _).2 (Or.inl ⟨k, rfl, hh ▸ List.mem_range.1 hk⟩)
  have e2 : ((List.range r.tail.length).map Col.tail).filter (fun c => decide (c ∉ f.cols)) = [] := by
    rw [List.filter_eq_nil_iff]
    intro c hc
    obtain ⟨k, hk, rfl⟩ := List.mem_map.1 hc
    simp only [decide_eq_true_eq, not_not]
    exact (hm _).2 (Or.inr (Or.inr ⟨k, rfl, ht ▸ List.mem_range.1 hk⟩))
  have low : ∀ a b, b ≤ M → (atomCols a b).filter (fun c => decide (c ∉ f.cols)) = [] := by
    intro a b hb
    rw [List.filter_eq_nil_iff]
    intro c hc
    obtain ⟨k, i, rfl, -, h2⟩ := (mem_atomCols _ _ _).1 hc
    simp only [decide_eq_true_eq, not_not]
    exact (hm _).2 (Or.inr (Or.inl ⟨k, i, rfl, by omega⟩))
  have high : ∀ b, (atomCols M b).filter (fun c => decide (c ∉ f.cols)) = atomCols M b := by
    intro b
    rw [List.filter_eq_self]
    intro c hc
    obtain ⟨k, i, rfl, h1, -⟩ := (mem_atomCols _ _ _).1 hc
    rw [decide_eq_true_eq, hm]
    rintro (⟨_, h, _⟩ | ⟨_, _, h, h3⟩ | ⟨_, h, _⟩)
    · cases h
    · cases h; omega
    · cases h
  rw [e1, e2, List.nil_append, List.append_nil]
  rcases le_total r.elems.length M with hle | hle
  · rw [low _ _ hle, max_eq_left hle]
    simp [atomCols]
  · rw [max_eq_right hle, ← atomCols_append (Nat.zero_le M) hle, List.filter_append, low _ _ le_rfl, high, List.nil_append]

private theorem fill_rows (vs : List (Col → Option ℝ)) (rs : List Row) (cs ds : List Col)
    (h : List.Forall₂ (fun v r => (∀ c ∈ cs, (v c).getD 0 = (r.value c).getD 0) ∧ ∀ c ∉ cs, v c = none) vs rs)
    (hr : ∀ q ∈ rs, ∀ c, c ∉ cs → q.value c = none) :
    vs.map (fun v c => if c ∈ ds then some ((v c).getD 0) else none) = rs.map fun r c => if c ∈ ds then some ((r.value c).getD 0) else none := by
  induction h with
  | nil => rfl
  | @cons v q vs qs h1 h2 ih =>
    rw [List.map_cons, List.map_cons, ih fun q' hq' => hr q' (List.mem_cons_of_mem _ hq')]
    congr 1
    funext c
    by_cases hcf : c ∈ cs
    · rw [h1.1 c hcf]
    · rw [h1.2 c hcf, hr q (List.mem_cons_self ..) c hcf]

private theorem inv_add {f : Frame} {r0 : Row} {rs : List Row} {M : ℕ} (h : Inv f r0 rs M) (r : Row) (hh : r.head.length = r0.head.length)
    (ht : r.tail.length = r0.tail.length) : Inv (f.add r) r0 (rs ++ [r]) (max M r.elems.length) ∧ Full (f.add r) (rs ++ [r]) := by
  have hc : (f.add r).cols = r0.cols ++ atomCols r0.elems.length (max M r.elems.length) := by
    show f.cols ++ r.cols.filter (· ∉ f.cols) = _
    rw [new_cols h r hh ht, h.cols, List.append_assoc, atomCols_append h.le (le_max_left _ _)]
  have hsub : ∀ c, c ∈ f.cols → c ∈ (f.add r).cols := by
    intro c hc
    exact List.mem_append_left _ hc
  have hsub' : ∀ c, c ∈ r.cols → c ∈ (f.add r).cols := by
    intro c hc
    by_cases h : c ∈ f.cols
    · exact hsub c h
    · exact List.mem_append_right _ (List.mem_filter.2 ⟨hc, by simpa using h⟩)
  have hfull : Full (f.add r) (rs ++ [r]) := by
    show (f.rows ++ [r.value]).map (fun v c => if c ∈ (f.add r).cols then some ((v c).getD 0) else none) = _
    rw [List.map_append, List.map_append]
    congr 1
    have hr : ∀ q ∈ rs, ∀ c, c ∉ f.cols → q.value c = none := by
      intro q hq c hcn
      apply value_none
      intro hqc
      apply hcn
      rw [h.mem]
      obtain ⟨d1, d2⟩ := h.dims q hq
      have hb := h.bound q hq
      rcases (mem_row _ _).1 hqc with ⟨k, e, hk⟩ | ⟨k, i, e, hi⟩ | ⟨k, e, hk⟩
      · exact Or.inl ⟨k, e, d1 ▸ hk⟩
      · exact Or.inr (Or.inl ⟨k, i, e, by omega⟩)
      · exact Or.inr (Or.inr ⟨k, e, d2 ▸ hk⟩)
    exact fill_rows f.rows rs f.cols (f.add r).cols h.rows hr
  refine ⟨⟨h.le.trans (le_max_left _ _), ?_, ?_, ?_, hc, ?_⟩, hfull⟩
  · intro q hq
    rcases List.mem_append.1 hq with hq | hq
    · exact (h.bound q hq).trans (le_max_left _ _)
    · rw [List.mem_singleton.1 hq]
      exact le_max_right _ _
  · obtain ⟨q, hq, e⟩ := h.reached
    rcases le_total r.elems.length M with hle | hle
    · exact ⟨q, List.mem_append_left _ hq, by rw [max_eq_left hle, e]⟩
    · exact ⟨r, by simp, by rw [max_eq_right hle]⟩
  · intro q hq
    rcases List.mem_append.1 hq with hq | hq
    · exact h.dims q hq
    · rw [List.mem_singleton.1 hq]
      exact ⟨hh, ht⟩
  · unfold Full at hfull
    rw [hfull, List.forall₂_map_left_iff, List.forall₂_same]
    intro q _
    refine ⟨fun c hc => by dsimp only; rw [if_pos hc]; rfl, fun c hc => if_neg hc⟩

private theorem inv_fold (r0 : Row) : ∀ (rest : List Row) (f : Frame) (rs : List Row) (M : ℕ), Inv f r0 rs M → (Full f rs ∨ rest ≠ []) →
    (∀ r ∈ rest, r.head.length = r0.head.length ∧ r.tail.length = r0.tail.length) →
    ∃ M', Inv (rest.foldl Frame.add f) r0 (rs ++ rest) M' ∧ Full (rest.foldl Frame.add f) (rs ++ rest) := by
  intro rest
  induction rest with
  | nil =>
    intro f rs M h hf _
    exact ⟨M, by simpa using h, by simpa using hf⟩
  | cons r rest ih =>
    intro f rs M h _ hd
    obtain ⟨h1, h2⟩ := inv_add h r (hd r (by simp)).1 (hd r (by simp)).2
    obtain ⟨M', h3⟩ := ih _ _ _ h1 (Or.inl h2) fun q hq => hd q (List.mem_cons_of_mem _ hq)
    exact ⟨M', by simpa using h3⟩

/-! ### The replacement loop -/

private theorem ones_small (i : ℕ) (h : i < 10) (k : Kind) : hasOne (.atom k i) = true ↔ i = 1 := by
  interval_cases i <;> simp [hasOne]

/-- What the loop does to the values of a row. -/
private noncomputable def fixRow (cs : List Col) (v : Col → Option ℝ) (c : Col) : Option ℝ :=
  if c ∈ cs then (if v c = some 0 then (substitute c).bind v else v c) else v c

private theorem replace_fold : ∀ (cs : List Col) (f : Frame), cs.Nodup → (∀ c ∈ cs, ∃ k, c = .atom k 1 ∧ .atom k 0 ∈ f.cols) →
    cs.foldlM replaceCol f = .ok { f with rows := f.rows.map (fixRow cs) } := by
  intro cs
  induction cs with
  | nil =>
    intro f _ _
    simp only [List.foldlM_nil, pure, Except.pure]
    congr 1
    have : (fixRow []) = id := by
      funext v c
      simp [fixRow]
    rw [this, List.map_id]
  | cons c cs ih =>
    intro f hn hc
    obtain ⟨k, rfl, hk⟩ := hc c (by simp)
    have hs : substitute (.atom k 1) = some (.atom k 0) := by simp [substitute]
    have h1 : replaceCol f (.atom k 1) = .ok ⟨f.cols, f.rows.map fun r =>
        Function.update r (.atom k 1) (if r (.atom k 1) = some 0 then (substitute (.atom k 1)).bind r else r (.atom k 1))⟩ := by
      unfold replaceCol
      rw [if_neg]
      rintro ⟨-, h⟩
      exact h _ hk hs
    rw [List.foldlM_cons, h1]
    simp only [bind, Except.bind]
    have hih : ∀ R, cs.foldlM replaceCol ⟨f.cols, R⟩ = .ok ⟨f.cols, R.map (fixRow cs)⟩ := fun R =>
      ih ⟨f.cols, R⟩ (List.nodup_cons.1 hn).2 fun c hc' => hc c (List.mem_cons_of_mem _ hc')
    rw [hih]
    congr 2
    rw [List.map_map]
    apply List.map_congr_left
    intro v _
    funext c
    have hk' : Col.atom k 1 ∉ cs := (List.nodup_cons.1 hn).1
    simp only [Function.comp, fixRow, List.mem_cons]
    by_cases hcc : c = .atom k 1
    · subst hcc
      simp [hk']
    · simp only [hcc, false_or, Function.update_of_ne hcc, if_false, ne_eq, not_false_eq_true]
      by_cases hm : c ∈ cs
      · obtain ⟨k', rfl, -⟩ := hc c (List.mem_cons_of_mem _ hm)
        have hs' : substitute (.atom k' 1) = some (.atom k' 0) := by simp [substitute]
        simp only [if_pos hm, hs', Option.bind_some]
        rw [Function.update_of_ne (by simp)]
      · simp [hm]

private theorem replace_error (c0 : Col) (h0 : substitute c0 = none) : ∀ (cs : List Col) (f : Frame), c0 ∈ cs →
    (∃ r ∈ f.rows, r c0 = some 0) → cs.foldlM replaceCol f = .error .key := by
  intro cs
  induction cs with
  | nil => intro f h; simp at h
  | cons c cs ih =>
    intro f hm hr
    rw [List.foldlM_cons]
    by_cases hcc : c = c0
    · subst hcc
      have : replaceCol f c = .error .key := by
        unfold replaceCol
        rw [if_pos ⟨hr, fun c' _ => by rw [h0]; simp⟩]
      rw [this]
      rfl
    · unfold replaceCol
      by_cases hq : (∃ r ∈ f.rows, r c = some 0) ∧ ∀ c' ∈ f.cols, substitute c ≠ some c'
      · rw [if_pos hq]
        rfl
      · rw [if_neg hq]
        simp only [bind, Except.bind]
        refine ih _ ?_ ?_
        · simpa [Ne.symm hcc] using hm
        · obtain ⟨r, hr, e⟩ := hr
          refine ⟨_, List.mem_map.2 ⟨r, hr, rfl⟩, ?_⟩
          rw [Function.update_of_ne (Ne.symm hcc), e]

private theorem replace_nonzero : ∀ (cs : List Col) (f : Frame), (∀ c ∈ cs, ∀ r ∈ f.rows, r c ≠ some 0) →
    cs.foldlM replaceCol f = .ok f := by
  intro cs
  induction cs with
  | nil => intro f _; rfl
  | cons c cs ih =>
    intro f h
    have h1 : replaceCol f c = .ok f := by
      unfold replaceCol
      rw [if_neg]
      · congr 1
        have : (f.rows.map fun r => Function.update r c (if r c = some 0 then (substitute c).bind r else r c)) = f.rows := by
          conv_rhs => rw [← List.map_id f.rows]
          apply List.map_congr_left
          intro r hr
          rw [if_neg (h c (by simp) r hr), Function.update_eq_self]
          rfl
        rw [this]
      · rintro ⟨⟨r, hr, e⟩, -⟩
        exact h c (by simp) r hr e
    rw [List.foldlM_cons, h1]
    exact ih f fun c' hc' => h c' (List.mem_cons_of_mem _ hc')

private theorem build_inv (rs : List Row) (a b : ℕ) (hlen : 2 ≤ rs.length) (hd : ∀ r ∈ rs, r.head.length = a ∧ r.tail.length = b) :
    ∃ f r0 M, build rs = .ok f ∧ r0 ∈ rs ∧ Inv f r0 rs M ∧ Full f rs := by
  match rs, hlen, hd with
  | r :: r' :: rest, _, hd =>
    obtain ⟨M, h1, h2⟩ := inv_fold r (r' :: rest) r.frame [r] r.elems.length (inv_first r) (Or.inr (by simp)) (by
      intro q hq
      have h1 := hd q (List.mem_cons_of_mem _ hq)
      have h2 := hd r (by simp)
      exact ⟨by omega, by omega⟩)
    exact ⟨_, r, M, rfl, by simp, h1, h2⟩

/-- The table of `SiteFeaturizer.site_features` with at least two sites of at most ten elements each, catlearn/featurize/site_stability.py L530-557.
It has one row per site, in their order, and each column once: those all sites have, and three for each of as many elements as some site has.  An
entry is the site's own value, with 0 in place of NaN.  In the columns of elements a site does not have it is 0, save that a site of one element has
it entered a second time.  Partial: with at least two sites, and up to ten elements in each. -/
theorem C216_table_partial (rs : List Row) (a b : ℕ) (hlen : 2 ≤ rs.length) (hd : ∀ r ∈ rs, r.head.length = a ∧ r.tail.length = b)
    (he : ∀ r ∈ rs, 1 ≤ r.elems.length ∧ r.elems.length ≤ 10 ∧ ∀ x ∈ r.elems, ∀ k, x.get k ≠ 0) :
    ∃ f, siteTable rs = .ok f ∧ f.cols.Nodup ∧ (∀ k, .head k ∈ f.cols ↔ k < a) ∧ (∀ k, .tail k ∈ f.cols ↔ k < b) ∧
      (∀ kind i, .atom kind i ∈ f.cols ↔ ∃ r ∈ rs, i < r.elems.length) ∧
      List.Forall₂ (fun v r =>
        (∀ k x, r.head[k]? = some x → v (.head k) = some (x.getD 0)) ∧ (∀ k x, r.tail[k]? = some x → v (.tail k) = some (x.getD 0)) ∧
        (∀ i x, r.elems[i]? = some x → ∀ kind, v (.atom kind i) = some (x.get kind)) ∧
        ∀ i kind, r.elems.length ≤ i → .atom kind i ∈ f.cols →
          v (.atom kind i) = if i = 1 then (r.elems[0]?).map (fun x => x.get kind) else some 0) f.rows rs := by
  obtain ⟨f, r0, M, hb, hr0, hi, hf⟩ := build_inv rs a b hlen hd
  obtain ⟨rM, hrM, eM⟩ := hi.reached
  have hM1 : 1 ≤ M := eM ▸ (he rM hrM).1
  have hM10 : M ≤ 10 := eM ▸ (he rM hrM).2.1
  have hm := hi.mem
  have ha := (hd r0 hr0).1
  have hb' := (hd r0 hr0).2
  have hhead : ∀ k, Col.head k ∈ f.cols ↔ k < a := by
    intro k
    rw [hm]
    simp [ha]
  have htail : ∀ k, Col.tail k ∈ f.cols ↔ k < b := by
    intro k
    rw [hm]
    simp [hb']
  have hatom : ∀ kind i, Col.atom kind i ∈ f.cols ↔ i < M := by
    intro kind i
    rw [hm]
    simp
  have hone : ∀ c, c ∈ f.cols.filter hasOne ↔ ∃ k, c = .atom k 1 ∧ 1 < M := by
    intro c
    rw [List.mem_filter]
    constructor
    · rintro ⟨h1, h2⟩
      cases c with
      | head k => simp [hasOne] at h2
      | tail k => simp [hasOne] at h2
      | atom k i =>
        have := (hatom k i).1 h1
        have e : i = 1 := (ones_small i (by omega) k).1 h2
        exact ⟨k, by rw [e], by omega⟩
    · rintro ⟨k, rfl, h⟩
      exact ⟨(hatom _ _).2 h, (ones_small 1 (by omega) k).2 rfl⟩
  have hfold := replace_fold (f.cols.filter hasOne) f (hi.nodup.filter _) (by
    intro c hc
    obtain ⟨k, rfl, -⟩ := (hone c).1 hc
    exact ⟨k, rfl, (hatom _ _).2 (by omega)⟩)
  refine ⟨⟨f.cols, f.rows.map (fixRow (f.cols.filter hasOne))⟩, by unfold siteTable; rw [hb]; exact hfold, hi.nodup, hhead, htail, ?_, ?_⟩
  · intro kind i
    show Col.atom kind i ∈ f.cols ↔ _
    rw [hatom]
    constructor
    · exact fun h => ⟨rM, hrM, by omega⟩
    · rintro ⟨r, hr, h⟩
      have := hi.bound r hr
      omega
  · show List.Forall₂ _ (f.rows.map (fixRow (f.cols.filter hasOne))) rs
    unfold Full at hf
    rw [hf, List.map_map, List.forall₂_map_left_iff, List.forall₂_same]
    intro r hr
    have hother : ∀ c, (∀ k, c ≠ .atom k 1) → c ∈ f.cols →
        fixRow (f.cols.filter hasOne) (fun c => if c ∈ f.cols then some ((r.value c).getD 0) else none) c = some ((r.value c).getD 0) := by
      intro c h1 h2
      unfold fixRow
      rw [if_neg]
      · exact if_pos h2
      rw [hone]
      rintro ⟨k, e, -⟩
      exact h1 k e
    have h1at : ∀ k, 1 < M →
        fixRow (f.cols.filter hasOne) (fun c => if c ∈ f.cols then some ((r.value c).getD 0) else none) (.atom k 1) =
          if (r.value (.atom k 1)).getD 0 = 0 then some ((r.value (.atom k 0)).getD 0) else some ((r.value (.atom k 1)).getD 0) := by
      intro k h
      unfold fixRow
      rw [if_pos ((hone _).2 ⟨k, rfl, h⟩)]
      simp only [if_pos ((hatom k 1).2 h), Option.some.injEq]
      have hs' : substitute (.atom k 1) = some (.atom k 0) := by simp [substitute]
      rw [hs']
      simp only [Option.bind_some, if_pos ((hatom k 0).2 (by omega))]
    have hb := hi.bound r hr
    refine ⟨?_, ?_, ?_, ?_⟩
    · intro k x hx
      have hk : k < a := (hd r hr).1 ▸ (List.getElem?_eq_some_iff.1 hx).1
      rw [Function.comp, hother _ (by simp) ((hhead k).2 hk)]
      simp [Row.value, hx]
    · intro k x hx
      have hk : k < b := (hd r hr).2 ▸ (List.getElem?_eq_some_iff.1 hx).1
      rw [Function.comp, hother _ (by simp) ((htail k).2 hk)]
      simp [Row.value, hx]
    · intro i x hx kind
      have hk : i < r.elems.length := (List.getElem?_eq_some_iff.1 hx).1
      have hne := (he r hr).2.2 x (List.mem_of_getElem? hx) kind
      have hv : r.value (.atom kind i) = some (x.get kind) := by simp [Row.value, hx]
      by_cases h1 : i = 1
      · subst h1
        rw [Function.comp, h1at kind (by omega), hv, Option.getD_some, if_neg hne]
      · rw [Function.comp, hother _ (by simp [h1]) ((hatom _ _).2 (by omega)), hv]
        rfl
    · intro i kind hle hc
      have hiM := (hatom kind i).1 hc
      have hv : r.value (.atom kind i) = none := by simp [Row.value, List.getElem?_eq_none hle]
      by_cases h1 : i = 1
      · subst h1
        rw [Function.comp, h1at kind hiM, hv, Option.getD_none, if_pos rfl, if_pos rfl]
        have h0 : 0 < r.elems.length := (he r hr).1
        simp [Row.value, List.getElem?_eq_getElem h0]
      · rw [Function.comp, hother _ (by simp [h1]) hc, hv, if_neg h1]
        rfl

/-- With one site the table has the columns and the values of this site alone; a NaN stays NaN. -/
theorem C216_single (r : Row) (he : ∀ x ∈ r.elems, ∀ k, x.get k ≠ 0) :
    ∃ f, siteTable [r] = .ok f ∧ f.cols = (List.range r.head.length).map .head ++
        ((List.range r.elems.length).flatMap fun i => [.atom .Z i, .atom .n i, .atom .e i]) ++ (List.range r.tail.length).map .tail ∧
      ∃ v, f.rows = [v] ∧ (∀ k x, r.head[k]? = some x → v (.head k) = x) ∧ (∀ k x, r.tail[k]? = some x → v (.tail k) = x) ∧
        ∀ i x, r.elems[i]? = some x → ∀ kind, v (.atom kind i) = some (x.get kind) := by
  refine ⟨r.frame, ?_, rfl, r.value, rfl, ?_, ?_, ?_⟩
  · unfold siteTable
    simp only [build, List.foldl_nil]
    apply replace_nonzero
    intro c hc q hq
    rw [List.mem_filter] at hc
    simp only [Row.frame, List.mem_singleton] at hq
    subst hq
    cases c with
    | head k => simp [hasOne] at hc
    | tail k => simp [hasOne] at hc
    | atom k i =>
      simp only [Row.value]
      cases hx : r.elems[i]? with
      | none => simp
      | some x =>
        simp only [Option.map_some, ne_eq, Option.some.injEq]
        exact he x (List.mem_of_getElem? hx) k
  · intro k x hx
    simp [Row.value, hx]
  · intro k x hx
    simp [Row.value, hx]
  · intro i x hx kind
    simp [Row.value, hx]

private theorem forall₂_pair {α β : Type} {R : α → β → Prop} {l : List α} {x y : β} (h : List.Forall₂ R l [x, y]) :
    ∃ v w, l = [v, w] ∧ R v x ∧ R w y := by
  match l, h with
  | [v, w], .cons h1 (.cons h2 .nil) => exact ⟨v, w, rfl, h1, h2⟩

/-- The values of a site depend on the other sites: a stability of NaN (the failed insertion of L541) is NaN with this site alone, but 0, as for a
site at equilibrium, as soon as there is another site. -/
theorem C216_nan_violated (r r' : Row) (k : ℕ) (hk : r.tail[k]? = some none) (hh : r'.head.length = r.head.length)
    (ht : r'.tail.length = r.tail.length) (he : ∀ q ∈ [r, r'], 1 ≤ q.elems.length ∧ q.elems.length ≤ 10 ∧ ∀ x ∈ q.elems, ∀ k, x.get k ≠ 0) :
    (∃ f, siteTable [r] = .ok f ∧ ∃ v, f.rows = [v] ∧ v (.tail k) = none) ∧
      ∃ f, siteTable [r, r'] = .ok f ∧ ∃ v v', f.rows = [v, v'] ∧ v (.tail k) = some 0 := by
  constructor
  · obtain ⟨f, h1, -, v, h2, -, h3, -⟩ := C216_single r (he r (by simp)).2.2
    exact ⟨f, h1, v, h2, h3 k _ hk⟩
  · obtain ⟨f, h1, -, -, -, -, h2⟩ := C216_table_partial [r, r'] r.head.length r.tail.length (by simp) (by simp [hh, ht]) he
    obtain ⟨v, v', e, hv, -⟩ := forall₂_pair h2
    exact ⟨f, h1, v, v', e, by rw [hv.2.1 k _ hk]; rfl⟩

/-- An element present once is counted twice: in a table with a site of a binary material, a site of a pure metal has its metal both as element 0
and as element 1, and the numbers of atoms of its elements add up to twice the number of its atoms. -/
theorem C216_pure_violated (r r' : Row) (x y z : Elem) (hr : r.elems = [x]) (hr' : r'.elems = [y, z]) (hh : r'.head.length = r.head.length)
    (ht : r'.tail.length = r.tail.length) (he : ∀ q ∈ [x, y, z], ∀ k, q.get k ≠ 0) :
    ∃ f v v', siteTable [r, r'] = .ok f ∧ f.rows = [v, v'] ∧ (∀ k, .atom k 1 ∈ f.cols) ∧
      (∀ k, v (.atom k 0) = some (x.get k) ∧ v (.atom k 1) = some (x.get k)) ∧
      ((v (.atom .n 0)).getD 0 + (v (.atom .n 1)).getD 0 = 2 * x.n) ∧
      (v' (.atom .n 0)).getD 0 + (v' (.atom .n 1)).getD 0 = y.n + z.n := by
  obtain ⟨f, h1, -, -, -, h4, h2⟩ := C216_table_partial [r, r'] r.head.length r.tail.length (by simp) (by simp [hh, ht]) (by
    intro q hq
    simp only [List.mem_cons, List.not_mem_nil, or_false] at hq
    rcases hq with rfl | rfl
    · rw [hr]
      exact ⟨by simp, by simp, fun w hw => he w (by simp at hw; simp [hw])⟩
    · rw [hr']
      exact ⟨by simp, by simp, fun w hw => he w (by simp at hw; simp [hw])⟩)
  obtain ⟨v, v', e, hv, hv'⟩ := forall₂_pair h2
  have hc : ∀ k, Col.atom k 1 ∈ f.cols := fun k => (h4 k 1).2 ⟨r', by simp, by rw [hr']; simp⟩
  have e0 : ∀ k, v (.atom k 0) = some (x.get k) := fun k => hv.2.2.1 0 x (by rw [hr]; rfl) k
  have e1 : ∀ k, v (.atom k 1) = some (x.get k) := fun k => by
    rw [hv.2.2.2 1 k (by rw [hr]; simp) (hc k), if_pos rfl, hr]
    rfl
  refine ⟨f, v, v', h1, e, hc, fun k => ⟨e0 k, e1 k⟩, ?_, ?_⟩
  · rw [e0, e1]
    simp only [Option.getD_some, Elem.get]
    ring
  · rw [hv'.2.2.1 0 y (by rw [hr']; rfl) .n, hv'.2.2.1 1 z (by rw [hr']; rfl) .n]
    rfl

/-- `site_features` raises KeyError if some site has eleven elements or more and another at most ten: of the column `Z10` the replacement is `Z00`. -/
theorem C216_eleven_violated (rs : List Row) (a b : ℕ) (hd : ∀ r ∈ rs, r.head.length = a ∧ r.tail.length = b)
    (h11 : ∃ r ∈ rs, 11 ≤ r.elems.length) (h10 : ∃ r ∈ rs, r.elems.length ≤ 10) : siteTable rs = .error .key := by
  have hlen : 2 ≤ rs.length := by
    obtain ⟨r, hr, h1⟩ := h11
    obtain ⟨r', hr', h2⟩ := h10
    match rs, hr, hr' with
    | [q], hr, hr' =>
      simp only [List.mem_singleton] at hr hr'
      subst hr hr'
      omega
    | _ :: _ :: _, _, _ => simp
  obtain ⟨f, r0, M, hb, hr0, hi, hf⟩ := build_inv rs a b hlen hd
  obtain ⟨r, hr, hr11⟩ := h11
  have hM := hi.bound r hr
  have hc : Col.atom .Z 10 ∈ f.cols := (hi.mem _).2 (Or.inr (Or.inl ⟨_, _, rfl, by omega⟩))
  unfold siteTable
  rw [hb]
  apply replace_error (.atom .Z 10) (by simp [substitute])
  · rw [List.mem_filter]
    exact ⟨hc, by simp [hasOne]⟩
  · obtain ⟨r', hr', h2⟩ := h10
    unfold Full at hf
    rw [hf]
    refine ⟨_, List.mem_map.2 ⟨r', hr', rfl⟩, ?_⟩
    rw [if_pos hc]
    simp [Row.value, List.getElem?_eq_none h2]

/-- Without sites, NameError. -/
theorem C216_none : siteTable [] = .error .name := rfl

example : ∃ f v v', siteTable [⟨[some 1], [⟨29, 4, 11⟩], [some 8, none]⟩, ⟨[some 2], [⟨29, 3, 11⟩, ⟨79, 1, 11⟩], [some 9, some (1 / 2)]⟩] = .ok f ∧
    f.rows = [v, v'] ∧ v (.atom .n 1) = some 4 := by
  obtain ⟨f, v, v', h1, h2, -, h3, -⟩ := C216_pure_violated ⟨[some 1], [⟨29, 4, 11⟩], [some 8, none]⟩
    ⟨[some 2], [⟨29, 3, 11⟩, ⟨79, 1, 11⟩], [some 9, some (1 / 2)]⟩ ⟨29, 4, 11⟩ ⟨29, 3, 11⟩ ⟨79, 1, 11⟩ rfl rfl rfl rfl (by
      intro q hq k
      simp only [List.mem_cons, List.not_mem_nil, or_false] at hq
      rcases hq with rfl | rfl | rfl <;> cases k <;> norm_num [Elem.get])
  exact ⟨f, v, v', h1, h2, (h3 .n).2⟩

example : siteTable [⟨[], List.replicate 11 ⟨1, 1, 1⟩, []⟩, ⟨[], [⟨1, 1, 1⟩], []⟩] = .error .key :=
  C216_eleven_violated _ 0 0 (by simp) ⟨_, by simp; exact Or.inl rfl, by simp⟩ ⟨⟨[], [⟨1, 1, 1⟩], []⟩, by simp, by simp⟩

example : ∃ f, siteTable [⟨[some 1], [⟨29, 4, 11⟩], [some 8, none]⟩] = .ok f ∧ ∃ v, f.rows = [v] ∧ v (.tail 1) = none :=
  (C216_nan_violated ⟨[some 1], [⟨29, 4, 11⟩], [some 8, none]⟩ ⟨[some 2], [⟨79, 1, 11⟩], [some 9, some (1 / 2)]⟩ 1 rfl rfl rfl (by
    intro q hq
    simp only [List.mem_cons, List.not_mem_nil, or_false] at hq
    rcases hq with rfl | rfl <;> refine ⟨by simp, by simp, fun x hx k => ?_⟩ <;> simp only [List.mem_singleton] at hx <;> subst hx <;>
      cases k <;> norm_num [Elem.get])).1

/-! ### `features_of_all_sites` -/

/-- The features of all atoms, image by image, with the number of the image. -/
def numberedRows (images : List (List Row)) : List (ℕ × Row) := images.zipIdx.flatMap fun p => p.1.map fun r => (p.2, r)

private theorem imageLoop_some (i : ℕ) : ∀ (rs : List Row) (a : ℕ) (f : Frame), ¬(i = 0 ∧ a = 0) →
    imageLoop i a rs (some f) = .ok (some ((rs.map fun r => r.numbered i).foldl Frame.add f)) := by
  intro rs
  induction rs with
  | nil => intro a f _; rfl
  | cons r rs ih =>
    intro a f h
    simp only [imageLoop, allStep, if_neg h, List.map_cons, List.foldl_cons]
    exact ih (a + 1) _ (by omega)

private theorem imagesLoop_some : ∀ (images : List (List Row)) (i : ℕ) (f : Frame), i ≠ 0 →
    imagesLoop i images (some f) = .ok (some (((images.zipIdx i).flatMap fun p => p.1.map fun r => r.numbered p.2).foldl Frame.add f)) := by
  intro images
  induction images with
  | nil => intro i f _; rfl
  | cons rs images ih =>
    intro i f h
    simp only [imagesLoop, imageLoop_some i rs 0 f (by simp [h]), List.zipIdx_cons, List.flatMap_cons, List.foldl_append]
    exact ih (i + 1) _ (by omega)

private theorem allSites_eq (t : ℕ) (r : Row) (rs : List Row) (images : List (List Row)) :
    ∃ f, f = ((numberedRows ((r :: rs) :: images)).tail.map fun p => p.2.numbered p.1).foldl Frame.add (r.numbered 0).frame ∧
      allSites t ((r :: rs) :: images) = .ok ⟨.tail t :: f.cols.dropLast, f.rows⟩ := by
  refine ⟨_, rfl, ?_⟩
  have h1 : imagesLoop 0 ((r :: rs) :: images) none =
      .ok (some (((numberedRows ((r :: rs) :: images)).tail.map fun p => p.2.numbered p.1).foldl Frame.add (r.numbered 0).frame)) := by
    simp only [imagesLoop, imageLoop, allStep, if_true, and_self]
    rw [imageLoop_some 0 rs 1 _ (by simp)]
    simp only []
    rw [imagesLoop_some images 1 _ (by simp), ← List.foldl_append]
    congr 3
    simp [numberedRows, List.zipIdx_cons, List.map_flatMap, Function.comp_def]
  unfold allSites
  rw [h1]

private theorem all_inv (r : Row) (rest : List (ℕ × Row)) (hd : ∀ p ∈ rest, p.2.head.length = r.head.length ∧ p.2.tail.length = r.tail.length)
    (hne : rest ≠ []) :
    ∃ M, Inv ((rest.map fun p => p.2.numbered p.1).foldl Frame.add (r.numbered 0).frame) (r.numbered 0)
        (((0, r) :: rest).map fun p => p.2.numbered p.1) M ∧
      Full ((rest.map fun p => p.2.numbered p.1).foldl Frame.add (r.numbered 0).frame) (((0, r) :: rest).map fun p => p.2.numbered p.1) := by
  have := inv_fold (r.numbered 0) (rest.map fun p => p.2.numbered p.1) (r.numbered 0).frame [r.numbered 0] _ (inv_first _)
    (Or.inr (by simpa using hne)) (by
      intro q hq
      obtain ⟨p, hp, rfl⟩ := List.mem_map.1 hq
      have := hd p hp
      simp [Row.numbered, this.1, this.2])
  exact this

/-- The table of `SiteFeaturizer.features_of_all_sites`, catlearn/featurize/site_stability.py L594-617, when the first image has at least as many
elements as all others and there are at least two atoms: one row for each atom of each image, in their order, and as columns the number of the
image, followed by the columns of the first atom.  An entry is the atom's own value, with 0 for NaN and in columns it does not have.
Partial: the first image has to have the most elements. -/
theorem C217_table_partial (a t : ℕ) (r : Row) (rs : List Row) (images : List (List Row))
    (hd : ∀ l ∈ (r :: rs) :: images, ∀ q ∈ l, q.head.length = a ∧ q.tail.length = t)
    (hmax : ∀ l ∈ (r :: rs) :: images, ∀ q ∈ l, q.elems.length ≤ r.elems.length)
    (htwo : 2 ≤ (numberedRows ((r :: rs) :: images)).length) :
    ∃ f, allSites t ((r :: rs) :: images) = .ok f ∧
      f.cols = .tail t :: ((List.range a).map .head ++ ((List.range r.elems.length).flatMap fun i => [.atom .Z i, .atom .n i, .atom .e i]) ++
        (List.range t).map .tail) ∧ f.cols.Nodup ∧
      List.Forall₂ (fun v (p : ℕ × Row) => v (.tail t) = some (p.1 : ℝ) ∧
        (∀ k x, p.2.head[k]? = some x → v (.head k) = some (x.getD 0)) ∧ (∀ k x, p.2.tail[k]? = some x → v (.tail k) = some (x.getD 0)) ∧
        (∀ i x, p.2.elems[i]? = some x → ∀ kind, v (.atom kind i) = some (x.get kind)) ∧
        ∀ i kind, p.2.elems.length ≤ i → i < r.elems.length → v (.atom kind i) = some 0)
        f.rows (numberedRows ((r :: rs) :: images)) := by
  obtain ⟨f, hf, hall⟩ := allSites_eq t r rs images
  have hmem : ∀ p ∈ numberedRows ((r :: rs) :: images), ∃ l ∈ (r :: rs) :: images, p.2 ∈ l := by
    intro p hp
    obtain ⟨⟨l, i⟩, hl, hp⟩ := List.mem_flatMap.1 hp
    obtain ⟨q, hq, rfl⟩ := List.mem_map.1 hp
    exact ⟨l, (List.mem_zipIdx hl).2.2 ▸ List.getElem_mem _, hq⟩
  have hcons : numberedRows ((r :: rs) :: images) = (0, r) :: (numberedRows ((r :: rs) :: images)).tail := by
    simp [numberedRows, List.zipIdx_cons]
  generalize hN : numberedRows ((r :: rs) :: images) = N at *
  have hrd := hd (r :: rs) (by simp) r (by simp)
  obtain ⟨M, hi, hfull⟩ := all_inv r N.tail (by
    intro p hp
    obtain ⟨l, hl, hpl⟩ := hmem p (List.mem_of_mem_tail hp)
    have := hd l hl p.2 hpl
    exact ⟨by omega, by omega⟩) (by
    intro h0
    rw [hcons, h0] at htwo
    simp at htwo)
  rw [← hf, ← hcons] at hi hfull
  have hM : M = r.elems.length := by
    apply le_antisymm
    · obtain ⟨q, hq, e⟩ := hi.reached
      obtain ⟨p, hp, rfl⟩ := List.mem_map.1 hq
      obtain ⟨l, hl, hpl⟩ := hmem p hp
      rw [← e]
      exact hmax l hl p.2 hpl
    · exact hi.le
  have hcols : f.cols = (r.numbered 0).cols := by
    rw [hi.cols, hM]
    simp [atomCols, Row.numbered]
  have hcols' : f.cols.dropLast = (List.range a).map .head ++
      ((List.range r.elems.length).flatMap fun i => [.atom .Z i, .atom .n i, .atom .e i]) ++ (List.range t).map .tail := by
    rw [hcols]
    simp only [Row.cols, Row.numbered, List.length_append, List.length_singleton, hrd.1, hrd.2, List.range_succ, List.map_append, List.map_cons,
      List.map_nil]
    rw [← List.append_assoc, List.dropLast_concat]
  have hlast : f.cols = f.cols.dropLast ++ [.tail t] := by
    rw [hcols', hcols]
    simp only [Row.cols, Row.numbered, List.length_append, List.length_singleton, hrd.1, hrd.2, List.range_succ, List.map_append, List.map_cons,
      List.map_nil]
    rw [← List.append_assoc]
  refine ⟨_, hall, by rw [← hcols'], ?_, ?_⟩
  · have := hi.nodup
    rw [hlast] at this
    rw [List.nodup_cons]
    rw [List.nodup_append] at this
    exact ⟨fun h => this.2.2 _ h _ (by simp) rfl, this.1⟩
  · show List.Forall₂ _ f.rows N
    unfold Full at hfull
    rw [hfull, List.map_map, List.forall₂_map_left_iff, List.forall₂_same]
    intro p hp
    obtain ⟨l, hl, hpl⟩ := hmem p hp
    have hpd := hd l hl p.2 hpl
    have hpm := hmax l hl p.2 hpl
    have hm := hi.mem
    have hv : ∀ c, c ∈ f.cols → ((fun (r : Row) c => if c ∈ f.cols then some ((r.value c).getD 0) else none) ∘ fun p : ℕ × Row => p.2.numbered p.1) p c
        = some (((p.2.numbered p.1).value c).getD 0) := by
      intro c hc
      exact if_pos hc
    refine ⟨?_, ?_, ?_, ?_, ?_⟩
    · rw [hv _ (by rw [hlast]; simp)]
      simp [Row.value, Row.numbered, hpd.2]
    · intro k x hx
      have hk : k < a := hpd.1 ▸ (List.getElem?_eq_some_iff.1 hx).1
      rw [hv _ ((hm _).2 (Or.inl ⟨k, rfl, by simpa [Row.numbered, hrd.1] using hk⟩))]
      simp [Row.value, Row.numbered, hx]
    · intro k x hx
      have hk : k < p.2.tail.length := (List.getElem?_eq_some_iff.1 hx).1
      rw [hv _ ((hm _).2 (Or.inr (Or.inr ⟨k, rfl, by simp [Row.numbered, hrd.2]; omega⟩)))]
      simp [Row.value, Row.numbered, List.getElem?_append_left hk, hx]
    · intro i x hx kind
      have hk : i < p.2.elems.length := (List.getElem?_eq_some_iff.1 hx).1
      rw [hv _ ((hm _).2 (Or.inr (Or.inl ⟨kind, i, rfl, by omega⟩)))]
      simp [Row.value, Row.numbered, hx]
    · intro i kind h1 h2
      rw [hv _ ((hm _).2 (Or.inr (Or.inl ⟨kind, i, rfl, by omega⟩)))]
      simp [Row.value, Row.numbered, List.getElem?_eq_none h1]

/-- If some atom has more elements than the first atom, the table has `material_number` twice, and the column `e_val` of the last element is lost,
although the atoms with the most elements have a value in it. -/
theorem C217_lost_violated (a t M : ℕ) (r : Row) (rs : List Row) (images : List (List Row))
    (hd : ∀ l ∈ (r :: rs) :: images, ∀ q ∈ l, q.head.length = a ∧ q.tail.length = t)
    (hmax : ∀ l ∈ (r :: rs) :: images, ∀ q ∈ l, q.elems.length ≤ M) (hreach : ∃ l ∈ (r :: rs) :: images, ∃ q ∈ l, q.elems.length = M)
    (hlt : r.elems.length < M) :
    ∃ f, allSites t ((r :: rs) :: images) = .ok f ∧ f.cols.count (.tail t) = 2 ∧ .atom .e (M - 1) ∉ f.cols ∧
      ∀ kind i, i < M → ¬(kind = .e ∧ i = M - 1) → .atom kind i ∈ f.cols := by
  obtain ⟨f, hf, hall⟩ := allSites_eq t r rs images
  have hmem : ∀ p ∈ numberedRows ((r :: rs) :: images), ∃ l ∈ (r :: rs) :: images, p.2 ∈ l := by
    intro p hp
    obtain ⟨⟨l, i⟩, hl, hp⟩ := List.mem_flatMap.1 hp
    obtain ⟨q, hq, rfl⟩ := List.mem_map.1 hp
    exact ⟨l, (List.mem_zipIdx hl).2.2 ▸ List.getElem_mem _, hq⟩
  have hmem' : ∀ l ∈ (r :: rs) :: images, ∀ q ∈ l, ∃ i, (i, q) ∈ numberedRows ((r :: rs) :: images) := by
    intro l hl q hq
    obtain ⟨i, hi, e⟩ := List.getElem_of_mem hl
    refine ⟨i, List.mem_flatMap.2 ⟨(l, i), ?_, List.mem_map.2 ⟨q, hq, rfl⟩⟩⟩
    rw [List.mk_mem_zipIdx_iff_getElem?]
    rw [List.getElem?_eq_getElem hi, e]
  have hcons : numberedRows ((r :: rs) :: images) = (0, r) :: (numberedRows ((r :: rs) :: images)).tail := by
    simp [numberedRows, List.zipIdx_cons]
  generalize hN : numberedRows ((r :: rs) :: images) = N at *
  have hrd := hd (r :: rs) (by simp) r (by simp)
  obtain ⟨l0, hl0, q0, hq0, e0⟩ := hreach
  obtain ⟨i0, hi0⟩ := hmem' l0 hl0 q0 hq0
  obtain ⟨M', hi, hfull⟩ := all_inv r N.tail (by
    intro p hp
    obtain ⟨l, hl, hpl⟩ := hmem p (List.mem_of_mem_tail hp)
    have := hd l hl p.2 hpl
    exact ⟨by omega, by omega⟩) (by
    intro h0
    rw [hcons, h0, List.mem_singleton] at hi0
    injection hi0 with h1 h2
    subst h2
    omega)
  rw [← hf, ← hcons] at hi hfull
  have hM : M' = M := by
    apply le_antisymm
    · obtain ⟨q, hq, e⟩ := hi.reached
      obtain ⟨p, hp, rfl⟩ := List.mem_map.1 hq
      obtain ⟨l, hl, hpl⟩ := hmem p hp
      rw [← e]
      exact hmax l hl p.2 hpl
    · rw [← e0]
      exact hi.bound (q0.numbered i0) (List.mem_map.2 ⟨(i0, q0), hi0, rfl⟩)
  subst hM
  have hn := hi.nodup
  have hm := hi.mem
  have hlast : f.cols = ((r.numbered 0).cols ++ (atomCols r.elems.length (M' - 1) ++ [.atom .Z (M' - 1), .atom .n (M' - 1)])) ++ [.atom .e (M' - 1)] := by
    rw [hi.cols]
    show _ ++ atomCols r.elems.length M' = _
    rw [atomCols_last _ _ hlt]
    simp only [List.append_assoc]
  generalize hX : (r.numbered 0).cols ++ (atomCols r.elems.length (M' - 1) ++ [.atom .Z (M' - 1), .atom .n (M' - 1)]) = X at hlast
  have hdrop : f.cols.dropLast = X := by rw [hlast, List.dropLast_concat]
  rw [hlast, List.nodup_append] at hn
  have hmX : ∀ c, c ∈ X ↔ c ∈ f.cols ∧ c ≠ .atom .e (M' - 1) := by
    intro c
    rw [hlast, List.mem_append, List.mem_singleton]
    constructor
    · exact fun h => ⟨Or.inl h, fun h' => hn.2.2 _ h _ (by simp) h'⟩
    · rintro ⟨h | h, h'⟩
      · exact h
      · exact absurd h h'
  refine ⟨_, hall, ?_, ?_, ?_⟩
  · rw [hdrop, List.count_cons_self, List.count_eq_one_of_mem hn.1 ((hmX _).2 ⟨(hm _).2 (Or.inr (Or.inr ⟨t, rfl, by simp [Row.numbered, hrd.2]⟩)), by simp⟩)]
  · rw [hdrop, List.mem_cons, hmX]
    simp
  · intro kind i h1 h2
    rw [hdrop]
    refine List.mem_cons_of_mem _ ((hmX _).2 ⟨(hm _).2 (Or.inr (Or.inl ⟨kind, i, rfl, h1⟩)), ?_⟩)
    intro h
    injection h with h3 h4
    exact h2 ⟨h3, h4⟩

/-- Without images, or if the first has no atoms, NameError. -/
theorem C217_empty (t : ℕ) (images : List (List Row)) : allSites t [] = .error .name ∧ allSites t ([] :: images) = .error .name := by
  refine ⟨rfl, ?_⟩
  have : ∀ (images : List (List Row)) (i : ℕ), i ≠ 0 → imagesLoop i images none = .ok none ∨ imagesLoop i images none = .error .name := by
    intro images
    induction images with
    | nil => intro i _; exact Or.inl rfl
    | cons l images ih =>
      intro i hi
      cases l with
      | nil => exact ih (i + 1) (by omega)
      | cons q qs =>
        right
        simp [imagesLoop, imageLoop, allStep, hi]
  unfold allSites
  simp only [imagesLoop, imageLoop]
  rcases this images 1 (by simp) with h | h <;> rw [h]

example : ∃ f, allSites 1 [[⟨[some 1], [⟨29, 1, 11⟩], [some 8]⟩], [⟨[some 1], [⟨29, 1, 11⟩, ⟨79, 1, 11⟩], [some 8]⟩]] = .ok f ∧
    f.cols.count (.tail 1) = 2 ∧ .atom .e 1 ∉ f.cols := by
  obtain ⟨f, h1, h2, h3, -⟩ := C217_lost_violated 1 1 2 ⟨[some 1], [⟨29, 1, 11⟩], [some 8]⟩ [] [[⟨[some 1], [⟨29, 1, 11⟩, ⟨79, 1, 11⟩], [some 8]⟩]]
    (by simp) (by simp) ⟨_, List.mem_cons_of_mem _ (List.mem_singleton.2 rfl), _, List.mem_singleton.2 rfl, rfl⟩ (by simp)
  exact ⟨f, h1, h2, h3⟩

example : ∃ f, allSites 1 [[⟨[some 1], [⟨29, 1, 11⟩, ⟨79, 1, 11⟩], [some 8]⟩], [⟨[some 1], [⟨29, 1, 11⟩], [some 8]⟩]] = .ok f ∧
    f.cols = [.tail 1, .head 0, .atom .Z 0, .atom .n 0, .atom .e 0, .atom .Z 1, .atom .n 1, .atom .e 1, .tail 0] := by
  obtain ⟨f, h1, h2, -⟩ := C217_table_partial 1 1 ⟨[some 1], [⟨29, 1, 11⟩, ⟨79, 1, 11⟩], [some 8]⟩ [] [[⟨[some 1], [⟨29, 1, 11⟩], [some 8]⟩]]
    (by simp) (by simp) (by simp [numberedRows, List.zipIdx])
  exact ⟨f, h1, h2⟩

end CatLearn.SiteTable
