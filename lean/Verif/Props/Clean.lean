import Verif.Model.Clean
import Verif.Spec.Clean
import Verif.Lemmas.Py
import Mathlib.Tactic.Linarith
import Mathlib.Tactic.NormNum
import Mathlib.Tactic.Positivity
import Mathlib.Tactic.Ring
import Mathlib.Tactic.FieldSimp
import Mathlib.Algebra.BigOperators.Group.List.Basic
import Mathlib.Algebra.Order.BigOperators.Group.List

/-!
# Properties of data cleaning (C18–C20, C79–C81)
-/

namespace CatLearn.Props

open CatLearn CatLearn.Clean CatLearn.Spec

/-! ### Boolean indexing -/

private theorem truePos_cons (b : Bool) (m : List Bool) :
    truePos (b :: m) = (if b then [0] else []) ++ (truePos m).map (· + 1) := by
  unfold truePos
  rw [List.length_cons, List.range_succ_eq_map, List.filter_cons, List.filter_map]
  simp only [List.getElem?_cons_zero, Option.getD_some]
  have : ((fun j => ((b :: m)[j]?).getD false) ∘ Nat.succ) = fun j => (m[j]?).getD false := by
    funext j; simp
  rw [this]
  cases b <;> simp

theorem boolIndex_eq {α : Type} : ∀ (mask : List Bool) (l : List α), l.length = mask.length →
    boolIndex mask l = keep mask l := by
  intro mask
  induction mask with
  | nil => intro l h; simp [boolIndex, truePos, keep]
  | cons b mask ih =>
    intro l h
    cases l with
    | nil => simp at h
    | cons a l =>
      have hl : l.length = mask.length := by simpa using h
      have : boolIndex (b :: mask) (a :: l) = (if b then [a] else []) ++ boolIndex mask l := by
        unfold boolIndex
        rw [truePos_cons, List.filterMap_append, List.filterMap_map]
        congr 1
        cases b <;> simp
      rw [this, ih l hl]
      cases b <;> simp [keep]

private theorem boolIndex_filter {α : Type} (p : α → Bool) (l : List α) :
    boolIndex (l.map p) l = l.filter p := by
  rw [boolIndex_eq _ _ (by simp)]
  induction l with
  | nil => simp [keep]
  | cons a l ih =>
    simp only [keep, List.map_cons, List.zip_cons_cons, List.filterMap_cons] at ih ⊢
    by_cases h : p a
    · simp [h, ih]
    · simp [h, ih]

theorem boolIndex_zip_filter {α β : Type} (p : β → Bool) : ∀ (xs : List α) (ys : List β),
    xs.length = ys.length →
    boolIndex (ys.map p) xs = ((xs.zip ys).filter fun q => p q.2).map Prod.fst := by
  intro xs ys h
  rw [boolIndex_eq _ _ (by simp [h])]
  induction xs generalizing ys with
  | nil => simp [keep]
  | cons x xs ih =>
    cases ys with
    | nil => simp at h
    | cons y ys =>
      have hl : xs.length = ys.length := by simpa using h
      have IH := ih ys hl
      simp only [keep, List.map_cons, List.zip_cons_cons, List.filterMap_cons] at IH ⊢
      by_cases hp : p y
      · simp [hp, IH]
      · simp [hp, IH]

theorem boolIndex_snd_filter {α β : Type} (p : β → Bool) (xs : List α) (ys : List β)
    (h : xs.length = ys.length) :
    boolIndex (ys.map p) ys = ((xs.zip ys).filter fun q => p q.2).map Prod.snd := by
  rw [boolIndex_filter]
  induction xs generalizing ys with
  | nil => cases ys with
    | nil => rfl
    | cons y ys => simp at h
  | cons x xs ih =>
    cases ys with
    | nil => simp at h
    | cons y ys =>
      have hl : xs.length = ys.length := by simpa using h
      have IH := ih ys hl
      by_cases hp : p y
      · simp [hp, IH]
      · simp [hp, IH]

/-! ### C20: outliers -/

private theorem countP_lt_sorted (s : List ℝ) (hs : s.Pairwise (· ≤ ·)) (k : Nat) (hk : k < s.length)
    (m : ℝ) (hm : m ≤ s[k]) : s.countP (fun x => decide (x < m)) ≤ k := by
  rw [← List.take_append_drop k s, List.countP_append]
  have h1 : (s.drop k).countP (fun x => decide (x < m)) = 0 := by
    rw [List.countP_eq_zero]
    intro x hx
    obtain ⟨i, hi, rfl⟩ := List.mem_iff_getElem.mp hx
    rw [List.getElem_drop]
    simp only [decide_eq_true_eq, not_lt]
    rcases Nat.eq_zero_or_pos i with h | h
    · subst h; simpa using hm
    · refine hm.trans ?_
      exact List.pairwise_iff_getElem.mp hs k (k + i) hk (by simp at hi; omega) (by omega)
  rw [h1]
  have := List.countP_le_length (p := fun x => decide (x < m)) (l := s.take k)
  simp at this
  omega

private theorem countP_gt_sorted (s : List ℝ) (hs : s.Pairwise (· ≤ ·)) (k : Nat) (hk : k < s.length)
    (m : ℝ) (hm : s[k] ≤ m) : s.countP (fun x => decide (m < x)) ≤ s.length - (k + 1) := by
  rw [← List.take_append_drop (k + 1) s, List.countP_append]
  have h1 : (s.take (k + 1)).countP (fun x => decide (m < x)) = 0 := by
    rw [List.countP_eq_zero]
    intro x hx
    obtain ⟨i, hi, rfl⟩ := List.mem_iff_getElem.mp hx
    rw [List.getElem_take]
    simp only [decide_eq_true_eq, not_lt]
    simp at hi
    rcases Nat.lt_or_ge i k with h | h
    · exact (List.pairwise_iff_getElem.mp hs i k (by omega) hk h).trans hm
    · have : i = k := by omega
      subst this; exact hm
  rw [h1]
  have := List.countP_le_length (p := fun x => decide (m < x)) (l := s.drop (k + 1))
  simp at this ⊢
  omega

/-- The value used as the median is a median. -/
theorem median_isMedian (l : List ℝ) (hl : l ≠ []) : IsMedian l (median l) := by
  have hp := sortAsc_perm (id : ℝ → ℝ) l
  have hs : (sortAsc (id : ℝ → ℝ) l).Pairwise (· ≤ ·) := sortAsc_pairwise id l
  set s := sortAsc (id : ℝ → ℝ) l with hsdef
  have hlen : s.length = l.length := hp.length_eq
  have hpos : 0 < l.length := List.length_pos_iff.mpr hl
  unfold IsMedian
  rw [← hp.countP_eq, ← hp.countP_eq, ← hlen]
  unfold median
  simp only [← hsdef]
  split
  · rename_i hodd
    have hk : l.length / 2 < s.length := by omega
    rw [List.getElem?_eq_getElem hk, Option.getD_some]
    have h1 := countP_lt_sorted s hs _ hk s[l.length / 2] le_rfl
    have h2 := countP_gt_sorted s hs _ hk s[l.length / 2] le_rfl
    omega
  · rename_i heven
    have hk : l.length / 2 < s.length := by omega
    have hk' : l.length / 2 - 1 < s.length := by omega
    rw [List.getElem?_eq_getElem hk, List.getElem?_eq_getElem hk', Option.getD_some, Option.getD_some]
    have hle : s[l.length / 2 - 1] ≤ s[l.length / 2] :=
      List.pairwise_iff_getElem.mp hs _ _ hk' hk (by omega)
    have h1 := countP_lt_sorted s hs _ hk ((s[l.length / 2 - 1] + s[l.length / 2]) / 2) (by linarith)
    have h2 := countP_gt_sorted s hs _ hk' ((s[l.length / 2 - 1] + s[l.length / 2]) / 2) (by linarith)
    omega

/-- C20 (partial).  With a median `med` of the targets and `mad = con *` a median of the absolute deviations,
`remove_outliers` keeps exactly the (row, target) pairs with `target < med + mad` (constraint 'high' or
None) and `target > med - mad` (constraint 'low' or None), in order and still paired.  A target equal
to the median is kept iff `mad > 0`. -/
theorem C20_remove_outliers_partial {α : Type} (features : List α) (targets : List ℝ) (con dev : ℝ)
    (c : Constraint) (hl : features.length = targets.length) (hne : targets ≠ []) :
    ∃ r med, removeOutliers features targets con dev c = .ok r ∧ IsMedian targets med ∧
      (∃ m, IsMedian (targets.map fun t => |t - med|) m ∧ r.mad = con * m) ∧
      r.features.length = r.targets.length ∧
      r.features.zip r.targets = (features.zip targets).filter (fun p =>
        (decide (c = .high ∨ c = .none → p.2 < med + r.mad) &&
         decide (c = .low ∨ c = .none → p.2 > med - r.mad))) ∧
      (med ∈ targets → (med ∈ r.targets ↔ c = .other ∨ 0 < r.mad)) := by
  have zip_unzip : ∀ l : List (α × ℝ), (l.map Prod.fst).zip (l.map Prod.snd) = l := by
    intro l; induction l with
    | nil => rfl
    | cons a l ih => simp [ih]
  set med := median targets with hmed
  set mad := con * median (targets.map fun t => |t - med|) with hmad
  have hM : IsMedian targets med := median_isMedian targets hne
  have hM' : IsMedian (targets.map fun t => |t - med|) (median (targets.map fun t => |t - med|)) :=
    median_isMedian _ (by simpa using hne)
  -- the general form of the result
  have key : ∃ r, removeOutliers features targets con dev c = .ok r ∧ r.mad = mad ∧
      ∃ l : List (α × ℝ), r.features = l.map Prod.fst ∧ r.targets = l.map Prod.snd ∧
      l = (features.zip targets).filter (fun p =>
        (decide (c = .high ∨ c = .none → p.2 < med + mad) &&
         decide (c = .low ∨ c = .none → p.2 > med - mad))) := by
    have e1 := boolIndex_zip_filter (fun t => decide (t < med + mad)) features targets hl
    have e2 := boolIndex_snd_filter (fun t => decide (t < med + mad)) features targets hl
    have e3 := boolIndex_zip_filter (fun t => decide (t > med - mad)) features targets hl
    have e4 := boolIndex_snd_filter (fun t => decide (t > med - mad)) features targets hl
    unfold removeOutliers
    rw [if_neg (by simp [hl])]
    simp only [← hmed, ← hmad]
    cases c with
    | high =>
      simp only [true_or, if_true, reduceCtorEq, or_self, if_false]
      refine ⟨_, rfl, rfl, _, e1, e2, ?_⟩
      congr 1; funext p; simp
    | low =>
      simp only [true_or, if_true, reduceCtorEq, or_self, if_false]
      refine ⟨_, rfl, rfl, _, e3, e4, ?_⟩
      congr 1; funext p; simp
    | none =>
      simp only [or_true, if_true]
      refine ⟨_, rfl, rfl, ((features.zip targets).filter fun q => decide (q.2 < med + mad)).filter
        fun q => decide (q.2 > med - mad), ?_, ?_, ?_⟩
      · simp only [e1, e2]
        rw [boolIndex_zip_filter _ _ _ (by simp), zip_unzip]
      · simp only [e2]
        rw [boolIndex_snd_filter _ (((features.zip targets).filter
          fun q => decide (q.2 < med + mad)).map Prod.fst) _ (by simp), zip_unzip]
      · rw [List.filter_filter]
        congr 1; funext p; simp [Bool.and_comm]
    | other =>
      simp only [reduceCtorEq, or_self, if_false]
      refine ⟨_, rfl, rfl, features.zip targets, ?_, ?_, ?_⟩
      · rw [List.map_fst_zip (by omega)]
      · rw [List.map_snd_zip (by omega)]
      · simp
  obtain ⟨r, hr, hrm, l, hf, ht, hlf⟩ := key
  refine ⟨r, med, hr, hM, ⟨_, hM', hrm⟩, by rw [hf, ht]; simp, ?_, ?_⟩
  · rw [hf, ht, zip_unzip, hlf, hrm]
  · intro hmem
    rw [ht, hlf, hrm]
    obtain ⟨i, hi, hie⟩ := List.mem_iff_getElem.mp hmem
    have hzip : (features[i], med) ∈ features.zip targets := by
      rw [List.mem_iff_getElem]
      exact ⟨i, by simp; omega, by simp [hie]⟩
    constructor
    · intro h
      obtain ⟨p, hp, hpe⟩ := List.mem_map.mp h
      rw [List.mem_filter] at hp
      have h2 := hp.2
      simp only [hpe, Bool.and_eq_true, decide_eq_true_eq] at h2
      cases c with
      | high => right; have := h2.1 (.inl rfl); linarith
      | low => right; have := h2.2 (.inl rfl); linarith
      | none => right; have := h2.1 (.inr rfl); linarith
      | other => left; rfl
    · intro h
      refine List.mem_map.mpr ⟨(features[i], med), ?_, rfl⟩
      rw [List.mem_filter]
      refine ⟨hzip, ?_⟩
      simp only [Bool.and_eq_true, decide_eq_true_eq]
      rcases h with rfl | h
      · simp
      · exact ⟨fun _ => by linarith, fun _ => by linarith⟩

example : ([10, 20, 30] : List Nat).length = ([1, 2, 30] : List ℝ).length ∧ ([1, 2, 30] : List ℝ) ≠ [] := by
  simp

private theorem median_replicate (n : Nat) (x : ℝ) : median (List.replicate (n + 1) x) = x := by
  have h := sortAsc_perm (id : ℝ → ℝ) (List.replicate (n + 1) x)
  have hs : sortAsc (id : ℝ → ℝ) (List.replicate (n + 1) x) = List.replicate (n + 1) x :=
    List.perm_replicate.mp h
  unfold median
  simp only [hs, List.length_replicate]
  split
  · rw [List.getElem?_replicate, if_pos (by omega), Option.getD_some]
  · rw [List.getElem?_replicate, if_pos (by omega), List.getElem?_replicate, if_pos (by omega)]
    simp

/-- C20, different numbers of rows and targets: nothing is returned for any of the constraints. -/
theorem C20_lengths {α : Type} (features : List α) (targets : List ℝ) (con dev : ℝ) (c : Constraint) (hc : c ≠ .other)
    (hl : features.length ≠ targets.length) : removeOutliers features targets con dev c = .error .index := by
  unfold removeOutliers
  rw [if_pos ⟨hc, hl⟩]

example : Constraint.high ≠ .other ∧ [(), ()].length ≠ ([0, 1, 5] : List ℝ).length := by simp

/-- C20 is violated: when all targets are equal (so every one of them is the median) everything is
removed, whatever `con` and `dev` are. -/
theorem C20_remove_outliers_violated {α : Type} (n : Nat) (x con dev : ℝ) (features : List α)
    (hl : features.length = n + 1) (c : Constraint) (hc : c ≠ .other) :
    ∃ r, removeOutliers features (List.replicate (n + 1) x) con dev c = .ok r ∧ r.targets = [] ∧
      r.features = [] := by
  obtain ⟨r, med, hr, hM, ⟨m, hm, hrm⟩, hlen, hz, hmem⟩ := C20_remove_outliers_partial features
    (List.replicate (n + 1) x) con dev c (by simp [hl]) (by simp)
  have h0 : r.mad = 0 := by
    have := hr
    unfold removeOutliers at this
    rw [if_neg (by simp [hl])] at this
    simp only [Except.ok.injEq] at this
    rw [← this]
    simp only [median_replicate, List.map_replicate, sub_self, abs_zero, mul_zero]
  have hmed : med = x := by
    obtain ⟨h1, h2⟩ := hM
    rcases lt_trichotomy x med with h | h | h
    · simp only [List.countP_replicate, h, decide_true, if_true, List.length_replicate] at h1; omega
    · exact h.symm
    · simp only [List.countP_replicate, h, decide_true, if_true, List.length_replicate] at h2; omega
  have hnil : r.features.zip r.targets = [] := by
    rw [hz, List.filter_eq_nil_iff]
    intro p hp
    have hpx : p.2 = x := (List.mem_replicate.mp (List.of_mem_zip hp).2).2
    rw [h0, hmed, hpx]
    cases c <;> simp at hc ⊢
  have hl0 : r.targets.length = 0 := by
    have := congrArg List.length hnil
    simpa [hlen] using this
  exact ⟨r, hr, List.length_eq_zero_iff.mp hl0, List.length_eq_zero_iff.mp (by rw [hlen, hl0])⟩

/-- C81 (partial).  For fewer deviations than the constant `con` the claim holds: every pair of a row and a target within `dev`
median absolute deviations `m` of the median is kept, if there is any deviation.  Missing: every larger number of deviations (see the
violation). -/
theorem C81_dev_respected_partial {α : Type} (features : List α) (targets : List ℝ) (con dev : ℝ) (c : Constraint)
    (hl : features.length = targets.length) (hne : targets ≠ []) (hd : dev < con) :
    ∃ r med m, removeOutliers features targets con dev c = .ok r ∧ IsMedian targets med ∧
      IsMedian (targets.map fun t => |t - med|) m ∧
      (0 < m → ∀ p ∈ features.zip targets, |p.2 - med| ≤ dev * m → p ∈ r.features.zip r.targets) := by
  obtain ⟨r, med, hr, hmed, ⟨m, hm, hmad⟩, _, hz, _⟩ := C20_remove_outliers_partial features targets con dev c hl hne
  refine ⟨r, med, m, hr, hmed, hm, fun h0 p hp hle => ?_⟩
  have hlt : |p.2 - med| < r.mad := by
    rw [hmad]
    exact lt_of_le_of_lt hle (mul_lt_mul_of_pos_right hd h0)
  rw [abs_lt] at hlt
  rw [hz, List.mem_filter]
  refine ⟨hp, ?_⟩
  simp only [Bool.and_eq_true, decide_eq_true_eq]
  exact ⟨fun _ => by linarith [hlt.2], fun _ => by linarith [hlt.1]⟩

example : ([0, 1, 2] : List ℝ) ≠ [] ∧ (1 : ℝ) < 3 := ⟨by simp, by norm_num⟩

/-- C81 is violated: the number of deviations asked for has no influence, so e.g. with `dev = 3` a target
well within three deviations of the median is removed. -/
theorem C81_dev_respected_violated :
    (∀ {α : Type} (features : List α) (targets : List ℝ) (con dev dev' : ℝ) (c : Constraint),
      removeOutliers features targets con dev c = removeOutliers features targets con dev' c) ∧
    ∃ (r : Outliers Unit) (med : ℝ), IsMedian [0, 1, 2] med ∧
      removeOutliers [(), (), ()] [0, 1, 2] 1 3 .none = .ok r ∧
      |2 - med| ≤ 3 * r.mad ∧ 0 < r.mad ∧ (2 : ℝ) ∉ r.targets := by
  refine ⟨fun _ _ _ _ _ _ => rfl, ?_⟩
  have hmed : median [0, 1, 2] = 1 := by
    have : sortAsc (id : ℝ → ℝ) [0, 1, 2] = [0, 1, 2] := by
      apply List.Pairwise.insertionSort_eq; simp
    simp [median, this]
  have hmed2 : median [1, 0, 1] = 1 := by
    have : sortAsc (id : ℝ → ℝ) [1, 0, 1] = [0, 1, 1] := by
      simp [sortAsc, List.insertionSort, List.orderedInsert]
    simp [median, this]
  have hr : removeOutliers [(), (), ()] [0, 1, 2] 1 3 .none = .ok ⟨1, [1], [()]⟩ := by
    unfold removeOutliers
    have h3 : ([0, 1, 2] : List ℝ).map (fun t => |t - 1|) = [1, 0, 1] := by
      simp; norm_num
    simp only [List.length_cons, List.length_nil, hmed, h3, hmed2, ne_eq, not_true, and_false, if_false, or_true,
      if_true, mul_one]
    have h4 : ([0, 1, 2] : List ℝ).map (fun t => decide (t < 1 + 1)) = [true, true, false] := by
      simp; norm_num
    rw [h4]
    have h5 : boolIndex [true, true, false] ([0, 1, 2] : List ℝ) = [0, 1] := by
      rw [boolIndex_eq _ _ (by simp)]; simp [keep]
    have h6 : boolIndex [true, true, false] [(), (), ()] = [(), ()] := by decide
    rw [h5, h6]
    have h7 : ([0, 1] : List ℝ).map (fun t => decide (t > 1 - 1)) = [false, true] := by
      simp
    rw [h7]
    have h8 : boolIndex [false, true] ([0, 1] : List ℝ) = [1] := by
      rw [boolIndex_eq _ _ (by simp)]; simp [keep]
    have h9 : boolIndex [false, true] [(), ()] = [()] := by decide
    rw [h8, h9]
  refine ⟨_, 1, ?_, hr, by norm_num, by norm_num, by simp⟩
  have := median_isMedian [0, 1, 2] (by simp)
  rwa [hmed] at this

/-! ### Column selection -/

theorem keep_getElem? {α : Type} (mask : List Bool) (l : List α) (h : l.length = mask.length)
    (k : Nat) : (keep mask l)[k]? = (truePos mask)[k]?.bind fun j => l[j]? := by
  rw [← boolIndex_eq mask l h]
  have hlt : ∀ j ∈ truePos mask, j < l.length := by
    intro j hj
    simp only [truePos, List.mem_filter, List.mem_range] at hj
    omega
  unfold boolIndex
  generalize truePos mask = ps at hlt
  induction ps generalizing k with
  | nil => simp
  | cons a ps ih =>
    have ha : a < l.length := hlt a (by simp)
    rw [List.filterMap_cons, List.getElem?_eq_getElem ha]
    cases k with
    | zero => simp [ha]
    | succ k => simpa using ih k (fun j hj => hlt j (by simp [hj]))

theorem keep_length {α : Type} (mask : List Bool) (l : List α) (h : l.length = mask.length) :
    (keep mask l).length = mask.count true := by
  induction mask generalizing l with
  | nil => simp [keep]
  | cons b mask ih =>
    cases l with
    | nil => simp at h
    | cons a l =>
      have := ih l (by simpa using h)
      cases b <;> simp [keep] at this ⊢ <;> omega

private theorem keep_all_true {α : Type} (mask : List Bool) (l : List α) (h : l.length = mask.length)
    (ht : ∀ b ∈ mask, b = true) : keep mask l = l := by
  induction mask generalizing l with
  | nil => cases l with
    | nil => rfl
    | cons a l => simp at h
  | cons b mask ih =>
    cases l with
    | nil => simp at h
    | cons a l =>
      have := ih l (by simpa using h) (fun b hb => ht b (by simp [hb]))
      have hb : b = true := ht b (by simp)
      subst hb
      simp only [keep, List.zip_cons_cons, List.filterMap_cons, if_true] at this ⊢
      rw [this]

/-- The result of a column selection: train, test and labels restricted to the same columns. -/
def ColumnsSelected {V L : Type} (index : List Bool) (train : List (List V))
    (test : Option (List (List V))) (labels : Option (List L)) (r : Cleaned V L) : Prop :=
  r.index = index ∧ r.train = train.map (keep index) ∧
  r.test = test.map (fun t => t.map (keep index)) ∧ r.labels = labels.map (keep index)

private theorem selectColumns_spec {V L : Type} (d : Nat) (index : List Bool) (hi : index.length = d)
    (train : List (List V)) (htr : ∀ r ∈ train, r.length = d)
    (test : Option (List (List V))) (hte : ∀ t ∈ test, ∀ r ∈ t, r.length = d)
    (labels : Option (List L)) (hla : ∀ l ∈ labels, l.length = d) :
    ∃ r, selectColumns d index train test labels = .ok r ∧
      ColumnsSelected index train test labels r := by
  have hm : ∀ X : List (List V), (∀ r ∈ X, r.length = d) →
      X.map (boolIndex index) = X.map (keep index) := fun X hX =>
    List.map_congr_left fun r hr => boolIndex_eq _ _ (by rw [hX r hr, hi])
  unfold selectColumns
  cases test with
  | none =>
    cases labels with
    | none => exact ⟨_, rfl, rfl, hm train htr, rfl, rfl⟩
    | some l =>
      have hl : l.length = d := hla l rfl
      simp only [hl, if_true, bind, Except.bind, pure, Except.pure]
      exact ⟨_, rfl, rfl, hm train htr, rfl, by simp [boolIndex_eq index l (by omega)]⟩
  | some t =>
    have ht : t.all (fun r => r.length == d) = true := by
      simpa using hte t rfl
    cases labels with
    | none =>
      simp only [ht, if_true, bind, Except.bind, pure, Except.pure]
      exact ⟨_, rfl, rfl, hm train htr, by simp [hm t (hte t rfl)], rfl⟩
    | some l =>
      have hl : l.length = d := hla l rfl
      simp only [hl, ht, if_true, bind, Except.bind, pure, Except.pure]
      exact ⟨_, rfl, rfl, hm train htr, by simp [hm t (hte t rfl)],
        by simp [boolIndex_eq index l (by omega)]⟩

private theorem map_range_getElem (d : Nat) (f : Nat → Bool) (j : Nat) (hj : j < d) :
    ((List.range d).map f)[j]? = some (f j) := by
  simp [hj]

theorem column_keep {V : Type} (mask : List Bool) (X : List (List V))
    (hX : ∀ r ∈ X, r.length = mask.length) (k j : Nat) (hk : (truePos mask)[k]? = some j) :
    column (X.map (keep mask)) k = column X j := by
  unfold column
  rw [List.filterMap_map]
  induction X with
  | nil => rfl
  | cons r X ih =>
    have h1 : (keep mask r)[k]? = r[j]? := by
      rw [keep_getElem? mask r (hX r (by simp)), hk]; rfl
    simp only [List.filterMap_cons, Function.comp, h1]
    have := ih (fun r hr => hX r (by simp [hr]))
    simp only [Function.comp_def] at this
    rw [this]

/-! ### C19: zero variance -/

/-- Population variance of a list of numbers. -/
noncomputable def variance (v : List ℝ) : ℝ :=
  (v.map fun x => (x - v.sum / v.length) ^ 2).sum / v.length

private theorem sum_const (v : List ℝ) (c : ℝ) (h : ∀ x ∈ v, x = c) : v.sum = v.length * c := by
  induction v with
  | nil => simp
  | cons a v ih =>
    rw [List.sum_cons, ih (fun x hx => h x (by simp [hx])), h a (by simp), List.length_cons]
    push_cast; ring

private theorem nanStd_some (v : List ℝ) (hv : v ≠ []) :
    nanStd (v.map some) = some (Real.sqrt (variance v)) := by
  have h1 : (v.map some).filterMap (id : Option ℝ → Option ℝ) = v := by
    rw [List.filterMap_map]; simp
  have : v.length ≠ 0 := by simpa using hv
  unfold nanStd
  simp only [h1, this, if_false, variance]

/-- C19 (partial).  `clean_variance` returns a column selection that is applied to train, test and labels
alike.  Every constant column is removed; every column of numbers whose variance exceeds
`(1.1e-8)^2` is kept; and cleaning the result again changes nothing. -/
theorem C19_clean_variance_partial {L : Type} (d : Nat) (train : List (List (Option ℝ)))
    (htr : ∀ r ∈ train, r.length = d)
    (test : Option (List (List (Option ℝ)))) (hte : ∀ t ∈ test, ∀ r ∈ t, r.length = d)
    (labels : Option (List L)) (hla : ∀ l ∈ labels, l.length = d) (mask : Option (List Nat)) :
    ∃ r, cleanVariance d train test labels mask = .ok r ∧ r.index.length = d ∧
      ColumnsSelected r.index train test labels r ∧
      (∀ j < d, ∀ c : ℝ, train ≠ [] → (∀ row ∈ train, row[j]? = some (some c)) →
        r.index[j]? = some false) ∧
      (∀ j < d, ∀ v : List ℝ, v ≠ [] → train.map (fun row => row[j]?) = v.map (fun x => some (some x)) →
        (1.1e-8) ^ 2 < variance v → r.index[j]? = some true) ∧
      (∀ mask', ∃ r', cleanVariance (r.index.count true) r.train r.test r.labels mask' = .ok r' ∧
        r'.train = r.train ∧ r'.test = r.test ∧ r'.labels = r.labels) := by
  set f := fun j => !isCloseZero (nanStd (column train j)) with hf
  have hlen : ((List.range d).map f).length = d := by simp
  obtain ⟨r, hr, hsel⟩ := selectColumns_spec d ((List.range d).map f) hlen train htr test hte labels hla
  obtain ⟨hidx, htrain, htest, hlab⟩ := hsel
  have hcolumn : ∀ j, ∀ l : List (Option ℝ), train.map (fun row => row[j]?) = l.map some →
      column train j = l := by
    intro j l h
    have : column train j = (train.map (fun row => row[j]?)).filterMap id := by
      rw [List.filterMap_map]; rfl
    rw [this, h, List.filterMap_map]; simp
  refine ⟨r, hr, by rw [hidx]; exact hlen, ⟨rfl, by rw [htrain, hidx], by rw [htest, hidx],
    by rw [hlab, hidx]⟩, ?_, ?_, ?_⟩
  · intro j hj c hne hc
    rw [hidx, map_range_getElem d f j hj]
    have hcol : column train j = ((List.replicate train.length c).map some) := by
      apply hcolumn
      simp only [List.map_replicate]
      rw [List.eq_replicate_iff]
      refine ⟨by simp, ?_⟩
      intro x hx
      obtain ⟨row, hrow, rfl⟩ := List.mem_map.mp hx
      exact hc row hrow
    have hpos : train.length ≠ 0 := by simpa using hne
    have hvar : variance (List.replicate train.length c) = 0 := by
      unfold variance
      have hn : ((train.length : Nat) : ℝ) ≠ 0 := by exact_mod_cast hpos
      have hmean : (List.replicate train.length c).sum / ((List.replicate train.length c).length : ℝ) = c := by
        rw [sum_const _ c (fun x hx => (List.mem_replicate.mp hx).2)]
        simp only [List.length_replicate]
        field_simp
      rw [hmean]
      rw [sum_const _ 0 (by
        intro x hx
        obtain ⟨y, hy, rfl⟩ := List.mem_map.mp hx
        rw [(List.mem_replicate.mp hy).2]; ring)]
      simp
    simp only [hf, hcol]
    rw [nanStd_some _ (by simpa using hpos), hvar]
    simp only [Real.sqrt_zero, isCloseZero, sub_zero, abs_zero, mul_zero, add_zero]
    norm_num
  · intro j hj v hv hcol hvar
    rw [hidx, map_range_getElem d f j hj]
    have hc : column train j = v.map some := by
      apply hcolumn; rw [hcol, List.map_map]; rfl
    simp only [hf, hc]
    rw [nanStd_some _ hv]
    have hs : (1.1e-8 : ℝ) < Real.sqrt (variance v) :=
      Real.lt_sqrt_of_sq_lt hvar
    have : ¬ (|0 - Real.sqrt (variance v)| ≤ 1e-8 + 1e-5 * |Real.sqrt (variance v)|) := by
      rw [zero_sub, abs_neg, abs_of_nonneg (Real.sqrt_nonneg _), not_le]
      norm_num at hs ⊢
      linarith
    simp only [isCloseZero, this, decide_false, Bool.not_false]
  · intro mask'
    have hcnt : ∀ {α : Type} (l : List α), l.length = d → (keep ((List.range d).map f) l).length
        = ((List.range d).map f).count true := fun l hl => keep_length _ l (by rw [hl, hlen])
    set n := ((List.range d).map f).count true with hn
    have htr' : ∀ row ∈ r.train, row.length = n := by
      intro row hrow
      rw [htrain] at hrow
      obtain ⟨r0, h0, rfl⟩ := List.mem_map.mp hrow
      exact hcnt r0 (htr r0 h0)
    have hte' : ∀ t ∈ r.test, ∀ row ∈ t, row.length = n := by
      intro t ht row hrow
      rw [htest] at ht
      obtain ⟨t0, ht0, rfl⟩ := Option.mem_map.mp ht
      obtain ⟨r0, h0, rfl⟩ := List.mem_map.mp hrow
      exact hcnt r0 (hte t0 ht0 r0 h0)
    have hla' : ∀ l ∈ r.labels, l.length = n := by
      intro l hl
      rw [hlab] at hl
      obtain ⟨l0, hl0, rfl⟩ := Option.mem_map.mp hl
      exact hcnt l0 (hla l0 hl0)
    rw [hidx]
    unfold cleanVariance
    set g := fun j => !isCloseZero (nanStd (column r.train j)) with hg
    have hall : ∀ b ∈ (List.range n).map g, b = true := by
      intro b hb
      obtain ⟨k, hk, rfl⟩ := List.mem_map.mp hb
      have hk : k < n := by simpa using hk
      have hlp : (truePos ((List.range d).map f)).length = n := by
        have h1 := hcnt (List.range d) (by simp)
        have h2 : (keep ((List.range d).map f) (List.range d)) = truePos ((List.range d).map f) := by
          rw [← boolIndex_eq _ _ (by simp)]
          unfold boolIndex
          have : ∀ j ∈ truePos ((List.range d).map f), (List.range d)[j]? = some j := by
            intro j hj
            simp only [truePos, List.mem_filter, List.mem_range, List.length_map,
              List.length_range] at hj
            simp [hj.1]
          rw [List.filterMap_congr this]; simp
        rw [← h2, h1]
      have hk' : k < (truePos ((List.range d).map f)).length := by omega
      have hkj := List.getElem?_eq_getElem hk'
      have hmem : (truePos ((List.range d).map f))[k] ∈ truePos ((List.range d).map f) :=
        List.getElem_mem hk'
      set j := (truePos ((List.range d).map f))[k]
      have hj : j < d ∧ f j = true := by
        simp only [truePos, List.mem_filter, List.mem_range, List.length_map, List.length_range] at hmem
        refine ⟨hmem.1, ?_⟩
        have := hmem.2
        rw [map_range_getElem d f j hmem.1] at this
        simpa using this
      have hc : column r.train k = column train j := by
        rw [htrain]
        exact column_keep _ _ (fun r hr => by rw [htr r hr, hlen]) k j hkj
      show g k = true
      simp only [hg, hc]
      exact hj.2
    have hgl : ((List.range n).map g).length = n := by simp
    obtain ⟨r', hr', -, h1, h2, h3⟩ := selectColumns_spec n ((List.range n).map g) hgl r.train htr'
      r.test hte' r.labels hla'
    refine ⟨r', hr', ?_, ?_, ?_⟩
    · rw [h1]
      conv_rhs => rw [← List.map_id r.train]
      exact List.map_congr_left fun row hrow => keep_all_true _ _ (by rw [htr' row hrow, hgl]) hall
    · rw [h2]
      cases hT : r.test with
      | none => rfl
      | some t =>
        simp only [Option.map_some, Option.some.injEq]
        conv_rhs => rw [← List.map_id t]
        exact List.map_congr_left fun row hrow =>
          keep_all_true _ _ (by rw [hte' t hT row hrow, hgl]) hall
    · rw [h3]
      cases hT : r.labels with
      | none => rfl
      | some l =>
        simp only [Option.map_some, Option.some.injEq]
        exact keep_all_true _ _ (by rw [hla' l hT, hgl]) hall

/-- The hypotheses of C19 are met by a matrix with one constant and one varying column. -/
example : ∃ train : List (List (Option ℝ)), (∀ r ∈ train, r.length = 2) ∧ train ≠ [] ∧
    (∀ row ∈ train, row[0]? = some (some 1)) ∧
    train.map (fun row => row[1]?) = ([0, 2] : List ℝ).map (fun x => some (some x)) ∧
    (1.1e-8) ^ 2 < variance [0, 2] := by
  refine ⟨[[some 1, some 0], [some 1, some 2]], by simp, by simp, by simp, by simp, ?_⟩
  simp [variance]; norm_num

/-- C19 is violated: a column that is not constant, here `0, 1e-9`, is removed. -/
theorem C19_clean_variance_violated :
    ∃ r : Cleaned (Option ℝ) Unit,
      cleanVariance 1 [[some 0], [some 1e-9]] none none none = .ok r ∧ r.train = [[], []] := by
  have hcol : column [[some (0 : ℝ)], [some 1e-9]] 0 = [0, 1e-9].map some := by
    simp [column]
  have hs : Real.sqrt (variance [0, 1e-9]) = 5e-10 := by
    have : variance [0, 1e-9] = (5e-10) ^ 2 := by simp [variance]; norm_num
    rw [this]; exact Real.sqrt_sq (by norm_num)
  have hi : (List.range 1).map (fun j => !isCloseZero (nanStd (column [[some (0 : ℝ)], [some 1e-9]] j)))
      = [false] := by
    simp only [List.range_one, List.map_cons, List.map_nil, hcol]
    rw [show [some (0 : ℝ), some 1e-9] = [0, 1e-9].map some from rfl, nanStd_some _ (by simp), hs]
    have h5 : |(0 : ℝ) - 5e-10| ≤ 1e-8 + 1e-5 * |5e-10| := by
      rw [zero_sub, abs_neg, abs_of_nonneg (by norm_num)]; norm_num
    simp only [isCloseZero, h5, decide_true, Bool.not_true]
  unfold cleanVariance
  rw [hi]
  obtain ⟨r, hr, -, h1, -, -⟩ := selectColumns_spec (L := Unit) 1 [false] rfl
    [[some (0 : ℝ)], [some 1e-9]] (by simp) none (by simp) none (by simp)
  exact ⟨r, hr, by rw [h1]; simp [keep]⟩

/-! ### C79: skewness -/

/-- C79.  `clean_skewness` keeps exactly the columns whose skewness is a number strictly below the threshold in
absolute value, applies the same selection to train, test and labels, and keeps the order. -/
theorem C79_clean_skewness {V L : Type} (skew : List V → Option ℝ) (d : Nat) (train : List (List V))
    (htr : ∀ r ∈ train, r.length = d)
    (test : Option (List (List V))) (hte : ∀ t ∈ test, ∀ r ∈ t, r.length = d)
    (labels : Option (List L)) (hla : ∀ l ∈ labels, l.length = d) (mask : Option (List Nat)) (bound : ℝ) :
    ∃ r, cleanSkewness skew d train test labels mask bound = .ok r ∧ r.index.length = d ∧
      ColumnsSelected r.index train test labels r ∧
      ∀ j < d, (r.index[j]? = some true ↔
        ∃ s, skew (train.filterMap fun row => row[j]?) = some s ∧ |s| < bound) := by
  unfold cleanSkewness
  obtain ⟨r, hr, hidx, h1, h2, h3⟩ := selectColumns_spec d ((List.range d).map fun j =>
    match skew (column train j) with
    | none => false
    | some s => decide (|s| < bound)) (by simp) train htr test hte labels hla
  refine ⟨r, hr, by rw [hidx]; simp, ⟨rfl, by rw [h1, hidx], by rw [h2, hidx], by rw [h3, hidx]⟩, ?_⟩
  intro j hj
  rw [hidx, map_range_getElem d _ j hj]
  show _ ↔ ∃ s, skew (column train j) = some s ∧ |s| < bound
  cases hs : skew (column train j) with
  | none => simp
  | some s => simp

example : ∃ (skew : List ℝ → Option ℝ) (train : List (List ℝ)), (∀ r ∈ train, r.length = 2) ∧
    skew (train.filterMap fun row => row[0]?) = some 1 ∧
    skew (train.filterMap fun row => row[1]?) = none :=
  ⟨fun c => if 0 ∈ c then some 1 else none, [[0, 1], [1, 1]], by simp, by simp, by simp⟩

/-! ### C18: non-finite entries -/

theorem foldl_set_length (m : List Nat) (ix : List Bool) :
    (m.foldl (fun ix j => ix.set j true) ix).length = ix.length := by
  induction m generalizing ix with
  | nil => rfl
  | cons a m ih => rw [List.foldl_cons, ih]; simp

theorem foldl_set_getElem (m : List Nat) (ix : List Bool) (j : Nat) (hj : j < ix.length) :
    (m.foldl (fun ix j => ix.set j true) ix)[j]? = some (decide (j ∈ m) || ix[j]) := by
  induction m generalizing ix with
  | nil => simp [hj]
  | cons a m ih =>
    rw [List.foldl_cons, ih (ix.set a true) (by simpa using hj)]
    simp only [List.getElem_set, List.mem_cons, Option.some.injEq]
    by_cases h : a = j
    · simp [h]
    · have : ¬ j = a := fun e => h e.symm
      simp [h, this]

/-- C18.  `clean_infinite` (default, without imputation): the training rows whose target is not finite are
dropped together with the target; of the rest, exactly the columns that are finite in every row, or
that are listed in `mask`, are kept, in order; train, test and labels are restricted to those columns
alike; and without a mask every returned training entry is finite. -/
theorem C18_clean_infinite {V L : Type} (d : Nat) (train : List (List (Option V)))
    (htr : ∀ r ∈ train, r.length = d)
    (test : Option (List (List (Option V)))) (hte : ∀ t ∈ test, ∀ r ∈ t, r.length = d)
    (targets : Option (List (Option V))) (hta : ∀ t ∈ targets, t.length = train.length)
    (labels : Option (List L)) (hla : ∀ l ∈ labels, l.length = d)
    (mask : Option (List Nat)) (hma : ∀ m ∈ mask, ∀ j ∈ m, j < d) :
    ∃ r kept, cleanInfinite d train test targets labels mask = .ok r ∧ r.index.length = d ∧
      -- rows
      (targets = none → kept = train ∧ r.targets = none) ∧
      (∀ t, targets = some t →
        kept = ((train.zip t).filter fun p => p.2.isSome).map Prod.fst ∧
        r.targets = some (((train.zip t).filter fun p => p.2.isSome).map Prod.snd)) ∧
      -- columns
      ColumnsSelected r.index kept test labels r ∧
      (∀ j < d, (r.index[j]? = some true ↔
        (∀ row ∈ kept, ∃ x, row[j]? = some (some x)) ∨ ∃ m, mask = some m ∧ j ∈ m)) ∧
      -- finiteness
      (mask = none → ∀ row ∈ r.train, ∀ x ∈ row, x.isSome) := by
  -- the row selection
  have hrow : ∃ kept tg, finiteRows train targets
        = .ok (kept, tg) ∧ (∀ row ∈ kept, row.length = d) ∧
        (targets = none → kept = train ∧ tg = none) ∧
        (∀ t, targets = some t →
          kept = ((train.zip t).filter fun p => p.2.isSome).map Prod.fst ∧
          tg = some (((train.zip t).filter fun p => p.2.isSome).map Prod.snd)) := by
    cases targets with
    | none => exact ⟨train, none, rfl, htr, fun _ => ⟨rfl, rfl⟩, by simp⟩
    | some t =>
      have hl : t.length = train.length := hta t rfl
      refine ⟨_, _, by simp only [finiteRows, hl, ne_eq, not_true, if_false]; rfl, ?_, by simp, ?_⟩
      · intro row hrow
        rw [boolIndex_zip_filter _ _ _ hl.symm] at hrow
        obtain ⟨p, hp, rfl⟩ := List.mem_map.mp hrow
        exact htr _ (List.of_mem_zip (List.mem_of_mem_filter hp)).1
      · rintro t' ⟨⟩
        exact ⟨boolIndex_zip_filter _ _ _ hl.symm, by rw [boolIndex_snd_filter _ train _ hl.symm]⟩
  obtain ⟨kept, tg, hk, hkd, hk1, hk2⟩ := hrow
  -- the column selection
  have hcol : ∃ ix, finiteCols d kept mask = .ok ix ∧ ix.length = d ∧
        (∀ j < d, (ix[j]? = some true ↔
        (∀ row ∈ kept, ∃ x, row[j]? = some (some x)) ∨ ∃ m, mask = some m ∧ j ∈ m)) := by
    have hany : ∀ o : Option (Option V), o.any Option.isSome = true ↔ ∃ x, o = some (some x) := by
      intro o; cases o with
      | none => simp
      | some a => cases a <;> simp
    cases mask with
    | none =>
      refine ⟨_, rfl, by simp, ?_⟩
      intro j hj
      rw [map_range_getElem d _ j hj]
      simp only [Option.some.injEq, List.all_eq_true, hany, reduceCtorEq, false_and, exists_false,
        or_false]
    | some m =>
      have hm : m.all (· < d) = true := by simpa using hma m rfl
      refine ⟨_, by simp only [finiteCols, hm, if_true]; rfl, by rw [foldl_set_length]; simp, ?_⟩
      intro j hj
      rw [foldl_set_getElem _ _ _ (by simpa using hj)]
      simp only [List.getElem_map, List.getElem_range, Option.some.injEq, Bool.or_eq_true,
        decide_eq_true_eq, List.all_eq_true, hany]
      constructor
      · rintro (h | h)
        · exact .inr ⟨m, rfl, h⟩
        · exact .inl h
      · rintro (h | ⟨m', rfl, h⟩)
        · exact .inr h
        · exact .inl h
  obtain ⟨ix, hix, hixl, hixj⟩ := hcol
  -- applying it
  have hm : ∀ X : List (List (Option V)), (∀ r ∈ X, r.length = d) →
      X.map (boolIndex ix) = X.map (keep ix) := fun X hX =>
    List.map_congr_left fun r hr => boolIndex_eq _ _ (by rw [hX r hr, hixl])
  have hfin : mask = none → ∀ row ∈ kept.map (keep ix), ∀ x ∈ row, x.isSome := by
    intro hmn row hrow x hx
    obtain ⟨r0, h0, rfl⟩ := List.mem_map.mp hrow
    obtain ⟨k, hk, rfl⟩ := List.mem_iff_getElem.mp hx
    have h1 := keep_getElem? ix r0 (by rw [hkd r0 h0, hixl]) k
    rw [List.getElem?_eq_getElem hk] at h1
    cases hj : (truePos ix)[k]? with
    | none => rw [hj] at h1; simp at h1
    | some j =>
      rw [hj] at h1
      simp only [Option.bind_some] at h1
      have hjm : j ∈ truePos ix := List.mem_of_getElem? hj
      simp only [truePos, List.mem_filter, List.mem_range] at hjm
      have hjd : j < d := by omega
      have ht : ix[j]? = some true := by
        have h2 := hjm.2
        rw [List.getElem?_eq_getElem hjm.1] at h2 ⊢
        simpa using h2
      rcases (hixj j hjd).mp ht with h | ⟨m, hm', _⟩
      · obtain ⟨x, hx⟩ := h r0 h0
        rw [hx] at h1
        simp only [Option.some.injEq] at h1
        rw [h1]; rfl
      · rw [hmn] at hm'; simp at hm'
  unfold cleanInfinite
  simp only [hk, hix, bind, Except.bind]
  cases test with
  | none =>
    cases labels with
    | none => exact ⟨_, kept, rfl, hixl, hk1, hk2, ⟨rfl, hm kept hkd, rfl, rfl⟩, hixj,
        fun h => by rw [hm kept hkd]; exact hfin h⟩
    | some l =>
      have hl : l.length = d := hla l rfl
      simp only [hl, if_true, pure, Except.pure]
      exact ⟨_, kept, rfl, hixl, hk1, hk2, ⟨rfl, hm kept hkd, rfl,
        by simp [boolIndex_eq ix l (by omega)]⟩, hixj, fun h => by rw [hm kept hkd]; exact hfin h⟩
  | some t =>
    have ht : t.all (fun r => r.length == d) = true := by simpa using hte t rfl
    cases labels with
    | none =>
      simp only [ht, if_true, pure, Except.pure]
      exact ⟨_, kept, rfl, hixl, hk1, hk2, ⟨rfl, hm kept hkd, by simp [hm t (hte t rfl)], rfl⟩, hixj,
        fun h => by rw [hm kept hkd]; exact hfin h⟩
    | some l =>
      have hl : l.length = d := hla l rfl
      simp only [hl, ht, if_true, pure, Except.pure]
      exact ⟨_, kept, rfl, hixl, hk1, hk2, ⟨rfl, hm kept hkd, by simp [hm t (hte t rfl)],
        by simp [boolIndex_eq ix l (by omega)]⟩, hixj, fun h => by rw [hm kept hkd]; exact hfin h⟩

/-- The hypotheses of C18 are met by a matrix with a bad row and a bad column. -/
example : ∃ (train : List (List (Option Nat))) (t : List (Option Nat)),
    (∀ r ∈ train, r.length = 2) ∧ t.length = train.length ∧ none ∈ t ∧
    (∃ r ∈ train, r[1]? = some none) :=
  ⟨[[some 1, none], [some 2, some 3], [some 4, some 5]], [some 0, none, some 1],
    by simp, by simp, by simp, by simp⟩

/-- C18: a test matrix of another width, or another number of labels than columns, is rejected. -/
theorem C18_clean_infinite_rejects {V L : Type} (d : Nat) (train : List (List (Option V)))
    (test : Option (List (List (Option V)))) (labels : Option (List L))
    (hbad : (∃ t, test = some t ∧ ∃ r ∈ t, r.length ≠ d) ∨ (∃ l, labels = some l ∧ l.length ≠ d)) :
    cleanInfinite d train test none labels none = .error .assertion := by
  unfold cleanInfinite
  simp only [finiteRows, finiteCols, bind, Except.bind, pure, Except.pure, throw, throwThe,
    MonadExceptOf.throw]
  cases test with
  | none =>
    rcases hbad with ⟨t, ht, _⟩ | ⟨l, rfl, hl⟩
    · simp at ht
    · simp only [hl, if_false]
  | some t =>
    by_cases h : t.all (fun r => r.length == d) = true
    · simp only [h, if_true]
      rcases hbad with ⟨t', ht, r, hr, hrl⟩ | ⟨l, rfl, hl⟩
      · cases ht
        rw [List.all_eq_true] at h
        have := h r hr
        simp at this
        exact absurd this hrl
      · simp only [hl, if_false]
    · simp only [h]; rfl

example : ∃ l : List Nat, (some [1] = some l ∧ l.length ≠ 2) := ⟨[1], rfl, by decide⟩

/-! ### C80: masked features -/

/-- C80 (partial): `clean_infinite` never removes a feature listed in `mask`. -/
theorem C80_mask_protects_partial {V L : Type} (d : Nat) (train : List (List (Option V)))
    (htr : ∀ r ∈ train, r.length = d)
    (test : Option (List (List (Option V)))) (hte : ∀ t ∈ test, ∀ r ∈ t, r.length = d)
    (targets : Option (List (Option V))) (hta : ∀ t ∈ targets, t.length = train.length)
    (labels : Option (List L)) (hla : ∀ l ∈ labels, l.length = d)
    (m : List Nat) (hma : ∀ j ∈ m, j < d) :
    ∃ r, cleanInfinite d train test targets labels (some m) = .ok r ∧
      ∀ j ∈ m, r.index[j]? = some true := by
  obtain ⟨r, kept, hr, -, -, -, -, h, -⟩ := C18_clean_infinite d train htr test hte targets hta labels hla
    (some m) (by rintro _ ⟨⟩; exact hma)
  exact ⟨r, hr, fun j hj => (h j (hma j hj)).mpr (.inr ⟨m, rfl, hj⟩)⟩

example : ∃ train : List (List (Option Nat)), (∀ r ∈ train, r.length = 2) ∧ (∀ j ∈ [1], j < 2) ∧
    ∃ r ∈ train, r[1]? = some none := ⟨[[some 1, none]], by simp, by simp, by simp⟩

/-- C80 is violated by `clean_variance` and `clean_skewness`: a constant feature is removed although it
is masked, and so is any feature above the skewness bound. -/
theorem C80_mask_protects_violated :
    (∃ r : Cleaned (Option ℝ) Unit,
      cleanVariance 1 [[some 1], [some 1]] none none (some [0]) = .ok r ∧ r.index[0]? = some false) ∧
    (∀ (skew : List ℝ → Option ℝ), skew [0, 1] = some 4 → ∃ r : Cleaned ℝ Unit,
      cleanSkewness skew 1 [[0], [1]] none none (some [0]) 3 = .ok r ∧ r.index[0]? = some false) := by
  refine ⟨?_, ?_⟩
  · obtain ⟨r, hr, -, -, h, -⟩ := C19_clean_variance_partial (L := Unit) 1 [[some 1], [some 1]]
      (by simp) none (by simp) none (by simp) (some [0])
    exact ⟨r, hr, h 0 (by norm_num) 1 (by simp) (by simp)⟩
  · intro skew hs
    obtain ⟨r, hr, hl, -, h⟩ := C79_clean_skewness (L := Unit) skew 1 [[0], [1]]
      (by simp) none (by simp) none (by simp) (some [0]) 3
    refine ⟨r, hr, ?_⟩
    have h0 := h 0 (by norm_num)
    have hc : (([[0], [1]] : List (List ℝ)).filterMap fun row => row[0]?) = [0, 1] := by simp
    rw [hc, hs] at h0
    have hne : ¬ r.index[0]? = some true := by
      rw [h0]; rintro ⟨s, ⟨⟩, hb⟩; norm_num at hb
    rw [List.getElem?_eq_getElem (by omega)] at hne ⊢
    simpa using hne

example : ∃ skew : List ℝ → Option ℝ, skew [0, 1] = some 4 := ⟨fun _ => some 4, rfl⟩

end CatLearn.Props
