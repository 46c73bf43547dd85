import Verif.Model.Screening
import Verif.Lemmas.Py
import Verif.Spec.Stat
import Mathlib.Data.List.Nodup
import Mathlib.Tactic.NormNum
import Mathlib.Tactic.FieldSimp

/-!
# Properties of feature screening and principal components (C27, C28, C30, C90–C95)
-/

namespace CatLearn.Props

open CatLearn CatLearn.Screen

/-! ### Building blocks -/

private theorem orderByAbs_perm (v : List ℝ) : (orderByAbs v).Perm (List.range v.length) :=
  sortDesc_perm _ _

private theorem corrOf_some (x : Ext) (c : String) (t d : Col) :
    corrOf x c t d = some (if x.isConst d then 0 else if c = "pearson" then x.spearmanr d t else x.pearsonr d t) := by
  unfold corrOf
  by_cases h0 : x.isConst d = true
  · simp [h0]
  · by_cases h1 : c = "pearson"
    · subst h1; simp [h0]
    · simp [h0, h1]

private theorem getCorrelation_eq (x : Ext) (c : String) (t : Col) (cols : List Col) :
    getCorrelation x c t cols = cols.map fun d =>
      if x.isConst d then 0 else if c = "pearson" then x.spearmanr d t else x.pearsonr d t := by
  unfold getCorrelation
  induction cols with
  | nil => rfl
  | cons d cols ih => rw [List.filterMap_cons, corrOf_some, ih]; rfl

theorem deleteCols_eq {V : Type} (cols : List V) (idx : List Nat) :
    deleteCols cols idx =
      ((List.range cols.length).filter fun i => !idx.contains i).filterMap fun i => cols[i]? := by
  unfold deleteCols
  have h : cols.zipIdx = (List.range cols.length).filterMap fun i => (cols[i]?).map fun v => (v, i) := by
    have : ∀ (l : List V) (k : Nat), l.zipIdx k =
        (List.range' k l.length).filterMap fun i => (l[i - k]?).map fun v => (v, i) := by
      intro l
      induction l with
      | nil => intro k; rfl
      | cons a l ih =>
        intro k
        rw [List.zipIdx_cons, ih (k + 1), List.length_cons, List.range'_succ, List.filterMap_cons]
        simp only [Nat.sub_self, List.getElem?_cons_zero, Option.map_some]
        congr 1
        apply List.filterMap_congr
        intro i hi
        obtain ⟨hi1, _⟩ := List.mem_range'_1.mp hi
        rw [show i - k = (i - (k + 1)) + 1 by omega, List.getElem?_cons_succ]
    have h0 := this cols 0
    rw [List.range_eq_range']
    simpa using h0
  rw [h]
  generalize hl : List.range cols.length = l
  have hb : ∀ i ∈ l, i < cols.length := by rw [← hl]; simp
  clear hl h
  induction l with
  | nil => rfl
  | cons i l ih =>
    have hi := hb i (by simp)
    have ih' := ih fun j hj => hb j (by simp [hj])
    rw [List.filterMap_cons, List.getElem?_eq_getElem hi]
    simp only [Option.map_some]
    rw [List.filter_cons, List.filter_cons]
    by_cases hc : idx.contains i = true
    · simp only [hc, Bool.not_true, Bool.false_eq_true, if_false]; exact ih'
    · simp only [hc, Bool.not_false, if_true, List.map_cons, ih']
      rw [List.filterMap_cons, List.getElem?_eq_getElem hi]

private theorem filter_not_contains_length (n : Nat) (idx : List Nat) (hn : idx.Nodup)
    (hb : ∀ i ∈ idx, i < n) :
    ((List.range n).filter fun i => !idx.contains i).length + idx.length = n := by
  have hp : (((List.range n).filter fun i => !idx.contains i) ++ idx).Perm (List.range n) := by
    rw [List.perm_ext_iff_of_nodup]
    · intro i
      simp only [List.mem_append, List.mem_filter, List.mem_range, List.contains_eq_mem,
        Bool.not_eq_true', decide_eq_false_iff_not]
      constructor
      · rintro (h | h)
        · exact h.1
        · exact hb i h
      · intro h
        by_cases hi : i ∈ idx
        · exact .inr hi
        · exact .inl ⟨h, hi⟩
    · rw [List.nodup_append']
      refine ⟨List.nodup_range.filter _, hn, ?_⟩
      intro i hi hi'
      simp at hi
      exact hi.2 hi'
    · exact List.nodup_range
  have := hp.length_eq
  simpa using this

private theorem filterMap_get_length {V : Type} (cols : List V) (l : List Nat) (hb : ∀ i ∈ l, i < cols.length) :
    (l.filterMap fun i => cols[i]?).length = l.length := by
  induction l with
  | nil => rfl
  | cons i l ih =>
    rw [List.filterMap_cons, List.getElem?_eq_getElem (hb i (by simp))]
    simp [ih fun j hj => hb j (by simp [hj])]

theorem deleteCols_length {V : Type} (cols : List V) (idx : List Nat) (hn : idx.Nodup)
    (hb : ∀ i ∈ idx, i < cols.length) : (deleteCols cols idx).length + idx.length = cols.length := by
  rw [deleteCols_eq, filterMap_get_length]
  · exact filter_not_contains_length _ _ hn hb
  · intro i hi
    have := (List.mem_filter.mp hi).1
    simpa using this

/-! ### C27: one screening -/

/-- What the code takes as the correlation of a feature with the target. -/
private noncomputable def used (x : Ext) (c : String) (t d : Col) : ℝ :=
  if x.isConst d then 0 else if c = "pearson" then x.spearmanr d t else x.pearsonr d t

private theorem screenCore_spec (x : Ext) (c : String) (t : Col) (n : Nat) (cols : List Col)
    (randf : List Nat) (h : cols ≠ []) :
    ∃ r, screenCore x c t n cols randf = .ok r ∧ r.index.Perm (List.range cols.length) ∧
      (r.index.Pairwise fun i j => ∀ di dj, cols[i]? = some di → cols[j]? = some dj →
        |used x c t dj| ≤ |used x c t di|) ∧
      r.size = (randf.map fun i => r.index.idxOf i).foldl min n ∧
      r.correlation = r.index.map fun i => |((cols[i]?).map (used x c t)).getD 0| := by
  unfold screenCore
  rw [if_neg h, getCorrelation_eq]
  have hg : ∀ i, (cols.map fun d => if x.isConst d then 0 else if c = "pearson" then x.spearmanr d t
      else x.pearsonr d t).getD i 0 = ((cols[i]?).map (used x c t)).getD 0 := by
    intro i
    rw [List.getD_eq_getElem?_getD, List.getElem?_map]
    rfl
  refine ⟨_, rfl, ?_, ?_, rfl, ?_⟩
  · refine (orderByAbs_perm _).trans ?_
    rw [List.length_map]
  · refine (sortDesc_pairwise _ _).imp ?_
    intro i j hij di dj hdi hdj
    simp only [hg, hdi, hdj, Option.map_some, Option.getD_some] at hij
    exact hij
  · simp only [hg]

private theorem foldl_min_le (l : List Nat) (n : Nat) : l.foldl min n ≤ n ∧ ∀ k ∈ l, l.foldl min n ≤ k := by
  induction l generalizing n with
  | nil => simp
  | cons a l ih =>
    rw [List.foldl_cons]
    obtain ⟨h1, h2⟩ := ih (min n a)
    refine ⟨le_trans h1 (Nat.min_le_left _ _), ?_⟩
    intro k hk
    rcases List.mem_cons.mp hk with rfl | hk
    · exact le_trans h1 (Nat.min_le_right _ _)
    · exact h2 k hk

/-- C27 (partial: the correlation used is not the requested one, see below).  Screening returns all features,
each once; every feature is at least as strongly correlated with the target as every later one, measured by
the coefficient `used`, which is Spearman's when 'pearson' was requested and Pearson's otherwise, and 0
for a constant feature; without random features the suggested size is the number of data. -/
theorem C27_screen_partial (x : Ext) (c : String) (fresh : Nat → List Col) (t : Col) (n : Nat)
    (cols : List Col) (h : cols ≠ []) :
    ∃ r, screen x c false fresh t n cols = .ok r ∧ r.index.Perm (List.range cols.length) ∧
      (r.index.Pairwise fun i j => ∀ di dj, cols[i]? = some di → cols[j]? = some dj →
        |if x.isConst dj then 0 else if c = "pearson" then x.spearmanr dj t else x.pearsonr dj t| ≤
        |if x.isConst di then 0 else if c = "pearson" then x.spearmanr di t else x.pearsonr di t|) ∧
      r.size = n := by
  obtain ⟨r, h1, h2, h3, h4, -⟩ := screenCore_spec x c t n cols [] h
  exact ⟨r, by simpa [screen, setIndex, bind, Except.bind] using h1, h2, h3, by simpa using h4⟩

/-- C27, random features (partial, same reason): with `random_check` no random feature is among the first
`size` features, and each of these is at least as strongly correlated as every random feature. -/
theorem C27_random_check_partial (x : Ext) (c : String) (fresh : Nat → List Col)
    (hfresh : ∀ r, (fresh r).length = r) (t : Col) (n : Nat) (cols : List Col) (h : 10 ≤ cols.length) :
    ∃ r, screen x c true fresh t n cols = .ok r ∧
      r.index.Perm (List.range (cols.length + cols.length / 10)) ∧ r.size ≤ n ∧
      (∀ i ∈ r.index.take r.size, i < cols.length) ∧
      (∀ i ∈ r.index.take r.size, ∀ di ∈ cols[i]?, ∀ dj ∈ fresh (cols.length / 10),
        |if x.isConst dj then 0 else if c = "pearson" then x.spearmanr dj t else x.pearsonr dj t| ≤
        |if x.isConst di then 0 else if c = "pearson" then x.spearmanr di t else x.pearsonr di t|) := by
  have h10 : cols.length / 10 ≠ 0 := by omega
  set r := cols.length / 10 with hr
  have hne : cols ++ fresh r ≠ [] := by
    intro e
    rw [(List.append_eq_nil_iff.mp e).1] at h
    simp at h
  obtain ⟨s, h1, h2, h3, h4, -⟩ := screenCore_spec x c t n (cols ++ fresh r) (List.range' cols.length r) hne
  rw [List.length_append, hfresh] at h2
  obtain ⟨h5, h6⟩ := foldl_min_le ((List.range' cols.length r).map fun i => s.index.idxOf i) n
  rw [← h4] at h5 h6
  have hnr : ∀ i ∈ s.index.take s.size, i < cols.length := by
    intro i hi
    by_contra hlt
    have hmem : i ∈ List.range (cols.length + r) := h2.mem_iff.mp (List.mem_of_mem_take hi)
    have hlt2 : i < cols.length + r := by simpa using hmem
    have hrand : i ∈ List.range' cols.length r := by
      rw [List.mem_range'_1]; omega
    have hle := h6 _ (List.mem_map.mpr ⟨i, hrand, rfl⟩)
    obtain ⟨k, hk, rfl⟩ := List.mem_iff_getElem.mp hi
    have hnod : s.index.Nodup := h2.nodup_iff.mpr List.nodup_range
    rw [List.getElem_take] at hle
    rw [hnod.idxOf_getElem] at hle
    simp at hk
    omega
  refine ⟨s, ?_, h2, h5, hnr, ?_⟩
  · unfold screen setIndex
    simp only [if_true, ← hr, h10, if_false, bind, Except.bind]
    exact h1
  · intro i hi di hdi dj hdj
    obtain ⟨k, hk, rfl⟩ := List.mem_iff_getElem.mp hdj
    rw [hfresh] at hk
    have hj : cols.length + k ∈ s.index.drop s.size := by
      have : cols.length + k ∈ s.index := h2.mem_iff.mpr (by simp; omega)
      rw [← List.take_append_drop s.size s.index, List.mem_append] at this
      refine this.resolve_left fun hm => ?_
      have := hnr _ hm
      omega
    have h3' := h3
    rw [← List.take_append_drop s.size s.index, List.pairwise_append] at h3'
    refine h3'.2.2 i hi _ hj di _ ?_ ?_
    · rw [List.getElem?_append_left (hnr i hi)]; exact hdi
    · rw [List.getElem?_append_right (by omega)]
      simp

example : ∃ cols : List Col, cols ≠ [] ∧ 10 ≤ cols.length ∧ ∃ fresh : Nat → List Col, ∀ r, (fresh r).length = r :=
  ⟨List.replicate 12 [1, 2], by simp, by simp, fun r => List.replicate r [0, 0], by simp⟩

private theorem pearson_sq_lt {a b : ℝ} (ha : 0 ≤ a) (h : a ^ 2 < b ^ 2) (hb : 0 ≤ b) : a < b := by
  nlinarith

open Spec in
/-- C27 is violated: asked for Pearson's coefficient, the screening puts a feature first whose Pearson
coefficient is the smaller one. -/
theorem C27_requested_correlation_violated (x : Ext) (hp : x.pearsonr = pearson) (hs : x.spearmanr = spearman)
    (hc : x.isConst [0, 1, 2] = false ∧ x.isConst [1, 0, 10] = false) (fresh : Nat → List Col) :
    ∃ r, screen x "pearson" false fresh [0, 1, 10] 3 [[0, 1, 2], [1, 0, 10]] = .ok r ∧
      r.index = [0, 1] ∧ |x.pearsonr [0, 1, 2] [0, 1, 10]| < |x.pearsonr [1, 0, 10] [0, 1, 10]| := by
  obtain ⟨r, h1, h2, h3, -⟩ := C27_screen_partial x "pearson" fresh [0, 1, 10] 3 [[0, 1, 2], [1, 0, 10]] (by simp)
  have hr1 : ([0, 1, 2] : List ℝ).map (rank [0, 1, 2]) = [1, 2, 3] := by
    simp [rank]; norm_num
  have hr2 : ([1, 0, 10] : List ℝ).map (rank [1, 0, 10]) = [2, 1, 3] := by
    simp [rank]; norm_num
  have hr3 : ([0, 1, 10] : List ℝ).map (rank [0, 1, 10]) = [1, 2, 3] := by
    simp [rank]; norm_num
  have s1 : spearman [0, 1, 2] [0, 1, 10] = 1 := by
    unfold spearman
    rw [hr1, hr3]
    simp [pearson, cov, mean]
    norm_num
  have s2 : spearman [1, 0, 10] [0, 1, 10] = 1 / 2 := by
    unfold spearman
    rw [hr2, hr3]
    simp [pearson, cov, mean]
    norm_num
  refine ⟨r, h1, ?_, ?_⟩
  · have hlen : r.index.length = 2 := by simpa using h2.length_eq
    have : r.index = [0, 1] ∨ r.index = [1, 0] := by
      have h2' : r.index.Perm [0, 1] := by simpa [List.range_succ] using h2
      match hri : r.index, hlen with
      | [a, b], _ =>
        rw [hri] at h2'
        have ha : a ∈ [0, 1] := h2'.mem_iff.mp (by simp)
        have hb : b ∈ [0, 1] := h2'.mem_iff.mp (by simp)
        have hn : [a, b].Nodup := h2'.nodup_iff.mpr (by decide)
        simp at ha hb hn
        rcases ha with rfl | rfl <;> rcases hb with rfl | rfl <;> simp_all
    rcases this with h | h
    · exact h
    · exfalso
      rw [h] at h3
      simp only [List.pairwise_cons] at h3
      have := h3.1 0 (by simp) [1, 0, 10] [0, 1, 2] rfl rfl
      rw [hc.1, hc.2, hs] at this
      simp only [Bool.false_eq_true, if_false, if_true, s1, s2] at this
      norm_num at this
  · rw [hp]
    have e1 : pearson [0, 1, 2] [0, 1, 10] = 10 / (√2 * √(182 / 3)) := by
      simp only [pearson, cov, mean, List.zipWith_cons_cons, List.zipWith_nil_left, List.sum_cons, List.sum_nil,
        List.length_cons, List.length_nil]
      norm_num
    have e2 : pearson [1, 0, 10] [0, 1, 10] = (179 / 3) / (√(182 / 3) * √(182 / 3)) := by
      simp only [pearson, cov, mean, List.zipWith_cons_cons, List.zipWith_nil_left, List.sum_cons, List.sum_nil,
        List.length_cons, List.length_nil]
      norm_num
    rw [e1, e2, abs_of_nonneg (by positivity), abs_of_nonneg (by positivity)]
    rw [Real.mul_self_sqrt (by norm_num)]
    apply pearson_sq_lt (by positivity) _ (by norm_num)
    rw [div_pow, mul_pow, Real.sq_sqrt (by norm_num), Real.sq_sqrt (by norm_num)]
    norm_num

example : ∃ x : Ext, x.pearsonr = Spec.pearson ∧ x.spearmanr = Spec.spearman ∧
    x.isConst [0, 1, 2] = false ∧ x.isConst [1, 0, 10] = false :=
  ⟨⟨Spec.pearson, Spec.spearman, fun _ _ => 0, fun _ => false, fun _ _ => []⟩, rfl, rfl, rfl, rfl⟩

/-! ### C28: iterative screening -/

private theorem popAll_spec (accepted rejected is : List Nat) (hs : is.Pairwise fun a b => b < a)
    (hb : ∀ i ∈ is, i < rejected.length) :
    ((popAll accepted rejected is).1 ++ (popAll accepted rejected is).2).Perm (accepted ++ rejected) ∧
    (popAll accepted rejected is).1.length = accepted.length + is.length := by
  induction is generalizing accepted rejected with
  | nil => exact ⟨List.Perm.refl _, rfl⟩
  | cons i is ih =>
    have hi := hb i (by simp)
    have hl : (rejected.eraseIdx i).length + 1 = rejected.length := by
      rw [List.length_eraseIdx, if_pos hi]; omega
    have := ih (accepted ++ [rejected.getD i 0]) (rejected.eraseIdx i) (List.pairwise_cons.mp hs).2 (by
      intro j hj
      have := (List.pairwise_cons.mp hs).1 j hj
      omega)
    rw [popAll]
    refine ⟨this.1.trans ?_, by rw [this.2]; simp; omega⟩
    rw [List.append_assoc]
    apply List.Perm.append_left
    have hg : rejected.getD i 0 = rejected[i] := by
      rw [List.getD_eq_getElem?_getD, List.getElem?_eq_getElem hi]; rfl
    rw [hg, List.singleton_append]
    exact List.getElem_cons_eraseIdx_perm hi

private theorem sisAccept_spec (acc randf regr : List Nat) (hn : acc.Nodup) (hr : regr.Nodup)
    (hb : ∀ i ∈ regr, i < acc.length) :
    (sisAccept acc randf regr).2.Nodup ∧
    (∀ j ∈ (sisAccept acc randf regr).2, j ∈ acc ∧ j ∉ randf ∧ ∃ i ∈ regr, j = acc.getD i 0) ∧
    (sisAccept acc randf regr).2.length ≤ regr.length ∧
    ((sisAccept acc randf regr).1 = true → (sisAccept acc randf regr).2.length = regr.length) ∧
    (randf = [] → (sisAccept acc randf regr).1 = true) := by
  induction regr with
  | nil => simp [sisAccept]
  | cons i is ih =>
    have hi := hb i (by simp)
    have ih' := ih (List.nodup_cons.mp hr).2 fun j hj => hb j (by simp [hj])
    have hg : ∀ k, k < acc.length → acc.getD k 0 = acc[k]! := by
      intro k hk; simp [hk]
    rw [sisAccept]
    split
    · rename_i hm
      refine ⟨by simp, by simp, by simp, by simp, ?_⟩
      rintro rfl
      simp at hm
    · rename_i hm
      simp only
      refine ⟨?_, ?_, ?_, ?_, ih'.2.2.2.2⟩
      · rw [List.nodup_cons]
        refine ⟨?_, ih'.1⟩
        intro hmem
        obtain ⟨_, _, k, hk, he⟩ := ih'.2.1 _ hmem
        have hk' := hb k (by simp [hk])
        rw [List.getD_eq_getElem?_getD, List.getD_eq_getElem?_getD, List.getElem?_eq_getElem hi,
          List.getElem?_eq_getElem hk'] at he
        simp only [Option.getD_some] at he
        have := (List.Nodup.getElem_inj_iff hn).mp he
        subst this
        exact (List.nodup_cons.mp hr).1 hk
      · intro j hj
        rcases List.mem_cons.mp hj with rfl | hj
        · refine ⟨?_, hm, i, by simp, rfl⟩
          rw [List.getD_eq_getElem?_getD, List.getElem?_eq_getElem hi]
          exact List.getElem_mem hi
        · obtain ⟨a, b, k, hk, he⟩ := ih'.2.1 j hj
          exact ⟨a, b, k, by simp [hk], he⟩
      · simp only [List.length_cons]; have := ih'.2.2.1; omega
      · intro h
        simp only [List.length_cons]
        rw [ih'.2.2.2.1 h]

/-- The loop invariant: accepted and rejected together are all features; the matrices have their sizes. -/
private structure ItInv (f : Nat) (it : Iter) : Prop where
  perm : (it.accepted ++ it.rejected).Perm (List.range f)
  train : it.train.length = it.rejected.length
  red : it.reduced.length = it.accepted.length

private theorem iterator_spec (x : Ext) (c : String) (t : Col) (n : Nat)
    (hcoef : ∀ m t, (x.coef m t).length = m.length) (features : List Col) (size step f : Nat)
    (accepted rejected randf : List Nat) (keep : List Col)
    (hperm : (accepted ++ rejected).Perm (List.range f))
    (hrand : randf = List.range' f (keep.length - f)) (hkeep : f ≤ keep.length)
    (hfeat : features.length = rejected.length ∨
      (rejected.length = f ∧ features.length = keep.length))
    (hsize : 0 < size) (hsz : size ≤ features.length) (hstep : step ≤ size) :
    ∃ it, iterator x c t n features size step accepted rejected randf keep = .ok it ∧ ItInv f it ∧
      it.accepted.length ≤ accepted.length + step ∧
      (it.notConverged = true → it.accepted.length = accepted.length + step) ∧
      (keep.length = f → it.notConverged = true) := by
  have hne : features ≠ [] := by rintro rfl; simp at hsz; omega
  obtain ⟨sc, h1, h2, -⟩ := screenCore_spec x c t n features [] hne
  have hnod : sc.index.Nodup := h2.nodup_iff.mpr List.nodup_range
  have hlen : sc.index.length = features.length := by simpa using h2.length_eq
  have hlt : ∀ i ∈ sc.index, i < features.length := fun i hi => by simpa using h2.mem_iff.mp hi
  have hm := deleteCols_length features (sc.index.drop size) (hnod.sublist (List.drop_sublist _ _))
    (fun i hi => hlt i (List.mem_of_mem_drop hi))
  have htk : (sc.index.take size).length = size := by simp [hlen, hsz]
  have hm' : (deleteCols features (sc.index.drop size)).length = size := by
    simp [hlen] at hm; omega
  have hred : reduceCore features sc.index size =
      .ok ⟨sc.index.take size, sc.index.drop size, deleteCols features (sc.index.drop size)⟩ := by
    unfold reduceCore
    rw [if_neg (by simp [hlen]), if_neg (by simp [hm', htk])]
  set m := deleteCols features (sc.index.drop size) with hmdef
  have hcl : (x.coef m t).length = size := by rw [hcoef, hm']
  have hcne : x.coef m t ≠ [] := by
    intro e; rw [e] at hcl; simp at hcl; omega
  set acc := sc.index.take size with hacc
  set regr := (orderByAbs (x.coef m t)).take step with hregr
  have hop := orderByAbs_perm (x.coef m t)
  rw [hcl] at hop
  have hrn : regr.Nodup := (hop.nodup_iff.mpr List.nodup_range).sublist (List.take_sublist _ _)
  have hrl : regr.length = step := by
    have : (orderByAbs (x.coef m t)).length = size := by simpa using hop.length_eq
    simp [hregr, this, hstep]
  have hrb : ∀ i ∈ regr, i < acc.length := by
    intro i hi
    rw [htk]
    have := hop.mem_iff.mp (List.mem_of_mem_take hi)
    simpa using this
  obtain ⟨s1, s2, s3, s4, s5⟩ := sisAccept_spec acc randf regr (hnod.sublist (List.take_sublist _ _)) hrn hrb
  have hin : ∀ j ∈ sortDesc id (sisAccept acc randf regr).2, j < rejected.length := by
    intro j hj
    have hj' := (sortDesc_perm id _).mem_iff.mp hj
    obtain ⟨ha, hb, _⟩ := s2 j hj'
    have hjf := hlt j (List.mem_of_mem_take ha)
    rcases hfeat with h | ⟨ha', hb'⟩
    · omega
    · rw [ha']
      by_contra hge
      apply hb
      rw [hrand, List.mem_range'_1]
      omega
  have hdesc : (sortDesc id (sisAccept acc randf regr).2).Pairwise fun a b => b < a := by
    have p1 := sortDesc_pairwise id (sisAccept acc randf regr).2
    have p2 : (sortDesc id (sisAccept acc randf regr).2).Nodup :=
      (sortDesc_perm id _).nodup_iff.mpr s1
    exact (p1.and p2).imp fun {a b} h => lt_of_le_of_ne h.1 fun e => h.2 e.symm
  obtain ⟨p1, p2⟩ := popAll_spec accepted rejected _ hdesc hin
  have hsl : (sortDesc id (sisAccept acc randf regr).2).length = (sisAccept acc randf regr).2.length :=
    (sortDesc_perm id _).length_eq
  set A := (popAll accepted rejected (sortDesc id (sisAccept acc randf regr).2)).1 with hA
  set R := (popAll accepted rejected (sortDesc id (sisAccept acc randf regr).2)).2 with hR
  have hAR : (A ++ R).Perm (List.range f) := p1.trans hperm
  have hARn : (A ++ R).Nodup := hAR.nodup_iff.mpr List.nodup_range
  have hARl : A.length + R.length = f := by simpa using hAR.length_eq
  have hARm : ∀ i ∈ A ++ R, i < f := fun i hi => by simpa using hAR.mem_iff.mp hi
  have hrandl : randf.length = keep.length - f := by simp [hrand]
  have hrm : ∀ i ∈ randf, f ≤ i ∧ i < keep.length := by
    intro i hi
    rw [hrand, List.mem_range'_1] at hi
    omega
  have hrandn : randf.Nodup := by rw [hrand]; exact List.nodup_range'
  have hdel : ∀ L : List Nat, L.Nodup → (∀ i ∈ L, i < f) →
      (deleteCols keep (L ++ randf)).length + L.length = f := by
    intro L hL hLb
    have := deleteCols_length keep (L ++ randf) (by
      rw [List.nodup_append']
      refine ⟨hL, hrandn, ?_⟩
      intro i hi hi'
      have := hLb i hi
      have := (hrm i hi').1
      omega) (by
      intro i hi
      rcases List.mem_append.mp hi with h | h
      · have := hLb i h; omega
      · exact (hrm i h).2)
    simp [hrandl] at this
    omega
  have hAn := (List.nodup_append'.mp hARn)
  have hd1 := hdel A hAn.1 fun i hi => hARm i (by simp [hi])
  have hd2 := hdel R hAn.2.1 fun i hi => hARm i (by simp [hi])
  have hend : iteratorEnd acc regr accepted rejected randf keep = .ok ⟨(sisAccept acc randf regr).1, A, R,
      deleteCols keep (A ++ randf), deleteCols keep (R ++ randf)⟩ := by
    unfold iteratorEnd
    simp only [← hA, ← hR]
    rw [if_neg (by omega), if_neg (by omega)]
  have hinv : ItInv f ⟨(sisAccept acc randf regr).1, A, R,
      deleteCols keep (A ++ randf), deleteCols keep (R ++ randf)⟩ :=
    ⟨hAR, by simp only; omega, by simp only; omega⟩
  refine ⟨_, ?_, hinv, ?_, ?_, ?_⟩
  · unfold iterator
    rw [h1]
    simp only [bind, Except.bind, hred]
    unfold featureSelect
    rw [if_neg hcne]
    exact hend
  · simp only
    rw [p2, hsl]; omega
  · intro hc
    simp only at hc ⊢
    rw [p2, hsl, s4 hc, hrl]
  · intro hk
    exact s5 (by rw [hrand, hk]; simp)

private theorem loop_spec (x : Ext) (c : String) (t : Col) (n : Nat)
    (hcoef : ∀ m t, (x.coef m t).length = m.length) (size f : Nat)
    (randf : List Nat) (keep : List Col)
    (hrand : randf = List.range' f (keep.length - f)) (hkeep : f ≤ keep.length)
    (hf : 2 * size < f) (fuel step : Nat) (it : Iter) (hi : ItInv f it) (hstep : 0 < step) (hss : step ≤ size)
    (hle : it.accepted.length ≤ size) (hpos : it.notConverged = true → 0 < it.accepted.length)
    (hfuel : size < fuel + it.accepted.length) (h1 : 0 < fuel) :
    ∃ order k, loop x c t n size randf keep fuel step it = some (.ok (order, k)) ∧
      order.Perm (List.range f) ∧ k ≤ size ∧
      (keep.length = f → it.notConverged = true → k = size) := by
  induction fuel generalizing step it with
  | zero => omega
  | succ fuel ih =>
    rw [loop]
    by_cases hc : it.reduced.length < size ∧ it.notConverged = true
    · rw [if_pos hc]
      have hacc := hpos hc.2
      obtain ⟨a, ha⟩ : ∃ a, it.reduced.getLast? = some a := by
        cases h : it.reduced.getLast? with
        | some a => exact ⟨a, rfl⟩
        | none =>
          rw [List.getLast?_eq_none_iff] at h
          have := hi.red
          rw [h] at this
          simp at this
          rw [← this] at hacc; simp at hacc
      have hresp : getResponse it.train it.reduced = .ok (it.train.map fun d => respOne d a) := by
        unfold getResponse; rw [ha]
      simp only [hresp]
      set step' := if size - it.reduced.length < step then size - it.reduced.length else step with hs'
      have hred := hi.red
      have hs1 : 0 < step' ∧ step' ≤ size ∧ it.accepted.length + step' ≤ size := by
        rw [hs']; split <;> omega
      have hrl : it.accepted.length + it.rejected.length = f := by simpa using hi.perm.length_eq
      obtain ⟨it', h2, h3, h4, h5, h6⟩ := iterator_spec x c t n hcoef (it.train.map fun d => respOne d a)
        size step' f it.accepted it.rejected randf keep hi.perm hrand hkeep
        (.inl (by simp [hi.train])) (by omega) (by simp [hi.train]; omega) hs1.2.1
      simp only [h2]
      by_cases hf0 : fuel = 0
      · omega
      by_cases hnc : it'.notConverged = true
      · obtain ⟨o, k, h7, h8, h9, h10⟩ := ih step' it' h3 hs1.1 hs1.2.1 (by omega)
          (fun _ => by have := h5 hnc; omega) (by have := h5 hnc; omega) (by omega)
        exact ⟨o, k, h7, h8, h9, fun hk _ => h10 hk hnc⟩
      · -- stopped by a random feature
        obtain ⟨fuel', rfl⟩ : ∃ k, fuel = k + 1 := ⟨fuel - 1, by omega⟩
        refine ⟨it'.accepted ++ it'.rejected, it'.accepted.length, ?_, h3.perm, by omega, ?_⟩
        · rw [loop, if_neg (by simp [hnc])]
        · intro hk _; exact absurd (h6 hk) hnc
    · rw [if_neg hc]
      refine ⟨_, _, rfl, hi.perm, hle, ?_⟩
      intro _ hnc
      have : ¬ it.reduced.length < size := fun h => hc ⟨h, hnc⟩
      have := hi.red
      omega

/-- C28, without random features: for every matrix, target, correlation and regression with more than
`2 * size` features and `0 < step < size`, iterative screening ends after at most `size` rounds; it returns
all features, each once, and accepts exactly `size` of them. -/
theorem C28_iterative_screen (x : Ext) (c : String) (hcoef : ∀ m t, (x.coef m t).length = m.length)
    (fresh : Nat → List Col) (defaultStep n : Nat) (t : Col) (cols : List Col) (size step : Nat)
    (hsize : 2 * size < cols.length) (hstep : 0 < step) (hss : step < size) :
    ∃ order, iterativeScreen x c true false fresh defaultStep (size + 1) t n cols (some size) (some step) =
      some (.ok (order, size)) ∧ order.Perm (List.range cols.length) := by
  unfold iterativeScreen dimensionCheck
  simp only [Option.getD_some, gt_iff_lt, hsize, hss, not_true, if_true, if_false, setIndex,
    Bool.false_eq_true]
  obtain ⟨it, h1, h2, h3, h4, h5⟩ := iterator_spec x c t n hcoef cols size step cols.length [] (List.range cols.length)
    [] cols (by simp) (by simp) le_rfl (.inl (by simp)) (by omega) (by omega) hss.le
  have hnc := h5 rfl
  have hal := h4 hnc
  simp only [List.length_nil, Nat.zero_add] at hal h3
  obtain ⟨o, k, h6, h7, h8, h9⟩ := loop_spec x c t n hcoef size cols.length [] cols (by simp) le_rfl hsize (size + 1)
    step it h2 hstep hss.le (by omega) (fun _ => by omega) (by omega) (by omega)
  have := h9 rfl hnc
  subst this
  refine ⟨o, ?_, h7⟩
  simp only [h1, h6]

/-- C28, with random features: the search ends, returns all real features, each once, and accepts at most
`size` of them. -/
theorem C28_iterative_screen_random (x : Ext) (c : String) (hcoef : ∀ m t, (x.coef m t).length = m.length)
    (fresh : Nat → List Col) (hfresh : ∀ r, (fresh r).length = r) (defaultStep n : Nat) (t : Col)
    (cols : List Col) (size step : Nat)
    (hsize : 2 * size < cols.length) (hstep : 0 < step) (hss : step < size) (h10 : 10 ≤ cols.length) :
    ∃ order k, iterativeScreen x c true true fresh defaultStep (size + 1) t n cols (some size) (some step) =
      some (.ok (order, k)) ∧ order.Perm (List.range cols.length) ∧ k ≤ size := by
  have hr : cols.length / 10 ≠ 0 := by omega
  unfold iterativeScreen dimensionCheck
  simp only [Option.getD_some, gt_iff_lt, hsize, hss, not_true, if_true, if_false, setIndex, hr]
  have hkl : (cols ++ fresh (cols.length / 10)).length = cols.length + cols.length / 10 := by simp [hfresh]
  obtain ⟨it, h1, h2, h3, h4, h5⟩ := iterator_spec x c t n hcoef (cols ++ fresh (cols.length / 10)) size step cols.length
    [] (List.range cols.length) (List.range' cols.length (cols.length / 10)) (cols ++ fresh (cols.length / 10))
    (by simp) (by rw [hkl]; congr 1; omega) (by omega) (.inr ⟨by simp, rfl⟩) (by omega) (by omega) hss.le
  simp only [List.length_nil, Nat.zero_add] at h3 h4
  obtain ⟨o, k, h6, h7, h8, h9⟩ := loop_spec x c t n hcoef size cols.length
    (List.range' cols.length (cols.length / 10)) (cols ++ fresh (cols.length / 10))
    (by rw [hkl]; congr 1; omega) (by omega) hsize (size + 1) step it h2 hstep hss.le (by omega)
    (fun h => by have := h4 h; omega) (by omega) (by omega)
  refine ⟨o, k, ?_, h7, h8⟩
  simp only [h1, h6]

/-- C28, too few features or too large a step: an AssertionError, not a wrong answer. -/
theorem C28_rejects (x : Ext) (c : String) (fresh : Nat → List Col) (rc : Bool) (defaultStep n fuel : Nat) (t : Col)
    (cols : List Col) (size step : Nat) (h : cols.length ≤ 2 * size ∨ size ≤ step) :
    iterativeScreen x c true rc fresh defaultStep fuel t n cols (some size) (some step) =
      some (.error .assertion) := by
  unfold iterativeScreen dimensionCheck
  simp only [Option.getD_some, gt_iff_lt, if_true]
  by_cases h1 : 2 * size < cols.length
  · have h2 : ¬ step < size := by omega
    simp [h1, h2]
  · simp [h1]

example : ∃ (x : Ext) (cols : List Col), (∀ m t, (x.coef m t).length = m.length) ∧ 2 * 3 < cols.length ∧
    10 ≤ cols.length :=
  ⟨⟨fun _ _ => 0, fun _ _ => 0, fun _ _ => 0, fun _ => false, fun m _ => List.replicate m.length 1⟩,
    List.replicate 12 [1, 2], by simp, by simp, by simp⟩

/-- C28, a step of 0: the call ends with an exception (NameError), it does not loop forever. -/
theorem C28_step_zero_raises (x : Ext) (c : String) (hcoef : ∀ m t, (x.coef m t).length = m.length)
    (fresh : Nat → List Col) (defaultStep n fuel : Nat) (t : Col) (cols : List Col) (size : Nat)
    (hsize : 2 * size < cols.length) (hs : 0 < size) :
    iterativeScreen x c true false fresh defaultStep (fuel + 1) t n cols (some size) (some 0) =
      some (.error .name) := by
  unfold iterativeScreen dimensionCheck
  simp only [Option.getD_some, gt_iff_lt, hsize, hs, not_true, if_true, if_false, setIndex,
    Bool.false_eq_true]
  obtain ⟨it, h1, h2, h3, h4, h5⟩ := iterator_spec x c t n hcoef cols size 0 cols.length [] (List.range cols.length)
    [] cols (by simp) (by simp) le_rfl (.inl (by simp)) (by omega) (by omega) (by omega)
  simp only [h1, List.length_nil] at h3 ⊢
  have hacc : it.accepted.length = 0 := by omega
  have hred : it.reduced = [] := List.eq_nil_of_length_eq_zero (by rw [h2.red, hacc])
  have htr : it.train ≠ [] := by
    intro e
    have h := h2.perm.length_eq
    have h' := h2.train
    rw [e] at h'
    simp at h h'
    omega
  have hnc := h5 rfl
  rw [loop, if_pos ⟨by rw [hred]; simpa using hs, hnc⟩]
  simp only [hred, getResponse, List.getLast?_nil, if_neg htr]

/-! ### C90: the response used in later rounds -/

/-- C90 (partial): with a single accepted feature of norm 1, the response of every remaining feature is
orthogonal to it. -/
theorem C90_response_orthogonal_partial (d a : Col) (hl : d.length = a.length) (hn : dot a a = 1) :
    ∃ r, getResponse [d] [a] = .ok [r] ∧ dot r a = 0 := by
  refine ⟨respOne d a, by simp [getResponse], ?_⟩
  have key : ∀ (d a : Col) (k : ℝ), d.length = a.length →
      dot (List.zipWith (fun di ai => (di - ai * k) / 1) d a) a = dot d a - k * dot a a := by
    intro d
    induction d with
    | nil => intro a k h; cases a with
      | nil => simp [dot]
      | cons _ _ => simp at h
    | cons d0 d ih =>
      intro a k h
      cases a with
      | nil => simp at h
      | cons a0 a =>
        have := ih a k (by simpa using h)
        unfold dot at this ⊢
        simp only [List.zipWith_cons_cons, List.sum_cons]
        rw [this]; ring
  unfold respOne
  rw [hn, key d a _ hl, hn]; ring

example : ([1, 2] : Col).length = ([0, 1] : Col).length ∧ dot [0, 1] [0, 1] = 1 := by
  simp [dot]

/-- C90 is violated by an accepted feature of another norm, and by a second accepted feature: the response
keeps a component along them. -/
theorem C90_response_orthogonal_violated :
    (∃ r, getResponse [[1, 1]] [[2, 0]] = .ok [r] ∧ dot r [2, 0] ≠ 0) ∧
    (∃ r, getResponse [[1, 1]] [[1, 0], [0, 1]] = .ok [r] ∧ dot r [1, 0] ≠ 0) := by
  constructor
  · refine ⟨respOne [1, 1] [2, 0], by simp [getResponse], ?_⟩
    simp [respOne, dot]; norm_num
  · refine ⟨respOne [1, 1] [0, 1], by simp [getResponse], ?_⟩
    simp [respOne, dot]

/-! ### C91: which feature a round accepts -/

/-- C91 is violated: five features are screened; the two most correlated ones are features 3 and 1.  The
regression on them gives feature 1 the coefficient 2 and feature 3 the coefficient 1.  The round accepts
feature 3. -/
theorem C91_accepts_best_violated :
    ∃ (x : Ext) (cols : List Col) (it : Iter),
      cols[1]? = some [3] ∧ cols[3]? = some [4] ∧ x.coef [[3], [4]] [0] = [2, 1] ∧
      (∀ m t, (x.coef m t).length = m.length) ∧
      iterator x "spearman" [0] 1 cols 2 1 [] (List.range 5) [] cols = .ok it ∧
      it.accepted = [3] := by
  refine ⟨⟨fun d _ => d.headD 0, fun _ _ => 0, fun _ _ => 0, fun _ => false,
    fun m _ => (List.range m.length).map fun i => (m.length - i : ℝ)⟩,
    [[1], [3], [0], [4], [0]], ⟨true, [3], [0, 1, 2, 4], [[1], [3], [0], [0]], [[4]]⟩, rfl, rfl, ?_, by simp, ?_, rfl⟩
  · simp [List.range_succ]; norm_num
  · have h1 : orderByAbs [1, 3, 0, 4, 0] = [3, 1, 0, 2, 4] := by
      simp [orderByAbs, sortDesc, List.range_succ, List.insertionSort, List.orderedInsert]
      norm_num
    have h2 : orderByAbs [2, 1] = [0, 1] := by
      simp [orderByAbs, sortDesc, List.range_succ, List.insertionSort]
    have h3 : ((List.range 2).map fun i => ((2 : ℕ) - i : ℝ)) = [2, 1] := by
      simp [List.range_succ]; norm_num
    simp [iterator, screenCore, getCorrelation, corrOf, h1, bind, Except.bind, reduceCore, deleteCols,
      featureSelect, List.range_succ, iteratorEnd, sortDesc]
    norm_num [h2, sisAccept, popAll]

/-! ### C92, C93: eliminating features -/

/-- C92 is violated: without iteration the requested size has no influence on the result. -/
theorem C92_size_honoured_violated (x : Ext) (c : String) (fresh f1 f2 : Nat → List Col) (t : Col) (n : Nat)
    (train test : List Col) (hne : train ≠ []) (hl : test.length = train.length) (size : Option Nat) :
    ∃ a b order, eliminateOnce x c false fresh f1 f2 t n train test size = .ok (a, b, order, n) ∧
      a.length = min n train.length := by
  obtain ⟨r, h1, h2, -, h4⟩ := C27_screen_partial x c fresh t n train hne
  have hnod : r.index.Nodup := h2.nodup_iff.mpr List.nodup_range
  have hlen : r.index.length = train.length := by simpa using h2.length_eq
  have hlt : ∀ i ∈ r.index, i < train.length := fun i hi => by simpa using h2.mem_iff.mp hi
  have hred : ∀ cols : List Col, cols.length = train.length →
      (deleteCols cols (r.index.drop n)).length = (r.index.take n).length ∧
      reduceMatrix false f1 cols r.index n =
      .ok ⟨r.index.take n, r.index.drop n, deleteCols cols (r.index.drop n)⟩ := by
    intro cols hc
    have hm := deleteCols_length cols (r.index.drop n) (hnod.sublist (List.drop_sublist _ _))
      (fun i hi => by rw [hc]; exact hlt i (List.mem_of_mem_drop hi))
    have hm' : (deleteCols cols (r.index.drop n)).length = (r.index.take n).length := by
      simp at hm ⊢; omega
    refine ⟨hm', ?_⟩
    simp only [reduceMatrix, setIndex, Bool.false_eq_true, if_false, bind, Except.bind, reduceCore]
    rw [if_neg (by omega), if_neg (by omega)]
  refine ⟨deleteCols train (r.index.drop n), deleteCols test (r.index.drop n), r.index, ?_, ?_⟩
  · unfold eliminateOnce
    have e1 := (hred train rfl).2
    have e2 := (hred test hl).2
    rw [show reduceMatrix false f1 test r.index n = reduceMatrix false f2 test r.index n from rfl] at e2
    simp only [h1, bind, Except.bind, h4, e1, e2]
  · rw [(hred train rfl).1]
    simp [hlen]

example : ([[1], [2], [3]] : List Col) ≠ [] ∧ ([[4], [5], [6]] : List Col).length = 3 := by simp

/-- C93: for every order of the features and every size, the reduced training and test matrices hold the same
features in the same (original) order: the first `size` of the order, each once. -/
theorem C93_same_features (train test : List Col) (order : List Nat) (size : Nat)
    (hp : order.Perm (List.range train.length)) (hl : test.length = train.length) (f1 f2 : Nat → List Col) :
    ∃ (kept : List Nat) (a b : Reduced), kept.Perm (order.take size) ∧ kept.Pairwise (· < ·) ∧
      reduceMatrix false f1 train order size = .ok a ∧ reduceMatrix false f2 test order size = .ok b ∧
      a.matrix.map some = kept.map (fun i => train[i]?) ∧ b.matrix.map some = kept.map (fun i => test[i]?) := by
  have hnod : order.Nodup := hp.nodup_iff.mpr List.nodup_range
  have hlen : order.length = train.length := by simpa using hp.length_eq
  have hlt : ∀ i ∈ order, i < train.length := fun i hi => by simpa using hp.mem_iff.mp hi
  have hred : ∀ cols : List Col, cols.length = train.length →
      reduceMatrix false f1 cols order size =
      .ok ⟨order.take size, order.drop size, deleteCols cols (order.drop size)⟩ := by
    intro cols hc
    have hm := deleteCols_length cols (order.drop size) (hnod.sublist (List.drop_sublist _ _))
      (fun i hi => by rw [hc]; exact hlt i (List.mem_of_mem_drop hi))
    simp only [reduceMatrix, setIndex, Bool.false_eq_true, if_false, bind, Except.bind, reduceCore]
    rw [if_neg (by omega), if_neg (by simp at hm ⊢; omega)]
  set kept := (List.range train.length).filter fun i => !(order.drop size).contains i with hk
  have hmat : ∀ cols : List Col, cols.length = train.length →
      (deleteCols cols (order.drop size)).map some = kept.map fun i => cols[i]? := by
    intro cols hc
    rw [deleteCols_eq, hc, ← hk]
    have hb : ∀ i ∈ kept, i < cols.length := by
      intro i hi
      rw [hc]
      simpa using (List.mem_filter.mp hi).1
    clear_value kept
    clear hk
    induction kept with
    | nil => rfl
    | cons i l ih =>
      rw [List.filterMap_cons, List.getElem?_eq_getElem (hb i (by simp))]
      simp only [List.map_cons, List.getElem?_eq_getElem (hb i (by simp))]
      rw [ih fun j hj => hb j (by simp [hj])]
  refine ⟨kept, ⟨_, _, _⟩, ⟨order.take size, order.drop size, deleteCols test (order.drop size)⟩, ?_, ?_,
    hred train rfl, ?_, hmat train rfl, hmat test hl⟩
  · rw [List.perm_ext_iff_of_nodup (List.nodup_range.filter _) (hnod.sublist (List.take_sublist _ _))]
    intro i
    simp only [hk, List.mem_filter, List.mem_range, List.contains_eq_mem, Bool.not_eq_true',
      decide_eq_false_iff_not]
    have hsplit := List.take_append_drop size order
    constructor
    · rintro ⟨h1, h2⟩
      have : i ∈ order := hp.mem_iff.mpr (by simpa using h1)
      rw [← hsplit, List.mem_append] at this
      exact this.resolve_right h2
    · intro h
      refine ⟨hlt i (List.mem_of_mem_take h), ?_⟩
      have hn := hnod
      rw [← hsplit, List.nodup_append'] at hn
      exact fun h' => hn.2.2 h h'
  · exact List.pairwise_lt_range.filter _
  · rw [show reduceMatrix false f2 test order size = reduceMatrix false f1 test order size from rfl]
    exact hred test hl

example : [2, 0, 1].Perm (List.range ([[1], [2], [3]] : List Col).length) := by decide

private theorem popAll_self (accepted rejected is : List Nat) (hs : is.Pairwise fun a b => b < a)
    (h : ∀ i ∈ is, rejected[i]? = some i) : (popAll accepted rejected is).1 = accepted ++ is := by
  induction is generalizing accepted rejected with
  | nil => simp [popAll]
  | cons i is ih =>
    rw [popAll, ih _ _ (List.pairwise_cons.mp hs).2]
    · rw [List.getD_eq_getElem?_getD, h i (by simp)]
      simp
    · intro j hj
      have := (List.pairwise_cons.mp hs).1 j hj
      rw [List.getElem?_eraseIdx_of_lt this]
      exact h j (by simp [hj])

private theorem sisAccept_nil (acc regr : List Nat) : sisAccept acc [] regr = (true, regr.map fun i => acc.getD i 0) := by
  induction regr with
  | nil => rfl
  | cons i is ih => simp [sisAccept, ih]

/-- C91 (partial).  In the first round without random features, if the features that pass the correlation screen are, in the order
of their correlation, also in the order of their columns, the round accepts the `step` of them with the largest absolute
coefficients: every accepted feature passed the screen, and none that passed it and is not accepted has a larger coefficient.
Missing: every other order (see the violation). -/
theorem C91_accepts_best_partial (x : Ext) (c : String) (hcoef : ∀ m t, (x.coef m t).length = m.length) (t : Col) (n : Nat)
    (cols : List Col) (size step : Nat) (hsize : 0 < size) (hsz : size ≤ cols.length) (hstep : step ≤ size) (sel : List Nat)
    (hsel : ∃ sc, screenCore x c t n cols [] = .ok sc ∧ sc.index.take size = sel) (hinc : sel.Pairwise (· < ·)) :
    ∃ it sub, iterator x c t n cols size step [] (List.range cols.length) [] cols = .ok it ∧
      sub.map some = sel.map (fun i => cols[i]?) ∧ it.accepted.Nodup ∧ it.accepted.length = step ∧
      (∀ j ∈ it.accepted, j ∈ sel) ∧
      ∀ (i k a b : Nat), sel[i]? = some a → sel[k]? = some b → a ∈ it.accepted → b ∉ it.accepted →
        |(x.coef sub t).getD k 0| ≤ |(x.coef sub t).getD i 0| := by
  obtain ⟨it, hit, hinv, -, hconv, hnc⟩ := iterator_spec x c t n hcoef cols size step cols.length [] (List.range cols.length) []
    cols (by simp) (by simp) le_rfl (.inl (by simp)) hsize hsz hstep
  obtain ⟨sc, hsc, rfl⟩ := hsel
  obtain ⟨sc', h1, h2, -⟩ := screenCore_spec x c t n cols [] (by rintro rfl; simp at hsz; omega)
  rw [hsc] at h1
  cases h1
  obtain ⟨kept, red, _, hk1, hk2, hr, _, hmat, _⟩ := C93_same_features cols cols sc.index size h2 rfl (fun _ => []) (fun _ => [])
  have hkept : kept = sc.index.take size :=
    List.Perm.eq_of_pairwise (fun a b _ _ h h' => absurd h (by omega)) hk2 hinc hk1
  have hred : reduceCore cols sc.index size = .ok red := by
    simpa [reduceMatrix, setIndex, bind, Except.bind] using hr
  have hacc : red.accepted = sc.index.take size := by
    unfold reduceCore at hred
    split at hred
    · cases hred
    · simp only at hred
      split at hred
      · cases hred
      · cases hred; rfl
  have hrl : red.matrix.length = size := by
    have := congrArg List.length hmat
    simp only [List.length_map] at this
    rw [this, hkept, List.length_take, show sc.index.length = cols.length by simpa using h2.length_eq]
    omega
  have hcl : (x.coef red.matrix t).length = size := by rw [hcoef, hrl]
  have hsl : (sc.index.take size).length = size := by
    rw [List.length_take, show sc.index.length = cols.length by simpa using h2.length_eq]; omega
  set acc := sc.index.take size with haccdef
  set regr := (orderByAbs (x.coef red.matrix t)).take step with hregr
  have hop := orderByAbs_perm (x.coef red.matrix t)
  rw [hcl] at hop
  have hnod : acc.Nodup := hinc.imp fun h => by omega
  have hrn : regr.Nodup := (hop.nodup_iff.mpr List.nodup_range).sublist (List.take_sublist _ _)
  have hrb : ∀ i ∈ regr, i < acc.length := by
    intro i hi
    rw [hsl]
    simpa using hop.mem_iff.mp (List.mem_of_mem_take hi)
  have hfs : featureSelect (x.coef red.matrix t) step = .ok (regr, (orderByAbs (x.coef red.matrix t)).drop step) := by
    unfold featureSelect
    rw [if_neg (by intro e; rw [e] at hcl; simp at hcl; omega)]
  have hit2 := hit
  unfold iterator at hit2
  rw [hsc] at hit2
  simp only [bind, Except.bind, hred, hfs, hacc] at hit2
  -- what is accepted
  have hsis := sisAccept_spec acc [] regr hnod hrn hrb
  rw [sisAccept_nil] at hsis
  have hAcc : it.accepted = sortDesc id (regr.map fun i => acc.getD i 0) := by
    unfold iteratorEnd at hit2
    rw [sisAccept_nil] at hit2
    simp only at hit2
    split at hit2
    · cases hit2
    · split at hit2
      · cases hit2
      · cases hit2
        simp only
        rw [popAll_self]
        · rfl
        · have p1 := sortDesc_pairwise id (regr.map fun i => acc.getD i 0)
          have p2 : (sortDesc id (regr.map fun i => acc.getD i 0)).Nodup := (sortDesc_perm id _).nodup_iff.mpr hsis.1
          exact (p1.and p2).imp fun {a b} h => lt_of_le_of_ne h.1 fun e => h.2 e.symm
        · intro i hi
          have hi' := (sortDesc_perm id _).mem_iff.mp hi
          have := (hsis.2.1 i hi').1
          have hlt : i < cols.length := by
            simpa using h2.mem_iff.mp (List.mem_of_mem_take this)
          simp [hlt]
  have hmem : ∀ j, j ∈ it.accepted ↔ ∃ i ∈ regr, acc.getD i 0 = j := by
    intro j
    rw [hAcc, (sortDesc_perm id _).mem_iff, List.mem_map]
  refine ⟨it, red.matrix, hit, by rw [hmat, hkept], ?_, by simpa using hconv (hnc rfl), ?_, ?_⟩
  · rw [hAcc]
    exact (sortDesc_perm id _).nodup_iff.mpr hsis.1
  · intro j hj
    rw [hAcc, (sortDesc_perm id _).mem_iff] at hj
    exact (hsis.2.1 j hj).1
  · intro i k a b hi hk ha hb
    obtain ⟨hi', rfl⟩ := List.getElem?_eq_some_iff.mp hi
    obtain ⟨hk', rfl⟩ := List.getElem?_eq_some_iff.mp hk
    obtain ⟨i0, hi0, he⟩ := (hmem _).mp ha
    have hib := hrb i0 hi0
    rw [List.getD_eq_getElem?_getD, List.getElem?_eq_getElem hib, Option.getD_some] at he
    have : i0 = i := (List.Nodup.getElem_inj_iff hnod).mp he
    subst this
    have hkn : k ∉ regr := by
      intro hkr
      apply hb
      rw [hmem]
      refine ⟨k, hkr, ?_⟩
      rw [List.getD_eq_getElem?_getD, List.getElem?_eq_getElem hk', Option.getD_some]
    have hkd : k ∈ (orderByAbs (x.coef red.matrix t)).drop step := by
      have : k ∈ orderByAbs (x.coef red.matrix t) := hop.mem_iff.mpr (by simpa [hsl] using hk')
      rw [← List.take_append_drop step (orderByAbs (x.coef red.matrix t))] at this
      rcases List.mem_append.mp this with h | h
      · exact absurd h hkn
      · exact h
    have hpw : (orderByAbs (x.coef red.matrix t)).Pairwise
        (fun a b => |(x.coef red.matrix t).getD b 0| ≤ |(x.coef red.matrix t).getD a 0|) := sortDesc_pairwise _ _
    rw [← List.take_append_drop step (orderByAbs (x.coef red.matrix t)), List.pairwise_append] at hpw
    exact hpw.2.2 _ hi0 _ hkd

/-- Three features of which the first two pass the screen in the order of their columns. -/
example : ∃ x : Ext, (∀ m t, (x.coef m t).length = m.length) ∧
    ∃ sc, screenCore x "spearman" [0] 1 [[4], [3], [0]] [] = .ok sc ∧ sc.index.take 2 = [0, 1] := by
  refine ⟨⟨fun d _ => d.headD 0, fun _ _ => 0, fun _ _ => 0, fun _ => false,
    fun m _ => (List.range m.length).map fun i => (m.length - i : ℝ)⟩, by simp, _, rfl, ?_⟩
  have h1 : orderByAbs [4, 3, 0] = [0, 1, 2] := by
    simp [orderByAbs, sortDesc, List.range_succ, List.insertionSort, List.orderedInsert]
    norm_num
  simp [getCorrelation, corrOf, h1]

/-- C93: `eliminate_features` returns a training and a test matrix that hold the same features of their inputs, in the
original order, each once: the first ones of the returned order. -/
theorem C93_eliminate_features (x : Ext) (c : String) (fresh f1 f2 : Nat → List Col) (t : Col) (n : Nat)
    (train test : List Col) (hne : train ≠ []) (hl : test.length = train.length) (size : Option Nat) :
    ∃ (a b : List Col) (order : List Nat) (sz : Nat) (kept : List Nat),
      eliminateOnce x c false fresh f1 f2 t n train test size = .ok (a, b, order, sz) ∧
      order.Perm (List.range train.length) ∧ kept.Perm (order.take sz) ∧ kept.Pairwise (· < ·) ∧
      a.map some = kept.map (fun i => train[i]?) ∧ b.map some = kept.map (fun i => test[i]?) := by
  obtain ⟨r, h1, h2, -, -⟩ := C27_screen_partial x c fresh t n train hne
  obtain ⟨kept, a, b, hk, hs, ha, hb, hma, hmb⟩ := C93_same_features train test r.index r.size h2 hl f1 f2
  refine ⟨a.matrix, b.matrix, r.index, r.size, kept, ?_, h2, hk, hs, hma, hmb⟩
  unfold eliminateOnce
  simp only [h1, bind, Except.bind, ha, hb]

example : ([[1], [2], [3]] : List Col) ≠ [] ∧ ([[4], [5], [6]] : List Col).length = ([[1], [2], [3]] : List Col).length := by
  simp

/-- C92 (partial).  Without iteration and random check the size is honoured if it is the number of data, which is the default,
and there are that many features.  Missing: every other size (see the violation). -/
theorem C92_default_size_partial (x : Ext) (c : String) (fresh f1 f2 : Nat → List Col) (t : Col) (n : Nat)
    (train test : List Col) (hne : train ≠ []) (hl : test.length = train.length) (size : Option Nat)
    (hs : size = none ∨ size = some n) (hn : n ≤ train.length) :
    ∃ a b order k, eliminateOnce x c false fresh f1 f2 t n train test size = .ok (a, b, order, k) ∧
      a.length = size.getD n ∧ b.length = size.getD n := by
  have hd : size.getD n = n := by rcases hs with rfl | rfl <;> rfl
  obtain ⟨a, b, order, h, hlen⟩ := C92_size_honoured_violated x c fresh f1 f2 t n train test hne hl size
  obtain ⟨a', b', o', sz, kept, h', _, _, _, ha, hb⟩ := C93_eliminate_features x c fresh f1 f2 t n train test hne hl size
  rw [h] at h'
  cases h'
  refine ⟨a, b, order, n, h, by rw [hd, hlen]; omega, ?_⟩
  have e1 := congrArg List.length ha
  have e2 := congrArg List.length hb
  simp only [List.length_map] at e1 e2
  rw [hd, e2, ← e1, hlen]
  omega

example : ([[1], [2], [3]] : List Col) ≠ [] ∧ ([[4], [5], [6]] : List Col).length = 3 ∧ 2 ≤ ([[1], [2], [3]] : List Col).length := by
  simp

/-! ### C95: the screening object is left unchanged -/

/-- C95 is violated: after a successful call of a screening object that was created with the random check
switched on, the check is off for all later calls. -/
theorem C95_object_unchanged_violated (x : Ext) (c : String) (hcoef : ∀ m t, (x.coef m t).length = m.length)
    (fresh : Nat → List Col) (hfresh : ∀ r, (fresh r).length = r) (defaultStep n : Nat) (t : Col)
    (cols : List Col) (size step : Nat)
    (hsize : 2 * size < cols.length) (hstep : 0 < step) (hss : step < size) (h10 : 10 ≤ cols.length) :
    ∃ order k, iterativeScreenObj x c true true fresh defaultStep (size + 1) t n cols (some size) (some step) =
      (some (.ok (order, k)), false) := by
  obtain ⟨o, k, h1, -⟩ := C28_iterative_screen_random x c hcoef fresh hfresh defaultStep n t cols size step hsize
    hstep hss h10
  refine ⟨o, k, ?_⟩
  unfold iterativeScreenObj
  rw [h1]
  have hr : cols.length / 10 ≠ 0 := by omega
  simp [dimensionCheck, hsize, hss, setIndex, hr]

/-- C95 (partial).  An object created without the random check is left unchanged, so that any number of calls on the same data
all give the result of the first; with the check switched on this holds for calls that are refused because of the
dimensions. -/
theorem C95_reuse_partial (x : Ext) (c : String) (iterative check : Bool) (fresh : Nat → List Col) (defaultStep fuel n : Nat)
    (t : Col) (cols : List Col) (size step : Option Nat)
    (h : check = false ∨ ∃ e, dimensionCheck iterative defaultStep n cols.length size step = .error e) (calls : Nat) :
    (fun b => (iterativeScreenObj x c iterative b fresh defaultStep fuel t n cols size step).2)^[calls] check = check ∧
    iterativeScreenObj x c iterative ((fun b => (iterativeScreenObj x c iterative b fresh defaultStep fuel t n cols size
        step).2)^[calls] check) fresh defaultStep fuel t n cols size step
      = iterativeScreenObj x c iterative check fresh defaultStep fuel t n cols size step := by
  have h1 : (iterativeScreenObj x c iterative check fresh defaultStep fuel t n cols size step).2 = check := by
    unfold iterativeScreenObj
    simp only
    rcases h with rfl | ⟨e, he⟩
    · split <;> rfl
    · rw [he]
  have h2 : (fun b => (iterativeScreenObj x c iterative b fresh defaultStep fuel t n cols size step).2)^[calls] check = check :=
    Function.iterate_fixed h1 calls
  exact ⟨h2, by rw [h2]⟩

example : ∃ e, dimensionCheck true 2 10 20 (some 10) (some 2) = .error e := ⟨.assertion, rfl⟩

/-! ### C30, C94: principal components -/

private theorem mapM_get {V : Type} (u : List V) (l : List Nat) (h : ∀ i ∈ l, i < u.length) :
    ∃ r, l.mapM (pyGet u) = .ok r ∧ r.map some = l.map fun i => u[i]? := by
  induction l with
  | nil => exact ⟨[], rfl, rfl⟩
  | cons i l ih =>
    obtain ⟨r, h1, h2⟩ := ih fun j hj => h j (by simp [hj])
    have hi := h i (by simp)
    refine ⟨u[i] :: r, ?_, ?_⟩
    · rw [List.mapM_cons, pyGet, List.getElem?_eq_getElem hi]
      simp only [bind, Except.bind, h1, pure, Except.pure]
    · simp only [List.map_cons, h2, List.getElem?_eq_getElem hi]

/-- C30 (partial): asking for one component projects on the leading singular vector. -/
theorem C30_one_component_partial {V : Type} (u : List V) (v : V) (hv : u[0]? = some v) :
    projection u 1 = .ok [v] := by
  simp [projection, pyGet, hv, bind, Except.bind, pure, Except.pure]

example : ([[1, 0], [0, 1]] : List Col)[0]? = some [1, 0] := rfl

/-- C30 is violated for every data set and every number of components above 1: the leading vector is used
twice and the last requested one is missing. -/
theorem C30_distinct_components_violated {V : Type} (u : List V) (k : Nat) (hk : 2 ≤ k) (hu : k ≤ u.length) :
    ∃ pm, projection u k = .ok pm ∧ pm.length = k ∧ pm[0]? = u[0]? ∧ (∀ i < k - 1, pm[i + 1]? = u[i]?) ∧
      ¬ pm.Nodup := by
  obtain ⟨r, h1, h2⟩ := mapM_get u (List.range (k - 1)) (by intro i hi; simp at hi; omega)
  have h0 : 0 < u.length := by omega
  have hg : ∀ i < k - 1, r[i]? = u[i]? := by
    intro i hi
    have := congrArg (fun l => l[i]?) h2
    simp only [List.getElem?_map, List.getElem?_range hi, Option.map_some] at this
    rw [List.getElem?_eq_getElem (by omega : i < u.length)] at this ⊢
    cases hr : r[i]? with
    | none => rw [hr] at this; simp at this
    | some w => rw [hr] at this; simpa using this
  have hrl : r.length = k - 1 := by
    have := congrArg List.length h2
    simpa using this
  refine ⟨u[0] :: r, ?_, by simp [hrl]; omega, by simp [h0], ?_, ?_⟩
  · unfold projection
    rw [if_neg (by omega), pyGet, List.getElem?_eq_getElem h0]
    simp only [bind, Except.bind, h1]
  · intro i hi
    rw [List.getElem?_cons_succ, hg i hi]
  · intro hn
    have := hg 0 (by omega)
    rw [List.getElem?_eq_getElem h0, List.getElem?_eq_getElem (by omega)] at this
    have hm : u[0] ∈ r := by
      rw [← Option.some.inj this]
      exact List.getElem_mem _
    exact (List.nodup_cons.mp hn).1 hm

example : 2 ≤ 2 ∧ 2 ≤ ([[1, 0], [0, 1]] : List Col).length := by simp

/-- C94: the reported variances are in decreasing order and add up to 100 per cent (singular values are
non-negative; not all zero). -/
theorem C94_variance (s : List ℝ) (h0 : ∀ v ∈ s, 0 ≤ v) (hs : ∃ v ∈ s, v ≠ 0) :
    (variance s).Pairwise (fun a b => b ≤ a) ∧ (variance s).sum = 100 ∧ (variance s).length = s.length ∧
      ∀ v ∈ variance s, 0 ≤ v := by
  have hpos : 0 < s.sum := by
    rcases (List.sum_nonneg h0).lt_or_eq with h | h
    · exact h
    · exfalso
      obtain ⟨v, hv, hne⟩ := hs
      have := List.single_le_sum h0 v hv
      exact hne (le_antisymm (by rw [h]; exact this) (h0 v hv))
  have hsum : ∀ (l : List ℝ) (k : ℝ), (l.map fun i => i / k * 100).sum = l.sum / k * 100 := by
    intro l k
    induction l with
    | nil => simp
    | cons a l ih => rw [List.map_cons, List.sum_cons, ih, List.sum_cons]; ring
  refine ⟨?_, ?_, ?_, ?_⟩
  · unfold variance
    rw [List.pairwise_map]
    refine (sortDesc_pairwise id s).imp ?_
    intro a b h
    have h : b ≤ a := h
    gcongr
  · unfold variance
    rw [hsum, (sortDesc_perm id s).sum_eq, div_self hpos.ne']; norm_num
  · unfold variance
    rw [List.length_map, (sortDesc_perm id s).length_eq]
  · intro v hv
    obtain ⟨w, hw, rfl⟩ := List.mem_map.mp hv
    have := h0 w ((sortDesc_perm id s).mem_iff.mp hw)
    positivity

example : (∀ v ∈ ([3, 1] : List ℝ), 0 ≤ v) ∧ ∃ v ∈ ([3, 1] : List ℝ), v ≠ 0 :=
  ⟨by simp, 3, by simp, by norm_num⟩

end CatLearn.Props
