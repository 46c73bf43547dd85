import Verif.Model.SplitFiles
import Verif.Props.Hierarchy
import Mathlib.Data.List.GetD
import Mathlib.Data.List.Nodup

/-!
C205-C207: splits and data of the cross validation on disk.
-/

namespace CatLearn.SplitFiles

open CatLearn CatLearn.Hierarchy CatLearn.Spec CatLearn.Props

/-! ### C205: k-fold splits -/

/-- A call of `write_split`. -/
structure Call (V : Type) where
  features : List (NpArr V)
  targets : Option (List (NpArr V))
  fname : String
  fformat : String

/-- A call that raises leaves the files as they are. -/
def step {V : Type} (fs : Files (Content V)) (c : Call V) : Files (Content V) :=
  match writeSplit fs c.features c.targets c.fname c.fformat with
  | .ok fs' => fs'
  | .error _ => fs

private theorem name_ne (a b : String) : a ++ ".json" ≠ b ++ ".pickle" := by
  intro h
  have h1 := congrArg (fun s => s.toList.getLast?) h
  have e1 : (".json" : String).toList = ['.', 'j', 's', 'o', 'n'] := by decide
  have e2 : (".pickle" : String).toList = ['.', 'p', 'i', 'c', 'k', 'l', 'e'] := by decide
  simp [String.toList_append, e1, e2] at h1

private theorem step_other {V : Type} (fs : Files (Content V)) (c : Call V) (fname fformat : String)
    (h : (c.fname, c.fformat) ≠ (fname, fformat)) : readSplit (step fs c) fname fformat = readSplit fs fname fformat := by
  unfold step writeSplit
  by_cases hj : c.fformat = "json"
  · cases ht : c.targets with
    | none => simp [hj]
    | some t =>
      simp only [hj, if_true]
      unfold readSplit
      by_cases h1 : fformat = "json"
      · have hne : fname ++ ".json" ≠ c.fname ++ ".json" := by
          intro he
          rw [String.append_left_inj] at he
          exact h (by rw [he, hj, h1])
        simp [h1, Files.write, hne]
      · by_cases h2 : fformat = "pickle"
        · have hne : fname ++ ".pickle" ≠ c.fname ++ ".json" := fun he => name_ne _ _ he.symm
          simp [h2, Files.write, hne]
        · simp [h1, h2]
  · by_cases hp : c.fformat = "pickle"
    · simp only [hp]
      unfold readSplit
      by_cases h1 : fformat = "json"
      · have hne : fname ++ ".json" ≠ c.fname ++ ".pickle" := name_ne _ _
        simp [h1, Files.write, hne]
      · by_cases h2 : fformat = "pickle"
        · have hne : fname ++ ".pickle" ≠ c.fname ++ ".pickle" := by
            intro he
            rw [String.append_left_inj] at he
            exact h (by rw [he, hp, h2])
          simp [h2, Files.write, hne]
        · simp [h1, h2]
    · simp [hj, hp]

private theorem run_other {V : Type} (after : List (Call V)) (fs : Files (Content V)) (fname fformat : String)
    (h : ∀ u ∈ after, (u.fname, u.fformat) ≠ (fname, fformat)) :
    readSplit (after.foldl step fs) fname fformat = readSplit fs fname fformat := by
  induction after generalizing fs with
  | nil => rfl
  | cons u us ih =>
    rw [List.foldl_cons, ih _ fun v hv => h v (by simp [hv])]
    exact step_other fs u fname fformat (h u (by simp))

private theorem asarray_tolist {V : Type} (rows : List (List V)) (c : ℕ) (hne : rows ≠ []) (hm : (NpArr.d2 rows c).Matrix) :
    asarray (NpArr.d2 rows c).tolist = .d2 rows c := by
  cases rows with
  | nil => exact absurd rfl hne
  | cons r rs =>
    have : r.length = c := hm r (by simp)
    simp [NpArr.tolist, asarray, this]

/-- C205 (`_partial`: JSON does not bring back folds without rows, nor splits without targets, see below): reading a split
returns what was last written under this name and format, whatever else is written before and after, for any number of
folds: with pickle for all splits, with JSON if every fold has a row and there are targets. -/
theorem C205_last_write_partial {V : Type} (fs : Files (Content V)) (before after : List (Call V)) (w : Call V)
    (hfmt : w.fformat = "pickle" ∨ w.fformat = "json" ∧ (∃ ts, w.targets = some ts ∧ ∀ t ∈ ts, ∃ v, t = .d1 v) ∧
      ∀ f ∈ w.features, ∃ rows c, f = .d2 rows c ∧ rows ≠ [] ∧ f.Matrix)
    (hafter : ∀ u ∈ after, (u.fname, u.fformat) ≠ (w.fname, w.fformat)) :
    readSplit ((before ++ w :: after).foldl step fs) w.fname w.fformat = .ok (w.features, w.targets) := by
  rw [List.foldl_append, List.foldl_cons, run_other after _ _ _ hafter]
  generalize before.foldl step fs = fs'
  rcases hfmt with hp | ⟨hj, ⟨ts, hts, ht⟩, hf⟩
  · simp [step, writeSplit, readSplit, hp, Files.write]
  · have e1 : w.features.map (asarray ∘ NpArr.tolist) = w.features := by
      conv_rhs => rw [← List.map_id w.features]
      apply List.map_congr_left
      intro f hfm
      obtain ⟨rows, c, rfl, hne, hm⟩ := hf f hfm
      exact asarray_tolist rows c hne hm
    have e2 : ts.map (asarray ∘ NpArr.tolist) = ts := by
      conv_rhs => rw [← List.map_id ts]
      apply List.map_congr_left
      intro t htm
      obtain ⟨v, rfl⟩ := ht t htm
      rfl
    simp [step, writeSplit, readSplit, hj, hts, Files.write, e1, e2]

example : (⟨[.d2 [[1, 2]] 2, .d2 [[3, 4], [5, 6]] 2], some [.d1 [1], .d1 [2, 3]], "split", "json"⟩ : Call ℕ).fformat = "json" ∧
    readSplit (step (fun _ => none)
      (⟨[.d2 [[1, 2]] 2, .d2 [[3, 4], [5, 6]] 2], some [.d1 [1], .d1 [2, 3]], "split", "json"⟩ : Call ℕ)) "split" "json" =
      .ok ([.d2 [[1, 2]] 2, .d2 [[3, 4], [5, 6]] 2], some [.d1 [1], .d1 [2, 3]]) := by
  refine ⟨rfl, ?_⟩
  simp [step, writeSplit, readSplit, Files.write, NpArr.tolist, asarray]

/-- C205 is violated by JSON for folds without rows (more folds than data): the fold comes back as an array with one
dimension, of shape `(0,)` instead of `(0, c)`, which the next column index or concatenation refuses. -/
theorem C205_empty_fold_violated {V : Type} (fs : Files (Content V)) (features : List (NpArr V)) (ts : List (NpArr V))
    (fname : String) (k c : ℕ) (hk : features[k]? = some (.d2 [] c)) :
    ∃ fs' f t, writeSplit fs features (some ts) fname "json" = .ok fs' ∧ readSplit fs' fname "json" = .ok (f, t) ∧
      f[k]? = some (.d1 []) ∧ (f[k]?).map NpArr.shape ≠ (features[k]?).map NpArr.shape := by
  refine ⟨_, features.map (asarray ∘ NpArr.tolist), some (ts.map (asarray ∘ NpArr.tolist)), rfl, ?_, ?_⟩
  · simp [readSplit, Files.write]
  · simp [hk, NpArr.tolist, asarray, NpArr.shape]

/-- C205 is violated by JSON for splits without targets (`k_fold` without targets): TypeError, while pickle stores them. -/
theorem C205_no_targets_violated {V : Type} (fs : Files (Content V)) (features : List (NpArr V)) (fname : String) :
    writeSplit fs features none fname "json" = .error .type ∧
      ∃ fs', writeSplit fs features none fname "pickle" = .ok fs' ∧ readSplit fs' fname "pickle" = .ok (features, none) := by
  refine ⟨by simp [writeSplit], _, rfl, ?_⟩
  simp [readSplit, Files.write]

/-- C205: other formats are refused by both functions, and nothing is written. -/
theorem C205_formats {V : Type} (fs : Files (Content V)) (features : List (NpArr V)) (targets : Option (List (NpArr V)))
    (fname fformat : String) (h1 : fformat ≠ "json") (h2 : fformat ≠ "pickle") :
    writeSplit fs features targets fname fformat = .error .notImpl ∧ readSplit fs fname fformat = .error .notImpl := by
  simp [writeSplit, readSplit, h1, h2]

/-! ### C206: splits of the hierarchy -/

private theorem lookup_items {ι : Type} (d : Split ι) (k : ℕ × ℕ) (h : k ∈ d.keys) : (items d).lookup k = some (d.val k) := by
  unfold items
  generalize d.keys = ks at h
  induction ks with
  | nil => simp at h
  | cons a l ih =>
    simp only [List.map_cons, List.lookup_cons]
    by_cases hk : k = a
    · subst hk; simp
    · have hb : (k == a) = false := by simpa using hk
      rw [hb]
      exact ih (by simpa [hk] using h)

/-- Only the subsets of the levels matter. -/
private theorem good_congr {ι : Type} {keys : List (ℕ × ℕ)} {f g : ℕ → ℕ → List ι} {all : List ι} {m L : ℕ}
    (h : GoodHierarchy keys f all m L) (hfg : ∀ l j, 1 ≤ l → l ≤ L → 1 ≤ j → j ≤ 2 ^ l → g l j = f l j) :
    GoodHierarchy keys g all m L where
  levels := h.levels
  keys_eq := h.keys_eq
  partition := by
    intro l h1 h2
    have e : ((List.range (2 ^ l)).map fun j => g l (j + 1)) = (List.range (2 ^ l)).map fun j => f l (j + 1) :=
      List.map_congr_left fun j hj => hfg l (j + 1) h1 h2 (by omega) (by have := List.mem_range.1 hj; omega)
    rw [e]
    exact h.partition l h1 h2
  sizes := by
    intro l j h1 h2 h3 h4
    rw [hfg l j h1 h2 h3 h4]
    exact h.sizes l j h1 h2 h3 h4
  large := by
    intro l j h1 h2 h3 h4
    rw [hfg l j h1 h2 h3 h4]
    exact h.large l j h1 h2 h3 h4
  nested := by
    intro l j h1 h2 h3 h4
    have hp : 2 ^ (l + 1) = 2 * 2 ^ l := by rw [pow_succ, mul_comm]
    rw [hfg l j h1 (by omega) h3 h4, hfg (l + 1) (2 * j - 1) (by omega) (by omega) (by omega) (by omega),
      hfg (l + 1) (2 * j) (by omega) (by omega) (by omega) (by omega)]
    exact h.nested l j h1 h2 h3 h4
  maximal := h.maximal

/-- C206 (`_partial`: see the violations below): if half of the data is not smaller than `min_split`, the split that
`hierarchy` works with is the one just made, a full hierarchy over the given indices. -/
theorem C206_new_split_partial {ι : Type} (fs : Files (Stored ι)) (file : String) (fmt : Fmt)
    (hfmt : fmt.str = "json" ∨ fmt.str = "pickle") (hint : fmt.interned = true) (shuf0 : List ι → List ι)
    (shuf : ℕ × ℕ → List ι → List ι) (hs0 : IsShuffle shuf0) (hs : ∀ k, IsShuffle (shuf k)) (minSplit : ℕ) (hm : 0 < minSplit)
    (all : List ι) (hlen : minSplit ≤ all.length / 2) :
    ∃ r L, splitThenLoad fs file fmt shuf0 shuf minSplit none all = .ok r ∧
      GoodHierarchy (r.map Prod.fst) (fun l j => (r.lookup (l, j)).getD []) all minSplit L := by
  obtain ⟨d, L, hd, hg⟩ := C03_split_index shuf0 shuf hs0 hs minSplit hm all hlen
  refine ⟨items d, L, ?_, ?_⟩
  · simp [splitThenLoad, splitAndWrite, hd, writeHierarchy, hfmt, loadSplit, hint, Files.write]
  · have hk : (items d).map Prod.fst = d.keys := by simp [items, Function.comp_def]
    rw [hk]
    refine good_congr hg fun l j h1 h2 h3 h4 => ?_
    rw [lookup_items, Option.getD_some]
    rw [hg.keys_eq, hierarchyKeys, List.mem_flatMap]
    refine ⟨l - 1, List.mem_range.2 (by omega), ?_⟩
    rw [Nat.sub_add_cancel h1]
    exact List.mem_map.2 ⟨j - 1, List.mem_range.2 (by omega), by rw [Nat.sub_add_cancel h3]⟩

/-- C206 is violated for a `min_split` between half and all of the data: no split is made and no error raised, and the
split that is loaded is whatever an earlier run left in the file, possibly of other data. -/
theorem C206_stale_violated {ι : Type} (fs : Files (Stored ι)) (file : String) (fmt : Fmt)
    (hfmt : fmt.str = "json" ∨ fmt.str = "pickle") (hint : fmt.interned = true) (shuf0 : List ι → List ι)
    (shuf : ℕ × ℕ → List ι → List ι) (hs0 : IsShuffle shuf0) (minSplit : ℕ) (all : List ι)
    (h1 : all.length / 2 < minSplit) (h2 : minSplit < all.length) (old : Stored ι)
    (hold : fs (file ++ "." ++ fmt.str) = some old) :
    splitThenLoad fs file fmt shuf0 shuf minSplit none all = .ok old := by
  simp [splitThenLoad, splitAndWrite, C03_split_index_silent shuf0 shuf hs0 minSplit all h1 h2, loadSplit, hfmt, hint, hold]

/-- C206 is violated for a format given by a string that is not the literal itself (read from a file or put together): the
split is written and cannot be loaded, because `load_split` compares with `is`. -/
theorem C206_identity_violated {ι : Type} (fs : Files (Stored ι)) (file : String) (fmt : Fmt)
    (hfmt : fmt.str = "json" ∨ fmt.str = "pickle") (hint : fmt.interned = false) (d : Split ι) :
    ∃ fs', writeHierarchy fs file fmt d = .ok fs' ∧ fs' (file ++ "." ++ fmt.str) = some (items d) ∧
      loadSplit fs' file fmt = .error .notImpl := by
  refine ⟨_, by simp [writeHierarchy, hfmt]; rfl, by simp [Files.write], by simp [loadSplit, hint]⟩

example : IsShuffle (fun l : List ℕ => l.reverse) ∧ (List.range 5).length / 2 < 3 ∧ 3 < (List.range 5).length :=
  ⟨fun l => List.reverse_perm l, by decide, by decide⟩

/-! ### C207: the data behind the splits -/

private theorem toString_inj (a b : ℕ) (h : toString a = toString b) : a = b := by
  have h1 : a.repr.toList = b.repr.toList := congrArg String.toList h
  rw [Nat.toList_repr, Nat.toList_repr] at h1
  have := congrArg (fun l => Nat.ofDigitChars 10 l 0) h1
  simpa using this

private theorem names_nodup (d : ℕ) : ("uuid" :: columnNames d).Nodup := by
  have hf : ∀ i : ℕ, ("f" ++ toString i).toList = 'f' :: (toString i).toList := by
    intro i
    rw [String.toList_append]
    rfl
  have hu : ∀ i : ℕ, "f" ++ toString i ≠ "uuid" := by
    intro i h
    have := congrArg (fun s => s.toList.head?) h
    simp only [hf] at this
    have e : ("uuid" : String).toList = ['u', 'u', 'i', 'd'] := by decide
    rw [e] at this
    simp at this
  have ht : ∀ i : ℕ, "f" ++ toString i ≠ "target" := by
    intro i h
    have := congrArg (fun s => s.toList.head?) h
    simp only [hf] at this
    have e : ("target" : String).toList = ['t', 'a', 'r', 'g', 'e', 't'] := by decide
    rw [e] at this
    simp at this
  rw [List.nodup_cons]
  constructor
  · simp only [columnNames, List.mem_append, List.mem_map, List.mem_singleton, not_or, not_exists, not_and]
    exact ⟨fun i _ h => hu i h, by decide⟩
  · rw [columnNames, List.nodup_append]
    refine ⟨?_, by simp, ?_⟩
    · apply List.Nodup.map _ List.nodup_range
      intro a b h
      exact toString_inj a b ((String.append_right_inj _).1 h)
    · intro a ha b hb
      obtain ⟨i, -, rfl⟩ := List.mem_map.1 ha
      rw [List.mem_singleton] at hb
      subst hb
      exact ht i

/-- The row written for data point `k`. -/
private def row {V : Type} (uids : List String) (features : List (List V)) (targets : List V) (k : ℕ) :
    String × List (Option V) := (uids.getD k "", (features.getD k []).map some ++ [targets[k]?])

private theorem insertRows_ok {V : Type} (n : ℕ) (data : List (String × List V)) (rows : List (String × List (Option V)))
    (h : ∀ d ∈ data, d.2.length = n) :
    DB.insertRows n data rows = (rows ++ data.map fun d => (d.1, d.2.map some), none) := by
  induction data generalizing rows with
  | nil => simp [DB.insertRows]
  | cons d ds ih =>
    rw [DB.insertRows, if_pos (h d (by simp)), ih _ fun x hx => h x (by simp [hx])]
    simp

variable {V : Type}

/-- A data set: as many uuids, feature rows and targets, the rows all of `d` numbers. -/
structure DataSet (uids : List String) (d : ℕ) (features : List (List V)) (targets : List V) : Prop where
  uids_len : uids.length = features.length
  targets_len : targets.length = features.length
  cols : ∀ r ∈ features, r.length = d

private theorem data_rows {uids : List String} {d : ℕ} {features : List (List V)} {targets : List V}
    (h : DataSet uids d features targets) :
    ((uids.zip ((features.zip targets).map fun p => p.1 ++ [p.2])).map fun x => (x.1, x.2.map some)) =
      (List.range features.length).map (row uids features targets) := by
  apply List.ext_getElem
  · simp [h.uids_len, h.targets_len]
  · intro k h1 h2
    simp only [List.length_map, List.length_range] at h2
    have hu : k < uids.length := by rw [h.uids_len]; exact h2
    have ht : k < targets.length := by rw [h.targets_len]; exact h2
    simp [row, List.getElem?_eq_getElem hu, List.getElem?_eq_getElem h2, List.getElem?_eq_getElem ht]

private theorem data_len {uids : List String} {d : ℕ} {features : List (List V)} {targets : List V}
    (h : DataSet uids d features targets) :
    ∀ x ∈ uids.zip ((features.zip targets).map fun p => p.1 ++ [p.2]), x.2.length = (columnNames d).length := by
  intro x hx
  have h1 := (List.of_mem_zip hx).2
  obtain ⟨p, hp, he⟩ := List.mem_map.1 h1
  rw [← he]
  simp [columnNames, h.cols p.1 (List.of_mem_zip hp).1]

/-- What `todb` leaves in a fresh database. -/
private theorem todb_fresh {uids : List String} {d : ℕ} {features : List (List V)} {targets : List V}
    (h : DataSet uids d features targets) :
    todb uids d features targets none =
      (some ⟨columnNames d, (List.range features.length).map (row uids features targets)⟩, none) := by
  unfold todb
  rw [if_neg (by simp [h.targets_len])]
  simp only [DB.create, if_pos (names_nodup d), DB.fill, if_true]
  rw [insertRows_ok _ _ _ (data_len h), List.nil_append, data_rows h]

private theorem choose_idx {α : Type} (f : ℕ → α) (n : ℕ) (l : List α) (h : ∀ x ∈ l, x ∈ (List.range n).map f) :
    ∃ ks : List ℕ, l = ks.map f ∧ ∀ k ∈ ks, k < n := by
  induction l with
  | nil => exact ⟨[], rfl, by simp⟩
  | cons x l ih =>
    obtain ⟨ks, h1, h2⟩ := ih fun y hy => h y (by simp [hy])
    obtain ⟨k, hk, hx⟩ := List.mem_map.1 (h x (by simp))
    refine ⟨k :: ks, by simp [h1, hx], ?_⟩
    intro j hj
    rcases List.mem_cons.1 hj with rfl | hj
    · exact List.mem_range.1 hk
    · exact h2 j hj

private theorem row_keys {uids : List String} {d : ℕ} {features : List (List V)} {targets : List V}
    (h : DataSet uids d features targets) :
    ((List.range features.length).map (row uids features targets)).map Prod.fst = uids := by
  rw [List.map_map]
  apply List.ext_getElem
  · simp [h.uids_len]
  · intro k h1 h2
    simp [row, List.getElem?_eq_getElem h2]

/-- C207: the index of a database filled by `todb` is the list of the uuids, in the order of the data. -/
theorem C207_index {uids : List String} {d : ℕ} {features : List (List V)} {targets : List V}
    (h : DataSet uids d features targets) :
    ∃ s, todb uids d features targets none = (s, none) ∧ getIndex s = .ok uids := by
  refine ⟨_, todb_fresh h, ?_⟩
  simp only [getIndex, row_keys h]

private theorem subset_ok {uids : List String} {d : ℕ} {features : List (List V)} {targets : List V}
    (h : DataSet uids d features targets) (hu : uids.Nodup) (ids : List String) (hid : ids.Nodup) (hne : ids ≠ [])
    (hin : ∀ x ∈ ids, x ∈ uids) (hlen : ids.length ≤ 999 ∨ ¬ 999 ∣ ids.length) :
    ∃ ks : List ℕ, (ks.map fun k => uids.getD k "").Perm ids ∧ (∀ k ∈ ks, k < features.length) ∧
      subset (some ⟨columnNames d, (List.range features.length).map (row uids features targets)⟩) ids =
        .ok (ks.map fun k => targets[k]?, ks.map fun k => (features.getD k []).map some) := by
  have hk := row_keys h
  obtain ⟨rows, hr, hp, hm⟩ := C05_fetch_partial ((List.range features.length).map (row uids features targets)) ids
    (by rw [hk]; exact hu) hid (by rw [hk]; exact hin) hlen
  obtain ⟨ks, hks, hlt⟩ := choose_idx _ _ rows hm
  refine ⟨ks, ?_, hlt, ?_⟩
  · rw [hks, List.map_map] at hp
    exact hp
  · simp only [subset, hr]
    cases hrows : rows with
    | nil =>
      rw [hrows] at hp
      exact absurd (List.Perm.nil_eq hp).symm hne
    | cons r rs =>
      simp only [← hrows, hks, List.map_map]
      congr 2
      · apply List.map_congr_left
        intro k _
        simp [row]
      · apply List.map_congr_left
        intro k _
        simp [row]

/-- C207 (`_partial`: not for a multiple of 999 ids, C05): what is fetched for a list of uuids from a database filled by
`todb` are features and targets of the data points with these uuids, each once, features and targets of a point at the same
place. -/
theorem C207_subset_partial {uids : List String} {d : ℕ} {features : List (List V)} {targets : List V}
    (h : DataSet uids d features targets) (hu : uids.Nodup) (ids : List String) (hid : ids.Nodup) (hne : ids ≠ [])
    (hin : ∀ x ∈ ids, x ∈ uids) (hlen : ids.length ≤ 999 ∨ ¬ 999 ∣ ids.length) :
    ∃ s, todb uids d features targets none = (s, none) ∧
    ∃ ks : List ℕ, (ks.map fun k => uids.getD k "").Perm ids ∧ (∀ k ∈ ks, k < features.length) ∧
      subset s ids = .ok (ks.map fun k => targets[k]?, ks.map fun k => (features.getD k []).map some) :=
  ⟨_, todb_fresh h, subset_ok h hu ids hid hne hin hlen⟩

private theorem idx_nodup {uids : List String} (hu : uids.Nodup) (ks : List ℕ) (h : ∀ k ∈ ks, k < uids.length) (n : ℕ)
    (hn : n = uids.length) (hp : (ks.map fun k => uids.getD k "").Perm uids) : ks.Perm (List.range n) := by
  subst hn
  have h1 : ks.Nodup := by
    have h2 : (ks.map fun k => uids.getD k "").Nodup := hp.nodup_iff.2 hu
    exact List.Nodup.of_map _ h2
  rw [List.perm_ext_iff_of_nodup h1 List.nodup_range]
  intro k
  rw [List.mem_range]
  refine ⟨h k, fun hk => ?_⟩
  have h3 : uids[k] ∈ ks.map fun k => uids.getD k "" := hp.mem_iff.2 (List.getElem_mem _)
  obtain ⟨j, hj, he⟩ := List.mem_map.1 h3
  have hjl := h j hj
  rw [List.getD_eq_getElem _ _ hjl] at he
  rw [← (hu.getElem_inj_iff).1 he]
  exact hj

/-- C207 (`_partial`: subsets of 999·k points, k > 1, cannot be fetched): the whole path from arrays to subsets.  Data are
stored with `todb`, the index is split with `split_index`, and the subsets of each level are fetched with
`get_subset_data`: together they contain each data point exactly once, with its own target, whatever the shuffles and the
uuids. -/
theorem C207_levels_partial {uids : List String} {d : ℕ} {features : List (List V)} {targets : List V}
    (h : DataSet uids d features targets) (hu : uids.Nodup) (shuf0 : List String → List String)
    (shuf : ℕ × ℕ → List String → List String) (hs0 : IsShuffle shuf0) (hs : ∀ k, IsShuffle (shuf k)) (minSplit : ℕ)
    (hm : 0 < minSplit) (hlen : minSplit ≤ uids.length / 2)
    (h999 : ∀ n, minSplit ≤ n → 999 < n → n ≤ (uids.length + 1) / 2 → ¬ 999 ∣ n) :
    ∃ s c L, todb uids d features targets none = (s, none) ∧ 1 ≤ L ∧
      splitIndex shuf0 shuf minSplit none uids = .ok (some c) ∧
      ∀ l, 1 ≤ l → l ≤ L → ∃ ks : List (List ℕ), ks.length = 2 ^ l ∧ ks.flatten.Perm (List.range features.length) ∧
        ∀ (j : ℕ) (k : List ℕ), ks[j]? = some k → minSplit ≤ k.length ∧
          getSubsetData s (items c) (l, j + 1) none =
            .ok ((k.map fun i => targets[i]?, k.map fun i => (features.getD i []).map some), (l, j + 1)) := by
  obtain ⟨c, L, hc, hg⟩ := C03_split_index shuf0 shuf hs0 hs minSplit hm uids hlen
  refine ⟨_, c, L, todb_fresh h, hg.levels, hc, fun l h1 h2 => ?_⟩
  have hpart := hg.partition l h1 h2
  have hmem : ∀ j < 2 ^ l, ∀ x ∈ c.val (l, j + 1), x ∈ uids := by
    intro j hj x hx
    refine hpart.mem_iff.1 (List.mem_flatten.2 ⟨_, List.mem_map.2 ⟨j, List.mem_range.2 hj, rfl⟩, hx⟩)
  have hnd : ∀ j < 2 ^ l, (c.val (l, j + 1)).Nodup := by
    intro j hj
    have h3 : (((List.range (2 ^ l)).map fun j => c.val (l, j + 1)).flatten).Nodup := hpart.nodup_iff.2 hu
    rw [List.nodup_flatten] at h3
    exact h3.1 _ (List.mem_map.2 ⟨j, List.mem_range.2 hj, rfl⟩)
  have hkey : ∀ j < 2 ^ l, (l, j + 1) ∈ c.keys := by
    intro j hj
    rw [hg.keys_eq, hierarchyKeys, List.mem_flatMap]
    refine ⟨l - 1, List.mem_range.2 (by omega), ?_⟩
    rw [Nat.sub_add_cancel h1]
    exact List.mem_map.2 ⟨j, List.mem_range.2 hj, rfl⟩
  have hsz : ∀ j < 2 ^ l, minSplit ≤ (c.val (l, j + 1)).length ∧ (c.val (l, j + 1)).length ≤ (uids.length + 1) / 2 := by
    intro j hj
    refine ⟨hg.large l (j + 1) h1 h2 (by omega) (by omega), ?_⟩
    obtain ⟨j', hj', hle⟩ : ∃ j', (j' = 1 ∨ j' = 2) ∧ (c.val (l, j + 1)).length ≤ (c.val (1, j')).length := by
      clear hmem hnd hkey hpart
      induction l, h1 using Nat.le_induction generalizing j with
      | base => exact ⟨j + 1, by omega, le_refl _⟩
      | succ l hl ih =>
        obtain ⟨j', hj', hle⟩ := ih (by omega) (j / 2) (by rw [pow_succ] at hj; omega)
        refine ⟨j', hj', le_trans ?_ hle⟩
        have hn := (hg.nested l (j / 2 + 1) hl (by omega) (by omega) (by rw [pow_succ] at hj; omega)).length_eq
        rw [List.length_append] at hn
        rcases Nat.even_or_odd' j with ⟨q, rfl | rfl⟩
        · rw [show 2 * q / 2 = q by omega] at hn ⊢
          rw [show 2 * (q + 1) - 1 = 2 * q + 1 by omega] at hn
          omega
        · rw [show (2 * q + 1) / 2 = q by omega] at hn ⊢
          rw [show 2 * (q + 1) = 2 * q + 1 + 1 by omega] at hn
          omega
    have hs1 := hg.sizes 1 j' le_rfl hg.levels (by omega) (by omega)
    have hp1 := (hg.partition 1 le_rfl hg.levels).length_eq
    simp [List.range_succ] at hp1
    rcases hj' with rfl | rfl
    · have hs2 := hg.sizes 1 2 le_rfl hg.levels (by omega) (by omega)
      simp at hs1 hs2
      omega
    · have hs2 := hg.sizes 1 1 le_rfl hg.levels (by omega) (by omega)
      simp at hs1 hs2
      omega
  have hsub : ∀ j, ∃ ks : List ℕ, j < 2 ^ l → (ks.map fun k => uids.getD k "").Perm (c.val (l, j + 1)) ∧
      (∀ k ∈ ks, k < features.length) ∧
      subset (some ⟨columnNames d, (List.range features.length).map (row uids features targets)⟩) (c.val (l, j + 1)) =
        .ok (ks.map fun k => targets[k]?, ks.map fun k => (features.getD k []).map some) := by
    intro j
    by_cases hj : j < 2 ^ l
    · obtain ⟨hs1, hs2⟩ := hsz j hj
      obtain ⟨ks, hks⟩ := subset_ok h hu (c.val (l, j + 1)) (hnd j hj)
        (List.length_pos_iff.1 (by omega)) (hmem j hj) (by
          by_cases h9 : (c.val (l, j + 1)).length ≤ 999
          · exact Or.inl h9
          · exact Or.inr (h999 _ hs1 (by omega) hs2))
      exact ⟨ks, fun _ => hks⟩
    · exact ⟨[], fun h => absurd h hj⟩
  choose f hf using hsub
  refine ⟨(List.range (2 ^ l)).map f, by simp, ?_, ?_⟩
  · apply idx_nodup hu _ _ _ h.uids_len.symm
    · rw [List.map_flatten, List.map_map]
      refine List.Perm.trans ?_ hpart
      have hz : ∀ L : List ℕ, (∀ j ∈ L, j < 2 ^ l) →
          ((L.map ((List.map fun k => uids.getD k "") ∘ f)).flatten).Perm ((L.map fun j => c.val (l, j + 1)).flatten) := by
        intro L
        induction L with
        | nil => intro _; simp
        | cons a L ih =>
          intro hL
          simp only [List.map_cons, List.flatten_cons, Function.comp_apply]
          exact (hf a (hL a (by simp))).1.append (ih fun j hj => hL j (by simp [hj]))
      exact hz _ fun j hj => List.mem_range.1 hj
    · intro k hk
      obtain ⟨ks, hks, hk'⟩ := List.mem_flatten.1 hk
      obtain ⟨j, hj, rfl⟩ := List.mem_map.1 hks
      rw [h.uids_len]
      exact (hf j (List.mem_range.1 hj)).2.1 k hk'
  · intro j k hjk
    rw [List.getElem?_map] at hjk
    have hj : j < 2 ^ l := by
      by_contra hcon
      rw [List.getElem?_eq_none (by simpa using hcon)] at hjk
      cases hjk
    rw [List.getElem?_range hj] at hjk
    cases hjk
    obtain ⟨e1, -, e3⟩ := hf j hj
    refine ⟨?_, ?_⟩
    · have := e1.length_eq
      rw [List.length_map] at this
      rw [this]
      exact (hsz j hj).1
    · simp only [getSubsetData, Option.getD_none, lookup_items c _ (hkey j hj), e3]

example : DataSet ["a", "b", "c", "d"] 2 [[1, 2], [3, 4], [5, 6], [7, 8]] [10, 20, 30, 40] ∧
    ["a", "b", "c", "d"].Nodup ∧ 1 ≤ ["a", "b", "c", "d"].length / 2 := by
  refine ⟨⟨by simp, by simp, by simp⟩, by decide, by decide⟩

/-- C207: arrays of different lengths are refused and nothing is stored; a subset without points, or with a point that is not stored, is
refused as well. -/
theorem C207_refused (uids : List String) (d : ℕ) (features : List (List V)) (targets : List V) (s : DB.Store V) :
    (features.length ≠ targets.length → todb uids d features targets s = (s, some .value)) ∧ (∃ e, subset s [] = .error e) ∧
      ∀ t, s = some t → (t.rows.map Prod.fst).Nodup → ∀ ids : List String, ids.Nodup → ∀ x ∈ ids, x ∉ t.rows.map Prod.fst →
        ∃ e, subset s ids = .error e := by
  refine ⟨fun h => by simp [todb, h], ?_, ?_⟩
  · cases s with
    | none => exact ⟨_, rfl⟩
    | some t => exact ⟨.index, by simp [subset, compileSplit, getData, sqliteLimit, bind, Except.bind, pure, Except.pure]⟩
  · rintro t rfl ht ids hid x hx hm
    obtain ⟨⟨e, he⟩, -⟩ := C05_fetch_missing t.rows ids ht hid x hx hm
    exact ⟨e, by simp only [subset, he]⟩

/-- One stored row: two features for one target are refused, so is a subset with another point. -/
example : todb ["p"] 1 [[1], [2]] [(3 : ℕ)] none = (none, some .value) ∧
    ∃ e, subset (some ⟨["f0", "target"], [("p", [some 1, some 3])]⟩ : DB.Store ℕ) ["q"] = .error e :=
  ⟨(C207_refused ["p"] 1 [[1], [2]] [(3 : ℕ)] none).1 (by decide),
    (C207_refused ["p"] 1 [[1]] [(3 : ℕ)] (some ⟨["f0", "target"], [("p", [some 1, some 3])]⟩)).2.2 _ rfl (by decide) ["q"] (by decide) "q" (by decide) (by decide)⟩

/-- C207: with `split` the data of another subset of the level are returned, with the label of the subset asked for. -/
theorem C207_other_subset (s : DB.Store V) (c : Stored String) (key : ℕ × ℕ) (j : ℕ) :
    getSubsetData s c key (some j) = (getSubsetData s c (key.1, j) none).map fun r => (r.1, key) := by
  simp only [getSubsetData, Option.getD_some, Option.getD_none]
  cases c.lookup (key.1, j) with
  | none => rfl
  | some ids =>
    cases h : subset s ids with
    | error e => simp [h, Except.map]
    | ok r => simp [h, Except.map]

/-- C207 (`_partial` as above): `globalscaledata` returns the features of every data point once, and features and targets of
the first half, which are its first rows. -/
theorem C207_global_partial {uids : List String} {d : ℕ} {features : List (List V)} {targets : List V}
    (h : DataSet uids d features targets) (hu : uids.Nodup) (c : Stored String) (a b : List String)
    (ha : c.lookup (1, 1) = some a) (hb : c.lookup (1, 2) = some b) (hab : (a ++ b).Perm uids) (hane : a ≠ []) (hbne : b ≠ [])
    (h9 : ∀ l ∈ [a, b], l.length ≤ 999 ∨ ¬ 999 ∣ l.length) :
    ∃ s, todb uids d features targets none = (s, none) ∧ ∃ ka kb : List ℕ, (ka ++ kb).Perm (List.range features.length) ∧
      globalScaleData s c = .ok ((ka ++ kb).map fun k => (features.getD k []).map some,
        ka.map fun k => (features.getD k []).map some, ka.map fun k => targets[k]?) := by
  refine ⟨_, todb_fresh h, ?_⟩
  have hnd := hab.nodup_iff.2 hu
  rw [List.nodup_append] at hnd
  obtain ⟨ka, p1, l1, e1⟩ := subset_ok h hu a hnd.1 hane (fun x hx => hab.mem_iff.1 (by simp [hx])) (h9 a (by simp))
  obtain ⟨kb, p2, l2, e2⟩ := subset_ok h hu b hnd.2.1 hbne (fun x hx => hab.mem_iff.1 (by simp [hx])) (h9 b (by simp))
  refine ⟨ka, kb, ?_, ?_⟩
  · apply idx_nodup hu _ _ _ h.uids_len.symm
    · rw [List.map_append]
      exact (p1.append p2).trans hab
    · intro k hk
      rw [h.uids_len]
      rcases List.mem_append.1 hk with hk | hk
      · exact l1 k hk
      · exact l2 k hk
  · simp only [globalScaleData, ha, hb, e1, e2, List.map_append]

/-- C207 is violated by a second `todb` on the same database (running a script twice): the table is kept and the data are
appended with new uuids, so every data point is in the index twice and can be in a training and a test subset at once. -/
theorem C207_twice_violated {uids uids' : List String} {d : ℕ} {features : List (List V)} {targets : List V}
    (h : DataSet uids d features targets) (h' : DataSet uids' d features targets) (hu : (uids ++ uids').Nodup) (k : ℕ)
    (hk : k < features.length) :
    ∃ s s', todb uids d features targets none = (s, none) ∧ todb uids' d features targets s = (s', none) ∧
      getIndex s' = .ok (uids ++ uids') ∧ subset s' [uids.getD k ""] = subset s' [uids'.getD k ""] ∧
      uids.getD k "" ≠ uids'.getD k "" ∧
      subset s' [uids.getD k ""] = .ok ([targets[k]?], [(features.getD k []).map some]) := by
  have e2 : todb uids' d features targets
      (some ⟨columnNames d, (List.range features.length).map (row uids features targets)⟩) =
      (some ⟨columnNames d, (List.range features.length).map (row uids features targets) ++
        (List.range features.length).map (row uids' features targets)⟩, none) := by
    unfold todb
    rw [if_neg (by simp [h.targets_len])]
    simp only [DB.create, DB.fill, if_true]
    rw [insertRows_ok _ _ _ (data_len h'), data_rows h']
  have hkeys : (((List.range features.length).map (row uids features targets) ++
        (List.range features.length).map (row uids' features targets)).map Prod.fst) = uids ++ uids' := by
    rw [List.map_append, row_keys h, row_keys h']
  have hku : k < uids.length := by rw [h.uids_len]; exact hk
  have hku' : k < uids'.length := by rw [h'.uids_len]; exact hk
  have one : ∀ (x : String) (r : String × List (Option V)), r.1 = x → r ∈ (List.range features.length).map (row uids features targets) ++
        (List.range features.length).map (row uids' features targets) →
      subset (some ⟨columnNames d, (List.range features.length).map (row uids features targets) ++
        (List.range features.length).map (row uids' features targets)⟩) [x] = .ok ([r.2.getLast?.join], [r.2.dropLast]) := by
    intro x r hr hm
    subst hr
    obtain ⟨rows, e, hp, hrm⟩ := C05_fetch_partial ((List.range features.length).map (row uids features targets) ++
        (List.range features.length).map (row uids' features targets)) [r.1] (by rw [hkeys]; exact hu) (by simp)
        (by intro y hy; rw [List.mem_singleton] at hy; subst hy; exact List.mem_map.2 ⟨r, hm, rfl⟩) (Or.inl (by simp))
    have hl := hp.length_eq
    rw [List.length_map, List.length_singleton] at hl
    obtain ⟨q, rfl⟩ := List.length_eq_one_iff.1 hl
    have hq : q.1 = r.1 := by
      have := hp.mem_iff.1 (List.mem_map.2 ⟨q, by simp, rfl⟩)
      simpa using this
    have hqr : q = r := by
      have hn : (((List.range features.length).map (row uids features targets) ++
        (List.range features.length).map (row uids' features targets)).map Prod.fst).Nodup := by rw [hkeys]; exact hu
      exact List.inj_on_of_nodup_map hn (hrm q (by simp)) hm hq
    subst hqr
    simp only [subset, e, List.map_cons, List.map_nil]
  have r1 : row uids features targets k ∈ (List.range features.length).map (row uids features targets) ++
        (List.range features.length).map (row uids' features targets) :=
    List.mem_append_left _ (List.mem_map.2 ⟨k, List.mem_range.2 hk, rfl⟩)
  have r2 : row uids' features targets k ∈ (List.range features.length).map (row uids features targets) ++
        (List.range features.length).map (row uids' features targets) :=
    List.mem_append_right _ (List.mem_map.2 ⟨k, List.mem_range.2 hk, rfl⟩)
  refine ⟨_, _, todb_fresh h, e2, ?_, ?_, ?_, ?_⟩
  · simp only [getIndex, hkeys]
  · rw [one (uids.getD k "") _ rfl r1, one (uids'.getD k "") _ rfl r2]
    simp [row]
  · rw [List.getD_eq_getElem _ _ hku, List.getD_eq_getElem _ _ hku']
    rw [List.nodup_append] at hu
    exact hu.2.2 _ (List.getElem_mem _) _ (List.getElem_mem _)
  · rw [one (uids.getD k "") _ rfl r1]
    simp [row]

end CatLearn.SplitFiles
