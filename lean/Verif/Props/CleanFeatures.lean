import Verif.Model.CleanExt
import Verif.Props.Clean
import Verif.Props.ScreeningFeatures

/-!
# C261: cleaning and the order of the features
-/

namespace CatLearn.Props

open CatLearn CatLearn.Clean

variable {d : ℕ}

/-- A list read at the given positions. -/
def readAt {α : Type} (p : List ℕ) (l : List α) : List α := p.filterMap fun k => l[k]?

/-- Cleaning the reordered data is reordering the cleaned data: both calls raise the same error, or the flags of the features are those of the moved features, and
one permutation `p` of the kept features leads from one result to the other, for the training data, the test data and the labels alike. -/
def Follows {V L : Type} (σ : Equiv.Perm (Fin d)) (R R' : Except PyErr (Cleaned V L)) : Prop :=
  (∃ e, R = .error e ∧ R' = .error e) ∨
  ∃ c c' p, R = .ok c ∧ R' = .ok c' ∧ c.index.length = d ∧ c'.index.length = d ∧ (∀ i : Fin d, c'.index[(i : ℕ)]? = c.index[(σ i : ℕ)]?) ∧
    p.Perm (List.range (c.index.count true)) ∧ c'.train = c.train.map (readAt p) ∧ c'.test = c.test.map (fun t => t.map (readAt p)) ∧
    c'.labels = c.labels.map (readAt p) ∧ c'.targets = c.targets

private theorem truePos_ofFn (b : Fin d → Bool) : truePos (List.ofFn b) = (List.range d).filter fun j => if h : j < d then b ⟨j, h⟩ else false := by
  unfold truePos
  rw [List.length_ofFn]
  refine List.filter_congr fun j hj => ?_
  have hj' : j < d := List.mem_range.mp hj
  simp [hj']

private theorem moved_fin (σ : Equiv.Perm (Fin d)) {i : ℕ} (h : i < d) : moved σ i = (σ ⟨i, h⟩ : ℕ) := by
  unfold moved
  rw [dif_pos h]

private theorem truePos_moved (σ : Equiv.Perm (Fin d)) (b : Fin d → Bool) :
    ((truePos (List.ofFn fun i => b (σ i))).map (moved σ)).Perm (truePos (List.ofFn b)) := by
  rw [truePos_ofFn, truePos_ofFn]
  have h2 : ((List.range d).filter fun j => if h : j < d then b (σ ⟨j, h⟩) else false).map (moved σ) =
      ((List.range d).map (moved σ)).filter fun j => if h : j < d then b ⟨j, h⟩ else false := by
    rw [List.filter_map]
    congr 1
    refine List.filter_congr fun i hi => ?_
    have hi' : i < d := List.mem_range.mp hi
    rw [Function.comp_apply, dif_pos hi', dif_pos (moved_lt σ hi')]
    congr 1
    exact Fin.ext (moved_fin σ hi').symm
  rw [h2]
  exact (range_moved σ).filter _

private theorem truePos_lt (b : Fin d → Bool) {j : ℕ} (h : j ∈ truePos (List.ofFn b)) : j < d := by
  rw [truePos_ofFn] at h
  exact List.mem_range.mp (List.mem_filter.mp h).1

private theorem truePos_count (b : List Bool) : (truePos b).length = b.count true := by
  have key : ∀ (l : List Bool), ((List.range l.length).filter fun j => l[j]?.getD false).length = l.count true := by
    intro l
    induction l using List.reverseRecOn with
    | nil => rfl
    | append_singleton l a ih =>
      rw [List.length_append, List.length_singleton, List.range_succ, List.filter_append, List.length_append, List.count_append, ← ih]
      congr 1
      · congr 1
        refine List.filter_congr fun j hj => ?_
        have := List.mem_range.mp hj
        rw [List.getElem?_append_left this]
      · cases a <;> simp
  exact key b

/-- The permutation of the kept features. -/
private def perm (σ : Equiv.Perm (Fin d)) (b : Fin d → Bool) : List ℕ :=
  (truePos (List.ofFn fun i => b (σ i))).map fun i => (truePos (List.ofFn b)).idxOf (moved σ i)

private theorem perm_range (σ : Equiv.Perm (Fin d)) (b : Fin d → Bool) : (perm σ b).Perm (List.range ((List.ofFn b).count true)) := by
  have hp := truePos_moved σ b
  have hmem : ∀ i ∈ truePos (List.ofFn fun i => b (σ i)), moved σ i ∈ truePos (List.ofFn b) := fun i hi =>
    hp.mem_iff.mp (List.mem_map_of_mem hi)
  rw [← truePos_count]
  have hnd : (perm σ b).Nodup := by
    refine List.Nodup.map_on ?_ (List.nodup_range.filter _)
    intro i hi j hj h
    have := (List.idxOf_inj (hmem i hi)).mp h
    exact moved_inj σ (truePos_lt _ hi) (truePos_lt _ hj) this
  refine (List.subperm_of_subset hnd ?_).perm_of_length_le ?_
  · intro x hx
    obtain ⟨i, hi, rfl⟩ := List.mem_map.mp hx
    exact List.mem_range.mpr (List.idxOf_lt_length_of_mem (hmem i hi))
  · have := hp.length_eq
    simp only [List.length_map] at this
    simp only [perm, List.length_map, List.length_range, this, le_refl]

private theorem boolIndex_ofFn {α : Type} (b : Fin d → Bool) (v : Fin d → α) :
    boolIndex (List.ofFn b) (List.ofFn v) = (truePos (List.ofFn b)).filterMap fun j => if h : j < d then some (v ⟨j, h⟩) else none := by
  unfold boolIndex
  refine List.filterMap_congr fun j hj => ?_
  have hj' := truePos_lt b hj
  simp [hj']

private theorem filterMap_getElem? {α : Type} (l : List ℕ) (f : ℕ → α) (g : ℕ → Option α) (h : ∀ j ∈ l, g j = some (f j)) : l.filterMap g = l.map f := by
  induction l with
  | nil => rfl
  | cons a l ih =>
    rw [List.filterMap_cons, h a (by simp), List.map_cons, ih fun j hj => h j (by simp [hj])]

private theorem boolIndex_moved {α : Type} (σ : Equiv.Perm (Fin d)) (b : Fin d → Bool) (v : Fin d → α) :
    boolIndex (List.ofFn fun i => b (σ i)) (List.ofFn fun i => v (σ i)) = readAt (perm σ b) (boolIndex (List.ofFn b) (List.ofFn v)) := by
  have hp := truePos_moved σ b
  rw [boolIndex_ofFn, boolIndex_ofFn]
  unfold readAt perm
  rw [List.filterMap_map]
  refine List.filterMap_congr fun i hi => ?_
  have hi' := truePos_lt _ hi
  have hm : moved σ i ∈ truePos (List.ofFn b) := hp.mem_iff.mp (List.mem_map_of_mem hi)
  have hlt := List.idxOf_lt_length_of_mem hm
  have hd : 0 < d := by omega
  rw [dif_pos hi', Function.comp_apply,
    filterMap_getElem? (truePos (List.ofFn b)) (fun j => if h : j < d then v ⟨j, h⟩ else v ⟨0, hd⟩) _ (by
      intro j hj
      have := truePos_lt b hj
      simp [this]), List.getElem?_map, List.getElem?_eq_getElem hlt, List.getElem_idxOf hlt, Option.map_some, dif_pos (moved_lt σ hi')]
  congr 2
  exact Fin.ext (moved_fin σ hi').symm

private theorem range_ofFn {β : Type} (f : ℕ → β) : (List.range d).map f = List.ofFn fun i : Fin d => f i := by
  refine List.ext_getElem (by simp) fun i h1 h2 => by simp

private theorem column_ofFn {V : Type} (X : List (Fin d → V)) (j : Fin d) : column (X.map List.ofFn) j = X.map fun r => r j := by
  unfold column
  induction X with
  | nil => rfl
  | cons r X ih =>
    rw [List.map_cons, List.filterMap_cons, ih]
    simp

private theorem all_ofFn {V : Type} (X : List (Fin d → V)) : (X.map List.ofFn).all (fun r => r.length == d) = true := by
  simp

private theorem select_follows {V L : Type} (σ : Equiv.Perm (Fin d)) (b : Fin d → Bool) (train : List (Fin d → V)) (test : Option (List (Fin d → V)))
    (labels : Option (Fin d → L)) :
    Follows σ (selectColumns d (List.ofFn b) (train.map List.ofFn) (test.map fun t => t.map List.ofFn) (labels.map List.ofFn))
      (selectColumns d (List.ofFn fun i => b (σ i)) ((train.map fun r i => r (σ i)).map List.ofFn)
        (test.map fun t => (t.map fun r i => r (σ i)).map List.ofFn) (labels.map fun l => List.ofFn fun i => l (σ i))) := by
  have hrows : ∀ X : List (Fin d → V), ((X.map fun r i => r (σ i)).map List.ofFn).map (boolIndex (List.ofFn fun i => b (σ i))) =
      ((X.map List.ofFn).map (boolIndex (List.ofFn b))).map (readAt (perm σ b)) := by
    intro X
    simp only [List.map_map]
    refine List.map_congr_left fun r _ => ?_
    exact boolIndex_moved σ b r
  right
  unfold selectColumns
  cases test <;> cases labels <;>
    simp only [Option.map_none, Option.map_some, all_ofFn, List.length_ofFn, if_true, bind, Except.bind, pure, Except.pure] <;>
    exact ⟨_, _, perm σ b, rfl, rfl, by simp, by simp, fun i => by simp, perm_range σ b, hrows _, by simp only [Option.map_none, Option.map_some, hrows],
      by simp only [Option.map_none, Option.map_some, boolIndex_moved], rfl⟩

/-- C261 for `clean_variance`. -/
theorem C261_variance {L : Type} (σ : Equiv.Perm (Fin d)) (train : List (Fin d → Option ℝ)) (test : Option (List (Fin d → Option ℝ)))
    (labels : Option (Fin d → L)) (mask mask' : Option (List ℕ)) :
    Follows σ (cleanVariance d (train.map List.ofFn) (test.map fun t => t.map List.ofFn) (labels.map List.ofFn) mask)
      (cleanVariance d ((train.map fun r i => r (σ i)).map List.ofFn) (test.map fun t => (t.map fun r i => r (σ i)).map List.ofFn)
        (labels.map fun l => List.ofFn fun i => l (σ i)) mask') := by
  have h := select_follows σ (fun j => !isCloseZero (nanStd (train.map fun r => r j))) train test labels
  have e : ∀ i, (train.map fun r i => r (σ i)).map (fun r => r i) = train.map fun r => r (σ i) := fun i => by rw [List.map_map]; rfl
  unfold cleanVariance
  simp only [range_ofFn, column_ofFn, e]
  exact h

/-- C261 for `clean_skewness`. -/
theorem C261_skewness {V L : Type} (skew : List V → Option ℝ) (σ : Equiv.Perm (Fin d)) (train : List (Fin d → V)) (test : Option (List (Fin d → V)))
    (labels : Option (Fin d → L)) (mask mask' : Option (List ℕ)) (s : ℝ) :
    Follows σ (cleanSkewness skew d (train.map List.ofFn) (test.map fun t => t.map List.ofFn) (labels.map List.ofFn) mask s)
      (cleanSkewness skew d ((train.map fun r i => r (σ i)).map List.ofFn) (test.map fun t => (t.map fun r i => r (σ i)).map List.ofFn)
        (labels.map fun l => List.ofFn fun i => l (σ i)) mask' s) := by
  classical
  have h := select_follows σ (fun j => match skew (train.map fun r => r j) with
    | none => false
    | some v => decide (|v| < s)) train test labels
  have e : ∀ i, (train.map fun r i => r (σ i)).map (fun r => r i) = train.map fun r => r (σ i) := fun i => by rw [List.map_map]; rfl
  unfold cleanSkewness
  simp only [range_ofFn, column_ofFn, e]
  convert h using 3
  all_goals
    congr! 1

private theorem boolIndex_map {α β : Type} (mask : List Bool) (f : α → β) (l : List α) : boolIndex mask (l.map f) = (boolIndex mask l).map f := by
  unfold boolIndex
  rw [List.map_filterMap]
  refine List.filterMap_congr fun j _ => ?_
  rw [List.getElem?_map]

private theorem finiteCols_ofFn {V : Type} (X : List (Fin d → Option V)) (mask : Option (List (Fin d))) :
    finiteCols d (X.map List.ofFn) (mask.map (List.map Fin.val)) =
      .ok (List.ofFn fun j => decide (∃ m ∈ mask, j ∈ m) || X.all fun r => (r j).isSome) := by
  have e : ((List.range d).map fun j => (X.map List.ofFn).all fun r => (r[j]?).any Option.isSome) = List.ofFn fun j : Fin d => X.all fun r => (r j).isSome := by
    rw [range_ofFn]
    congr 1
    funext j
    rw [List.all_map]
    refine congrArg (fun f => List.all X f) ?_
    funext r
    simp
  unfold finiteCols
  cases mask with
  | none =>
    simp only [Option.map_none, e]
    simp
  | some m =>
    have hm : (m.map Fin.val).all (fun x => decide (x < d)) = true := by simp
    simp only [Option.map_some, hm, if_true, e]
    congr 1
    refine List.ext_getElem? fun i => ?_
    by_cases hi : i < d
    · rw [foldl_set_getElem _ _ _ (by simpa using hi)]
      simp only [List.getElem_ofFn, List.getElem?_ofFn, hi, dif_pos]
      congr 2
      simp only [List.mem_map, Option.mem_def, Option.some.injEq, exists_eq_left', decide_eq_decide]
      exact ⟨fun ⟨a, ha, h⟩ => by
        have : a = ⟨i, hi⟩ := Fin.ext h
        rwa [← this], fun h => ⟨_, h, rfl⟩⟩
    · rw [List.getElem?_eq_none (by rw [foldl_set_length]; simpa using hi), List.getElem?_eq_none (by simpa using hi)]

/-- C261 for `clean_infinite`; the features that must be kept (`mask`) are renumbered with the others. -/
theorem C261_infinite {V L : Type} (σ : Equiv.Perm (Fin d)) (train : List (Fin d → Option V)) (test : Option (List (Fin d → Option V)))
    (targets : Option (List (Option V))) (labels : Option (Fin d → L)) (mask : Option (List (Fin d))) :
    Follows σ (cleanInfinite d (train.map List.ofFn) (test.map fun t => t.map List.ofFn) targets (labels.map List.ofFn) (mask.map (List.map Fin.val)))
      (cleanInfinite d ((train.map fun r i => r (σ i)).map List.ofFn) (test.map fun t => (t.map fun r i => r (σ i)).map List.ofFn) targets
        (labels.map fun l => List.ofFn fun i => l (σ i)) ((mask.map (List.map σ.symm)).map (List.map Fin.val))) := by
  -- after the rows are chosen
  have key : ∀ (X : List (Fin d → Option V)) (u : Option (List (Option V))),
      Follows σ
        (do let index ← finiteCols d (X.map List.ofFn) (mask.map (List.map Fin.val))
            let r ← selectColumns d index (X.map List.ofFn) (test.map fun t => t.map List.ofFn) (labels.map List.ofFn)
            pure ({ r with targets := u } : Cleaned (Option V) L))
        (do let index ← finiteCols d ((X.map fun r i => r (σ i)).map List.ofFn) ((mask.map (List.map σ.symm)).map (List.map Fin.val))
            let r ← selectColumns d index ((X.map fun r i => r (σ i)).map List.ofFn) (test.map fun t => (t.map fun r i => r (σ i)).map List.ofFn)
              (labels.map fun l => List.ofFn fun i => l (σ i))
            pure ({ r with targets := u } : Cleaned (Option V) L)) := by
    intro X u
    rw [finiteCols_ofFn, finiteCols_ofFn]
    have hb : (fun j => decide (∃ m ∈ mask.map (List.map σ.symm), j ∈ m) || (X.map fun r i => r (σ i)).all fun r => (r j).isSome) =
        fun j => (fun j => decide (∃ m ∈ mask, j ∈ m) || X.all fun r => (r j).isSome) (σ j) := by
      funext j
      rw [List.all_map]
      congr 1
      rw [decide_eq_decide]
      constructor
      · rintro ⟨m, hm, hj⟩
        obtain ⟨m', hm', rfl⟩ := Option.map_eq_some_iff.mp hm
        obtain ⟨a, ha, rfl⟩ := List.mem_map.mp hj
        exact ⟨m', hm', by simpa using ha⟩
      · rintro ⟨m, hm, hj⟩
        exact ⟨m.map σ.symm, Option.map_eq_some_iff.mpr ⟨m, hm, rfl⟩, List.mem_map.mpr ⟨σ j, hj, by simp⟩⟩
    rw [hb]
    rcases select_follows σ (fun j => decide (∃ m ∈ mask, j ∈ m) || X.all fun r => (r j).isSome) X test labels with
      ⟨e, h1, h2⟩ | ⟨c, c', p, h1, h2, h3, h4, h5, h6, h7, h8, h9, _⟩
    · left
      exact ⟨e, by simp only [bind, Except.bind, h1], by simp only [bind, Except.bind, h2]⟩
    · right
      exact ⟨{ c with targets := u }, { c' with targets := u }, p, by simp only [bind, Except.bind, h1, pure, Except.pure],
        by simp only [bind, Except.bind, h2, pure, Except.pure], h3, h4, h5, h6, h7, h8, h9, rfl⟩
  have step : ∀ (X : List (Fin d → Option V)) (u : Option (List (Option V))) (te : Option (List (Fin d → Option V))) (la : Option (Fin d → L)) (mk : Option (List ℕ)),
      (do let index ← finiteCols d (X.map List.ofFn) mk
          let test' ← match te.map fun t => t.map List.ofFn with
            | none => pure none
            | some t => if t.all (fun r => r.length == d) then pure (some (t.map (boolIndex index))) else throw .assertion
          let labels' ← match la.map List.ofFn with
            | none => pure none
            | some l => if l.length = d then pure (some (boolIndex index l)) else throw .assertion
          pure ⟨index, (X.map List.ofFn).map (boolIndex index), test', u, labels'⟩ : Except PyErr (Cleaned (Option V) L)) =
        (do let index ← finiteCols d (X.map List.ofFn) mk
            let r ← selectColumns d index (X.map List.ofFn) (te.map fun t => t.map List.ofFn) (la.map List.ofFn)
            pure ({ r with targets := u } : Cleaned (Option V) L)) := by
    intro X u te la mk
    cases finiteCols d (X.map List.ofFn) mk with
    | error e => rfl
    | ok index =>
      unfold selectColumns
      cases te <;> cases la <;>
        simp only [Option.map_none, Option.map_some, all_ofFn, List.length_ofFn, if_true, bind, Except.bind, pure, Except.pure]
  have htest : (test.map fun t => (t.map fun r i => r (σ i)).map List.ofFn) = (test.map fun t => t.map fun r (i : Fin d) => r (σ i)).map fun t => t.map List.ofFn := by
    cases test <;> rfl
  have hlab : (labels.map fun l => List.ofFn fun i => l (σ i)) = (labels.map fun l (i : Fin d) => l (σ i)).map List.ofFn := by
    cases labels <;> rfl
  have run : ∀ (X : List (Fin d → Option V)) (te : Option (List (Fin d → Option V))) (la : Option (Fin d → L)) (mk : Option (List ℕ)),
      cleanInfinite d (X.map List.ofFn) (te.map fun t => t.map List.ofFn) targets (la.map List.ofFn) mk =
        match targets with
        | none => (do let index ← finiteCols d (X.map List.ofFn) mk
                      let r ← selectColumns d index (X.map List.ofFn) (te.map fun t => t.map List.ofFn) (la.map List.ofFn)
                      pure ({ r with targets := none } : Cleaned (Option V) L))
        | some t => if X.length ≠ t.length then .error .index else
            (do let index ← finiteCols d ((boolIndex (t.map Option.isSome) X).map List.ofFn) mk
                let r ← selectColumns d index ((boolIndex (t.map Option.isSome) X).map List.ofFn) (te.map fun t => t.map List.ofFn) (la.map List.ofFn)
                pure ({ r with targets := some (boolIndex (t.map Option.isSome) t) } : Cleaned (Option V) L)) := by
    intro X te la mk
    unfold cleanInfinite finiteRows
    cases targets with
    | none => exact step X none te la mk
    | some t =>
      by_cases hl : X.length = t.length
      · simp only [List.length_map, hl, ne_eq, not_true_eq_false, if_false]
        rw [boolIndex_map]
        exact step (boolIndex (t.map Option.isSome) X) _ te la mk
      · simp only [List.length_map, hl, ne_eq, not_false_eq_true, if_true]
        rfl
  have hkey := key
  rw [htest, hlab] at *
  rw [run, run]
  cases targets with
  | none => exact hkey train none
  | some t =>
    by_cases hl : train.length = t.length
    · simp only [List.length_map, hl, ne_eq, not_true_eq_false, if_false]
      have := hkey (boolIndex (t.map Option.isSome) train) (some (boolIndex (t.map Option.isSome) t))
      rw [boolIndex_map]
      exact this
    · left
      simp only [List.length_map, hl, ne_eq, not_false_eq_true, if_true]
      exact ⟨_, rfl, rfl⟩

/-- Three features, the second one constant, exchanged in a circle: the first and the third are kept. -/
example : ∃ σ : Equiv.Perm (Fin 3), σ ≠ 1 ∧ σ 0 = 1 := ⟨Equiv.swap 0 1, by decide, by decide⟩

end CatLearn.Props
