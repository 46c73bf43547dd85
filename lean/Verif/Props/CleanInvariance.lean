import Verif.Model.CleanExt
import Verif.Props.Clean

/-!
# C255: cleaning and the units, zeros and order of the data
-/

namespace CatLearn.Props

open CatLearn CatLearn.Clean CatLearn.Spec

/-! ### Generalities -/

private theorem column_map {V : Type} (g : ℕ → V → V) (X : List (List V)) (j : ℕ) :
    column (X.map fun r => r.mapIdx g) j = (column X j).map (g j) := by
  unfold column
  induction X with
  | nil => rfl
  | cons r X ih =>
    simp only [List.map_cons, List.filterMap_cons, List.getElem?_mapIdx, ih]
    cases r[j]? <;> rfl

private theorem selectColumns_map {V L : Type} (g : ℕ → V → V) (d : ℕ) (index : List Bool) (train : List (List V)) (test : Option (List (List V)))
    (labels : Option (List L)) :
    selectColumns d index (train.map fun r => r.mapIdx g) (test.map fun t => t.map fun r => r.mapIdx g) labels =
      (selectColumns d index train test labels).map fun r => ⟨r.index, (train.map fun r => r.mapIdx g).map (boolIndex r.index),
        test.map fun t => (t.map fun r => r.mapIdx g).map (boolIndex r.index), r.targets, r.labels⟩ := by
  unfold selectColumns
  simp only [bind, Except.bind, pure, Except.pure, throw, throwThe, MonadExceptOf.throw]
  cases test with
  | none =>
    cases labels with
    | none => rfl
    | some l =>
      simp only [Option.map_none]
      split_ifs <;> rfl
  | some t =>
    simp only [Option.map_some, List.all_map, Function.comp_def, List.length_mapIdx]
    by_cases h : (t.all fun r => r.length == d) = true
    · simp only [h, if_true]
      cases labels with
      | none => rfl
      | some l =>
        simp only
        split_ifs <;> rfl
    · simp only [h, if_false, Bool.false_eq_true]
      rfl

private theorem selectColumns_rows {V L : Type} (d : ℕ) (index : List Bool) (train train' : List (List V)) (test : Option (List (List V)))
    (labels : Option (List L)) :
    selectColumns d index train' test labels =
      (selectColumns d index train test labels).map fun r => ⟨r.index, train'.map (boolIndex r.index), r.test, r.targets, r.labels⟩ := by
  unfold selectColumns
  simp only [bind, Except.bind, pure, Except.pure, throw, throwThe, MonadExceptOf.throw]
  cases test with
  | none =>
    cases labels with
    | none => rfl
    | some l =>
      simp only
      split_ifs <;> rfl
  | some t =>
    simp only
    by_cases h : (t.all fun r => r.length == d) = true
    · simp only [h, if_true]
      cases labels with
      | none => rfl
      | some l =>
        simp only
        split_ifs <;> rfl
    · simp only [h, if_false, Bool.false_eq_true]
      rfl

private theorem moment_affine (k : ℕ) (v : List ℝ) (a b : ℝ) :
    centralMoment k (v.map fun x => a * x + b) = a ^ k * centralMoment k v := by
  by_cases hv : v = []
  · subst hv
    simp [centralMoment]
  have hn : (v.length : ℝ) ≠ 0 := by
    have := List.length_pos_iff.mpr hv
    exact_mod_cast this.ne'
  have hsum : (v.map fun x => a * x + b).sum = a * v.sum + v.length * b := by
    clear hv hn
    induction v with
    | nil => simp
    | cons x v ih =>
      simp only [List.map_cons, List.sum_cons, List.length_cons, ih]
      push_cast
      ring
  unfold centralMoment
  rw [List.map_map, List.length_map, hsum]
  have : ((fun x => (x - (a * v.sum + v.length * b) / v.length) ^ k) ∘ fun x => a * x + b) = fun x => a ^ k * (x - v.sum / v.length) ^ k := by
    funext x
    rw [Function.comp_apply, ← mul_pow]
    congr 1
    field_simp
    ring
  rw [this, List.sum_map_mul_left, mul_div_assoc]

private theorem moment_perm (k : ℕ) {v w : List ℝ} (h : v.Perm w) : centralMoment k v = centralMoment k w := by
  unfold centralMoment
  rw [h.sum_eq, h.length_eq, (h.map _).sum_eq]

private theorem nanStd_eq (c : List (Option ℝ)) :
    nanStd c = if c.filterMap id = [] then none else some (Real.sqrt (centralMoment 2 (c.filterMap id))) := by
  unfold nanStd centralMoment
  simp only [List.length_eq_zero_iff]

private theorem filterMap_id_map (c : List (Option ℝ)) (f : ℝ → ℝ) : (c.map fun x => x.map f).filterMap id = (c.filterMap id).map f := by
  induction c with
  | nil => rfl
  | cons x c ih =>
    cases x with
    | none => simpa using ih
    | some v =>
      exact congrArg (f v :: ·) ih

/-- Entries of column `j` in another unit and from another zero. -/
def rescale (a b : ℕ → ℝ) (j : ℕ) (x : Option ℝ) : Option ℝ := x.map fun v => a j * v + b j

private theorem nanStd_rescale (a b : ℕ → ℝ) (j : ℕ) (c : List (Option ℝ)) :
    nanStd (c.map (rescale a b j)) = (nanStd c).map fun s => |a j| * s := by
  have : rescale a b j = fun x => x.map fun v => a j * v + b j := rfl
  rw [nanStd_eq, nanStd_eq, this, filterMap_id_map, moment_affine]
  by_cases h : c.filterMap id = []
  · rw [if_pos (by simpa using h), if_pos h]
    rfl
  · rw [if_neg (by simpa using h), if_neg h, Option.map_some, Real.sqrt_mul (sq_nonneg _), Real.sqrt_sq_eq_abs]

/-! ### C255 -/

/-- C255, zeros and signs.  `clean_variance` removes the same features whatever the zeros and the signs of the features. -/
theorem C255_zeros {L : Type} (d : ℕ) (train : List (List (Option ℝ))) (test : Option (List (List (Option ℝ)))) (labels : Option (List L))
    (mask : Option (List ℕ)) (a b : ℕ → ℝ) (ha : ∀ j, a j = 1 ∨ a j = -1) :
    cleanVariance d (train.map fun r => r.mapIdx (rescale a b)) (test.map fun t => t.map fun r => r.mapIdx (rescale a b)) labels mask =
      (cleanVariance d train test labels mask).map fun r => ⟨r.index, (train.map fun r => r.mapIdx (rescale a b)).map (boolIndex r.index),
        test.map fun t => (t.map fun r => r.mapIdx (rescale a b)).map (boolIndex r.index), r.targets, r.labels⟩ := by
  unfold cleanVariance
  rw [← selectColumns_map]
  dsimp only
  congr 1
  apply List.map_congr_left
  intro j _
  have h1 : |a j| = 1 := by rcases ha j with h | h <;> simp [h]
  rw [column_map, nanStd_rescale, h1]
  cases nanStd (column train j) <;> simp

/-- C255, units (partial: the deviation of a feature must be nothing, or not tiny in both units, see below).  `clean_variance` removes the same features
in other units and from other zeros. -/
theorem C255_units_partial {L : Type} (d : ℕ) (train : List (List (Option ℝ))) (test : Option (List (List (Option ℝ)))) (labels : Option (List L))
    (mask : Option (List ℕ)) (a b : ℕ → ℝ)
    (hs : ∀ j < d, ∀ s, nanStd (column train j) = some s → s = 0 ∨ 1.1e-8 < s ∧ 1.1e-8 < |a j| * s) :
    cleanVariance d (train.map fun r => r.mapIdx (rescale a b)) (test.map fun t => t.map fun r => r.mapIdx (rescale a b)) labels mask =
      (cleanVariance d train test labels mask).map fun r => ⟨r.index, (train.map fun r => r.mapIdx (rescale a b)).map (boolIndex r.index),
        test.map fun t => (t.map fun r => r.mapIdx (rescale a b)).map (boolIndex r.index), r.targets, r.labels⟩ := by
  unfold cleanVariance
  rw [← selectColumns_map]
  dsimp only
  congr 1
  apply List.map_congr_left
  intro j hj
  rw [column_map, nanStd_rescale]
  have hs := hs j (List.mem_range.mp hj)
  generalize nanStd (column train j) = o at hs
  cases o with
  | none => rfl
  | some s =>
    have big : ∀ u : ℝ, 1.1e-8 < u → isCloseZero (some u) = false := by
      intro u hu
      have hu0 : (0 : ℝ) < u := lt_trans (by norm_num) hu
      unfold isCloseZero
      rw [decide_eq_false_iff_not, zero_sub, abs_neg, abs_of_pos hu0]
      norm_num at hu ⊢
      linarith
    rcases hs s rfl with h | ⟨h1, h2⟩
    · subst h
      simp
    · rw [Option.map_some, big s h1, big _ h2]

/-- C255 is violated: a feature that varies is removed when it is expressed in a larger unit, and kept otherwise. -/
theorem C255_units_violated :
    (∃ r : Cleaned (Option ℝ) Unit, cleanVariance 1 [[some 0], [some 1]] none none none = .ok r ∧ r.index = [true]) ∧
      ∃ r : Cleaned (Option ℝ) Unit, cleanVariance 1 [[some 0], [some 1e-9]] none none none = .ok r ∧ r.index = [false] := by
  have std : ∀ t : ℝ, 0 ≤ t → nanStd (column [[some 0], [some t]] 0) = some (t / 2) := by
    intro t ht
    have hc : column [[some 0], [some t]] 0 = [some 0, some t] := rfl
    rw [hc, nanStd_eq]
    have hf : ([some 0, some t] : List (Option ℝ)).filterMap id = [0, t] := rfl
    rw [hf, if_neg (by simp)]
    have : centralMoment 2 [0, t] = (t / 2) ^ 2 := by
      simp [centralMoment]
      ring
    rw [this, Real.sqrt_sq (by linarith)]
  have sel : ∀ t : ℝ, 0 ≤ t → ∀ c : Bool, isCloseZero (some (t / 2)) = c →
      ∃ r : Cleaned (Option ℝ) Unit, cleanVariance 1 [[some 0], [some t]] none none none = .ok r ∧ r.index = [!c] := by
    intro t ht c hc
    refine ⟨⟨[!c], [[some 0], [some t]].map (boolIndex [!c]), none, none, none⟩, ?_, rfl⟩
    unfold cleanVariance
    simp only [List.range_one, List.map_cons, List.map_nil, std t ht, hc]
    rfl
  constructor
  · refine sel 1 (by norm_num) false ?_
    unfold isCloseZero
    rw [decide_eq_false_iff_not, zero_sub, abs_neg, abs_of_pos (by norm_num)]
    norm_num
  · refine sel 1e-9 (by norm_num) true ?_
    unfold isCloseZero
    rw [decide_eq_true_iff, zero_sub, abs_neg, abs_of_pos (by norm_num)]
    norm_num

/-- C255, skewness.  `clean_skewness` removes the same features in other units, from other zeros and with other signs. -/
theorem C255_skewness {L : Type} (zero : Option ℝ) (d : ℕ) (train : List (List ℝ)) (test : Option (List (List ℝ))) (labels : Option (List L))
    (mask : Option (List ℕ)) (bound : ℝ) (a b : ℕ → ℝ) (ha : ∀ j, a j ≠ 0) :
    cleanSkewness (skew zero) d (train.map fun r => r.mapIdx fun j v => a j * v + b j) (test.map fun t => t.map fun r => r.mapIdx fun j v => a j * v + b j)
        labels mask bound =
      (cleanSkewness (skew zero) d train test labels mask bound).map fun r =>
        ⟨r.index, (train.map fun r => r.mapIdx fun j v => a j * v + b j).map (boolIndex r.index),
          test.map fun t => (t.map fun r => r.mapIdx fun j v => a j * v + b j).map (boolIndex r.index), r.targets, r.labels⟩ := by
  unfold cleanSkewness
  rw [← selectColumns_map]
  dsimp only
  congr 1
  apply List.map_congr_left
  intro j _
  rw [column_map]
  have key : ∀ v : List ℝ, (skew zero (v.map fun x => a j * x + b j)).map (fun s => |s|) = (skew zero v).map fun s => |s| := by
    intro v
    unfold skew
    rw [moment_affine, moment_affine]
    by_cases h : centralMoment 2 v = 0
    · rw [if_pos h, if_pos (by rw [h, mul_zero])]
    · rw [if_neg h, if_neg (mul_ne_zero (pow_ne_zero _ (ha j)) h), Option.map_some, Option.map_some]
      congr 1
      rw [Real.sqrt_mul (sq_nonneg _), Real.sqrt_sq_eq_abs, abs_div, abs_div, abs_mul, mul_pow, abs_mul, abs_pow, abs_pow, abs_abs]
      rw [mul_div_mul_left _ _ (pow_ne_zero _ (abs_ne_zero.mpr (ha j)))]
  have hk := key (column train j)
  generalize skew zero ((column train j).map fun x => a j * x + b j) = u at hk ⊢
  generalize skew zero (column train j) = w at hk ⊢
  cases u <;> cases w <;> simp_all

/-- C255, order of the data for `clean_variance` and `clean_skewness`: the same features are removed. -/
theorem C255_order {L : Type} (d : ℕ) (mask : Option (List ℕ)) (labels : Option (List L)) :
    (∀ (train train' : List (List (Option ℝ))) (test : Option (List (List (Option ℝ)))), train.Perm train' →
      cleanVariance d train' test labels mask =
        (cleanVariance d train test labels mask).map fun r => ⟨r.index, train'.map (boolIndex r.index), r.test, r.targets, r.labels⟩) ∧
      ∀ (zero : Option ℝ) (train train' : List (List ℝ)) (test : Option (List (List ℝ))) (bound : ℝ), train.Perm train' →
        cleanSkewness (skew zero) d train' test labels mask bound =
          (cleanSkewness (skew zero) d train test labels mask bound).map fun r =>
            ⟨r.index, train'.map (boolIndex r.index), r.test, r.targets, r.labels⟩ := by
  constructor
  · intro train train' test hp
    unfold cleanVariance
    rw [← selectColumns_rows]
    dsimp only
    congr 1
    apply List.map_congr_left
    intro j _
    have hc : (column train j).Perm (column train' j) := hp.filterMap _
    rw [nanStd_eq, nanStd_eq, moment_perm 2 (hc.filterMap id)]
    have he : (column train j).filterMap id = [] ↔ (column train' j).filterMap id = [] := by
      have := (hc.filterMap id).length_eq
      rw [← List.length_eq_zero_iff, ← List.length_eq_zero_iff, this]
    simp only [he]
  · intro zero train train' test bound hp
    unfold cleanSkewness
    rw [← selectColumns_rows]
    dsimp only
    congr 1
    apply List.map_congr_left
    intro j _
    have hc : (column train j).Perm (column train' j) := hp.filterMap _
    have : skew zero (column train' j) = skew zero (column train j) := by
      unfold skew
      rw [moment_perm 2 hc, moment_perm 3 hc]
    rw [this]

private theorem finiteCols_perm {V : Type} (d : ℕ) (mask : Option (List ℕ)) {train train' : List (List (Option V))} (h : train.Perm train') :
    finiteCols d train' mask = finiteCols d train mask := by
  have : ((List.range d).map fun j => train'.all fun r => (r[j]?).any Option.isSome) =
      (List.range d).map fun j => train.all fun r => (r[j]?).any Option.isSome := by
    apply List.map_congr_left
    intro j _
    rw [Bool.eq_iff_iff, List.all_eq_true, List.all_eq_true]
    exact ⟨fun hx r hr => hx r (h.mem_iff.mp hr), fun hx r hr => hx r (h.mem_iff.mpr hr)⟩
  unfold finiteCols
  simp only [this]

/-- C255, order of the data for `clean_infinite`: the same features and the same pairs of row and target are kept; what is an error remains one. -/
theorem C255_order_infinite {V L : Type} (d : ℕ) (train train' : List (List (Option V))) (t t' : List (Option V)) (test : Option (List (List (Option V))))
    (labels : Option (List L)) (mask : Option (List ℕ)) (hl : train.length = t.length) (hl' : train'.length = t'.length)
    (hp : (train.zip t).Perm (train'.zip t')) :
    (∀ e, cleanInfinite d train test (some t) labels mask = .error e → cleanInfinite d train' test (some t') labels mask = .error e) ∧
      ∀ r, cleanInfinite d train test (some t) labels mask = .ok r →
        ∃ r' u u', cleanInfinite d train' test (some t') labels mask = .ok r' ∧ r'.index = r.index ∧ r'.test = r.test ∧ r'.labels = r.labels ∧
          r.targets = some u ∧ r'.targets = some u' ∧ (r.train.zip u).Perm (r'.train.zip u') := by
  have zip_unzip : ∀ (f : List (Option V) → List (Option V)) (l : List (List (Option V) × Option V)),
      ((l.map Prod.fst).map f).zip (l.map Prod.snd) = l.map fun p => (f p.1, p.2) := by
    intro f l; induction l with
    | nil => rfl
    | cons a l ih => simp only [List.map_cons, List.zip_cons_cons, ih]
  have e1 := boolIndex_zip_filter (fun x : Option V => x.isSome) train t hl
  have e2 := boolIndex_snd_filter (fun x : Option V => x.isSome) train t hl
  have e1' := boolIndex_zip_filter (fun x : Option V => x.isSome) train' t' hl'
  have e2' := boolIndex_snd_filter (fun x : Option V => x.isSome) train' t' hl'
  have hf := hp.filter fun p => p.2.isSome
  have hc := finiteCols_perm d mask (hf.map Prod.fst)
  unfold cleanInfinite finiteRows
  simp only [hl, hl', ne_eq, not_true_eq_false, if_false, bind, Except.bind, pure, Except.pure, throw, throwThe, MonadExceptOf.throw]
  rw [show (t.map Option.isSome) = t.map (fun x => x.isSome) from rfl, show (t'.map Option.isSome) = t'.map (fun x => x.isSome) from rfl, e1, e2, e1', e2', hc]
  cases finiteCols d (((train.zip t).filter fun p => p.2.isSome).map Prod.fst) mask with
  | error e => exact ⟨fun _ h => h, fun _ h => by cases h⟩
  | ok index =>
    simp only
    have fin : ∀ (te : Option (List (List (Option V)))) (la : Option (List L)),
        ∃ r' u u', (Except.ok (⟨index, (((train'.zip t').filter fun p => p.2.isSome).map Prod.fst).map (boolIndex index), te,
          some (((train'.zip t').filter fun p => p.2.isSome).map Prod.snd), la⟩ : Cleaned (Option V) L) : Except PyErr _) = .ok r' ∧ r'.index = index ∧
          r'.test = te ∧ r'.labels = la ∧ some (((train.zip t).filter fun p => p.2.isSome).map Prod.snd) = some u ∧ r'.targets = some u' ∧
          (((((train.zip t).filter fun p => p.2.isSome).map Prod.fst).map (boolIndex index)).zip u).Perm (r'.train.zip u') := by
      intro te la
      refine ⟨_, _, _, rfl, rfl, rfl, rfl, rfl, rfl, ?_⟩
      simp only [zip_unzip]
      exact hf.map _
    cases test with
    | none =>
      cases labels with
      | none => exact ⟨fun e h => (by cases h), fun r h => (by cases h; exact fin _ _)⟩
      | some l =>
        by_cases hL : l.length = d
        · simp only [hL, if_true]
          exact ⟨fun e h => (by cases h), fun r h => (by cases h; exact fin _ _)⟩
        · simp only [hL, if_false]
          exact ⟨fun e h => h, fun r h => by cases h⟩
    | some te =>
      by_cases hT : (te.all fun r => r.length == d) = true
      · simp only [hT, if_true]
        cases labels with
        | none => exact ⟨fun e h => (by cases h), fun r h => (by cases h; exact fin _ _)⟩
        | some l =>
          by_cases hL : l.length = d
          · simp only [hL, if_true]
            exact ⟨fun e h => (by cases h), fun r h => (by cases h; exact fin _ _)⟩
          · simp only [hL, if_false]
            exact ⟨fun e h => h, fun r h => by cases h⟩
      · simp only [hT, if_false, Bool.false_eq_true]
        exact ⟨fun e h => h, fun r h => by cases h⟩

/-- A feature of ordinary size in two units meets the hypotheses. -/
example : ∀ s, nanStd (column [[some 0], [some 2], [none]] 0) = some s → s = 0 ∨ 1.1e-8 < s ∧ 1.1e-8 < |(27.2 : ℝ)| * s := by
  have hc : column [[some (0 : ℝ)], [some 2], [none]] 0 = [some 0, some 2, none] := rfl
  intro s h
  rw [hc, nanStd_eq] at h
  have hf : ([some 0, some 2, none] : List (Option ℝ)).filterMap id = [0, 2] := rfl
  rw [hf, if_neg (by simp)] at h
  have h2 : centralMoment 2 [0, 2] = 1 := by
    simp [centralMoment]
    norm_num
  rw [h2, Real.sqrt_one, Option.some.injEq] at h
  subst h
  right
  constructor <;> norm_num

example : (([[some 1], [none]] : List (List (Option ℕ))).zip [some 5, none]).Perm (([[none], [some 1]] : List (List (Option ℕ))).zip [none, some 5]) :=
  List.Perm.swap ([none], none) ([some 1], some 5) []

end CatLearn.Props
