import Verif.Model.Impute
import Verif.Props.Clean
import Mathlib.Tactic.Linarith
import Mathlib.Tactic.FieldSimp

/-!
# Imputation by `clean_infinite` (C239, C240)
-/

namespace CatLearn.Impute

open CatLearn CatLearn.Clean CatLearn.Props CatLearn.Spec

/-- The numbers in column `j` of a matrix, from the first row to the last. -/
def numbers (X : List (List Cell)) (j : ℕ) : List ℝ := X.filterMap fun row => row[j]?.bind Cell.num

/-- The fraction of the rows that have no number in column `j`. -/
noncomputable def missing (X : List (List Cell)) (j : ℕ) : ℝ :=
  (X.countP fun row => (row[j]?.bind Cell.num).isNone : ℕ) / (X.length : ℝ)

/-- No infinite entry in the columns that are imputed. -/
def NoInf (f : ℝ) (train X : List (List Cell)) : Prop :=
  ∀ row ∈ X, ∀ j : ℕ, missing train j ≤ f → row[j]? ≠ some .inf

/-- An entry of column `j` after the imputation: numbers stay, nan becomes the statistic of the numbers of the column in the training data
if few enough of them are missing. -/
noncomputable def expected (stat : List ℝ → ℝ) (f : ℝ) (train : List (List Cell)) (j : ℕ) : Cell → Option ℝ
  | .fin x => some x
  | .nan => if missing train j ≤ f then some (stat (numbers train j)) else none
  | .inf => none

/-- `Y` is `X` with all entries as expected. -/
def Imputed (stat : List ℝ → ℝ) (f : ℝ) (train X : List (List Cell)) (Y : List (List (Option ℝ))) : Prop :=
  Y.length = X.length ∧ ∀ (i : ℕ) (row : List Cell) (row' : List (Option ℝ)), X[i]? = some row → Y[i]? = some row' →
    row'.length = row.length ∧ ∀ (j : ℕ) (c : Cell), row[j]? = some c → row'[j]? = some (expected stat f train j c)

theorem known_eq (X : List (List Cell)) (j : ℕ) : known X j = numbers X j := by
  unfold known numbers column
  rw [List.filterMap_filterMap]

private theorem missing_eq (X : List (List Cell)) (hX : X ≠ []) (j : ℕ) :
    1 - ((numbers X j).length : ℝ) / X.length = missing X j := by
  have hl : (0 : ℝ) < X.length := by
    have := List.length_pos_iff.mpr hX
    exact_mod_cast this
  have hc : ∀ Y : List (List Cell), (numbers Y j).length + Y.countP (fun row => (row[j]?.bind Cell.num).isNone) = Y.length := by
    intro Y
    induction Y with
    | nil => rfl
    | cons r Y ih =>
      unfold numbers at ih ⊢
      rw [List.filterMap_cons, List.countP_cons, List.length_cons, ← ih]
      cases h : r[j]?.bind Cell.num <;> simp <;> omega
  have h := hc X
  unfold missing
  have h' : ((numbers X j).length : ℝ) + (X.countP fun row => (row[j]?.bind Cell.num).isNone : ℕ) = X.length := by exact_mod_cast h
  rw [eq_div_iff hl.ne', sub_mul, div_mul_cancel₀ _ hl.ne']
  linarith

private theorem toImpute_iff (f : ℝ) (train : List (List Cell)) (hne : train ≠ []) (j : ℕ) :
    toImpute f train j = true ↔ missing train j ≤ f := by
  unfold toImpute
  rw [decide_eq_true_eq, known_eq, missing_eq train hne]
  exact ⟨fun h => h.2, fun h => ⟨hne, h⟩⟩

private theorem numbers_ne (f : ℝ) (h1 : f < 1) (train : List (List Cell)) (hne : train ≠ []) (j : ℕ) (h : missing train j ≤ f) :
    numbers train j ≠ [] := by
  intro he
  have := missing_eq train hne j
  rw [he] at this
  simp at this
  linarith

private theorem any_isInf (o : Option Cell) : o.any Cell.isInf = true ↔ o = some .inf := by
  cases o with
  | none => simp
  | some c => cases c <;> simp [Cell.isInf]

private theorem transform_ok (stat : List ℝ → ℝ) (f : ℝ) (h1 : f < 1) (d : ℕ) (train X : List (List Cell)) (hne : train ≠ [])
    (hX : X ≠ []) (hsel : ∃ j < d, missing train j ≤ f) (hinf : NoInf f train X) :
    transform stat (toImpute f train) d train X =
      .ok (X.map fun r => r.mapIdx fun j c => if toImpute f train j then c.fill (stat (known train j)) else c) := by
  unfold transform
  obtain ⟨j, hj, hjf⟩ := hsel
  have hcols : (List.range d).filter (toImpute f train) ≠ [] := by
    intro h
    have : j ∈ (List.range d).filter (toImpute f train) :=
      List.mem_filter.mpr ⟨List.mem_range.mpr hj, (toImpute_iff f train hne j).mpr hjf⟩
    rw [h] at this
    cases this
  have hno : ¬ (X.any fun r => ((List.range d).filter (toImpute f train)).any fun j => r[j]?.any Cell.isInf) = true := by
    rw [List.any_eq_true]
    rintro ⟨r, hr, h⟩
    obtain ⟨j, hj, h⟩ := List.any_eq_true.mp h
    exact hinf r hr j ((toImpute_iff f train hne j).mp (List.mem_filter.mp hj).2) ((any_isInf _).mp h)
  have hgood : ((List.range d).filter (toImpute f train)).filter (fun j => !(known train j).isEmpty)
      = (List.range d).filter (toImpute f train) := by
    rw [List.filter_eq_self]
    intro j hj
    have := numbers_ne f h1 train hne j ((toImpute_iff f train hne j).mp (List.mem_filter.mp hj).2)
    rw [known_eq]
    simpa using this
  simp only [hX, hcols, or_self, if_false, hno, hgood, if_true]
  rfl

private theorem map_imputed (stat : List ℝ → ℝ) (f : ℝ) (train X : List (List Cell)) (hne : train ≠ []) :
    Imputed stat f train X ((X.map fun r => r.mapIdx fun j c =>
      if toImpute f train j then c.fill (stat (known train j)) else c).map fun r => r.map Cell.num) := by
  refine ⟨by simp, fun i row row' hi hi' => ?_⟩
  simp only [List.getElem?_map, hi, Option.map_some, Option.some.injEq] at hi'
  subst hi'
  refine ⟨by simp, fun j c hc => ?_⟩
  simp only [List.getElem?_map, List.getElem?_mapIdx, hc, Option.map_some, Option.some.injEq]
  by_cases h : missing train j ≤ f
  · rw [if_pos ((toImpute_iff f train hne j).mpr h), known_eq]
    cases c <;> simp [Cell.fill, Cell.num, expected, h]
  · rw [if_neg (fun e => h ((toImpute_iff f train hne j).mp e))]
    cases c <;> simp [Cell.num, expected, h]

private theorem finish_spec {L : Type} (d : ℕ) (T : List (List Cell)) (hT : ∀ r ∈ T, r.length = d) (test : Option (List (List Cell)))
    (hte : ∀ t ∈ test, ∀ r ∈ t, r.length = d) (tg : Option (List Cell)) (labels : Option (List L)) (hla : ∀ l ∈ labels, l.length = d)
    (mask : Option (List ℕ)) (hma : ∀ m ∈ mask, ∀ j ∈ m, j < d) :
    ∃ r, finish d T test tg labels mask = .ok r ∧ r.index.length = d ∧
      ColumnsSelected r.index (T.map fun r => r.map Cell.num) (test.map fun t => t.map fun r => r.map Cell.num) labels r ∧
      r.targets = tg.map (fun t => t.map Cell.num) ∧
      ∀ j < d, (r.index[j]? = some true ↔ (∀ row ∈ T, ∃ x, row[j]? = some (.fin x)) ∨ ∃ m, mask = some m ∧ j ∈ m) := by
  obtain ⟨r, kept, hr, hlen, hk, -, hcs, hix, -⟩ := C18_clean_infinite (V := ℝ) d (T.map fun r => r.map Cell.num)
    (by intro r hr; obtain ⟨r', h, rfl⟩ := List.mem_map.mp hr; simpa using hT r' h)
    (test.map fun t => t.map fun r => r.map Cell.num)
    (by
      intro t ht r hr
      obtain ⟨t', h', rfl⟩ := Option.mem_map.mp ht
      obtain ⟨r', h, rfl⟩ := List.mem_map.mp hr
      simpa using hte t' h' r' h)
    none (by simp) labels hla mask hma
  obtain ⟨rfl, -⟩ := hk rfl
  refine ⟨{ r with targets := tg.map fun t => t.map Cell.num }, ?_, hlen, hcs, rfl, fun j hj => (hix j hj).trans ?_⟩
  · unfold finish
    rw [hr]
    rfl
  · refine or_congr_left ?_
    constructor
    · intro h row hrow
      obtain ⟨x, hx⟩ := h _ (List.mem_map.mpr ⟨row, hrow, rfl⟩)
      rw [List.getElem?_map] at hx
      obtain ⟨c, hc, hcx⟩ := Option.map_eq_some_iff.mp hx
      cases c with
      | fin y => exact ⟨y, hc⟩
      | nan => cases hcx
      | inf => cases hcx
    · intro h row hrow
      obtain ⟨row, hrow', rfl⟩ := List.mem_map.mp hrow
      obtain ⟨x, hx⟩ := h row hrow'
      exact ⟨x, by rw [List.getElem?_map, hx]; rfl⟩

/-- C239 (partial).  With `max_impute_fraction = f` between 0 and 1 exactly the columns are returned in which at most the fraction `f` of the
rows of the training data has no number, and the masked ones.  Numbers are returned unchanged; every nan in such a column, of the
training and of the test data, is replaced by the statistic of the numbers of the training data in that column: the test data have no
influence on the training data or on what is put in.  Without a mask the training data returned are all numbers.  Missing: data with an
infinity in such a column, and data without any such column (see the violations). -/
theorem C239_impute_partial {L : Type} (stat : List ℝ → ℝ) (f : ℝ) (h0 : 0 < f) (h1 : f < 1) (d : ℕ) (train : List (List Cell))
    (hne : train ≠ []) (htr : ∀ r ∈ train, r.length = d) (test : Option (List (List Cell)))
    (hte : ∀ t ∈ test, t ≠ [] ∧ ∀ r ∈ t, r.length = d) (labels : Option (List L)) (hla : ∀ l ∈ labels, l.length = d)
    (mask : Option (List ℕ)) (hma : ∀ m ∈ mask, ∀ j ∈ m, j < d) (hsel : ∃ j < d, missing train j ≤ f)
    (hinf : NoInf f train train) (hinf' : ∀ t ∈ test, NoInf f train t) (aliased : Bool) :
    ∃ r T t, (cleanImpute stat f d train test none labels mask aliased).1 = .ok r ∧ r.index.length = d ∧
      (∀ j < d, (r.index[j]? = some true ↔ missing train j ≤ f ∨ ∃ m, mask = some m ∧ j ∈ m)) ∧
      ColumnsSelected r.index T t labels r ∧ Imputed stat f train train T ∧
      (∀ X, test = some X → ∃ Y, t = some Y ∧ Imputed stat f train X Y) ∧ (test = none → t = none) ∧
      (mask = none → ∀ row ∈ r.train, ∀ x ∈ row, ∃ y, x = some y) := by
  have hpos : 0 < train.length := List.length_pos_iff.mpr hne
  have hT := transform_ok stat f h1 d train train hne hne hsel hinf
  -- both matrices
  have hboth : ∃ t', imputeBoth stat f d train test = .ok (train.map (fun r => r.mapIdx fun j c =>
      if toImpute f train j then c.fill (stat (known train j)) else c), t') ∧
      t' = test.map fun X => X.map fun r => r.mapIdx fun j c =>
        if toImpute f train j then c.fill (stat (known train j)) else c := by
    unfold imputeBoth
    rw [hT]
    cases test with
    | none => exact ⟨_, rfl, rfl⟩
    | some X =>
      have hw : X.all (fun r => r.length == d) = true := by simpa using (hte X rfl).2
      refine ⟨_, ?_, rfl⟩
      simp only [hw, Bool.not_true, Bool.false_eq_true, if_false,
        transform_ok stat f h1 d train X hne (hte X rfl).1 hsel (hinf' X rfl), Option.map_some]
  obtain ⟨t', hb, ht'⟩ := hboth
  obtain ⟨r, hr, hlen, hcs, -, hix⟩ := finish_spec d (train.map (fun r => r.mapIdx fun j c =>
      if toImpute f train j then c.fill (stat (known train j)) else c))
    (by intro r hr; obtain ⟨r', h, rfl⟩ := List.mem_map.mp hr; simpa using htr r' h) t'
    (by
      intro t ht r hr
      rw [ht'] at ht
      obtain ⟨X, hX, rfl⟩ := Option.mem_map.mp ht
      obtain ⟨r', h, rfl⟩ := List.mem_map.mp hr
      simpa using (hte X hX).2 r' h) none labels hla mask hma
  have hindex : ∀ j < d, (r.index[j]? = some true ↔ missing train j ≤ f ∨ ∃ m, mask = some m ∧ j ∈ m) := by
    intro j hj
    refine (hix j hj).trans (or_congr_left ?_)
    constructor
    · intro h
      by_contra hc
      have hz : missing train j = 0 := by
        unfold missing
        rw [List.countP_eq_zero.mpr, Nat.cast_zero, zero_div]
        intro row hrow
        obtain ⟨x, hx⟩ := h _ (List.mem_map.mpr ⟨row, hrow, rfl⟩)
        rw [List.getElem?_mapIdx] at hx
        obtain ⟨c, hc', hcx⟩ := Option.map_eq_some_iff.mp hx
        rw [if_neg (fun e => hc ((toImpute_iff f train hne j).mp e))] at hcx
        rw [hc', hcx]
        simp [Cell.num]
      exact hc (by rw [hz]; exact h0.le)
    · intro h row hrow
      obtain ⟨row, hrow', rfl⟩ := List.mem_map.mp hrow
      have hjr : j < row.length := by rw [htr row hrow']; exact hj
      rw [List.getElem?_mapIdx, List.getElem?_eq_getElem hjr, Option.map_some, if_pos ((toImpute_iff f train hne j).mpr h)]
      have hni := hinf row hrow' j h
      rw [List.getElem?_eq_getElem hjr] at hni
      cases hcell : row[j] with
      | fin x => exact ⟨x, rfl⟩
      | nan => exact ⟨_, rfl⟩
      | inf => rw [hcell] at hni; exact absurd rfl hni
  refine ⟨r, _, _, ?_, hlen, hindex, hcs, map_imputed stat f train train hne, ?_, ?_, ?_⟩
  · unfold cleanImpute
    simp only [targetRows, h0, if_true, hb, hr]
  · rintro X rfl
    rw [ht']
    exact ⟨_, rfl, map_imputed stat f train X hne⟩
  · rintro rfl
    rw [ht']
    rfl
  · rintro rfl row hrow x hx
    obtain ⟨-, htrain, -, -⟩ := hcs
    rw [htrain] at hrow
    obtain ⟨row0, hrow0, rfl⟩ := List.mem_map.mp hrow
    obtain ⟨row1, hrow1, rfl⟩ := List.mem_map.mp hrow0
    obtain ⟨row2, hrow2, rfl⟩ := List.mem_map.mp hrow1
    obtain ⟨k, hk⟩ := List.getElem?_of_mem hx
    have hl2 := htr row2 hrow2
    rw [keep_getElem? _ _ (by simp [hlen, hl2])] at hk
    obtain ⟨j, hj, hjx⟩ := Option.bind_eq_some_iff.mp hk
    have hjt := List.mem_of_getElem? hj
    simp only [truePos, List.mem_filter, List.mem_range] at hjt
    have hjd : j < d := by omega
    have hji : r.index[j]? = some true := by
      rw [List.getElem?_eq_getElem hjt.1]
      have := hjt.2
      rw [List.getElem?_eq_getElem hjt.1] at this
      simpa using this
    have hmem := (hix j hjd).mp hji
    simp only [reduceCtorEq, false_and, exists_false, or_false] at hmem
    obtain ⟨y, hy⟩ := hmem _ (List.mem_map.mpr ⟨row2, hrow2, rfl⟩)
    rw [List.getElem?_map, hy] at hjx
    exact ⟨y, by simpa [Cell.num] using hjx.symm⟩

/-- Half of the first column is missing, and all of the second. -/
example : ∃ train : List (List Cell), train ≠ [] ∧ (∀ r ∈ train, r.length = 2) ∧ (∃ j < 2, missing train j ≤ 1 / 2) ∧
    NoInf (1 / 2) train train ∧ missing train 1 = 1 := by
  refine ⟨[[.nan, .inf], [.fin 3, .nan]], by simp, by simp, ⟨0, by omega, ?_⟩, ?_, ?_⟩
  · simp [missing, Cell.num]
  · intro row hrow j hj
    match j with
    | 0 => rcases List.mem_cons.mp hrow with rfl | hrow
           · simp
           · rw [List.mem_singleton.mp hrow]; simp
    | 1 => exfalso; simp [missing, Cell.num] at hj; norm_num at hj
    | j + 2 => rcases List.mem_cons.mp hrow with rfl | hrow
               · simp
               · rw [List.mem_singleton.mp hrow]; simp
  · simp [missing, Cell.num]

/-- C239, targets: rows without a finite target are removed before anything else, so that they have no part in the statistics. -/
theorem C239_targets {L : Type} (stat : List ℝ → ℝ) (f : ℝ) (d : ℕ) (train : List (List Cell)) (test : Option (List (List Cell)))
    (t : List Cell) (ht : t.length = train.length) (labels : Option (List L)) (mask : Option (List ℕ)) (aliased : Bool) :
    (cleanImpute stat f d train test (some t) labels mask aliased).1 =
      (cleanImpute stat f d (((train.zip t).filter fun p => p.2.num.isSome).map Prod.fst) test none labels mask aliased).1.map
        fun r => { r with targets := some (((train.zip t).filter fun p => p.2.num.isSome).map fun p => p.2.num) } := by
  have hb : ∀ (X : List (List Cell)) (t : List Cell), t.length = X.length →
      boolIndex (t.map fun c => c.num.isSome) X = ((X.zip t).filter fun p => p.2.num.isSome).map Prod.fst ∧
      (boolIndex (t.map fun c => c.num.isSome) t).map Cell.num = ((X.zip t).filter fun p => p.2.num.isSome).map fun p => p.2.num := by
    intro X t h
    rw [boolIndex_eq _ _ (by simp [h]), boolIndex_eq _ _ (by simp)]
    induction X generalizing t with
    | nil =>
      cases t with
      | nil => exact ⟨rfl, rfl⟩
      | cons c t => simp at h
    | cons x X ih =>
      cases t with
      | nil => simp at h
      | cons c t =>
        obtain ⟨h1, h2⟩ := ih t (by simpa using h)
        simp only [keep] at h1 h2 ⊢
        constructor
        · cases hc : c.num <;> simp [hc, h1]
        · cases hc : c.num <;> simp [hc, h2]
  obtain ⟨h1, h2⟩ := hb train t ht
  have hfin : ∀ (T : List (List Cell)) (te : Option (List (List Cell))) (tg : List Cell),
      finish d T te (some tg) labels mask = (finish d T te none labels mask).map fun r => { r with targets := some (tg.map Cell.num) } := by
    intro T te tg
    unfold finish
    cases cleanInfinite d (T.map fun r => r.map Cell.num) (te.map fun t => t.map fun r => r.map Cell.num) none labels mask <;> rfl
  unfold cleanImpute
  simp only [targetRows, ht, ne_eq, not_true, if_false, h1]
  split
  · split
    · rfl
    · simp only [hfin, h2]
  · simp only [hfin, h2]

example : ([.fin 1, .nan] : List Cell).length = ([[.fin 0], [.fin 2]] : List (List Cell)).length := rfl

/-- C239 is violated by every infinite value: if a column that would be imputed has an infinity, the call fails, although such columns
are to be removed or imputed; the same call without imputation returns. -/
theorem C239_infinite_violated {L : Type} (stat : List ℝ → ℝ) (f : ℝ) (h0 : 0 < f) (d : ℕ) (train : List (List Cell))
    (htr : ∀ r ∈ train, r.length = d) (row : List Cell) (hrow : row ∈ train) (j : ℕ) (hj : row[j]? = some .inf)
    (hf : missing train j ≤ f) (labels : Option (List L)) (hla : ∀ l ∈ labels, l.length = d) (aliased : Bool) :
    (cleanImpute stat f d train none none labels none aliased).1 = .error .value ∧
      ∃ r, (cleanImpute stat 0 d train none none labels none aliased).1 = .ok r ∧ r.index[j]? = some false := by
  have hne : train ≠ [] := List.ne_nil_of_mem hrow
  have hjd : j < d := by
    rw [← htr row hrow]
    exact (List.getElem?_eq_some_iff.mp hj).1
  constructor
  · have ht : transform stat (toImpute f train) d train train = .error .value := by
      unfold transform
      have hmem : j ∈ (List.range d).filter (toImpute f train) :=
        List.mem_filter.mpr ⟨List.mem_range.mpr hjd, (toImpute_iff f train hne j).mpr hf⟩
      have hcols : (List.range d).filter (toImpute f train) ≠ [] := List.ne_nil_of_mem hmem
      have hany : (train.any fun r => ((List.range d).filter (toImpute f train)).any fun j => r[j]?.any Cell.isInf) = true :=
        List.any_eq_true.mpr ⟨row, hrow, List.any_eq_true.mpr ⟨j, hmem, (any_isInf _).mpr hj⟩⟩
      simp only [hne, hcols, or_self, if_false, hany, if_true]
    unfold cleanImpute
    simp only [targetRows, h0, if_true, imputeBoth, ht]
  · obtain ⟨r, hr, hlen, -, -, hix⟩ := finish_spec d train htr none (by simp) none labels hla none (by simp)
    refine ⟨r, ?_, ?_⟩
    · unfold cleanImpute
      simp only [targetRows, lt_irrefl, if_false, hr]
    · have hnot : ¬ r.index[j]? = some true := by
        rw [hix j hjd]
        rintro (h | ⟨m, hm, _⟩)
        · obtain ⟨x, hx⟩ := h row hrow
          rw [hj] at hx
          cases hx
        · cases hm
      rw [List.getElem?_eq_getElem (by omega)] at hnot ⊢
      cases h : r.index[j]'(by omega)
      · rfl
      · rw [h] at hnot; exact absurd rfl hnot

example : ∃ train : List (List Cell), [.inf] ∈ train ∧ missing train 0 ≤ 1 / 2 ∧ ∀ r ∈ train, r.length = 1 :=
  ⟨[[.inf], [.fin 1]], by simp, by simp [missing, Cell.num], by simp⟩

/-- C239 is violated if no column has few enough missing values: instead of removing all columns the call fails. -/
theorem C239_no_column_violated {L : Type} (stat : List ℝ → ℝ) (f : ℝ) (h0 : 0 < f) (d : ℕ) (train : List (List Cell))
    (hne : train ≠ []) (hsel : ∀ j < d, f < missing train j) (test : Option (List (List Cell))) (labels : Option (List L))
    (mask : Option (List ℕ)) (aliased : Bool) :
    (cleanImpute stat f d train test none labels mask aliased).1 = .error .value := by
  have hcols : (List.range d).filter (toImpute f train) = [] := by
    rw [List.filter_eq_nil_iff]
    intro j hj h
    exact absurd ((toImpute_iff f train hne j).mp h) (not_le.mpr (hsel j (List.mem_range.mp hj)))
  have ht : transform stat (toImpute f train) d train train = .error .value := by
    unfold transform
    simp only [hcols, or_true, if_true]
  unfold cleanImpute
  simp only [targetRows, h0, if_true, imputeBoth, ht]

example : ∀ j < 1, (1 / 2 : ℝ) < missing [[.nan]] j := by
  intro j hj
  obtain rfl : j = 0 := by omega
  simp [missing, Cell.num]
  norm_num

/-- C239 is violated with `max_impute_fraction = 1`: a column without any number is filled with a copy of another feature if only one
other column is imputed. -/
theorem C239_copied_column_violated (stat : List ℝ → ℝ) (a b : ℝ) :
    ∃ r, (cleanImpute (L := ℕ) stat 1 2 [[.nan, .fin a], [.nan, .fin b]] none none none none false).1 = .ok r ∧
      r.index = [true, true] ∧ r.train = [[some a, some a], [some b, some b]] := by
  have hsel : ∀ j, j < 2 → toImpute 1 [[.nan, .fin a], [.nan, .fin b]] j = true := by
    intro j hj
    rw [toImpute_iff _ _ (by simp)]
    rcases (show j = 0 ∨ j = 1 by omega) with rfl | rfl <;> simp [missing, Cell.num]
  have hcols : (List.range 2).filter (toImpute 1 [[.nan, .fin a], [.nan, .fin b]]) = [0, 1] := by
    simp [List.range_succ, hsel]
  have hk0 : known [[.nan, .fin a], [.nan, .fin b]] 0 = [] := by simp [known_eq, numbers, Cell.num]
  have hk1 : known [[.nan, .fin a], [.nan, .fin b]] 1 = [a, b] := by simp [known_eq, numbers, Cell.num]
  have ht : transform stat (toImpute 1 [[.nan, .fin a], [.nan, .fin b]]) 2 [[.nan, .fin a], [.nan, .fin b]]
      [[.nan, .fin a], [.nan, .fin b]] = .ok [[.fin a, .fin a], [.fin b, .fin b]] := by
    unfold transform
    simp [hcols, Cell.isInf, hk0, hk1, hsel, Cell.fill]
  refine ⟨⟨[true, true], [[some a, some a], [some b, some b]], none, none, none⟩, ?_, rfl, rfl⟩
  unfold cleanImpute
  simp only [targetRows, zero_lt_one, if_true, imputeBoth, ht]
  have hb : ∀ l : List (Option ℝ), l.length = 2 → boolIndex [true, true] l = l := by
    intro l hl
    match l, hl with
    | [x, y], _ => rw [boolIndex_eq _ _ (by simp)]; simp [keep]
  simp [finish, cleanInfinite, finiteRows, finiteCols, bind, Except.bind, pure, Except.pure, Except.map, Cell.num,
    List.range_succ, hb]

/-- C240 (partial).  The test matrix of the caller is unchanged if it is not an array of floats, if no imputation is asked for, or if it has
a number in every entry of the imputed columns; the training matrix is always copied. -/
theorem C240_test_untouched_partial {L : Type} (stat : List ℝ → ℝ) (f : ℝ) (d : ℕ) (train : List (List Cell))
    (test : Option (List (List Cell))) (targets : Option (List Cell)) (labels : Option (List L)) (mask : Option (List ℕ))
    (aliased : Bool) (h : aliased = false ∨ f ≤ 0 ∨ (f < 1 ∧ targets = none ∧
      ∀ t ∈ test, ∀ row ∈ t, ∀ j : ℕ, missing train j ≤ f → row[j]? ≠ some .nan)) :
    (cleanImpute stat f d train test targets labels mask aliased).2 = test := by
  unfold cleanImpute
  split
  · rfl
  · rename_i rows tg hrows
    split
    · rename_i h0
      split
      · rfl
      · rename_i train' test' hb
        rcases h with rfl | h | ⟨h1, rfl, hn⟩
        · rfl
        · exact absurd h0 (not_lt.mpr h)
        · cases hrows
          unfold imputeBoth at hb
          split at hb
          · cases hb
          · rename_i T hT
            have hne : train ≠ [] := by
              rintro rfl
              unfold transform at hT
              simp at hT
            split at hb
            · cases hb; cases aliased <;> rfl
            · rename_i X
              split at hb
              · cases hb
              · split at hb
                · cases hb
                · rename_i X' hX'
                  cases hb
                  have : X' = X := by
                    unfold transform at hX'
                    simp only at hX'
                    split at hX'
                    · cases hX'
                    · split at hX'
                      · cases hX'
                      · have hgood : ((List.range d).filter (toImpute f train)).filter (fun j => !(known train j).isEmpty)
                            = (List.range d).filter (toImpute f train) := by
                          rw [List.filter_eq_self]
                          intro j hj
                          have := numbers_ne f h1 train hne j ((toImpute_iff f train hne j).mp (List.mem_filter.mp hj).2)
                          rw [known_eq]
                          simpa using this
                        rw [hgood, if_pos rfl] at hX'
                        cases hX'
                        conv_rhs => rw [← List.map_id X]
                        refine List.map_congr_left fun row hrow => ?_
                        refine List.ext_getElem? fun j => ?_
                        rw [List.getElem?_mapIdx]
                        cases hc : row[j]? with
                        | none => simp [hc]
                        | some c =>
                          simp only [id, hc, Option.map_some]
                          split
                          · rename_i hs
                            have := hn X rfl row hrow j ((toImpute_iff f train hne j).mp hs)
                            cases c with
                            | nan => exact absurd hc this
                            | fin x => rfl
                            | inf => rfl
                          · rfl
                  cases aliased <;> simp [this]
    · rfl

example : ∀ row ∈ ([[.fin 1]] : List (List Cell)), ∀ j : ℕ, row[j]? ≠ some .nan := by
  intro row hrow j
  rw [List.mem_singleton.mp hrow]
  cases j <;> simp

/-- C240 is violated by every test matrix of floats with a nan in a column that is imputed: the call overwrites it. -/
theorem C240_test_untouched_violated {L : Type} (stat : List ℝ → ℝ) (f : ℝ) (h0 : 0 < f) (h1 : f < 1) (d : ℕ)
    (train : List (List Cell)) (hne : train ≠ []) (test : List (List Cell))
    (hte : ∀ r ∈ test, r.length = d) (labels : Option (List L)) (mask : Option (List ℕ)) (hinf : NoInf f train train)
    (hinf' : NoInf f train test) (i j : ℕ) (row : List Cell) (hi : test[i]? = some row) (hj : row[j]? = some .nan)
    (hf : missing train j ≤ f) :
    ∃ after row', (cleanImpute stat f d train (some test) none labels mask true).2 = some after ∧ after ≠ test ∧
      after[i]? = some row' ∧ row'[j]? = some (.fin (stat (numbers train j))) := by
  have hrow := List.mem_of_getElem? hi
  have hjd : j < d := by
    rw [← hte row hrow]
    exact (List.getElem?_eq_some_iff.mp hj).1
  have hT := transform_ok stat f h1 d train train hne hne ⟨j, hjd, hf⟩ hinf
  have hX := transform_ok stat f h1 d train test hne (List.ne_nil_of_mem hrow) ⟨j, hjd, hf⟩ hinf'
  have hw : test.all (fun r => r.length == d) = true := by simpa using hte
  have hval : (row.mapIdx fun j c => if toImpute f train j then c.fill (stat (known train j)) else c)[j]? =
      some (.fin (stat (numbers train j))) := by
    rw [List.getElem?_mapIdx, hj, Option.map_some, if_pos ((toImpute_iff f train hne j).mpr hf), known_eq]
    rfl
  refine ⟨_, _, ?_, ?_, by rw [List.getElem?_map, hi]; rfl, hval⟩
  · unfold cleanImpute
    simp only [targetRows, h0, if_true, imputeBoth, hT, hw, Bool.not_true, Bool.false_eq_true, if_false, hX]
  · intro h
    have := congrArg (fun X => X[i]?) h
    simp only [List.getElem?_map, hi, Option.map_some, Option.some.injEq] at this
    rw [this, hj] at hval
    cases hval

example : ∃ train test : List (List Cell), train ≠ [] ∧ test[0]? = some [.nan] ∧ missing train 0 ≤ 1 / 2 ∧ NoInf (1 / 2) train train ∧
    NoInf (1 / 2) train test := by
  refine ⟨[[.fin 1]], [[.nan]], by simp, rfl, by simp [missing, Cell.num], ?_, ?_⟩
  · intro row hrow j _
    rw [List.mem_singleton.mp hrow]
    cases j <;> simp
  · intro row hrow j _
    rw [List.mem_singleton.mp hrow]
    cases j <;> simp

end CatLearn.Impute
