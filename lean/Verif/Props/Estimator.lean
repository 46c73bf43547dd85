import Verif.Model.Estimator
import Verif.Props.Clean
import Verif.Props.KernelMisc
import Mathlib.Data.List.GetD
import Mathlib.Tactic.IntervalCases
import Mathlib.Algebra.BigOperators.Group.List.Basic
import Mathlib.Algebra.BigOperators.Ring.List

/-!
# The general estimator (C173, C174)
-/

namespace CatLearn.Props

open CatLearn CatLearn.Clean CatLearn.Spec CatLearn.Est

/-! ### Helpers -/

private theorem numbers_map_some (v : List ℝ) : numbers (v.map some) = some v := by
  induction v with
  | nil => rfl
  | cons a v ih => simp [numbers, ih]

/-- One column of a matrix of numbers. -/
def colOf (Y : List (List ℝ)) (j : Nat) : List ℝ := Y.map fun r => r.getD j 0

private theorem column_some (Y : List (List ℝ)) (k j : Nat) (hY : ∀ r ∈ Y, r.length = k) (hj : j < k) :
    column (Y.map (·.map some)) j = (colOf Y j).map some := by
  unfold column colOf
  induction Y with
  | nil => rfl
  | cons r Y ih =>
    have hr : j < r.length := by rw [hY r (by simp)]; exact hj
    rw [List.map_cons, List.filterMap_cons]
    simp only [List.getElem?_map, List.getElem?_eq_getElem hr, Option.map_some, List.map_cons,
      List.getD_eq_getElem _ _ hr]
    rw [ih fun r h => hY r (by simp [h])]

private theorem stdOf_eq (v : List ℝ) : stdOf v = Real.sqrt (variance v) := rfl

private theorem truePos_length (m : List Bool) : (truePos m).length = m.count true := by
  have h := boolIndex_eq m m rfl
  have hk : ∀ m : List Bool, (keep m m).length = m.count true := by
    intro m
    have : ∀ (m : List Bool) (l : List Bool), l.length = m.length → (keep m l).length = m.count true := by
      intro m
      induction m with
      | nil => simp [keep]
      | cons b m ih =>
        intro l hl
        cases l with
        | nil => simp at hl
        | cons a l =>
          have := ih l (by simpa using hl)
          simp only [keep, List.zip_cons_cons, List.filterMap_cons] at this ⊢
          cases b <;> simp [this]
    exact this m m rfl
  have hb : (boolIndex m m).length = (truePos m).length := by
    unfold boolIndex
    have : ∀ l : List Nat, (∀ j ∈ l, j < m.length) → (l.filterMap fun j => m[j]?).length = l.length := by
      intro l
      induction l with
      | nil => simp
      | cons a l ih =>
        intro h
        rw [List.filterMap_cons, List.getElem?_eq_getElem (h a (by simp))]
        simp only [List.length_cons]
        rw [ih fun j hj => h j (by simp [hj])]
    apply this
    intro j hj
    unfold truePos at hj
    simpa using (List.mem_filter.mp hj).1
  rw [← hb, h, hk]

private theorem keep_len {α : Type} (m : List Bool) (l : List α) (h : l.length = m.length) :
    (keep m l).length = m.count true := by
  induction m generalizing l with
  | nil => simp [keep]
  | cons b m ih =>
    cases l with
    | nil => simp at h
    | cons a l =>
      have := ih l (by simpa using h)
      simp only [keep, List.zip_cons_cons, List.filterMap_cons] at this ⊢
      cases b <;> simp [this]

private theorem keep_at {α : Type} (m : List Bool) (l : List α) (h : l.length = m.length) (x : α)
    (hx : x ∈ keep m l) : ∃ j : Nat, m[j]? = some true ∧ l[j]? = some x := by
  induction m generalizing l with
  | nil => simp [keep] at hx
  | cons b m ih =>
    cases l with
    | nil => simp at h
    | cons a l =>
      simp only [keep, List.zip_cons_cons, List.filterMap_cons] at hx
      have h' : l.length = m.length := by simpa using h
      cases b with
      | false =>
        obtain ⟨j, h1, h2⟩ := ih l h' hx
        exact ⟨j + 1, by simpa using h1, by simpa using h2⟩
      | true =>
        simp only [if_true, List.mem_cons] at hx
        rcases hx with rfl | hx
        · exact ⟨0, by simp, by simp⟩
        · obtain ⟨j, h1, h2⟩ := ih l h' hx
          exact ⟨j + 1, by simpa using h1, by simpa using h2⟩

/-- The variance index of `clean_variance`. -/
private theorem variance_index (d : Nat) (train : Mat) (test : Option Mat) (hte : ∀ t ∈ test, ∀ r ∈ t, r.length = d) :
    ∃ r : Cleaned (Option ℝ) Unit, cleanVariance d train test none none = .ok r ∧
      r.index = (List.range d).map fun j => !isCloseZero (nanStd (column train j)) := by
  cases test with
  | none => exact ⟨_, rfl, rfl⟩
  | some t =>
    have : t.all (fun r => r.length == d) = true := by
      rw [List.all_eq_true]; intro r hr; simpa using hte t rfl r hr
    refine ⟨⟨(List.range d).map fun j => !isCloseZero (nanStd (column train j)),
      train.map (boolIndex ((List.range d).map fun j => !isCloseZero (nanStd (column train j)))),
      some (t.map (boolIndex ((List.range d).map fun j => !isCloseZero (nanStd (column train j))))), none, none⟩, ?_, rfl⟩
    simp only [cleanVariance, selectColumns, this, if_true, bind, Except.bind, pure, Except.pure]

private theorem close_iff (v : List ℝ) (hv : v ≠ []) : isCloseZero (nanStd (v.map some)) = false ↔
    1e-8 + 1e-5 * Real.sqrt (variance v) < Real.sqrt (variance v) := by
  have h1 : (v.map some).filterMap (id : Option ℝ → Option ℝ) = v := by
    rw [List.filterMap_map]; simp
  have h2 : v.length ≠ 0 := by simpa using hv
  unfold nanStd
  simp only [h1, h2, if_false, isCloseZero]
  have h0 := Real.sqrt_nonneg ((v.map fun x => (x - v.sum / v.length) ^ 2).sum / v.length)
  rw [decide_eq_false_iff_not, not_le, zero_sub, abs_neg, abs_of_nonneg h0]
  rfl

/-- The columns `process` keeps, when every target is a number. -/
private theorem index_spec (d : Nat) (train : Mat) (htr : ∀ r ∈ train, r.length = d) (hne : train ≠ [])
    (targets : Option (List (Option ℝ))) (hta : ∀ t ∈ targets, t.length = train.length ∧ ∀ x ∈ t, x.isSome)
    (test : Option Mat) (hte : ∀ t ∈ test, ∀ r ∈ t, r.length = d) :
    ∃ index, eliminateIndex d train targets test = .ok index ∧ index.length = d ∧
      ∀ j < d, (index[j]? = some true ↔ ∃ v : List ℝ, train.map (fun r => r[j]?) = v.map (fun x => some (some x)) ∧
        1e-8 + 1e-5 * Real.sqrt (variance v) < Real.sqrt (variance v)) := by
  obtain ⟨r, kept, h1, h2, h3, h4, h5, h6, _⟩ := C18_clean_infinite (L := Unit) d train htr test hte targets
    (fun t ht => (hta t ht).1) none (by simp) none (by simp)
  obtain ⟨r', g1, g2⟩ := variance_index d train test hte
  have hk : kept = train := by
    cases targets with
    | none => exact (h3 rfl).1
    | some t =>
      rw [(h4 t rfl).1]
      obtain ⟨e1, e2⟩ := hta t rfl
      rw [List.filter_eq_self.mpr]
      · exact List.map_fst_zip (by omega)
      · intro p hp; exact e2 _ (List.of_mem_zip hp).2
  subst hk
  refine ⟨List.zipWith (· && ·) r.index r'.index, ?_, by simp [h2, g2], ?_⟩
  · simp only [eliminateIndex, h1, g1]
  · intro j hj
    have hlen : r'.index.length = d := by simp [g2]
    have hz : (List.zipWith (· && ·) r.index r'.index)[j]? = some (r.index[j]'(by omega) && r'.index[j]'(by omega)) := by
      rw [List.getElem?_eq_getElem (by simp [h2, hlen, hj])]
      simp
    have h6' := h6 j hj
    rw [List.getElem?_eq_getElem (by omega)] at h6'
    simp only [Option.some.injEq, reduceCtorEq, false_and, exists_false, or_false] at h6'
    rw [hz, Option.some.injEq, Bool.and_eq_true, h6']
    have hvar : r'.index[j]'(by omega) = !isCloseZero (nanStd (column kept j)) := by
      simp [g2]
    rw [hvar, Bool.not_eq_true']
    constructor
    · rintro ⟨a, b⟩
      have hv : ∀ K : Mat, (∀ row ∈ K, ∃ x, row[j]? = some (some x)) →
          ∃ v : List ℝ, K.map (fun r => r[j]?) = v.map (fun x => some (some x)) ∧ column K j = v.map some ∧
            v.length = K.length := by
        intro K
        induction K with
        | nil => intro _; exact ⟨[], rfl, rfl, rfl⟩
        | cons row K ih =>
          intro h
          obtain ⟨x, hx⟩ := h row (by simp)
          obtain ⟨v, e1, e2, e3⟩ := ih fun r hr => h r (by simp [hr])
          exact ⟨x :: v, by simp [hx, e1], by unfold column at e2 ⊢; simp [hx, e2], by simp [e3]⟩
      obtain ⟨v, e1, e2, e3⟩ := hv kept a
      refine ⟨v, e1, ?_⟩
      rw [e2] at b
      refine (close_iff v ?_).mp b
      rintro rfl
      exact hne (List.length_eq_zero_iff.mp (by simpa using e3.symm))
    · rintro ⟨v, e1, e2⟩
      have hc : column kept j = v.map some := by
        have : column kept j = (kept.map (fun row => row[j]?)).filterMap id := by
          rw [List.filterMap_map]; rfl
        rw [this, e1, List.filterMap_map]; simp
      have hv : v ≠ [] := by
        rintro rfl
        exact hne (by simpa using e1)
      refine ⟨?_, by rw [hc]; exact (close_iff v hv).mpr e2⟩
      intro row hrow
      have : row[j]? ∈ kept.map (fun row => row[j]?) := List.mem_map.mpr ⟨row, hrow, rfl⟩
      rw [e1] at this
      obtain ⟨x, _, hx⟩ := List.mem_map.mp this
      exact ⟨x, hx.symm⟩

/-- The affine map of one row: entry `j` goes to `(x - m j) / s j`, missing entries stay missing. -/
noncomputable def affineRow (m s : List ℝ) (row : List (Option ℝ)) : List (Option ℝ) :=
  List.zipWith (fun x p => x.map fun y => (y - p.1) / p.2) row (m.zip s)

private theorem scaleRow_some (m s : List ℝ) (row : List (Option ℝ)) :
    scaleRow (m.map some) (s.map some) row = affineRow m s row := by
  unfold scaleRow affineRow
  have h : (m.map some).zip (s.map some) = (m.zip s).map fun p => (some p.1, some p.2) := by
    rw [List.zip_map]; rfl
  rw [h, List.zipWith_map_right]
  congr 1
  funext x p
  cases x <;> rfl

private theorem sum_scaled (v : List ℝ) (hv : v ≠ []) (σ : ℝ) :
    (v.map fun x => (x - v.sum / v.length) / σ).sum = 0 := by
  have h : ∀ (l : List ℝ) (c : ℝ), (l.map fun x => (x - c) / σ).sum = (l.sum - l.length * c) / σ := by
    intro l c
    induction l with
    | nil => simp
    | cons a l ih => simp only [List.map_cons, List.sum_cons, ih, List.length_cons]; push_cast; ring
  have hn : (v.length : ℝ) ≠ 0 := by simpa using hv
  rw [h, mul_div_cancel₀ _ hn, sub_self, zero_div]

private theorem sum_sq_scaled (v : List ℝ) (hv : v ≠ []) (h0 : Real.sqrt (variance v) ≠ 0) :
    (v.map fun x => ((x - v.sum / v.length) / Real.sqrt (variance v)) ^ 2).sum = (v.length : ℝ) := by
  have hn : (v.length : ℝ) ≠ 0 := by simpa using hv
  have hpos : 0 < variance v := by
    by_contra h
    exact h0 (Real.sqrt_eq_zero_of_nonpos (not_lt.mp h))
  have h : ∀ (l : List ℝ) (c σ : ℝ), (l.map fun x => ((x - c) / σ) ^ 2).sum =
      (l.map fun x => (x - c) ^ 2).sum / σ ^ 2 := by
    intro l c σ
    induction l with
    | nil => simp
    | cons a l ih => simp only [List.map_cons, List.sum_cons, ih]; rw [div_pow]; ring
  rw [h, Real.sq_sqrt hpos.le]
  have : (v.map fun x => (x - v.sum / v.length) ^ 2).sum = variance v * v.length := by
    unfold variance; rw [div_mul_cancel₀ _ hn]
  rw [this, mul_comm, mul_div_assoc, div_self hpos.ne', mul_one]

/-- Everything `process` does, and the attributes it leaves, when every target is a number. -/
theorem process_spec (st : Prep) (d : Nat) (train : Mat) (htr : ∀ r ∈ train, r.length = d) (hne : train ≠ [])
    (targets : Option (List (Option ℝ))) (hta : ∀ t ∈ targets, t.length = train.length ∧ ∀ x ∈ t, x.isSome)
    (test : Option Mat) (hte : ∀ t ∈ test, ∀ r ∈ t, r.length = d) :
    ∃ (st' : Prep) (out : Processed) (index : List Bool) (m s : List ℝ) (Z : List (List ℝ)),
      process true st d train targets test = (st', .ok out) ∧ st' = ⟨some index, some (m.map some, s.map some)⟩ ∧ out.targets = targets ∧ index.length = d ∧
      (∀ j < d, (index[j]? = some true ↔ ∃ v : List ℝ, train.map (fun r => r[j]?) = v.map (fun x => some (some x)) ∧
        1e-8 + 1e-5 * Real.sqrt (variance v) < Real.sqrt (variance v))) ∧
      m.length = index.count true ∧ s.length = index.count true ∧ (∀ x ∈ s, 0 < x) ∧
      out.train = train.map (fun r => affineRow m s (keep index r)) ∧
      out.test = test.map (fun t => t.map fun r => affineRow m s (keep index r)) ∧
      out.train = Z.map (·.map some) ∧ Z.length = train.length ∧ (∀ r ∈ Z, r.length = index.count true) ∧
      ∀ j < index.count true, (colOf Z j).sum = 0 ∧ ((colOf Z j).map fun x => x ^ 2).sum = (Z.length : ℝ) := by
  obtain ⟨index, h1, h2, h3⟩ := index_spec d train htr hne targets hta test hte
  set k := index.count true with hk
  have hrow : ∀ r ∈ train, r.length = index.length := fun r hr => by rw [h2]; exact htr r hr
  -- the kept entries are numbers
  set Y : List (List ℝ) := train.map fun r => (keep index r).map (·.getD 0) with hY
  have hfin : ∀ r ∈ train, ∀ x ∈ keep index r, ∃ y, x = some y := by
    intro r hr x hx
    obtain ⟨j, a, b⟩ := keep_at index r (hrow r hr) x hx
    have hj : j < d := by
      rw [← h2]; exact (List.getElem?_eq_some_iff.mp a).1
    obtain ⟨v, e, _⟩ := (h3 j hj).mp a
    have : r[j]? ∈ train.map (fun r => r[j]?) := List.mem_map.mpr ⟨r, hr, rfl⟩
    rw [e] at this
    obtain ⟨y, _, hy⟩ := List.mem_map.mp this
    rw [b] at hy
    exact ⟨y, by simpa using hy.symm⟩
  have hXY : train.map (boolIndex index) = Y.map (·.map some) := by
    rw [hY, List.map_map]
    apply List.map_congr_left
    intro r hr
    rw [boolIndex_eq _ _ (hrow r hr)]
    simp only [Function.comp, List.map_map]
    symm
    conv_rhs => rw [← List.map_id (keep index r)]
    apply List.map_congr_left
    intro x hx
    obtain ⟨y, rfl⟩ := hfin r hr x hx
    simp
  have hYl : ∀ y ∈ Y, y.length = k := by
    intro y hy
    obtain ⟨r, hr, rfl⟩ := List.mem_map.mp hy
    rw [List.length_map, keep_len _ _ (hrow r hr)]
  have hYn : Y.length = train.length := by simp [hY]
  have hYne : ∀ j, colOf Y j ≠ [] := by
    intro j h
    have : (colOf Y j).length = train.length := by simp [colOf, hYn]
    rw [h] at this
    exact hne (List.length_eq_zero_iff.mp (by simpa using this.symm))
  clear_value Y
  -- kept columns vary
  have hvar : ∀ j < k, 0 < Real.sqrt (variance (colOf Y j)) := by
    intro j hj
    have hj' : j < (truePos index).length := by rw [truePos_length]; exact hj
    have ht : (truePos index)[j]? = some (truePos index)[j] := List.getElem?_eq_getElem hj'
    set i := (truePos index)[j] with hi
    have hmem : i ∈ truePos index := List.getElem_mem hj'
    have hi2 : i < index.length ∧ index[i]? = some true := by
      unfold truePos at hmem
      obtain ⟨a, b⟩ := List.mem_filter.mp hmem
      have a' : i < index.length := by simpa using a
      refine ⟨a', ?_⟩
      rw [List.getElem?_eq_getElem a'] at b ⊢
      simpa using b
    obtain ⟨v, e1, e2⟩ := (h3 i (by rw [← h2]; exact hi2.1)).mp hi2.2
    have hc := column_keep index train hrow j i ht
    have hc1 : column train i = v.map some := by
      have : column train i = (train.map (fun row => row[i]?)).filterMap id := by
        rw [List.filterMap_map]; rfl
      rw [this, e1, List.filterMap_map]; simp
    have hc2 : column (train.map (keep index)) j = (colOf Y j).map some := by
      have : train.map (keep index) = Y.map (·.map some) := by
        rw [← hXY]
        apply List.map_congr_left
        intro r hr
        exact (boolIndex_eq _ _ (hrow r hr)).symm
      rw [this]
      exact column_some Y k j hYl hj
    rw [hc2, hc1] at hc
    have hv : colOf Y j = v := (List.map_injective_iff.mpr (Option.some_injective ℝ)) hc
    rw [hv]
    have := Real.sqrt_nonneg (variance v)
    by_contra hcon
    have hz : Real.sqrt (variance v) = 0 := le_antisymm (not_lt.mp hcon) this
    rw [hz] at e2
    norm_num at e2
  set m : List ℝ := (List.range k).map fun j => (colOf Y j).sum / (colOf Y j).length with hm
  set s : List ℝ := (List.range k).map fun j => Real.sqrt (variance (colOf Y j)) with hs
  set Z : List (List ℝ) := Y.map fun y => List.zipWith (fun x p => (x - p.1) / p.2) y (m.zip s) with hZ
  have hml : m.length = k := by simp [hm]
  have hsl : s.length = k := by simp [hs]
  have hmean : ((List.range (truePos index).length).map fun j => mean1 (column (Y.map (·.map some)) j)) = m.map some := by
    simp only [hm]
    rw [truePos_length, List.map_map (l := List.range k)]
    apply List.map_congr_left
    intro j hj
    rw [column_some Y k j hYl (List.mem_range.mp hj)]
    simp [mean1, numbers_map_some]
  have hstd : ((List.range (truePos index).length).map fun j => std1 (column (Y.map (·.map some)) j)) = s.map some := by
    simp only [hs]
    rw [truePos_length, List.map_map (l := List.range k)]
    apply List.map_congr_left
    intro j hj
    rw [column_some Y k j hYl (List.mem_range.mp hj)]
    have := hvar j (List.mem_range.mp hj)
    simp only [std1, numbers_map_some, Option.map_some, stdOf_eq, this.ne', if_false, Function.comp]
  have haff : ∀ y : List ℝ, affineRow m s (y.map some) =
      (List.zipWith (fun x p => (x - p.1) / p.2) y (m.zip s)).map some := by
    intro y
    unfold affineRow
    rw [List.zipWith_map_left, List.map_zipWith]
    rfl
  refine ⟨⟨some index, some (m.map some, s.map some)⟩, ⟨train.map (fun r => affineRow m s (keep index r)), targets,
    test.map (fun t => t.map fun r => affineRow m s (keep index r))⟩, index, m, s, Z, ?_, rfl, rfl, h2, h3, hml, hsl, ?_, rfl,
    rfl, ?_, ?_, ?_, ?_⟩
  · have hne' : ¬ (train.map (boolIndex index)).length = 0 := by simpa using hne
    simp only [process, Bool.not_true, Bool.false_eq_true, if_false, h1, hne']
    rw [hXY, hmean, hstd]
    refine Prod.ext rfl ?_
    simp only [Except.ok.injEq, Processed.mk.injEq, true_and]
    refine ⟨?_, ?_⟩
    · rw [← hXY, List.map_map]
      apply List.map_congr_left
      intro r hr
      simp only [Function.comp, scaleRow_some, boolIndex_eq _ _ (hrow r hr)]
    · cases test with
      | none => rfl
      | some t =>
        simp only [Option.map_some, Option.some.injEq, List.map_map]
        apply List.map_congr_left
        intro r hr
        have : r.length = index.length := by rw [h2]; exact hte t rfl r hr
        simp only [Function.comp, scaleRow_some, boolIndex_eq _ _ this]
  · intro x hx
    obtain ⟨j, hj, rfl⟩ := List.mem_map.mp hx
    exact hvar j (List.mem_range.mp hj)
  · have : train.map (fun r => affineRow m s (keep index r)) = (train.map (boolIndex index)).map (affineRow m s) := by
      rw [List.map_map]
      apply List.map_congr_left
      intro r hr
      simp only [Function.comp, boolIndex_eq _ _ (hrow r hr)]
    simp only [this, hXY, hZ, List.map_map]
    apply List.map_congr_left
    intro y _
    exact haff y
  · simp [hZ, hYn]
  · intro r hr
    obtain ⟨y, hy, rfl⟩ := List.mem_map.mp hr
    simp [hYl y hy, hml, hsl, hk]
  · intro j hj
    have hcol : colOf Z j = (colOf Y j).map fun x => (x - (colOf Y j).sum / (colOf Y j).length) /
        Real.sqrt (variance (colOf Y j)) := by
      simp only [hZ]
      unfold colOf
      rw [List.map_map, List.map_map]
      apply List.map_congr_left
      intro y hy
      have hyl := hYl y hy
      have hz : j < (List.zipWith (fun x p => (x - p.1) / p.2) y (m.zip s)).length := by
        simp only [List.length_zipWith, List.length_zip, hyl, hml, hsl, min_self]; exact hj
      simp only [Function.comp]
      rw [List.getD_eq_getElem _ _ hz, List.getD_eq_getElem _ _ (by omega)]
      simp [hm, hs, colOf]
    have hlen : ((colOf Y j).length : ℝ) = (Z.length : ℝ) := by simp [colOf, hZ]
    rw [hcol]
    refine ⟨sum_scaled _ (hYne j) _, ?_⟩
    rw [List.map_map, ← hlen]
    exact sum_sq_scaled _ (hYne j) (hvar j hj).ne'

/-- C173 (`_partial`: every target is a number): `process` keeps exactly the columns that are finite in every training
row and vary (beyond the tolerance of `np.isclose`), in order; training and test matrix go through the same affine map,
every training entry that comes out is a number, every column that comes out has mean 0 and variance 1, no row is lost,
and the targets are returned. -/
theorem C173_process_partial (st : Prep) (d : Nat) (train : Mat) (htr : ∀ r ∈ train, r.length = d) (hne : train ≠ [])
    (targets : Option (List (Option ℝ))) (hta : ∀ t ∈ targets, t.length = train.length ∧ ∀ x ∈ t, x.isSome)
    (test : Option Mat) (hte : ∀ t ∈ test, ∀ r ∈ t, r.length = d) :
    ∃ (st' : Prep) (out : Processed) (index : List Bool) (m s : List ℝ) (Z : List (List ℝ)),
      process true st d train targets test = (st', .ok out) ∧ out.targets = targets ∧ index.length = d ∧
      (∀ j < d, (index[j]? = some true ↔ ∃ v : List ℝ, train.map (fun r => r[j]?) = v.map (fun x => some (some x)) ∧
        1e-8 + 1e-5 * Real.sqrt (variance v) < Real.sqrt (variance v))) ∧
      m.length = index.count true ∧ s.length = index.count true ∧ (∀ x ∈ s, 0 < x) ∧
      out.train = train.map (fun r => affineRow m s (keep index r)) ∧
      out.test = test.map (fun t => t.map fun r => affineRow m s (keep index r)) ∧
      out.train = Z.map (·.map some) ∧ Z.length = train.length ∧ (∀ r ∈ Z, r.length = index.count true) ∧
      ∀ j < index.count true, (colOf Z j).sum = 0 ∧ ((colOf Z j).map fun x => x ^ 2).sum = (Z.length : ℝ) := by
  obtain ⟨st', out, index, m, s, Z, h1, -, h⟩ := process_spec st d train htr hne targets hta test hte
  exact ⟨st', out, index, m, s, Z, h1, h⟩

example : (∀ r ∈ ([[some 0, none], [some 1, some 2]] : Mat), r.length = 2) ∧
    (∀ t ∈ some [some (1 : ℝ), some 2], t.length = ([[some 0, none], [some 1, some 2]] : Mat).length ∧
      ∀ x ∈ t, x.isSome) := by
  simp

/-- What a successful `process` leaves in the attributes. -/
private theorem process_ok {st st' : Prep} {d : Nat} {train : Mat} {targets : Option (List (Option ℝ))}
    {test : Option Mat} {out : Processed} (h : process true st d train targets test = (st', .ok out)) :
    ∃ index m s, index.length = d ∧ m.length = (truePos index).length ∧ st' = ⟨some index, some (m, s)⟩ ∧
      out.train = train.map (fun r => scaleRow m s (boolIndex index r)) ∧
      out.test = test.map fun t => t.map fun r => scaleRow m s (boolIndex index r) := by
  unfold process at h
  simp only [Bool.not_true, Bool.false_eq_true, if_false] at h
  cases hi : eliminateIndex d train targets test with
  | error e => simp [hi] at h
  | ok index =>
    simp only [hi] at h
    split at h
    · simp at h
    · simp only [Prod.mk.injEq, Except.ok.injEq] at h
      obtain ⟨rfl, rfl⟩ := h
      refine ⟨index, _, _, ?_, ?_, rfl, ?_, ?_⟩
      · unfold eliminateIndex at hi
        cases h1 : (cleanInfinite d train test targets none none : Except PyErr (Cleaned (Option ℝ) Unit)) with
        | error e => simp [h1] at hi
        | ok r =>
          cases h2 : (cleanVariance d train test none none : Except PyErr (Cleaned (Option ℝ) Unit)) with
          | error e => simp [h1, h2] at hi
          | ok r' =>
            simp only [h1, h2, Except.ok.injEq] at hi
            subst hi
            have e1 : r.index.length = d := by
              simp only [cleanInfinite, bind, Except.bind, pure, Except.pure] at h1
              cases hf : finiteRows train targets with
              | error e => simp [hf] at h1
              | ok rows =>
                simp only [hf, finiteCols] at h1
                cases test with
                | none => simp at h1; rw [← h1]; simp
                | some t =>
                  simp only at h1
                  split at h1
                  · simp at h1; rw [← h1]; simp
                  · exact absurd h1 (by simp [throw, throwThe, MonadExceptOf.throw])
            have e2 : r'.index.length = d := by
              simp only [cleanVariance, selectColumns, bind, Except.bind, pure, Except.pure] at h2
              cases test with
              | none => simp at h2; rw [← h2]; simp
              | some t =>
                simp only at h2
                split at h2
                · simp at h2; rw [← h2]; simp
                · exact absurd h2 (by simp [throw, throwThe, MonadExceptOf.throw])
            simp [e1, e2]
      · simp
      · simp [List.map_map, Function.comp_def]
      · cases test <;> simp [List.map_map, Function.comp_def]

/-- C173: after `process`, `transform` of the test matrix (or of the training matrix) is what `process` returned for it;
so features that come later go through the same columns, offsets and scales. -/
theorem C173_transform (st st' : Prep) (d : Nat) (train : Mat) (targets : Option (List (Option ℝ)))
    (test : Option Mat) (out : Processed) (h : process true st d train targets test = (st', .ok out)) :
    transform true st' d train = .ok out.train ∧
    ∀ t, test = some t → ∃ o, out.test = some o ∧ transform true st' d t = .ok o := by
  obtain ⟨index, m, s, h1, h2, rfl, h3, h4⟩ := process_ok h
  refine ⟨by simp [transform, h1, h2, h3], ?_⟩
  rintro t rfl
  exact ⟨_, h4, by simp [transform, h1, h2]⟩

/-- C173: an object that never processed data refuses to transform (AttributeError), and methods for missing data other
than elimination are refused without changing the object (NotImplementedError). -/
theorem C173_refused (e : Bool) (d : Nat) (X : Mat) (st : Prep) (train : Mat) (targets : Option (List (Option ℝ)))
    (test : Option Mat) :
    transform e ⟨none, none⟩ d X = .error .attribute ∧
    process false st d train targets test = (st, .error .notImpl) := ⟨rfl, rfl⟩

/-- C173 fails when a target is missing: its row stays, with the missing target; a feature that is missing in that row
only is kept (the row is ignored when columns are judged) and comes out missing in every row, for any numbers in the
good rows. -/
theorem C173_missing_target_violated (st : Prep) (x y a b : ℝ) (hxy : 3e-8 ≤ y - x) :
    ∃ st' out, process true st 1 [[some x], [some y], [none]] (some [some a, some b, none]) none = (st', .ok out) ∧
      out.train = [[none], [none], [none]] ∧ out.targets = some [some a, some b, none] := by
  have hc : isCloseZero (nanStd [some x, some y, none]) = false := by
    have h := (close_iff [x, y] (by simp)).mpr ?_
    · simpa [nanStd] using h
    · have hv : variance [x, y] = ((y - x) / 2) ^ 2 := by
        simp [variance]; ring
      rw [hv, Real.sqrt_sq (by linarith)]
      linarith
  have hi : eliminateIndex 1 [[some x], [some y], [none]] (some [some a, some b, none]) none = .ok [true] := by
    simp [eliminateIndex, cleanInfinite, finiteRows, finiteCols, boolIndex, truePos, cleanVariance, selectColumns, bind,
      Except.bind, pure, Except.pure, column, hc, List.range_succ]
  refine ⟨⟨some [true], some ([none], [none])⟩, ⟨[[none], [none], [none]], some [some a, some b, none], none⟩,
    ?_, rfl, rfl⟩
  simp [process, hi, boolIndex, truePos, column, mean1, std1, numbers, scaleRow, scale1, List.range_succ]

example : (3e-8 : ℝ) ≤ 2 - 1 := by norm_num

/-- C173 fails when no feature is left: constant features are all eliminated and no error is raised ("All features has
been eliminated" is only raised for a matrix without rows); the result has rows without entries. -/
theorem C173_all_eliminated_violated (st : Prep) (d n : Nat) (c : ℝ) :
    ∃ st' out, process true st d (List.replicate (n + 1) (List.replicate d (some c))) none none = (st', .ok out) ∧
      out.train = List.replicate (n + 1) [] := by
  have hrow : ∀ r ∈ List.replicate (n + 1) (List.replicate d (some c)), r.length = d := by
    intro r hr; rw [(List.mem_replicate.mp hr).2]; simp
  obtain ⟨st', out, index, m, s, Z, h1, -, h2, h3, -, -, -, -, -, h4, h5, h6, -⟩ := C173_process_partial st d
    (List.replicate (n + 1) (List.replicate d (some c))) hrow (by simp) none (by simp) none (by simp)
  refine ⟨st', out, h1, ?_⟩
  have h0 : index.count true = 0 := by
    rw [List.count_eq_zero]
    intro hm
    obtain ⟨j, hj, e⟩ := List.mem_iff_getElem.mp hm
    obtain ⟨v, e1, e2⟩ := (h3 j (by omega)).mp (by rw [List.getElem?_eq_getElem hj, e])
    have hv : v = List.replicate (n + 1) c := by
      have hjd : j < d := by omega
      simp only [List.map_replicate, List.getElem?_replicate, hjd, if_true] at e1
      have hl : v.length = n + 1 := by
        have := congrArg List.length e1; simpa using this.symm
      rw [List.eq_replicate_iff]
      refine ⟨hl, ?_⟩
      intro x hx
      have : some (some x) ∈ v.map fun x => some (some x) := List.mem_map.mpr ⟨x, hx, rfl⟩
      rw [← e1] at this
      simpa using (List.mem_replicate.mp this).2
    have hz : variance v = 0 := by
      rw [hv]
      have : ((n : ℝ) + 1) ≠ 0 := by positivity
      simp [variance, this]
    rw [hz, Real.sqrt_zero] at e2
    norm_num at e2
  rw [h4, List.eq_replicate_iff]
  refine ⟨by simpa using h5, ?_⟩
  intro r hr
  obtain ⟨z, hz, rfl⟩ := List.mem_map.mp hr
  have := h6 z hz
  rw [h0] at this
  simp [List.length_eq_zero_iff.mp this]

/-- C173 fails after a `process` that raises: the object has the new columns but the old offsets and scales, so that
every `transform`, possible before, now raises ValueError. -/
theorem C173_failed_process_violated (st st' : Prep) (d : Nat) (train : Mat) (targets : Option (List (Option ℝ)))
    (test : Option Mat) (out : Processed) (h : process true st d train targets test = (st', .ok out))
    (htr : ∀ r ∈ train, r.length = d) (r : List (Option ℝ)) (hr : r ∈ out.train) (hlen : r.length < d) :
    ∃ st'', process true st' d [] none none = (st'', .error .assertion) ∧
      ∀ X, (∃ o, transform true st' d X = .ok o) ∧ transform true st'' d X = .error .value := by
  obtain ⟨index, m, s, h1, h2, rfl, h3, h4⟩ := process_ok h
  have hi : eliminateIndex d [] none none = .ok (List.replicate d true) := by
    have : (List.range d).map (fun _ => true) = List.replicate d true := by
      rw [List.eq_replicate_iff]; simp
    simp [eliminateIndex, cleanInfinite, finiteRows, finiteCols, cleanVariance, selectColumns, bind, Except.bind, pure,
      Except.pure, column, nanStd, isCloseZero, this]
  refine ⟨⟨some (List.replicate d true), some (m, s)⟩, by simp [process, hi], ?_⟩
  intro X
  refine ⟨⟨X.map fun r => scaleRow m s (boolIndex index r), by simp [transform, h1, h2]⟩, ?_⟩
  have hne : d ≠ m.length := by
    rw [h3] at hr
    obtain ⟨r0, hr0, rfl⟩ := List.mem_map.mp hr
    intro hd
    have hb : (boolIndex index r0).length = index.count true := by
      have : r0.length = index.length := by rw [h1]; exact htr r0 hr0
      rw [boolIndex_eq _ _ this, keep_len _ _ this]
    have hsl : s.length = m.length := by
      unfold process at h
      simp only [Bool.not_true, Bool.false_eq_true, if_false] at h
      cases hi : eliminateIndex d train targets test with
      | error e => simp [hi] at h
      | ok index' =>
        simp only [hi] at h
        split at h
        · simp at h
        · simp only [Prod.mk.injEq, Prep.mk.injEq, Option.some.injEq] at h
          rw [← h.1.2.1, ← h.1.2.2]; simp
    rw [truePos_length] at h2
    simp only [scaleRow, List.length_zipWith, List.length_zip, hb, hsl, min_self, ← h2] at hlen
    omega
  simp [transform, truePos_length, hne]

/-! ### Default kernels -/

private theorem variance_unit (v : List ℝ) (hv : v ≠ []) (h0 : v.sum = 0) (h2 : (v.map fun x => x ^ 2).sum = (v.length : ℝ)) :
    stdOf v = 1 := by
  have hn : (v.length : ℝ) ≠ 0 := by simpa using hv
  unfold stdOf
  simp only [h0, zero_div, sub_zero, h2, div_self hn, Real.sqrt_one]

private theorem sum_flatten_eq (f : ℝ → ℝ) (Z : List (List ℝ)) (k : Nat) (hZ : ∀ r ∈ Z, r.length = k) :
    (Z.flatten.map f).sum = ((List.range k).map fun j => ((colOf Z j).map f).sum).sum := by
  induction Z with
  | nil => simp [colOf]
  | cons r Z ih =>
    have hr : (r.map f).sum = ((List.range k).map fun j => f (r.getD j 0)).sum := by
      congr 1
      apply List.ext_getElem
      · simp [hZ r (by simp)]
      · intro i h1 h2
        have : i < r.length := by simpa using h1
        simp [List.getD_eq_getElem _ _ this, this]
    rw [List.flatten_cons, List.map_append, List.sum_append, ih fun r h => hZ r (by simp [h]), hr,
      ← List.sum_map_add]
    congr 1

private theorem filterMap_col (Z : List (List ℝ)) (k j : Nat) (hZ : ∀ r ∈ Z, r.length = k) (hj : j < k) :
    (Z.filterMap fun r => r[j]?) = colOf Z j := by
  unfold colOf
  induction Z with
  | nil => rfl
  | cons r Z ih =>
    have hr : j < r.length := by rw [hZ r (by simp)]; exact hj
    rw [List.filterMap_cons]
    simp only [List.getElem?_eq_getElem hr, List.map_cons, List.getD_eq_getElem _ _ hr]
    rw [ih fun r h => hZ r (by simp [h])]

/-- C174: for data whose columns have mean 0 and variance 1, as `process` gives them (C173), the default length scale is
exactly 1, over all entries or for each feature. -/
theorem C174_unit_length (k : Nat) (hk : 0 < k) (Z : List (List ℝ)) (hne : Z ≠ []) (hZ : ∀ r ∈ Z, r.length = k)
    (hs : ∀ j < k, (colOf Z j).sum = 0 ∧ ((colOf Z j).map fun x => x ^ 2).sum = (Z.length : ℝ)) :
    defaultLengthscale k Z "single" = .ok (.scalar 1) ∧
    defaultLengthscale k Z "features" = .ok (.list (List.replicate k 1)) := by
  have hlen : ∀ j, (colOf Z j).length = Z.length := fun j => by simp [colOf]
  constructor
  · have h1 : stdOf Z.flatten = 1 := by
      have hfl : Z.flatten.length = k * Z.length := by
        clear hs hlen hne
        induction Z with
        | nil => simp
        | cons r Z ih =>
          rw [List.flatten_cons, List.length_append, hZ r (by simp), ih fun r h => hZ r (by simp [h]), List.length_cons]
          ring
      apply variance_unit
      · intro h
        rw [h] at hfl
        have : Z.length = 0 := by
          rcases Nat.mul_eq_zero.mp hfl.symm with h | h
          · omega
          · exact h
        exact hne (List.length_eq_zero_iff.mp this)
      · have := sum_flatten_eq (fun x => x) Z k hZ
        simp only [List.map_id'] at this
        rw [this]
        have h0 : (List.range k).map (fun j => (colOf Z j).sum) = List.replicate k 0 := by
          rw [List.eq_replicate_iff]
          refine ⟨by simp, ?_⟩
          intro x hx
          obtain ⟨j, hj, rfl⟩ := List.mem_map.mp hx
          exact (hs j (List.mem_range.mp hj)).1
        rw [h0]; simp
      · rw [sum_flatten_eq (fun x => x ^ 2) Z k hZ, hfl]
        have h0 : (List.range k).map (fun j => ((colOf Z j).map fun x => x ^ 2).sum) = List.replicate k (Z.length : ℝ) := by
          rw [List.eq_replicate_iff]
          refine ⟨by simp, ?_⟩
          intro x hx
          obtain ⟨j, hj, rfl⟩ := List.mem_map.mp hx
          exact (hs j (List.mem_range.mp hj)).2
        rw [h0]; simp
    simp [defaultLengthscale, h1]
  · have h1 : (List.range k).map (fun j => stdOf (Z.filterMap fun r => r[j]?)) = List.replicate k 1 := by
      rw [List.eq_replicate_iff]
      refine ⟨by simp, ?_⟩
      intro x hx
      obtain ⟨j, hj, rfl⟩ := List.mem_map.mp hx
      have hj := List.mem_range.mp hj
      rw [filterMap_col Z k j hZ hj]
      apply variance_unit
      · intro h
        have := hlen j
        rw [h] at this
        exact hne (List.length_eq_zero_iff.mp (by simpa using this.symm))
      · exact (hs j hj).1
      · rw [(hs j hj).2, hlen j]
    simp [defaultLengthscale, h1]

example : (0 : Nat) < 1 ∧ ([[1], [-1]] : List (List ℝ)) ≠ [] ∧
    ∀ j < 1, (colOf [[1], [-1]] j).sum = 0 ∧ ((colOf [[1], [-1]] j).map fun x => x ^ 2).sum =
      (([[1], [-1]] : List (List ℝ)).length : ℝ) := by
  refine ⟨by omega, by simp, ?_⟩
  intro j hj
  interval_cases j
  norm_num [colOf]

/-- C174 (`_partial`: the Laplacian kernel does not follow `dimension`, see `C174_laplacian_violated`): both default
kernel lists are accepted by `prepare_kernels` whenever the default length scale is positive, and have the documented
kernels in order, with one width or slope for 'single' and one for each feature for 'features'. -/
theorem C174_prepared_partial (N : Nat) (X : List (List ℝ)) (dimension : String) (l : List ℝ)
    (hl : (dimension = "single" ∧ l = [stdOf X.flatten]) ∨
      (dimension = "features" ∧ l = (List.range N).map fun j => stdOf (X.filterMap fun r => r[j]?)))
    (hpos : ∀ t ∈ l, 0 < t) :
    (∃ ks w, generalKernel N X dimension = .ok ks ∧ w.length = N ∧ (dimension = "features" → w = l) ∧
      Kernel.prepareKernels ks = .ok ([⟨.linear, none, some 1, false⟩, ⟨.constant 1, none, none, false⟩,
        ⟨.gaussian l, none, some 1, false⟩, ⟨.quadratic l 1, none, some 1, false⟩, ⟨.laplacian w, none, some 1, false⟩],
        2 * l.length + N + 7)) ∧
    ∃ ks, smoothKernel N X dimension = .ok ks ∧
      Kernel.prepareKernels ks = .ok ([⟨.gaussian l, none, some 1, false⟩], l.length + 2) := by
  rcases hl with ⟨rfl, rfl⟩ | ⟨rfl, rfl⟩
  · have hp : 0 < stdOf X.flatten := hpos _ (by simp)
    refine ⟨⟨_, List.replicate N (stdOf X.flatten), rfl, by simp, by simp, ?_⟩, ⟨_, rfl, ?_⟩⟩
    · simp [Kernel.prepareKernels, Kernel.prepKernel, Kernel.featureCount, Kernel.formatParam, hp, bind, Except.bind,
        pure, Except.pure, List.mapM_cons]
      omega
    · simp [Kernel.prepareKernels, Kernel.prepKernel, Kernel.featureCount, Kernel.formatParam, hp, bind, Except.bind,
        pure, Except.pure, List.mapM_cons]
  · have hlen : ((List.range N).map fun j => stdOf (X.filterMap fun r => r[j]?)).length = N := by simp
    have hd : defaultLengthscale N X "features" =
        .ok (.list ((List.range N).map fun j => stdOf (X.filterMap fun r => r[j]?))) := by
      simp [defaultLengthscale]
    generalize hg : ((List.range N).map fun j => stdOf (X.filterMap fun r => r[j]?)) = l at *
    have hgauss : (∀ t ∈ l, 0 < t) = True := eq_true hpos
    refine ⟨⟨_, l, by simp only [generalKernel, hd]; rfl, hlen, fun _ => rfl, ?_⟩, ⟨_, by simp only [smoothKernel, hd]; rfl, ?_⟩⟩
    · simp [Kernel.prepareKernels, Kernel.prepKernel, Kernel.featureCount, Kernel.formatParam, hlen, hgauss, bind,
        Except.bind, pure, Except.pure, List.mapM_cons]
      omega
    · simp [Kernel.prepareKernels, Kernel.prepKernel, Kernel.featureCount, Kernel.formatParam, hlen, hgauss, bind,
        Except.bind, pure, Except.pure, List.mapM_cons]
      omega

example : ("single" = "single" ∧ [(1 : ℝ)] = [stdOf ([[1], [-1]] : List (List ℝ)).flatten]) ∧
    ∀ t ∈ [(1 : ℝ)], 0 < t := by
  refine ⟨⟨rfl, ?_⟩, by simp⟩
  norm_num [stdOf]

/-- C174 fails for the general kernel list: the Laplacian kernel has one width for each feature also when a single
parameter is asked for. -/
theorem C174_laplacian_violated (N : Nat) (hN : 2 ≤ N) (X : List (List ℝ)) (hpos : 0 < stdOf X.flatten) :
    ∃ ks ps nb w, generalKernel N X "single" = .ok ks ∧ Kernel.prepareKernels ks = .ok (ps, nb) ∧
      (⟨.laplacian w, none, some 1, false⟩ : Kernel.PDict N) ∈ ps ∧ w.length ≠ 1 := by
  obtain ⟨⟨ks, w, h1, h2, -, h3⟩, -⟩ := C174_prepared_partial N X "single" [stdOf X.flatten] (.inl ⟨rfl, rfl⟩) (by simpa)
  exact ⟨ks, _, _, w, h1, h3, by simp, by omega⟩

example : 0 < stdOf ([[1, 1], [-1, -1]] : List (List ℝ)).flatten := by
  norm_num [stdOf]

/-- C174 fails for the documented dimension 'all' (as for every value but 'single' and 'features'): AssertionError. -/
theorem C174_all_violated (N : Nat) (X : List (List ℝ)) :
    generalKernel N X "all" = .error .assertion ∧ smoothKernel N X "all" = .error .assertion := by
  constructor <;> rfl

/-- C174: when no feature is left, the single length scale is not positive and the preparation of both kernel lists
fails with an AssertionError. -/
theorem C174_no_features (N : Nat) (X : List (List ℝ)) (hX : ∀ r ∈ X, r = []) :
    ∃ ks ks', generalKernel N X "single" = .ok ks ∧ smoothKernel N X "single" = .ok ks' ∧
      Kernel.prepareKernels ks = .error .assertion ∧ Kernel.prepareKernels ks' = .error .assertion := by
  have hf : X.flatten = [] := by rw [List.flatten_eq_nil_iff]; exact hX
  have hs : stdOf X.flatten = 0 := by rw [hf]; simp [stdOf]
  refine ⟨_, _, rfl, rfl, ?_⟩
  constructor
  · simp [Kernel.prepareKernels, Kernel.prepKernel, Kernel.featureCount, Kernel.formatParam, hs, bind, Except.bind,
      pure, Except.pure, List.mapM_cons, throw, throwThe, MonadExceptOf.throw]
  · simp [Kernel.prepareKernels, Kernel.prepKernel, Kernel.featureCount, Kernel.formatParam, hs, bind, Except.bind,
      pure, Except.pure, List.mapM_cons, throw, throwThe, MonadExceptOf.throw]

/-- C174 (`_partial`: every target is a number, `kernel='smooth'`): from raw data to the kernel of the model.  If at
least one feature survives, the smooth kernel list on the processed data is accepted and has unit widths. -/
theorem C174_after_process_partial (st : Prep) (d : Nat) (train : Mat) (htr : ∀ r ∈ train, r.length = d)
    (hne : train ≠ []) (targets : Option (List (Option ℝ)))
    (hta : ∀ t ∈ targets, t.length = train.length ∧ ∀ x ∈ t, x.isSome) (j : Nat) (hj : j < d) (v : List ℝ)
    (hv : train.map (fun r => r[j]?) = v.map (fun x => some (some x)))
    (hvar : 1e-8 + 1e-5 * Real.sqrt (variance v) < Real.sqrt (variance v)) :
    ∃ st' out k Z ks, process true st d train targets none = (st', .ok out) ∧ out.train = Z.map (·.map some) ∧
      Z.length = train.length ∧ (∀ r ∈ Z, r.length = k) ∧ 0 < k ∧ smoothKernel k Z "single" = .ok ks ∧
      Kernel.prepareKernels ks = .ok ([⟨.gaussian [1], none, some 1, false⟩], 3) := by
  obtain ⟨st', out, index, m, s, Z, h1, -, h2, h3, -, -, -, -, -, h4, h5, h6, h7⟩ := C173_process_partial st d train htr
    hne targets hta none (by simp)
  have hk : 0 < index.count true := by
    rw [List.count_pos_iff]
    exact List.mem_of_getElem? ((h3 j hj).mpr ⟨v, hv, hvar⟩)
  have hZ : Z ≠ [] := by
    rintro rfl
    exact hne (List.length_eq_zero_iff.mp (by simpa using h5.symm))
  obtain ⟨hu, -⟩ := C174_unit_length _ hk Z hZ h6 h7
  have hl : stdOf Z.flatten = 1 := by
    simpa [defaultLengthscale] using hu
  obtain ⟨-, ks, e1, e2⟩ := C174_prepared_partial (index.count true) Z "single" [1] (.inl ⟨rfl, by rw [hl]⟩) (by simp)
  exact ⟨st', out, _, Z, ks, h1, h4, h5, h6, hk, e1, e2⟩

end CatLearn.Props
