import Verif.Model.Scaling
import Mathlib.Tactic.Linarith
import Mathlib.Tactic.FieldSimp
import Mathlib.Tactic.Positivity
import Mathlib.Tactic.Ring
import Mathlib.Algebra.Order.BigOperators.Ring.Finset

/-!
# Properties of feature and target scaling (C14–C17, C78)
-/

namespace CatLearn.Props

open CatLearn CatLearn.Scaling Finset

variable {ι κ δ : Type} [Fintype ι] [Fintype κ]

private theorem placeOnes_ne (v : δ → ℝ) (j : δ) : placeOnes v j ≠ 0 := by
  unfold placeOnes; split
  · exact one_ne_zero
  · assumption

/-- C14, one affine map: whatever is supplied or computed, `standardize` maps training and test columns
by the same `x ↦ (x - mean)/std` with a non-zero divisor, and `x*std + mean` recovers the data. -/
theorem C14_standardize_affine (train : ι → δ → ℝ) (test : Option (κ → δ → ℝ))
    (mean std : Option (δ → ℝ)) (loc : Bool) :
    let s := standardize train test mean std loc
    (∀ j, s.scale j ≠ 0) ∧
    (∀ i j, s.train i j = (train i j - s.offset j) / s.scale j) ∧
    (s.test.isSome = test.isSome) ∧
    (∀ t t', test = some t → s.test = some t' → ∀ i j, t' i j = (t i j - s.offset j) / s.scale j) ∧
    (∀ i j, s.train i j * s.scale j + s.offset j = train i j) ∧
    (∀ t t', test = some t → s.test = some t' → ∀ i j, t' i j * s.scale j + s.offset j = t i j) ∧
    (∀ m, mean = some m → s.offset = m) ∧
    (∀ d, std = some d → (∀ j, d j ≠ 0) → s.scale = d) := by
  refine ⟨fun j => placeOnes_ne _ j, fun i j => rfl, by simp [standardize], ?_, ?_, ?_, ?_, ?_⟩
  · rintro t t' rfl h i j
    simp only [standardize, Option.map_some, Option.some.injEq] at h
    rw [← h]; rfl
  · intro i j
    have := placeOnes_ne (std.getD (onData colStd colStd train test loc)) j
    simp only [standardize, applyScale]
    rw [div_mul_cancel₀ _ this]; ring
  · rintro t t' rfl h i j
    simp only [standardize, Option.map_some, Option.some.injEq] at h
    rw [← h]
    have := placeOnes_ne (std.getD (onData colStd colStd train (some t) loc)) j
    simp only [applyScale, standardize]
    rw [div_mul_cancel₀ _ this]; ring
  · rintro m rfl; rfl
  · rintro d rfl hd
    funext j
    simp [standardize, placeOnes, hd j]

private theorem sum_dev [Nonempty ι] (X : ι → δ → ℝ) (j : δ) : ∑ i, (X i j - colMean X j) = 0 := by
  have hc : (Fintype.card ι : ℝ) ≠ 0 := by simp
  rw [sum_sub_distrib, sum_const, card_univ, nsmul_eq_mul, colMean, mul_div_cancel₀ _ hc, sub_self]

theorem std_eq_zero_iff [Nonempty ι] (X : ι → δ → ℝ) (j : δ) :
    colStd X j = 0 ↔ ∀ i i', X i j = X i' j := by
  have hc : (0 : ℝ) < Fintype.card ι := by simp [Fintype.card_pos]
  have hnn : 0 ≤ ∑ i, (X i j - colMean X j) ^ 2 := sum_nonneg fun i _ => sq_nonneg _
  unfold colStd
  rw [Real.sqrt_eq_zero (by positivity), div_eq_zero_iff, or_iff_left hc.ne',
    sum_eq_zero_iff_of_nonneg (fun i _ => sq_nonneg _)]
  constructor
  · intro h i i'
    have h1 := h i (mem_univ _)
    have h2 := h i' (mem_univ _)
    have h1 : X i j - colMean X j = 0 := by simpa using h1
    have h2 : X i' j - colMean X j = 0 := by simpa using h2
    linarith
  · intro h i _
    have : colMean X j = X i j := by
      unfold colMean
      rw [sum_congr rfl (fun i' _ => h i' i), sum_const, card_univ, nsmul_eq_mul,
        mul_div_cancel_left₀ _ hc.ne']
    rw [this]; ring

/-- The data the statistics are computed from gets mean 0 and variance 1 in each column (or is all zero
where it was constant). -/
private theorem standardized [Nonempty ι] (X : ι → δ → ℝ) (j : δ) :
    (∑ i, applyScale (colMean X) (placeOnes (colStd X)) X i j = 0) ∧
    ((∃ i i', X i j ≠ X i' j) →
      (∑ i, applyScale (colMean X) (placeOnes (colStd X)) X i j ^ 2) / Fintype.card ι = 1) ∧
    ((∀ i i', X i j = X i' j) → ∀ i, applyScale (colMean X) (placeOnes (colStd X)) X i j = 0) := by
  have hc : (0 : ℝ) < Fintype.card ι := by simp [Fintype.card_pos]
  refine ⟨?_, ?_, ?_⟩
  · simp only [applyScale]
    rw [← sum_div, sum_dev X j, zero_div]
  · rintro ⟨i, i', hne⟩
    have hs : colStd X j ≠ 0 := by
      rw [Ne, std_eq_zero_iff]; intro h; exact hne (h i i')
    have hp : placeOnes (colStd X) j = colStd X j := by simp [placeOnes, hs]
    simp only [applyScale, hp, div_pow]
    rw [← sum_div]
    have hsq : colStd X j ^ 2 = (∑ i, (X i j - colMean X j) ^ 2) / Fintype.card ι := by
      unfold colStd
      rw [Real.sq_sqrt]
      exact div_nonneg (sum_nonneg fun i _ => sq_nonneg _) hc.le
    have hne0 : colStd X j ^ 2 ≠ 0 := pow_ne_zero _ hs
    rw [div_right_comm, ← hsq, div_self hne0]
  · intro h i
    have : colMean X j = X i j := by
      unfold colMean
      rw [sum_congr rfl (fun i' _ => h i' i), sum_const, card_univ, nsmul_eq_mul,
        mul_div_cancel_left₀ _ hc.ne']
    simp [applyScale, this]

/-- C14, training statistics: with nothing supplied and local scaling, every scaled training column has
sum 0 and mean square 1, or is all zero if it was constant. -/
theorem C14_standardize_stats [Nonempty ι] (train : ι → δ → ℝ) (test : Option (κ → δ → ℝ)) (j : δ) :
    let s := standardize train test none none true
    (∑ i, s.train i j = 0) ∧
    ((∃ i i', train i j ≠ train i' j) → (∑ i, s.train i j ^ 2) / Fintype.card ι = 1) ∧
    ((∀ i i', train i j = train i' j) → ∀ i, s.train i j = 0) := by
  cases test <;> exact standardized train j

/-- C14, global scaling (`local=False` with a test matrix): the same holds for training and test data
taken together. -/
theorem C14_standardize_stats_global [Nonempty ι] (train : ι → δ → ℝ) (test : κ → δ → ℝ) (j : δ) :
    let s := standardize train (some test) none none false
    ∃ t', s.test = some t' ∧ (∑ i, s.train i j + ∑ i, t' i j = 0) ∧
    ((∃ i i', Sum.elim train test i j ≠ Sum.elim train test i' j) →
      (∑ i, s.train i j ^ 2 + ∑ i, t' i j ^ 2) / (Fintype.card ι + Fintype.card κ) = 1) := by
  have hN : Nonempty (ι ⊕ κ) := ⟨Sum.inl (Classical.arbitrary ι)⟩
  obtain ⟨h1, h2, -⟩ := standardized (Sum.elim train test) j
  refine ⟨_, rfl, ?_, ?_⟩
  · rw [Fintype.sum_sum_type] at h1
    exact h1
  · intro h
    have h2 := h2 h
    rw [Fintype.sum_sum_type, Fintype.card_sum, Nat.cast_add] at h2
    exact h2

example : ∃ i i' : Fin 2, (![![1], ![3]] : Fin 2 → Fin 1 → ℝ) i 0 ≠ ![![1], ![3]] i' 0 :=
  ⟨0, 1, by norm_num⟩

/-! ### C15 -/

private theorem dif_nonneg [Nonempty ι] (X : ι → δ → ℝ) (j : δ) : 0 ≤ colMax X j - colMin X j := by
  have i := Classical.arbitrary ι
  have h1 : X i j ≤ colMax X j := le_sup' (fun i => X i j) (mem_univ i)
  have h2 : colMin X j ≤ X i j := inf'_le (fun i => X i j) (mem_univ i)
  linarith

private theorem placeOnes_pos {v : δ → ℝ} (h : ∀ j, 0 ≤ v j) (j : δ) : 0 < placeOnes v j := by
  unfold placeOnes; split
  · exact one_pos
  · rename_i hne; exact lt_of_le_of_ne (h j) (Ne.symm hne)

private theorem onData_dif_nonneg [Nonempty ι] (train : ι → δ → ℝ) (test : Option (κ → δ → ℝ))
    (loc : Bool) (j : δ) : 0 ≤ onData (fun X j => colMax X j - colMin X j)
    (fun X j => colMax X j - colMin X j) train test loc j := by
  have hN : Nonempty (ι ⊕ κ) := ⟨Sum.inl (Classical.arbitrary ι)⟩
  unfold onData
  split
  · exact dif_nonneg _ j
  · exact dif_nonneg _ j

private theorem affine_facts {ρ : Type} (offset scale : δ → ℝ) (hs : ∀ j, 0 < scale j) (X : ρ → δ → ℝ) :
    (∀ i i' j, X i j < X i' j ↔ applyScale offset scale X i j < applyScale offset scale X i' j) ∧
    (∀ i j, applyScale offset scale X i j * scale j + offset j = X i j) := by
  refine ⟨fun i i' j => ?_, fun i j => ?_⟩
  · unfold applyScale
    rw [div_lt_div_iff_of_pos_right (hs j)]
    constructor <;> intro h <;> linarith
  · unfold applyScale
    rw [div_mul_cancel₀ _ (hs j).ne']; ring

/-- C15, `normalize` with nothing supplied: one increasing affine map per column for training and test
data, invertible with the returned parameters. -/
theorem C15_normalize [Nonempty ι] (train : ι → δ → ℝ) (test : Option (κ → δ → ℝ)) (loc : Bool) :
    let s := normalize train test none none loc
    (∀ j, 0 < s.scale j) ∧
    (∀ i i' j, train i j < train i' j ↔ s.train i j < s.train i' j) ∧
    (∀ i j, s.train i j = (train i j - s.offset j) / s.scale j) ∧
    (∀ i j, s.train i j * s.scale j + s.offset j = train i j) ∧
    (∀ t t', test = some t → s.test = some t' →
      ∀ i j, t' i j = (t i j - s.offset j) / s.scale j ∧ t' i j * s.scale j + s.offset j = t i j) := by
  have hp := placeOnes_pos (onData_dif_nonneg train test loc)
  refine ⟨hp, (affine_facts _ _ hp train).1, fun i j => rfl, (affine_facts _ _ hp train).2, ?_⟩
  rintro t t' rfl h i j
  simp only [normalize, Option.map_some, Option.some.injEq] at h
  subst h
  exact ⟨rfl, (affine_facts _ _ hp t).2 i j⟩

/-- C15, `normalize` locally: scaled training columns have sum 0 and lie in [-1, 1]. -/
theorem C15_normalize_range [Nonempty ι] (train : ι → δ → ℝ) (test : Option (κ → δ → ℝ)) (j : δ) :
    let s := normalize train test none none true
    (∑ i, s.train i j = 0) ∧ ∀ i, |s.train i j| ≤ 1 := by
  have hc : (0 : ℝ) < Fintype.card ι := by simp [Fintype.card_pos]
  have hD : ∀ j, 0 ≤ colMax train j - colMin train j := dif_nonneg train
  have key : (∑ i, applyScale (colMean train) (placeOnes fun j => colMax train j - colMin train j)
      train i j = 0) ∧ ∀ i, |applyScale (colMean train)
        (placeOnes fun j => colMax train j - colMin train j) train i j| ≤ 1 := by
    constructor
    · simp only [applyScale]
      rw [← sum_div, sum_dev train j, zero_div]
    · intro i
      have hmax : ∀ i, train i j ≤ colMax train j := fun i => le_sup' (fun i => train i j) (mem_univ i)
      have hmin : ∀ i, colMin train j ≤ train i j := fun i => inf'_le (fun i => train i j) (mem_univ i)
      have hm1 : colMean train j ≤ colMax train j := by
        unfold colMean
        rw [div_le_iff₀ hc]
        calc ∑ i, train i j ≤ ∑ _i : ι, colMax train j := sum_le_sum fun i _ => hmax i
          _ = colMax train j * Fintype.card ι := by
            rw [sum_const, card_univ, nsmul_eq_mul, mul_comm]
      have hm2 : colMin train j ≤ colMean train j := by
        unfold colMean
        rw [le_div_iff₀ hc]
        calc colMin train j * Fintype.card ι = ∑ _i : ι, colMin train j := by
              rw [sum_const, card_univ, nsmul_eq_mul, mul_comm]
          _ ≤ ∑ i, train i j := sum_le_sum fun i _ => hmin i
      have hpos := placeOnes_pos hD j
      unfold applyScale
      rw [abs_div, abs_of_pos hpos, div_le_one hpos]
      have hle : colMax train j - colMin train j ≤
          placeOnes (fun j => colMax train j - colMin train j) j := by
        unfold placeOnes; split
        · rename_i h; exact (le_of_eq h).trans zero_le_one
        · exact le_rfl
      rw [abs_le]
      have := hmax i
      have := hmin i
      constructor <;> linarith
  cases test <;> exact key

/-- C15, `min_max`: one increasing affine map per column for training and test data, invertible with the
returned parameters. -/
theorem C15_min_max [Nonempty ι] (train : ι → δ → ℝ) (test : Option (κ → δ → ℝ)) (loc : Bool) :
    let s := minMax train test loc
    (∀ j, 0 < s.scale j) ∧
    (∀ i i' j, train i j < train i' j ↔ s.train i j < s.train i' j) ∧
    (∀ i j, s.train i j = (train i j - s.offset j) / s.scale j) ∧
    (∀ i j, s.train i j * s.scale j + s.offset j = train i j) ∧
    (∀ t t', test = some t → s.test = some t' →
      ∀ i j, t' i j = (t i j - s.offset j) / s.scale j ∧ t' i j * s.scale j + s.offset j = t i j) := by
  have hp := placeOnes_pos (onData_dif_nonneg train test loc)
  refine ⟨hp, (affine_facts _ _ hp train).1, fun i j => rfl, (affine_facts _ _ hp train).2, ?_⟩
  rintro t t' rfl h i j
  simp only [minMax, Option.map_some, Option.some.injEq] at h
  subst h
  exact ⟨rfl, (affine_facts _ _ hp t).2 i j⟩

/-- C15, range of `min_max`: training data lands in [0,1] (locally or globally scaled); locally, a column
that is not constant attains 0 and 1, and a constant one becomes 0. -/
theorem C15_min_max_range [Nonempty ι] (train : ι → δ → ℝ) (test : Option (κ → δ → ℝ)) (loc : Bool)
    (j : δ) :
    let s := minMax train test loc
    (∀ i, 0 ≤ s.train i j ∧ s.train i j ≤ 1) ∧
    (loc = true → (∃ i i', train i j ≠ train i' j) →
      (∃ i, s.train i j = 0) ∧ ∃ i, s.train i j = 1) ∧
    (loc = true → (∀ i i', train i j = train i' j) → ∀ i, s.train i j = 0) := by
  have key : ∀ {ρ : Type} [Fintype ρ] [Nonempty ρ] (X : ρ → δ → ℝ) (x : ℝ),
      colMin X j ≤ x → x ≤ colMax X j →
      0 ≤ (x - colMin X j) / placeOnes (fun j => colMax X j - colMin X j) j ∧
      (x - colMin X j) / placeOnes (fun j => colMax X j - colMin X j) j ≤ 1 := by
    intro ρ _ _ X x h1 h2
    have hpos := placeOnes_pos (dif_nonneg X) j
    have hle : colMax X j - colMin X j ≤ placeOnes (fun j => colMax X j - colMin X j) j := by
      unfold placeOnes; split
      · rename_i h; exact (le_of_eq h).trans zero_le_one
      · exact le_rfl
    exact ⟨div_nonneg (by linarith) hpos.le, by rw [div_le_one hpos]; linarith⟩
  have hmax : ∀ i, train i j ≤ colMax train j := fun i => le_sup' (fun i => train i j) (mem_univ i)
  have hmin : ∀ i, colMin train j ≤ train i j := fun i => inf'_le (fun i => train i j) (mem_univ i)
  have hloc : (∀ i, 0 ≤ applyScale (colMin train) (placeOnes fun j => colMax train j - colMin train j)
        train i j ∧ applyScale (colMin train)
        (placeOnes fun j => colMax train j - colMin train j) train i j ≤ 1) ∧
      ((∃ i i', train i j ≠ train i' j) →
        (∃ i, applyScale (colMin train) (placeOnes fun j => colMax train j - colMin train j)
          train i j = 0) ∧ ∃ i, applyScale (colMin train)
          (placeOnes fun j => colMax train j - colMin train j) train i j = 1) ∧
      ((∀ i i', train i j = train i' j) → ∀ i, applyScale (colMin train)
          (placeOnes fun j => colMax train j - colMin train j) train i j = 0) := by
    refine ⟨fun i => key train _ (hmin i) (hmax i), ?_, ?_⟩
    · rintro ⟨i, i', hne⟩
      obtain ⟨a, -, ha⟩ := exists_mem_eq_inf' (univ_nonempty (α := ι)) fun i => train i j
      obtain ⟨b, -, hb⟩ := exists_mem_eq_sup' (univ_nonempty (α := ι)) fun i => train i j
      change colMin train j = train a j at ha
      change colMax train j = train b j at hb
      have hd : colMax train j - colMin train j ≠ 0 := by
        intro h
        apply hne
        have := hmax i; have := hmin i; have := hmax i'; have := hmin i'
        linarith
      refine ⟨⟨a, ?_⟩, ⟨b, ?_⟩⟩
      · simp [applyScale, ha]
      · have hp : placeOnes (fun j => colMax train j - colMin train j) j =
            colMax train j - colMin train j := by simp [placeOnes, hd]
        unfold applyScale
        rw [hp, ← hb, div_self hd]
    · intro h i
      have hmi : colMin train j = train i j := by
        obtain ⟨a, -, ha⟩ := exists_mem_eq_inf' (univ_nonempty (α := ι)) fun i => train i j
        exact ha.trans (h a i)
      simp [applyScale, hmi]
  cases test with
  | none => exact ⟨hloc.1, fun _ => hloc.2.1, fun _ => hloc.2.2⟩
  | some t =>
    cases loc with
    | true => exact ⟨hloc.1, fun _ => hloc.2.1, fun _ => hloc.2.2⟩
    | false =>
      refine ⟨?_, fun h => by simp at h, fun h => by simp at h⟩
      intro i
      have hN : Nonempty (ι ⊕ κ) := ⟨Sum.inl (Classical.arbitrary ι)⟩
      exact key (Sum.elim train t) (train i j)
        (inf'_le (fun i => Sum.elim train t i j) (mem_univ (Sum.inl i)))
        (le_sup' (fun i => Sum.elim train t i j) (mem_univ (Sum.inl i)))

/-! ### C16 -/

/-- C16.  `unit_length` turns every row that is not all zero into a row of Euclidean norm 1, and leaves
all-zero rows unchanged; the row keeps its direction. -/
theorem C16_unit_length {ρ : Type} [Fintype δ] (X : ρ → δ → ℝ) (i : ρ) :
    ((∃ j, X i j ≠ 0) → Real.sqrt (∑ j, unitLength X i j ^ 2) = 1 ∧
      ∃ c : ℝ, 0 < c ∧ ∀ j, X i j = c * unitLength X i j) ∧
    ((∀ j, X i j = 0) → ∀ j, unitLength X i j = X i j) := by
  constructor
  · rintro ⟨j, hj⟩
    have hpos : 0 < ∑ j, X i j ^ 2 :=
      sum_pos' (fun j _ => sq_nonneg _) ⟨j, mem_univ _, by positivity⟩
    have hn : 0 < rowNorm X i := Real.sqrt_pos.mpr hpos
    have hu : ∀ j, unitLength X i j = X i j / rowNorm X i := by
      intro j; simp [unitLength, hn.ne']
    refine ⟨?_, rowNorm X i, hn, fun j => by rw [hu]; field_simp⟩
    simp only [hu, div_pow]
    rw [← sum_div]
    have : rowNorm X i ^ 2 = ∑ j, X i j ^ 2 := Real.sq_sqrt hpos.le
    rw [this, div_self hpos.ne', Real.sqrt_one]
  · intro h j
    simp [unitLength, h j]

example : ∃ j : Fin 2, (![![3, 4]] : Fin 1 → Fin 2 → ℝ) 0 j ≠ 0 := ⟨0, by norm_num⟩

/-! ### C17 -/

/-- C17, `target_center`: the targets are recovered by adding the mean, always. -/
theorem C17_target_center (t : ι → ℝ) (i : ι) :
    ∃ y, (targetCenter t).target i = some y ∧ y + (targetCenter t).mean = t i :=
  ⟨t i - tMean t, rfl, sub_add_cancel _ _⟩

/-- C17 (partial).  `target_standardize` and `target_normalize` are invertible when the targets are not all
equal. -/
theorem C17_target_scaling_partial [Nonempty ι] (t : ι → ℝ) (h : ∃ i i', t i ≠ t i') (i : ι) :
    (∃ y, (targetStandardize t).target i = some y ∧
      y * (targetStandardize t).scale + (targetStandardize t).mean = t i) ∧
    (∃ y, (targetNormalize t).target i = some y ∧
      y * (targetNormalize t).scale + (targetNormalize t).mean = t i) := by
  obtain ⟨a, b, hab⟩ := h
  have hs : tStd t ≠ 0 := by
    unfold tStd
    rw [Ne, std_eq_zero_iff]
    intro h; exact hab (h a b)
  have hd : tDif t ≠ 0 := by
    intro h
    apply hab
    have h1 : ∀ i, t i ≤ colMax (fun i (_ : Unit) => t i) () := fun i =>
      le_sup' (fun i => t i) (mem_univ i)
    have h2 : ∀ i, colMin (fun i (_ : Unit) => t i) () ≤ t i := fun i =>
      inf'_le (fun i => t i) (mem_univ i)
    unfold tDif at h
    have := h1 a; have := h1 b; have := h2 a; have := h2 b
    linarith
  refine ⟨⟨(t i - tMean t) / tStd t, by simp [targetStandardize, npDiv, hs], ?_⟩,
    ⟨(t i - tMean t) / tDif t, by simp [targetNormalize, npDiv, hd], ?_⟩⟩
  · simp only [targetStandardize]; rw [div_mul_cancel₀ _ hs]; ring
  · simp only [targetNormalize]; rw [div_mul_cancel₀ _ hd]; ring

/-- C17 is violated for all constant target lists: every scaled target is nan. -/
theorem C17_target_scaling_violated [Nonempty ι] (c : ℝ) (i : ι) :
    (targetStandardize fun _ : ι => c).target i = none ∧
    (targetNormalize fun _ : ι => c).target i = none := by
  have hs : tStd (fun _ : ι => c) = 0 := by
    unfold tStd; rw [std_eq_zero_iff]; intros; rfl
  have hd : tDif (fun _ : ι => c) = 0 := by
    simp [tDif, colMax, colMin]
  exact ⟨by simp [targetStandardize, npDiv, hs], by simp [targetNormalize, npDiv, hd]⟩

example : ∃ i i' : Fin 2, (![1, 2] : Fin 2 → ℝ) i ≠ ![1, 2] i' := ⟨0, 1, by norm_num⟩

/-! ### C78 -/

/-- C78 is violated: a standard deviation array passed in by the caller has its zeros overwritten. -/
theorem C78_caller_arrays_violated :
    ∃ (train : Fin 1 → Fin 1 → ℝ) (std after : Fin 1 → ℝ),
      (standardize train (none : Option (Fin 1 → Fin 1 → ℝ)) none (some std) true).callerScale
        = some after ∧ after ≠ std := by
  refine ⟨fun _ _ => 0, fun _ => 0, fun _ => 1, ?_, ?_⟩
  · simp only [standardize, Option.map_some, Option.getD_some, Option.some.injEq]
    funext j; simp [placeOnes]
  · intro h; exact one_ne_zero (congrFun h 0)

/-- C78 (partial): a divisor array without zeros is left as it is. -/
theorem C78_caller_arrays_partial [Nonempty ι] (train : ι → δ → ℝ) (test : Option (κ → δ → ℝ))
    (mean : Option (δ → ℝ)) (d : δ → ℝ) (hd : ∀ j, d j ≠ 0) (loc : Bool) :
    (standardize train test mean (some d) loc).callerScale = some d ∧
    (normalize train test mean (some d) loc).callerScale = some d := by
  have : placeOnes d = d := by funext j; simp [placeOnes, hd j]
  simp [standardize, normalize, this]

end CatLearn.Props
