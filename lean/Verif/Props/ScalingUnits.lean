import Verif.Props.Scaling
import Verif.Props.GPUnits

/-!
# Scaling and the units of the data, scaling of scaled data (C243)
-/

namespace CatLearn.Props

open CatLearn CatLearn.Scaling CatLearn.Proc Finset

variable {ι κ δ : Type} [Fintype ι] [Fintype κ]

/-- Location and spread of columns that follow a change of units. -/
structure Equivariant {ρ : Type} (off spr : (ρ → δ → ℝ) → δ → ℝ) : Prop where
  off_units : ∀ (X Y : ρ → δ → ℝ) (j : δ) (a b : ℝ), 0 < a → (∀ i, Y i j = a * X i j + b) → off Y j = a * off X j + b
  spr_units : ∀ (X Y : ρ → δ → ℝ) (j : δ) (a b : ℝ), 0 < a → (∀ i, Y i j = a * X i j + b) → spr Y j = a * spr X j
  spr_nonneg : ∀ (X : ρ → δ → ℝ) (j : δ), 0 ≤ spr X j
  spr_zero : ∀ (X : ρ → δ → ℝ) (j : δ), spr X j = 0 → ∀ i, X i j = off X j

theorem colMax_units [Nonempty ι] (X Y : ι → δ → ℝ) (j : δ) (a b : ℝ) (ha : 0 < a) (h : ∀ i, Y i j = a * X i j + b) :
    colMax Y j = a * colMax X j + b := by
  unfold colMax
  apply le_antisymm
  · refine sup'_le _ _ fun i _ => ?_
    rw [h]
    have : X i j ≤ univ.sup' univ_nonempty fun i => X i j := le_sup' (fun i => X i j) (mem_univ i)
    nlinarith
  · obtain ⟨i, -, hi⟩ := exists_mem_eq_sup' (univ_nonempty (α := ι)) fun i => X i j
    rw [hi, ← h i]
    exact le_sup' (fun i => Y i j) (mem_univ i)

theorem colMin_units [Nonempty ι] (X Y : ι → δ → ℝ) (j : δ) (a b : ℝ) (ha : 0 < a) (h : ∀ i, Y i j = a * X i j + b) :
    colMin Y j = a * colMin X j + b := by
  unfold colMin
  apply le_antisymm
  · obtain ⟨i, -, hi⟩ := exists_mem_eq_inf' (univ_nonempty (α := ι)) fun i => X i j
    rw [hi, ← h i]
    exact inf'_le (fun i => Y i j) (mem_univ i)
  · refine le_inf' _ _ fun i _ => ?_
    rw [h]
    have : (univ.inf' univ_nonempty fun i => X i j) ≤ X i j := inf'_le (fun i => X i j) (mem_univ i)
    nlinarith

theorem colMean_const [Nonempty ι] (X : ι → δ → ℝ) (j : δ) (h : ∀ i i', X i j = X i' j) (i : ι) : X i j = colMean X j := by
  have hc : (0 : ℝ) < Fintype.card ι := by simp [Fintype.card_pos]
  unfold colMean
  rw [sum_congr rfl (fun i' _ => h i' i), sum_const, card_univ, nsmul_eq_mul, mul_div_cancel_left₀ _ hc.ne']

theorem dif_facts [Nonempty ι] (X : ι → δ → ℝ) (j : δ) (i : ι) : colMin X j ≤ X i j ∧ X i j ≤ colMax X j :=
  ⟨inf'_le (fun i => X i j) (mem_univ i), le_sup' (fun i => X i j) (mem_univ i)⟩

theorem equivariant_std [Nonempty ι] : Equivariant (δ := δ) (ρ := ι) colMean colStd where
  off_units X Y j a b _ h := colMean_units X Y j a b h
  spr_units X Y j a b ha h := colStd_units X Y j a b ha.le h
  spr_nonneg X j := Real.sqrt_nonneg _
  spr_zero X j h i := colMean_const X j ((std_eq_zero_iff X j).1 h) i

theorem equivariant_dif [Nonempty ι] : Equivariant (δ := δ) (ρ := ι) colMean fun X j => colMax X j - colMin X j where
  off_units X Y j a b _ h := colMean_units X Y j a b h
  spr_units X Y j a b ha h := by rw [colMax_units X Y j a b ha h, colMin_units X Y j a b ha h]; ring
  spr_nonneg X j := by
    obtain ⟨h1, h2⟩ := dif_facts X j (Classical.arbitrary ι)
    linarith
  spr_zero X j h i := colMean_const X j (fun i i' => by
    obtain ⟨h1, h2⟩ := dif_facts X j i
    obtain ⟨h3, h4⟩ := dif_facts X j i'
    linarith) i

theorem equivariant_min [Nonempty ι] : Equivariant (δ := δ) (ρ := ι) colMin fun X j => colMax X j - colMin X j where
  off_units X Y j a b ha h := colMin_units X Y j a b ha h
  spr_units X Y j a b ha h := by rw [colMax_units X Y j a b ha h, colMin_units X Y j a b ha h]; ring
  spr_nonneg X j := by
    obtain ⟨h1, h2⟩ := dif_facts X j (Classical.arbitrary ι)
    linarith
  spr_zero X j h i := by
    obtain ⟨h1, h2⟩ := dif_facts X j i
    linarith

/-- The three scalings of columns have this form. -/
noncomputable def scaleBy (off spr : (ι → δ → ℝ) → δ → ℝ) (off2 spr2 : (ι ⊕ κ → δ → ℝ) → δ → ℝ)
    (train : ι → δ → ℝ) (test : Option (κ → δ → ℝ)) (loc : Bool) : Scale ι κ δ :=
  let o := onData off off2 train test loc
  let s := placeOnes (onData spr spr2 train test loc)
  ⟨o, s, applyScale o s train, test.map (applyScale o s), none⟩

theorem apply_units {ρ : Type} {off spr : (ρ → δ → ℝ) → δ → ℝ} (E : Equivariant off spr) (X Y : ρ → δ → ℝ) (j : δ) (a b : ℝ)
    (ha : 0 < a) (h : ∀ i, Y i j = a * X i j + b) (x : ℝ) (hx : spr X j = 0 → x = off X j) :
    (a * x + b - off Y j) / placeOnes (spr Y) j = (x - off X j) / placeOnes (spr X) j := by
  unfold placeOnes
  rw [E.off_units X Y j a b ha h, E.spr_units X Y j a b ha h]
  by_cases h0 : spr X j = 0
  · rw [hx h0]; simp
  · rw [if_neg h0, if_neg (mul_ne_zero ha.ne' h0)]
    field_simp
    ring

theorem scaleBy_units {off spr : (ι → δ → ℝ) → δ → ℝ} {off2 spr2 : (ι ⊕ κ → δ → ℝ) → δ → ℝ} (E : Equivariant off spr)
    (E2 : Equivariant off2 spr2) (train : ι → δ → ℝ) (test : Option (κ → δ → ℝ)) (loc : Bool) (a b : δ → ℝ) (ha : ∀ j, 0 < a j) :
    let s := scaleBy off spr off2 spr2 train test loc
    let s' := scaleBy off spr off2 spr2 (fun i j => a j * train i j + b j) (test.map fun T i j => a j * T i j + b j) loc
    s'.train = s.train ∧ ∀ t t', s.test = some t → s'.test = some t' → ∀ i j,
      (loc = true → ∃ i i', train i j ≠ train i' j) → t' i j = t i j := by
  match test, loc with
  | none, _ =>
    refine ⟨?_, fun t t' h => by cases h⟩
    funext i j
    exact apply_units E train (fun i j => a j * train i j + b j) j (a j) (b j) (ha j) (fun _ => rfl) _
      (fun h => E.spr_zero _ _ h i)
  | some T, true =>
    refine ⟨?_, ?_⟩
    · funext i j
      exact apply_units E train (fun i j => a j * train i j + b j) j (a j) (b j) (ha j) (fun _ => rfl) _
        (fun h => E.spr_zero _ _ h i)
    · rintro t t' h h' i j hv
      obtain ⟨i1, i2, hne⟩ := hv rfl
      cases h
      cases h'
      exact apply_units E train (fun i j => a j * train i j + b j) j (a j) (b j) (ha j) (fun _ => rfl) _ (fun h => absurd
        ((E.spr_zero _ _ h i1).trans (E.spr_zero _ _ h i2).symm) hne)
  | some T, false =>
    have hy : ∀ j, ∀ k, Sum.elim (fun i j => a j * train i j + b j) (fun i j => a j * T i j + b j) k j =
        a j * Sum.elim train T k j + b j := by
      rintro j (k | k) <;> rfl
    refine ⟨?_, ?_⟩
    · funext i j
      exact apply_units E2 (Sum.elim train T) _ j (a j) (b j) (ha j) (hy j) _ (fun h => E2.spr_zero _ _ h (Sum.inl i))
    · rintro t t' h h' i j -
      cases h
      cases h'
      exact apply_units E2 (Sum.elim train T) _ j (a j) (b j) (ha j) (hy j) _ (fun h => E2.spr_zero _ _ h (Sum.inr i))

theorem apply_again {ρ : Type} {off spr : (ρ → δ → ℝ) → δ → ℝ} (E : Equivariant off spr) (X Y : ρ → δ → ℝ)
    (hy : ∀ i j, Y i j = (X i j - off X j) / placeOnes (spr X) j) : off Y = 0 ∧ placeOnes (spr Y) = 1 := by
  have hp : ∀ j, 0 < placeOnes (spr X) j := by
    intro j
    unfold placeOnes
    split
    · exact one_pos
    · next h => exact lt_of_le_of_ne (E.spr_nonneg X j) (Ne.symm h)
  have h1 : ∀ j, ∀ i, Y i j = (placeOnes (spr X) j)⁻¹ * X i j + -(off X j / placeOnes (spr X) j) := by
    intro j i
    rw [hy]
    field_simp
    ring
  constructor
  · funext j
    rw [E.off_units X Y j _ _ (inv_pos.2 (hp j)) (h1 j), Pi.zero_apply]
    field_simp
    ring
  · funext j
    have := E.spr_units X Y j _ _ (inv_pos.2 (hp j)) (h1 j)
    have e : ∀ Z : ρ → δ → ℝ, placeOnes (spr Z) j = if spr Z j = 0 then 1 else spr Z j := fun Z => by
      unfold placeOnes; congr
    rw [e Y, this, Pi.one_apply]
    by_cases h0 : spr X j = 0
    · simp [h0]
    · have : placeOnes (spr X) j = spr X j := by rw [e X, if_neg h0]
      rw [this, inv_mul_cancel₀ h0]
      simp

theorem scaleBy_again {off spr : (ι → δ → ℝ) → δ → ℝ} {off2 spr2 : (ι ⊕ κ → δ → ℝ) → δ → ℝ} (E : Equivariant off spr)
    (E2 : Equivariant off2 spr2) (train : ι → δ → ℝ) (test : Option (κ → δ → ℝ)) (loc : Bool) :
    let s := scaleBy off spr off2 spr2 train test loc
    let s' := scaleBy off spr off2 spr2 s.train s.test loc
    s'.offset = 0 ∧ s'.scale = 1 ∧ s'.train = s.train ∧ s'.test = s.test := by
  have key : ∀ s s', s = scaleBy off spr off2 spr2 train test loc → s' = scaleBy off spr off2 spr2 s.train s.test loc →
      s'.offset = 0 ∧ s'.scale = 1 := by
    rintro s s' rfl rfl
    match test, loc with
    | none, _ => exact apply_again E train _ fun _ _ => rfl
    | some T, true => exact apply_again E train _ fun _ _ => rfl
    | some T, false => exact apply_again E2 (Sum.elim train T) _ fun k j => by cases k <;> rfl
  intro s s'
  have key := key s s' rfl rfl
  have hid : ∀ {ρ : Type} (X : ρ → δ → ℝ), applyScale s'.offset s'.scale X = X := by
    intro ρ X
    funext i j
    simp [applyScale, key.1, key.2]
  refine ⟨key.1, key.2, hid s.train, ?_⟩
  change s.test.map (applyScale s'.offset s'.scale) = s.test
  cases s.test with
  | none => rfl
  | some T => simp [hid]

/-- C243: standardised training data do not depend on units and zero of the features, and neither do test data in columns that
vary (among the training data, or with `local=False` always). -/
theorem C243_standardize_units_partial [Nonempty ι] (train : ι → δ → ℝ) (test : Option (κ → δ → ℝ)) (loc : Bool) (a b : δ → ℝ)
    (ha : ∀ j, 0 < a j) :
    let s := standardize train test none none loc
    let s' := standardize (fun i j => a j * train i j + b j) (test.map fun T i j => a j * T i j + b j) none none loc
    s'.train = s.train ∧ ∀ t t', s.test = some t → s'.test = some t' → ∀ i j,
      (loc = true → ∃ i i', train i j ≠ train i' j) → t' i j = t i j :=
  scaleBy_units equivariant_std equivariant_std train test loc a b ha

/-- C243: the same for `normalize`. -/
theorem C243_normalize_units_partial [Nonempty ι] (train : ι → δ → ℝ) (test : Option (κ → δ → ℝ)) (loc : Bool) (a b : δ → ℝ)
    (ha : ∀ j, 0 < a j) :
    let s := normalize train test none none loc
    let s' := normalize (fun i j => a j * train i j + b j) (test.map fun T i j => a j * T i j + b j) none none loc
    s'.train = s.train ∧ ∀ t t', s.test = some t → s'.test = some t' → ∀ i j,
      (loc = true → ∃ i i', train i j ≠ train i' j) → t' i j = t i j :=
  scaleBy_units equivariant_dif equivariant_dif train test loc a b ha

/-- C243: the same for `min_max`. -/
theorem C243_min_max_units_partial [Nonempty ι] (train : ι → δ → ℝ) (test : Option (κ → δ → ℝ)) (loc : Bool) (a b : δ → ℝ)
    (ha : ∀ j, 0 < a j) :
    let s := minMax train test loc
    let s' := minMax (fun i j => a j * train i j + b j) (test.map fun T i j => a j * T i j + b j) loc
    s'.train = s.train ∧ ∀ t t', s.test = some t → s'.test = some t' → ∀ i j,
      (loc = true → ∃ i i', train i j ≠ train i' j) → t' i j = t i j :=
  scaleBy_units equivariant_min equivariant_min train test loc a b ha

example : (∀ j : Fin 2, 0 < (![1000, 2] : Fin 2 → ℝ) j) ∧
    ∃ i i', (![![1, 5], ![2, 5]] : Fin 2 → Fin 2 → ℝ) i 0 ≠ (![![1, 5], ![2, 5]] : Fin 2 → Fin 2 → ℝ) i' 0 := by
  refine ⟨fun j => ?_, 0, 1, by norm_num⟩
  fin_cases j <;> norm_num

/-- C243 fails for test data in a column that is constant among the training data: there the result keeps the units, for all
three functions. -/
theorem C243_constant_violated [Nonempty ι] (v x a b : ℝ) (ha : 0 < a) (h1 : a ≠ 1) (hx : x ≠ v) :
    ∃ (train train' : ι → Unit → ℝ) (test test' : Unit → Unit → ℝ), (∀ i j, train' i j = a * train i j + b) ∧
      (∀ i j, test' i j = a * test i j + b) ∧
      (standardize train' (some test') none none true).test ≠ (standardize train (some test) none none true).test ∧
      (normalize train' (some test') none none true).test ≠ (normalize train (some test) none none true).test ∧
      (minMax train' (some test') true).test ≠ (minMax train (some test) true).test := by
  have hne : a * x + b - (a * v + b) ≠ x - v := by
    intro h
    have : (a - 1) * (x - v) = 0 := by linarith
    rcases mul_eq_zero.1 this with h | h
    · exact h1 (by linarith)
    · exact hx (by linarith)
  have key : ∀ {off spr : (ι → Unit → ℝ) → Unit → ℝ} (_ : Equivariant off spr), off (fun _ _ => v) () = v → 
      spr (fun _ _ => v) () = 0 → some (applyScale (off fun _ _ => a * v + b) (placeOnes (spr fun _ _ => a * v + b)) fun _ _ => a * x + b) ≠ 
        some (applyScale (off fun _ _ => v) (placeOnes (spr fun _ _ => v)) (fun (_ : Unit) _ => x)) := by
    intro off spr E ho hs h
    have h := congrFun (congrFun (Option.some.inj h) ()) ()
    have o' := E.off_units (fun _ _ => v) (fun _ _ => a * v + b) () a b ha fun _ => rfl
    have s' := E.spr_units (fun _ _ => v) (fun _ _ => a * v + b) () a b ha fun _ => rfl
    simp only [applyScale, placeOnes, o', s', ho, hs, mul_zero, if_true, div_one] at h
    exact hne h
  have hmean : colMean (fun (_ : ι) (_ : Unit) => v) () = v :=
    (colMean_const (fun (_ : ι) (_ : Unit) => v) () (fun _ _ => rfl) (Classical.arbitrary ι)).symm
  have hmin : colMin (fun (_ : ι) (_ : Unit) => v) () = v := by simp [colMin]
  have hmax : colMax (fun (_ : ι) (_ : Unit) => v) () = v := by simp [colMax]
  refine ⟨fun _ _ => v, fun _ _ => a * v + b, fun _ _ => x, fun _ _ => a * x + b, fun _ _ => rfl, fun _ _ => rfl, ?_, ?_, ?_⟩
  · exact key equivariant_std hmean ((std_eq_zero_iff _ _).2 fun _ _ => rfl)
  · exact key equivariant_dif hmean (by rw [hmin, hmax, sub_self])
  · exact key equivariant_min hmin (by rw [hmin, hmax, sub_self])

/-- C243: standardising standardised data changes nothing. -/
theorem C243_standardize_again [Nonempty ι] (train : ι → δ → ℝ) (test : Option (κ → δ → ℝ)) (loc : Bool) :
    let s := standardize train test none none loc
    let s' := standardize s.train s.test none none loc
    s'.offset = 0 ∧ s'.scale = 1 ∧ s'.train = s.train ∧ s'.test = s.test :=
  scaleBy_again equivariant_std equivariant_std train test loc

/-- C243: normalising normalised data changes nothing. -/
theorem C243_normalize_again [Nonempty ι] (train : ι → δ → ℝ) (test : Option (κ → δ → ℝ)) (loc : Bool) :
    let s := normalize train test none none loc
    let s' := normalize s.train s.test none none loc
    s'.offset = 0 ∧ s'.scale = 1 ∧ s'.train = s.train ∧ s'.test = s.test :=
  scaleBy_again equivariant_dif equivariant_dif train test loc

/-- C243: scaling to the range from 0 to 1 once more changes nothing. -/
theorem C243_min_max_again [Nonempty ι] (train : ι → δ → ℝ) (test : Option (κ → δ → ℝ)) (loc : Bool) :
    let s := minMax train test loc
    let s' := minMax s.train s.test loc
    s'.offset = 0 ∧ s'.scale = 1 ∧ s'.train = s.train ∧ s'.test = s.test :=
  scaleBy_again equivariant_min equivariant_min train test loc

open Classical in
/-- C243: vectors scaled to unit length do not depend on their lengths, and scaling them again changes nothing. -/
theorem C243_unit_length {ρ : Type} [Fintype δ] (X : ρ → δ → ℝ) (c : ρ → ℝ) (hc : ∀ i, 0 < c i) :
    unitLength (fun i j => c i * X i j) = unitLength X ∧ unitLength (unitLength X) = unitLength X := by
  have key : ∀ c : ρ → ℝ, (∀ i, 0 < c i) → unitLength (fun i j => c i * X i j) = unitLength X := by
    intro c hc
    funext i j
    have hn : rowNorm (fun i j => c i * X i j) i = c i * rowNorm X i := by
      unfold rowNorm
      simp only [mul_pow]
      rw [← mul_sum, Real.sqrt_mul (sq_nonneg _), Real.sqrt_sq (hc i).le]
    unfold unitLength
    rw [hn]
    by_cases h0 : rowNorm X i = 0
    · have hz : X i j = 0 := by
        unfold rowNorm at h0
        rw [Real.sqrt_eq_zero (sum_nonneg fun _ _ => sq_nonneg _), sum_eq_zero_iff_of_nonneg fun _ _ => sq_nonneg _] at h0
        simpa using h0 j (mem_univ j)
      simp [hz]
    · rw [if_neg h0, if_neg (mul_ne_zero (hc i).ne' h0), mul_div_mul_left _ _ (hc i).ne']
  refine ⟨key c hc, ?_⟩
  have hp : ∀ i, 0 < (if rowNorm X i = 0 then 1 else rowNorm X i) := by
    intro i
    split
    · exact one_pos
    · next h => exact lt_of_le_of_ne (Real.sqrt_nonneg _) (Ne.symm h)
  have := key (fun i => (if rowNorm X i = 0 then 1 else rowNorm X i)⁻¹) fun i => inv_pos.2 (hp i)
  have e : unitLength X = fun i j => (if rowNorm X i = 0 then 1 else rowNorm X i)⁻¹ * X i j := by
    funext i j
    unfold unitLength
    rw [div_eq_inv_mul]
  rw [← e] at this
  exact this

example : ∀ i : Fin 2, 0 < (![3, 1/2] : Fin 2 → ℝ) i := by
  intro i; fin_cases i <;> norm_num

/-- C243: standardised and normalised targets do not depend on units and zero of the targets, centred ones only on the units. -/
theorem C243_targets [Nonempty ι] (t : ι → ℝ) (a b : ℝ) (ha : 0 < a) :
    (targetStandardize fun i => a * t i + b).target = (targetStandardize t).target ∧
    (targetNormalize fun i => a * t i + b).target = (targetNormalize t).target ∧
    (∀ i, (targetCenter fun i => a * t i + b).target i = ((targetCenter t).target i).map (a * ·)) := by
  have hm : tMean (fun i => a * t i + b) = a * tMean t + b := colMean_units _ _ () a b fun _ => rfl
  have hs : tStd (fun i => a * t i + b) = a * tStd t := colStd_units _ _ () a b ha.le fun _ => rfl
  have hd : tDif (fun i => a * t i + b) = a * tDif t := by
    unfold tDif
    rw [colMax_units (fun i (_ : Unit) => t i) (fun i (_ : Unit) => a * t i + b) () a b ha fun _ => rfl,
      colMin_units (fun i (_ : Unit) => t i) (fun i (_ : Unit) => a * t i + b) () a b ha fun _ => rfl]
    ring
  have key : ∀ x s : ℝ, npDiv (a * x + b - (a * tMean t + b)) (a * s) = npDiv (x - tMean t) s := by
    intro x s
    unfold npDiv
    by_cases h0 : s = 0
    · simp [h0]
    · rw [if_neg h0, if_neg (mul_ne_zero ha.ne' h0)]
      congr 1
      field_simp
      ring
  refine ⟨?_, ?_, ?_⟩
  · funext i
    simp only [targetStandardize, hm, hs, key]
  · funext i
    simp only [targetNormalize, hm, hd, key]
  · intro i
    simp only [targetCenter, hm, Option.map_some, Option.some.injEq]
    ring

end CatLearn.Props
