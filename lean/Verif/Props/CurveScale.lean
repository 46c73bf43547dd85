import Verif.Model.CurveScale
import Mathlib.Algebra.Order.BigOperators.Group.List
import Mathlib.Algebra.BigOperators.Ring.List
import Mathlib.Data.Fintype.BigOperators
import Mathlib.Algebra.BigOperators.Fin
import Mathlib.Tactic.Linarith
import Mathlib.Tactic.Ring
import Mathlib.Tactic.FieldSimp
import Mathlib.Tactic.FinCases
import Mathlib.Tactic.Positivity

/-!
C182: the errors of the learning curve do not depend on the units of the data.
-/

namespace CatLearn.CurveScale

open CatLearn CatLearn.Scaling Finset

variable {ι κ δ : Type} [Fintype ι] [Fintype κ]

theorem colMean_affine [Nonempty ι] (X : ι → δ → ℝ) (a b : δ → ℝ) (j : δ) :
    colMean (fun i j => a j * X i j + b j) j = a j * colMean X j + b j := by
  have h : (Fintype.card ι : ℝ) ≠ 0 := by exact_mod_cast Fintype.card_ne_zero
  unfold colMean
  rw [sum_add_distrib, ← mul_sum, sum_const, card_univ, nsmul_eq_mul]
  field_simp

theorem colStd_affine [Nonempty ι] (X : ι → δ → ℝ) (a b : δ → ℝ) (j : δ) (ha : 0 < a j) :
    colStd (fun i j => a j * X i j + b j) j = a j * colStd X j := by
  unfold colStd
  have : ∀ i, (a j * X i j + b j - colMean (fun i j => a j * X i j + b j) j) ^ 2 =
      a j ^ 2 * (X i j - colMean X j) ^ 2 := by
    intro i; rw [colMean_affine]; ring
  simp only [this]
  rw [← mul_sum, mul_div_assoc, Real.sqrt_mul (sq_nonneg _), Real.sqrt_sq ha.le]

theorem colMax_affine [Nonempty ι] (X : ι → δ → ℝ) (a b : δ → ℝ) (j : δ) (ha : 0 < a j) :
    colMax (fun i j => a j * X i j + b j) j = a j * colMax X j + b j := by
  unfold colMax
  apply le_antisymm
  · refine sup'_le _ _ fun i hi => ?_
    have := le_sup' (fun i => X i j) hi
    nlinarith
  · obtain ⟨i, hi, he⟩ := exists_mem_eq_sup' (univ_nonempty (α := ι)) fun i => X i j
    rw [he]
    exact le_sup' (fun i => a j * X i j + b j) hi

theorem colMin_affine [Nonempty ι] (X : ι → δ → ℝ) (a b : δ → ℝ) (j : δ) (ha : 0 < a j) :
    colMin (fun i j => a j * X i j + b j) j = a j * colMin X j + b j := by
  unfold colMin
  apply le_antisymm
  · obtain ⟨i, hi, he⟩ := exists_mem_eq_inf' (univ_nonempty (α := ι)) fun i => X i j
    rw [he]
    exact inf'_le (fun i => a j * X i j + b j) hi
  · refine le_inf' _ _ fun i hi => ?_
    have := inf'_le (fun i => X i j) hi
    nlinarith

theorem npDiv_scale (a b c : ℝ) (hc : 0 < c) : npDiv (c * a) (c * b) = npDiv a b := by
  unfold npDiv
  by_cases hb : b = 0
  · simp [hb]
  · rw [if_neg hb, if_neg (mul_ne_zero hc.ne' hb), mul_div_mul_left _ _ hc.ne']

/-- The scaled targets do not see the unit; mean and scale follow it. -/
theorem target_affine [Nonempty ι] (nrm : Bool) (Y : ι → ℝ) (c b : ℝ) (hc : 0 < c) :
    let D := fun Y : ι → ℝ => if nrm then targetNormalize Y else targetStandardize Y
    (D fun i => c * Y i + b).mean = c * (D Y).mean + b ∧ (D fun i => c * Y i + b).scale = c * (D Y).scale ∧
      (D fun i => c * Y i + b).target = (D Y).target := by
  have hm : tMean (fun i => c * Y i + b) = c * tMean Y + b :=
    colMean_affine (fun i (_ : Unit) => Y i) (fun _ => c) (fun _ => b) ()
  have hs : tStd (fun i => c * Y i + b) = c * tStd Y :=
    colStd_affine (fun i (_ : Unit) => Y i) (fun _ => c) (fun _ => b) () hc
  have hd : tDif (fun i => c * Y i + b) = c * tDif Y := by
    unfold tDif
    have h1 := colMax_affine (fun i (_ : Unit) => Y i) (fun _ => c) (fun _ => b) () hc
    have h2 := colMin_affine (fun i (_ : Unit) => Y i) (fun _ => c) (fun _ => b) () hc
    rw [h1, h2]; ring
  have he : ∀ i, c * Y i + b - (c * tMean Y + b) = c * (Y i - tMean Y) := fun i => by ring
  cases nrm
  · simp only [Bool.false_eq_true, if_false, targetStandardize, hm, hs, he, npDiv_scale _ _ _ hc, and_self]
  · simp only [if_true, targetNormalize, hm, hd, he, npDiv_scale _ _ _ hc, and_self]

/-- C182: for scaled data, errors are given in the unit of the targets: if all targets, of training and test data, are
changed to `c * y + b` with positive `c`, the error is multiplied by `c`, whatever the regression method. -/
theorem C182_target_units {n : Nat} [Fintype δ] [Nonempty ι] (nrm : Bool)
    (fit : (ι → δ → ℝ) → (ι → Option ℝ) → δ → ℝ) (X : ι → δ → ℝ) (Y : ι → ℝ) (T : Fin n → δ → ℝ) (t : Fin n → ℝ)
    (c b : ℝ) (hc : 0 < c) :
    testError true nrm fit X (fun i => c * Y i + b) T (fun i => c * t i + b) =
      (testError true nrm fit X Y T t).map (c * ·) := by
  obtain ⟨h1, h2, h3⟩ := target_affine nrm Y c b hc
  simp only at h1 h2 h3
  unfold testError scalingData predictionError
  simp only [if_true, Option.isNone_none, Bool.or_self, h1, h2, h3]
  by_cases hn : n = 0
  · subst hn; simp [Except.map]
  · have hne : ∀ f : Fin n → (δ → ℝ) × ℝ, (List.finRange n).map f ≠ [] := by
      intro f h
      have := congrArg List.length h
      simp at this
      exact hn this
    rw [if_neg (hne _), if_neg (hne _)]
    simp only [Except.map, List.map_map, Function.comp_def, List.length_map]
    congr 1
    set D := (if nrm = true then targetNormalize Y else targetStandardize Y)
    have hq : ∀ p q : ℝ, (p * (c * D.scale) + (c * D.mean + b) - (c * q + b)) ^ 2 =
        c ^ 2 * (p * D.scale + D.mean - q) ^ 2 := fun p q => by ring
    simp only [hq]
    rw [List.sum_map_mul_left, mul_div_assoc, Real.sqrt_mul (sq_nonneg _), Real.sqrt_sq hc.le]

/-- C182: the error is the root mean square of the differences between predicted and true targets of the test data, predictions being in
the unit of the targets; it is an error to ask for that without scale or offset. -/
theorem C182_rms [Fintype δ] (scale : Bool) (test : List ((δ → ℝ) × ℝ)) (hne : test ≠ []) (coef : δ → ℝ) (sTar mTar : Option ℝ) :
    (∀ s m : ℝ, (scale = true → sTar = some s ∧ mTar = some m) → (scale = false → s = 1 ∧ m = 0) →
      ∃ e, predictionError scale test coef sTar mTar = .ok e ∧ 0 ≤ e ∧
        e ^ 2 * test.length = (test.map fun t => ((∑ j, coef j * t.1 j) * s + m - t.2) ^ 2).sum) ∧
      (scale = true → (sTar = none ∨ mTar = none) → predictionError scale test coef sTar mTar = .error .type) := by
  have hl : (test.length : ℝ) ≠ 0 := by
    have := List.length_pos_iff.2 hne
    positivity
  have key : ∀ f : (δ → ℝ) × ℝ → ℝ, 0 ≤ Real.sqrt ((test.map fun t => f t ^ 2).sum / test.length) ∧
      (Real.sqrt ((test.map fun t => f t ^ 2).sum / test.length)) ^ 2 * test.length = (test.map fun t => f t ^ 2).sum := by
    intro f
    refine ⟨Real.sqrt_nonneg _, ?_⟩
    rw [Real.sq_sqrt, div_mul_cancel₀ _ hl]
    refine div_nonneg (List.sum_nonneg ?_) (Nat.cast_nonneg _)
    intro x hx
    obtain ⟨y, -, rfl⟩ := List.mem_map.1 hx
    exact sq_nonneg _
  unfold predictionError
  rw [if_neg hne]
  constructor
  · intro s m h1 h2
    cases scale with
    | true =>
      obtain ⟨rfl, rfl⟩ := h1 rfl
      exact ⟨_, rfl, key _⟩
    | false =>
      obtain ⟨rfl, rfl⟩ := h2 rfl
      simp only [mul_one, add_zero, Bool.false_eq_true, if_false]
      exact ⟨_, rfl, key _⟩
  · rintro rfl h
    simp only [if_true]
    rcases h with rfl | rfl
    · rfl
    · cases sTar <;> rfl

example : ∃ e, predictionError (δ := Fin 1) true [(fun _ => 1, 3), (fun _ => 2, 4)] (fun _ => 1) (some 2) (some 5) = .ok e ∧ e ^ 2 * 2 = 41 := by
  obtain ⟨e, h1, -, h3⟩ := (C182_rms (δ := Fin 1) true [(fun _ => 1, 3), (fun _ => 2, 4)] (by simp) (fun _ => 1) (some 2) (some 5)).1 2 5
    (fun _ => ⟨rfl, rfl⟩) (by simp)
  refine ⟨e, h1, ?_⟩
  norm_num at h3
  linarith

example (fit : (Fin 3 → Fin 2 → ℝ) → (Fin 3 → Option ℝ) → Fin 2 → ℝ) (X : Fin 3 → Fin 2 → ℝ) (T : Fin 2 → Fin 2 → ℝ) :
    testError true true fit X (fun i => 2 * (i : ℝ) + 5) T (fun i => 2 * (i : ℝ) + 5) =
      (testError true true fit X (fun i => (i : ℝ)) T fun i => (i : ℝ)).map (2 * ·) :=
  C182_target_units true fit X (fun i => (i : ℝ)) T (fun i => (i : ℝ)) 2 5 (by norm_num)

theorem feature_affine [Nonempty ι] (nrm : Bool) (X : ι → δ → ℝ) (T : κ → δ → ℝ) (a b : δ → ℝ) (ha : ∀ j, 0 < a j)
    (hv : ∀ j, ∃ i i', X i j ≠ X i' j) :
    let S := fun (X : ι → δ → ℝ) (T : κ → δ → ℝ) => if nrm then Scaling.normalize X (some T) none none true
      else Scaling.standardize X (some T) none none true
    (S (fun i j => a j * X i j + b j) (fun i j => a j * T i j + b j)).train = (S X T).train ∧
      (S (fun i j => a j * X i j + b j) (fun i j => a j * T i j + b j)).test = (S X T).test := by
  have key : ∀ (o s : δ → ℝ), (∀ j, s j ≠ 0) → ∀ {ρ : Type} (Z : ρ → δ → ℝ),
      applyScale (fun j => a j * o j + b j) (fun j => a j * s j) (fun i j => a j * Z i j + b j) = applyScale o s Z := by
    intro o s hs ρ Z
    funext i j
    unfold applyScale
    have h1 := hs j
    have h2 := (ha j).ne'
    field_simp
    ring
  have hstd : ∀ j, colStd X j ≠ 0 := by
    intro j h
    unfold colStd at h
    have hcard : (0 : ℝ) < Fintype.card ι := by exact_mod_cast Fintype.card_pos
    have h0 : (∑ i, (X i j - colMean X j) ^ 2) = 0 := by
      have hnn : 0 ≤ (∑ i, (X i j - colMean X j) ^ 2) := sum_nonneg fun i _ => sq_nonneg _
      have := Real.sqrt_eq_zero'.mp h
      rw [div_nonpos_iff] at this
      rcases this with ⟨_, h⟩ | ⟨h, _⟩
      · linarith
      · linarith
    rw [sum_eq_zero_iff_of_nonneg fun i _ => sq_nonneg _] at h0
    obtain ⟨i, i', hne⟩ := hv j
    have e1 := h0 i (mem_univ _)
    have e2 := h0 i' (mem_univ _)
    rw [sq_eq_zero_iff] at e1 e2
    exact hne (by linarith)
  have hdif : ∀ j, colMax X j - colMin X j ≠ 0 := by
    intro j h
    obtain ⟨i, i', hne⟩ := hv j
    have a1 := le_sup' (fun i => X i j) (mem_univ i)
    have a2 := le_sup' (fun i => X i j) (mem_univ i')
    have b1 := inf'_le (fun i => X i j) (mem_univ i)
    have b2 := inf'_le (fun i => X i j) (mem_univ i')
    unfold colMax colMin at h
    exact hne (by linarith)
  have pl : ∀ v : δ → ℝ, (∀ j, v j ≠ 0) → placeOnes v = v := by
    intro v hv; funext j; simp [placeOnes, hv j]
  cases nrm
  · have e1 : colMean (fun i j => a j * X i j + b j) = fun j => a j * colMean X j + b j :=
      funext fun j => colMean_affine X a b j
    have e2 : colStd (fun i j => a j * X i j + b j) = fun j => a j * colStd X j :=
      funext fun j => colStd_affine X a b j (ha j)
    simp only [Bool.false_eq_true, if_false, Scaling.standardize, onData, Option.getD_none, Option.map_some, e1, e2]
    rw [pl _ hstd, pl _ fun j => mul_ne_zero (ha j).ne' (hstd j)]
    exact ⟨key _ _ hstd X, congrArg some (key _ _ hstd T)⟩
  · have e1 : colMean (fun i j => a j * X i j + b j) = fun j => a j * colMean X j + b j :=
      funext fun j => colMean_affine X a b j
    have e2 : (fun j => colMax (fun i j => a j * X i j + b j) j - colMin (fun i j => a j * X i j + b j) j) =
        fun j => a j * (colMax X j - colMin X j) :=
      funext fun j => by rw [colMax_affine X a b j (ha j), colMin_affine X a b j (ha j)]; ring
    simp only [if_true, Scaling.normalize, onData, Option.getD_none, Option.map_some, e1, e2]
    rw [pl _ hdif, pl _ fun j => mul_ne_zero (ha j).ne' (hdif j)]
    exact ⟨key _ _ hdif X, congrArg some (key _ _ hdif T)⟩

/-- C182: for scaled data the error does not depend on the units of the features: every column may be changed to
`a * x + b` with its own positive `a`, provided it is not constant in the training data.  For a constant column see
`C182_constant_violated`. -/
theorem C182_feature_units_partial {n : Nat} [Fintype δ] [Nonempty ι] (nrm : Bool)
    (fit : (ι → δ → ℝ) → (ι → Option ℝ) → δ → ℝ) (X : ι → δ → ℝ) (Y : ι → ℝ) (T : Fin n → δ → ℝ) (t : Fin n → ℝ)
    (a b : δ → ℝ) (ha : ∀ j, 0 < a j) (hv : ∀ j, ∃ i i', X i j ≠ X i' j) :
    testError true nrm fit (fun i j => a j * X i j + b j) Y (fun i j => a j * T i j + b j) t =
      testError true nrm fit X Y T t := by
  obtain ⟨h1, h2⟩ := feature_affine nrm X T a b ha hv
  simp only at h1 h2
  have h3 : (if nrm then Scaling.normalize X (some T) none none true
      else Scaling.standardize X (some T) none none true).test.isSome := by
    cases nrm <;> rfl
  unfold testError scalingData
  simp only [if_true, h1, h2]
  obtain ⟨w, hw⟩ := Option.isSome_iff_exists.mp h3
  simp only [hw, Option.getD_some]

example (fit : (Fin 2 → Fin 1 → ℝ) → (Fin 2 → Option ℝ) → Fin 1 → ℝ) (Y : Fin 2 → ℝ) (T : Fin 2 → Fin 1 → ℝ)
    (t : Fin 2 → ℝ) :
    testError true false fit (fun i _ => 3 * (i : ℝ) + 1) Y (fun i j => 3 * T i j + 1) t =
      testError true false fit (fun i _ => (i : ℝ)) Y T t :=
  C182_feature_units_partial false fit (fun i _ => (i : ℝ)) Y T t (fun _ => 3) (fun _ => 1) (fun _ => by norm_num)
    fun _ => ⟨0, 1, by simp⟩

/-- C182 fails for a feature without variation in the training data: the test data keep its unit, so that the scaled test
data change with the unit (here the only training value is 0, the test value 1 or, in the other unit, `a`). -/
theorem C182_constant_violated (nrm : Bool) (a : ℝ) (ha : a ≠ 1) (Y : Unit → ℝ) :
    (scalingData true nrm (fun (_ : Unit) (_ : Unit) => a * 0) Y (fun (_ : Unit) (_ : Unit) => a * 1)
        none none none none).test ≠
      (scalingData true nrm (fun (_ : Unit) (_ : Unit) => 0) Y (fun (_ : Unit) (_ : Unit) => 1)
        none none none none).test := by
  intro h
  have := congrFun (congrFun h ()) ()
  cases nrm <;>
    simp [scalingData, Scaling.normalize, Scaling.standardize, onData, applyScale, placeOnes, colMean, colStd, colMax,
      colMin] at this <;> exact ha this

example : (2 : ℝ) ≠ 1 := by norm_num

/-- C182: the global scaling with normalisation scales the features of the training set with the statistics of all data,
so that equal rows stay equal wherever they stand. -/
theorem C182_global_normal [Nonempty ι] {γ : Type} [Fintype γ] [Nonempty γ] (G : γ → δ → ℝ) (X : ι → δ → ℝ) (j : δ)
    (hv : ∃ g g', G g j ≠ G g' j) :
    ∃ lo hi : ℝ, lo < hi ∧ (∀ g, lo ≤ G g j ∧ G g j ≤ hi) ∧
      ∀ i, (globalScaling true G X).2.2 i j * (hi - lo) = X i j - (∑ g, G g j) / Fintype.card γ := by
  obtain ⟨g, g', hne⟩ := hv
  have hM : ∀ g, G g j ≤ colMax G j := fun g => le_sup' (fun g => G g j) (mem_univ g)
  have hm : ∀ g, colMin G j ≤ G g j := fun g => inf'_le (fun g => G g j) (mem_univ g)
  have hlt : colMin G j < colMax G j := by
    rcases lt_or_gt_of_ne hne with h | h
    · exact lt_of_le_of_lt (hm g) (lt_of_lt_of_le h (hM g'))
    · exact lt_of_le_of_lt (hm g') (lt_of_lt_of_le h (hM g))
  refine ⟨colMin G j, colMax G j, hlt, fun g => ⟨hm g, hM g⟩, fun i => ?_⟩
  have hd : colMax G j - colMin G j ≠ 0 := by intro h; linarith
  simp only [globalScaling, if_true, Scaling.normalize, onData, Option.getD_none, Option.getD_some, applyScale,
    placeOnes, hd, if_false]
  rw [div_mul_cancel₀ _ hd]
  rfl

example : ∃ g g' : Fin 2, (fun (g : Fin 2) (_ : Unit) => (g : ℝ)) g () ≠ (fun (g : Fin 2) (_ : Unit) => (g : ℝ)) g' () :=
  ⟨0, 1, by simp⟩

/-- C182 fails for the global scaling with standardisation: the features of the training set come back as they were, so
that a column of all the data whose mean is not zero still has that mean. -/
theorem C182_global_standard_violated [Nonempty ι] {γ : Type} [Fintype γ] [Nonempty γ] (G : γ → δ → ℝ) (X : ι → δ → ℝ) :
    (globalScaling false G X).2.2 = X ∧
      ∀ j, (∑ g, G g j) ≠ 0 → (∑ g, (globalScaling false G G).2.2 g j) ≠ 0 := ⟨rfl, fun _ h => h⟩

example : (∑ g : Fin 2, (globalScaling false (fun (g : Fin 2) (_ : Unit) => (g : ℝ)) fun (g : Fin 2) (_ : Unit) =>
    (g : ℝ)).2.2 g ()) ≠ 0 :=
  (C182_global_standard_violated (fun (g : Fin 2) (_ : Unit) => (g : ℝ)) fun (g : Fin 2) (_ : Unit) => (g : ℝ)).2 ()
    (by simp [Fin.sum_univ_two])

/-- C182 fails if scale and offset of the targets are given to `scaling_data`: the targets come back unscaled, while
the error is computed as if the model spoke of scaled targets. -/
theorem C182_given_violated [Nonempty ι] (nrm : Bool) (X : ι → δ → ℝ) (Y : ι → ℝ) (T : κ → δ → ℝ) (s m : ℝ)
    (sf mf : Option (δ → ℝ)) :
    (scalingData true nrm X Y T (some s) (some m) sf mf).targets = (fun i => some (Y i)) ∧
      (scalingData true nrm X Y T (some s) (some m) sf mf).sTar = some s ∧
      (scalingData true nrm X Y T (some s) (some m) sf mf).mTar = some m := by
  simp [scalingData]

example : (scalingData true true (fun (i : Fin 2) (_ : Unit) => (i : ℝ)) (fun i : Fin 2 => 3 * (i : ℝ))
    (fun (i : Fin 2) (_ : Unit) => (i : ℝ)) (some 3) (some 0) none none).targets = fun i : Fin 2 => some (3 * (i : ℝ)) :=
  (C182_given_violated true _ _ _ 3 0 none none).1

end CatLearn.CurveScale
