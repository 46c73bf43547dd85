import Verif.Model.Correlation
import Mathlib.Algebra.Order.BigOperators.Ring.Finset
import Mathlib.Algebra.BigOperators.Field
import Mathlib.Algebra.Order.Chebyshev
import Mathlib.Tactic.Positivity
import Mathlib.Tactic.FieldSimp
import Mathlib.Tactic.Linarith
import Mathlib.Tactic.LinearCombination
import Mathlib.Tactic.FinCases

/-!
C214: `target_correlation`.
-/

namespace CatLearn.Correlation

open CatLearn CatLearn.Scaling Finset

/-! ### The cosine of two families of numbers -/

private noncomputable def cosine {ι : Type} (s : Finset ι) (u v : ι → ℝ) : ℝ :=
  (∑ i ∈ s, u i * v i) / (Real.sqrt (∑ i ∈ s, u i ^ 2) * Real.sqrt (∑ i ∈ s, v i ^ 2))

private theorem sq_sum {ι : Type} (s : Finset ι) (u : ι → ℝ) : 0 ≤ ∑ i ∈ s, u i ^ 2 := Finset.sum_nonneg fun _ _ => sq_nonneg _

private theorem dev {ι : Type} (s : Finset ι) (u v : ι → ℝ) (hu : ∑ i ∈ s, u i ^ 2 ≠ 0) (hv : ∑ i ∈ s, v i ^ 2 ≠ 0) :
    ∑ i ∈ s, (v i / Real.sqrt (∑ i ∈ s, v i ^ 2) - u i / Real.sqrt (∑ i ∈ s, u i ^ 2)) ^ 2 = 2 - 2 * cosine s u v ∧
    ∑ i ∈ s, (v i / Real.sqrt (∑ i ∈ s, v i ^ 2) + u i / Real.sqrt (∑ i ∈ s, u i ^ 2)) ^ 2 = 2 + 2 * cosine s u v := by
  set a := Real.sqrt (∑ i ∈ s, u i ^ 2) with ha
  set b := Real.sqrt (∑ i ∈ s, v i ^ 2) with hb
  have ha0 : a ≠ 0 := by
    rw [ha]; exact (Real.sqrt_pos.2 (lt_of_le_of_ne (sq_sum s u) hu.symm)).ne'
  have hb0 : b ≠ 0 := by
    rw [hb]; exact (Real.sqrt_pos.2 (lt_of_le_of_ne (sq_sum s v) hv.symm)).ne'
  have hsa : ∑ i ∈ s, u i ^ 2 = a ^ 2 := (Real.sq_sqrt (sq_sum s u)).symm
  have hsb : ∑ i ∈ s, v i ^ 2 = b ^ 2 := (Real.sq_sqrt (sq_sum s v)).symm
  have hc : cosine s u v = (∑ i ∈ s, u i * v i) / (a * b) := rfl
  have h1 : ∀ e : ℝ, ∑ i ∈ s, (v i / b + e * (u i / a)) ^ 2 =
      (∑ i ∈ s, v i ^ 2) / b ^ 2 + e ^ 2 * ((∑ i ∈ s, u i ^ 2) / a ^ 2) + 2 * e * ((∑ i ∈ s, u i * v i) / (a * b)) := by
    intro e
    rw [Finset.sum_div, Finset.sum_div, Finset.sum_div, Finset.mul_sum, Finset.mul_sum, ← Finset.sum_add_distrib, ← Finset.sum_add_distrib]
    refine Finset.sum_congr rfl fun i _ => ?_
    field_simp
    ring
  rw [hc]
  constructor
  · have := h1 (-1)
    rw [hsa, hsb, div_self (pow_ne_zero _ ha0), div_self (pow_ne_zero _ hb0)] at this
    simp only [neg_mul, one_mul, ← sub_eq_add_neg] at this
    rw [this]; ring
  · have := h1 1
    rw [hsa, hsb, div_self (pow_ne_zero _ ha0), div_self (pow_ne_zero _ hb0)] at this
    simp only [one_mul] at this
    rw [this]; ring

private theorem cosine_abs {ι : Type} (s : Finset ι) (u v : ι → ℝ) (hu : ∑ i ∈ s, u i ^ 2 ≠ 0) (hv : ∑ i ∈ s, v i ^ 2 ≠ 0) :
    |cosine s u v| ≤ 1 := by
  obtain ⟨h1, h2⟩ := dev s u v hu hv
  have h3 := sq_sum s fun i => v i / Real.sqrt (∑ i ∈ s, v i ^ 2) - u i / Real.sqrt (∑ i ∈ s, u i ^ 2)
  have h4 := sq_sum s fun i => v i / Real.sqrt (∑ i ∈ s, v i ^ 2) + u i / Real.sqrt (∑ i ∈ s, u i ^ 2)
  rw [h1] at h3
  rw [h2] at h4
  rw [abs_le]
  constructor <;> linarith

private theorem cosine_one {ι : Type} (s : Finset ι) (u v : ι → ℝ) (hu : ∑ i ∈ s, u i ^ 2 ≠ 0) (hv : ∑ i ∈ s, v i ^ 2 ≠ 0) :
    cosine s u v = 1 ↔ ∃ t > 0, ∀ i ∈ s, v i = t * u i := by
  have ha := Real.sqrt_pos.2 (lt_of_le_of_ne (sq_sum s u) hu.symm)
  have hb := Real.sqrt_pos.2 (lt_of_le_of_ne (sq_sum s v) hv.symm)
  constructor
  · intro h
    have h1 := (dev s u v hu hv).1
    rw [h, show (2 : ℝ) - 2 * 1 = 0 by norm_num, Finset.sum_eq_zero_iff_of_nonneg fun _ _ => sq_nonneg _] at h1
    refine ⟨Real.sqrt (∑ i ∈ s, v i ^ 2) / Real.sqrt (∑ i ∈ s, u i ^ 2), div_pos hb ha, fun i hi => ?_⟩
    have h2 := sub_eq_zero.1 (pow_eq_zero_iff two_ne_zero |>.1 (h1 i hi))
    rw [div_eq_div_iff hb.ne' ha.ne'] at h2
    rw [div_mul_eq_mul_div, eq_div_iff ha.ne', h2]
    ring
  · rintro ⟨t, ht, h⟩
    have h1 : ∑ i ∈ s, u i * v i = t * ∑ i ∈ s, u i ^ 2 := by
      rw [Finset.mul_sum]
      refine Finset.sum_congr rfl fun i hi => ?_
      rw [h i hi]; ring
    have h2 : ∑ i ∈ s, v i ^ 2 = t ^ 2 * ∑ i ∈ s, u i ^ 2 := by
      rw [Finset.mul_sum]
      refine Finset.sum_congr rfl fun i hi => ?_
      rw [h i hi]; ring
    unfold cosine
    rw [h1, h2, Real.sqrt_mul (sq_nonneg t), Real.sqrt_sq ht.le]
    have h3 := Real.mul_self_sqrt (sq_sum s u)
    rw [div_eq_one_iff_eq (by positivity)]
    linear_combination -t * h3

private theorem cosine_scale {ι : Type} (s : Finset ι) (u v u' v' : ι → ℝ) (a b : ℝ) (ha : 0 < a) (hb : 0 < b) (h : ∀ i ∈ s, u' i = a * u i)
    (h' : ∀ i ∈ s, v' i = b * v i) : cosine s u' v' = cosine s u v := by
  have e : ∀ (w w' : ι → ℝ) (t : ℝ), 0 < t → (∀ i ∈ s, w' i = t * w i) →
      Real.sqrt (∑ i ∈ s, w' i ^ 2) = t * Real.sqrt (∑ i ∈ s, w i ^ 2) := by
    intro w w' t ht hw
    rw [Finset.sum_congr rfl fun i hi => by rw [hw i hi, mul_pow], ← Finset.mul_sum, Real.sqrt_mul (sq_nonneg t), Real.sqrt_sq ht.le]
  have e3 : ∑ i ∈ s, u' i * v' i = (a * b) * ∑ i ∈ s, u i * v i := by
    rw [Finset.mul_sum]
    refine Finset.sum_congr rfl fun i hi => ?_
    rw [h i hi, h' i hi]; ring
  unfold cosine
  rw [e u u' a ha h, e v v' b hb h', e3, show a * Real.sqrt (∑ i ∈ s, u i ^ 2) * (b * Real.sqrt (∑ i ∈ s, v i ^ 2)) =
    (a * b) * (Real.sqrt (∑ i ∈ s, u i ^ 2) * Real.sqrt (∑ i ∈ s, v i ^ 2)) by ring, mul_div_mul_left _ _ (mul_pos ha hb).ne']

/-! ### Constant columns -/

/-- The column is not constant. -/
def Varies {n : ℕ} (x : Fin n → ℝ) : Prop := ∃ i j, x i ≠ x j

private theorem dev_ne {n : ℕ} (x : Fin n → ℝ) : ∑ i, (x i - mean x) ^ 2 ≠ 0 ↔ Varies x := by
  constructor
  · intro h
    by_contra hc
    apply h
    have hc' : ∀ i j, x i = x j := by
      intro i j
      by_contra hne
      exact hc ⟨i, j, hne⟩
    refine Finset.sum_eq_zero fun i _ => ?_
    have hn : (n : ℝ) ≠ 0 := by
      have := i.pos
      positivity
    have : mean x = x i := by
      unfold mean
      rw [Finset.sum_congr rfl fun j _ => hc' j i]
      simp
      field_simp
    rw [this, sub_self]
    norm_num
  · rintro ⟨i, j, hne⟩ h
    rw [Finset.sum_eq_zero_iff_of_nonneg fun _ _ => sq_nonneg _] at h
    have h1 : ∀ k, x k = mean x := fun k => sub_eq_zero.1 (pow_eq_zero_iff two_ne_zero |>.1 (h k (mem_univ _)))
    exact hne ((h1 i).trans (h1 j).symm)

private theorem pearson_some {n : ℕ} (x y : Fin n → ℝ) (hx : Varies x) (hy : Varies y) :
    pearson x y = some (cosine univ (fun i => x i - mean x) fun i => y i - mean y) := by
  have h1 := (dev_ne x).2 hx
  have h2 := (dev_ne y).2 hy
  simp only [pearson, h1, h2, or_self, if_false, cosine]

private theorem pearson_none {n : ℕ} (x y : Fin n → ℝ) (h : ¬ Varies x ∨ ¬ Varies y) : pearson x y = none := by
  rw [← dev_ne, ← dev_ne, not_not, not_not] at h
  simp only [pearson, h, if_true]

private theorem rank_lt {n : ℕ} (x : Fin n → ℝ) {i j : Fin n} (h : x i < x j) : rank x i < rank x j := by
  classical
  have h1 : (univ.filter fun k => x k < x i).card + (univ.filter fun k => x k = x i).card ≤ (univ.filter fun k => x k < x j).card := by
    rw [← Finset.card_union_of_disjoint]
    · apply Finset.card_le_card
      intro k hk
      simp only [Finset.mem_union, Finset.mem_filter, Finset.mem_univ, true_and] at hk ⊢
      rcases hk with hk | hk
      · exact hk.trans h
      · rw [hk]; exact h
    · rw [Finset.disjoint_left]
      intro k hk hk'
      simp only [Finset.mem_filter, Finset.mem_univ, true_and] at hk hk'
      exact hk.ne hk'
  have h2 : 0 < (univ.filter fun k => x k = x i).card := Finset.card_pos.2 ⟨i, by simp⟩
  have h1' : ((univ.filter fun k => x k < x i).card : ℝ) + (univ.filter fun k => x k = x i).card ≤ (univ.filter fun k => x k < x j).card := by
    exact_mod_cast h1
  have h2' : (0 : ℝ) < (univ.filter fun k => x k = x i).card := by exact_mod_cast h2
  have h3' : (0 : ℝ) ≤ (univ.filter fun k => x k = x j).card := by positivity
  unfold rank
  linarith

private theorem rank_eq {n : ℕ} (x : Fin n → ℝ) {i j : Fin n} (h : x i = x j) : rank x i = rank x j := by
  unfold rank
  rw [h]

/-- Ranks are in the order of the values. -/
private theorem rank_lt_iff {n : ℕ} (x : Fin n → ℝ) (i j : Fin n) : rank x i < rank x j ↔ x i < x j := by
  constructor
  · intro h
    rcases lt_trichotomy (x i) (x j) with h1 | h1 | h1
    · exact h1
    · exact absurd (rank_eq x h1) h.ne
    · exact absurd (rank_lt x h1) (not_lt.2 h.le)
  · exact rank_lt x

private theorem rank_varies {n : ℕ} (x : Fin n → ℝ) : Varies (rank x) ↔ Varies x := by
  constructor
  · rintro ⟨i, j, h⟩
    exact ⟨i, j, fun he => h (rank_eq x he)⟩
  · rintro ⟨i, j, h⟩
    rcases lt_or_gt_of_ne h with h | h
    · exact ⟨i, j, (rank_lt x h).ne⟩
    · exact ⟨i, j, (rank_lt x h).ne'⟩

/-- The same order, ties included. -/
def SameOrder {n : ℕ} (x y : Fin n → ℝ) : Prop := ∀ i j, x i < x j ↔ y i < y j

private theorem sameOrder_eq {n : ℕ} {x y : Fin n → ℝ} (h : SameOrder x y) (i j : Fin n) : x i = x j ↔ y i = y j := by
  have h1 := h i j
  have h2 := h j i
  constructor
  · intro he
    rcases lt_trichotomy (y i) (y j) with h3 | h3 | h3
    · exact absurd (h1.2 h3) (by rw [he]; exact lt_irrefl _)
    · exact h3
    · exact absurd (h2.2 h3) (by rw [he]; exact lt_irrefl _)
  · intro he
    rcases lt_trichotomy (x i) (x j) with h3 | h3 | h3
    · exact absurd (h1.1 h3) (by rw [he]; exact lt_irrefl _)
    · exact h3
    · exact absurd (h2.1 h3) (by rw [he]; exact lt_irrefl _)

private theorem rank_congr {n : ℕ} {x y : Fin n → ℝ} (h : SameOrder x y) : rank x = rank y := by
  classical
  funext i
  unfold rank
  have h1 : (univ.filter fun j => x j < x i) = univ.filter fun j => y j < y i := Finset.filter_congr fun j _ => h j i
  have h2 : (univ.filter fun j => x j = x i) = univ.filter fun j => y j = y i := Finset.filter_congr fun j _ => sameOrder_eq h j i
  have h1' := congrArg Finset.card h1
  have h2' := congrArg Finset.card h2
  simp only [h1', h2']

/-! ### Kendall's coefficient as a cosine -/

private noncomputable def sg {n : ℕ} (x : Fin n → ℝ) (p : Fin n × Fin n) : ℝ := ((SignType.sign (x p.1 - x p.2) : SignType) : ℝ)

private theorem sg_sq {n : ℕ} (x : Fin n → ℝ) (p : Fin n × Fin n) : sg x p ^ 2 = if x p.1 ≠ x p.2 then 1 else 0 := by
  unfold sg
  rcases lt_trichotomy (x p.1) (x p.2) with h | h | h
  · rw [sign_neg (sub_neg.2 h)]
    simp [h.ne]
  · simp [h]
  · rw [sign_pos (sub_pos.2 h)]
    simp [h.ne']

private theorem sg_sum {n : ℕ} (x : Fin n → ℝ) : ∑ p ∈ pairs n, sg x p ^ 2 = (((pairs n).filter fun p => x p.1 ≠ x p.2).card : ℝ) := by
  classical
  rw [Finset.sum_congr rfl fun p _ => sg_sq x p, Finset.sum_ite, Finset.sum_const_zero, add_zero, Finset.sum_const, nsmul_eq_mul, mul_one]

private theorem sg_mul {n : ℕ} (x y : Fin n → ℝ) :
    ∑ p ∈ pairs n, sg x p * sg y p = (((pairs n).filter fun p => 0 < (x p.1 - x p.2) * (y p.1 - y p.2)).card : ℝ) -
      ((pairs n).filter fun p => (x p.1 - x p.2) * (y p.1 - y p.2) < 0).card := by
  classical
  have e : ∀ p : Fin n × Fin n, sg x p * sg y p = (if 0 < (x p.1 - x p.2) * (y p.1 - y p.2) then (1 : ℝ) else 0) -
      if (x p.1 - x p.2) * (y p.1 - y p.2) < 0 then 1 else 0 := by
    intro p
    unfold sg
    rw [← SignType.coe_mul, ← sign_mul]
    rcases lt_trichotomy ((x p.1 - x p.2) * (y p.1 - y p.2)) 0 with h | h | h
    · rw [sign_neg h]; simp [h, not_lt.2 h.le]
    · rw [h]; simp
    · rw [sign_pos h]; simp [h, not_lt.2 h.le]
  rw [Finset.sum_congr rfl fun p _ => e p, Finset.sum_sub_distrib, Finset.sum_ite, Finset.sum_ite, Finset.sum_const_zero, Finset.sum_const_zero,
    add_zero, add_zero, Finset.sum_const, Finset.sum_const, nsmul_eq_mul, nsmul_eq_mul, mul_one, mul_one]

private theorem ties {n : ℕ} (x : Fin n → ℝ) : ((pairs n).filter fun p => x p.1 ≠ x p.2).card ≠ 0 ↔ Varies x := by
  classical
  rw [Finset.card_ne_zero]
  constructor
  · rintro ⟨p, hp⟩
    exact ⟨p.1, p.2, (Finset.mem_filter.1 hp).2⟩
  · rintro ⟨i, j, h⟩
    have hij : i ≠ j := fun he => h (by rw [he])
    rcases lt_or_gt_of_ne hij with hl | hl
    · exact ⟨(i, j), by simp [pairs, hl, h]⟩
    · exact ⟨(j, i), by simp [pairs, hl, Ne.symm h]⟩

private theorem kendall_some {n : ℕ} (x y : Fin n → ℝ) (hx : Varies x) (hy : Varies y) :
    kendall x y = some (cosine (pairs n) (sg x) (sg y)) := by
  have h1 := (ties x).2 hx
  have h2 := (ties y).2 hy
  simp only [kendall]
  rw [if_neg (by rintro (h | h); exact h1 (by convert h); exact h2 (by convert h))]
  unfold cosine
  rw [sg_sum, sg_sum, sg_mul, div_div]

private theorem kendall_none {n : ℕ} (x y : Fin n → ℝ) (h : ¬ Varies x ∨ ¬ Varies y) : kendall x y = none := by
  rw [← ties, ← ties, not_not, not_not] at h
  simp only [kendall]
  rw [if_pos (by rcases h with h | h; exact Or.inl (by convert h); exact Or.inr (by convert h))]

private theorem sg_ne {n : ℕ} (x : Fin n → ℝ) (hx : Varies x) : ∑ p ∈ pairs n, sg x p ^ 2 ≠ 0 := by
  rw [sg_sum]
  exact_mod_cast (ties x).2 hx

/-! ### The coefficients -/

/-- The three coefficients. -/
inductive Kind where
  | pearson
  | spearman
  | kendall

/-- Their values. -/
noncomputable def coef {n : ℕ} : Kind → (Fin n → ℝ) → (Fin n → ℝ) → Option ℝ
  | .pearson => Correlation.pearson
  | .spearman => Correlation.spearman
  | .kendall => Correlation.kendall

/-- The families they compare. -/
private noncomputable def fam {n : ℕ} : (k : Kind) → Σ ι : Type, Finset ι × ((Fin n → ℝ) → ι → ℝ)
  | .pearson => ⟨Fin n, univ, fun x i => x i - mean x⟩
  | .spearman => ⟨Fin n, univ, fun x i => rank x i - mean (rank x)⟩
  | .kendall => ⟨Fin n × Fin n, pairs n, sg⟩

private theorem coef_some {n : ℕ} (k : Kind) (x y : Fin n → ℝ) (hx : Varies x) (hy : Varies y) :
    coef k x y = some (cosine (fam k).2.1 ((fam k).2.2 x) ((fam k).2.2 y)) := by
  cases k with
  | pearson => exact pearson_some x y hx hy
  | spearman => exact pearson_some (rank x) (rank y) ((rank_varies x).2 hx) ((rank_varies y).2 hy)
  | kendall => exact kendall_some x y hx hy

private theorem fam_ne {n : ℕ} (k : Kind) (x : Fin n → ℝ) (hx : Varies x) : ∑ i ∈ (fam k).2.1, ((fam k).2.2 x) i ^ 2 ≠ 0 := by
  cases k with
  | pearson => exact (dev_ne x).2 hx
  | spearman => exact (dev_ne (rank x)).2 ((rank_varies x).2 hx)
  | kendall => exact sg_ne x hx

private theorem coef_none {n : ℕ} (k : Kind) (x y : Fin n → ℝ) (h : ¬ Varies x ∨ ¬ Varies y) : coef k x y = none := by
  cases k with
  | pearson => exact pearson_none x y h
  | spearman => exact pearson_none (rank x) (rank y) (by rwa [rank_varies, rank_varies])
  | kendall => exact kendall_none x y h

/-- C214: a coefficient is a number between -1 and 1, unless the feature or the target is constant; then it is nan. -/
theorem C214_range {n : ℕ} (k : Kind) (x y : Fin n → ℝ) :
    ((∃ i j, x i ≠ x j) ∧ (∃ i j, y i ≠ y j) → ∃ r, coef k x y = some r ∧ -1 ≤ r ∧ r ≤ 1) ∧
      (((∀ i j, x i = x j) ∨ ∀ i j, y i = y j) → coef k x y = none) := by
  constructor
  · rintro ⟨hx, hy⟩
    refine ⟨_, coef_some k x y hx hy, ?_⟩
    exact abs_le.1 (cosine_abs _ _ _ (fam_ne k x hx) (fam_ne k y hy))
  · intro h
    refine coef_none k x y (h.imp ?_ ?_)
    · rintro h ⟨i, j, hne⟩; exact hne (h i j)
    · rintro h ⟨i, j, hne⟩; exact hne (h i j)

/-- C214: Pearson's coefficient is 1 exactly for an increasing linear relation, the rank coefficients exactly if feature and target order
the data in the same way. -/
theorem C214_perfect {n : ℕ} (x y : Fin n → ℝ) (hx : ∃ i j, x i ≠ x j) (hy : ∃ i j, y i ≠ y j) :
    (pearson x y = some 1 ↔ ∃ a > 0, ∃ b, ∀ i, y i = a * x i + b) ∧
      (spearman x y = some 1 ↔ ∀ i j, x i < x j ↔ y i < y j) ∧ (kendall x y = some 1 ↔ ∀ i j, x i < x j ↔ y i < y j) := by
  refine ⟨?_, ?_, ?_⟩
  · rw [pearson_some x y hx hy, Option.some.injEq, cosine_one _ _ _ ((dev_ne x).2 hx) ((dev_ne y).2 hy)]
    constructor
    · rintro ⟨t, ht, h⟩
      exact ⟨t, ht, mean y - t * mean x, fun i => by linarith [h i (mem_univ i)]⟩
    · rintro ⟨a, ha, b, h⟩
      refine ⟨a, ha, fun i _ => ?_⟩
      have hn : (n : ℝ) ≠ 0 := by
        have := i.pos
        positivity
      have : mean y = a * mean x + b := by
        unfold mean
        rw [Finset.sum_congr rfl fun j _ => h j, Finset.sum_add_distrib, ← Finset.mul_sum]
        simp
        field_simp
      rw [h i, this]; ring
  · unfold spearman
    rw [pearson_some _ _ ((rank_varies x).2 hx) ((rank_varies y).2 hy), Option.some.injEq,
      cosine_one _ _ _ ((dev_ne _).2 ((rank_varies x).2 hx)) ((dev_ne _).2 ((rank_varies y).2 hy))]
    constructor
    · rintro ⟨t, ht, h⟩ i j
      have h1 := h i (mem_univ i)
      have h2 := h j (mem_univ j)
      rw [← rank_lt_iff x, ← rank_lt_iff y]
      constructor
      · intro hlt
        nlinarith
      · intro hlt
        by_contra hc
        have hc := not_lt.1 hc
        nlinarith
    · intro h
      have := rank_congr (x := x) (y := y) h
      exact ⟨1, one_pos, fun i _ => by rw [this, one_mul]⟩
  · rw [kendall_some x y hx hy, Option.some.injEq, cosine_one _ _ _ (sg_ne x hx) (sg_ne y hy)]
    have sgn : ∀ (z : Fin n → ℝ) (i j : Fin n), (sg z (i, j) < 0 ↔ z i < z j) ∧ (0 < sg z (i, j) ↔ z j < z i) := by
      intro z i j
      unfold sg
      rcases lt_trichotomy (z i) (z j) with h | h | h
      · rw [sign_neg (sub_neg.2 h)]
        simp [h, not_lt.2 h.le]
      · simp [h]
      · rw [sign_pos (sub_pos.2 h)]
        simp [h, not_lt.2 h.le]
    constructor
    · rintro ⟨t, ht, h⟩ i j
      rcases lt_trichotomy i j with hij | rfl | hij
      · have := h (i, j) (by simp [pairs, hij])
        rw [← (sgn x i j).1, ← (sgn y i j).1, this]
        exact ⟨fun hh => mul_neg_of_pos_of_neg ht hh, fun hh => by by_contra hc; nlinarith [mul_nonneg ht.le (not_lt.1 hc)]⟩
      · simp
      · have := h (j, i) (by simp [pairs, hij])
        rw [← (sgn x j i).2, ← (sgn y j i).2, this]
        exact ⟨fun hh => mul_pos ht hh, fun hh => by by_contra hc; nlinarith [not_lt.1 hc]⟩
    · intro h
      refine ⟨1, one_pos, fun p _ => ?_⟩
      unfold sg
      rw [one_mul]
      rcases lt_trichotomy (x p.1) (x p.2) with h1 | h1 | h1
      · rw [sign_neg (sub_neg.2 h1), sign_neg (sub_neg.2 ((h _ _).1 h1))]
      · rw [h1, (sameOrder_eq h _ _).1 h1]; simp
      · rw [sign_pos (sub_pos.2 h1), sign_pos (sub_pos.2 ((h _ _).1 h1))]

/-- Families with the same order. -/
private theorem mean_affine {n : ℕ} (x : Fin n → ℝ) (a b : ℝ) (i : Fin n) :
    (a * x i + b) - mean (fun i => a * x i + b) = a * (x i - mean x) := by
  have hn : (n : ℝ) ≠ 0 := by
    have := i.pos
    positivity
  have : mean (fun i => a * x i + b) = a * mean x + b := by
    unfold mean
    rw [Finset.sum_add_distrib, ← Finset.mul_sum]
    simp
    field_simp
  rw [this]; ring

private theorem varies_comp {n : ℕ} {x x' : Fin n → ℝ} (h : SameOrder x x') : Varies x ↔ Varies x' := by
  constructor
  · rintro ⟨i, j, hne⟩
    exact ⟨i, j, fun he => hne ((sameOrder_eq h i j).2 he)⟩
  · rintro ⟨i, j, hne⟩
    exact ⟨i, j, fun he => hne ((sameOrder_eq h i j).1 he)⟩

/-- C214: the rank coefficients only depend on the order of the data: any increasing function may be applied to the feature and to the
target. -/
theorem C214_monotone {n : ℕ} (x y : Fin n → ℝ) (f g : ℝ → ℝ) (hf : StrictMono f) (hg : StrictMono g) :
    spearman (fun i => f (x i)) (fun i => g (y i)) = spearman x y ∧ kendall (fun i => f (x i)) (fun i => g (y i)) = kendall x y := by
  have hx : SameOrder x fun i => f (x i) := fun i j => hf.lt_iff_lt.symm
  have hy : SameOrder y fun i => g (y i) := fun i j => hg.lt_iff_lt.symm
  constructor
  · unfold spearman
    rw [rank_congr hx, rank_congr hy]
  · by_cases h : Varies x ∧ Varies y
    · rw [kendall_some x y h.1 h.2, kendall_some _ _ ((varies_comp hx).1 h.1) ((varies_comp hy).1 h.2)]
      have e : ∀ (z z' : Fin n → ℝ), SameOrder z z' → sg z' = sg z := by
        intro z z' hz
        funext p
        unfold sg
        rcases lt_trichotomy (z p.1) (z p.2) with h1 | h1 | h1
        · rw [sign_neg (sub_neg.2 h1), sign_neg (sub_neg.2 ((hz _ _).1 h1))]
        · rw [h1, (sameOrder_eq hz _ _).1 h1]; simp
        · rw [sign_pos (sub_pos.2 h1), sign_pos (sub_pos.2 ((hz _ _).1 h1))]
      rw [e _ _ hx, e _ _ hy]
    · rw [not_and_or] at h
      rw [kendall_none x y h, kendall_none _ _ (by rwa [← varies_comp hx, ← varies_comp hy])]

/-- C214: no coefficient depends on the units of feature and target. -/
theorem C214_units {n : ℕ} (k : Kind) (x y : Fin n → ℝ) (a b c d : ℝ) (ha : 0 < a) (hc : 0 < c) :
    coef k (fun i => a * x i + b) (fun i => c * y i + d) = coef k x y := by
  have mono : ∀ a b : ℝ, 0 < a → StrictMono fun t : ℝ => a * t + b := by
    intro a b ha s t hst
    simp only
    nlinarith
  cases k with
  | pearson =>
    have hx : SameOrder x fun i => a * x i + b := fun i j => (mono a b ha).lt_iff_lt.symm
    have hy : SameOrder y fun i => c * y i + d := fun i j => (mono c d hc).lt_iff_lt.symm
    show pearson _ _ = pearson _ _
    by_cases h : Varies x ∧ Varies y
    · rw [pearson_some x y h.1 h.2, pearson_some _ _ ((varies_comp hx).1 h.1) ((varies_comp hy).1 h.2)]
      rw [cosine_scale univ (fun i => x i - mean x) (fun i => y i - mean y) _ _ a c ha hc (fun i _ => mean_affine x a b i)
        (fun i _ => mean_affine y c d i)]
    · rw [not_and_or] at h
      rw [pearson_none x y h, pearson_none _ _ (by rwa [← varies_comp hx, ← varies_comp hy])]
  | spearman => exact (C214_monotone x y _ _ (mono a b ha) (mono c d hc)).1
  | kendall => exact (C214_monotone x y _ _ (mono a b ha) (mono c d hc)).2

/-- C214: a coefficient does not change if feature and target are exchanged. -/
theorem C214_symmetric {n : ℕ} (k : Kind) (x y : Fin n → ℝ) : coef k x y = coef k y x := by
  by_cases h : Varies x ∧ Varies y
  · rw [coef_some k x y h.1 h.2, coef_some k y x h.2 h.1]
    unfold cosine
    congr 2
    · exact Finset.sum_congr rfl fun i _ => mul_comm _ _
    · exact mul_comm _ _
  · rw [not_and_or] at h
    rw [coef_none k x y h, coef_none k y x h.symm]

private theorem rank_neg {n : ℕ} (x : Fin n → ℝ) (i : Fin n) : rank (fun i => -x i) i = n + 1 - rank x i := by
  classical
  have h1 : (univ.filter fun j => x j < x i).card + (univ.filter fun j => x j = x i).card + (univ.filter fun j => -x j < -x i).card = n := by
    rw [← Finset.card_union_of_disjoint, ← Finset.card_union_of_disjoint]
    · have : (univ.filter fun j => x j < x i) ∪ (univ.filter fun j => x j = x i) ∪ (univ.filter fun j => -x j < -x i) = univ := by
        ext j
        simp only [mem_union, mem_filter, mem_univ, true_and, iff_true, neg_lt_neg_iff]
        rcases lt_trichotomy (x j) (x i) with h | h | h
        · exact Or.inl (Or.inl h)
        · exact Or.inl (Or.inr h)
        · exact Or.inr h
      rw [this]
      simp
    · rw [Finset.disjoint_left]
      intro j hj hj'
      simp only [mem_union, mem_filter, mem_univ, true_and, neg_lt_neg_iff] at hj hj'
      rcases hj with h | h <;> linarith
    · rw [Finset.disjoint_left]
      intro j hj hj'
      simp only [mem_filter, mem_univ, true_and] at hj hj'
      linarith
  have h2 : (univ.filter fun j => -x j = -x i) = univ.filter fun j => x j = x i := Finset.filter_congr fun j _ => neg_inj
  have h1' : ((univ.filter fun j => x j < x i).card : ℝ) + (univ.filter fun j => x j = x i).card + (univ.filter fun j => -x j < -x i).card = n := by
    exact_mod_cast h1
  unfold rank
  have h2' := congrArg Finset.card h2
  have e : ((univ.filter fun j => -x j < -x i).card : ℝ) + (((univ.filter fun j => -x j = -x i).card : ℝ) + 1) / 2 =
      n + 1 - (((univ.filter fun j => x j < x i).card : ℝ) + (((univ.filter fun j => x j = x i).card : ℝ) + 1) / 2) := by
    rw [h2']
    linarith
  convert e

/-- C214: reversing the feature reverses the sign, also with ties. -/
theorem C214_reversed {n : ℕ} (k : Kind) (x y : Fin n → ℝ) : coef k (fun i => -x i) y = (coef k x y).map fun r => -r := by
  have hv : Varies (fun i => -x i) ↔ Varies x := by
    unfold Varies
    simp only [ne_eq, neg_inj]
  by_cases h : Varies x ∧ Varies y
  · rw [coef_some k x y h.1 h.2, coef_some k _ y (hv.2 h.1) h.2, Option.map_some]
    have hf : ∀ i, (fam k).2.2 (fun i => -x i) i = -(fam k).2.2 x i := by
      cases k with
      | pearson =>
        intro i
        show -x i - mean (fun i => -x i) = -(x i - mean x)
        have := mean_affine x (-1) 0 i
        simp only [neg_one_mul, add_zero] at this
        rw [this]
      | spearman =>
        intro i
        show rank (fun i => -x i) i - mean (rank fun i => -x i) = -(rank x i - mean (rank x))
        have e : rank (fun i => -x i) = fun i => (-1) * rank x i + (n + 1) := by
          funext j
          rw [rank_neg]
          ring
        rw [e]
        have := mean_affine (rank x) (-1) (n + 1) i
        linarith
      | kendall =>
        intro p
        show sg (fun i => -x i) p = -sg x p
        unfold sg
        rw [show -x p.1 - -x p.2 = -(x p.1 - x p.2) by ring, Left.sign_neg, SignType.coe_neg]
    unfold cosine
    simp only [hf, neg_sq, neg_mul, Finset.sum_neg_distrib, neg_div]
  · rw [not_and_or] at h
    rw [coef_none k x y h, coef_none k _ y (by rwa [hv])]
    rfl

example : spearman ![-1, -1, -2] ![1, 2, 3] = (spearman ![1, 1, 2] ![1, 2, 3]).map fun r => -r := by
  have h : (fun i => -(![1, 1, 2] : Fin 3 → ℝ) i) = ![-1, -1, -2] := by
    funext i
    fin_cases i <;> rfl
  have := C214_reversed .spearman (![1, 1, 2] : Fin 3 → ℝ) ![1, 2, 3]
  rw [h] at this
  exact this

/-! ### The table -/

/-- The names of the coefficients as they are written in source code. -/
def name : Kind → Name
  | .pearson => ⟨"pearson", true⟩
  | .spearman => ⟨"spearman", true⟩
  | .kendall => ⟨"kendall", true⟩

private theorem entry_eq {n : ℕ} (hn : 2 ≤ n) (k : Kind) (d target : Fin n → ℝ) : entry (name k) d target = .ok [coef k d target] := by
  have h2 : ¬ n < 2 := by omega
  cases k <;> simp [entry, name, coef, h2]

private theorem row_eq {n : ℕ} (hn : 2 ≤ n) (k : Kind) (cols : List (Fin n → ℝ)) (target : Fin n → ℝ) :
    row (name k) cols target = .ok (cols.map fun d => coef k d target) := by
  induction cols with
  | nil => rfl
  | cons d cols ih => simp [row, entry_eq hn, ih]

private theorem std_col {n m : ℕ} (k : Kind) (train : Fin n → Fin m → ℝ) (target : Fin n → ℝ) (j : Fin m) :
    coef k (fun i => (standardize (κ := Empty) train none none none true).train i j) target = coef k (fun i => train i j) target := by
  have h := (C214_units k (fun i => train i j) target (1 / placeOnes (colStd train) j)
    (-(colMean train j) / placeOnes (colStd train) j) 1 0 (by
      apply one_div_pos.2
      unfold placeOnes
      split
      · exact one_pos
      · rename_i hne
        exact lt_of_le_of_ne (Real.sqrt_nonneg _) (Ne.symm hne)) one_pos)
  simp only [one_mul, add_zero] at h
  rw [← h]
  congr 1
  funext i
  simp only [standardize, applyScale, onData, Option.getD_none]
  ring

/-- C214 (`_partial`: for names that are written out): `target_correlation` returns a row for each coefficient asked for, in order, with the
coefficients of all features, in order; that the features are standardised first does not matter. -/
theorem C214_table_partial {n m : ℕ} (hn : 2 ≤ n) (train : Fin n → Fin m → ℝ) (target : Fin n → ℝ) (ks : List Kind) :
    targetCorrelation train target (ks.map name) = .ok (ks.map fun k => List.ofFn fun j => coef k (fun i => train i j) target) := by
  induction ks with
  | nil => rfl
  | cons k ks ih =>
    simp only [List.map_cons, targetCorrelation, row_eq hn, ih, columns, List.map_ofFn, Function.comp_def, std_col]

/-- C214: without names, the table has three rows: Pearson's, Spearman's and Kendall's coefficients. -/
theorem C214_default_table {n m : ℕ} (hn : 2 ≤ n) (train : Fin n → Fin m → ℝ) (target : Fin n → ℝ) :
    targetCorrelation train target defaults = .ok [List.ofFn fun j => pearson (fun i => train i j) target,
      List.ofFn fun j => spearman (fun i => train i j) target, List.ofFn fun j => kendall (fun i => train i j) target] :=
  C214_table_partial hn train target [.pearson, .spearman, .kendall]

/-- C214: targets that do not belong to the data are refused. -/
theorem C214_lengths {n m l : ℕ} (hnl : n ≠ l) (hm : 0 < m) (train : Fin n → Fin m → ℝ) (target : Fin l → ℝ) (ks : List Kind) (hk : ks ≠ []) :
    targetCorrelation train target (ks.map name) = .error .value := by
  cases ks with
  | nil => exact absurd rfl hk
  | cons k ks =>
    obtain ⟨m, rfl⟩ : ∃ m', m = m' + 1 := ⟨m - 1, by omega⟩
    have : row (name k) (columns train) target = .error .value := by
      simp only [columns, List.ofFn_succ, row]
      cases k <;> simp [entry, name, hnl]
    simp only [List.map_cons, targetCorrelation, this]

/-- C214 is violated for every name that is not a literal (names are compared with `is`) and for misspelt names: the row is empty, and there
is no error. -/
theorem C214_names_violated {n m l : ℕ} (train : Fin n → Fin m → ℝ) (target : Fin l → ℝ) (c : Name)
    (h : c.literal = false ∨ c.text ∉ ["pearson", "spearman", "kendall"]) :
    targetCorrelation train target [c] = .ok [[]] := by
  have he : ∀ d : Fin n → ℝ, entry c d target = .ok [] := by
    intro d
    unfold entry
    rcases h with h | h
    · simp [h]
    · simp only [List.mem_cons, List.not_mem_nil, or_false, not_or] at h
      simp [h.1, h.2.1, h.2.2]
  have hr : ∀ cols : List (Fin n → ℝ), row c cols target = .ok [] := by
    intro cols
    induction cols with
    | nil => rfl
    | cons d cols ih => simp [row, he, ih]
  simp [targetCorrelation, hr]

/-- Two observations and two features, the default names; a constant feature. -/
example : ∃ (train : Fin 2 → Fin 2 → ℝ) (target : Fin 2 → ℝ), (∃ i j, train i 0 ≠ train j 0) ∧ (∀ i j, train i 1 = train j 1) ∧
    (∃ i j, target i ≠ target j) ∧ defaults = [Kind.pearson, .spearman, .kendall].map name ∧ StrictMono fun t : ℝ => t ^ 3 := by
  refine ⟨![![0, 5], ![1, 5]], ![2, 3], ⟨0, 1, by simp⟩, ?_, ⟨0, 1, by simp⟩, rfl, ?_⟩
  · intro i j
    fin_cases i <;> fin_cases j <;> simp
  · exact (Odd.strictMono_pow (by decide))

/-- A name read from a file. -/
example : (⟨"pearson", false⟩ : Name).literal = false := rfl

end CatLearn.Correlation
