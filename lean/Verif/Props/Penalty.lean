import Verif.Props.Utilities
import Mathlib.Analysis.InnerProductSpace.PiL2

/-!
# Penalties of more data, in other coordinates and at other points (C306)
-/

namespace CatLearn.Props

open CatLearn CatLearn.Utilities

variable {d : Nat}

/-- The penalties as functions of the smallest distance. -/
private theorem close_eq (c dcrit : ℝ) (test train : List (Fin d → ℝ)) (m : (Fin d → ℝ) → ℝ) (hm : ∀ x, minDist train x = .ok (m x)) :
    penaltyClose c dcrit test train = .ok (test.map fun x => if m x < dcrit then c * (m x - dcrit) ^ 2 else 0) :=
  MapM.mapM_ok_map _ _ _ fun x _ => by simp only [hm x]

private theorem far_eq (c dcrit : ℝ) (test train : List (Fin d → ℝ)) (m : (Fin d → ℝ) → ℝ) (hm : ∀ x, minDist train x = .ok (m x)) :
    penaltyFar c dcrit test train = .ok (test.map fun x => if dcrit < m x then c * (m x - dcrit) ^ 2 else 0) :=
  MapM.mapM_ok_map _ _ _ fun x _ => by simp only [hm x]

private theorem close_mono {c dcrit a b : ℝ} (hc : 0 ≤ c) (h : a ≤ b) :
    (if b < dcrit then c * (b - dcrit) ^ 2 else 0) ≤ if a < dcrit then c * (a - dcrit) ^ 2 else 0 := by
  split_ifs with h1 h2 h2
  · exact mul_le_mul_of_nonneg_left (by nlinarith) hc
  · exact absurd (h.trans_lt h1) h2
  · positivity
  · exact le_rfl

private theorem far_mono {c dcrit a b : ℝ} (hc : 0 ≤ c) (h : a ≤ b) :
    (if dcrit < a then c * (a - dcrit) ^ 2 else 0) ≤ if dcrit < b then c * (b - dcrit) ^ 2 else 0 := by
  split_ifs with h1 h2 h2
  · exact mul_le_mul_of_nonneg_left (by nlinarith) hc
  · exact absurd (h1.trans_le h) h2
  · positivity
  · exact le_rfl

/-- C306: with more training data no point gets a smaller penalty for being too close, and none a larger one for being too far. -/
theorem C306_more (c dcrit : ℝ) (hc : 0 ≤ c) (test train train' : List (Fin d → ℝ)) (hne : train ≠ []) (hsub : ∀ t ∈ train, t ∈ train') :
    ∃ p p' q q' : (Fin d → ℝ) → ℝ, penaltyClose c dcrit test train = .ok (test.map p) ∧ penaltyClose c dcrit test train' = .ok (test.map p') ∧
      penaltyFar c dcrit test train = .ok (test.map q) ∧ penaltyFar c dcrit test train' = .ok (test.map q') ∧ ∀ x, p x ≤ p' x ∧ q' x ≤ q x := by
  have hne' : train' ≠ [] := by
    obtain ⟨t, ht⟩ := List.exists_mem_of_ne_nil _ hne
    exact List.ne_nil_of_mem (hsub t ht)
  choose m hm hex hle using minDist_spec train hne
  choose m' hm' hex' hle' using minDist_spec train' hne'
  have h : ∀ x, m' x ≤ m x := fun x => by
    obtain ⟨t, ht, e⟩ := hex x
    rw [e]
    exact hle' x t (hsub t ht)
  exact ⟨_, _, _, _, close_eq c dcrit test train m hm, close_eq c dcrit test train' m' hm', far_eq c dcrit test train m hm,
    far_eq c dcrit test train' m' hm', fun x => ⟨close_mono hc (h x), far_mono hc (h x)⟩⟩

/-- C306: the order of the training data and repeated data are immaterial. -/
theorem C306_order (c dcrit : ℝ) (test train train' : List (Fin d → ℝ)) (h : ∀ t, t ∈ train ↔ t ∈ train') :
    penaltyClose c dcrit test train = penaltyClose c dcrit test train' ∧ penaltyFar c dcrit test train = penaltyFar c dcrit test train' := by
  by_cases hne : train = []
  · have : train' = [] := by
      rw [List.eq_nil_iff_forall_not_mem]
      intro a ha
      rw [← h, hne] at ha
      simp at ha
    rw [hne, this]
    exact ⟨rfl, rfl⟩
  have hne' : train' ≠ [] := by
    obtain ⟨t, ht⟩ := List.exists_mem_of_ne_nil _ hne
    exact List.ne_nil_of_mem ((h t).1 ht)
  choose m hm hex hle using minDist_spec train hne
  choose m' hm' hex' hle' using minDist_spec train' hne'
  have e : m = m' := by
    funext x
    apply le_antisymm
    · obtain ⟨t, ht, e⟩ := hex' x
      rw [e]
      exact hle x t ((h t).2 ht)
    · obtain ⟨t, ht, e⟩ := hex x
      rw [e]
      exact hle' x t ((h t).1 ht)
  subst e
  exact ⟨(close_eq c dcrit test train m hm).trans (close_eq c dcrit test train' m hm').symm,
    (far_eq c dcrit test train m hm).trans (far_eq c dcrit test train' m hm').symm⟩

/-- C306: in other units, axes or origins of the features — a map that multiplies all distances by `b` — with the critical distance in the same units, the penalties are
multiplied by the square of `b`. -/
theorem C306_units {d' : Nat} (f : (Fin d → ℝ) → Fin d' → ℝ) (b : ℝ) (hb : 0 < b) (hf : ∀ x y, Utilities.dist (f x) (f y) = b * Utilities.dist x y) (c dcrit : ℝ)
    (test train : List (Fin d → ℝ)) (hne : train ≠ []) : ∃ p q : (Fin d → ℝ) → ℝ,
    penaltyClose c dcrit test train = .ok (test.map p) ∧ penaltyClose c (b * dcrit) (test.map f) (train.map f) = .ok (test.map fun x => b ^ 2 * p x) ∧
    penaltyFar c dcrit test train = .ok (test.map q) ∧ penaltyFar c (b * dcrit) (test.map f) (train.map f) = .ok (test.map fun x => b ^ 2 * q x) := by
  choose m hm hex hle using minDist_spec train hne
  choose m' hm' hex' hle' using minDist_spec (train.map f) (by simpa using hne)
  have e : ∀ x, m' (f x) = b * m x := by
    intro x
    apply le_antisymm
    · obtain ⟨t, ht, e⟩ := hex x
      rw [e, ← hf]
      exact hle' (f x) (f t) (List.mem_map_of_mem ht)
    · obtain ⟨t, ht, e⟩ := hex' (f x)
      obtain ⟨s, hs, rfl⟩ := List.mem_map.1 ht
      rw [e, hf]
      exact mul_le_mul_of_nonneg_left (hle x s hs) hb.le
  refine ⟨_, _, close_eq c dcrit test train m hm, ?_, far_eq c dcrit test train m hm, ?_⟩
  · rw [close_eq _ _ _ _ m' hm', List.map_map]
    congr 1
    refine List.map_congr_left fun x _ => ?_
    simp only [Function.comp_apply, e, mul_lt_mul_iff_right₀ hb]
    split_ifs
    · ring
    · ring
  · rw [far_eq _ _ _ _ m' hm', List.map_map]
    congr 1
    refine List.map_congr_left fun x _ => ?_
    simp only [Function.comp_apply, e, mul_lt_mul_iff_right₀ hb]
    split_ifs
    · ring
    · ring

/-- C306: when the critical distance of points too close is at most that of points too far, no point gets both penalties. -/
theorem C306_exclusive (c c' dmin dmax : ℝ) (hd : dmin ≤ dmax) (test train : List (Fin d → ℝ)) (hne : train ≠ []) :
    ∃ p q : (Fin d → ℝ) → ℝ, penaltyClose c dmin test train = .ok (test.map p) ∧ penaltyFar c' dmax test train = .ok (test.map q) ∧
      ∀ x, p x = 0 ∨ q x = 0 := by
  choose m hm hex hle using minDist_spec train hne
  refine ⟨_, _, close_eq c dmin test train m hm, far_eq c' dmax test train m hm, fun x => ?_⟩
  by_cases h : m x < dmin
  · exact Or.inr (if_neg (not_lt.2 (h.le.trans hd)))
  · exact Or.inl (if_neg h)

private theorem dist_tri (x y z : Fin d → ℝ) : Utilities.dist x z ≤ Utilities.dist x y + Utilities.dist y z := by
  have h := dist_triangle (WithLp.toLp 2 x : EuclideanSpace ℝ (Fin d)) (WithLp.toLp 2 y) (WithLp.toLp 2 z)
  simp only [EuclideanSpace.dist_eq, Real.dist_eq, sq_abs] at h
  exact h

private theorem dist_symm' (x y : Fin d → ℝ) : Utilities.dist x y = Utilities.dist y x := by
  unfold Utilities.dist
  congr 1
  exact Finset.sum_congr rfl fun k _ => by ring

private theorem root_close {c dcrit : ℝ} (hc : 0 ≤ c) (a : ℝ) : Real.sqrt (if a < dcrit then c * (a - dcrit) ^ 2 else 0) = Real.sqrt c * max (dcrit - a) 0 := by
  split_ifs with h
  · rw [Real.sqrt_mul hc, Real.sqrt_sq_eq_abs, abs_of_neg (by linarith), max_eq_left (by linarith), neg_sub]
  · rw [max_eq_right (by linarith), Real.sqrt_zero, mul_zero]

private theorem root_far {c dcrit : ℝ} (hc : 0 ≤ c) (a : ℝ) : Real.sqrt (if dcrit < a then c * (a - dcrit) ^ 2 else 0) = Real.sqrt c * max (a - dcrit) 0 := by
  split_ifs with h
  · rw [Real.sqrt_mul hc, Real.sqrt_sq_eq_abs, abs_of_pos (by linarith), max_eq_left (by linarith)]
  · rw [max_eq_right (by linarith), Real.sqrt_zero, mul_zero]

/-- C306: the roots of the penalties of two points differ by at most the root of the constant times the distance of the points: the penalties are continuous, also at the
critical distance. -/
theorem C306_change (c dcrit : ℝ) (hc : 0 ≤ c) (test train : List (Fin d → ℝ)) (hne : train ≠ []) :
    ∃ p q : (Fin d → ℝ) → ℝ, penaltyClose c dcrit test train = .ok (test.map p) ∧ penaltyFar c dcrit test train = .ok (test.map q) ∧
      ∀ x y, |Real.sqrt (p x) - Real.sqrt (p y)| ≤ Real.sqrt c * Utilities.dist x y ∧ |Real.sqrt (q x) - Real.sqrt (q y)| ≤ Real.sqrt c * Utilities.dist x y := by
  choose m hm hex hle using minDist_spec train hne
  have hlip : ∀ x y, m x - m y ≤ Utilities.dist x y := fun x y => by
    obtain ⟨t, ht, e⟩ := hex y
    have := (hle x t ht).trans (dist_tri x y t)
    linarith
  have habs : ∀ x y, |m x - m y| ≤ Utilities.dist x y := fun x y => by
    rw [abs_le]
    have h1 := hlip x y
    have h2 := hlip y x
    rw [dist_symm' y x] at h2
    constructor <;> linarith
  refine ⟨_, _, close_eq c dcrit test train m hm, far_eq c dcrit test train m hm, fun x y => ⟨?_, ?_⟩⟩
  · rw [root_close hc, root_close hc, ← mul_sub, abs_mul, abs_of_nonneg (Real.sqrt_nonneg c)]
    refine mul_le_mul_of_nonneg_left ?_ (Real.sqrt_nonneg c)
    refine (abs_max_sub_max_le_abs _ _ _).trans ?_
    rw [sub_sub_sub_cancel_left, abs_sub_comm]
    exact habs x y
  · rw [root_far hc, root_far hc, ← mul_sub, abs_mul, abs_of_nonneg (Real.sqrt_nonneg c)]
    refine mul_le_mul_of_nonneg_left ?_ (Real.sqrt_nonneg c)
    refine (abs_max_sub_max_le_abs _ _ _).trans ?_
    rw [sub_sub_sub_cancel_right]
    exact habs x y

/-- More data, and features in other units. -/
example : (∀ t ∈ [![(0:ℝ), 1]], t ∈ [![(3:ℝ), 4], ![0, 1]]) ∧ [![(0:ℝ), 1]] ≠ [] ∧
    ∀ x y : Fin 2 → ℝ, Utilities.dist (fun k => 10 * x k + 1) (fun k => 10 * y k + 1) = 10 * Utilities.dist x y := by
  refine ⟨by simp, by simp, fun x y => ?_⟩
  unfold Utilities.dist
  rw [← Real.sqrt_sq (show (0:ℝ) ≤ 10 by norm_num), ← Real.sqrt_mul (by norm_num), Finset.mul_sum, Real.sqrt_sq (by norm_num)]
  congr 1
  exact Finset.sum_congr rfl fun k _ => by ring

end CatLearn.Props
