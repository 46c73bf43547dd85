import Verif.Props.Errors

/-!
# Error statistics in other units, of parts of the data and against a third set of values (C312)
-/

namespace CatLearn.Err

open CatLearn

/-- All statistics multiplied by `c`. -/
noncomputable def Errors.times (c : ℝ) (e : Errors) : Errors :=
  ⟨e.residuals.map (c * ·), c * e.signedMean, c * e.signedMedian, e.signedPercentiles.map (Prod.map id (c * ·)), e.rmseAll.map (c * ·),
    c * e.rmseAverage, e.rmsePercentiles.map (Prod.map id (c * ·)), e.absoluteAll.map (c * ·), c * e.absoluteAverage, e.absolutePercentiles.map (Prod.map id (c * ·))⟩

private theorem mean_mul (c : ℝ) (l : List ℝ) : mean (l.map (c * ·)) = c * mean l := by
  unfold mean
  rw [List.sum_map_mul_left, List.length_map, List.map_id']
  ring

private theorem sort_mul (c : ℝ) (hc : 0 ≤ c) (l : List ℝ) : sortAsc id (l.map (c * ·)) = (sortAsc id l).map (c * ·) := by
  refine List.Perm.eq_of_pairwise' (sort_pairwise _) ?_ ((sortAsc_perm id _).trans ((sortAsc_perm id l).symm.map _))
  rw [List.pairwise_map]
  exact (sort_pairwise l).imp fun h => mul_le_mul_of_nonneg_left h hc

private theorem getD_mul (c : ℝ) (s : List ℝ) (i : ℕ) (x : ℝ) : (s.map (c * ·)).getD i (c * x) = c * s.getD i x := by
  simp only [List.getD_eq_getElem?_getD, List.getElem?_map]
  cases s[i]? <;> rfl

private theorem getD_mul0 (c : ℝ) (s : List ℝ) (i : ℕ) : (s.map (c * ·)).getD i 0 = c * s.getD i 0 := by
  rw [← getD_mul, mul_zero]

private theorem percentile_mul (c : ℝ) (hc : 0 ≤ c) (l : List ℝ) (p : ℝ) : percentile (l.map (c * ·)) p = c * percentile l p := by
  unfold percentile
  simp only [sort_mul c hc, getD_mul0, getD_mul, List.length_map]
  ring

private theorem median_mul (c : ℝ) (hc : 0 ≤ c) (l : List ℝ) : median (l.map (c * ·)) = c * median l := by
  unfold median
  simp only [sort_mul c hc, getD_mul0, List.length_map]
  ring

private theorem percentiles_mul (c : ℝ) (hc : 0 ≤ c) (l : List ℝ) : percentiles (l.map (c * ·)) = (percentiles l).map (Prod.map id (c * ·)) := by
  unfold percentiles
  simp [percentile_mul c hc]

/-- C312: predictions and targets in another unit and with another zero have errors that are all converted with the unit. -/
theorem C312_units (c b : ℝ) (hc : 0 ≤ c) (p t : List ℝ) :
    getError (p.map fun x => c * x + b) (t.map fun x => c * x + b) = (getError p t).map (Errors.times c) := by
  unfold getError
  simp only [List.length_map]
  by_cases hl : p.length ≠ t.length
  · rw [if_pos hl, if_pos hl]
    rfl
  rw [if_neg hl, if_neg hl]
  have e : List.zipWith (· - ·) (p.map fun x => c * x + b) (t.map fun x => c * x + b) = (List.zipWith (· - ·) p t).map (c * ·) := by
    rw [List.zipWith_map, List.map_zipWith]
    congr 1
    funext x y
    ring
  have e1 : ∀ l : List ℝ, ((l.map (c * ·)).map fun r => r ^ 2) = (l.map fun r => r ^ 2).map (c ^ 2 * ·) := fun l => by
    rw [List.map_map, List.map_map]
    exact List.map_congr_left fun x _ => by simp [mul_pow]
  have e2 : ∀ l : List ℝ, (l.map (c ^ 2 * ·)).map Real.sqrt = (l.map Real.sqrt).map (c * ·) := fun l => by
    rw [List.map_map, List.map_map]
    exact List.map_congr_left fun x _ => by simp [Real.sqrt_mul (sq_nonneg c), Real.sqrt_sq hc]
  have e3 : ∀ l : List ℝ, ((l.map (c * ·)).map fun r => |r|) = (l.map fun r => |r|).map (c * ·) := fun l => by
    rw [List.map_map, List.map_map]
    exact List.map_congr_left fun x _ => by simp [abs_mul, abs_of_nonneg hc]
  have e4 : ∀ x : ℝ, Real.sqrt (c ^ 2 * x) = c * Real.sqrt x := fun x => by rw [Real.sqrt_mul (sq_nonneg c), Real.sqrt_sq hc]
  simp only [e, e1, e2, e3, e4, mean_mul, median_mul c hc, percentiles_mul c hc, Except.map, Errors.times]

private theorem zip_append (p q t s : List ℝ) (h : p.length = t.length) (f : ℝ → ℝ → ℝ) :
    List.zipWith f (p ++ q) (t ++ s) = List.zipWith f p t ++ List.zipWith f q s := List.zipWith_append h

private theorem mean_mul_length (l : List ℝ) : mean l * l.length = l.sum := by
  unfold mean
  by_cases h : l = []
  · simp [h]
  · have : (l.length : ℝ) ≠ 0 := by simpa using h
    field_simp

/-- C312: the errors of two parts of the data add up to the errors of the whole, weighted with the numbers of data: signed and absolute errors themselves,
root mean squared errors by their squares. -/
theorem C312_parts (p q t s : List ℝ) (e e' : Errors) (h : getError p t = .ok e) (h' : getError q s = .ok e') :
    ∃ f, getError (p ++ q) (t ++ s) = .ok f ∧ f.residuals = e.residuals ++ e'.residuals ∧
      f.signedMean * (p.length + q.length) = e.signedMean * p.length + e'.signedMean * q.length ∧
      f.absoluteAverage * (p.length + q.length) = e.absoluteAverage * p.length + e'.absoluteAverage * q.length ∧
      f.rmseAverage ^ 2 * (p.length + q.length) = e.rmseAverage ^ 2 * p.length + e'.rmseAverage ^ 2 * q.length := by
  obtain ⟨hl, h1, h2, -, -, h3, h4, h5, h6, -⟩ := getError_ok h
  obtain ⟨hl', h1', h2', -, -, h3', h4', h5', h6', -⟩ := getError_ok h'
  obtain ⟨f, hf⟩ := (C48_raises (p ++ q) (t ++ s)).2 (by simp [hl, hl'])
  obtain ⟨-, g1, g2, -, -, g3, g4, g5, g6, -⟩ := getError_ok hf
  rw [zip_append _ _ _ _ hl, ← h1, ← h1'] at g1
  have n1 : (e.residuals.length : ℝ) = p.length := by rw [h1]; simp [hl]
  have n2 : (e'.residuals.length : ℝ) = q.length := by rw [h1']; simp [hl']
  have nf : (f.residuals.length : ℝ) = p.length + q.length := by rw [g1, List.length_append]; push_cast; rw [n1, n2]
  have key : ∀ φ : ℝ → ℝ, mean (f.residuals.map φ) * (p.length + q.length) = mean (e.residuals.map φ) * p.length + mean (e'.residuals.map φ) * q.length := by
    intro φ
    have k1 := mean_mul_length (f.residuals.map φ)
    have k2 := mean_mul_length (e.residuals.map φ)
    have k3 := mean_mul_length (e'.residuals.map φ)
    rw [List.length_map] at k1 k2 k3
    rw [nf] at k1
    rw [n1] at k2
    rw [n2] at k3
    rw [k1, k2, k3, g1, List.map_append, List.sum_append]
  have sq : ∀ l : List ℝ, 0 ≤ mean (l.map fun r => r ^ 2) := fun l => by
    unfold mean
    exact div_nonneg (List.sum_nonneg fun x hx => by
      obtain ⟨y, -, rfl⟩ := List.mem_map.1 hx
      positivity) (by positivity)
  refine ⟨f, hf, g1, ?_, ?_, ?_⟩
  · have := key id
    simp only [List.map_id_fun, id] at this
    rw [g2, h2, h2']
    exact this
  · rw [g4, h4, h4', g3, h3, h3']
    exact key _
  · rw [g6, h6, h6', Real.sq_sqrt (sq _), Real.sq_sqrt (sq _), Real.sq_sqrt (sq _)]
    exact key _

/-- C312: so the error of the whole lies between the errors of the parts. -/
theorem C312_between (p q t s : List ℝ) (hp : p ≠ []) (hq : q ≠ []) (e e' f : Errors) (h : getError p t = .ok e) (h' : getError q s = .ok e')
    (hf : getError (p ++ q) (t ++ s) = .ok f) : min e.rmseAverage e'.rmseAverage ≤ f.rmseAverage ∧ f.rmseAverage ≤ max e.rmseAverage e'.rmseAverage ∧
      min e.absoluteAverage e'.absoluteAverage ≤ f.absoluteAverage ∧ f.absoluteAverage ≤ max e.absoluteAverage e'.absoluteAverage := by
  obtain ⟨f', k0, -, -, k1, k2⟩ := C312_parts p q t s e e' h h'
  rw [hf] at k0
  obtain rfl := Except.ok.inj k0
  have np : (0 : ℝ) < p.length := by exact_mod_cast List.length_pos_iff.2 hp
  have nq : (0 : ℝ) < q.length := by exact_mod_cast List.length_pos_iff.2 hq
  have r : 0 ≤ e.rmseAverage := by rw [(getError_ok h).2.2.2.2.2.2.2.2.1]; exact Real.sqrt_nonneg _
  have r' : 0 ≤ e'.rmseAverage := by rw [(getError_ok h').2.2.2.2.2.2.2.2.1]; exact Real.sqrt_nonneg _
  have rf : 0 ≤ f.rmseAverage := by rw [(getError_ok hf).2.2.2.2.2.2.2.2.1]; exact Real.sqrt_nonneg _
  have lo : ∀ a b c : ℝ, c * (p.length + q.length) = a * p.length + b * q.length → min a b ≤ c ∧ c ≤ max a b := by
    intro a b c hc
    constructor
    · by_contra hcon
      push Not at hcon
      have h1 := lt_of_lt_of_le hcon (min_le_left a b)
      have h2 := lt_of_lt_of_le hcon (min_le_right a b)
      nlinarith
    · by_contra hcon
      push Not at hcon
      have h1 := lt_of_le_of_lt (le_max_left a b) hcon
      have h2 := lt_of_le_of_lt (le_max_right a b) hcon
      nlinarith
  obtain ⟨s1, s2⟩ := lo _ _ _ k2
  obtain ⟨a1, a2⟩ := lo _ _ _ k1
  refine ⟨?_, ?_, a1, a2⟩
  · rcases le_total e.rmseAverage e'.rmseAverage with g | g
    · rw [min_eq_left g]
      rw [min_eq_left (pow_le_pow_left₀ r g 2)] at s1
      exact (pow_le_pow_iff_left₀ r rf two_ne_zero).1 s1
    · rw [min_eq_right g]
      rw [min_eq_right (pow_le_pow_left₀ r' g 2)] at s1
      exact (pow_le_pow_iff_left₀ r' rf two_ne_zero).1 s1
  · rcases le_total e.rmseAverage e'.rmseAverage with g | g
    · rw [max_eq_right g]
      rw [max_eq_right (pow_le_pow_left₀ r g 2)] at s2
      exact (pow_le_pow_iff_left₀ rf r' two_ne_zero).1 s2
    · rw [max_eq_left g]
      rw [max_eq_left (pow_le_pow_left₀ r' g 2)] at s2
      exact (pow_le_pow_iff_left₀ rf r two_ne_zero).1 s2

/-- C312: the mean absolute error against a third set of values is at most the sum of the errors on the way. -/
theorem C312_triangle (p q t : List ℝ) (e e' f : Errors) (h : getError p q = .ok e) (h' : getError q t = .ok e')
    (hf : getError p t = .ok f) : f.absoluteAverage ≤ e.absoluteAverage + e'.absoluteAverage := by
  obtain ⟨hl, h1, -, -, -, h3, h4, -⟩ := getError_ok h
  obtain ⟨hl', h1', -, -, -, h3', h4', -⟩ := getError_ok h'
  obtain ⟨-, g1, -, -, -, g3, g4, -⟩ := getError_ok hf
  have tri : ∀ p q t : List ℝ, p.length = q.length → q.length = t.length →
      ((List.zipWith (· - ·) p t).map fun r => |r|).sum ≤ ((List.zipWith (· - ·) p q).map fun r => |r|).sum + ((List.zipWith (· - ·) q t).map fun r => |r|).sum := by
    intro p
    induction p with
    | nil => intro q t h1 h2; cases q <;> cases t <;> simp_all
    | cons x p ih =>
      intro q t h1 h2
      cases q with
      | nil => simp at h1
      | cons y q =>
        cases t with
        | nil => simp at h2
        | cons z t =>
          simp only [List.zipWith_cons_cons, List.map_cons, List.sum_cons]
          have := ih q t (by simpa using h1) (by simpa using h2)
          have := abs_sub_le x y z
          linarith
  rw [g4, h4, h4', g3, h3, h3', g1, h1, h1']
  unfold mean
  simp only [List.length_map, List.length_zipWith, hl, hl', min_self]
  rw [← add_div]
  exact div_le_div_of_nonneg_right (tri p q t hl hl') (by positivity)

/-- C312 on two data points. -/
example : (∃ e, getError [1, 2] [3, 5] = .ok e) ∧ (∃ e, getError [2] [7] = .ok e) ∧ (∃ e, getError [1, 2] [0, 0] = .ok e) ∧ (0 : ℝ) ≤ 3 :=
  ⟨(C48_raises _ _).2 rfl, (C48_raises _ _).2 rfl, (C48_raises _ _).2 rfl, by norm_num⟩

end CatLearn.Err
