import Verif.Model.Errors
import Verif.Props.Errors
import Mathlib.Analysis.SpecialFunctions.Log.Basic

/-!
# C249: the logarithmic error, and C48: the errors in other units
-/

namespace CatLearn.Err

open CatLearn

/-- The difference of the logarithms of one prediction and one target, both increased by one. -/
noncomputable def logDiff (p t : ℝ) : ℝ := Real.log (p + 1) - Real.log (t + 1)

private theorem logTerm_num {p t : ℝ} (hp : 0 ≤ p) (ht : -1 < t) : logTerm p t = .num (logDiff p t ^ 2) := by
  unfold logTerm logDiff
  rw [if_neg (by linarith), if_neg (by linarith), max_eq_left hp]

private theorem nanmean_num (l : List ℝ) (hl : l ≠ []) : nanmean (l.map Val.num) = .num (mean l) := by
  unfold nanmean
  have h1 : (l.map Val.num).all Val.isNan = false := by
    cases l with
    | nil => exact absurd rfl hl
    | cons a l => simp [Val.isNan]
  have h2 : (l.map Val.num).any Val.isInf = false := by simp [Val.isInf]
  have h3 : (l.map Val.num).filterMap Val.toNum = l := by
    rw [List.filterMap_map]
    have : Val.toNum ∘ Val.num = some := rfl
    rw [this, List.filterMap_some]
  rw [h1, h2, h3]
  simp

private theorem terms_num (p t : List ℝ) (hp : ∀ x ∈ p, 0 ≤ x) (ht : ∀ x ∈ t, -1 < x) :
    List.zipWith logTerm p t = (List.zipWith (fun a b => logDiff a b ^ 2) p t).map Val.num := by
  induction p generalizing t with
  | nil => rfl
  | cons a p ih =>
    cases t with
    | nil => rfl
    | cons b t =>
      simp only [List.zipWith_cons_cons, List.map_cons]
      rw [logTerm_num (hp a (by simp)) (ht b (by simp)), ih t (fun x hx => hp x (by simp [hx])) fun x hx => ht x (by simp [hx])]

private theorem logErrors_num (p t : List ℝ) (hl : p.length = t.length) (hne : p ≠ []) (hp : ∀ x ∈ p, 0 ≤ x)
    (ht : ∀ x ∈ t, -1 < x) :
    logErrors p t = .ok
      ⟨(List.zipWith (fun a b => logDiff a b ^ 2) p t).map Val.num, (List.zipWith (fun a b => |logDiff a b|) p t).map Val.num,
        .num (Real.sqrt (mean (List.zipWith (fun a b => logDiff a b ^ 2) p t)))⟩ := by
  obtain ⟨e, he⟩ := (C48_raises p t).2 hl
  unfold logErrors
  simp only [he, bind, Except.bind, pure, Except.pure]
  rw [terms_num p t hp ht, nanmean_num]
  · simp only [Val.sqrt, List.map_map, List.map_zipWith, Function.comp_def, Real.sqrt_sq_eq_abs]
  · intro h0
    have := congrArg List.length h0
    simp [hl] at this
    exact hne (List.eq_nil_of_length_eq_zero (by rw [hl, this]; rfl))

theorem logDiff_zero {p t : ℝ} (hp : 0 ≤ p) (ht : -1 < t) : logDiff p t = 0 ↔ p = t := by
  unfold logDiff
  rw [sub_eq_zero]
  constructor
  · intro h
    have := Real.log_injOn_pos (Set.mem_Ioi.mpr (by linarith : (0:ℝ) < p + 1)) (Set.mem_Ioi.mpr (by linarith : (0:ℝ) < t + 1)) h
    linarith
  · rintro rfl; rfl

/-- C249, predictions that are not negative and targets above -1: every pair counts, and the error is zero exactly if every
prediction is right. -/
theorem C249_zero_partial (p t : List ℝ) (hl : p.length = t.length) (hne : p ≠ []) (hp : ∀ x ∈ p, 0 ≤ x) (ht : ∀ x ∈ t, -1 < x) :
    ∃ e a, logErrors p t = .ok e ∧ e.rmsleAverage = .num a ∧ 0 ≤ a ∧ (a = 0 ↔ p = t) ∧
      e.rmsleAll = (List.zipWith (fun a b => |Real.log (a + 1) - Real.log (b + 1)|) p t).map Val.num := by
  refine ⟨_, _, logErrors_num p t hl hne hp ht, rfl, Real.sqrt_nonneg _, ?_, rfl⟩
  have hnn : ∀ x ∈ List.zipWith (fun a b => logDiff a b ^ 2) p t, 0 ≤ x := by
    intro x hx
    obtain ⟨i, hi, rfl⟩ := List.mem_iff_getElem.mp hx
    rw [List.getElem_zipWith]
    positivity
  have hm : 0 ≤ mean (List.zipWith (fun a b => logDiff a b ^ 2) p t) := div_nonneg (List.sum_nonneg hnn) (by positivity)
  rw [Real.sqrt_eq_zero hm, mean_zero_iff hnn]
  constructor
  · intro h
    apply List.ext_getElem hl
    intro i h1 h2
    have := h (logDiff p[i] t[i] ^ 2)
      (List.mem_iff_getElem.mpr ⟨i, by simp; omega, by rw [List.getElem_zipWith]⟩)
    exact (logDiff_zero (hp _ (List.getElem_mem h1)) (ht _ (List.getElem_mem h2))).mp (pow_eq_zero_iff (by norm_num) |>.mp this)
  · rintro rfl x hx
    obtain ⟨i, hi, rfl⟩ := List.mem_iff_getElem.mp hx
    rw [List.getElem_zipWith]
    simp [logDiff]

example : ([1, 2] : List ℝ).length = ([0, 3] : List ℝ).length ∧ (∀ x ∈ ([1, 2] : List ℝ), 0 ≤ x) ∧
    ∀ x ∈ ([0, 3] : List ℝ), -1 < x := by
  refine ⟨rfl, ?_, ?_⟩ <;> simp <;> norm_num

private theorem logDiff_le {p t : ℝ} (hp : 0 ≤ p) (ht : 0 ≤ t) : |logDiff p t| ≤ |p - t| := by
  have key : ∀ a b : ℝ, 0 ≤ b → b ≤ a → Real.log (a + 1) - Real.log (b + 1) ≤ a - b := by
    intro a b hb hab
    rw [← Real.log_div (by linarith) (by linarith)]
    have h1 := Real.log_le_sub_one_of_pos (show (0:ℝ) < (a + 1) / (b + 1) by apply div_pos <;> linarith)
    have h2 : (a + 1) / (b + 1) - 1 = (a - b) / (b + 1) := by field_simp; ring
    have h3 : (a - b) / (b + 1) ≤ a - b := div_le_self (by linarith) (by linarith)
    linarith
  unfold logDiff
  rcases le_total t p with h | h
  · have hm : Real.log (t + 1) ≤ Real.log (p + 1) := Real.log_le_log (by linarith) (by linarith)
    rw [abs_of_nonneg (by linarith), abs_of_nonneg (by linarith)]
    exact key p t ht h
  · have hm : Real.log (p + 1) ≤ Real.log (t + 1) := Real.log_le_log (by linarith) (by linarith)
    rw [abs_of_nonpos (by linarith), abs_of_nonpos (by linarith)]
    have := key t p hp h
    linarith

/-- C249: for values that are not negative the logarithmic error is at most the root-mean-squared error. -/
theorem C249_bound_partial (p t : List ℝ) (hne : p ≠ []) (hp : ∀ x ∈ p, 0 ≤ x) (ht : ∀ x ∈ t, 0 ≤ x) (e : Errors)
    (h : getError p t = .ok e) :
    ∃ l a, logErrors p t = .ok l ∧ l.rmsleAverage = .num a ∧ a ≤ e.rmseAverage := by
  obtain ⟨hl, h1, h2, h2m, h2p, h3, h4, h5, h6, h7, h8⟩ := getError_ok h
  refine ⟨_, _, logErrors_num p t hl hne hp fun x hx => by have := ht x hx; linarith, rfl, ?_⟩
  rw [h6, h1, List.map_zipWith]
  apply Real.sqrt_le_sqrt
  unfold mean
  simp only [List.length_zipWith]
  apply div_le_div_of_nonneg_right _ (by positivity)
  clear h h1 h2 h2m h2p h3 h4 h5 h6 h7 h8 hne
  induction p generalizing t with
  | nil => simp
  | cons a p ih =>
    cases t with
    | nil => simp
    | cons b t =>
      simp only [List.zipWith_cons_cons, List.sum_cons]
      have := sq_le_sq.mpr (logDiff_le (hp a (by simp)) (ht b (by simp)))
      have := ih t (fun x hx => hp x (by simp [hx])) (fun x hx => ht x (by simp [hx])) (by simpa using hl)
      linarith

/-- C249: predictions that are all wrong by the same factor (after adding one) have the logarithm of that factor as error. -/
theorem C249_factor_partial (t : List ℝ) (c : ℝ) (hne : t ≠ []) (hc : 0 < c) (ht : ∀ x ∈ t, -1 < x ∧ 0 ≤ c * (x + 1) - 1) :
    ∃ l, logErrors (t.map fun x => c * (x + 1) - 1) t = .ok l ∧ l.rmsleAverage = .num |Real.log c| := by
  refine ⟨_, logErrors_num _ t (by simp) (by simpa using hne) ?_ (fun x hx => (ht x hx).1), ?_⟩
  · intro x hx
    obtain ⟨y, hy, rfl⟩ := List.mem_map.mp hx
    exact (ht y hy).2
  · have : List.zipWith (fun a b => logDiff a b ^ 2) (t.map fun x => c * (x + 1) - 1) t = t.map fun _ => (Real.log c) ^ 2 := by
      rw [List.zipWith_map_left, List.zipWith_self]
      apply List.map_congr_left
      intro x hx
      have hx1 := (ht x hx).1
      unfold logDiff
      rw [sub_add_cancel, Real.log_mul (by linarith) (by linarith)]
      ring
    simp only [this]
    rw [mean_const hne, Real.sqrt_sq_eq_abs]

/-- C249: pairs whose target is below -1 are dropped silently, whatever is predicted, and negative predictions count as zero,
so that wrong predictions can have the error zero; a target of -1 makes the error infinite. -/
theorem C249_zero_violated (x : ℝ) :
    (∃ e, logErrors [x, 1] [-2, 1] = .ok e ∧ e.rmsleAverage = .num 0) ∧
    (x ≤ 0 → ∃ e, logErrors [x] [0] = .ok e ∧ e.rmsleAverage = .num 0) ∧
    (∃ e, logErrors [x, 1] [-1, 1] = .ok e ∧ e.rmsleAverage = .inf) ∧
    ∃ e, logErrors [x] [-2] = .ok e ∧ e.rmsleAverage = .nan := by
  have h1 : logTerm x (-2) = .nan := by unfold logTerm; rw [if_pos (by norm_num)]
  have h2 : logTerm 1 1 = .num 0 := by
    rw [logTerm_num (by norm_num) (by norm_num)]; simp [logDiff]
  have h4 : logTerm x (-1) = .inf := by unfold logTerm; rw [if_neg (by norm_num), if_pos rfl]
  refine ⟨?_, ?_, ?_, ?_⟩
  · refine ⟨_, rfl, ?_⟩
    have hf : [Val.nan, Val.num 0].filterMap Val.toNum = [0] := rfl
    simp [h1, h2, hf, nanmean, Val.isNan, Val.isInf, Val.sqrt, mean]
  · intro hx
    have h3 : logTerm x 0 = .num 0 := by
      unfold logTerm
      rw [if_neg (by norm_num), if_neg (by norm_num), max_eq_right hx]; simp
    refine ⟨_, rfl, ?_⟩
    simp [h3, nanmean, Val.isNan, Val.isInf, Val.toNum, Val.sqrt, mean]
  · refine ⟨_, rfl, ?_⟩
    simp [h2, h4, nanmean, Val.isNan, Val.isInf, Val.toNum, Val.sqrt]
  · refine ⟨_, rfl, ?_⟩
    simp [h1, nanmean, Val.isNan, Val.isInf, Val.toNum, Val.sqrt]

/-! ### Units -/

private theorem sort_scale (l : List ℝ) (a : ℝ) (ha : 0 < a) :
    sortAsc id (l.map fun x => a * x) = (sortAsc id l).map fun x => a * x := by
  have hp : (sortAsc id (l.map fun x => a * x)).Perm ((sortAsc id l).map fun x => a * x) :=
    (sortAsc_perm id _).trans ((sortAsc_perm id l).symm.map _)
  refine hp.eq_of_pairwise (le := (· ≤ ·)) (fun x y _ _ h1 h2 => le_antisymm h1 h2) (sort_pairwise _) ?_
  rw [List.pairwise_map]
  exact (sort_pairwise l).imp fun h => mul_le_mul_of_nonneg_left h ha.le

private theorem percentile_scale (l : List ℝ) (a p : ℝ) (ha : 0 < a) :
    percentile (l.map fun x => a * x) p = a * percentile l p := by
  unfold percentile
  simp only [sort_scale l a ha, List.length_map]
  have hg : ∀ (s : List ℝ) (i : Nat) (d : ℝ), (s.map fun x => a * x).getD i (a * d) = a * s.getD i d := by
    intro s i d
    simp only [List.getD_eq_getElem?_getD, List.getElem?_map]
    cases s[i]? <;> rfl
  have hg0 : ∀ (s : List ℝ) (i : Nat), (s.map fun x => a * x).getD i 0 = a * s.getD i 0 := by
    intro s i; simpa using hg s i 0
  rw [hg0, hg]
  ring

private theorem median_scale (l : List ℝ) (a : ℝ) (ha : 0 < a) : median (l.map fun x => a * x) = a * median l := by
  unfold median
  simp only [sort_scale l a ha, List.length_map]
  have hg0 : ∀ (s : List ℝ) (i : Nat), (s.map fun x => a * x).getD i 0 = a * s.getD i 0 := by
    intro s i
    simp only [List.getD_eq_getElem?_getD, List.getElem?_map]
    cases s[i]? <;> simp
  rw [hg0, hg0]
  ring

private theorem mean_scale (l : List ℝ) (a : ℝ) : mean (l.map fun x => a * x) = a * mean l := by
  unfold mean
  rw [List.sum_map_mul_left, List.length_map, List.map_id', mul_div_assoc]

private theorem percentiles_scale (l : List ℝ) (a : ℝ) (ha : 0 < a) :
    percentiles (l.map fun x => a * x) = (percentiles l).map fun q => (q.1, a * q.2) := by
  unfold percentiles
  rw [List.map_map]
  apply List.map_congr_left
  intro p _
  simp [percentile_scale l a p ha]

/-- C48: if predictions and targets are expressed in another unit (factor `a`) and counted from another origin (`b`), every entry
is the old one in the new unit. -/
theorem C48_units (p t : List ℝ) (a b : ℝ) (ha : 0 < a) (e : Errors) (h : getError p t = .ok e) :
    getError (p.map fun x => a * x + b) (t.map fun x => a * x + b) = .ok
      ⟨e.residuals.map fun x => a * x, a * e.signedMean, a * e.signedMedian, e.signedPercentiles.map fun q => (q.1, a * q.2),
        e.rmseAll.map fun x => a * x, a * e.rmseAverage, e.rmsePercentiles.map fun q => (q.1, a * q.2),
        e.absoluteAll.map fun x => a * x, a * e.absoluteAverage, e.absolutePercentiles.map fun q => (q.1, a * q.2)⟩ := by
  unfold getError at h ⊢
  simp only [List.length_map]
  split at h
  · exact absurd h (by simp)
  · rename_i hl
    rw [if_neg hl]
    have hr : List.zipWith (· - ·) (p.map fun x => a * x + b) (t.map fun x => a * x + b) =
        (List.zipWith (· - ·) p t).map fun x => a * x := by
      rw [List.zipWith_map, List.map_zipWith]
      congr 1
      funext x y
      ring
    obtain rfl := Except.ok.inj h
    simp only [hr]
    have hsq : ∀ l : List ℝ, (l.map fun x => a * x).map (fun r => r ^ 2) = (l.map fun r => r ^ 2).map fun x => a ^ 2 * x := by
      intro l
      simp only [List.map_map, Function.comp_def, mul_pow]
    have hsr : ∀ l : List ℝ, (l.map fun x => a ^ 2 * x).map Real.sqrt = (l.map Real.sqrt).map fun x => a * x := by
      intro l
      simp only [List.map_map, Function.comp_def]
      apply List.map_congr_left
      intro x _
      rw [Real.sqrt_mul (by positivity), Real.sqrt_sq ha.le]
    have hab : ∀ l : List ℝ, (l.map fun x => a * x).map (fun r => |r|) = (l.map fun r => |r|).map fun x => a * x := by
      intro l
      simp only [List.map_map, Function.comp_def, abs_mul, abs_of_pos ha]
    simp only [hsq, hsr, hab, mean_scale, median_scale _ a ha, percentiles_scale _ a ha]
    rw [Real.sqrt_mul (by positivity), Real.sqrt_sq ha.le]

example : ∃ e, getError [1, 2] [0, 4] = .ok e := (C48_raises [1, 2] [0, 4]).2 rfl

end CatLearn.Err
