import Verif.Lemmas.Normal

/-!
# Properties of the acquisition functions (C34–C37, C96, C98–C101)
-/

namespace CatLearn.Props

open CatLearn CatLearn.Acq MeasureTheory ProbabilityTheory Set

/-! ### C34: upper confidence bound -/

/-- C34 (partial): when minimising, the score falls with the prediction and grows with the uncertainty; when
maximising, it grows with the uncertainty. -/
theorem C34_ucb_partial (p p' u u' kappa : ℝ) (hk : 0 < kappa) :
    (p < p' → ∃ a b, ucb p u .min kappa = some a ∧ ucb p' u .min kappa = some b ∧ b < a) ∧
    (u < u' → ∃ a b, ucb p u .min kappa = some a ∧ ucb p u' .min kappa = some b ∧ a < b) ∧
    (u < u' → ∃ a b, ucb p u .max kappa = some a ∧ ucb p u' .max kappa = some b ∧ a < b) := by
  refine ⟨fun h => ⟨_, _, rfl, rfl, by linarith⟩, fun h => ⟨_, _, rfl, rfl, ?_⟩, fun h => ⟨_, _, rfl, rfl, ?_⟩⟩
  · have := mul_lt_mul_of_pos_left h hk
    linarith
  · have := mul_lt_mul_of_pos_left h hk
    linarith

example : (0 : ℝ) < 1.5 ∧ (1 : ℝ) < 2 := by norm_num

/-- C34 is violated for every data: when maximising, the candidate with the larger prediction gets the lower
score. -/
theorem C34_ucb_max_violated (p p' u kappa : ℝ) (h : p < p') :
    ∃ a b, ucb p u .max kappa = some a ∧ ucb p' u .max kappa = some b ∧ b < a :=
  ⟨_, _, rfl, rfl, by linarith⟩

/-! ### C35: expected improvement -/

private theorem ei_max_eq (y p u : ℝ) (hu : 0 < u) : ei y p u .max = some (u * gain ((p - y) / u)) := by
  unfold ei gain
  simp only [Option.some.injEq]
  field_simp

private theorem ei_symm (y p u : ℝ) : ei y p u .min = ei (-y) (-p) u .max := by
  unfold ei
  simp only [Option.some.injEq]
  rw [show -p - -y = -p + y by ring]
  ring

private theorem max_integral (m u : ℝ) (hu : 0 < u) :
    ∫ z, max (m + u * z) 0 * pdf z = u * gain (m / u) := by
  have h1 : ∫ z, max (m + u * z) 0 * pdf z = ∫ t, max (m - u * t) 0 * pdf t := by
    rw [← integral_neg_eq_self]
    congr 1; funext t
    rw [pdf_neg]; congr 2; ring
  have h2 : (fun t => max (m - u * t) 0 * pdf t) =
      (Iic (m / u)).indicator fun t => u * ((m / u - t) * pdf t) := by
    funext t
    by_cases ht : t ∈ Iic (m / u)
    · rw [indicator_of_mem ht]
      have : u * t ≤ m := by
        have := (le_div_iff₀ hu).mp ht
        linarith
      rw [max_eq_left (by linarith)]
      field_simp
    · rw [indicator_of_notMem ht]
      have : m < u * t := by
        have := (div_lt_iff₀ hu).mp (not_le.mp ht)
        linarith
      rw [max_eq_right (by linarith), zero_mul]
  rw [h1, h2, integral_indicator measurableSet_Iic, integral_const_mul, ← gain_eq_integral]

private theorem gaussian_as_map (p u : ℝ) :
    gaussianReal p (Real.toNNReal (u ^ 2)) = (gaussianReal 0 1).map fun z => p + u * z := by
  have h1 := gaussianReal_map_const_mul (μ := 0) (v := 1) u
  have h2 := gaussianReal_map_const_add (μ := u * 0) (v := (NNReal.mk (u ^ 2) (sq_nonneg u)) * 1) p
  rw [← h1, Measure.map_map (by fun_prop) (by fun_prop)] at h2
  rw [show (fun z => p + u * z) = (fun x => p + x) ∘ fun x => u * x from rfl, h2]
  congr 1
  · ring
  · ext
    simp [Real.coe_toNNReal _ (sq_nonneg u)]

/-- C35: EI is the expectation, under the normal distribution with the predicted mean and standard deviation,
of the improvement over the best value (zero if there is none). -/
theorem C35_ei_is_expectation (y p u : ℝ) (hu : 0 < u) :
    ei y p u .max = some (∫ v, max (v - y) 0 ∂(gaussianReal p (Real.toNNReal (u ^ 2)))) ∧
    ei y p u .min = some (∫ v, max (y - v) 0 ∂(gaussianReal p (Real.toNNReal (u ^ 2)))) := by
  have key : ∀ f : ℝ → ℝ, Continuous f →
      ∫ v, f v ∂(gaussianReal p (Real.toNNReal (u ^ 2))) = ∫ z, f (p + u * z) * pdf z := by
    intro f hf
    rw [gaussian_as_map, integral_map (by fun_prop) hf.aestronglyMeasurable,
      integral_gaussianReal_eq_integral_smul one_ne_zero]
    congr 1; funext z
    rw [smul_eq_mul, mul_comm]
    rfl
  constructor
  · rw [ei_max_eq y p u hu, key _ (by fun_prop), ← max_integral (p - y) u hu]
    congr 2; funext z; congr 2; ring
  · rw [ei_symm, ei_max_eq _ _ _ hu, key _ (by fun_prop), ← max_integral (-p - -y) u hu, ← integral_neg_eq_self]
    congr 2; funext z
    rw [pdf_neg]; congr 2; ring

/-- C35: EI is positive and never below the plain improvement; it is strictly increasing in the prediction when
maximising and strictly decreasing when minimising. -/
theorem C35_ei_positive_monotone (y p p' u : ℝ) (hu : 0 < u) (hp : p < p') :
    (∃ a b, ei y p u .max = some a ∧ ei y p' u .max = some b ∧ 0 < a ∧ p - y ≤ a ∧ a < b) ∧
    (∃ a b, ei y p u .min = some a ∧ ei y p' u .min = some b ∧ 0 < b ∧ y - p' ≤ b ∧ b < a) := by
  have base : ∀ y p u : ℝ, 0 < u → 0 < u * gain ((p - y) / u) ∧ p - y ≤ u * gain ((p - y) / u) := by
    intro y p u hu
    refine ⟨mul_pos hu (gain_pos _), ?_⟩
    have h := gain_nonneg (-((p - y) / u))
    rw [gain_neg] at h
    have h2 : (p - y) / u ≤ gain ((p - y) / u) := by linarith
    rw [div_le_iff₀ hu] at h2
    linarith
  have mono : ∀ y p p' u : ℝ, 0 < u → p < p' → u * gain ((p - y) / u) < u * gain ((p' - y) / u) := by
    intro y p p' u hu hp
    refine mul_lt_mul_of_pos_left (gain_strictMono ?_) hu
    exact div_lt_div_of_pos_right (by linarith) hu
  refine ⟨⟨_, _, ei_max_eq y p u hu, ei_max_eq y p' u hu, (base y p u hu).1, (base y p u hu).2,
    mono y p p' u hu hp⟩, ⟨_, _, (ei_symm _ _ _).trans (ei_max_eq (-y) (-p) u hu),
    (ei_symm _ _ _).trans (ei_max_eq (-y) (-p') u hu), (base (-y) (-p') u hu).1, ?_,
    mono (-y) (-p') (-p) u hu (by linarith)⟩⟩
  have := (base (-y) (-p') u hu).2
  linarith

private theorem gain_scale_mono (m u u' : ℝ) (hu : 0 < u) (h : u < u') :
    u * gain (m / u) < u' * gain (m / u') := by
  have hd : ∀ s ∈ Ioi (0:ℝ), HasDerivAt (fun s => s * gain (m / s)) (pdf (m / s)) s := by
    intro s hs
    have hs0 : s ≠ 0 := (ne_of_gt hs)
    have h1 : HasDerivAt (fun s => m / s) (-m / s ^ 2) s := by
      have := (hasDerivAt_const s m).div (hasDerivAt_id s) hs0
      refine this.congr_deriv ?_
      simp
    have h2 := (gain_hasDerivAt (m / s)).comp s h1
    have h3 := (hasDerivAt_id s).mul h2
    refine h3.congr_deriv ?_
    simp only [id, Function.comp, one_mul, gain]
    field_simp
    ring
  have hm : StrictMonoOn (fun s => s * gain (m / s)) (Ioi 0) := by
    refine strictMonoOn_of_deriv_pos (convex_Ioi 0) (fun s hs => (hd s hs).continuousAt.continuousWithinAt) ?_
    intro s hs
    rw [interior_Ioi] at hs
    rw [(hd s hs).deriv]
    exact pdf_pos _
  exact hm hu (lt_trans hu h) h

/-- C35: EI is strictly increasing in the uncertainty. -/
theorem C35_ei_monotone_uncertainty (y p u u' : ℝ) (hu : 0 < u) (h : u < u') :
    (∃ a b, ei y p u .max = some a ∧ ei y p u' .max = some b ∧ a < b) ∧
    (∃ a b, ei y p u .min = some a ∧ ei y p u' .min = some b ∧ a < b) := by
  have hu' : 0 < u' := lt_trans hu h
  refine ⟨⟨_, _, ei_max_eq y p u hu, ei_max_eq y p u' hu', gain_scale_mono _ _ _ hu h⟩,
    ⟨_, _, (ei_symm _ _ _).trans (ei_max_eq (-y) (-p) u hu),
    (ei_symm _ _ _).trans (ei_max_eq (-y) (-p) u' hu'), gain_scale_mono _ _ _ hu h⟩⟩

/-- C35: minimising is maximising the negated data. -/
theorem C35_ei_symmetric (y p u : ℝ) : ei y p u .min = ei (-y) (-p) u .max := ei_symm y p u

example : (0 : ℝ) < 0.5 ∧ (0.5 : ℝ) < 0.7 ∧ (1 : ℝ) < 2 := by norm_num

/-! ### C36: probability of improvement -/

/-- C36: PI is the probability, under the normal distribution with the predicted mean and standard deviation, of a
value at least (at most, when minimising) the best one. -/
theorem C36_pi_is_probability (y p u : ℝ) (hu : 0 < u) :
    pi y p u .max = some ((gaussianReal p (Real.toNNReal (u ^ 2))).real (Ici y)) ∧
    pi y p u .min = some ((gaussianReal p (Real.toNNReal (u ^ 2))).real (Iic y)) := by
  have hreal : ∀ s : Set ℝ, MeasurableSet s → (gaussianReal 0 1).real s = ∫ t in s, pdf t := by
    intro s hs
    rw [Measure.real, gaussianReal_apply_eq_integral 0 one_ne_zero s,
      ENNReal.toReal_ofReal (setIntegral_nonneg hs fun t _ => gaussianPDFReal_nonneg 0 1 t)]
    rfl
  have hm : Measurable fun z : ℝ => p + u * z := by fun_prop
  constructor
  · have h1 : (fun z : ℝ => p + u * z) ⁻¹' Ici y = Ici ((y - p) / u) := by
      ext z
      simp only [mem_preimage, mem_Ici]
      rw [div_le_iff₀ hu]
      constructor <;> intro h <;> linarith
    rw [gaussian_as_map, map_measureReal_apply hm measurableSet_Ici, h1, hreal _ measurableSet_Ici,
      integral_Ici_eq_integral_Ioi]
    have h2 := integral_comp_neg_Iic ((p - y) / u) pdf
    simp only [pdf_neg] at h2
    unfold Acq.pi cdf
    rw [h2, show -((p - y) / u) = (y - p) / u by ring]
  · have h1 : (fun z : ℝ => p + u * z) ⁻¹' Iic y = Iic ((y - p) / u) := by
      ext z
      simp only [mem_preimage, mem_Iic]
      rw [le_div_iff₀ hu]
      constructor <;> intro h <;> linarith
    rw [gaussian_as_map, map_measureReal_apply hm measurableSet_Iic, h1, hreal _ measurableSet_Iic]
    unfold Acq.pi cdf
    rw [show -((p - y) / u) = (y - p) / u by ring]

/-- C36: PI lies strictly between 0 and 1, is strictly monotone in the prediction, and is at least 1/2 exactly
when the prediction is at least as good as the best value. -/
theorem C36_pi_monotone (y p p' u : ℝ) (hu : 0 < u) (hp : p < p') :
    (∃ a b, pi y p u .max = some a ∧ pi y p' u .max = some b ∧ 0 < a ∧ a < 1 ∧ a < b ∧ (1 / 2 ≤ a ↔ y ≤ p)) ∧
    (∃ a b, pi y p u .min = some a ∧ pi y p' u .min = some b ∧ 0 < a ∧ a < 1 ∧ b < a ∧ (1 / 2 ≤ a ↔ p ≤ y)) := by
  refine ⟨⟨_, _, rfl, rfl, cdf_pos _, cdf_lt_one _, cdf_strictMono ?_, ?_⟩,
    ⟨_, _, rfl, rfl, cdf_pos _, cdf_lt_one _, cdf_strictMono ?_, ?_⟩⟩
  · exact div_lt_div_of_pos_right (by linarith) hu
  · rw [← cdf_zero, cdf_strictMono.le_iff_le, le_div_iff₀ hu]
    constructor <;> intro h <;> linarith
  · have : (p - y) / u < (p' - y) / u := div_lt_div_of_pos_right (by linarith) hu
    linarith
  · rw [← cdf_zero, cdf_strictMono.le_iff_le, neg_nonneg, div_le_iff₀ hu]
    constructor <;> intro h <;> linarith

/-! ### C96, C98–C100: the other scores -/

/-- C96 (partial): when maximising, the optimistic score is the best plausible improvement: it grows with
prediction and uncertainty, and is positive exactly if prediction plus uncertainty exceeds the best value. -/
theorem C96_optimistic_partial (y p u : ℝ) :
    (0 < optimistic y p u ↔ y < p + u) ∧ (∀ p' > p, optimistic y p u < optimistic y p' u) ∧
    ∀ u' > u, optimistic y p u < optimistic y p u' := by
  unfold optimistic
  refine ⟨by constructor <;> intro h <;> linarith, fun p' h => by linarith, fun u' h => by linarith⟩

/-- C96 (partial): ranked while maximising, every candidate gets a score, which is positive exactly if its prediction plus
uncertainty exceeds every known target, and the better of two plausible values has the higher score. -/
theorem C96_rank_partial (targets preds uncs : List ℝ) (ht : targets ≠ []) (hl : preds.length = uncs.length) :
    ∃ s, rank optimistic targets preds uncs .max = .ok s ∧ s.length = preds.length ∧
      (∀ (i : ℕ) (p u si : ℝ), preds[i]? = some p → uncs[i]? = some u → s[i]? = some si →
        (0 < si ↔ ∀ y ∈ targets, y < p + u)) ∧
      ∀ (i j : ℕ) (p u p' u' si sj : ℝ), preds[i]? = some p → uncs[i]? = some u → s[i]? = some si →
        preds[j]? = some p' → uncs[j]? = some u' → s[j]? = some sj → (si < sj ↔ p + u < p' + u') := by
  obtain ⟨y, hy⟩ : ∃ y, targets.max? = some y := by
    cases h : targets.max? with
    | none => exact absurd (List.max?_eq_none_iff.mp h) ht
    | some y => exact ⟨y, rfl⟩
  obtain ⟨hmem, hle⟩ := List.max?_eq_some_iff.mp hy
  have hs : ∀ (i : ℕ) (p u si : ℝ), preds[i]? = some p → uncs[i]? = some u →
      (List.zipWith (optimistic y) preds uncs)[i]? = some si → si = p + u - y := by
    intro i p u si hp hu hs
    rw [List.getElem?_zipWith, hp, hu] at hs
    simpa [optimistic, eq_comm] using hs
  refine ⟨List.zipWith (optimistic y) preds uncs, by simp only [rank, reference, hy], by simp [hl], ?_, ?_⟩
  · intro i p u si hp hu h
    rw [hs i p u si hp hu h]
    constructor
    · intro h0 z hz
      have := hle z hz
      linarith
    · intro h0
      have := h0 y hmem
      linarith
  · intro i j p u p' u' si sj hp hu h hp' hu' h'
    rw [hs i p u si hp hu h, hs j p' u' sj hp' hu' h']
    constructor <;> intro h <;> linarith

example : ([3, 0] : List ℝ) ≠ [] ∧ ([1, 2] : List ℝ).length = ([1, 1] : List ℝ).length := by simp

/-- C96 is violated when minimising: `rank` uses the same score, so the candidate with the larger (worse)
prediction is ranked higher. -/
theorem C96_optimistic_min_violated :
    ∃ (targets preds uncs s : List ℝ) (a b : ℝ), rank optimistic targets preds uncs .min = .ok s ∧
      preds = [1, 2] ∧ uncs = [1, 1] ∧ s = [a, b] ∧ a < b := by
  refine ⟨[3, 0], [1, 2], [1, 1], [2, 3], 2, 3, ?_, rfl, rfl, rfl, by norm_num⟩
  have : ([3, 0] : List ℝ).min? = some 0 := by simp
  simp only [rank, reference, this, optimistic, List.zipWith_cons_cons, List.zipWith_nil_left]
  norm_num

/-- C98 is violated: with a numerical target as objective, UCB, EI and PI give no scores at all. -/
theorem C98_rank_value_violated (targets preds uncs : List ℝ) (v kappa : ℝ) :
    rank (fun _ p u => ucb p u (.value v) kappa) targets preds uncs (.value v) =
        .ok (List.zipWith (fun _ _ => none) preds uncs) ∧
    rank (fun y p u => ei y p u (.value v)) targets preds uncs (.value v) =
        .ok (List.zipWith (fun _ _ => none) preds uncs) ∧
    rank (fun y p u => pi y p u (.value v)) targets preds uncs (.value v) =
        .ok (List.zipWith (fun _ _ => none) preds uncs) := ⟨rfl, rfl, rfl⟩

/-- C98 (partial).  With a numerical target the metrics that do not depend on the kind of objective give every candidate the
score relative to this target, whatever the training targets are, and a candidate predicted nearer the target gets the higher
proximity. -/
theorem C98_rank_value_partial (targets preds uncs : List ℝ) (v : ℝ) (hl : preds.length = uncs.length) (acq : ℝ → ℝ → ℝ → ℝ)
    (hacq : acq = optimistic ∨ acq = (fun y p _ => proximity y p) ∨ acq = optimisticProximity ∨ acq = probabilityDensity) :
    ∃ s, rank acq targets preds uncs (.value v) = .ok s ∧ s.length = preds.length ∧
      (∀ (i : ℕ) (p u : ℝ), preds[i]? = some p → uncs[i]? = some u → s[i]? = some (acq v p u)) ∧
      ((acq = fun y p _ => proximity y p) → ∀ (i j : ℕ) (p q a b : ℝ), preds[i]? = some p → preds[j]? = some q →
        s[i]? = some a → s[j]? = some b → (a < b ↔ |q - v| < |p - v|)) := by
  have hget : ∀ (i : ℕ) (p u : ℝ), preds[i]? = some p → uncs[i]? = some u →
      (List.zipWith (acq v) preds uncs)[i]? = some (acq v p u) := by
    intro i p u h1 h2
    rw [List.getElem?_zipWith, h1, h2]
  refine ⟨_, rfl, by simp [hl], hget, fun he i j p q a b hp hq ha hb => ?_⟩
  have hex : ∀ (i : ℕ) (p : ℝ), preds[i]? = some p → ∃ u, uncs[i]? = some u := by
    intro i p h
    have := (List.getElem?_eq_some_iff.mp h).1
    exact ⟨_, List.getElem?_eq_getElem (by omega)⟩
  obtain ⟨u, hu⟩ := hex i p hp
  obtain ⟨w, hw⟩ := hex j q hq
  rw [hget i p u hp hu] at ha
  rw [hget j q w hq hw] at hb
  cases ha
  cases hb
  rw [he]
  simp only [proximity]
  exact neg_lt_neg_iff

example : ([1, 2] : List ℝ).length = ([1, 1] : List ℝ).length := rfl

/-- C99: the proximity scores prefer predictions closer to the target value: `proximity` is at most 0, with
equality exactly at the target; a candidate strictly closer scores strictly higher, for `proximity`,
`optimistic_proximity` and the probability density (at equal uncertainty). -/
theorem C99_proximity (y p p' u : ℝ) (hu : 0 < u) (h : |p - y| < |p' - y|) :
    proximity y p ≤ 0 ∧ (proximity y p = 0 ↔ p = y) ∧ proximity y p' < proximity y p ∧
    optimisticProximity y p' u < optimisticProximity y p u ∧
    probabilityDensity y p' u < probabilityDensity y p u := by
  unfold proximity optimisticProximity probabilityDensity
  refine ⟨by simp, by rw [neg_eq_zero, abs_eq_zero, sub_eq_zero], by linarith, by linarith, ?_⟩
  apply div_lt_div_of_pos_right _ hu
  rw [pdf_eq, pdf_eq]
  apply mul_lt_mul_of_pos_left _ (by positivity)
  apply Real.exp_lt_exp.mpr
  have h2 : (p - y) ^ 2 < (p' - y) ^ 2 := sq_lt_sq.mpr h
  have h3 : ((y - p) / u) ^ 2 < ((y - p') / u) ^ 2 := by
    rw [div_pow, div_pow]
    apply div_lt_div_of_pos_right _ (by positivity)
    nlinarith
  linarith

example : (0 : ℝ) < 0.1 ∧ |(1 : ℝ) - 1| < |(3 : ℝ) - 1| := by norm_num

/-- C100 (partial): for positive predictions a candidate in a more populated cluster scores lower. -/
theorem C100_cluster_partial (p : ℝ) (hp : 0 < p) (n n' : Nat) (hn : 0 < n) (h : n < n') :
    cluster p n' < cluster p n := by
  unfold cluster
  apply div_lt_div_of_pos_left hp
  · exact_mod_cast hn
  · exact_mod_cast h

example : (0 : ℝ) < 2 ∧ 0 < 1 ∧ 1 < 3 := by norm_num

/-- C100 is violated for negative predictions: the more populated cluster is preferred. -/
theorem C100_cluster_violated (p : ℝ) (hp : p < 0) (n n' : Nat) (hn : 0 < n) (h : n < n') :
    cluster p n < cluster p n' := by
  unfold cluster
  have := div_lt_div_of_pos_left (a := -p) (by linarith) (by exact_mod_cast hn : (0:ℝ) < n)
    (by exact_mod_cast h : (n:ℝ) < n')
  rw [neg_div, neg_div] at this
  linarith

/-! ### C37, C101: classification -/

private theorem scatter_append {C S : Type} (l : List S) (groups : List (C × List (Nat × S))) (i : Nat) (v : S)
    (hl : i < l.length) (huniq : ∀ g ∈ groups, ∀ q ∈ g.2, q.1 = i → q.2 = v) :
    (groups.foldl (fun res g => g.2.foldl (fun res p => res.set p.1 p.2) res) l).length = l.length ∧
    ((∃ g ∈ groups, ∃ q ∈ g.2, q.1 = i) ∨ l[i]? = some v →
      (groups.foldl (fun res g => g.2.foldl (fun res p => res.set p.1 p.2) res) l)[i]? = some v) := by
  have inner : ∀ (ps : List (Nat × S)) (l : List S), i < l.length → (∀ q ∈ ps, q.1 = i → q.2 = v) →
      (ps.foldl (fun res p => res.set p.1 p.2) l).length = l.length ∧
      ((∃ q ∈ ps, q.1 = i) ∨ l[i]? = some v → (ps.foldl (fun res p => res.set p.1 p.2) l)[i]? = some v) := by
    intro ps
    induction ps with
    | nil => intro l _ _; exact ⟨rfl, by simp⟩
    | cons q ps ih =>
      intro l hl hu
      obtain ⟨h1, h2⟩ := ih (l.set q.1 q.2) (by simpa using hl) fun q' hq' => hu q' (by simp [hq'])
      refine ⟨by rw [List.foldl_cons, h1]; simp, ?_⟩
      intro h
      rw [List.foldl_cons]
      apply h2
      by_cases hq : q.1 = i
      · right
        rw [← hq, List.getElem?_set_self (by rw [hq]; exact hl), hu q (by simp) hq]
      · rcases h with ⟨q', hq', he⟩ | h
        · rcases List.mem_cons.mp hq' with rfl | hq'
          · exact absurd he hq
          · exact .inl ⟨q', hq', he⟩
        · right
          rw [List.getElem?_set_ne hq]; exact h
  induction groups generalizing l with
  | nil => exact ⟨rfl, by simp⟩
  | cons g groups ih =>
    obtain ⟨h1, h2⟩ := inner g.2 l hl (huniq g (by simp))
    obtain ⟨h3, h4⟩ := ih (g.2.foldl (fun res p => res.set p.1 p.2) l) (by rw [h1]; exact hl)
      fun g' hg' => huniq g' (by simp [hg'])
    refine ⟨by rw [List.foldl_cons, h3, h1], ?_⟩
    intro h
    rw [List.foldl_cons]
    apply h4
    rcases h with ⟨g', hg', q, hq, he⟩ | h
    · rcases List.mem_cons.mp hg' with rfl | hg'
      · exact .inr (h2 (.inl ⟨q, hq, he⟩))
      · exact .inl ⟨g', hg', q, hq, he⟩
    · exact .inr (h2 (.inr h))

private theorem addToClass_mem {C V : Type} [DecidableEq C] (c : C) (v : V) (g : List (C × List V)) (w : V) :
    (∃ e ∈ addToClass c v g, w ∈ e.2) ↔ (∃ e ∈ g, w ∈ e.2) ∨ w = v := by
  induction g with
  | nil => simp [addToClass]
  | cons e g ih =>
    obtain ⟨c', vs⟩ := e
    rw [addToClass]
    split
    · simp only [List.mem_cons, exists_eq_or_imp, List.mem_append, List.not_mem_nil, or_false]
      exact or_right_comm
    · simp only [List.mem_cons, exists_eq_or_imp]
      rw [ih, or_assoc]

private theorem groups_mem {A C V : Type} [DecidableEq C] (classifier : A → C) (ms : List (A × V))
    (g : List (C × List V)) (w : V) :
    (∃ e ∈ ms.foldl (fun g m => addToClass (classifier m.1) m.2 g) g, w ∈ e.2) ↔
      (∃ e ∈ g, w ∈ e.2) ∨ w ∈ ms.map Prod.snd := by
  induction ms generalizing g with
  | nil => simp
  | cons m ms ih =>
    rw [List.foldl_cons, ih, addToClass_mem]
    simp only [List.map_cons, List.mem_cons]
    exact or_assoc

/-- C101: for every classifier, `classify` returns one score per candidate, in the order of the candidates: score
`i` is computed from prediction `i` and uncertainty `i`, whatever the classes. -/
theorem C101_classify_order {A C S : Type} [DecidableEq C] (zero : S) (classifier : A → C)
    (acq : ℝ → ℝ → ℝ → S) (trainAtoms testAtoms : List A) (targets preds uncs : List ℝ) (m : Nat) (o : Objective)
    (y : ℝ) (hy : reference targets o = .ok y) (htr : trainAtoms ≠ []) (hm : testAtoms.length ≤ m)
    (hp : preds.length = testAtoms.length) (hu : uncs.length = testAtoms.length) :
    classify zero classifier acq trainAtoms testAtoms targets preds uncs (some m) o =
      .ok (List.zipWith (acq y) preds uncs) := by
  unfold classify
  by_cases ht : testAtoms = []
  · subst ht
    simp at hp
    subst hp
    simp
  rw [if_neg ht]
  simp only
  rw [if_neg (by omega), if_neg htr, hy]
  simp only
  congr 1
  set ms := List.zip testAtoms ((List.zip preds uncs).zipIdx) with hms
  have hfold : ms.foldl (fun g m => addToClass (classifier m.1) (m.2.2, acq y m.2.1.1 m.2.1.2) g) [] =
      (ms.map fun m => (m.1, (m.2.2, acq y m.2.1.1 m.2.1.2))).foldl
        (fun g m => addToClass (classifier m.1) m.2 g) [] := by
    rw [List.foldl_map]
  rw [hfold]
  set ms' := ms.map fun m => (m.1, (m.2.2, acq y m.2.1.1 m.2.1.2)) with hms'
  have hmem : ∀ q : Nat × S, q ∈ ms'.map Prod.snd ↔ ∃ (h : q.1 < testAtoms.length),
      q.2 = acq y (preds[q.1]'(by omega)) (uncs[q.1]'(by omega)) := by
    intro q
    simp only [hms', hms, List.map_map, List.mem_map, Function.comp]
    constructor
    · rintro ⟨⟨a, ⟨⟨p, u⟩, i⟩⟩, hin, rfl⟩
      obtain ⟨k, hk, he⟩ := List.mem_iff_getElem.mp hin
      simp only [List.getElem_zip, List.getElem_zipIdx, Prod.mk.injEq, Nat.zero_add] at he
      obtain ⟨_, ⟨rfl, rfl⟩, rfl⟩ := he
      simp only [List.length_zip, List.length_zipIdx] at hk
      exact ⟨by simp only; omega, rfl⟩
    · rintro ⟨h, he⟩
      refine ⟨(testAtoms[q.1], ((preds[q.1]'(by omega), uncs[q.1]'(by omega)), q.1)), ?_, ?_⟩
      · apply List.mem_iff_getElem.mpr
        refine ⟨q.1, by simp; omega, ?_⟩
        simp
      · ext
        · rfl
        · exact he.symm
  apply List.ext_getElem?
  intro i
  unfold scatter
  by_cases hi : i < testAtoms.length
  · have hw : (List.zipWith (acq y) preds uncs)[i]? = some (acq y (preds[i]'(by omega)) (uncs[i]'(by omega))) := by
      rw [List.getElem?_eq_getElem (by simp; omega), List.getElem_zipWith]
    rw [hw]
    have h := scatter_append (List.replicate testAtoms.length zero)
      (ms'.foldl (fun g m => addToClass (classifier m.1) m.2 g) []) i
      (acq y (preds[i]'(by omega)) (uncs[i]'(by omega))) (by simpa using hi) (by
        intro g hg q hq hqi
        have := (groups_mem classifier ms' [] q).mp ⟨g, hg, hq⟩
        rcases this with h | h
        · simp at h
        · obtain ⟨_, h2⟩ := (hmem q).mp h
          subst hqi
          exact h2)
    refine h.2 (.inl ?_)
    obtain ⟨e, he, hq⟩ := (groups_mem classifier ms' []
      (i, acq y (preds[i]'(by omega)) (uncs[i]'(by omega)))).mpr (.inr ((hmem _).mpr ⟨hi, rfl⟩))
    exact ⟨e, he, _, hq, rfl⟩
  · have hlen : ∀ (groups : List (C × List (Nat × S))) (l : List S),
        (groups.foldl (fun res g => g.2.foldl (fun res p => res.set p.1 p.2) res) l).length = l.length := by
      intro groups
      induction groups with
      | nil => intro l; rfl
      | cons g groups ih =>
        intro l
        rw [List.foldl_cons, ih]
        generalize g.2 = ps
        induction ps generalizing l with
        | nil => rfl
        | cons q ps ih2 => rw [List.foldl_cons, ih2]; simp
    rw [List.getElem?_eq_none (by rw [hlen]; simp; omega), List.getElem?_eq_none (by simp; omega)]

example : reference [1, 3, 2] .max = .ok 3 ∧ ([0, 1] : List Nat) ≠ [] ∧ ([5] : List Nat).length ≤ 3 := by
  have : ([1, 3, 2] : List ℝ).max? = some 3 := by
    simp [List.max?]
    norm_num
  simp [reference, this]

/-- C37 is violated: `classify` gives exactly the scores of `rank`, for every classifier: the class of a candidate
has no influence on its score. -/
theorem C37_classify_violated {A C S : Type} [DecidableEq C] (zero : S) (classifier : A → C)
    (acq : ℝ → ℝ → ℝ → S) (trainAtoms testAtoms : List A) (targets preds uncs : List ℝ) (m : Nat) (o : Objective)
    (y : ℝ) (hy : reference targets o = .ok y) (htr : trainAtoms ≠ []) (hm : testAtoms.length ≤ m)
    (hp : preds.length = testAtoms.length) (hu : uncs.length = testAtoms.length) :
    classify zero classifier acq trainAtoms testAtoms targets preds uncs (some m) o =
      rank acq targets preds uncs o := by
  rw [C101_classify_order zero classifier acq trainAtoms testAtoms targets preds uncs m o y hy htr hm hp hu]
  unfold rank
  rw [hy]

/-- The targets of the training structures of class `c`. -/
def classTargets {A C : Type} [DecidableEq C] (classifier : A → C) (trainAtoms : List A) (targets : List ℝ) (c : C) : List ℝ :=
  ((trainAtoms.zip targets).filter fun p => classifier p.1 = c).map Prod.snd

/-- C37 (partial).  A candidate is ranked against the best known target of its own class if this is the best of all known targets,
in particular if all training structures are of one class.  Missing: candidates of all other classes (see the violations). -/
theorem C37_best_class_partial {A C S : Type} [DecidableEq C] (zero : S) (classifier : A → C) (acq : ℝ → ℝ → ℝ → S)
    (trainAtoms testAtoms : List A) (targets preds uncs : List ℝ) (m : Nat) (o : Objective) (y : ℝ)
    (hy : reference targets o = .ok y) (htr : trainAtoms ≠ []) (hm : testAtoms.length ≤ m)
    (hp : preds.length = testAtoms.length) (hu : uncs.length = testAtoms.length) :
    ∃ s, classify zero classifier acq trainAtoms testAtoms targets preds uncs (some m) o = .ok s ∧ s.length = testAtoms.length ∧
      ∀ (i : ℕ) (a : A) (p u yc : ℝ), testAtoms[i]? = some a → preds[i]? = some p → uncs[i]? = some u →
        reference (classTargets classifier trainAtoms targets (classifier a)) o = .ok yc →
        ((∃ v, o = .value v) ∨ (o = .max ∧ ∀ t ∈ targets, t ≤ yc) ∨ (o = .min ∧ ∀ t ∈ targets, yc ≤ t)) →
        s[i]? = some (acq yc p u) := by
  refine ⟨_, C101_classify_order zero classifier acq trainAtoms testAtoms targets preds uncs m o y hy htr hm hp hu, by simp [hp, hu], ?_⟩
  intro i a p u yc _ hpi hui hyc hbest
  have hsub : ∀ t ∈ classTargets classifier trainAtoms targets (classifier a), t ∈ targets := by
    intro t ht
    obtain ⟨q, hq, rfl⟩ := List.mem_map.mp ht
    exact (List.of_mem_zip (List.mem_filter.mp hq).1).2
  have hyy : yc = y := by
    rcases hbest with ⟨v, rfl⟩ | ⟨rfl, hb⟩ | ⟨rfl, hb⟩
    · simp only [reference, Except.ok.injEq] at hy hyc
      rw [← hy, ← hyc]
    · simp only [reference] at hy hyc
      split at hy <;> simp only [Except.ok.injEq, reduceCtorEq] at hy
      split at hyc <;> simp only [Except.ok.injEq, reduceCtorEq] at hyc
      rename_i _ y1 h1 _ y2 h2
      subst hy hyc
      have e1 := List.max?_eq_some_iff.mp h1
      have e2 := List.max?_eq_some_iff.mp h2
      exact le_antisymm (e1.2 _ (hsub _ e2.1)) (hb _ e1.1)
    · simp only [reference] at hy hyc
      split at hy <;> simp only [Except.ok.injEq, reduceCtorEq] at hy
      split at hyc <;> simp only [Except.ok.injEq, reduceCtorEq] at hyc
      rename_i _ y1 h1 _ y2 h2
      subst hy hyc
      have e1 := List.min?_eq_some_iff.mp h1
      have e2 := List.min?_eq_some_iff.mp h2
      exact le_antisymm (hb _ e1.1) (e1.2 _ (hsub _ e2.1))
  rw [List.getElem?_zipWith, hpi, hui, hyy]

/-- A candidate of the class of the best training structure. -/
example : reference [10, 0] .max = .ok 10 ∧
    reference (classTargets (fun b : Bool => b) [true, false] [10, 0] true) .max = .ok 10 ∧ ∀ t ∈ ([10, 0] : List ℝ), t ≤ 10 := by
  refine ⟨?_, ?_, by simp⟩
  · simp [reference, List.max?]
  · simp [reference, classTargets]

/-- C37, a concrete violation: training structures of class `true` have the target 10, those of class `false` the
target 0.  A candidate of class `false` predicted at 1 improves on its class but gets a negative optimistic score. -/
theorem C37_own_class_violated :
    classify (0 : ℝ) (fun b : Bool => b) optimistic [true, false] [false] [10, 0] [1] [0] (some 2) .max =
      .ok [-9] := by
  have hm : ([10, 0] : List ℝ).max? = some 10 := by simp [List.max?]
  rw [C101_classify_order 0 _ _ _ _ _ _ _ 2 .max 10 (by simp [reference, hm]) (by simp) (by simp) (by simp) (by simp)]
  simp [optimistic]
  norm_num

/-- C37, further: without training features, or with more candidates than training points, `classify` raises an
exception although the features play no role in the scores. -/
theorem C37_needs_features_violated {A C S : Type} [DecidableEq C] (zero : S) (classifier : A → C)
    (acq : ℝ → ℝ → ℝ → S) (trainAtoms testAtoms : List A) (targets preds uncs : List ℝ) (o : Objective)
    (ht : testAtoms ≠ []) :
    classify zero classifier acq trainAtoms testAtoms targets preds uncs none o = .error .type ∧
    ∀ m < testAtoms.length,
      classify zero classifier acq trainAtoms testAtoms targets preds uncs (some m) o = .error .index := by
  unfold classify
  rw [if_neg ht]
  refine ⟨rfl, fun m hm => ?_⟩
  rw [if_neg ht]
  simp [hm]

end CatLearn.Props
