import Verif.Props.GPOrder

/-!
# Noise in uncertainties (C119), training predictions (C120), uncertainties without regularisation (C121)
-/

namespace CatLearn.Proc

open CatLearn CatLearn.Kernel CatLearn.Scaling CatLearn.PSD Matrix

/-- C119 (`_partial`: only bounds, and only for regularisations that are not on a log scale): 'uncertainty_with_reg' is
at least the standard deviation `sqrt (var + reg²)` of a noisy observation and at most `sqrt 2` times that. -/
theorem C119_bounds_partial {N : Nat} (gp : GP N) (fp : List (Fin N → ℝ)) (t : List ℝ) (hR : Reach gp fp t)
    (hk : ∀ k ∈ gp.kernels, GoodKernel gp.log k) (hs : gp.scaleData = false) (r : ℝ) (hr : 0 ≤ r)
    (hreg : gp.reg = some r) (test : List (Fin N → ℝ)) (p : Pred) (h : predict gp test true = .ok p) :
    ∃ us, p.uncertainty = some us ∧ List.Forall₂ (fun x u => ∃ v w, u = (some v, some w) ∧
      Real.sqrt (v ^ 2 + r ^ 2) ≤ w ∧ w ≤ Real.sqrt 2 * Real.sqrt (v ^ 2 + r ^ 2) ∧ v ^ 2 = gp.var x) test us := by
  obtain ⟨hc, hh⟩ := C43_consistent_partial gp fp t hR
  have ht : test ≠ [] := by
    rintro rfl
    simp [predict, bind, Except.bind, throw, throwThe, MonadExceptOf.throw] at h
  rw [hc.predict_unc test ht r hreg] at h
  simp at h
  subst h
  refine ⟨_, rfl, ?_⟩
  rw [List.forall₂_map_right_iff, List.forall₂_same]
  intro x _
  have hs' : gp.scaleRow x = x := by unfold GP.scaleRow; rw [hs]
  have ht1 : gp.tstd = 1 := by unfold GP.tstd; rw [hs]
  have v1 := (C42_variance gp hc hk x).1
  have v2 := Real.sqrt_nonneg (gp.var x)
  refine ⟨Real.sqrt (gp.var x), Real.sqrt (gp.var x) + r, ?_, ?_, ?_, Real.sq_sqrt v1⟩
  · simp [hs', GP.unc, npSqrt, not_lt.mpr v1, ht1]
  · rw [Real.sqrt_le_left (by linarith)]
    nlinarith
  · rw [← Real.sqrt_mul (by norm_num)]
    apply Real.le_sqrt_of_sq_le
    nlinarith [sq_nonneg (Real.sqrt (gp.var x) - r)]

theorem unc_one {N : Nat} (ks : List (KDict N)) (r : ℝ) (log : Bool) (x : Fin N → ℝ) (t c : ℝ) (l : Option ℝ)
    (z : Fin N → ℝ) : (one ks r log x t c l).var z =
      covEntry ks log z z true - covEntry ks log z x false * c * covEntry ks log z x false := by
  simp [GP.var, one, GP.ktb, vecMul, dotProduct]
  change ((1:ℕ):ℝ) * (((1:ℕ):ℝ) * (covEntry ks log z x false * c) * covEntry ks log z x false) = _
  simp

/-- C119 fails: standard deviations are added instead of variances. -/
theorem C119_sum_violated : ∃ (gp : GP 1) (fp : List (Fin 1 → ℝ)) (t : List ℝ), Reach gp fp t ∧ gp.reg = some 1 ∧
    gp.log = false ∧ predict gp [![1]] true = .ok ⟨[some 0], some [(some (Real.sqrt (1 / 2)), some (Real.sqrt (1 / 2) + 1))]⟩ ∧
    Real.sqrt (1 / 2) + 1 ≠ Real.sqrt (1 / 2 + 1 ^ 2) := by
  have hk : kOne linK false 1 ![1] = 2 := by
    unfold kOne; rw [linK_entry]; simp [unlog]; norm_num
  obtain ⟨l, h⟩ := init_single linK linK_packs (by simp [linK]) 1 false ![1] 0 (by rw [hk]; norm_num)
  rw [hk] at h
  obtain ⟨hc, -⟩ := C43_init_partial _ _ _ linK_packs _ _ _ _ h
  have hv : (one linK 1 false ![1] 0 2⁻¹ l).var ![1] = 1 / 2 := by
    rw [unc_one, linK_entry, linK_entry]; norm_num
  refine ⟨_, _, _, Reach.init linK_packs h, rfl, rfl, ?_, ?_⟩
  · rw [hc.predict_unc [![1]] (by simp) 1 rfl]
    have hs : (one linK 1 false ![1] 0 2⁻¹ l).scaleRow ![1] = ![1] := rfl
    have hm : (one linK 1 false ![1] 0 2⁻¹ l).mean ![1] = some 0 := by
      simp [GP.mean, one, GP.rescale, GP.ktb, GP.y, mulVec, dotProduct]
    have ht : (one linK 1 false ![1] 0 2⁻¹ l).tstd = 1 := rfl
    simp only [List.map_cons, List.map_nil, hs, hm, GP.unc, hv, npSqrt, ht]
    norm_num
  · have h0 : (0:ℝ) < Real.sqrt (1 / 2) := Real.sqrt_pos.mpr (by norm_num)
    have h1 := Real.sq_sqrt (show (0:ℝ) ≤ 1 / 2 by norm_num)
    have h2 := Real.sq_sqrt (show (0:ℝ) ≤ 1 / 2 + 1 ^ 2 by norm_num)
    intro h
    rw [← h] at h2
    nlinarith

/-- C119 fails on a log scale: the logarithm of the noise is added, so that the result can be negative. -/
theorem C119_log_scale_violated : ∃ (gp : GP 1) (fp : List (Fin 1 → ℝ)) (t : List ℝ) (p : Pred) (v w : ℝ), Reach gp fp t ∧
    gp.log = true ∧ predict gp fp true = .ok p ∧ p.uncertainty = some [(some v, some w)] ∧ w < 0 := by
  have hp : PacksList (N := 1) [⟨.constant 1, none, some 1, false⟩] := by
    intro s d b h; simp at h
  have hk : kOne (N := 1) [⟨.constant 1, none, some 1, false⟩] true (-1) ![0] = Real.exp 2 + Real.exp (-2) := by
    simp [kOne, covEntry, scaleFactor, entry, unlog, ← Real.exp_add, ← Real.exp_nat_mul]
    norm_num
  have hpos : 0 < Real.exp 2 + Real.exp (-2) := by positivity
  obtain ⟨l, h⟩ := init_single [⟨.constant 1, none, some 1, false⟩] hp (by simp) (-1) true ![0] 0 (by rw [hk]; exact hpos)
  rw [hk] at h
  obtain ⟨hc, -⟩ := C43_init_partial _ _ _ hp _ _ _ _ h
  set gp := one (N := 1) [⟨.constant 1, none, some 1, false⟩] (-1) true ![0] 0 (Real.exp 2 + Real.exp (-2))⁻¹ l with hgp
  have hv : gp.var ![0] = Real.exp 2 * (Real.exp (-2) / (Real.exp 2 + Real.exp (-2))) := by
    rw [hgp, unc_one]
    simp [covEntry, scaleFactor, entry, unlog, ← Real.exp_add]
    norm_num
    field_simp
    ring
  have hv0 : 0 ≤ gp.var ![0] := by rw [hv]; positivity
  have hv1 : gp.var ![0] < 1 := by
    rw [hv, mul_div_assoc', ← Real.exp_add, div_lt_one hpos]
    have h1 : (1:ℝ) < Real.exp 2 := Real.one_lt_exp_iff.mpr (by norm_num)
    have h2 := Real.exp_pos (-2)
    simp
    linarith
  refine ⟨gp, _, _, _, Real.sqrt (gp.var ![0]), Real.sqrt (gp.var ![0]) + -1, Reach.init hp h, rfl,
    hc.predict_unc [![0]] (by simp) (-1) rfl, ?_, ?_⟩
  · have hs : gp.scaleRow ![0] = ![0] := rfl
    have ht : gp.tstd = 1 := rfl
    simp only [List.map_cons, List.map_nil, hs, GP.unc, npSqrt, ht, not_lt.mpr hv0, if_false, Option.map_some, mul_one]
  · have : Real.sqrt (gp.var ![0]) < 1 := by
      rw [Real.sqrt_lt' one_pos]; simpa using hv1
    linarith

/-- C120 (`_partial`: kernels without noise): the predictions for the training data reported with the training error
are those `predict` makes at the training points. -/
theorem C120_training_partial {N : Nat} (gp : GP N) (fp : List (Fin N → ℝ)) (t : List ℝ) (hR : Reach gp fp t)
    (hn : ∀ k ∈ gp.kernels, ∀ h, k.ktype ≠ .noiseMulti h) (hnan : gp.nan = false) :
    ∃ ps, trainPrediction gp = .ok ps ∧ predict gp fp false = .ok ⟨ps, none⟩ := by
  obtain ⟨hc, hh⟩ := C43_consistent_partial gp fp t hR
  have c1 : gp.cinv.1 = gp.fp.length := by rw [hc.2.1]
  have c2 : gp.cinv.1 = gp.target.length := by rw [hc.2.1, hc.2.2.1]
  obtain ⟨e1, e2⟩ := hh.rows hc.2.2.2 hnan
  refine ⟨gp.fp.map gp.mean, ?_, ?_⟩
  · unfold trainPrediction
    simp only [c2, ne_eq, not_true_eq_false, if_false, bind, Except.bind, pure, Except.pure]
    rw [if_neg (by rw [← c2, c1]; simp)]
    congr 1
    apply List.ext_getElem
    · simp
    · intro i h1 h2
      simp only [List.getElem_map, List.getElem_finRange]
      unfold GP.mean GP.ktb
      simp only [covEntry_self _ _ hn _ _ (decide _)]
      rfl
  · rw [hc.predict_eq fp hh.2.2, ← e1, List.map_map]
    rfl

/-- C120 fails with a noise kernel: the covariance of the training data with themselves contains the noise. -/
theorem C120_noise_violated : ∃ (gp : GP 1) (fp : List (Fin 1 → ℝ)) (t : List ℝ), Reach gp fp t ∧
    trainPrediction gp = .ok [some (1 / 2)] ∧ predict gp fp false = .ok ⟨[some 0], none⟩ := by
  have hp : PacksList (N := 1) [⟨.noiseMulti [1, 1], none, none, false⟩] := by
    intro s d b h; simp at h
  have hk : kOne (N := 1) [⟨.noiseMulti [1, 1], none, none, false⟩] false 1 ![0] = 2 := by
    simp [kOne, covEntry, scaleFactor, entry, unlog]
    norm_num
  obtain ⟨l, h⟩ := init_single [⟨.noiseMulti [1, 1], none, none, false⟩] hp (by simp) 1 false ![0] 1 (by rw [hk]; norm_num)
  rw [hk] at h
  refine ⟨_, _, _, Reach.init hp h, ?_, ?_⟩
  · simp [trainPrediction, one, GP.rescale, GP.y, bind, Except.bind, pure, Except.pure, mulVec, dotProduct, covEntry,
      scaleFactor, entry, unlog, List.finRange_succ]
    change ((1:ℕ):ℝ) * (((1:ℕ):ℝ) * 2⁻¹) = _
    simp
  · rw [predict_one]
    simp [covEntry, scaleFactor, entry]

/-- C121 (`_partial`: models with a regularisation): asking for uncertainties never makes a prediction fail and does not
change the predictions. -/
theorem C121_uncertainty_partial {N : Nat} (gp : GP N) (fp : List (Fin N → ℝ)) (t : List ℝ) (hR : Reach gp fp t) (r : ℝ)
    (hr : gp.reg = some r) (test : List (Fin N → ℝ)) (p : Pred) (h : predict gp test false = .ok p) :
    ∃ us, predict gp test true = .ok ⟨p.prediction, some us⟩ ∧ us.length = test.length := by
  obtain ⟨hc, hh⟩ := C43_consistent_partial gp fp t hR
  have ht : test ≠ [] := by
    rintro rfl
    simp [predict, bind, Except.bind, throw, throwThe, MonadExceptOf.throw] at h
  rw [hc.predict_eq test ht] at h
  simp at h
  subst h
  exact ⟨_, hc.predict_unc test ht r hr, by simp⟩

/-- C121 fails for all models with the default `regularization=None`: they predict but raise TypeError when asked for
uncertainties. -/
theorem C121_default_violated {N : Nat} (gp : GP N) (fp : List (Fin N → ℝ)) (t : List ℝ) (hR : Reach gp fp t)
    (hr : gp.reg = none) (test : List (Fin N → ℝ)) (ht : test ≠ []) :
    (∃ p, predict gp test false = .ok p) ∧ predict gp test true = .error .type ∧
      predictUncertainty gp test = .error .type := by
  obtain ⟨hc, hh⟩ := C43_consistent_partial gp fp t hR
  have he : test.isEmpty = false := by simpa using ht
  have c1 : gp.cinv.1 = gp.fp.length := by rw [hc.2.1]
  have c2 : gp.cinv.1 = gp.target.length := by rw [hc.2.1, hc.2.2.1]
  refine ⟨⟨_, hc.predict_eq test ht⟩, ?_, ?_⟩
  · unfold predict
    simp only [he, ← c1, ← c2, hr, bind, Except.bind, pure, Except.pure, throw, throwThe, MonadExceptOf.throw]
    simp
  · unfold predictUncertainty
    simp only [he, ← c1, hr, bind, Except.bind, pure, Except.pure, throw, throwThe, MonadExceptOf.throw]
    simp

example : ∃ gp : GP 1, init [![(1:ℝ)]] [2] linK none false false = .ok gp ∧ gp.reg = none := by
  have hg : gram linK false none [![(1:ℝ)]] = Matrix.of fun _ _ => 1 := by
    ext i j
    fin_cases i
    fin_cases j
    unfold gram
    rw [covSelf_apply]
    simp [linK_entry, regSq]
  have hpd : (gram linK false none [![(1:ℝ)]]).PosDef := by
    rw [hg]; exact single_posDef 1 one_pos
  obtain ⟨l, h⟩ := updateData_of (blank linK none false false) [![(1:ℝ)]] [2] false ⟨[![1]], [2], false, none⟩ (by simp)
    rfl (by simp [store, blank]) linK_packs (by simp [linK, blank]) hpd.det_pos.ne'.isUnit hpd
  refine ⟨_, Eq.trans ?_ h, rfl⟩
  unfold init
  simp [bind, Except.bind, pure, Except.pure]

end CatLearn.Proc
