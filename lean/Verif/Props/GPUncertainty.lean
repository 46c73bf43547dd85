import Verif.Props.GPPredict
import Mathlib.Algebra.BigOperators.Fin
import Mathlib.MeasureTheory.Function.L2Space
import Mathlib.MeasureTheory.Integral.Bochner.Basic

/-!
# Uncertainties of a Gaussian process (C44, C115, C116, C117, C119, C120, C121)
-/

namespace CatLearn.Proc

open CatLearn CatLearn.Kernel CatLearn.Scaling CatLearn.PSD Matrix

/-- C44 (`_partial`: models that do not scale their data): `predict_uncertainty` returns what `predict` returns, and
raises exactly when it raises. -/
theorem C44_agree_partial {N : Nat} (gp : GP N) (fp : List (Fin N → ℝ)) (t : List ℝ) (h : Reach gp fp t)
    (hs : gp.scaleData = false) (test : List (Fin N → ℝ)) :
    predictUncertainty gp test = (predict gp test true).map fun p => p.uncertainty.getD [] := by
  obtain ⟨⟨h1, h2, h3, h4⟩, -⟩ := C43_consistent_partial gp fp t h
  have hc1 : gp.cinv.1 = gp.fp.length := by rw [h2]
  have hc2 : gp.cinv.1 = gp.target.length := by rw [h2, h3]
  have hid : test.map gp.scaleRow = test := List.map_id'' (fun x => by unfold GP.scaleRow; rw [hs]) test
  unfold predictUncertainty predict
  simp only [hid, ← hc2, ← hc1, bind, Except.bind, pure, Except.pure, throw, throwThe, MonadExceptOf.throw]
  cases ht : test.isEmpty with
  | true => simp [Except.map]
  | false => cases hr : gp.reg <;> simp [Except.map]

/-- C44 (`_partial`: the test points have to be scaled by the caller): for all models, `predict_uncertainty` on the
scaled test points returns what `predict` returns on the test points. -/
theorem C44_scaled_partial {N : Nat} (gp : GP N) (fp : List (Fin N → ℝ)) (t : List ℝ) (h : Reach gp fp t)
    (test : List (Fin N → ℝ)) :
    predictUncertainty gp (test.map gp.scaleRow) = (predict gp test true).map fun p => p.uncertainty.getD [] := by
  obtain ⟨⟨h1, h2, h3, h4⟩, -⟩ := C43_consistent_partial gp fp t h
  have hc1 : gp.cinv.1 = gp.fp.length := by rw [h2]
  have hc2 : gp.cinv.1 = gp.target.length := by rw [h2, h3]
  have he : (test.map gp.scaleRow).isEmpty = test.isEmpty := by cases test <;> rfl
  unfold predictUncertainty predict
  simp only [he, ← hc2, ← hc1, bind, Except.bind, pure, Except.pure, throw, throwThe, MonadExceptOf.throw]
  cases ht : test.isEmpty with
  | true => simp [Except.map]
  | false => cases hr : gp.reg <;> simp [Except.map]

theorem linK_gram : gram linK false (some 1) [![-1], ![1]] = !![2, -1; -1, 2] := by
  ext i j
  change covSelf linK false (some 1) _ i j = _
  rw [covSelf_apply]
  fin_cases i <;> fin_cases j <;> simp [linK_entry, regSq, unlog] <;> norm_num

theorem linK_scal : scalOf [![(0:ℝ)], ![2]] [0, 2] = ⟨fun _ => 1, fun _ => 1, 1, 1⟩ := by
  have h0 : colMean [![(0:ℝ)], ![2]].get = fun _ => 1 := by
    funext a; fin_cases a
    simp [colMean, Fin.sum_univ_succ]
  have h1 : colStd [![(0:ℝ)], ![2]].get = fun _ => 1 := by
    funext a; fin_cases a
    simp [colStd, colMean, Fin.sum_univ_succ]
    norm_num
  have h2 : tMean [(0:ℝ), 2].get = 1 := by
    simp [tMean, colMean, Fin.sum_univ_succ]
  have h3 : tStd [(0:ℝ), 2].get = 1 := by
    simp [tStd, colStd, colMean, Fin.sum_univ_succ]
    norm_num
  unfold scalOf
  rw [h0, h1, h2, h3]
  congr 1
  funext a
  simp [placeOnes]

/-- The posterior variance of the linear model at `x`. -/
theorem linK_var (x : ℝ) :
    postVar (covEntry linK false ![x] ![x] true) (gram linK false (some 1) [![-1], ![1]])
      (kvec linK false ![x] [![-1], ![1]].get) = x ^ 2 / 3 := by
  have hi : (!![2, -1; -1, 2] : Matrix (Fin 2) (Fin 2) ℝ)⁻¹ = !![2/3, 1/3; 1/3, 2/3] := by
    apply Matrix.inv_eq_right_inv
    ext i j
    fin_cases i <;> fin_cases j <;> simp [Matrix.mul_apply, Fin.sum_univ_succ] <;> norm_num
  have hk : kvec linK false ![x] [![-1], ![1]].get = ![-x, x] := by
    funext i
    fin_cases i <;> simp [kvec, linK_entry]
  unfold postVar
  rw [hk, linK_gram, linK_entry]
  refine (congrArg (fun M : Matrix (Fin 2) (Fin 2) ℝ => x * x - (![-x, x] ᵥ* M) ⬝ᵥ ![-x, x]) hi).trans ?_
  simp [vecMul, dotProduct, Fin.sum_univ_succ]
  ring

/-- C44 fails for models that scale their data: a linear model of the points (0, 0) and (2, 2). -/
theorem C44_scaling_violated : ∃ (gp : GP 1) (fp : List (Fin 1 → ℝ)) (t : List ℝ) (test : List (Fin 1 → ℝ)) (p : Pred)
    (us : List (Option ℝ × Option ℝ)), Reach gp fp t ∧ predict gp test true = .ok p ∧
      predictUncertainty gp test = .ok us ∧ p.uncertainty = some [(some 0, some 1)] ∧
      us = [(some (Real.sqrt (1 / 3)), some (Real.sqrt (1 / 3) + 1))] := by
  obtain ⟨gp, h⟩ := C113_can_build [![(0:ℝ)], ![2]] [0, 2] linK 1 false true (by simp) rfl (by simp [linK]) linK_packs
    linK_good (Or.inr one_ne_zero)
  have hR := Reach.init linK_packs h
  obtain ⟨hc, hh, h1, h2, h3, h4⟩ := C43_init_partial _ _ _ linK_packs _ _ _ gp h
  have hst := hh.1
  unfold store at hst
  simp only [h4, if_true, linK_scal, Except.ok.injEq, Stored.mk.injEq] at hst
  obtain ⟨e1, -, -, e4⟩ := hst
  have e1 : gp.fp = [![-1], ![1]] := by
    rw [← e1]
    simp
    constructor <;> · funext a; fin_cases a; simp [Scal.row]; try norm_num
  have hts : gp.tstd = 1 := by unfold GP.tstd; rw [h4, ← e4]
  have hrow : gp.scaleRow ![1] = ![0] := by
    unfold GP.scaleRow; rw [h4, ← e4]
    funext a; fin_cases a; simp [Scal.row]
  have hv : ∀ x : ℝ, gp.var ![x] = x ^ 2 / 3 := by
    intro x
    rw [hc.var_eq, ← linK_var x, h1, h2, h3, e1]
  have hp := hc.predict_unc [![1]] (by simp) 1 h2
  have hu : predictUncertainty gp [![1]] = .ok [gp.unc 1 ![1]] := by
    have hc1 : gp.cinv.1 = gp.fp.length := by rw [hc.2.1]
    unfold predictUncertainty
    simp [hc1, h2, bind, Except.bind, pure, Except.pure]
  refine ⟨gp, _, _, [![1]], _, _, hR, hp, hu, ?_, ?_⟩
  · simp [hrow, GP.unc, hv, npSqrt, hts]
  · simp [GP.unc, hv, npSqrt, hts]

/-! ### More training data (C115) -/

/-- C115: a model with more training data never has a larger variance. -/
theorem C115_variance {N : Nat} (gp gp' : GP N) (hc : Consistent gp) (hc' : Consistent gp')
    (hk : ∀ k ∈ gp.kernels, GoodKernel gp.log k) (e1 : gp'.kernels = gp.kernels) (e2 : gp'.log = gp.log)
    (e3 : gp'.reg = gp.reg) (more : List (Fin N → ℝ)) (e4 : gp'.fp = gp.fp ++ more) (x : Fin N → ℝ) :
    gp'.var x ≤ gp.var x := by
  have hu := hc'.1
  rw [hc.var_eq, hc'.var_eq, e1, e2, e3, e4]
  rw [e1, e2, e3, e4] at hu
  let e : Fin gp.fp.length ⊕ Fin more.length ≃ Fin (gp.fp ++ more).length :=
    finSumFinEquiv.trans (finCongr (List.length_append).symm)
  have hel : ∀ i, (gp.fp ++ more).get (e (.inl i)) = gp.fp.get i := by intro i; simp [e]
  have her : ∀ i, (gp.fp ++ more).get (e (.inr i)) = more.get i := by intro i; simp [e]
  rw [← postVar_reindex e]
  have hsub : (gram gp.kernels gp.log gp.reg (gp.fp ++ more)).submatrix e e =
      covSelf gp.kernels gp.log gp.reg (fun i => (gp.fp ++ more).get (e i)) := by
    ext i j
    rw [submatrix_apply, gram, covSelf_apply, covSelf_apply]
    simp [e.injective.eq_iff]
  have hkv : kvec gp.kernels gp.log x (gp.fp ++ more).get ∘ e =
      Sum.elim (kvec gp.kernels gp.log x gp.fp.get) (kvec gp.kernels gp.log x more.get) := by
    funext i
    cases i with
    | inl i => simp [kvec, hel, -List.get_eq_getElem]
    | inr i => simp [kvec, her, -List.get_eq_getElem]
  rw [hkv]
  refine postVar_mono (C41_symmetric _ _ _ _) hc.1 ?_ ?_ ?_ _ _ _
  · rw [hsub]; exact C41_posSemidef _ _ hk _ _
  · rw [det_submatrix_equiv_self]; exact hu
  · intro i j
    rw [hsub]
    rw [covSelf_apply, covSelf_apply, hel, hel]
    simp

/-- C115 (`_partial`: models that do not scale their data): so no predicted uncertainty is larger. -/
theorem C115_more_data_partial {N : Nat} (ks : List (KDict N)) (hp : PacksList ks) (log : Bool)
    (hk : ∀ k ∈ ks, GoodKernel log k) (r : ℝ) (fp more : List (Fin N → ℝ)) (t t' : List ℝ) (gp gp' : GP N)
    (h : init fp t ks (some r) log false = .ok gp) (h' : init (fp ++ more) t' ks (some r) log false = .ok gp')
    (test : List (Fin N → ℝ)) (p p' : Pred) (hP : predict gp test true = .ok p) (hP' : predict gp' test true = .ok p') :
    ∃ us us', p.uncertainty = some us ∧ p'.uncertainty = some us' ∧
      List.Forall₂ (fun u u' => ∃ v v', u = (some v, some (v + r)) ∧ u' = (some v', some (v' + r)) ∧ v' ≤ v) us us' := by
  obtain ⟨hc, hh, h1, h2, h3, h4⟩ := C43_init_partial _ _ _ hp _ _ _ gp h
  obtain ⟨hc', hh', h1', h2', h3', h4'⟩ := C43_init_partial _ _ _ hp _ _ _ gp' h'
  have ht : test ≠ [] := by
    rintro rfl
    simp [predict, bind, Except.bind, throw, throwThe, MonadExceptOf.throw] at hP
  rw [hc.predict_unc test ht r h2] at hP
  rw [hc'.predict_unc test ht r h2'] at hP'
  simp at hP hP'
  subst hP hP'
  have hf : gp.fp = fp := by
    have := hh.1
    simp only [store, h4, Bool.false_eq_true, if_false, Except.ok.injEq, Stored.mk.injEq] at this
    exact this.1.symm
  have hf' : gp'.fp = fp ++ more := by
    have := hh'.1
    simp only [store, h4', Bool.false_eq_true, if_false, Except.ok.injEq, Stored.mk.injEq] at this
    exact this.1.symm
  refine ⟨_, _, rfl, rfl, ?_⟩
  rw [List.forall₂_map_left_iff, List.forall₂_map_right_iff, List.forall₂_same]
  intro x _
  have hs : gp.scaleRow x = x := by unfold GP.scaleRow; rw [h4]
  have hs' : gp'.scaleRow x = x := by unfold GP.scaleRow; rw [h4']
  have ht1 : gp.tstd = 1 := by unfold GP.tstd; rw [h4]
  have ht2 : gp'.tstd = 1 := by unfold GP.tstd; rw [h4']
  have hk1 : ∀ k ∈ gp.kernels, GoodKernel gp.log k := by rw [h1, h3]; exact hk
  have hk2 : ∀ k ∈ gp'.kernels, GoodKernel gp'.log k := by rw [h1', h3']; exact hk
  have v1 := (C42_variance gp hc hk1 x).1
  have v2 := (C42_variance gp' hc' hk2 x).1
  have v3 := C115_variance gp gp' hc hc' hk1 (by rw [h1, h1']) (by rw [h3, h3']) (by rw [h2, h2']) more
    (by rw [hf, hf']) x
  refine ⟨Real.sqrt (gp.var x), Real.sqrt (gp'.var x), ?_, ?_, Real.sqrt_le_sqrt v3⟩
  · simp [hs, GP.unc, npSqrt, not_lt.mpr v1, ht1]
  · simp [hs', GP.unc, npSqrt, not_lt.mpr v2, ht2]

example : ∃ gp gp' : GP 1, init [![(-1:ℝ)], ![1]] [0, 2] linK (some 1) false false = .ok gp ∧
    init ([![(-1:ℝ)], ![1]] ++ [![1]]) [0, 2, 3] linK (some 1) false false = .ok gp' := by
  obtain ⟨gp, h⟩ := C113_can_build [![(-1:ℝ)], ![1]] [0, 2] linK 1 false false (by simp) rfl (by simp [linK])
    linK_packs linK_good (Or.inr one_ne_zero)
  obtain ⟨gp', h'⟩ := C113_can_build ([![(-1:ℝ)], ![1]] ++ [![1]]) [0, 2, 3] linK 1 false false (by simp) rfl
    (by simp [linK]) linK_packs linK_good (Or.inr one_ne_zero)
  exact ⟨gp, gp', h, h'⟩

/-- The variance of a model with a constant kernel depends on the number of training points only. -/
theorem constant_var {N : Nat} (c r : ℝ) (hc : 0 < c) (hr : r ≠ 0) (gp : GP N) (h : Consistent gp)
    (hk : gp.kernels = [⟨.constant c, none, none, false⟩]) (hl : gp.log = false) (hr' : gp.reg = some r) (x : Fin N → ℝ) :
    gp.var x = c * r ^ 2 / (gp.fp.length * c + r ^ 2) := by
  rw [h.var_eq]
  have hu := h.1
  rw [hk, hl, hr'] at hu ⊢
  have hd : (gp.fp.length : ℝ) * c + r ^ 2 ≠ 0 := by positivity
  have hv : kvec [⟨.constant c, none, none, false⟩] false x gp.fp.get = fun _ => c := by
    funext i
    simp [kvec, covEntry, scaleFactor, entry, unlog]
  have hK : gram [⟨.constant c, none, none, false⟩] false (some r) gp.fp *ᵥ (fun _ => c) = ((gp.fp.length : ℝ) * c + r ^ 2) • fun _ => c := by
    funext i
    simp only [mulVec, dotProduct, gram, covSelf_apply]
    simp only [covEntry, scaleFactor, entry, unlog, regSq, List.foldl_cons, List.foldl_nil, Bool.false_eq_true, if_false,
      zero_add, one_mul, add_mul, Finset.sum_add_distrib]
    simp
    ring
  have hi : (gram [⟨.constant c, none, none, false⟩] false (some r) gp.fp)⁻¹ *ᵥ (fun _ => c) = ((gp.fp.length : ℝ) * c + r ^ 2)⁻¹ • fun _ => c := by
    have : (gram [⟨.constant c, none, none, false⟩] false (some r) gp.fp)⁻¹ *ᵥ (((gp.fp.length : ℝ) * c + r ^ 2) • fun _ => c) = fun _ => c := by
      rw [← hK, mulVec_mulVec, nonsing_inv_mul _ hu, one_mulVec]
    rw [mulVec_smul] at this
    conv_rhs => rw [← this]
    rw [smul_smul, inv_mul_cancel₀ hd, one_smul]
  unfold postVar
  rw [hv, ← dotProduct_mulVec, hi]
  have he : covEntry [⟨.constant c, none, none, false⟩] false x x true = c := by simp [covEntry, scaleFactor, entry, unlog]
  rw [he]
  simp only [dotProduct, Pi.smul_apply, smul_eq_mul, Finset.sum_const, Finset.card_univ, Fintype.card_fin, nsmul_eq_mul]
  field_simp
  ring

/-- C115 fails for models that scale their data: the uncertainty is multiplied by the standard deviation of the targets, which a further point can increase.  With a constant kernel
the uncertainty at every point is larger after a third point with the target 10 than for the targets 0 and 2. -/
theorem C115_scaled_violated : ∃ (gp gp' : GP 1) (v v' w w' : ℝ), init [![(0:ℝ)], ![2]] [0, 2] [⟨.constant 1, none, none, false⟩] (some 1) false true = .ok gp ∧
    init [![(0:ℝ)], ![2], ![1]] [0, 2, 10] [⟨.constant 1, none, none, false⟩] (some 1) false true = .ok gp' ∧ v < v' ∧ w < w' ∧
    ∀ x, (∃ p, predict gp [x] true = .ok p ∧ p.uncertainty = some [(some v, some w)]) ∧
      ∃ p, predict gp' [x] true = .ok p ∧ p.uncertainty = some [(some v', some w')] := by
  have hp : PacksList (N := 1) [⟨.constant 1, none, none, false⟩] := by
    intro s d b h; simp at h
  have hg : ∀ k ∈ [(⟨.constant 1, none, none, false⟩ : KDict 1)], GoodKernel false k := by
    simp [GoodKernel]
  obtain ⟨gp, h⟩ := C113_can_build [![(0:ℝ)], ![2]] [0, 2] [⟨.constant 1, none, none, false⟩] 1 false true (by simp) rfl (by simp) hp hg (Or.inr one_ne_zero)
  obtain ⟨gp', h'⟩ := C113_can_build [![(0:ℝ)], ![2], ![1]] [0, 2, 10] [⟨.constant 1, none, none, false⟩] 1 false true (by simp) rfl (by simp) hp hg (Or.inr one_ne_zero)
  have hun : ∀ (fp : List (Fin 1 → ℝ)) (t : List ℝ) (g : GP 1), init fp t [⟨.constant 1, none, none, false⟩] (some 1) false true = .ok g → ∀ x,
      ∃ p, predict g [x] true = .ok p ∧
        p.uncertainty = some [(some (Real.sqrt (1 / (fp.length + 1)) * tStd t.get), some ((Real.sqrt (1 / (fp.length + 1)) + 1) * tStd t.get))] := by
    intro fp t g hi x
    obtain ⟨hc, hh, h1, h2, h3, h4⟩ := C43_init_partial _ _ _ hp _ _ _ g hi
    have hst := hh.1
    unfold store at hst
    simp only [h4, if_true, Except.ok.injEq, Stored.mk.injEq] at hst
    obtain ⟨e1, -, -, e4⟩ := hst
    have hlen : g.fp.length = fp.length := by rw [← e1, List.length_map]
    have hts : g.tstd = tStd t.get := by unfold GP.tstd; rw [h4, ← e4]; rfl
    have hv : ∀ y, g.var y = 1 / (fp.length + 1) := by
      intro y
      rw [constant_var 1 1 one_pos one_ne_zero g hc h1 h3 h2 y, hlen]
      norm_num
    refine ⟨_, hc.predict_unc [x] (by simp) 1 h2, ?_⟩
    have hpos : (0:ℝ) ≤ 1 / (fp.length + 1) := by positivity
    simp only [List.map_cons, List.map_nil, GP.unc, hv, npSqrt, if_neg (not_lt.mpr hpos), hts]
    simp
  have s1 : tStd ([0, 2] : List ℝ).get = 1 := by
    simp [tStd, colStd, colMean, Fin.sum_univ_succ]
    norm_num
  have s2 : 4 ≤ tStd ([0, 2, 10] : List ℝ).get := by
    unfold tStd colStd
    apply Real.le_sqrt_of_sq_le
    simp [colMean, Fin.sum_univ_succ]
    norm_num
  have s3 : Real.sqrt (1 / ((([![(0:ℝ)], ![2]] : List (Fin 1 → ℝ)).length : ℝ) + 1)) ≤ 1 := by
    rw [Real.sqrt_le_one]
    norm_num
  have s4 : 1 / 2 ≤ Real.sqrt (1 / ((([![(0:ℝ)], ![2], ![1]] : List (Fin 1 → ℝ)).length : ℝ) + 1)) := by
    apply Real.le_sqrt_of_sq_le
    norm_num
  refine ⟨gp, gp', _, _, _, _, h, h', ?_, ?_, fun x => ⟨hun _ _ gp h x, hun _ _ gp' h' x⟩⟩
  · rw [s1]
    nlinarith
  · rw [s1]
    nlinarith

end CatLearn.Proc
