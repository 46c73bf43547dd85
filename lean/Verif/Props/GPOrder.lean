import Verif.Props.GPUncertainty

/-!
# The order of the training data (C116), optimality of the prediction (C117)
-/

namespace CatLearn.Proc

open CatLearn CatLearn.Kernel CatLearn.Scaling CatLearn.PSD Matrix

theorem colMean_equiv {ι κ δ : Type} [Fintype ι] [Fintype κ] (e : ι ≃ κ) (X : ι → δ → ℝ) (Y : κ → δ → ℝ)
    (h : ∀ i, X i = Y (e i)) : colMean X = colMean Y := by
  funext j
  unfold colMean
  simp only [h]
  rw [Equiv.sum_comp e fun i => Y i j, Fintype.card_congr e]

theorem colStd_equiv {ι κ δ : Type} [Fintype ι] [Fintype κ] (e : ι ≃ κ) (X : ι → δ → ℝ) (Y : κ → δ → ℝ)
    (h : ∀ i, X i = Y (e i)) : colStd X = colStd Y := by
  funext j
  unfold colStd
  rw [colMean_equiv e X Y h]
  simp only [h]
  rw [Equiv.sum_comp e fun i => (Y i j - colMean Y j) ^ 2, Fintype.card_congr e]

theorem scalOf_perm {N : Nat} {d d' : List ((Fin N → ℝ) × ℝ)} (h : d.Perm d') :
    scalOf (d.map Prod.fst) (d.map Prod.snd) = scalOf (d'.map Prod.fst) (d'.map Prod.snd) := by
  obtain ⟨e, he⟩ := perm_equiv (h.map Prod.fst)
  obtain ⟨f, hf⟩ := perm_equiv (h.map Prod.snd)
  unfold scalOf tMean tStd
  rw [colMean_equiv e _ _ he, colStd_equiv e _ _ he]
  rw [colMean_equiv f (fun i (_ : Unit) => (d.map Prod.snd).get i) (fun i (_ : Unit) => (d'.map Prod.snd).get i)
      (fun i => by funext; exact hf i),
    colStd_equiv f (fun i (_ : Unit) => (d.map Prod.snd).get i) (fun i (_ : Unit) => (d'.map Prod.snd).get i)
      (fun i => by funext; exact hf i)]

/-- Training points and targets of two orders correspond. -/
theorem pair_equiv {N : Nat} {d d' : List ((Fin N → ℝ) × ℝ)} (h : d.Perm d') :
    ∃ e : Fin (d.map Prod.fst).length ≃ Fin (d'.map Prod.fst).length,
      (∀ i, (d.map Prod.fst).get i = (d'.map Prod.fst).get (e i)) ∧
      ∀ i : Fin (d.map Prod.fst).length, (d.map Prod.snd).get (i.cast (by simp)) =
        (d'.map Prod.snd).get ((e i).cast (by simp)) := by
  obtain ⟨e, he⟩ := perm_equiv h
  refine ⟨(finCongr (by simp)).trans (e.trans (finCongr (by simp))), ?_, ?_⟩
  · intro i
    have := congrArg Prod.fst (he (i.cast (by simp)))
    simpa using this
  · intro i
    have := congrArg Prod.snd (he (i.cast (by simp)))
    simpa using this

theorem gram_equiv {N : Nat} (ks : List (KDict N)) (log : Bool) (reg : Option ℝ) {fp fp' : List (Fin N → ℝ)}
    (e : Fin fp.length ≃ Fin fp'.length) (he : ∀ i, fp.get i = fp'.get (e i)) :
    gram ks log reg fp = (gram ks log reg fp').submatrix e e := by
  ext i j
  rw [submatrix_apply, gram, gram, covSelf_apply, covSelf_apply, he, he]
  simp

/-- Two consistent models of the same data in different order. -/
theorem same_predictions {N : Nat} (gp gp' : GP N) (hc : Consistent gp) (hc' : Consistent gp')
    (e1 : gp'.kernels = gp.kernels) (e2 : gp'.log = gp.log) (e3 : gp'.reg = gp.reg) (e4 : gp'.scaling = gp.scaling)
    (e5 : gp'.nan = gp.nan) (e6 : gp'.scaleData = gp.scaleData) (d d' : List ((Fin N → ℝ) × ℝ)) (h : d.Perm d')
    (f1 : gp.fp = d.map Prod.fst) (f2 : gp.target = d.map Prod.snd) (f3 : gp'.fp = d'.map Prod.fst)
    (f4 : gp'.target = d'.map Prod.snd) (x : Fin N → ℝ) : gp.mean x = gp'.mean x ∧ gp.var x = gp'.var x := by
  obtain ⟨e, he, hf⟩ := pair_equiv h
  have hre : ∀ p, gp.rescale p = gp'.rescale p := by
    intro p; unfold GP.rescale; rw [e4, e6]
  have key : ∀ (fp fp' : List (Fin N → ℝ)) (t t' : List ℝ) (hl : t.length = fp.length) (hl' : t'.length = fp'.length),
      fp = d.map Prod.fst → t = d.map Prod.snd → fp' = d'.map Prod.fst → t' = d'.map Prod.snd →
      postMean (gram gp.kernels gp.log gp.reg fp) (kvec gp.kernels gp.log x fp.get) (fun i => t.get (i.cast hl.symm)) =
        postMean (gram gp.kernels gp.log gp.reg fp') (kvec gp.kernels gp.log x fp'.get)
          (fun i => t'.get (i.cast hl'.symm)) ∧
      ∀ c, postVar c (gram gp.kernels gp.log gp.reg fp) (kvec gp.kernels gp.log x fp.get) =
        postVar c (gram gp.kernels gp.log gp.reg fp') (kvec gp.kernels gp.log x fp'.get) := by
    rintro _ _ _ _ hl hl' rfl rfl rfl rfl
    have hkv : kvec gp.kernels gp.log x (d.map Prod.fst).get = kvec gp.kernels gp.log x (d'.map Prod.fst).get ∘ e := by
      funext i
      simp only [kvec, Function.comp_apply, he]
    have hy : (fun i => (d.map Prod.snd).get (Fin.cast hl.symm i)) =
        (fun i => (d'.map Prod.snd).get (Fin.cast hl'.symm i)) ∘ e := by
      funext i
      exact hf i
    rw [gram_equiv _ _ _ e he, hkv, hy]
    exact ⟨postMean_reindex e _ _ _, fun c => postVar_reindex e _ _ _⟩
  obtain ⟨k1, k2⟩ := key gp.fp gp'.fp gp.target gp'.target hc.2.2.1 hc'.2.2.1 f1 f2 f3 f4
  constructor
  · unfold GP.mean
    rw [hc.mean_eq, hc'.mean_eq]
    simp only [e1, e2, e3, e5, k1, hre]
  · rw [hc.var_eq, hc'.var_eq, e1, e2, e3, k2]

/-- What a model that could be built says about the covariance of its training data. -/
theorem init_posDef {N : Nat} {fp : List (Fin N → ℝ)} {t : List ℝ} {ks : List (KDict N)} (hp : PacksList ks)
    {reg : Option ℝ} {log sd : Bool} {gp : GP N} (h : init fp t ks reg log sd = .ok gp) :
    ks ≠ [] ∧ (gram ks log reg gp.fp).PosDef := by
  unfold init at h
  by_cases hl : fp.length = t.length
  · simp [hl, bind, Except.bind, pure, Except.pure] at h
    obtain ⟨st, ci, h1, h2, h3, h4⟩ := updateData_ok h
    obtain ⟨hne, hu, hci⟩ := invGram_ok h3
    obtain ⟨θ, ks', k1, k2, k3, k4, k5⟩ := updateLml_ok h4
    have hr := C45_kernel_round_trip_partial ks hp θ k1 reg.toList
    have k2 : list2kdict (θ ++ reg.toList) ks = .ok ks' := k2
    rw [hr] at k2
    simp at k2
    subst k2
    refine ⟨hne, ?_⟩
    rw [k5]
    exact k3
  · simp [hl, bind, Except.bind, throw, throwThe, MonadExceptOf.throw] at h

/-- C116: the order of the training data does not matter: when a model can be built from training pairs in one order it
can be built from them in every order, and all predictions and uncertainties are the same. -/
theorem C116_order {N : Nat} (d d' : List ((Fin N → ℝ) × ℝ)) (h : d.Perm d') (ks : List (KDict N))
    (hp : PacksList ks) (reg : Option ℝ) (log sd : Bool) (gp : GP N)
    (hi : init (d.map Prod.fst) (d.map Prod.snd) ks reg log sd = .ok gp) :
    ∃ gp', init (d'.map Prod.fst) (d'.map Prod.snd) ks reg log sd = .ok gp' ∧
      (∀ test u, predict gp test u = predict gp' test u) ∧
      ∀ test, predictUncertainty gp test = predictUncertainty gp' test := by
  obtain ⟨hne, hpd⟩ := init_posDef hp hi
  obtain ⟨hc, hh, h1, h2, h3, h4⟩ := C43_init_partial _ _ _ hp _ _ _ gp hi
  have hd' : d'.map Prod.fst ≠ [] := by
    have := hh.2.2
    intro h0
    apply this
    have := (h.map Prod.fst).length_eq
    rw [h0] at this
    exact List.eq_nil_of_length_eq_zero this
  -- what is stored
  obtain ⟨g, hg1, hg2, hg3, hg4⟩ : ∃ g : (Fin N → ℝ) × ℝ → (Fin N → ℝ) × ℝ,
      gp.fp = (d.map g).map Prod.fst ∧ gp.target = (d.map g).map Prod.snd ∧
      store (blank ks reg log sd) (d'.map Prod.fst) (some (d'.map Prod.snd)) =
        .ok ⟨(d'.map g).map Prod.fst, (d'.map g).map Prod.snd, gp.nan, gp.scaling⟩ ∧
      (d'.map g).length = d'.length := by
    have hst := hh.1
    unfold store at hst
    cases hsd : sd with
    | false =>
      rw [h4, hsd] at hst
      simp only [Bool.false_eq_true, if_false, Except.ok.injEq, Stored.mk.injEq, Option.getD_some, Option.isSome_some,
        if_true] at hst
      have hsc := hc.2.2.2
      rw [h4, hsd] at hsc
      refine ⟨id, by simp [← hst.1], by simp [← hst.2.1], ?_, by simp⟩
      simp [store, blank, ← hst.2.2.1]
      symm; simpa using hsc
    | true =>
      rw [h4, hsd] at hst
      simp only [if_true, Except.ok.injEq, Stored.mk.injEq] at hst
      refine ⟨Prod.map (scalOf (d.map Prod.fst) (d.map Prod.snd)).row (scalOf (d.map Prod.fst) (d.map Prod.snd)).tgt,
        ?_, ?_, ?_, by simp⟩
      · rw [← hst.1]; simp
      · rw [← hst.2.1]; simp
      · simp only [store, blank, if_true, Except.ok.injEq, Stored.mk.injEq]
        rw [← scalOf_perm h]
        refine ⟨by simp, by simp, hst.2.2.1, hst.2.2.2⟩
  obtain ⟨e, he, -⟩ := pair_equiv (h.map g)
  have hge := gram_equiv ks log reg e he
  rw [hg1, hge] at hpd
  have hpd' : (gram ks log reg ((d'.map g).map Prod.fst)).PosDef := by
    have := hpd.submatrix (e := e.symm) e.symm.injective
    simpa using this
  obtain ⟨l, hb⟩ := updateData_of (blank ks reg log sd) (d'.map Prod.fst) (d'.map Prod.snd) log _ hd' (by simp) hg3 hp
    hne hpd'.det_pos.ne'.isUnit hpd'
  obtain ⟨gp', hi', f1, f2, f3, f4⟩ : ∃ gp', init (d'.map Prod.fst) (d'.map Prod.snd) ks reg log sd = .ok gp' ∧
      gp'.fp = (d'.map g).map Prod.fst ∧ gp'.target = (d'.map g).map Prod.snd ∧ gp'.nan = gp.nan ∧
      gp'.scaling = gp.scaling := by
    refine ⟨_, Eq.trans ?_ hb, rfl, rfl, rfl, rfl⟩
    unfold init
    simp [bind, Except.bind, pure, Except.pure]
  refine ⟨gp', hi', ?_⟩
  obtain ⟨hc', hh', h1', h2', h3', h4'⟩ := C43_init_partial _ _ _ hp _ _ _ _ hi'
  have hs := same_predictions gp gp' hc hc' (by rw [h1, h1']) (by rw [h3, h3']) (by rw [h2, h2']) f4 f3 (by rw [h4, h4'])
    (d.map g) (d'.map g) (h.map g) hg1 hg2 f1 f2
  have hm : gp'.mean = gp.mean := funext fun x => (hs x).1.symm
  have hv : gp'.var = gp.var := funext fun x => (hs x).2.symm
  have hrow : gp'.scaleRow = gp.scaleRow := by
    funext x; unfold GP.scaleRow; rw [h4, h4', f4]
  have hts : gp'.tstd = gp.tstd := by unfold GP.tstd; rw [h4, h4', f4]
  have hunc : gp'.unc = gp.unc := by
    funext r x; unfold GP.unc; rw [hv, hts]
  have c1 : gp.cinv.1 = gp.fp.length := by rw [hc.2.1]
  have c2 : gp.cinv.1 = gp.target.length := by rw [hc.2.1, hc.2.2.1]
  have c1' : gp'.cinv.1 = gp'.fp.length := by rw [hc'.2.1]
  have c2' : gp'.cinv.1 = gp'.target.length := by rw [hc'.2.1, hc'.2.2.1]
  constructor
  · intro test u
    unfold predict
    simp only [← c1, ← c2, ← c1', ← c2', hm, hrow, hunc, h2, h2', bind, Except.bind, pure, Except.pure, ne_eq,
      not_true_eq_false, if_false]
  · intro test
    unfold predictUncertainty
    simp only [← c1, ← c1', hunc, h2, h2', bind, Except.bind, pure, Except.pure, ne_eq,
      not_true_eq_false, if_false]

example : ([(![(-1:ℝ)], (0:ℝ)), (![1], 2), (![1], 3)] : List ((Fin 1 → ℝ) × ℝ)).Perm
    [(![1], 3), (![(-1:ℝ)], (0:ℝ)), (![1], 2)] ∧ ∃ gp : GP 1, init
      (([(![(-1:ℝ)], (0:ℝ)), (![1], 2), (![1], 3)] : List ((Fin 1 → ℝ) × ℝ)).map Prod.fst)
      (([(![(-1:ℝ)], (0:ℝ)), (![1], 2), (![1], 3)] : List ((Fin 1 → ℝ) × ℝ)).map Prod.snd) linK (some 1) false true =
        .ok gp := by
  refine ⟨?_, C113_can_build _ _ linK 1 false true (by simp) rfl (by simp [linK])
    linK_packs linK_good (Or.inr one_ne_zero)⟩
  exact (List.Perm.cons _ (List.Perm.swap _ _ [])).trans (List.Perm.swap _ _ _)

/-! ### Optimality (C117) -/

open MeasureTheory in
/-- The mean squared error of a linear predictor. -/
theorem mse_linear {Ω : Type} [MeasurableSpace Ω] (μ : Measure Ω) {n : Type} [Fintype n] (f : Ω → ℝ) (Y : n → Ω → ℝ)
    (hf : MemLp f 2 μ) (hY : ∀ i, MemLp (Y i) 2 μ) (w : n → ℝ) :
    ∫ ω, (f ω - ∑ i, w i * Y i ω) ^ 2 ∂μ =
      ∫ ω, f ω * f ω ∂μ - 2 * ∑ i, w i * ∫ ω, f ω * Y i ω ∂μ +
        ∑ i, w i * ∑ j, (∫ ω, Y i ω * Y j ω ∂μ) * w j := by
  have i1 : Integrable (fun ω => f ω * f ω) μ := hf.integrable_mul hf
  have i2 : ∀ i, Integrable (fun ω => f ω * Y i ω) μ := fun i => hf.integrable_mul (hY i)
  have i3 : ∀ i j, Integrable (fun ω => Y i ω * Y j ω) μ := fun i j => (hY i).integrable_mul (hY j)
  have hexp : ∀ ω, (f ω - ∑ i, w i * Y i ω) ^ 2 =
      f ω * f ω - ∑ i, 2 * w i * (f ω * Y i ω) + ∑ i, ∑ j, w i * w j * (Y i ω * Y j ω) := by
    intro ω
    have e1 : ∑ i, 2 * w i * (f ω * Y i ω) = 2 * f ω * ∑ i, w i * Y i ω := by
      rw [Finset.mul_sum]; exact Finset.sum_congr rfl fun i _ => by ring
    have e2 : ∑ i, ∑ j, w i * w j * (Y i ω * Y j ω) = (∑ i, w i * Y i ω) * ∑ i, w i * Y i ω := by
      rw [Finset.sum_mul_sum]; exact Finset.sum_congr rfl fun i _ => Finset.sum_congr rfl fun j _ => by ring
    rw [e1, e2]; ring
  simp only [hexp]
  have j2 : Integrable (fun ω => ∑ i, 2 * w i * (f ω * Y i ω)) μ :=
    integrable_finset_sum _ fun i _ => (i2 i).const_mul _
  have j3 : Integrable (fun ω => ∑ i, ∑ j, w i * w j * (Y i ω * Y j ω)) μ :=
    integrable_finset_sum _ fun i _ => integrable_finset_sum _ fun j _ => (i3 i j).const_mul _
  have j1 : Integrable (fun ω => f ω * f ω - ∑ i, 2 * w i * (f ω * Y i ω)) μ := i1.sub j2
  rw [integral_add j1 j3, integral_sub i1 j2,
    integral_finset_sum _ fun i _ => (i2 i).const_mul _,
    integral_finset_sum _ fun i _ => integrable_finset_sum _ fun j _ => (i3 i j).const_mul _]
  congr 1
  · congr 1
    rw [Finset.mul_sum]
    refine Finset.sum_congr rfl fun i _ => ?_
    rw [integral_const_mul]; ring
  · refine Finset.sum_congr rfl fun i _ => ?_
    rw [integral_finset_sum _ fun j _ => (i3 i j).const_mul _, Finset.mul_sum]
    refine Finset.sum_congr rfl fun j _ => ?_
    rw [integral_const_mul]; ring

open MeasureTheory in
/-- C117: when function value and observed targets are random with the covariances the kernels describe, the prediction
is the best linear predictor: its mean squared error is the predicted variance, and no other weighted sum of the targets
has a smaller one. -/
theorem C117_best_linear {N : Nat} (gp : GP N) (hc : Consistent gp) (hk : ∀ k ∈ gp.kernels, GoodKernel gp.log k)
    (hs : gp.scaleData = false) (hn : gp.nan = false) (x : Fin N → ℝ) {Ω : Type} [MeasurableSpace Ω] (μ : Measure Ω)
    (f : Ω → ℝ) (Y : Fin gp.fp.length → Ω → ℝ) (hf : MemLp f 2 μ) (hY : ∀ i, MemLp (Y i) 2 μ)
    (h1 : ∫ ω, f ω * f ω ∂μ = covEntry gp.kernels gp.log x x true)
    (h2 : ∀ i, ∫ ω, f ω * Y i ω ∂μ = covEntry gp.kernels gp.log x (gp.fp.get i) false)
    (h3 : ∀ i j, ∫ ω, Y i ω * Y j ω ∂μ = covSelf gp.kernels gp.log gp.reg gp.fp.get i j) :
    ∃ m : Ω → ℝ, (∀ ω, ({ gp with target := List.ofFn fun i => Y i ω } : GP N).mean x = some (m ω)) ∧
      gp.var x = ∫ ω, (f ω - m ω) ^ 2 ∂μ ∧
      ∀ w : Fin gp.fp.length → ℝ, ∫ ω, (f ω - m ω) ^ 2 ∂μ ≤ ∫ ω, (f ω - ∑ i, w i * Y i ω) ^ 2 ∂μ := by
  have hsym : (gram gp.kernels gp.log gp.reg gp.fp).IsSymm := C41_symmetric _ _ _ _
  have hform : ∀ w : Fin gp.fp.length → ℝ, ∫ ω, (f ω - ∑ i, w i * Y i ω) ^ 2 ∂μ =
      covEntry gp.kernels gp.log x x true - 2 * (w ⬝ᵥ kvec gp.kernels gp.log x gp.fp.get) +
        w ⬝ᵥ gram gp.kernels gp.log gp.reg gp.fp *ᵥ w := by
    intro w
    rw [mse_linear μ f Y hf hY w]
    simp only [h1, h2, h3]
    rfl
  refine ⟨fun ω => ∑ i, ((gram gp.kernels gp.log gp.reg gp.fp)⁻¹ *ᵥ kvec gp.kernels gp.log x gp.fp.get) i * Y i ω,
    ?_, ?_, ?_⟩
  · intro ω
    have hc' : Consistent ({ gp with target := List.ofFn fun i => Y i ω } : GP N) :=
      ⟨hc.1, hc.2.1, by simp, hc.2.2.2⟩
    have := hc'.mean_eq x
    unfold GP.mean
    rw [this]
    simp only [hn, Bool.false_eq_true, if_false, GP.rescale, hs, Option.some.injEq, postMean]
    rw [dotProduct_mulVec]
    have ht : kvec gp.kernels gp.log x gp.fp.get ᵥ* (gram gp.kernels gp.log gp.reg gp.fp)⁻¹ =
        (gram gp.kernels gp.log gp.reg gp.fp)⁻¹ *ᵥ kvec gp.kernels gp.log x gp.fp.get := by
      rw [← vecMul_transpose, transpose_nonsing_inv, hsym]
    rw [ht]
    simp [dotProduct]
  · rw [hform, hc.var_eq, postVar_eq_form hsym hc.1]
  · intro w
    rw [hform, hform, ← postVar_eq_form hsym hc.1]
    exact postVar_le_form (C41_posSemidef gp.kernels gp.log hk gp.reg gp.fp.get) hc.1 _ _ w

open MeasureTheory in
example : ∃ gp : GP 1, Consistent gp ∧ gp.scaleData = false ∧ gp.nan = false ∧ gp.fp.length = 1 ∧
    ∃ (f : Bool → ℝ) (Y : Fin gp.fp.length → Bool → ℝ), MemLp f 2 Measure.count ∧ (∀ i, MemLp (Y i) 2 Measure.count) ∧
      ∫ ω, f ω * f ω ∂Measure.count = covEntry gp.kernels gp.log ![3] ![3] true ∧
      (∀ i, ∫ ω, f ω * Y i ω ∂Measure.count = covEntry gp.kernels gp.log ![3] (gp.fp.get i) false) ∧
      ∀ i j, ∫ ω, Y i ω * Y j ω ∂Measure.count = covSelf gp.kernels gp.log gp.reg gp.fp.get i j := by
  obtain ⟨gp, h⟩ := C113_can_build [![(1:ℝ)]] [5] linK 1 false false (by simp) rfl (by simp [linK])
    linK_packs linK_good (Or.inr one_ne_zero)
  obtain ⟨hc, hh, h1, h2, h3, h4⟩ := C43_init_partial _ _ _ linK_packs _ _ _ gp h
  have hst := hh.1
  simp only [store, h4, Bool.false_eq_true, if_false, Except.ok.injEq, Stored.mk.injEq] at hst
  refine ⟨gp, hc, h4, by simpa using hst.2.2.1.symm, by simp [← hst.1], fun b => if b then 3 else 0, fun _ _ => 1,
    MemLp.of_discrete, fun _ => MemLp.of_discrete, ?_, ?_, ?_⟩
  · simp [h1, h3, linK_entry, integral_count]
  · rw [h1, h3, ← hst.1]
    intro i
    fin_cases i
    simp [linK_entry, integral_count]
  · rw [h1, h2, h3, ← hst.1]
    intro i j
    rw [covSelf_apply]
    fin_cases i
    fin_cases j
    simp [linK_entry, integral_count, regSq, unlog, -integral_const]
    norm_num

end CatLearn.Proc
