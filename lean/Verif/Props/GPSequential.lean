import Verif.Props.GPRepeat
import Verif.Props.GPUncertainty
import Verif.Props.GPLikelihood
import Mathlib.LinearAlgebra.Matrix.SchurComplement

/-!
# What one more measurement changes: predictions and uncertainties (C279) and the likelihood (C280)
-/

namespace CatLearn.Proc

open CatLearn CatLearn.Kernel CatLearn.Scaling CatLearn.PSD Matrix

section
variable {l n : Type} [Fintype l] [DecidableEq l] [Fintype n] [DecidableEq n]

private theorem bordered_mulVec (K : Matrix n n ℝ) (K' : Matrix l l ℝ) (e : Option n ≃ l) (kx : n → ℝ) (κ : ℝ)
    (h1 : ∀ i j, K' (e (some i)) (e (some j)) = K i j) (h2 : ∀ j, K' (e none) (e (some j)) = kx j)
    (h3 : ∀ i, K' (e (some i)) (e none) = kx i) (h4 : K' (e none) (e none) = κ) (a : n → ℝ) (b : ℝ) :
    K' *ᵥ (fun p => (e.symm p).elim b a) = fun p => (e.symm p).elim (κ * b + kx ⬝ᵥ a) fun i => kx i * b + (K *ᵥ a) i := by
  funext p
  obtain ⟨o, rfl⟩ := e.surjective p
  rw [mulVec, dotProduct, ← Equiv.sum_comp e, Fintype.sum_option]
  simp only [Equiv.symm_apply_apply, Option.elim]
  cases o with
  | none => simp only [h2, h4]; rfl
  | some i => simp only [h1, h3]; rfl

private theorem bordered_dot (e : Option n ≃ l) (k : l → ℝ) (a : n → ℝ) (b : ℝ) :
    (k ⬝ᵥ fun p => (e.symm p).elim b a) = k (e none) * b + (fun i => k (e (some i))) ⬝ᵥ a := by
  rw [dotProduct, ← Equiv.sum_comp e, Fintype.sum_option]
  simp only [Equiv.symm_apply_apply, Option.elim]
  rfl

/-- A bordered covariance: the Schur complement is positive, and the inverse is the inverse of the block plus a product. -/
private theorem bordered (K : Matrix n n ℝ) (K' : Matrix l l ℝ) (e : Option n ≃ l) (kx : n → ℝ) (κ : ℝ)
    (h1 : ∀ i j, K' (e (some i)) (e (some j)) = K i j) (h2 : ∀ j, K' (e none) (e (some j)) = kx j)
    (h3 : ∀ i, K' (e (some i)) (e none) = kx i) (h4 : K' (e none) (e none) = κ) (hK : K.PosDef) (hK' : K'.PosDef) :
    0 < κ - kx ⬝ᵥ K⁻¹ *ᵥ kx ∧ ∀ k y : l → ℝ, k ⬝ᵥ K'⁻¹ *ᵥ y =
      (fun i => k (e (some i))) ⬝ᵥ K⁻¹ *ᵥ (fun i => y (e (some i))) +
        (k (e none) - (fun i => k (e (some i))) ⬝ᵥ K⁻¹ *ᵥ kx) * (y (e none) - kx ⬝ᵥ K⁻¹ *ᵥ fun i => y (e (some i))) /
          (κ - kx ⬝ᵥ K⁻¹ *ᵥ kx) := by
  have hu := hK.det_pos.ne'.isUnit
  have hu' := hK'.det_pos.ne'.isUnit
  have hpos : 0 < κ - kx ⬝ᵥ K⁻¹ *ᵥ kx := by
    have hne : (fun p => (e.symm p).elim (1 : ℝ) (-(K⁻¹ *ᵥ kx))) ≠ 0 := by
      intro h
      have := congrFun h (e none)
      simp at this
    have h := hK'.dotProduct_mulVec_pos hne
    rw [bordered_mulVec K K' e kx κ h1 h2 h3 h4, star_trivial, bordered_dot] at h
    simp only [Equiv.symm_apply_apply, Option.elim, mulVec_neg, mulVec_mulVec, mul_nonsing_inv _ hu, one_mulVec, mul_one,
      Pi.neg_apply, add_neg_cancel, dotProduct_neg, one_mul] at h
    have hz : (fun i => -(K⁻¹ *ᵥ kx) i) ⬝ᵥ (fun _ : n => (0 : ℝ)) = 0 := dotProduct_zero _
    rw [hz] at h
    linarith
  refine ⟨hpos, fun k y => ?_⟩
  set D := κ - kx ⬝ᵥ K⁻¹ *ᵥ kx with hD
  set y0 : n → ℝ := fun i => y (e (some i)) with hy0
  set δ := (y (e none) - kx ⬝ᵥ K⁻¹ *ᵥ y0) / D with hδ
  have hsol : K'⁻¹ *ᵥ y = fun p => (e.symm p).elim δ (K⁻¹ *ᵥ y0 - δ • (K⁻¹ *ᵥ kx)) := by
    have : y = K' *ᵥ fun p => (e.symm p).elim δ (K⁻¹ *ᵥ y0 - δ • (K⁻¹ *ᵥ kx)) := by
      rw [bordered_mulVec K K' e kx κ h1 h2 h3 h4]
      funext p
      obtain ⟨o, rfl⟩ := e.surjective p
      cases o with
      | none =>
        simp only [Equiv.symm_apply_apply, Option.elim, dotProduct_sub, dotProduct_smul, smul_eq_mul]
        have : δ * D = y (e none) - kx ⬝ᵥ K⁻¹ *ᵥ y0 := div_mul_cancel₀ _ hpos.ne'
        rw [hD] at this
        linarith
      | some i =>
        simp only [Equiv.symm_apply_apply, Option.elim, mulVec_sub, mulVec_smul, mulVec_mulVec, mul_nonsing_inv _ hu, one_mulVec,
          Pi.sub_apply, Pi.smul_apply, smul_eq_mul]
        rw [hy0]
        ring
    conv_lhs => rw [this]
    rw [mulVec_mulVec, nonsing_inv_mul _ hu', one_mulVec]
  rw [hsol, bordered_dot, dotProduct_sub, dotProduct_smul, smul_eq_mul, hδ]
  ring

private theorem bordered_det (K : Matrix n n ℝ) (K' : Matrix l l ℝ) (e : Option n ≃ l) (kx : n → ℝ) (κ : ℝ)
    (h1 : ∀ i j, K' (e (some i)) (e (some j)) = K i j) (h2 : ∀ j, K' (e none) (e (some j)) = kx j)
    (h3 : ∀ i, K' (e (some i)) (e none) = kx i) (h4 : K' (e none) (e none) = κ) (hK : IsUnit K.det) :
    K'.det = K.det * (κ - kx ⬝ᵥ K⁻¹ *ᵥ kx) := by
  letI := Matrix.invertibleOfIsUnitDet K hK
  have hb : K'.submatrix ((Equiv.optionEquivSumPUnit n).symm.trans e) ((Equiv.optionEquivSumPUnit n).symm.trans e) =
      Matrix.fromBlocks K (Matrix.of fun i (_ : PUnit.{1}) => kx i) (Matrix.of fun (_ : PUnit.{1}) i => kx i) (Matrix.of fun _ _ => κ) := by
    ext i j
    rcases i with i | i <;> rcases j with j | j <;> simp [h1, h2, h3, h4]
  rw [← Matrix.det_submatrix_equiv_self ((Equiv.optionEquivSumPUnit n).symm.trans e), hb, Matrix.det_fromBlocks₁₁, Matrix.det_unique (n := PUnit.{1}),
    Matrix.invOf_eq_nonsing_inv]
  congr 1
  simp only [Matrix.sub_apply, Matrix.of_apply]
  congr 1
  rw [Matrix.mul_assoc, Matrix.mul_apply]
  rfl

end

/-! ### Lists with one more element -/

/-- The positions in a list with one more element. -/
private def posEquiv {α : Type} (L : List α) (a : α) : Option (Fin L.length) ≃ Fin (L ++ [a]).length :=
  finSuccEquivLast.symm.trans (finCongr (by simp))

private theorem get_posEquiv_some {α β : Type} (L : List α) (a : α) (M : List β) (b : β) (h : M.length = L.length)
    (i : Fin L.length) (h' : (L ++ [a]).length = (M ++ [b]).length) :
    (M ++ [b]).get ((posEquiv L a (some i)).cast h') = M.get (i.cast h.symm) := by
  simp [posEquiv, List.getElem_append, h]

private theorem get_posEquiv_none {α β : Type} (L : List α) (a : α) (M : List β) (b : β) (h : M.length = L.length)
    (h' : (L ++ [a]).length = (M ++ [b]).length) :
    (M ++ [b]).get ((posEquiv L a none).cast h') = b := by
  simp [posEquiv, List.getElem_append, h]

/-- The data of a new model that does not scale. -/
theorem init_plain {N : ℕ} {fp : List (Fin N → ℝ)} {t : List ℝ} {ks : List (KDict N)} (hp : PacksList ks) {reg : Option ℝ}
    {log : Bool} {gp : GP N} (h : init fp t ks reg log false = .ok gp) :
    ∃ hl : t.length = fp.length, Consistent gp ∧ gp.kernels = ks ∧ gp.reg = reg ∧ gp.log = log ∧
      (∀ x, gp.scaleRow x = x) ∧ gp.tstd = 1 ∧ (gram ks log reg fp).PosDef ∧
      (∀ z, gp.mean z = some (postMean (gram ks log reg fp) (kvec ks log z fp.get) fun i => t.get (i.cast hl.symm))) ∧
      ∀ z, gp.var z = postVar (covEntry ks log z z true) (gram ks log reg fp) (kvec ks log z fp.get) := by
  obtain ⟨hc, hh, h1, h2, h3, h4⟩ := C43_init_partial _ _ _ hp _ _ _ gp h
  obtain ⟨-, hpd⟩ := init_posDef hp h
  have hst := hh.1
  unfold store at hst
  rw [h4] at hst
  simp only [Bool.false_eq_true, if_false, Except.ok.injEq, Stored.mk.injEq, Option.getD_some, Option.isSome_some,
    if_true] at hst
  obtain ⟨d1, d2, d3, -⟩ := hst
  subst d1 d2 h1 h2 h3
  refine ⟨hc.2.2.1, hc, rfl, rfl, rfl, fun x => ?_, ?_, hpd, fun z => ?_, fun z => hc.var_eq z⟩
  · unfold GP.scaleRow; rw [h4]
  · unfold GP.tstd; rw [h4]
  · unfold GP.mean
    have hre : ∀ p, gp.rescale p = p := by intro p; unfold GP.rescale; rw [h4]
    rw [← d3, if_neg (by simp), hre, hc.mean_eq]

/-- The covariance of two points given the training data. -/
noncomputable def postCov {N : ℕ} (ks : List (KDict N)) (log : Bool) (reg : Option ℝ) (fp : List (Fin N → ℝ)) (z x : Fin N → ℝ) : ℝ :=
  covEntry ks log z x false - kvec ks log z fp.get ⬝ᵥ (gram ks log reg fp)⁻¹ *ᵥ kvec ks log x fp.get

private theorem update_core {N : ℕ} (fp : List (Fin N → ℝ)) (t : List ℝ) (ks : List (KDict N)) (hn : ∀ k ∈ ks, ∀ h, k.ktype ≠ .noiseMulti h)
    (log : Bool) (reg : Option ℝ) (x : Fin N → ℝ) (y : ℝ) (hl : t.length = fp.length) (hl' : (t ++ [y]).length = (fp ++ [x]).length)
    (hpd : (gram ks log reg fp).PosDef) (hpd' : (gram ks log reg (fp ++ [x])).PosDef) :
    0 < postCov ks log reg fp x x + regSq log reg ∧ ∀ z,
      postMean (gram ks log reg (fp ++ [x])) (kvec ks log z (fp ++ [x]).get) (fun i => (t ++ [y]).get (i.cast hl'.symm)) =
        postMean (gram ks log reg fp) (kvec ks log z fp.get) (fun i => t.get (i.cast hl.symm)) +
          postCov ks log reg fp z x / (postCov ks log reg fp x x + regSq log reg) *
            (y - postMean (gram ks log reg fp) (kvec ks log x fp.get) (fun i => t.get (i.cast hl.symm))) ∧
      postVar (covEntry ks log z z true) (gram ks log reg (fp ++ [x])) (kvec ks log z (fp ++ [x]).get) =
        postVar (covEntry ks log z z true) (gram ks log reg fp) (kvec ks log z fp.get) -
          postCov ks log reg fp z x ^ 2 / (postCov ks log reg fp x x + regSq log reg) := by
  have gs : ∀ i, (fp ++ [x]).get (posEquiv fp x (some i)) = fp.get i := fun i => get_posEquiv_some fp x fp x rfl i rfl
  have gn : (fp ++ [x]).get (posEquiv fp x none) = x := get_posEquiv_none fp x fp x rfl rfl
  have ts : ∀ i, (t ++ [y]).get ((posEquiv fp x (some i)).cast hl'.symm) = t.get (i.cast hl.symm) :=
    fun i => get_posEquiv_some fp x t y hl i hl'.symm
  have tn : (t ++ [y]).get ((posEquiv fp x none).cast hl'.symm) = y := get_posEquiv_none fp x t y hl hl'.symm
  have hG : ∀ (L : List (Fin N → ℝ)) i j, gram ks log reg L i j = covEntry ks log (L.get i) (L.get j) false + if i = j then regSq log reg else 0 := by
    intro L i j
    rw [gram, covSelf_apply, covEntry_self ks log hn]
  obtain ⟨hpos, hb⟩ := bordered (gram ks log reg fp) (gram ks log reg (fp ++ [x])) (posEquiv fp x) (kvec ks log x fp.get)
    (covEntry ks log x x false + regSq log reg) (by intro i j; rw [hG, hG, gs, gs]; simp)
    (by intro j; rw [hG, gn, gs]; simp [kvec]) (by intro j; rw [hG, gn, gs, covEntry_symm]; simp [kvec])
    (by rw [hG, gn]; simp) hpd hpd'
  have hD : covEntry ks log x x false + regSq log reg - kvec ks log x fp.get ⬝ᵥ (gram ks log reg fp)⁻¹ *ᵥ kvec ks log x fp.get =
      postCov ks log reg fp x x + regSq log reg := by unfold postCov; ring
  rw [hD] at hpos
  refine ⟨hpos, fun z => ?_⟩
  have kz : (fun i => kvec ks log z (fp ++ [x]).get (posEquiv fp x (some i))) = kvec ks log z fp.get := by
    funext i; simp only [kvec, gs]
  have kn : kvec ks log z (fp ++ [x]).get (posEquiv fp x none) = covEntry ks log z x false := by simp only [kvec, gn]
  have hb' := fun Y => hb (kvec ks log z (fp ++ [x]).get) Y
  simp only [kz, kn, hD] at hb'
  constructor
  · unfold postMean
    rw [hb', tn]
    simp only [ts]
    unfold postCov
    ring
  · have hsym : (gram ks log reg fp)⁻¹ᵀ = (gram ks log reg fp)⁻¹ := by
      have := hpd.1
      rw [Matrix.IsHermitian, conjTranspose_eq_transpose_of_trivial] at this
      rw [transpose_nonsing_inv, this]
    have hcom : kvec ks log x fp.get ⬝ᵥ (gram ks log reg fp)⁻¹ *ᵥ kvec ks log z fp.get =
        kvec ks log z fp.get ⬝ᵥ (gram ks log reg fp)⁻¹ *ᵥ kvec ks log x fp.get := by
      rw [dotProduct_comm, dotProduct_mulVec, ← mulVec_transpose, hsym, dotProduct_comm, dotProduct_comm]
    unfold postVar
    rw [← dotProduct_mulVec, ← dotProduct_mulVec, hb', kz, kn, hcom]
    unfold postCov
    ring

theorem update_models {N : ℕ} {fp : List (Fin N → ℝ)} {t : List ℝ} {ks : List (KDict N)} (hp : PacksList ks)
    {log : Bool} (hn : ∀ k ∈ ks, ∀ h, k.ktype ≠ .noiseMulti h) {r : ℝ} {x : Fin N → ℝ} {y : ℝ}
    {gp gp' : GP N} (h : init fp t ks (some r) log false = .ok gp)
    (h' : init (fp ++ [x]) (t ++ [y]) ks (some r) log false = .ok gp') :
    ∃ μ μ' : (Fin N → ℝ) → ℝ, (∀ z, gp.mean z = some (μ z)) ∧ (∀ z, gp'.mean z = some (μ' z)) ∧
      gp.var x = postCov ks log (some r) fp x x ∧ 0 < gp.var x + unlog log r ^ 2 ∧
      ∀ z, μ' z = μ z + postCov ks log (some r) fp z x / (gp.var x + unlog log r ^ 2) * (y - μ x) ∧
        gp'.var z = gp.var z - postCov ks log (some r) fp z x ^ 2 / (gp.var x + unlog log r ^ 2) := by
  obtain ⟨hl, hc, k1, k2, k3, sr, ts, hpd, hm, hv⟩ := init_plain hp h
  obtain ⟨hl', hc', k1', k2', k3', sr', ts', hpd', hm', hv'⟩ := init_plain hp h'
  obtain ⟨hpos, hu⟩ := update_core fp t ks hn log (some r) x y hl hl' hpd hpd'
  have hvx : gp.var x = postCov ks log (some r) fp x x := by
    rw [hv, covEntry_self ks log hn]
    unfold postVar postCov
    rw [← dotProduct_mulVec]
  have hs : regSq log (some r) = unlog log r ^ 2 := rfl
  rw [← hvx, hs] at hpos
  refine ⟨_, _, hm, hm', hvx, hpos, fun z => ⟨?_, ?_⟩⟩
  · rw [(hu z).1, ← hvx, hs]
  · rw [hv', hv z, (hu z).2, ← hvx, hs]

theorem unc_plain {N : ℕ} {gp : GP N} (hc : Consistent gp) (hk : ∀ k ∈ gp.kernels, GoodKernel gp.log k) (ht : gp.tstd = 1) (r : ℝ)
    (z : Fin N → ℝ) : gp.unc r z = (some (Real.sqrt (gp.var z)), some (Real.sqrt (gp.var z) + r)) := by
  simp [GP.unc, npSqrt, not_lt.2 (C42_variance gp hc hk z).1, ht]

/-- C279: one more measurement `y` at the point `x`.  With prediction `m` and uncertainty `u` of the first model at `x`, and
`s` the square of the regularisation: the new prediction at `x` is the mean of `m` and `y`, weighted with the inverse of their
variances `u²` and `s`, and the new variance at `x` is the inverse of the sum of these weights; at any other point `z` the
square of the change of the prediction is the reduction of the variance times `(y - m)² / (u² + s)`. -/
theorem C279_update {N : ℕ} (fp : List (Fin N → ℝ)) (t : List ℝ) (ks : List (KDict N)) (hp : PacksList ks)
    (log : Bool) (hk : ∀ k ∈ ks, GoodKernel log k) (hn : ∀ k ∈ ks, ∀ h, k.ktype ≠ .noiseMulti h) (r : ℝ) (x z : Fin N → ℝ) (y : ℝ)
    (gp gp' : GP N) (h : init fp t ks (some r) log false = .ok gp)
    (h' : init (fp ++ [x]) (t ++ [y]) ks (some r) log false = .ok gp') :
    ∃ m u mz uz m' u' mz' uz' : ℝ,
      predict gp [x, z] true = .ok ⟨[some m, some mz], some [(some u, some (u + r)), (some uz, some (uz + r))]⟩ ∧
      predict gp' [x, z] true = .ok ⟨[some m', some mz'], some [(some u', some (u' + r)), (some uz', some (uz' + r))]⟩ ∧
      0 < u ^ 2 + unlog log r ^ 2 ∧
      m' = (unlog log r ^ 2 * m + u ^ 2 * y) / (u ^ 2 + unlog log r ^ 2) ∧
      u' ^ 2 = u ^ 2 * unlog log r ^ 2 / (u ^ 2 + unlog log r ^ 2) ∧
      (mz' - mz) ^ 2 = (uz ^ 2 - uz' ^ 2) * (y - m) ^ 2 / (u ^ 2 + unlog log r ^ 2) := by
  obtain ⟨-, hc, k1, k2, k3, sr, ts, -⟩ := init_plain hp h
  obtain ⟨-, hc', k1', k2', k3', sr', ts', -⟩ := init_plain hp h'
  obtain ⟨μ, μ', hm, hm', hvx, hpos, hu⟩ := update_models hp hn h h'
  have g : ∀ k ∈ gp.kernels, GoodKernel gp.log k := by rw [k1, k3]; exact hk
  have g' : ∀ k ∈ gp'.kernels, GoodKernel gp'.log k := by rw [k1', k3']; exact hk
  refine ⟨μ x, Real.sqrt (gp.var x), μ z, Real.sqrt (gp.var z), μ' x, Real.sqrt (gp'.var x), μ' z, Real.sqrt (gp'.var z), ?_, ?_, ?_⟩
  · rw [hc.predict_unc _ (by simp) r k2]
    simp only [List.map_cons, List.map_nil, sr, unc_plain hc g ts, hm]
  · rw [hc'.predict_unc _ (by simp) r k2']
    simp only [List.map_cons, List.map_nil, sr', unc_plain hc' g' ts', hm']
  rw [Real.sq_sqrt (C42_variance gp hc g x).1, Real.sq_sqrt (C42_variance gp hc g z).1, Real.sq_sqrt (C42_variance gp' hc' g' x).1,
    Real.sq_sqrt (C42_variance gp' hc' g' z).1, (hu x).1, (hu z).1, (hu x).2, (hu z).2, ← hvx]
  refine ⟨hpos, ?_, ?_, ?_⟩
  · field_simp
    ring
  · field_simp
    ring
  · field_simp
    ring

/-- C279: a measurement that agrees with the prediction changes no prediction. -/
theorem C279_agrees {N : ℕ} (fp : List (Fin N → ℝ)) (t : List ℝ) (ks : List (KDict N)) (hp : PacksList ks)
    (log : Bool) (hn : ∀ k ∈ ks, ∀ h, k.ktype ≠ .noiseMulti h) (r : ℝ) (x : Fin N → ℝ) (y : ℝ)
    (gp gp' : GP N) (h : init fp t ks (some r) log false = .ok gp)
    (h' : init (fp ++ [x]) (t ++ [y]) ks (some r) log false = .ok gp') (hy : predict gp [x] false = .ok ⟨[some y], none⟩)
    (test : List (Fin N → ℝ)) : predict gp' test false = predict gp test false := by
  obtain ⟨-, hc, k1, k2, k3, sr, ts, -⟩ := init_plain hp h
  obtain ⟨-, hc', k1', k2', k3', sr', ts', -⟩ := init_plain hp h'
  obtain ⟨μ, μ', hm, hm', hvx, hpos, hu⟩ := update_models hp hn h h'
  have hy' : μ x = y := by
    rw [hc.predict_eq _ (by simp)] at hy
    simpa [sr, hm] using hy
  by_cases ht : test = []
  · subst ht
    simp [predict, bind, Except.bind, throw, throwThe, MonadExceptOf.throw]
  · rw [hc.predict_eq _ ht, hc'.predict_eq _ ht]
    have : ∀ z, μ' z = μ z := by
      intro z
      rw [(hu z).1, hy', sub_self, mul_zero, add_zero]
    simp only [sr, sr', hm, hm', this]

/-- C279: predictions change in proportion to what is measured: the ratio of the change of a prediction to the difference
of measurement and prediction does not depend on the measurement (nor do uncertainties). -/
theorem C279_proportional {N : ℕ} (fp : List (Fin N → ℝ)) (t : List ℝ) (ks : List (KDict N)) (hp : PacksList ks)
    (log : Bool) (hn : ∀ k ∈ ks, ∀ h, k.ktype ≠ .noiseMulti h) (r : ℝ) (x z : Fin N → ℝ) (y y' : ℝ)
    (gp gp1 gp2 : GP N) (h : init fp t ks (some r) log false = .ok gp)
    (h1 : init (fp ++ [x]) (t ++ [y]) ks (some r) log false = .ok gp1)
    (h2 : init (fp ++ [x]) (t ++ [y']) ks (some r) log false = .ok gp2) :
    ∃ m mz m1 m2 : ℝ, predict gp [x, z] false = .ok ⟨[some m, some mz], none⟩ ∧
      predict gp1 [z] false = .ok ⟨[some m1], none⟩ ∧ predict gp2 [z] false = .ok ⟨[some m2], none⟩ ∧
      (m1 - mz) * (y' - m) = (m2 - mz) * (y - m) ∧
      (predict gp1 [z] true).map (·.uncertainty) = (predict gp2 [z] true).map (·.uncertainty) := by
  obtain ⟨-, hc, k1, k2, k3, sr, ts, -⟩ := init_plain hp h
  obtain ⟨-, hc1, -, k21, -, sr1, ts1, -⟩ := init_plain hp h1
  obtain ⟨-, hc2, -, k22, -, sr2, ts2, -⟩ := init_plain hp h2
  obtain ⟨μ, μ1, hm, hm1, hvx, hpos, hu1⟩ := update_models hp hn h h1
  obtain ⟨ν, μ2, hn', hm2, -, -, hu2⟩ := update_models hp hn h h2
  have hν : ν = μ := by
    funext w
    have := (hm w).symm.trans (hn' w)
    simpa using this.symm
  subst hν
  refine ⟨ν x, ν z, μ1 z, μ2 z, ?_, ?_, ?_, ?_, ?_⟩
  · rw [hc.predict_eq _ (by simp)]; simp [sr, hm]
  · rw [hc1.predict_eq _ (by simp)]; simp [sr1, hm1]
  · rw [hc2.predict_eq _ (by simp)]; simp [sr2, hm2]
  · rw [(hu1 z).1, (hu2 z).1]
    ring
  · rw [hc1.predict_unc _ (by simp) r k21, hc2.predict_unc _ (by simp) r k22]
    simp [Except.map, GP.unc, sr1, sr2, ts1, ts2, (hu1 z).2, (hu2 z).2]

/-- Two points, and a third measurement. -/
example : (∃ gp : GP 1, init [![0], ![2]] [0, 1] linK (some 1) false false = .ok gp) ∧
    (∃ gp : GP 1, init ([![0], ![2]] ++ [![3]]) ([0, 1] ++ [7]) linK (some 1) false false = .ok gp) ∧
    (∀ k ∈ linK, ∀ h, k.ktype ≠ .noiseMulti h) ∧ (∀ k ∈ linK, GoodKernel false k) ∧ PacksList linK :=
  ⟨C113_can_build _ _ linK 1 false false (by simp) (by simp) (by simp [linK]) linK_packs linK_good (Or.inr one_ne_zero),
    C113_can_build _ _ linK 1 false false (by simp) (by simp) (by simp [linK]) linK_packs linK_good (Or.inr one_ne_zero),
    by simp [linK], linK_good, linK_packs⟩

/-- Zero data points so far are refused, so there is always a first model; the prediction of a model of zero targets is zero,
so that a measurement of zero agrees with it. -/
example : ∃ gp : GP 1, init [![1]] [0] linK (some 1) false false = .ok gp ∧ predict gp [![2]] false = .ok ⟨[some 0], none⟩ := by
  obtain ⟨gp, h⟩ := C113_can_build [![(1:ℝ)]] [0] linK 1 false false (by simp) (by simp) (by simp [linK]) linK_packs linK_good (Or.inr one_ne_zero)
  obtain ⟨hl, hc, k1, k2, k3, sr, ts, hpd, hm, hv⟩ := init_plain linK_packs h
  refine ⟨gp, h, ?_⟩
  rw [hc.predict_eq _ (by simp)]
  have : (fun i : Fin 1 => [(0:ℝ)].get (i.cast hl.symm)) = 0 := by
    funext i; simp
  simp only [List.map_cons, List.map_nil, sr, hm, postMean]
  have e : (fun i : Fin [![(1:ℝ)]].length => [(0:ℝ)].get (i.cast hl.symm)) = 0 := this
  rw [e, mulVec_zero, dotProduct_zero]

/-! ### The likelihood -/

/-- C280: the logarithm of the likelihood of a model with one more measurement `y` at `x` is that of the model without it plus
the logarithm of the normal density of `y` around the prediction at `x`, with the predicted variance and the square of the
regularisation as variance. -/
theorem C280_chain {N : ℕ} (fp : List (Fin N → ℝ)) (t : List ℝ) (ks : List (KDict N)) (hp : PacksList ks)
    (log : Bool) (hk : ∀ k ∈ ks, GoodKernel log k) (hn : ∀ k ∈ ks, ∀ h, k.ktype ≠ .noiseMulti h) (r : ℝ) (x : Fin N → ℝ) (y : ℝ)
    (gp gp' : GP N) (h : init fp t ks (some r) log false = .ok gp)
    (h' : init (fp ++ [x]) (t ++ [y]) ks (some r) log false = .ok gp') :
    ∃ m u L : ℝ, predict gp [x] true = .ok ⟨[some m], some [(some u, some (u + r))]⟩ ∧ gp.lml = some L ∧
      gp'.lml = some (L - (y - m) ^ 2 / (2 * (u ^ 2 + unlog log r ^ 2)) - Real.log (2 * Real.pi * (u ^ 2 + unlog log r ^ 2)) / 2) := by
  obtain ⟨hl, hc, k1, k2, k3, sr, ts, hpd, hm, hv⟩ := init_plain hp h
  obtain ⟨hl', hc', k1', k2', k3', sr', ts', hpd', hm', hv'⟩ := init_plain hp h'
  have g : ∀ k ∈ gp.kernels, GoodKernel gp.log k := by rw [k1, k3]; exact hk
  have q := C114_density fp t ks hp (some r) log gp h
  have q' := C114_density _ _ ks hp (some r) log gp' h'
  have gs : ∀ i, (fp ++ [x]).get (posEquiv fp x (some i)) = fp.get i := fun i => get_posEquiv_some fp x fp x rfl i rfl
  have gn : (fp ++ [x]).get (posEquiv fp x none) = x := get_posEquiv_none fp x fp x rfl rfl
  have hG : ∀ (L : List (Fin N → ℝ)) i j, gram ks log (some r) L i j =
      covEntry ks log (L.get i) (L.get j) false + if i = j then regSq log (some r) else 0 := by
    intro L i j
    rw [gram, covSelf_apply, covEntry_self ks log hn]
  have b1 : ∀ i j, gram ks log (some r) (fp ++ [x]) (posEquiv fp x (some i)) (posEquiv fp x (some j)) = gram ks log (some r) fp i j := by
    intro i j; rw [hG, hG, gs, gs]; simp
  have b2 : ∀ j, gram ks log (some r) (fp ++ [x]) (posEquiv fp x none) (posEquiv fp x (some j)) = kvec ks log x fp.get j := by
    intro j; rw [hG, gn, gs]; simp [kvec]
  have b3 : ∀ i, gram ks log (some r) (fp ++ [x]) (posEquiv fp x (some i)) (posEquiv fp x none) = kvec ks log x fp.get i := by
    intro j; rw [hG, gn, gs, covEntry_symm]; simp [kvec]
  have b4 : gram ks log (some r) (fp ++ [x]) (posEquiv fp x none) (posEquiv fp x none) = covEntry ks log x x false + regSq log (some r) := by
    rw [hG, gn]; simp
  have hdet := bordered_det _ _ _ _ _ b1 b2 b3 b4 hpd.det_pos.ne'.isUnit
  obtain ⟨hpos, hb⟩ := bordered _ _ _ _ _ b1 b2 b3 b4 hpd hpd'
  have hD : covEntry ks log x x false + regSq log (some r) - kvec ks log x fp.get ⬝ᵥ (gram ks log (some r) fp)⁻¹ *ᵥ kvec ks log x fp.get =
      gp.var x + unlog log r ^ 2 := by
    have h1 : covEntry ks log x x true = covEntry ks log x x false := by rw [covEntry_self ks log hn]
    have hs : regSq log (some r) = unlog log r ^ 2 := rfl
    rw [hv, hs, h1]
    unfold postVar
    rw [← dotProduct_mulVec]
    ring
  rw [hD] at hpos hdet
  have hT : (fun i : Fin fp.length => t.getD i 0) = fun i => t.get (i.cast hl.symm) := by
    funext i; rw [List.getD_eq_getElem _ _ (lt_of_lt_of_eq i.2 hl.symm)]; rfl
  have hT' : (fun i : Fin (fp ++ [x]).length => (t ++ [y]).getD i 0) = fun i => (t ++ [y]).get (i.cast hl'.symm) := by
    funext i; rw [List.getD_eq_getElem _ _ (lt_of_lt_of_eq i.2 hl'.symm)]; rfl
  rw [hT] at q
  rw [hT'] at q'
  change gp.lml = some (Real.log (normalDensity (gram ks log (some r) fp) _)) at q
  change gp'.lml = some (Real.log (normalDensity (gram ks log (some r) (fp ++ [x])) _)) at q'
  rw [← lmlValue_eq _ _ hpd.det_pos] at q
  rw [← lmlValue_eq _ _ hpd'.det_pos] at q'
  refine ⟨postMean (gram ks log (some r) fp) (kvec ks log x fp.get) fun i => t.get (i.cast hl.symm), Real.sqrt (gp.var x), _, ?_, q, ?_⟩
  · rw [hc.predict_unc _ (by simp) r k2]
    simp only [List.map_cons, List.map_nil, sr, unc_plain hc g ts, hm]
  rw [q', Real.sq_sqrt (C42_variance gp hc g x).1]
  have hq := hb (fun i => (t ++ [y]).get (i.cast hl'.symm)) (fun i => (t ++ [y]).get (i.cast hl'.symm))
  have ys : ∀ i, (t ++ [y]).get ((posEquiv fp x (some i)).cast hl'.symm) = t.get (i.cast hl.symm) :=
    fun i => get_posEquiv_some fp x t y hl i hl'.symm
  have yn : (t ++ [y]).get ((posEquiv fp x none).cast hl'.symm) = y := get_posEquiv_none fp x t y hl hl'.symm
  simp only [ys, yn, hD] at hq
  have hsym : (gram ks log (some r) fp)⁻¹ᵀ = (gram ks log (some r) fp)⁻¹ := by
    have := hpd.1
    rw [Matrix.IsHermitian, conjTranspose_eq_transpose_of_trivial] at this
    rw [transpose_nonsing_inv, this]
  have hcom : (fun i => t.get (i.cast hl.symm)) ⬝ᵥ (gram ks log (some r) fp)⁻¹ *ᵥ kvec ks log x fp.get =
      kvec ks log x fp.get ⬝ᵥ (gram ks log (some r) fp)⁻¹ *ᵥ fun i => t.get (i.cast hl.symm) := by
    rw [dotProduct_comm, dotProduct_mulVec, ← mulVec_transpose, hsym, dotProduct_comm, dotProduct_comm]
  rw [hcom] at hq
  congr 1
  unfold lmlValue
  rw [hq, hdet, Real.log_mul hpd.det_pos.ne' hpos.ne', Real.log_mul (by positivity) hpos.ne']
  have hlen : ((fp ++ [x]).length : ℝ) = fp.length + 1 := by simp
  rw [hlen]
  unfold postMean
  field_simp
  ring

/-- C280 for any number of further measurements, one after another: the logarithm of the likelihood grows by the logarithms of the
normal densities of the measurements around what the models before them predict. -/
theorem C280_sum {N : ℕ} (fp : List (Fin N → ℝ)) (t : List ℝ) (ks : List (KDict N)) (hp : PacksList ks)
    (log : Bool) (hk : ∀ k ∈ ks, GoodKernel log k) (hn : ∀ k ∈ ks, ∀ h, k.ktype ≠ .noiseMulti h) (r : ℝ) (more : List ((Fin N → ℝ) × ℝ))
    (gps : ℕ → GP N) (h : ∀ i ≤ more.length,
      init (fp ++ (more.take i).map Prod.fst) (t ++ (more.take i).map Prod.snd) ks (some r) log false = .ok (gps i)) :
    ∃ (m u : Fin more.length → ℝ) (L : ℝ), (gps 0).lml = some L ∧
      (∀ i : Fin more.length, predict (gps i) [more[i].1] true = .ok ⟨[some (m i)], some [(some (u i), some (u i + r))]⟩) ∧
      (gps more.length).lml = some (L + ∑ i, (-(more[i].2 - m i) ^ 2 / (2 * (u i ^ 2 + unlog log r ^ 2)) -
        Real.log (2 * Real.pi * (u i ^ 2 + unlog log r ^ 2)) / 2)) := by
  induction more using List.reverseRecOn with
  | nil =>
    have q := C114_density _ _ ks hp (some r) log (gps 0) (h 0 le_rfl)
    refine ⟨fun _ => 0, fun _ => 0, _, q, fun i => i.elim0, ?_⟩
    change (gps 0).lml = _
    rw [q]
    simp
  | append_singleton more p ih =>
    obtain ⟨m, u, L, h0, h1, h2⟩ := ih (fun i hi => by
      have := h i (by simp; omega)
      rwa [List.take_append_of_le_length hi] at this)
    have hA := h more.length (by simp)
    have hB := h (more.length + 1) (by simp)
    rw [List.take_left'  rfl] at hA
    rw [List.take_of_length_le (by simp), List.map_append, List.map_append, ← List.append_assoc, ← List.append_assoc] at hB
    obtain ⟨m', u', L', c1, c2, c3⟩ := C280_chain _ _ ks hp log hk hn r p.1 p.2 _ _ hA hB
    rw [h2, Option.some.injEq] at c2
    subst c2
    have e : (more ++ [p]).length = more.length + 1 := by simp
    refine ⟨fun i => if hi : (i : ℕ) < more.length then m ⟨i, hi⟩ else m', fun i => if hi : (i : ℕ) < more.length then u ⟨i, hi⟩ else u', L, h0, ?_, ?_⟩
    · intro i
      by_cases hi : (i : ℕ) < more.length
      · have := h1 ⟨i, hi⟩
        simpa [hi, List.getElem_append_left] using this
      · have hi' : (i : ℕ) = more.length := by have := i.2; simp at this; omega
        simpa [hi', List.getElem_append_right] using c1
    · have c4 : (gps (more ++ [p]).length).lml = _ := e ▸ c3
      rw [c4, ← (finCongr e.symm).sum_comp, Fin.sum_univ_castSucc]
      simp
      ring

/-- C280: of two possible measurements at the same point, the one nearer to the prediction gives the larger likelihood. -/
theorem C280_nearer {N : ℕ} (fp : List (Fin N → ℝ)) (t : List ℝ) (ks : List (KDict N)) (hp : PacksList ks)
    (log : Bool) (hk : ∀ k ∈ ks, GoodKernel log k) (hn : ∀ k ∈ ks, ∀ h, k.ktype ≠ .noiseMulti h) (r : ℝ) (x : Fin N → ℝ) (y₁ y₂ : ℝ)
    (gp gp₁ gp₂ : GP N) (h : init fp t ks (some r) log false = .ok gp)
    (h₁ : init (fp ++ [x]) (t ++ [y₁]) ks (some r) log false = .ok gp₁)
    (h₂ : init (fp ++ [x]) (t ++ [y₂]) ks (some r) log false = .ok gp₂) :
    ∃ m L₁ L₂ : ℝ, predict gp [x] false = .ok ⟨[some m], none⟩ ∧ gp₁.lml = some L₁ ∧ gp₂.lml = some L₂ ∧
      (L₂ < L₁ ↔ |y₁ - m| < |y₂ - m|) ∧ (L₁ = L₂ ↔ |y₁ - m| = |y₂ - m|) := by
  obtain ⟨m, u, L, c1, c2, c3⟩ := C280_chain fp t ks hp log hk hn r x y₁ gp gp₁ h h₁
  obtain ⟨m', u', L', d1, d2, d3⟩ := C280_chain fp t ks hp log hk hn r x y₂ gp gp₂ h h₂
  obtain ⟨hl, hc, k1, k2, k3, sr, ts, hpd, hm, hv⟩ := init_plain hp h
  obtain ⟨μ, μ', e1, e2, e3, e4, e5⟩ := update_models hp hn h h₁
  have g : ∀ k ∈ gp.kernels, GoodKernel gp.log k := by rw [k1, k3]; exact hk
  rw [c1] at d1
  simp only [Except.ok.injEq, Pred.mk.injEq, List.cons.injEq, Option.some.injEq, and_true, Prod.mk.injEq] at d1
  obtain ⟨rfl, rfl, -⟩ := d1
  rw [c2, Option.some.injEq] at d2
  subst d2
  rw [hc.predict_unc _ (by simp) r k2] at c1
  simp only [List.map_cons, List.map_nil, sr, unc_plain hc g ts, Except.ok.injEq, Pred.mk.injEq, List.cons.injEq, Option.some.injEq, and_true,
    Prod.mk.injEq] at c1
  obtain ⟨m1, u1, -⟩ := c1
  have hD : 0 < u ^ 2 + unlog log r ^ 2 := by rwa [← u1, Real.sq_sqrt (C42_variance gp hc g x).1]
  refine ⟨m, _, _, ?_, c3, d3, ?_, ?_⟩
  · rw [hc.predict_eq _ (by simp)]
    simp only [List.map_cons, List.map_nil, sr, m1]
  · rw [← sq_lt_sq, sub_lt_sub_iff_right, sub_lt_sub_iff_left, div_lt_div_iff_of_pos_right (by positivity)]
  · rw [← sq_eq_sq_iff_abs_eq_abs, sub_left_inj, sub_right_inj, div_left_inj' (by positivity)]

example : ∀ i ≤ [((![3] : Fin 1 → ℝ), (7 : ℝ)), (![3], 8)].length, ∃ gp : GP 1,
    init ([![0], ![2]] ++ ([(![3], 7), (![3], 8)].take i).map Prod.fst) ([0, 1] ++ ([((![3] : Fin 1 → ℝ), (7 : ℝ)), (![3], 8)].take i).map Prod.snd)
      linK (some 1) false false = .ok gp :=
  fun i _ => C113_can_build _ _ linK 1 false false (by simp) (by simp) (by simp [linK]) linK_packs linK_good (Or.inr one_ne_zero)

end CatLearn.Proc
