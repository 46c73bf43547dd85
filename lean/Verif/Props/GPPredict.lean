import Verif.Props.GPBuild
import Verif.Lemmas.GP

/-!
# Predictions and uncertainties of a Gaussian process (C42, C44, C115, C116, C117, C119, C120, C121)
-/

namespace CatLearn.Proc

open CatLearn CatLearn.Kernel CatLearn.Scaling CatLearn.PSD Matrix

/-- The covariances of a point with the training points. -/
noncomputable def kvec {N : Nat} {n : Type} (ks : List (KDict N)) (log : Bool) (x : Fin N → ℝ) (X : n → Fin N → ℝ) :
    n → ℝ := fun i => covEntry ks log x (X i) false

private theorem cinv_mean {n : Nat} (A : Matrix (Fin n) (Fin n) ℝ) (ci : Σ n : Nat, Matrix (Fin n) (Fin n) ℝ)
    (h : ci = ⟨n, A⟩) (f g : Nat → ℝ) :
    (fun j : Fin ci.1 => f j) ⬝ᵥ (ci.2 *ᵥ fun j => g j) = (fun j : Fin n => f j) ⬝ᵥ (A *ᵥ fun j => g j) := by
  subst h; rfl

private theorem cinv_var {n : Nat} (A : Matrix (Fin n) (Fin n) ℝ) (ci : Σ n : Nat, Matrix (Fin n) (Fin n) ℝ)
    (h : ci = ⟨n, A⟩) (f : Nat → ℝ) :
    ((fun j : Fin ci.1 => f j) ᵥ* ci.2) ⬝ᵥ (fun j : Fin ci.1 => f j) =
      ((fun j : Fin n => f j) ᵥ* A) ⬝ᵥ (fun j : Fin n => f j) := by
  subst h; rfl

theorem Consistent.mean_eq {N : Nat} {gp : GP N} (h : Consistent gp) (x : Fin N → ℝ) :
    gp.ktb x ⬝ᵥ (gp.cinv.2 *ᵥ gp.y) =
      postMean (gram gp.kernels gp.log gp.reg gp.fp) (kvec gp.kernels gp.log x gp.fp.get)
        (fun i => gp.target.get (i.cast h.2.2.1.symm)) := by
  refine (cinv_mean _ _ h.2.1 (fun j => covEntry gp.kernels gp.log x (gp.fp.getD j 0) false)
    fun j => gp.target.getD j 0).trans ?_
  unfold postMean
  congr 1
  · funext j
    simp [kvec, List.getD_eq_getElem]
  · congr 1
    funext j
    have hj : j.1 < gp.target.length := by have := j.2; have := h.2.2.1; omega
    simp [hj]

theorem Consistent.var_eq {N : Nat} {gp : GP N} (h : Consistent gp) (x : Fin N → ℝ) :
    gp.var x = postVar (covEntry gp.kernels gp.log x x true) (gram gp.kernels gp.log gp.reg gp.fp)
      (kvec gp.kernels gp.log x gp.fp.get) := by
  have e : (fun j : Fin gp.fp.length => covEntry gp.kernels gp.log x (gp.fp.getD j 0) false) =
      kvec gp.kernels gp.log x gp.fp.get := by
    funext j
    simp [kvec, List.getD_eq_getElem]
  unfold GP.var postVar
  congr 1
  refine (cinv_var _ _ h.2.1 (fun j => covEntry gp.kernels gp.log x (gp.fp.getD j 0) false)).trans ?_
  rw [e]

theorem Consistent.predict_eq {N : Nat} {gp : GP N} (h : Consistent gp) (test : List (Fin N → ℝ)) (ht : test ≠ []) :
    predict gp test false = .ok ⟨test.map fun x => gp.mean (gp.scaleRow x), none⟩ := by
  obtain ⟨h1, h2, h3, h4⟩ := h
  have he : test.isEmpty = false := by simpa using ht
  have hc1 : gp.cinv.1 = gp.fp.length := by rw [h2]
  have hc2 : gp.cinv.1 = gp.target.length := by rw [h2, h3]
  unfold predict
  simp only [he, ← hc2, ← hc1, bind, Except.bind, pure, Except.pure]
  simp

theorem Consistent.predict_unc {N : Nat} {gp : GP N} (h : Consistent gp) (test : List (Fin N → ℝ)) (ht : test ≠ [])
    (r : ℝ) (hr : gp.reg = some r) :
    predict gp test true = .ok ⟨test.map fun x => gp.mean (gp.scaleRow x),
      some (test.map fun x => gp.unc r (gp.scaleRow x))⟩ := by
  obtain ⟨h1, h2, h3, h4⟩ := h
  have he : test.isEmpty = false := by simpa using ht
  have hc1 : gp.cinv.1 = gp.fp.length := by rw [h2]
  have hc2 : gp.cinv.1 = gp.target.length := by rw [h2, h3]
  unfold predict
  simp only [he, ← hc2, ← hc1, hr, bind, Except.bind, pure, Except.pure]
  simp

/-- With no regularisation. -/
def NoReg {N : Nat} (gp : GP N) : Prop := gp.reg = none ∨ (gp.log = false ∧ gp.reg = some 0)

theorem gram_noReg {N : Nat} {gp : GP N} (hr : NoReg gp) (hn : ∀ k ∈ gp.kernels, ∀ h, k.ktype ≠ .noiseMulti h)
    (i j : Fin gp.fp.length) :
    gram gp.kernels gp.log gp.reg gp.fp i j = covEntry gp.kernels gp.log (gp.fp.get i) (gp.fp.get j) false := by
  unfold gram covSelf
  rcases hr with hr | ⟨hl, hr⟩
  · rw [hr]
    change covEntry gp.kernels gp.log (gp.fp.get i) (gp.fp.get j) _ + 0 = _
    rw [covEntry_self _ _ hn, add_zero]
  · rw [hr]
    simp only [Matrix.add_apply, of_apply]
    rw [covEntry_self _ _ hn]
    simp [hl, unlog, Matrix.diagonal_apply]

/-- The stored data. -/
theorem Holds.rows {N : Nat} {gp : GP N} {fp : List (Fin N → ℝ)} {t : List ℝ} (h : Holds gp fp t)
    (hsc : gp.scaling.isSome = gp.scaleData) (hnan : gp.nan = false) :
    fp.map gp.scaleRow = gp.fp ∧ gp.target.map gp.rescale = t := by
  obtain ⟨h1, h2, -⟩ := h
  unfold store at h1
  cases hd : gp.scaleData with
  | false =>
    simp only [hd, Bool.false_eq_true, if_false, Except.ok.injEq, Stored.mk.injEq, Option.getD_some] at h1
    obtain ⟨e1, e2, -, -⟩ := h1
    constructor
    · rw [← e1]
      exact List.map_id'' (fun x => by unfold GP.scaleRow; rw [hd]) fp
    · rw [← e2]
      exact List.map_id'' (fun x => by unfold GP.rescale; rw [hd]) t
  | true =>
    simp only [hd, if_true, Except.ok.injEq, Stored.mk.injEq] at h1
    obtain ⟨e1, e2, e3, e4⟩ := h1
    rw [hnan] at e3
    have e3 : (scalOf fp t).tstd ≠ 0 := by simpa using e3
    constructor
    · rw [← e1]
      apply List.map_congr_left
      intro x _
      unfold GP.scaleRow
      rw [hd, ← e4]
    · rw [← e2, List.map_map]
      refine List.map_id'' (fun x => ?_) t
      unfold GP.rescale
      simp only [Function.comp_apply]
      rw [hd, ← e4]
      simp only [Scal.untgt, Scal.tgt]
      field_simp
      ring

/-- C42: without regularisation (and noise kernels) a model predicts the training targets at the training points. -/
theorem C42_interpolates {N : Nat} (gp : GP N) (fp : List (Fin N → ℝ)) (t : List ℝ) (hc : Consistent gp)
    (hh : Holds gp fp t) (hr : NoReg gp) (hn : ∀ k ∈ gp.kernels, ∀ h, k.ktype ≠ .noiseMulti h)
    (hnan : gp.nan = false) : predict gp fp false = .ok ⟨t.map some, none⟩ := by
  obtain ⟨e1, e2⟩ := hh.rows hc.2.2.2 hnan
  rw [hc.predict_eq fp hh.2.2]
  congr 2
  have : (fp.map fun x => gp.mean (gp.scaleRow x)) = gp.fp.map gp.mean := by
    rw [← e1, List.map_map]
    rfl
  rw [this, ← e2, List.map_map]
  apply List.ext_get
  · simp [hc.2.2.1]
  · intro i h1 h2
    simp only [List.length_map] at h1 h2
    have hm : ∀ x, gp.mean x = some (gp.rescale (gp.ktb x ⬝ᵥ (gp.cinv.2 *ᵥ gp.y))) := by
      intro x
      simp [GP.mean, hnan]
    simp only [List.get_eq_getElem, List.getElem_map, Function.comp_apply, hm, Option.some.injEq]
    congr 1
    rw [hc.mean_eq]
    unfold postMean
    have hk : kvec gp.kernels gp.log gp.fp[i] gp.fp.get = fun j => gram gp.kernels gp.log gp.reg gp.fp ⟨i, h1⟩ j := by
      funext j
      rw [gram_noReg hr hn]
      rfl
    rw [hk]
    change (gram gp.kernels gp.log gp.reg gp.fp *ᵥ _) ⟨i, h1⟩ = _
    rw [mulVec_mulVec, mul_nonsing_inv _ hc.1, one_mulVec]
    rfl

/-- C42: and its uncertainty there is zero. -/
theorem C42_zero_variance {N : Nat} (gp : GP N) (hc : Consistent gp) (hr : NoReg gp)
    (hn : ∀ k ∈ gp.kernels, ∀ h, k.ktype ≠ .noiseMulti h) (x : Fin N → ℝ) (hx : x ∈ gp.fp) : gp.var x = 0 := by
  obtain ⟨i, rfl⟩ := List.get_of_mem hx
  rw [hc.var_eq]
  unfold postVar
  have hk : kvec gp.kernels gp.log (gp.fp.get i) gp.fp.get = gram gp.kernels gp.log gp.reg gp.fp i := by
    funext j
    rw [gram_noReg hr hn]
    rfl
  have hk2 : gram gp.kernels gp.log gp.reg gp.fp i ᵥ* (gram gp.kernels gp.log gp.reg gp.fp)⁻¹ = Pi.single i 1 := by
    have h := mul_nonsing_inv _ hc.1
    have h2 : (gram gp.kernels gp.log gp.reg gp.fp * (gram gp.kernels gp.log gp.reg gp.fp)⁻¹) i =
        gram gp.kernels gp.log gp.reg gp.fp i ᵥ* (gram gp.kernels gp.log gp.reg gp.fp)⁻¹ := rfl
    rw [← h2, h]
    funext j
    simp [Matrix.one_apply, Pi.single_apply, eq_comm]
  rw [hk, hk2, single_one_dotProduct, gram_noReg hr hn, covEntry_self _ _ hn, sub_self]

/-- The square of the regularisation. -/
noncomputable def regSq (log : Bool) (reg : Option ℝ) : ℝ :=
  match reg with
  | none => 0
  | some r => (unlog log r) ^ 2

theorem regSq_nonneg (log : Bool) (reg : Option ℝ) : 0 ≤ regSq log reg := by
  cases reg with
  | none => exact le_rfl
  | some r => exact sq_nonneg _

theorem covSelf_apply {N : Nat} {n : Type} [DecidableEq n] (ks : List (KDict N)) (log : Bool) (reg : Option ℝ)
    (X : n → Fin N → ℝ) (i j : n) :
    covSelf ks log reg X i j =
      covEntry ks log (X i) (X j) (decide (i = j)) + if i = j then regSq log reg else 0 := by
  unfold covSelf
  cases reg with
  | none => simp [regSq]
  | some r => simp [Matrix.diagonal_apply, regSq]

/-- The joint covariance of training points and a test point. -/
theorem var_form {N : Nat} (ks : List (KDict N)) (log : Bool) (reg : Option ℝ) (fp : List (Fin N → ℝ))
    (hk : ∀ k ∈ ks, GoodKernel log k) (x : Fin N → ℝ) (w : Fin fp.length → ℝ) :
    0 ≤ covEntry ks log x x true - 2 * (w ⬝ᵥ kvec ks log x fp.get) + w ⬝ᵥ gram ks log reg fp *ᵥ w := by
  have h := C41_posSemidef ks log hk none (Sum.elim fp.get (fun _ : Unit => x))
  have h1 := h.dotProduct_mulVec_nonneg (Sum.elim w (fun _ => -1))
  have h2 : 0 ≤ ∑ i, w i * ∑ j, (if i = j then regSq log reg else 0) * w j := by
    apply Finset.sum_nonneg
    intro i _
    simp
    nlinarith [mul_nonneg (regSq_nonneg log reg) (mul_self_nonneg (w i))]
  have hd : ∀ i j, (decide ((Sum.inl i : Fin fp.length ⊕ Unit) = Sum.inl j)) = decide (i = j) := by
    intro i j; simp
  simp only [star_trivial, dotProduct, mulVec, covSelf, Fintype.sum_sum_type, Sum.elim_inl, Sum.elim_inr, of_apply,
    add_zero, Finset.univ_unique, Finset.sum_singleton, hd] at h1
  simp only [dotProduct, mulVec, gram, kvec, covSelf_apply, add_mul, mul_add, Finset.sum_add_distrib] at *
  have e1 : ∀ i, covEntry ks log x (fp.get i) false = covEntry ks log (fp.get i) x false :=
    fun i => covEntry_symm ks log _ _ _
  simp only [reduceCtorEq, decide_false, decide_true, e1, mul_neg, neg_mul, one_mul, mul_one, Finset.sum_neg_distrib,
    Finset.mul_sum] at h1 h2 ⊢
  have e2 : ∀ i, w i * covEntry ks log (fp.get i) x false = covEntry ks log (fp.get i) x false * w i :=
    fun i => mul_comm _ _
  simp only [e2] at h1 ⊢
  rw [← Finset.mul_sum]
  linarith

/-- C42: the predicted variance is never negative, nor larger than the prior variance. -/
theorem C42_variance {N : Nat} (gp : GP N) (hc : Consistent gp) (hk : ∀ k ∈ gp.kernels, GoodKernel gp.log k)
    (x : Fin N → ℝ) : 0 ≤ gp.var x ∧ gp.var x ≤ covEntry gp.kernels gp.log x x true := by
  rw [hc.var_eq]
  constructor
  · rw [postVar_eq_form (K := gram gp.kernels gp.log gp.reg gp.fp) (C41_symmetric _ _ _ _) hc.1]
    exact var_form _ _ _ _ hk x _
  · exact postVar_le (C41_posSemidef gp.kernels gp.log hk gp.reg gp.fp.get) hc.1 _ _

theorem Holds.tstd_nonneg {N : Nat} {gp : GP N} {fp : List (Fin N → ℝ)} {t : List ℝ} (h : Holds gp fp t) :
    0 ≤ gp.tstd := by
  unfold GP.tstd
  obtain ⟨h1, -⟩ := h
  unfold store at h1
  cases hd : gp.scaleData with
  | false => exact zero_le_one
  | true =>
    simp only [hd, if_true, Except.ok.injEq, Stored.mk.injEq] at h1
    rw [← h1.2.2.2]
    exact Real.sqrt_nonneg _

/-- C42: so no reported uncertainty is nan or negative. -/
theorem C42_uncertainty {N : Nat} (gp : GP N) (fp : List (Fin N → ℝ)) (t : List ℝ) (hc : Consistent gp)
    (hh : Holds gp fp t) (hk : ∀ k ∈ gp.kernels, GoodKernel gp.log k)
    (test : List (Fin N → ℝ)) (p : Pred) (h : predict gp test true = .ok p) :
    ∃ us, p.uncertainty = some us ∧ us.length = test.length ∧
      ∀ u ∈ us, ∃ v, u.1 = some v ∧ 0 ≤ v := by
  have ht : test ≠ [] := by
    rintro rfl
    simp [predict, bind, Except.bind, throw, throwThe, MonadExceptOf.throw] at h
  cases hr : gp.reg with
  | none =>
    exfalso
    unfold predict at h
    rw [hr] at h
    simp only [bind, Except.bind, pure, Except.pure, throw, throwThe, MonadExceptOf.throw] at h
    split at h
    · simp at h
    · split at h
      · simp at h
      · split at h
        · simp at h
        · simp at h
  | some r =>
    rw [hc.predict_unc test ht r hr] at h
    simp at h
    subst h
    refine ⟨_, rfl, by simp, ?_⟩
    intro u hu
    simp only [List.mem_map] at hu
    obtain ⟨x, -, rfl⟩ := hu
    have h1 := (C42_variance gp hc hk (gp.scaleRow x)).1
    refine ⟨Real.sqrt (gp.var (gp.scaleRow x)) * gp.tstd, ?_, ?_⟩
    · simp [GP.unc, npSqrt, not_lt.mpr h1]
    · exact mul_nonneg (Real.sqrt_nonneg _) hh.tstd_nonneg

/-- A linear kernel. -/
def linK : List (KDict 1) := [⟨.linear, none, none, false⟩]

theorem linK_packs : PacksList linK := by intro s d b h; simp at h

theorem linK_good : ∀ k ∈ linK, GoodKernel false k := by simp [linK, GoodKernel]

theorem linK_entry (x y : ℝ) (b : Bool) : covEntry linK false ![x] ![y] b = x * y := by
  simp [linK, covEntry, scaleFactor, entry, unlog, colSum, columns, List.finRange_succ]

/-- A model without regularisation and one with. -/
example : (∃ gp : GP 1, Consistent gp ∧ Holds gp [![(1:ℝ)]] [2] ∧ NoReg gp ∧ gp.nan = false ∧ gp.kernels = linK) ∧
    ∃ gp : GP 1, Consistent gp ∧ Holds gp [![(1:ℝ)], ![1], ![3]] [2, 5, 7] ∧ gp.kernels = linK ∧ gp.log = false := by
  constructor
  · have hg : gram linK false none [![(1:ℝ)]] = Matrix.of fun _ _ => 1 := by
      ext i j
      fin_cases i
      fin_cases j
      unfold gram
      rw [covSelf_apply]
      simp [linK_entry, regSq]
    have hpd : (gram linK false none [![(1:ℝ)]]).PosDef := by
      rw [hg]; exact single_posDef 1 one_pos
    obtain ⟨l, h⟩ := updateData_of (blank linK none false false) [![(1:ℝ)]] [2] false ⟨[![1]], [2], false, none⟩ (by simp)
      rfl (by simp [store, blank]) linK_packs (by simp [linK, blank]) hpd.det_pos.ne'.isUnit hpd
    obtain ⟨h1, h2, h3, h4, h5, h6⟩ := updateData_spec (gp := blank linK none false false) linK_packs rfl (fun _ => rfl) h
    exact ⟨_, h1, h2, Or.inl h4, rfl, h3⟩
  · obtain ⟨gp, h⟩ := C113_can_build [![(1:ℝ)], ![1], ![3]] [2, 5, 7] linK 1 false false (by simp) rfl (by simp [linK])
      linK_packs linK_good (Or.inr one_ne_zero)
    obtain ⟨h1, h2, h3, h4, h5, h6⟩ := C43_init_partial _ _ _ linK_packs _ _ _ gp h
    exact ⟨gp, h1, h2, h3, h5⟩

end CatLearn.Proc
