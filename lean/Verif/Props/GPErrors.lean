import Verif.Props.GPFar
import Verif.Props.GPNoise

/-!
# What errors of the targets do to the predictions (C304)
-/

namespace CatLearn.Proc

open CatLearn CatLearn.Kernel CatLearn.Scaling CatLearn.PSD Matrix

private theorem sum_get {N : ℕ} {fp : List (Fin N → ℝ)} {t t' : List ℝ} (hl : t.length = fp.length) (hl' : t'.length = fp.length) :
    (fun i : Fin fp.length => t.get (i.cast hl.symm) - t'.get (i.cast hl'.symm)) ⬝ᵥ (fun i => t.get (i.cast hl.symm) - t'.get (i.cast hl'.symm)) =
      ((List.zipWith (fun a b => (a - b) ^ 2) t t')).sum := by
  have hz : (List.zipWith (fun a b => (a - b) ^ 2) t t') = List.ofFn fun i : Fin fp.length => (t.get (i.cast hl.symm) - t'.get (i.cast hl'.symm)) ^ 2 := by
    apply List.ext_getElem
    · simp [hl, hl']
    · intro i h1 h2
      simp
  rw [hz, List.sum_ofFn, dotProduct]
  exact Finset.sum_congr rfl fun i _ => (sq _).symm

/-- C304 (`_partial`: without `scale_data`, which breaks it): of two models that differ in their targets, the predictions at the training points differ, in the sum of
squares, by at most as much as the targets do, and at any point the squared difference of the predictions is at most that of the targets divided by
the square of the regularisation, times the variance that the data has taken away at the point. -/
theorem C304_errors_partial {N : ℕ} (fp : List (Fin N → ℝ)) (t t' : List ℝ) (ks : List (KDict N)) (hp : PacksList ks)
    (log : Bool) (hk : ∀ k ∈ ks, GoodKernel log k) (hn : ∀ k ∈ ks, ∀ h, k.ktype ≠ .noiseMulti h) (r : ℝ)
    (gp gp' : GP N) (h : init fp t ks (some r) log false = .ok gp) (h' : init fp t' ks (some r) log false = .ok gp') :
    (∃ p p' : List ℝ, predict gp fp false = .ok ⟨p.map some, none⟩ ∧ predict gp' fp false = .ok ⟨p'.map some, none⟩ ∧ p.length = fp.length ∧
      p'.length = fp.length ∧ (List.zipWith (fun a b => (a - b) ^ 2) p p').sum ≤ (List.zipWith (fun a b => (a - b) ^ 2) t t').sum) ∧
    ∀ z, ∃ p p' u : ℝ, predict gp [z] true = .ok ⟨[some p], some [(some u, some (u + r))]⟩ ∧
      predict gp' [z] true = .ok ⟨[some p'], some [(some u, some (u + r))]⟩ ∧
      (p - p') ^ 2 * unlog log r ^ 2 ≤ (covEntry ks log z z false - u ^ 2) * (List.zipWith (fun a b => (a - b) ^ 2) t t').sum := by
  have hne : fp ≠ [] := (C43_init_partial _ _ _ hp _ _ _ gp h).2.1.2.2
  obtain ⟨hl, hc, k1, k2, k3, sr, ts, hpd, hm, hv⟩ := init_plain hp h
  obtain ⟨hl', hc', k1', k2', k3', sr', ts', -, hm', hv'⟩ := init_plain hp h'
  have g : ∀ k ∈ gp.kernels, GoodKernel gp.log k := by rw [k1, k3]; exact hk
  have g' : ∀ k ∈ gp'.kernels, GoodKernel gp'.log k := by rw [k1', k3']; exact hk
  set K := gram ks log (some r) fp with hK
  set y : Fin fp.length → ℝ := fun i => t.get (i.cast hl.symm) with hy
  set y' : Fin fp.length → ℝ := fun i => t'.get (i.cast hl'.symm) with hy'
  have hyy : (y - y') ⬝ᵥ (y - y') = (List.zipWith (fun a b => (a - b) ^ 2) t t').sum := sum_get hl hl'
  have hdiff : ∀ z, postMean K (kvec ks log z fp.get) y - postMean K (kvec ks log z fp.get) y' = kvec ks log z fp.get ⬝ᵥ K⁻¹ *ᵥ (y - y') := by
    intro z
    unfold postMean
    rw [mulVec_sub, dotProduct_sub]
  refine ⟨⟨List.ofFn fun i => postMean K (kvec ks log (fp.get i) fp.get) y, List.ofFn fun i => postMean K (kvec ks log (fp.get i) fp.get) y', ?_, ?_,
    by simp, by simp, ?_⟩, fun z => ⟨postMean K (kvec ks log z fp.get) y, postMean K (kvec ks log z fp.get) y', Real.sqrt (gp.var z), ?_, ?_, ?_⟩⟩
  · rw [hc.predict_eq _ hne, List.map_ofFn]
    conv_lhs => rw [← List.ofFn_get fp, List.map_ofFn]
    simp only [Function.comp_def, sr, hm]
  · rw [hc'.predict_eq _ hne, List.map_ofFn]
    conv_lhs => rw [← List.ofFn_get fp, List.map_ofFn]
    simp only [Function.comp_def, sr', hm']
  · have hB : (Matrix.of fun i j => covEntry ks log (fp.get i) (fp.get j) false : Matrix (Fin fp.length) (Fin fp.length) ℝ).PosSemidef := by
      have e : (Matrix.of fun i j => covEntry ks log (fp.get i) (fp.get j) false : Matrix (Fin fp.length) (Fin fp.length) ℝ) =
          Matrix.of (fun i j => covEntry ks log (fp.get i) (fp.get j) (decide (i = j))) := by
        ext i j; simp only [Matrix.of_apply]; rw [covEntry_self ks log hn _ _ (decide (i = j))]
      rw [e]
      exact psdk_cov ks log hk fp.get
    set B : Matrix (Fin fp.length) (Fin fp.length) ℝ := Matrix.of fun i j => covEntry ks log (fp.get i) (fp.get j) false with hBd
    have hsplit : K = B + unlog log r ^ 2 • (1 : Matrix _ _ ℝ) := by
      ext i j
      have hs : regSq log (some r) = unlog log r ^ 2 := rfl
      rw [hK, gram, covSelf_apply, covEntry_self ks log hn, Matrix.add_apply, hBd, Matrix.of_apply, Matrix.smul_apply, Matrix.one_apply, hs]
      simp
    have hfit := (noise_fit B hB (sq_nonneg (unlog log r)) (noise_solve B hB (hsplit ▸ hpd) (y - y'))).1
    rw [← hsplit, hyy] at hfit
    refine le_trans (le_of_eq ?_) hfit
    have hz : List.zipWith (fun a b : ℝ => (a - b) ^ 2) (List.ofFn fun i => postMean K (kvec ks log (fp.get i) fp.get) y)
        (List.ofFn fun i => postMean K (kvec ks log (fp.get i) fp.get) y') = List.ofFn fun i => ((B *ᵥ (K⁻¹ *ᵥ (y - y'))) i) ^ 2 := by
      apply List.ext_getElem
      · simp
      · intro i h1 h2
        simp only [List.getElem_zipWith, List.getElem_ofFn, hdiff]
        rfl
    rw [hz, List.sum_ofFn, dotProduct]
    exact Finset.sum_congr rfl fun i _ => sq _
  · rw [hc.predict_unc _ (by simp) r k2]
    simp only [List.map_cons, List.map_nil, sr, unc_plain hc g ts, hm]
  · rw [hc'.predict_unc _ (by simp) r k2']
    simp only [List.map_cons, List.map_nil, sr', unc_plain hc' g' ts', hm', hv, hv']
  · rw [Real.sq_sqrt (C42_variance gp hc g z).1, hdiff, hv, covEntry_self ks log hn z z true, postVar, ← dotProduct_mulVec, sub_sub_cancel, ← hyy]
    have h1 := near_cauchy hpd (kvec ks log z fp.get) (y - y')
    have h2 : ((y - y') ⬝ᵥ K⁻¹ *ᵥ (y - y')) * unlog log r ^ 2 ≤ (y - y') ⬝ᵥ (y - y') := weight_le fp ks log hk hn (some r) hpd (y - y')
    have h3 := near_nonneg hpd (kvec ks log z fp.get)
    calc _ ≤ ((kvec ks log z fp.get ⬝ᵥ K⁻¹ *ᵥ kvec ks log z fp.get) * ((y - y') ⬝ᵥ K⁻¹ *ᵥ (y - y'))) * unlog log r ^ 2 :=
          mul_le_mul_of_nonneg_right h1 (sq_nonneg _)
      _ = (kvec ks log z fp.get ⬝ᵥ K⁻¹ *ᵥ kvec ks log z fp.get) * (((y - y') ⬝ᵥ K⁻¹ *ᵥ (y - y')) * unlog log r ^ 2) := mul_assoc _ _ _
      _ ≤ _ := mul_le_mul_of_nonneg_left h2 h3

/-- C304, one target (`_partial`: without `scale_data`): when the target of one training point is changed, the prediction at the point moves the same way, by at most as much as the
target. -/
theorem C304_one_partial {N : ℕ} (fp : List (Fin N → ℝ)) (t : List ℝ) (ks : List (KDict N)) (hp : PacksList ks)
    (log : Bool) (hk : ∀ k ∈ ks, GoodKernel log k) (hn : ∀ k ∈ ks, ∀ h, k.ktype ≠ .noiseMulti h) (r : ℝ) (i : ℕ) (hi : i < fp.length) (hit : i < t.length) (v : ℝ)
    (gp gp' : GP N) (h : init fp t ks (some r) log false = .ok gp) (h' : init fp (t.set i v) ks (some r) log false = .ok gp') :
    ∃ p p' c : ℝ, predict gp [fp[i]] false = .ok ⟨[some p], none⟩ ∧ predict gp' [fp[i]] false = .ok ⟨[some p'], none⟩ ∧ 0 ≤ c ∧ c ≤ 1 ∧
      p' - p = c * (v - t[i]) := by
  obtain ⟨hl, hc, k1, k2, k3, sr, ts, hpd, hm, hv⟩ := init_plain hp h
  obtain ⟨hl', hc', k1', k2', k3', sr', ts', -, hm', hv'⟩ := init_plain hp h'
  set K := gram ks log (some r) fp with hK
  set e : Fin fp.length → ℝ := Pi.single ⟨i, hi⟩ 1 with he
  have hy : (fun j : Fin fp.length => (t.set i v).get (j.cast hl'.symm)) = (fun j => t.get (j.cast hl.symm)) + (v - t[i]) • e := by
    funext j
    by_cases hj : j = ⟨i, hi⟩
    · subst hj
      simp [he]
    · have : i ≠ j.1 := fun h => hj (Fin.ext h.symm)
      simp [he, hj, List.getElem_set, this]
  have hrow : kvec ks log fp[i] fp.get = K *ᵥ e - unlog log r ^ 2 • e := by
    funext j
    have hs : regSq log (some r) = unlog log r ^ 2 := rfl
    rw [he, mulVec_single_one, Pi.sub_apply, Pi.smul_apply, Matrix.col_apply, hK, gram, covSelf_apply, covEntry_self ks log hn, hs]
    change covEntry ks log (fp.get ⟨i, hi⟩) (fp.get j) false = _
    rw [covEntry_symm ks log (fp.get j)]
    by_cases hj : j = ⟨i, hi⟩ <;> simp [hj]
  have hu := hpd.det_pos.ne'.isUnit
  have hKt : (K *ᵥ e) ⬝ᵥ K⁻¹ *ᵥ e = 1 := by
    rw [near_symm hpd, mulVec_mulVec, nonsing_inv_mul _ hu, one_mulVec, he]
    simp
  refine ⟨postMean K (kvec ks log fp[i] fp.get) fun j => t.get (j.cast hl.symm), postMean K (kvec ks log fp[i] fp.get) fun j => (t.set i v).get (j.cast hl'.symm),
    1 - unlog log r ^ 2 * (e ⬝ᵥ K⁻¹ *ᵥ e), ?_, ?_, ?_, ?_, ?_⟩
  · rw [hc.predict_eq _ (by simp)]
    simp only [List.map_cons, List.map_nil, sr, hm]
  · rw [hc'.predict_eq _ (by simp)]
    simp only [List.map_cons, List.map_nil, sr', hm']
  · have h1 : (e ⬝ᵥ K⁻¹ *ᵥ e) * unlog log r ^ 2 ≤ e ⬝ᵥ e := weight_le fp ks log hk hn (some r) hpd e
    have h2 : e ⬝ᵥ e = 1 := by rw [he]; simp
    linarith
  · have := mul_nonneg (sq_nonneg (unlog log r)) (near_nonneg hpd e)
    linarith
  · rw [hy, postMean, postMean, mulVec_add, dotProduct_add, add_sub_cancel_left, mulVec_smul, dotProduct_smul, hrow, sub_dotProduct, hKt, smul_dotProduct]
    simp only [smul_eq_mul]
    ring

/-! ### With scaled data -/

/-- The product of two linear kernels. -/
private noncomputable def qK : List (KDict 1) := [⟨.linear, none, none, false⟩, ⟨.linear, none, none, true⟩]

private theorem qK_packs : PacksList qK := by simp [qK, PacksList, Packs]

private theorem qK_good : ∀ k ∈ qK, GoodKernel false k := by simp [qK, GoodKernel]

private theorem qK_entry (x y : Fin 1 → ℝ) (b : Bool) : covEntry qK false x y b = (x 0 * y 0) ^ 2 := by
  have : List.finRange 1 = [0] := rfl
  simp [covEntry, qK, entry, colSum, columns, unlog, scaleFactor, this]
  ring

private theorem qK_can (fp : List (Fin 1 → ℝ)) (t : List ℝ) (sd : Bool) (h : fp ≠ []) (h2 : fp.length = t.length) :
    ∃ gp, init fp t qK (some 1) false sd = .ok gp :=
  C113_can_build fp t qK 1 false sd h h2 (by simp [qK]) qK_packs qK_good (Or.inr one_ne_zero)

private theorem q_scal (c : ℝ) (hc : c ≠ 0) :
    (scalOf [![(-1:ℝ)], ![0], ![1]] [11 * c, 8 * c, 11 * c]).tmean = 10 * c ∧ (scalOf [![(-1:ℝ)], ![0], ![1]] [11 * c, 8 * c, 11 * c]).tstd ≠ 0 ∧
    (scalOf [![(-1:ℝ)], ![0], ![1]] [11 * c, 8 * c, 11 * c]).fmean 0 = 0 ∧
    (scalOf [![(-1:ℝ)], ![0], ![1]] [11 * c, 8 * c, 11 * c]).fstd 0 ^ 2 = 2 / 3 := by
  have hm : colMean [![(-1:ℝ)], ![0], ![1]].get 0 = 0 := by simp [colMean, Fin.sum_univ_succ]
  have tm : tMean [11 * c, 8 * c, 11 * c].get = 10 * c := by
    simp [tMean, colMean, Fin.sum_univ_succ]
    ring
  refine ⟨tm, ?_, hm, ?_⟩
  · have h : colMean (fun i (_ : Unit) => [11 * c, 8 * c, 11 * c].get i) () = 10 * c := tm
    simp only [scalOf, tStd, colStd, h]
    rw [Real.sqrt_ne_zero (by positivity)]
    simp [Fin.sum_univ_succ]
    have : 0 < c ^ 2 := by positivity
    nlinarith
  · have h0 : colStd [![(-1:ℝ)], ![0], ![1]].get 0 ^ 2 = 2 / 3 := by
      simp only [colStd, hm]
      rw [Real.sq_sqrt (by positivity)]
      simp [Fin.sum_univ_succ]
      norm_num
    simp only [scalOf, placeOnes]
    split
    · next h => rw [h] at h0; norm_num at h0
    · exact h0

private theorem q_predict (c : ℝ) (hc0 : c ≠ 0) (gp : GP 1) (h : init [![-1], ![0], ![1]] [11 * c, 8 * c, 11 * c] qK (some 1) false true = .ok gp)
    (z : Fin 1 → ℝ) : gp.mean (gp.scaleRow z) = some (10 * c + 9 / 11 * z 0 ^ 2 * c) := by
  obtain ⟨s1, s2, s3, s4⟩ := q_scal c hc0
  have ht : tStd [11 * c, 8 * c, 11 * c].get ≠ 0 := s2
  set σ := scalOf [![(-1:ℝ)], ![0], ![1]] [11 * c, 8 * c, 11 * c] with hσ
  obtain ⟨gp2, h2⟩ := qK_can ([![-1], ![0], ![1]].map σ.row) ([11 * c, 8 * c, 11 * c].map σ.tgt) false (by simp) rfl
  rw [scaled_plain qK_packs ht h h2, ← hσ]
  simp only [List.map_cons, List.map_nil] at h2
  obtain ⟨hl, -, -, -, -, -, -, hpd, hm, -⟩ := init_plain qK_packs h2
  have hf : σ.fstd 0 ≠ 0 := fun e => by rw [e] at s4; norm_num at s4
  have hf4 : σ.fstd 0 ^ 4 = 4 / 9 := by
    have : σ.fstd 0 ^ 4 = (σ.fstd 0 ^ 2) ^ 2 := by ring
    rw [this, s4]; norm_num
  have hent : ∀ x y : Fin 1 → ℝ, ∀ b, covEntry qK false (σ.row x) (σ.row y) b = 9 / 4 * (x 0 * y 0) ^ 2 := by
    intro x y b
    rw [qK_entry]
    simp only [Scal.row, s3, sub_zero]
    have : (x 0 / σ.fstd 0 * (y 0 / σ.fstd 0)) ^ 2 = (x 0 * y 0) ^ 2 / σ.fstd 0 ^ 4 := by field_simp
    rw [this, hf4]
    ring
  have htg : ∀ a, σ.tgt a = (a - 10 * c) / σ.tstd := fun a => by simp only [Scal.tgt, s1]
  set v : Fin [σ.row ![-1], σ.row ![0], σ.row ![1]].length → ℝ := fun i => [2 / 11 * c / σ.tstd, -2 * c / σ.tstd, 2 / 11 * c / σ.tstd].get (i.cast rfl) with hv
  have hsol : (gram qK false (some 1) [σ.row ![-1], σ.row ![0], σ.row ![1]])⁻¹ *ᵥ (fun i => [σ.tgt (11 * c), σ.tgt (8 * c), σ.tgt (11 * c)].get (i.cast hl.symm)) = v := by
    have e : gram qK false (some 1) [σ.row ![-1], σ.row ![0], σ.row ![1]] *ᵥ v =
        fun i => [σ.tgt (11 * c), σ.tgt (8 * c), σ.tgt (11 * c)].get (i.cast hl.symm) := by
      have n01 : (0 : Fin [σ.row ![-1], σ.row ![0], σ.row ![1]].length) ≠ 1 := by change (0 : Fin 3) ≠ 1; decide
      have n02 : (0 : Fin [σ.row ![-1], σ.row ![0], σ.row ![1]].length) ≠ 2 := by change (0 : Fin 3) ≠ 2; decide
      have n10 : (1 : Fin [σ.row ![-1], σ.row ![0], σ.row ![1]].length) ≠ 0 := by change (1 : Fin 3) ≠ 0; decide
      have n12 : (1 : Fin [σ.row ![-1], σ.row ![0], σ.row ![1]].length) ≠ 2 := by change (1 : Fin 3) ≠ 2; decide
      have n20 : (2 : Fin [σ.row ![-1], σ.row ![0], σ.row ![1]].length) ≠ 0 := by change (2 : Fin 3) ≠ 0; decide
      have n21 : (2 : Fin [σ.row ![-1], σ.row ![0], σ.row ![1]].length) ≠ 1 := by change (2 : Fin 3) ≠ 1; decide
      funext i
      have : i = 0 ∨ i = 1 ∨ i = 2 := by
        obtain ⟨i, hi⟩ := i
        have : i < 3 := hi
        interval_cases i
        · exact Or.inl rfl
        · exact Or.inr (Or.inl rfl)
        · exact Or.inr (Or.inr rfl)
      rcases this with rfl | rfl | rfl
      · simp [mulVec, dotProduct, Fin.sum_univ_succ, gram, covSelf_apply, hent, regSq, unlog, hv, htg, n01, n02]
        field_simp
        ring
      · simp [mulVec, dotProduct, Fin.sum_univ_succ, gram, covSelf_apply, hent, regSq, unlog, hv, htg, n10, n12]
        field_simp
        ring
      · simp [mulVec, dotProduct, Fin.sum_univ_succ, gram, covSelf_apply, hent, regSq, unlog, hv, htg, n20, n21]
        field_simp
        ring
    conv_lhs => rw [← e]
    rw [mulVec_mulVec, nonsing_inv_mul _ hpd.det_pos.ne'.isUnit, one_mulVec]
  rw [hm, Option.map_some, postMean, hsol, Scal.untgt, s1]
  simp [dotProduct, Fin.sum_univ_succ, kvec, hent, hv]
  field_simp
  ring

/-- C304 fails with `scale_data`: the mean of the targets is added to the predictions unchanged, so that with kernels that do not see it the predictions move together.
Of the values 11, 8 and 11 at the points -1, 0 and 1, with the product of two linear kernels, the model predicts 119/11, 10 and 119/11, and with the signs of the values changed
the opposite. -/
theorem C304_scaled_violated : ∃ (fp : List (Fin 1 → ℝ)) (t t' : List ℝ) (ks : List (KDict 1)) (gp gp' : GP 1),
    (∀ k ∈ ks, k.ktype = .linear) ∧ init fp t ks (some 1) false true = .ok gp ∧ init fp t' ks (some 1) false true = .ok gp' ∧
    ∃ p p' : List ℝ, predict gp fp false = .ok ⟨p.map some, none⟩ ∧ predict gp' fp false = .ok ⟨p'.map some, none⟩ ∧
      (List.zipWith (fun a b => (a - b) ^ 2) t t').sum < (List.zipWith (fun a b => (a - b) ^ 2) p p').sum := by
  obtain ⟨gp, h⟩ := qK_can [![-1], ![0], ![1]] [11 * 1, 8 * 1, 11 * 1] true (by simp) rfl
  obtain ⟨gp', h'⟩ := qK_can [![-1], ![0], ![1]] [11 * (-1), 8 * (-1), 11 * (-1)] true (by simp) rfl
  obtain ⟨hc, -⟩ := C43_init_partial _ _ _ qK_packs _ _ _ gp h
  obtain ⟨hc', -⟩ := C43_init_partial _ _ _ qK_packs _ _ _ gp' h'
  refine ⟨_, _, _, qK, gp, gp', by simp [qK], h, h', [119 / 11, 10, 119 / 11], [-119 / 11, -10, -119 / 11], ?_, ?_, ?_⟩
  · rw [hc.predict_eq _ (by simp)]
    simp only [List.map_cons, List.map_nil, q_predict 1 one_ne_zero gp h]
    norm_num
  · rw [hc'.predict_eq _ (by simp)]
    simp only [List.map_cons, List.map_nil, q_predict (-1) (by norm_num) gp' h']
    norm_num
  · norm_num

/-- The hypotheses of C304 hold for these kernels without `scale_data`. -/
example : (∃ gp, init [![(-1:ℝ)], ![0], ![1]] [11, 8, 11] qK (some 1) false false = .ok gp) ∧
    (∃ gp, init [![(-1:ℝ)], ![0], ![1]] [10, 8, 12] qK (some 1) false false = .ok gp) ∧ PacksList qK ∧ (∀ k ∈ qK, GoodKernel false k) ∧
    (∃ gp, init [![(-1:ℝ)], ![0], ![1]] (([11, 8, 11] : List ℝ).set 1 9) qK (some 1) false false = .ok gp) ∧ ∀ k ∈ qK, ∀ h, k.ktype ≠ .noiseMulti h :=
  ⟨qK_can _ _ _ (by simp) rfl, qK_can _ _ _ (by simp) rfl, qK_packs, qK_good, qK_can _ _ _ (by simp) rfl, by simp [qK]⟩

end CatLearn.Proc
