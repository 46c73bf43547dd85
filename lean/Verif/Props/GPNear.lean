import Verif.Props.GPSequential
import Mathlib.Algebra.QuadraticDiscriminant

/-!
# How much predictions and uncertainties can change from one point to another (C291)
-/

namespace CatLearn.Proc

open CatLearn CatLearn.Kernel CatLearn.Scaling CatLearn.PSD Matrix

section
variable {n : Type} [Fintype n] [DecidableEq n]

theorem near_symm {K : Matrix n n ℝ} (hK : K.PosDef) (a b : n → ℝ) : a ⬝ᵥ K⁻¹ *ᵥ b = b ⬝ᵥ K⁻¹ *ᵥ a := by
  have hs : K⁻¹ᵀ = K⁻¹ := by
    have := hK.1
    rw [Matrix.IsHermitian, conjTranspose_eq_transpose_of_trivial] at this
    rw [transpose_nonsing_inv, this]
  rw [dotProduct_mulVec, ← mulVec_transpose, hs, dotProduct_comm]

theorem near_nonneg {K : Matrix n n ℝ} (hK : K.PosDef) (a : n → ℝ) : 0 ≤ a ⬝ᵥ K⁻¹ *ᵥ a := by
  have := hK.inv.posSemidef.dotProduct_mulVec_nonneg a
  simpa using this

theorem near_cauchy {K : Matrix n n ℝ} (hK : K.PosDef) (a b : n → ℝ) :
    (a ⬝ᵥ K⁻¹ *ᵥ b) ^ 2 ≤ (a ⬝ᵥ K⁻¹ *ᵥ a) * (b ⬝ᵥ K⁻¹ *ᵥ b) := by
  have h : ∀ t : ℝ, 0 ≤ (a ⬝ᵥ K⁻¹ *ᵥ a) * (t * t) + (2 * (a ⬝ᵥ K⁻¹ *ᵥ b)) * t + b ⬝ᵥ K⁻¹ *ᵥ b := by
    intro t
    have := near_nonneg hK (t • a + b)
    rw [mulVec_add, mulVec_smul, add_dotProduct, dotProduct_add, dotProduct_add, smul_dotProduct, smul_dotProduct, dotProduct_smul,
      dotProduct_smul, near_symm hK b a] at this
    simp only [smul_eq_mul] at this
    linarith
  have := discrim_le_zero h
  unfold discrim at this
  linarith

/-- The quadratic form of a covariance with two more points. -/
theorem near_form {M : Matrix (n ⊕ Bool) (n ⊕ Bool) ℝ} (hM : M.PosSemidef) (K : Matrix n n ℝ) (kx kz : n → ℝ)
    (h11 : ∀ i j, M (.inl i) (.inl j) = K i j) (hx : ∀ i, M (.inl i) (.inr true) = kx i) (hz : ∀ i, M (.inl i) (.inr false) = kz i)
    (α : n → ℝ) (a b : ℝ) :
    0 ≤ α ⬝ᵥ K *ᵥ α - 2 * (α ⬝ᵥ (a • kx + b • kz)) +
      (a ^ 2 * M (.inr true) (.inr true) + 2 * (a * b * M (.inr true) (.inr false)) + b ^ 2 * M (.inr false) (.inr false)) := by
  have hs : ∀ p q, M p q = M q p := by
    intro p q
    have := hM.1
    rw [Matrix.IsHermitian, conjTranspose_eq_transpose_of_trivial] at this
    have := congrFun (congrFun this q) p
    simpa using this
  have h := hM.dotProduct_mulVec_nonneg (Sum.elim (-α) fun t => if t then a else b)
  rw [star_trivial] at h
  have e1 : ∀ i, (M *ᵥ (Sum.elim (-α) fun t => if t then a else b)) (.inl i) = -(K *ᵥ α) i + (a • kx + b • kz) i := by
    intro i
    simp only [mulVec, dotProduct, Fintype.sum_sum_type, Fintype.sum_bool, Sum.elim_inl, Sum.elim_inr, h11, hx, hz, if_true,
      Bool.false_eq_true, if_false, Pi.neg_apply, mul_neg, Finset.sum_neg_distrib, Pi.add_apply, Pi.smul_apply, smul_eq_mul]
    ring
  have e2 : (M *ᵥ (Sum.elim (-α) fun t => if t then a else b)) (.inr true) =
      -(α ⬝ᵥ kx) + (a * M (.inr true) (.inr true) + b * M (.inr true) (.inr false)) := by
    simp only [mulVec, dotProduct, Fintype.sum_sum_type, Fintype.sum_bool, Sum.elim_inl, Sum.elim_inr, hs (.inr true) (.inl _), hx,
      if_true, Bool.false_eq_true, if_false, Pi.neg_apply, mul_neg, Finset.sum_neg_distrib]
    simp only [mul_comm]
  have e3 : (M *ᵥ (Sum.elim (-α) fun t => if t then a else b)) (.inr false) =
      -(α ⬝ᵥ kz) + (a * M (.inr true) (.inr false) + b * M (.inr false) (.inr false)) := by
    simp only [mulVec, dotProduct, Fintype.sum_sum_type, Fintype.sum_bool, Sum.elim_inl, Sum.elim_inr, hs (.inr false) (.inl _), hz,
      hs (.inr false) (.inr true), if_true, Bool.false_eq_true, if_false, Pi.neg_apply, mul_neg, Finset.sum_neg_distrib]
    simp only [mul_comm]
  rw [dotProduct, Fintype.sum_sum_type, Fintype.sum_bool] at h
  simp only [Sum.elim_inl, Sum.elim_inr, if_true, Bool.false_eq_true, if_false, e1, e2, e3] at h
  have e4 : ∑ i, (-α) i * (-(K *ᵥ α) i + (a • kx + b • kz) i) = α ⬝ᵥ K *ᵥ α - α ⬝ᵥ (a • kx + b • kz) := by
    simp only [dotProduct, ← Finset.sum_sub_distrib]
    refine Finset.sum_congr rfl fun i _ => ?_
    simp only [Pi.neg_apply]
    ring
  have e5 : α ⬝ᵥ (a • kx + b • kz) = a * (α ⬝ᵥ kx) + b * (α ⬝ᵥ kz) := by
    rw [dotProduct_add, dotProduct_smul, dotProduct_smul, smul_eq_mul, smul_eq_mul]
  rw [e4] at h
  rw [e5] at h ⊢
  linarith

end

theorem prior_form {N : ℕ} (fp : List (Fin N → ℝ)) (ks : List (KDict N)) (log : Bool) (hk : ∀ k ∈ ks, GoodKernel log k)
    (hn : ∀ k ∈ ks, ∀ h, k.ktype ≠ .noiseMulti h) (reg : Option ℝ) (hpd : (gram ks log reg fp).PosDef) (x z : Fin N → ℝ) (a b : ℝ) :
    (a • kvec ks log x fp.get + b • kvec ks log z fp.get) ⬝ᵥ (gram ks log reg fp)⁻¹ *ᵥ (a • kvec ks log x fp.get + b • kvec ks log z fp.get) ≤
      a ^ 2 * covEntry ks log x x false + 2 * (a * b * covEntry ks log x z false) + b ^ 2 * covEntry ks log z z false := by
  set v := a • kvec ks log x fp.get + b • kvec ks log z fp.get with hv
  set K := gram ks log reg fp with hK
  set X : Fin fp.length ⊕ Bool → Fin N → ℝ := Sum.elim fp.get fun t => if t then x else z with hX
  have hM := psdk_cov ks log hk X
  have hM' : ∀ p q, covEntry ks log (X p) (X q) (decide (p = q)) = covEntry ks log (X p) (X q) false :=
    fun p q => covEntry_self ks log hn _ _ _
  have h := near_form hM (Matrix.of fun i j => covEntry ks log (fp.get i) (fp.get j) false) (kvec ks log x fp.get) (kvec ks log z fp.get)
    (fun i j => by rw [Matrix.of_apply, hM', hX]; rfl) (fun i => by rw [Matrix.of_apply, hM', hX, covEntry_symm]; rfl)
    (fun i => by rw [Matrix.of_apply, hM', hX, covEntry_symm]; rfl) (K⁻¹ *ᵥ v) a b
  simp only [Matrix.of_apply, hM'] at h
  have hx : X (.inr true) = x := by simp [hX]
  have hz : X (.inr false) = z := by simp [hX]
  rw [hx, hz, ← hv] at h
  have hu := hpd.det_pos.ne'.isUnit
  have hKv : K *ᵥ (K⁻¹ *ᵥ v) = v := by rw [mulVec_mulVec, mul_nonsing_inv _ hu, one_mulVec]
  have hsplit : K = (Matrix.of fun i j => covEntry ks log (fp.get i) (fp.get j) false) + regSq log reg • (1 : Matrix _ _ ℝ) := by
    ext i j
    rw [hK, gram, covSelf_apply, covEntry_self ks log hn, Matrix.add_apply, Matrix.of_apply, Matrix.smul_apply, Matrix.one_apply]
    simp
  have hle : (K⁻¹ *ᵥ v) ⬝ᵥ (Matrix.of fun i j => covEntry ks log (fp.get i) (fp.get j) false) *ᵥ (K⁻¹ *ᵥ v) ≤ (K⁻¹ *ᵥ v) ⬝ᵥ v := by
    have h1 : (K⁻¹ *ᵥ v) ⬝ᵥ K *ᵥ (K⁻¹ *ᵥ v) = (K⁻¹ *ᵥ v) ⬝ᵥ v := by rw [hKv]
    have h2 : K *ᵥ (K⁻¹ *ᵥ v) = (Matrix.of fun i j => covEntry ks log (fp.get i) (fp.get j) false) *ᵥ (K⁻¹ *ᵥ v) +
        regSq log reg • (K⁻¹ *ᵥ v) := by
      conv_lhs => rw [hsplit]
      rw [add_mulVec, smul_mulVec, one_mulVec, ← hsplit]
    rw [h2, dotProduct_add, dotProduct_smul, smul_eq_mul] at h1
    have h3 : 0 ≤ (K⁻¹ *ᵥ v) ⬝ᵥ (K⁻¹ *ᵥ v) := by
      simp only [dotProduct]; exact Finset.sum_nonneg fun i _ => mul_self_nonneg _
    nlinarith [mul_nonneg (regSq_nonneg log reg) h3]
  rw [dotProduct_comm (K⁻¹ *ᵥ v) v] at h hle
  linarith

/-- The sum of the squared targets, weighted by the inverse covariance, is at most their sum of squares divided by the square of the
regularisation. -/
theorem weight_le {N : ℕ} (fp : List (Fin N → ℝ)) (ks : List (KDict N)) (log : Bool) (hk : ∀ k ∈ ks, GoodKernel log k)
    (hn : ∀ k ∈ ks, ∀ h, k.ktype ≠ .noiseMulti h) (reg : Option ℝ) (hpd : (gram ks log reg fp).PosDef) (y : Fin fp.length → ℝ) :
    (y ⬝ᵥ (gram ks log reg fp)⁻¹ *ᵥ y) * regSq log reg ≤ y ⬝ᵥ y := by
  set K := gram ks log reg fp with hK
  set B : Matrix (Fin fp.length) (Fin fp.length) ℝ := Matrix.of fun i j => covEntry ks log (fp.get i) (fp.get j) false with hB
  have hBp : B.PosSemidef := by
    have e : B = Matrix.of (fun i j => covEntry ks log (fp.get i) (fp.get j) (decide (i = j))) := by
      ext i j; simp only [hB, Matrix.of_apply]; rw [covEntry_self ks log hn _ _ (decide (i = j))]
    rw [e]
    exact psdk_cov ks log hk fp.get
  have hsplit : K = B + regSq log reg • (1 : Matrix _ _ ℝ) := by
    ext i j
    rw [hK, gram, covSelf_apply, covEntry_self ks log hn, Matrix.add_apply, hB, Matrix.of_apply, Matrix.smul_apply, Matrix.one_apply]
    simp
  have hKy : K *ᵥ (K⁻¹ *ᵥ y) = y := by rw [mulVec_mulVec, mul_nonsing_inv _ hpd.det_pos.ne'.isUnit, one_mulVec]
  set α := K⁻¹ *ᵥ y with hα
  have hy : y = B *ᵥ α + regSq log reg • α := by
    rw [← hKy, hsplit, add_mulVec, smul_mulVec, one_mulVec]
  have h1 : 0 ≤ α ⬝ᵥ B *ᵥ α := by simpa using hBp.dotProduct_mulVec_nonneg α
  have h2 : 0 ≤ (B *ᵥ α) ⬝ᵥ (B *ᵥ α) := by
    simp only [dotProduct]; exact Finset.sum_nonneg fun i _ => mul_self_nonneg _
  have h3 : y ⬝ᵥ α = α ⬝ᵥ B *ᵥ α + regSq log reg * (α ⬝ᵥ α) := by
    conv_lhs => rw [hy]
    rw [add_dotProduct, smul_dotProduct, smul_eq_mul, dotProduct_comm (B *ᵥ α)]
  have h4 : y ⬝ᵥ y = (B *ᵥ α) ⬝ᵥ (B *ᵥ α) + 2 * regSq log reg * (α ⬝ᵥ B *ᵥ α) + regSq log reg ^ 2 * (α ⬝ᵥ α) := by
    conv_lhs => rw [hy]
    rw [add_dotProduct, dotProduct_add, dotProduct_add, smul_dotProduct, smul_dotProduct, dotProduct_smul, dotProduct_smul,
      dotProduct_comm (B *ᵥ α) α]
    simp only [smul_eq_mul]
    ring
  rw [h3, h4]
  nlinarith [mul_nonneg (regSq_nonneg log reg) h1]

/-- From one point to another: the uncertainty changes by at most the distance of the points as the kernels see it, whose square is
the variance of the difference before any data; the prediction changes by at most this distance times the root of a number that
depends on the data only and is at most the sum of the squared targets divided by the square of the regularisation. -/
theorem C291_change {N : ℕ} (fp : List (Fin N → ℝ)) (t : List ℝ) (ks : List (KDict N)) (hp : PacksList ks)
    (log : Bool) (hk : ∀ k ∈ ks, GoodKernel log k) (hn : ∀ k ∈ ks, ∀ h, k.ktype ≠ .noiseMulti h) (r : ℝ)
    (gp : GP N) (h : init fp t ks (some r) log false = .ok gp) :
    ∃ S : ℝ, 0 ≤ S ∧ S * unlog log r ^ 2 ≤ (t.map fun y => y ^ 2).sum ∧ ∀ x z, ∃ m u m' u' : ℝ,
      predict gp [x, z] true = .ok ⟨[some m, some m'], some [(some u, some (u + r)), (some u', some (u' + r))]⟩ ∧
      (u - u') ^ 2 ≤ covEntry ks log x x false - 2 * covEntry ks log x z false + covEntry ks log z z false ∧
      (m - m') ^ 2 ≤ S * (covEntry ks log x x false - 2 * covEntry ks log x z false + covEntry ks log z z false) := by
  obtain ⟨hl, hc, k1, k2, k3, sr, ts, hpd, hm, hv⟩ := init_plain hp h
  have g : ∀ k ∈ gp.kernels, GoodKernel gp.log k := by rw [k1, k3]; exact hk
  set K := gram ks log (some r) fp with hK
  set y : Fin fp.length → ℝ := fun i => t.get (i.cast hl.symm) with hy
  have hyy : y ⬝ᵥ y = (t.map fun y => y ^ 2).sum := by
    rw [dotProduct, ← Equiv.sum_comp (finCongr hl)]
    have : ∀ i : Fin t.length, y (finCongr hl i) * y (finCongr hl i) = t[i] ^ 2 := by
      intro i; simp [hy, sq]
    simp only [this]
    rw [← List.sum_ofFn]
    exact congrArg List.sum (List.ofFn_getElem_eq_map t fun y => y ^ 2)
  refine ⟨y ⬝ᵥ K⁻¹ *ᵥ y, near_nonneg hpd y, ?_, fun x z => ⟨postMean K (kvec ks log x fp.get) y,
    Real.sqrt (gp.var x), postMean K (kvec ks log z fp.get) y, Real.sqrt (gp.var z), ?_, ?_, ?_⟩⟩
  · rw [← hyy]
    exact weight_le fp ks log hk hn (some r) hpd y
  · rw [hc.predict_unc _ (by simp) r k2]
    simp only [List.map_cons, List.map_nil, sr, unc_plain hc g ts, hm]
  · set kx := kvec ks log x fp.get with hkx
    set kz := kvec ks log z fp.get with hkz
    have hform := prior_form fp ks log hk hn (some r) hpd x z
    have hex : ∀ a b : ℝ, (a • kx + b • kz) ⬝ᵥ K⁻¹ *ᵥ (a • kx + b • kz) =
        a ^ 2 * (kx ⬝ᵥ K⁻¹ *ᵥ kx) + 2 * (a * b * (kx ⬝ᵥ K⁻¹ *ᵥ kz)) + b ^ 2 * (kz ⬝ᵥ K⁻¹ *ᵥ kz) := by
      intro a b
      rw [mulVec_add, mulVec_smul, mulVec_smul, add_dotProduct, dotProduct_add, dotProduct_add, smul_dotProduct, smul_dotProduct,
        smul_dotProduct, smul_dotProduct, dotProduct_smul, dotProduct_smul, dotProduct_smul, dotProduct_smul, near_symm hpd kz kx]
      simp only [smul_eq_mul]
      ring
    have hvx : gp.var x = covEntry ks log x x false - kx ⬝ᵥ K⁻¹ *ᵥ kx := by
      rw [hv, covEntry_self ks log hn, postVar, ← dotProduct_mulVec]
    have hvz : gp.var z = covEntry ks log z z false - kz ⬝ᵥ K⁻¹ *ᵥ kz := by
      rw [hv, covEntry_self ks log hn, postVar, ← dotProduct_mulVec]
    set c := covEntry ks log x z false - kx ⬝ᵥ K⁻¹ *ᵥ kz with hcdef
    have hx0 := (C42_variance gp hc g x).1
    have hz0 := (C42_variance gp hc g z).1
    have hq : ∀ a : ℝ, 0 ≤ gp.var x * (a * a) + (2 * c) * a + gp.var z := by
      intro a
      have h1 := hform a 1
      rw [← hK, hex] at h1
      rw [hvx, hvz, hcdef]
      linarith
    have hcs := discrim_le_zero hq
    unfold discrim at hcs
    have hprod : c ≤ Real.sqrt (gp.var x) * Real.sqrt (gp.var z) := by
      rw [← Real.sqrt_mul hx0]
      refine Real.le_sqrt_of_sq_le ?_
      linarith
    have h2 := hform 1 (-1)
    rw [← hK] at h2
    have h3 := near_nonneg hpd ((1 : ℝ) • kx + (-1 : ℝ) • kz)
    rw [hex] at h2 h3
    have s1 := Real.sq_sqrt hx0
    have s2 := Real.sq_sqrt hz0
    have hsq : (Real.sqrt (gp.var x) - Real.sqrt (gp.var z)) ^ 2 =
        gp.var x + gp.var z - 2 * (Real.sqrt (gp.var x) * Real.sqrt (gp.var z)) := by
      rw [sub_sq, s1, s2]; ring
    rw [hsq, hvx, hvz]
    rw [hvx, hvz, hcdef] at hprod
    linarith
  · have h1 := prior_form fp ks log hk hn (some r) hpd x z 1 (-1)
    rw [← hK] at h1
    set v := (1 : ℝ) • kvec ks log x fp.get + (-1 : ℝ) • kvec ks log z fp.get with hvdef
    have h2 := near_cauchy hpd v y
    have h3 : postMean K (kvec ks log x fp.get) y - postMean K (kvec ks log z fp.get) y = v ⬝ᵥ K⁻¹ *ᵥ y := by
      rw [hvdef, add_dotProduct, smul_dotProduct, smul_dotProduct]
      unfold postMean
      simp only [smul_eq_mul]
      ring
    rw [h3, mul_comm]
    refine h2.trans (mul_le_mul_of_nonneg_right ?_ (near_nonneg hpd y))
    linarith

/-- With a Gaussian kernel, `s` being its scaling: the uncertainty changes by at most the root of `s` times the distance of the two
points in units of the widths, and the prediction by at most this times a number that depends on the data only. -/
theorem C291_gaussian {N : ℕ} (fp : List (Fin N → ℝ)) (t : List ℝ) (k : KDict N) (w : List ℝ) (hw : k.ktype = .gaussian w) (hmu : k.mult = false)
    (hp : PacksList [k]) (log : Bool) (hk : GoodKernel log k) (r : ℝ) (gp : GP N) (h : init fp t [k] (some r) log false = .ok gp) :
    ∃ S : ℝ, 0 ≤ S ∧ S * unlog log r ^ 2 ≤ (t.map fun y => y ^ 2).sum ∧ ∀ x z, ∃ m u m' u' : ℝ,
      predict gp [x, z] true = .ok ⟨[some m, some m'], some [(some u, some (u + r)), (some u', some (u' + r))]⟩ ∧
      (u - u') ^ 2 ≤ scaleFactor k log * ((columns k).zipIdx.map fun c => ((x c.1 - z c.1) / unlog log (pick w c.2)) ^ 2).sum ∧
      (m - m') ^ 2 ≤ S * (scaleFactor k log * ((columns k).zipIdx.map fun c => ((x c.1 - z c.1) / unlog log (pick w c.2)) ^ 2).sum) := by
  have hk' : ∀ q ∈ [k], GoodKernel log q := by simpa using hk
  obtain ⟨S, h0, h1, h2⟩ := C291_change fp t [k] hp log hk' (by simp [hw]) r gp h
  have hd : ∀ x z : Fin N → ℝ, covEntry [k] log x x false - 2 * covEntry [k] log x z false + covEntry [k] log z z false ≤
      scaleFactor k log * ((columns k).zipIdx.map fun c => ((x c.1 - z c.1) / unlog log (pick w c.2)) ^ 2).sum := by
    intro x z
    have hs : 0 ≤ scaleFactor k log := by
      have := (psdk_cov [k] log hk' (fun _ : Unit => x)).diag_nonneg (i := ())
      simp only [Matrix.of_apply, covEntry, List.foldl_cons, List.foldl_nil, hmu, hw, entry, colSum, sub_self, decide_true] at this
      simpa using this
    have hq : ∀ a b : Fin N → ℝ, covEntry [k] log a b false = scaleFactor k log *
        Real.exp (-0.5 * ((columns k).zipIdx.map fun c => ((a c.1 - b c.1) / unlog log (pick w c.2)) ^ 2).sum) := by
      intro a b
      simp only [covEntry, List.foldl_cons, List.foldl_nil, hmu, hw, entry, colSum, Bool.false_eq_true, if_false, zero_add, sub_div]
    have hself : ∀ a : Fin N → ℝ, covEntry [k] log a a false = scaleFactor k log := by
      intro a
      rw [hq]
      simp
    rw [hself, hself, hq]
    set q := ((columns k).zipIdx.map fun c => ((x c.1 - z c.1) / unlog log (pick w c.2)) ^ 2).sum
    have := Real.add_one_le_exp (-0.5 * q)
    nlinarith [mul_le_mul_of_nonneg_left this hs]
  refine ⟨S, h0, h1, fun x z => ?_⟩
  obtain ⟨m, u, m', u', e1, e2, e3⟩ := h2 x z
  exact ⟨m, u, m', u', e1, e2.trans (hd x z), e3.trans (mul_le_mul_of_nonneg_left (hd x z) h0)⟩

/-- Two measurements and a Gaussian kernel with scaling 4 and width 2. -/
example : ∃ (k : KDict 1) (gp : GP 1), k.ktype = .gaussian [2] ∧ k.mult = false ∧ PacksList [k] ∧ GoodKernel false k ∧
    init [![0], ![2]] [0, 1] [k] (some 1) false false = .ok gp := by
  have hp : PacksList (N := 1) [⟨.gaussian [2], none, some 4, false⟩] := by simp [PacksList, Packs]
  have hg : GoodKernel (N := 1) false ⟨.gaussian [2], none, some 4, false⟩ := by simp [GoodKernel, GoodWidths, columns]
  obtain ⟨gp, h⟩ := C113_can_build [![(0:ℝ)], ![2]] [0, 1] [⟨.gaussian [2], none, some 4, false⟩] 1 false false (by simp) (by simp) (by simp)
    hp (by simpa using hg) (Or.inr one_ne_zero)
  exact ⟨_, gp, rfl, rfl, hp, hg, h⟩

end CatLearn.Proc
