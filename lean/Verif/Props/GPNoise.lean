import Verif.Props.GPSequential

/-!
# What the regularisation does (C281)

Models of the same data and kernels with different regularisations.
-/

namespace CatLearn.Proc

open CatLearn Kernel Matrix

section
variable {n : Type} [Fintype n] [DecidableEq n]

private theorem psd_symm {K : Matrix n n ℝ} (hK : K.PosSemidef) : Kᵀ = K := by
  have := hK.1
  rwa [Matrix.IsHermitian, conjTranspose_eq_transpose_of_trivial] at this

private theorem dot_comm_of {K : Matrix n n ℝ} (hK : Kᵀ = K) (a b : n → ℝ) : a ⬝ᵥ K *ᵥ b = b ⬝ᵥ K *ᵥ a := by
  rw [dotProduct_mulVec, ← mulVec_transpose, hK, dotProduct_comm]

theorem noise_psd_form {K : Matrix n n ℝ} (hK : K.PosSemidef) (a : n → ℝ) : 0 ≤ a ⬝ᵥ K *ᵥ a := by
  have := hK.dotProduct_mulVec_nonneg a
  simpa using this

theorem noise_form_ge {A : Matrix n n ℝ} (hA : A.PosDef) (x z : n → ℝ) : 2 * (z ⬝ᵥ x) - z ⬝ᵥ A *ᵥ z ≤ x ⬝ᵥ A⁻¹ *ᵥ x := by
  have hAx : A *ᵥ (A⁻¹ *ᵥ x) = x := by rw [mulVec_mulVec, mul_nonsing_inv _ hA.det_pos.ne'.isUnit, one_mulVec]
  have h2 := noise_psd_form hA.posSemidef (A⁻¹ *ᵥ x - z)
  rw [mulVec_sub, hAx, sub_dotProduct, dotProduct_sub, dotProduct_sub, dot_comm_of (psd_symm hA.posSemidef) (A⁻¹ *ᵥ x), hAx,
    dotProduct_comm (A⁻¹ *ᵥ x)] at h2
  linarith

/-- Larger matrices have smaller inverses. -/
theorem noise_antitone {A B : Matrix n n ℝ} (hA : A.PosDef) (hB : B.PosDef) (h : ∀ v : n → ℝ, v ⬝ᵥ A *ᵥ v ≤ v ⬝ᵥ B *ᵥ v)
    (x : n → ℝ) : x ⬝ᵥ B⁻¹ *ᵥ x ≤ x ⬝ᵥ A⁻¹ *ᵥ x := by
  have hBx : B *ᵥ (B⁻¹ *ᵥ x) = x := by rw [mulVec_mulVec, mul_nonsing_inv _ hB.det_pos.ne'.isUnit, one_mulVec]
  have h1 := h (B⁻¹ *ᵥ x)
  have h2 := noise_form_ge hA x (B⁻¹ *ᵥ x)
  rw [hBx, dotProduct_comm (B⁻¹ *ᵥ x) x] at h1
  rw [dotProduct_comm (B⁻¹ *ᵥ x) x] at h2
  linarith

variable (K : Matrix n n ℝ) (hK : K.PosSemidef)
include hK

theorem noise_solve {s : ℝ} (h : (K + s • (1 : Matrix n n ℝ)).PosDef) (y : n → ℝ) :
    K *ᵥ ((K + s • (1 : Matrix n n ℝ))⁻¹ *ᵥ y) + s • ((K + s • (1 : Matrix n n ℝ))⁻¹ *ᵥ y) = y := by
  have : (K + s • (1 : Matrix n n ℝ)) *ᵥ ((K + s • (1 : Matrix n n ℝ))⁻¹ *ᵥ y) = y := by
    rw [mulVec_mulVec, mul_nonsing_inv _ h.det_pos.ne'.isUnit, one_mulVec]
  rwa [add_mulVec, smul_mulVec, one_mulVec] at this

private theorem cost_min {s : ℝ} (hs : 0 ≤ s) {y a : n → ℝ} (ha : K *ᵥ a + s • a = y) (b : n → ℝ) :
    (y - K *ᵥ a) ⬝ᵥ (y - K *ᵥ a) + s * (a ⬝ᵥ K *ᵥ a) ≤ (y - K *ᵥ b) ⬝ᵥ (y - K *ᵥ b) + s * (b ⬝ᵥ K *ᵥ b) := by
  have h1 := noise_psd_form hK (b - a)
  have h2 : 0 ≤ (K *ᵥ (b - a)) ⬝ᵥ (K *ᵥ (b - a)) := by
    simp only [dotProduct]; exact Finset.sum_nonneg fun i _ => mul_self_nonneg _
  have e1 : y - K *ᵥ a = s • a := by rw [← ha]; simp
  have e2 : y - K *ᵥ b = s • a - K *ᵥ (b - a) := by rw [← ha, mulVec_sub]; abel
  have e3 : b ⬝ᵥ K *ᵥ b = (b - a) ⬝ᵥ K *ᵥ (b - a) + 2 * (a ⬝ᵥ K *ᵥ (b - a)) + a ⬝ᵥ K *ᵥ a := by
    rw [mulVec_sub, sub_dotProduct, dotProduct_sub, dotProduct_sub, dot_comm_of (psd_symm hK) b a]
    ring
  have e4 : (s • a - K *ᵥ (b - a)) ⬝ᵥ (s • a - K *ᵥ (b - a)) =
      (s • a) ⬝ᵥ (s • a) - 2 * (s * (a ⬝ᵥ K *ᵥ (b - a))) + (K *ᵥ (b - a)) ⬝ᵥ (K *ᵥ (b - a)) := by
    rw [sub_dotProduct, dotProduct_sub, dotProduct_sub, dotProduct_comm (K *ᵥ (b - a)) (s • a), smul_dotProduct, smul_eq_mul]
    simp only [smul_dotProduct, smul_eq_mul]
    ring
  rw [e1, e2, e3, e4]
  have := mul_nonneg hs h1
  linarith

theorem noise_residual {s₁ s₂ : ℝ} (h0 : 0 ≤ s₁) (h12 : s₁ ≤ s₂) {y a b : n → ℝ} (ha : K *ᵥ a + s₁ • a = y)
    (hb : K *ᵥ b + s₂ • b = y) (hu : s₁ = s₂ → a = b) : (y - K *ᵥ a) ⬝ᵥ (y - K *ᵥ a) ≤ (y - K *ᵥ b) ⬝ᵥ (y - K *ᵥ b) := by
  rcases h12.eq_or_lt with h | h
  · rw [hu h]
  · have c1 := cost_min K hK h0 ha b
    have c2 := cost_min K hK (h0.trans h12) hb a
    have : (s₂ - s₁) * (b ⬝ᵥ K *ᵥ b - a ⬝ᵥ K *ᵥ a) ≤ 0 := by nlinarith
    have h3 : b ⬝ᵥ K *ᵥ b - a ⬝ᵥ K *ᵥ a ≤ 0 := by
      by_contra hc
      exact absurd this (not_le.2 (mul_pos (sub_pos.2 h) (not_le.1 hc)))
    have := mul_nonpos_of_nonneg_of_nonpos h0 h3
    linarith

theorem noise_fit {s : ℝ} (hs : 0 ≤ s) {y a : n → ℝ} (ha : K *ᵥ a + s • a = y) :
    (K *ᵥ a) ⬝ᵥ (K *ᵥ a) ≤ y ⬝ᵥ y ∧ s ^ 2 * (a ⬝ᵥ a) ≤ y ⬝ᵥ y := by
  have h1 := mul_nonneg hs (noise_psd_form hK a)
  have h2 : 0 ≤ a ⬝ᵥ a := by simp only [dotProduct]; exact Finset.sum_nonneg fun i _ => mul_self_nonneg _
  have h3 : 0 ≤ (K *ᵥ a) ⬝ᵥ (K *ᵥ a) := by simp only [dotProduct]; exact Finset.sum_nonneg fun i _ => mul_self_nonneg _
  have e : y ⬝ᵥ y = (K *ᵥ a) ⬝ᵥ (K *ᵥ a) + 2 * (s * (a ⬝ᵥ K *ᵥ a)) + s ^ 2 * (a ⬝ᵥ a) := by
    rw [← ha, add_dotProduct, dotProduct_add, dotProduct_add, dotProduct_smul, smul_dotProduct, smul_dotProduct, dotProduct_smul,
      dotProduct_comm (K *ᵥ a) a]
    simp only [smul_eq_mul]
    ring
  have := mul_nonneg (sq_nonneg s) h2
  constructor <;> linarith

end

private noncomputable def base {N : ℕ} (ks : List (KDict N)) (log : Bool) (fp : List (Fin N → ℝ)) : Matrix (Fin fp.length) (Fin fp.length) ℝ :=
  Matrix.of fun i j => covEntry ks log (fp.get i) (fp.get j) false

private theorem base_psd {N : ℕ} (ks : List (KDict N)) (log : Bool) (hk : ∀ k ∈ ks, GoodKernel log k) (hn : ∀ k ∈ ks, ∀ h, k.ktype ≠ .noiseMulti h)
    (fp : List (Fin N → ℝ)) : (base ks log fp).PosSemidef := by
  have h := psdk_cov ks log hk fp.get
  have e : base ks log fp = Matrix.of (fun i j => covEntry ks log (fp.get i) (fp.get j) (decide (i = j))) := by
    ext i j; simp only [base, Matrix.of_apply]; rw [covEntry_self ks log hn _ _ (decide (i = j))]
  rw [e]
  exact h

private theorem gram_base {N : ℕ} (ks : List (KDict N)) (log : Bool) (hn : ∀ k ∈ ks, ∀ h, k.ktype ≠ .noiseMulti h)
    (fp : List (Fin N → ℝ)) (r : ℝ) : gram ks log (some r) fp = base ks log fp + unlog log r ^ 2 • (1 : Matrix _ _ ℝ) := by
  ext i j
  rw [gram, covSelf_apply, covEntry_self ks log hn, Matrix.add_apply, Matrix.smul_apply, Matrix.one_apply]
  have hs : regSq log (some r) = unlog log r ^ 2 := rfl
  rw [hs]
  by_cases h : i = j <;> simp [h, base]

private theorem posdef_le {N : ℕ} (ks : List (KDict N)) (log : Bool) (hn : ∀ k ∈ ks, ∀ h, k.ktype ≠ .noiseMulti h)
    (fp : List (Fin N → ℝ)) (r₁ r₂ : ℝ) (h : unlog log r₁ ^ 2 ≤ unlog log r₂ ^ 2) (v : Fin fp.length → ℝ) :
    v ⬝ᵥ gram ks log (some r₁) fp *ᵥ v ≤ v ⬝ᵥ gram ks log (some r₂) fp *ᵥ v := by
  rw [gram_base ks log hn, gram_base ks log hn, add_mulVec, add_mulVec, dotProduct_add, dotProduct_add, smul_mulVec, smul_mulVec, one_mulVec,
    dotProduct_smul, dotProduct_smul, smul_eq_mul, smul_eq_mul]
  have h2 : 0 ≤ v ⬝ᵥ v := by simp only [dotProduct]; exact Finset.sum_nonneg fun i _ => mul_self_nonneg _
  have := mul_le_mul_of_nonneg_right h h2
  linarith

private theorem target_fun {N : ℕ} {fp : List (Fin N → ℝ)} {t : List ℝ} (hl : t.length = fp.length) :
    (fun i : Fin fp.length => t.getD i 0) = fun i => t.get (i.cast hl.symm) := by
  funext i; rw [List.getD_eq_getElem _ _ (lt_of_lt_of_eq i.2 hl.symm)]; rfl

/-- C281: with more regularisation the sum of squared errors on the training data is larger or the same, and the sum of squared
predictions is never larger than that of the targets. -/
theorem C281_fit {N : ℕ} (fp : List (Fin N → ℝ)) (t : List ℝ) (ks : List (KDict N)) (hp : PacksList ks)
    (log : Bool) (hk : ∀ k ∈ ks, GoodKernel log k) (hn : ∀ k ∈ ks, ∀ h, k.ktype ≠ .noiseMulti h) (r₁ r₂ : ℝ)
    (hr : unlog log r₁ ^ 2 ≤ unlog log r₂ ^ 2) (gp₁ gp₂ : GP N) (h₁ : init fp t ks (some r₁) log false = .ok gp₁)
    (h₂ : init fp t ks (some r₂) log false = .ok gp₂) :
    ∃ p₁ p₂ : Fin fp.length → ℝ, predict gp₁ fp false = .ok ⟨List.ofFn fun i => some (p₁ i), none⟩ ∧
      predict gp₂ fp false = .ok ⟨List.ofFn fun i => some (p₂ i), none⟩ ∧
      ∑ i : Fin fp.length, (t.getD i 0 - p₁ i) ^ 2 ≤ ∑ i : Fin fp.length, (t.getD i 0 - p₂ i) ^ 2 ∧
      ∑ i, p₁ i ^ 2 ≤ ∑ i : Fin fp.length, t.getD i 0 ^ 2 := by
  have hne : fp ≠ [] := (C43_init_partial _ _ _ hp _ _ _ gp₁ h₁).2.1.2.2
  obtain ⟨hl, hc, k1, k2, k3, sr, ts, hpd, hm, hv⟩ := init_plain hp h₁
  obtain ⟨hl', hc', k1', k2', k3', sr', ts', hpd', hm', hv'⟩ := init_plain hp h₂
  rw [gram_base ks log hn] at hpd hpd'
  have hK := base_psd ks log hk hn fp
  have hT := target_fun hl
  have ha := noise_solve (base ks log fp) hK hpd fun i : Fin fp.length => t.getD i 0
  have hb := noise_solve (base ks log fp) hK hpd' fun i : Fin fp.length => t.getD i 0
  have e1 := noise_residual (base ks log fp) hK (sq_nonneg _) hr ha hb (fun h => by rw [h])
  have e2 := noise_fit (base ks log fp) hK (sq_nonneg _) ha
  have hof : ∀ (f : (Fin N → ℝ) → Option ℝ), fp.map f = List.ofFn fun i => f (fp.get i) := by
    intro f
    conv_lhs => rw [← List.ofFn_get fp, List.map_ofFn]
    rfl
  refine ⟨base ks log fp *ᵥ ((base ks log fp + unlog log r₁ ^ 2 • (1 : Matrix _ _ ℝ))⁻¹ *ᵥ fun i : Fin fp.length => t.getD i 0),
    base ks log fp *ᵥ ((base ks log fp + unlog log r₂ ^ 2 • (1 : Matrix _ _ ℝ))⁻¹ *ᵥ fun i : Fin fp.length => t.getD i 0), ?_, ?_, ?_, ?_⟩
  · rw [hc.predict_eq _ hne, hof]
    simp only [sr, hm, ← hT, gram_base ks log hn]
    rfl
  · rw [hc'.predict_eq _ hne, hof]
    simp only [sr', hm', ← hT, gram_base ks log hn]
    rfl
  · simpa [dotProduct, pow_two] using e1
  · simpa [dotProduct, pow_two] using e2.1

/-- C281: with more regularisation the uncertainty of every prediction is larger or the same. -/
theorem C281_uncertainty {N : ℕ} (fp : List (Fin N → ℝ)) (t t' : List ℝ) (ks : List (KDict N)) (hp : PacksList ks)
    (log : Bool) (hk : ∀ k ∈ ks, GoodKernel log k) (hn : ∀ k ∈ ks, ∀ h, k.ktype ≠ .noiseMulti h) (r₁ r₂ : ℝ)
    (hr : unlog log r₁ ^ 2 ≤ unlog log r₂ ^ 2) (gp₁ gp₂ : GP N) (h₁ : init fp t ks (some r₁) log false = .ok gp₁)
    (h₂ : init fp t' ks (some r₂) log false = .ok gp₂) (x : Fin N → ℝ) :
    ∃ p₁ p₂ u₁ u₂ : ℝ, predict gp₁ [x] true = .ok ⟨[some p₁], some [(some u₁, some (u₁ + r₁))]⟩ ∧
      predict gp₂ [x] true = .ok ⟨[some p₂], some [(some u₂, some (u₂ + r₂))]⟩ ∧ 0 ≤ u₁ ∧ u₁ ≤ u₂ := by
  obtain ⟨hl, hc, k1, k2, k3, sr, ts, hpd, hm, hv⟩ := init_plain hp h₁
  obtain ⟨hl', hc', k1', k2', k3', sr', ts', hpd', hm', hv'⟩ := init_plain hp h₂
  have g : ∀ k ∈ gp₁.kernels, GoodKernel gp₁.log k := by rw [k1, k3]; exact hk
  have g' : ∀ k ∈ gp₂.kernels, GoodKernel gp₂.log k := by rw [k1', k3']; exact hk
  refine ⟨postMean (gram ks log (some r₁) fp) (kvec ks log x fp.get) fun i => t.get (i.cast hl.symm),
    postMean (gram ks log (some r₂) fp) (kvec ks log x fp.get) fun i => t'.get (i.cast hl'.symm), Real.sqrt (gp₁.var x), Real.sqrt (gp₂.var x),
    ?_, ?_, Real.sqrt_nonneg _, Real.sqrt_le_sqrt ?_⟩
  · rw [hc.predict_unc _ (by simp) r₁ k2]
    simp only [List.map_cons, List.map_nil, sr, unc_plain hc g ts, hm]
  · rw [hc'.predict_unc _ (by simp) r₂ k2']
    simp only [List.map_cons, List.map_nil, sr', unc_plain hc' g' ts', hm']
  · rw [hv, hv']
    unfold postVar
    rw [← dotProduct_mulVec, ← dotProduct_mulVec]
    have := noise_antitone hpd hpd' (posdef_le ks log hn fp r₁ r₂ hr) (kvec ks log x fp.get)
    linarith

/-- C281: at the points of the training data the uncertainty is at most the regularisation. -/
theorem C281_at_data {N : ℕ} (fp : List (Fin N → ℝ)) (t : List ℝ) (ks : List (KDict N)) (hp : PacksList ks)
    (log : Bool) (hk : ∀ k ∈ ks, GoodKernel log k) (hn : ∀ k ∈ ks, ∀ h, k.ktype ≠ .noiseMulti h) (r : ℝ)
    (gp : GP N) (h : init fp t ks (some r) log false = .ok gp) (x : Fin N → ℝ) (hx : x ∈ fp) :
    ∃ p u : ℝ, predict gp [x] true = .ok ⟨[some p], some [(some u, some (u + r))]⟩ ∧ 0 ≤ u ∧ u ≤ |unlog log r| := by
  obtain ⟨hl, hc, k1, k2, k3, sr, ts, hpd, hm, hv⟩ := init_plain hp h
  have g : ∀ k ∈ gp.kernels, GoodKernel gp.log k := by rw [k1, k3]; exact hk
  refine ⟨postMean (gram ks log (some r) fp) (kvec ks log x fp.get) fun i => t.get (i.cast hl.symm), Real.sqrt (gp.var x), ?_, Real.sqrt_nonneg _, ?_⟩
  · rw [hc.predict_unc _ (by simp) r k2]
    simp only [List.map_cons, List.map_nil, sr, unc_plain hc g ts, hm]
  · rw [← Real.sqrt_sq_eq_abs]
    apply Real.sqrt_le_sqrt
    obtain ⟨i, rfl⟩ := List.get_of_mem hx
    have h1 := noise_form_ge hpd (kvec ks log (fp.get i) fp.get) (Pi.single i 1)
    rw [single_one_dotProduct, single_one_dotProduct, mulVec_single_one] at h1
    have h2 : (gram ks log (some r) fp).col i i = covEntry ks log (fp.get i) (fp.get i) false + unlog log r ^ 2 := by
      rw [gram_base ks log hn]
      simp [base]
    have h3 : kvec ks log (fp.get i) fp.get i = covEntry ks log (fp.get i) (fp.get i) false := rfl
    rw [h2, h3] at h1
    have h4 := covEntry_self ks log hn (fp.get i) (fp.get i) true
    rw [hv, h4]
    unfold postVar
    rw [← dotProduct_mulVec]
    linarith

/-- C281: with ever more regularisation the prediction tends to zero and the variance to the one without data. -/
theorem C281_limit {N : ℕ} (fp : List (Fin N → ℝ)) (t : List ℝ) (ks : List (KDict N)) (hp : PacksList ks)
    (log : Bool) (hk : ∀ k ∈ ks, GoodKernel log k) (hn : ∀ k ∈ ks, ∀ h, k.ktype ≠ .noiseMulti h) (x : Fin N → ℝ) (ε : ℝ) (hε : 0 < ε) :
    ∃ R : ℝ, ∀ r, R ≤ unlog log r → ∀ gp, init fp t ks (some r) log false = .ok gp →
      ∃ p u : ℝ, predict gp [x] true = .ok ⟨[some p], some [(some u, some (u + r))]⟩ ∧ |p| < ε ∧
        u ^ 2 ≤ covEntry ks log x x false ∧ covEntry ks log x x false - ε < u ^ 2 := by
  set k := kvec ks log x fp.get with hkd
  set T := fun i : Fin fp.length => t.getD i 0 with hTd
  have nn : ∀ v : Fin fp.length → ℝ, 0 ≤ v ⬝ᵥ v := fun v => by
    simp only [dotProduct]; exact Finset.sum_nonneg fun i _ => mul_self_nonneg _
  have hK := base_psd ks log hk hn fp
  refine ⟨1 + Real.sqrt (k ⬝ᵥ k * (T ⬝ᵥ T)) / ε + (k ⬝ᵥ k) / ε, fun r hR gp h => ?_⟩
  obtain ⟨hl, hc, k1, k2, k3, sr, ts, hpd, hm, hv⟩ := init_plain hp h
  have g : ∀ k ∈ gp.kernels, GoodKernel gp.log k := by rw [k1, k3]; exact hk
  have hT := target_fun hl
  have hb := gram_base ks log hn fp r
  have hpd' := hpd
  rw [hb] at hpd'
  set s := unlog log r ^ 2 with hs
  have hq1 : 0 ≤ Real.sqrt (k ⬝ᵥ k * (T ⬝ᵥ T)) / ε := div_nonneg (Real.sqrt_nonneg _) hε.le
  have hq2 : 0 ≤ (k ⬝ᵥ k) / ε := div_nonneg (nn _) hε.le
  have hsR : unlog log r ≤ s := by rw [hs, pow_two]; nlinarith
  have hs0 : 0 < s := by linarith
  have hs1 : Real.sqrt (k ⬝ᵥ k * (T ⬝ᵥ T)) < s * ε := by
    rw [← div_lt_iff₀ hε]; linarith
  have hs2 : k ⬝ᵥ k < s * ε := by
    rw [← div_lt_iff₀ hε]; linarith
  have bound : ∀ v : Fin fp.length → ℝ, s * |k ⬝ᵥ (gram ks log (some r) fp)⁻¹ *ᵥ v| ≤ Real.sqrt (k ⬝ᵥ k * (v ⬝ᵥ v)) := by
    intro v
    have e := (noise_fit (base ks log fp) hK hs0.le (noise_solve (base ks log fp) hK hpd' v)).2
    rw [← hb] at e
    set a := (gram ks log (some r) fp)⁻¹ *ᵥ v
    have cs : (k ⬝ᵥ a) ^ 2 ≤ (k ⬝ᵥ k) * (a ⬝ᵥ a) := by
      have := Finset.sum_mul_sq_le_sq_mul_sq Finset.univ k a
      simpa [dotProduct, pow_two] using this
    apply Real.le_sqrt_of_sq_le
    rw [mul_pow, sq_abs]
    calc s ^ 2 * (k ⬝ᵥ a) ^ 2 ≤ s ^ 2 * ((k ⬝ᵥ k) * (a ⬝ᵥ a)) := mul_le_mul_of_nonneg_left cs (sq_nonneg _)
      _ = (k ⬝ᵥ k) * (s ^ 2 * (a ⬝ᵥ a)) := by ring
      _ ≤ _ := mul_le_mul_of_nonneg_left e (nn _)
  refine ⟨postMean (gram ks log (some r) fp) k T, Real.sqrt (gp.var x), ?_, ?_, ?_⟩
  · rw [hc.predict_unc _ (by simp) r k2]
    simp only [List.map_cons, List.map_nil, sr, unc_plain hc g ts, hm, hkd, hTd, hT]
  · have := (bound T).trans_lt hs1
    exact lt_of_mul_lt_mul_left this hs0.le
  · rw [Real.sq_sqrt (C42_variance gp hc g x).1, hv, covEntry_self ks log hn x x true]
    unfold postVar
    rw [← dotProduct_mulVec]
    have b := bound k
    rw [Real.sqrt_mul_self (nn k)] at b
    have b2 := lt_of_mul_lt_mul_left (b.trans_lt hs2) hs0.le
    have b3 := noise_psd_form hpd.inv.posSemidef k
    rw [abs_of_nonneg b3] at b2
    constructor <;> linarith

example : ∃ gp₁ gp₂ : GP 1, init [![0], ![2]] [0, 1] linK (some 1) false false = .ok gp₁ ∧
    init [![0], ![2]] [0, 1] linK (some 2) false false = .ok gp₂ ∧ unlog false 1 ^ 2 ≤ unlog false 2 ^ 2 ∧
    (∀ k ∈ linK, ∀ h, k.ktype ≠ .noiseMulti h) ∧ (∀ k ∈ linK, GoodKernel false k) ∧ PacksList linK := by
  obtain ⟨g1, h1⟩ := C113_can_build [![(0:ℝ)], ![2]] [0, 1] linK 1 false false (by simp) (by simp) (by simp [linK]) linK_packs linK_good (Or.inr one_ne_zero)
  obtain ⟨g2, h2⟩ := C113_can_build [![(0:ℝ)], ![2]] [0, 1] linK 2 false false (by simp) (by simp) (by simp [linK]) linK_packs linK_good (Or.inr two_ne_zero)
  exact ⟨g1, g2, h1, h2, by norm_num [unlog], by simp [linK], linK_good, linK_packs⟩

end CatLearn.Proc
