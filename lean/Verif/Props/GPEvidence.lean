import Verif.Props.GPSequential
import Verif.Props.GPRelations
import Mathlib.Analysis.Matrix.Spectrum
import Mathlib.Analysis.Matrix.PosDef

/-!
# How large the log marginal likelihood can be (C309)
-/

namespace CatLearn.Proc

open CatLearn CatLearn.Kernel CatLearn.Scaling CatLearn.PSD Matrix

/-- Adding `s` to the diagonal of a positive semidefinite matrix gives a determinant of at least `s ^ n`. -/
private theorem pow_le_det {n : ℕ} (K : Matrix (Fin n) (Fin n) ℝ) (hK : K.PosSemidef) (s : ℝ) (hs : 0 ≤ s)
    (h : ∀ v : Fin n → ℝ, s * (v ⬝ᵥ v) ≤ v ⬝ᵥ K *ᵥ v) : s ^ n ≤ K.det := by
  rw [hK.1.det_eq_prod_eigenvalues]
  have e : ∀ i, s ≤ hK.1.eigenvalues i := by
    intro i
    set b : Fin n → ℝ := ⇑(hK.1.eigenvectorBasis i) with hb
    have h1 := h b
    have h2 : K *ᵥ b = hK.1.eigenvalues i • b := hK.1.mulVec_eigenvectorBasis i
    have h3 : b ⬝ᵥ b = 1 := by
      have := hK.1.eigenvectorBasis.orthonormal.1 i
      have h4 := real_inner_self_eq_norm_sq (hK.1.eigenvectorBasis i)
      rw [this] at h4
      rw [EuclideanSpace.inner_eq_star_dotProduct] at h4
      simpa using h4
    rw [h2, dotProduct_smul, h3] at h1
    simpa using h1
  calc s ^ n = ∏ _i : Fin n, s := by simp
    _ ≤ ∏ i, hK.1.eigenvalues i := Finset.prod_le_prod (fun _ _ => hs) fun i _ => e i
    _ = _ := by simp

private theorem gram_ge {N : ℕ} (ks : List (KDict N)) (log : Bool) (hk : ∀ k ∈ ks, GoodKernel log k) (reg : Option ℝ)
    (fp : List (Fin N → ℝ)) (v : Fin fp.length → ℝ) : regSq log reg * (v ⬝ᵥ v) ≤ v ⬝ᵥ gram ks log reg fp *ᵥ v := by
  have h1 := C41_posSemidef ks log hk none fp.get
  have h2 : gram ks log reg fp = covSelf ks log none fp.get + regSq log reg • (1 : Matrix _ _ ℝ) := by
    ext i j
    rw [gram, covSelf_apply, Matrix.add_apply, covSelf_apply, Matrix.smul_apply, one_apply]
    by_cases hij : i = j <;> simp [hij, regSq]
  have h3 := h1.dotProduct_mulVec_nonneg v
  rw [h2, add_mulVec, smul_mulVec, one_mulVec, dotProduct_add, dotProduct_smul]
  simp only [star_trivial, smul_eq_mul] at h3 ⊢
  linarith

private theorem lml_le {N : ℕ} (ks : List (KDict N)) (log : Bool) (hk : ∀ k ∈ ks, GoodKernel log k) (r : ℝ) (hr : unlog log r ≠ 0)
    (fp : List (Fin N → ℝ)) (y : Fin fp.length → ℝ) : lmlValue (gram ks log (some r) fp) (gram ks log (some r) fp)⁻¹ y ≤
      -(fp.length / 2 * Real.log (2 * Real.pi * unlog log r ^ 2)) := by
  have hs : 0 < unlog log r ^ 2 := by positivity
  have hpd := C41_posSemidef ks log hk (some r) fp.get
  have hd := pow_le_det (gram ks log (some r) fp) hpd (unlog log r ^ 2) hs.le fun v => gram_ge ks log hk (some r) fp v
  have hl := Real.log_le_log (by positivity) hd
  have hq := hpd.inv.dotProduct_mulVec_nonneg y
  simp only [star_trivial] at hq
  change 0 ≤ y ⬝ᵥ (gram ks log (some r) fp)⁻¹ *ᵥ y at hq
  rw [Real.log_pow] at hl
  unfold lmlValue
  rw [Real.log_mul (by positivity) hs.ne']
  linarith

/-- C309: the log marginal likelihood of `n` training points is at most that of `n` targets that are zero and nothing but noise of the size of the
regularisation, whatever the kernels are; with and without scaling of the data. -/
theorem C309_bound {N : ℕ} (fp : List (Fin N → ℝ)) (t : List ℝ) (ks : List (KDict N)) (hp : PacksList ks) (log : Bool)
    (hk : ∀ k ∈ ks, GoodKernel log k) (r : ℝ) (hr : unlog log r ≠ 0) (sd : Bool) (gp : GP N) (h : init fp t ks (some r) log sd = .ok gp)
    (L : ℝ) (hL : gp.lml = some L) : L ≤ -(fp.length / 2 * Real.log (2 * Real.pi * unlog log r ^ 2)) := by
  have hd : ∀ (X : List (Fin N → ℝ)), 0 < (gram ks log (some r) X).det := fun X =>
    lt_of_lt_of_le (by positivity) (pow_le_det _ (C41_posSemidef ks log hk (some r) X.get) (unlog log r ^ 2) (by positivity) fun v => gram_ge ks log hk (some r) X v)
  cases sd with
  | false =>
    have q := C114_density fp t ks hp (some r) log gp h
    rw [hL] at q
    have q' := Option.some.inj q
    change L = Real.log (normalDensity (gram ks log (some r) fp) _) at q'
    rw [← lmlValue_eq _ _ (hd fp)] at q'
    rw [q']
    exact lml_le ks log hk r hr fp _
  | true =>
    obtain ⟨q1, q2⟩ := C114_scaled fp t ks hp (some r) log gp h
    by_cases h0 : tStd t.get = 0
    · rw [q2 h0] at hL
      simp at hL
    · have q := q1 h0
      rw [hL] at q
      have q' := Option.some.inj q
      set X := fp.map fun x a => (x a - colMean fp.get a) / placeOnes (colStd fp.get) a
      change L = Real.log (normalDensity (gram ks log (some r) X) _) at q'
      rw [← lmlValue_eq _ _ (hd X)] at q'
      rw [q']
      have e : X.length = fp.length := by simp [X]
      have := lml_le ks log hk r hr X fun i => (t.map fun y => (y - tMean t.get) / tStd t.get).getD i 0
      have e' : (X.length : ℝ) = fp.length := by rw [e]
      calc _ ≤ _ := this
        _ = _ := by rw [e']

/-- C309: so no hyperparameters make the loss that is minimised smaller than a number that depends on the regularisation only. -/
theorem C309_loss {N : ℕ} (θ : List ℝ) (r : ℝ) (fp : List (Fin N → ℝ)) (y : List ℝ) (ks : List (KDict N)) (log : Bool) (hr : unlog log r ≠ 0)
    (hk : ∀ ks', list2kdict (θ ++ [r]) ks = .ok ks' → ∀ k ∈ ks', GoodKernel log k) (v : ℝ) (h : lossValue (θ ++ [r]) fp y ks log = .ok v) :
    fp.length / 2 * Real.log (2 * Real.pi * unlog log r ^ 2) ≤ v := by
  obtain ⟨ks', h1, h2, h3, h4⟩ := lossValue_ok h
  have := lml_le ks' log (hk ks' h1) r hr fp fun i => y.getD i 0
  rw [h4]
  linarith

private theorem getD_scaled (t : List ℝ) (c : ℝ) (n : ℕ) : (fun i : Fin n => (t.map (c * ·)).getD i 0) = c • fun i : Fin n => t.getD i 0 := by
  funext i
  simp only [List.getD_eq_getElem?_getD, List.getElem?_map, Pi.smul_apply, smul_eq_mul]
  cases t[(i : ℕ)]? <;> simp

private theorem lmlValue_smul {n : ℕ} (K : Matrix (Fin n) (Fin n) ℝ) (y : Fin n → ℝ) (c : ℝ) :
    lmlValue K K⁻¹ (c • y) = lmlValue K K⁻¹ y - (c ^ 2 - 1) / 2 * (y ⬝ᵥ K⁻¹ *ᵥ y) := by
  unfold lmlValue
  rw [mulVec_smul, dotProduct_smul, smul_dotProduct]
  simp only [smul_eq_mul]
  ring

/-- C309: larger targets are less likely. If all targets are multiplied by `c` of magnitude at least one, the likelihood does not increase. -/
theorem C309_larger {N : ℕ} (fp : List (Fin N → ℝ)) (t : List ℝ) (ks : List (KDict N)) (hp : PacksList ks) (log : Bool)
    (reg : Option ℝ) (c : ℝ) (hc : 1 ≤ c ^ 2) (gp gp' : GP N)
    (h : init fp t ks reg log false = .ok gp) (h' : init fp (t.map (c * ·)) ks reg log false = .ok gp') :
    ∃ L L' : ℝ, gp.lml = some L ∧ gp'.lml = some L' ∧ L' ≤ L := by
  obtain ⟨hl, hc1, k1, k2, k3, sr, ts, hpd, -, -⟩ := init_plain hp h
  have q := C114_density fp t ks hp reg log gp h
  have q' := C114_density fp _ ks hp reg log gp' h'
  change gp.lml = some (Real.log (normalDensity (gram ks log reg fp) _)) at q
  change gp'.lml = some (Real.log (normalDensity (gram ks log reg fp) _)) at q'
  rw [← lmlValue_eq _ _ hpd.det_pos] at q q'
  refine ⟨_, _, q, q', ?_⟩
  rw [getD_scaled, lmlValue_smul]
  have hq := hpd.posSemidef.inv.dotProduct_mulVec_nonneg fun i : Fin fp.length => t.getD i 0
  simp only [star_trivial] at hq
  nlinarith

/-- C309: the unit of the targets. Targets, standard deviations and regularisation `c` times as large, that is with a covariance `c²` times as large,
change the log marginal likelihood by `n * log c`, the same for all kernels (hyperparameters not on a log scale). -/
theorem C309_units {N : ℕ} (c : ℝ) (hc : 0 < c) (fp : List (Fin N → ℝ)) (t : List ℝ) (ks : List (KDict N)) (hp : PacksList ks)
    (reg : Option ℝ) (gp gp' : GP N)
    (h : init fp t ks reg false false = .ok gp) (h' : init fp (t.map (c * ·)) (ks.map (louder c)) (reg.map (c * ·)) false false = .ok gp') :
    ∃ L : ℝ, gp.lml = some L ∧ gp'.lml = some (L - fp.length * Real.log c) := by
  obtain ⟨-, -, -, -, -, -, -, hpd, -, -⟩ := init_plain hp h
  obtain ⟨-, -, -, -, -, -, -, hpd', -, -⟩ := init_plain (louder_packs c ks hp) h'
  have q := C114_density fp t ks hp reg false gp h
  have q' := C114_density fp _ _ (louder_packs c ks hp) _ false gp' h'
  change gp.lml = some (Real.log (normalDensity (gram ks false reg fp) _)) at q
  change gp'.lml = some (Real.log (normalDensity (gram (ks.map (louder c)) false (reg.map (c * ·)) fp) _)) at q'
  rw [← lmlValue_eq _ _ hpd.det_pos] at q
  rw [← lmlValue_eq _ _ hpd'.det_pos] at q'
  have h2 : 0 < c ^ 2 := by positivity
  have e : gram (ks.map (louder c)) false (reg.map (c * ·)) fp = c ^ 2 • gram ks false reg fp := by
    ext i j
    rw [gram, covSelf_apply, Matrix.smul_apply, gram, covSelf_apply, covEntry_louder]
    have : regSq false (reg.map (c * ·)) = c ^ 2 * regSq false reg := by cases reg <;> simp [regSq, unlog]; ring
    rw [this]
    by_cases hij : i = j <;> simp [hij, mul_add]
  refine ⟨_, q, ?_⟩
  rw [q', e, getD_scaled]
  congr 1
  have hu := hpd.det_pos.ne'.isUnit
  have hi : (c ^ 2 • gram ks false reg fp)⁻¹ = (c ^ 2)⁻¹ • (gram ks false reg fp)⁻¹ := by
    apply inv_eq_left_inv
    rw [Matrix.smul_mul, Matrix.mul_smul, nonsing_inv_mul _ hu, smul_smul, inv_mul_cancel₀ h2.ne', one_smul]
  unfold lmlValue
  rw [hi, det_smul, Real.log_mul (by positivity) hpd.det_pos.ne', smul_mulVec, mulVec_smul, dotProduct_smul, dotProduct_smul, smul_dotProduct]
  simp only [smul_eq_mul, Fintype.card_fin]
  rw [Real.log_pow, Real.log_pow]
  push_cast
  field_simp
  ring

/-- C309 on two points: the models that are compared exist. -/
example : ∃ gp gp' gp'' : GP 1, init [![(0:ℝ)], ![2]] [0, 2] linK (some 1) false false = .ok gp ∧
    init [![(0:ℝ)], ![2]] ([0, 2].map ((3:ℝ) * ·)) linK (some 1) false false = .ok gp' ∧
    init [![(0:ℝ)], ![2]] ([0, 2].map ((3:ℝ) * ·)) (linK.map (louder 3)) ((some 1).map (3 * ·)) false false = .ok gp'' ∧
    (∃ L, gp.lml = some L ∧ L ≤ -Real.log (2 * Real.pi)) := by
  obtain ⟨gp, h⟩ := C113_can_build [![(0:ℝ)], ![2]] [0, 2] linK 1 false false (by simp) rfl (by simp [linK]) linK_packs linK_good (Or.inr one_ne_zero)
  obtain ⟨gp', h'⟩ := C113_can_build [![(0:ℝ)], ![2]] ([0, 2].map ((3:ℝ) * ·)) linK 1 false false (by simp) rfl (by simp [linK]) linK_packs linK_good (Or.inr one_ne_zero)
  obtain ⟨gp'', h''⟩ := C113_can_build [![(0:ℝ)], ![2]] ([0, 2].map ((3:ℝ) * ·)) (linK.map (louder 3)) (3 * 1) false false (by simp) rfl (by simp [linK])
    (louder_packs 3 linK linK_packs) (by simp [linK, louder, GoodKernel, unlog]) (Or.inr (by norm_num))
  have q := C114_density _ _ _ linK_packs _ _ gp h
  refine ⟨gp, gp', gp'', h, h', h'', _, q, ?_⟩
  have := C309_bound _ _ _ linK_packs false linK_good 1 (by simp [unlog]) false gp h _ q
  simpa [unlog] using this

/-- C309: the bound on the loss is reached, for every regularisation. -/
theorem C309_sharp (r : ℝ) (hr : r ≠ 0) : ∃ (θ : List ℝ) (fp : List (Fin 1 → ℝ)) (y : List ℝ) (ks : List (KDict 1)), fp.length = 1 ∧
    (∀ ks', list2kdict (θ ++ [r]) ks = .ok ks' → ∀ k ∈ ks', GoodKernel false k) ∧
    lossValue (θ ++ [r]) fp y ks false = .ok (fp.length / 2 * Real.log (2 * Real.pi * r ^ 2)) := by
  have h2 : 0 < r ^ 2 := by positivity
  refine ⟨[0], [![0]], [0], constK 1, rfl, fun ks' h => ?_, ?_⟩
  · rw [constK_set] at h
    rw [← Except.ok.inj h]
    simp [constK, GoodKernel, unlog]
  · have := constK_loss 1 0 r false (by simpa [unlog] using h2)
    rw [this, Real.log_mul (by positivity) h2.ne']
    simp [unlog]
    ring

/-- C309 for a loss that can be computed. -/
example : ∃ v, lossValue ([3] ++ [1]) [![(0:ℝ)], ![1]] [5, 7] (constK 2) false = .ok v ∧ Real.log (2 * Real.pi) ≤ v := by
  have hg : ∀ k ∈ constK 3, GoodKernel false k := by simp [constK, GoodKernel]
  have h := lossValue_of (y := [5, 7]) (constK_set 2 3 1) (C41_posDef (constK 3) false hg 1 (Or.inr one_ne_zero) ([![(0:ℝ)], ![1]] : List (Fin 1 → ℝ)).get).1 rfl
  refine ⟨_, h, ?_⟩
  have := C309_loss [3] 1 _ _ (constK 2) false (by simp [unlog]) (fun ks' e => by rw [constK_set] at e; rw [← Except.ok.inj e]; exact hg) _ h
  simpa [unlog] using this

end CatLearn.Proc
