import Verif.Props.GPGradSequential
import Verif.Props.GPNoise

/-!
# What the regularisation does to a model of values and gradients (C292)

Models of the same data and kernels with different regularisations, without scaling of the data.
-/

namespace CatLearn.GradProc

open CatLearn CatLearn.Kernel CatLearn.Proc Matrix

private theorem dot_nonneg {n : Type} [Fintype n] (v : n → ℝ) : 0 ≤ v ⬝ᵥ v := by
  simp only [dotProduct]; exact Finset.sum_nonneg fun i _ => mul_self_nonneg _

private theorem covGrad_reg {N : ℕ} {n : Type} [DecidableEq n] (ks : List (GDict N)) (r : ℝ) (X : n → Fin N → ℝ) :
    covGrad ks (some r) X = covGrad ks none X + r ^ 2 • (1 : Matrix _ _ ℝ) := by
  rw [Matrix.smul_one_eq_diagonal]
  simp [covGrad]

/-- How far a model is from its training data: the squared errors of the predictions `f` and of their slopes `g` at the training points. -/
noncomputable def misfit {N : ℕ} (fp : List (Fin N → ℝ)) (t : List ℝ) (grad : List (Fin N → ℝ)) (f : (Fin N → ℝ) → ℝ)
    (g : Fin fp.length → Fin N → ℝ) : ℝ :=
  ∑ i : Fin fp.length, ((t.getD i 0 - f (fp.get i)) ^ 2 + ∑ a, (grad.getD i 0 a - g i a) ^ 2)

/-- `f` are the predictions of a model and `g i` their slopes at training point number `i`. -/
def Predicts {N : ℕ} (gp : GradGP N) (fp : List (Fin N → ℝ)) (f : (Fin N → ℝ) → ℝ) (g : Fin fp.length → Fin N → ℝ) : Prop :=
  (∀ z, predict gp z = .ok (some (f z))) ∧
    ∀ i a, HasDerivAt (fun s => f (Function.update (fp.get i) a s)) (g i a) (fp.get i a)

/-- The predictions and slopes of a model at the training points are the covariance times the weights of the data. -/
private theorem predicts {N : ℕ} {fp : List (Fin N → ℝ)} {t : List ℝ} {grad : List (Fin N → ℝ)} {ks : List (GDict N)} {reg : Option ℝ}
    {gp : GradGP N} (hk : ∀ k ∈ ks, SumKernel k) (h : init fp t grad ks reg false = .ok gp) (hg : grad.length = fp.length)
    (f : (Fin N → ℝ) → ℝ) (g : Fin fp.length → Fin N → ℝ) (hp : Predicts gp fp f g) :
    misfit fp t grad f g = (vec fp.length (t ++ flat grad) - covGrad ks none fp.get *ᵥ ((covGrad ks reg fp.get)⁻¹ *ᵥ vec fp.length (t ++ flat grad))) ⬝ᵥ
      (vec fp.length (t ++ flat grad) - covGrad ks none fp.get *ᵥ ((covGrad ks reg fp.get)⁻¹ *ᵥ vec fp.length (t ++ flat grad))) := by
  obtain ⟨h0, h1, h2, h3, h4, h5, -⟩ := init_false h
  set α := (covGrad ks reg fp.get)⁻¹ *ᵥ vec fp.length (t ++ flat grad) with hα
  have hfx : ∀ z, f z = covRow ks z fp.get ⬝ᵥ α := by
    intro z
    have := hp.1 z
    rw [(init_predict h z).1] at this
    simpa [postMean] using this.symm
  have e1 : ∀ i, f (fp.get i) = (covGrad ks none fp.get *ᵥ α) (.inl i) := by
    intro i
    rw [hfx, covRow_self ks (SumKernel.no_noise hk)]
    rfl
  have e2 : ∀ i a, g i a = (covGrad ks none fp.get *ᵥ α) (.inr (i, a)) := by
    intro i a
    have hd : HasDerivAt (fun v => covRow ks (Function.update (fp.get i) a v) fp.get ⬝ᵥ α)
        (∑ p, covGrad ks none fp.get (.inr (i, a)) p * α p) (fp.get i a) :=
      HasDerivAt.fun_sum fun p _ => (covRow_deriv ks hk fp.get i a p).mul_const (α p)
    have hd' := hp.2 i a
    simp only [hfx] at hd'
    exact hd'.unique hd
  obtain ⟨v1, v2⟩ := vec_append (N := N) t grad h1.symm hg
  have d1 : ∀ i : Fin fp.length, t.getD i 0 = vec (N := N) fp.length (t ++ flat grad) (.inl i) := by
    intro i
    rw [v1, List.getD_eq_getElem _ _ (lt_of_lt_of_eq i.2 h1)]
  have d2 : ∀ (i : Fin fp.length) (a : Fin N), grad.getD i 0 a = vec (N := N) fp.length (t ++ flat grad) (.inr (i, a)) := by
    intro i a
    rw [v2, List.getD_eq_getElem _ _ (lt_of_lt_of_eq i.2 hg.symm)]
  unfold misfit
  simp only [e1, e2, d1, d2, Finset.sum_add_distrib]
  simp only [dotProduct, Fintype.sum_sum_type, Fintype.sum_prod_type, Pi.sub_apply, pow_two]

/-- The predictions of a model have slopes at the training points. -/
theorem predicts_exists {N : ℕ} {fp : List (Fin N → ℝ)} {t : List ℝ} {grad : List (Fin N → ℝ)} {ks : List (GDict N)} {reg : Option ℝ}
    {gp : GradGP N} (hk : ∀ k ∈ ks, SumKernel k) (h : init fp t grad ks reg false = .ok gp) : ∃ f g, Predicts gp fp f g := by
  refine ⟨_, fun i a => ∑ p, covGrad ks none fp.get (.inr (i, a)) p * ((covGrad ks reg fp.get)⁻¹ *ᵥ vec fp.length (t ++ flat grad)) p,
    fun z => (init_predict h z).1, fun i a => ?_⟩
  exact HasDerivAt.fun_sum fun p _ => (covRow_deriv ks hk fp.get i a p).mul_const _

/-- C292: of two models of the same values and gradients, the one with the larger regularisation is not closer to them. -/
theorem C292_fit {N : ℕ} (fp : List (Fin N → ℝ)) (t : List ℝ) (grad : List (Fin N → ℝ)) (hg : grad.length = fp.length) (ks : List (GDict N))
    (hk : ∀ k ∈ ks, SumKernel k) (hs : ∀ k ∈ ks, GoodGrad k) (r₁ r₂ : ℝ) (hr : |r₁| ≤ |r₂|) (gp₁ gp₂ : GradGP N)
    (h₁ : init fp t grad ks (some r₁) false = .ok gp₁) (h₂ : init fp t grad ks (some r₂) false = .ok gp₂) :
    ∃ f₁ g₁ f₂ g₂, Predicts gp₁ fp f₁ g₁ ∧ Predicts gp₂ fp f₂ g₂ ∧ misfit fp t grad f₁ g₁ ≤ misfit fp t grad f₂ g₂ := by
  obtain ⟨f₁, g₁, p₁⟩ := predicts_exists hk h₁
  obtain ⟨f₂, g₂, p₂⟩ := predicts_exists hk h₂
  refine ⟨f₁, g₁, f₂, g₂, p₁, p₂, ?_⟩
  obtain ⟨-, -, -, -, -, k1, -⟩ := init_false h₁
  obtain ⟨-, -, -, -, -, k2, -⟩ := init_false h₂
  rw [predicts hk h₁ hg f₁ g₁ p₁, predicts hk h₂ hg f₂ g₂ p₂]
  rw [covGrad_reg] at k1 k2
  have hK := (C106_gradient_covariance_partial ks hs fp.get).1 none
  have ha := noise_solve (covGrad ks none fp.get) hK k1 (vec fp.length (t ++ flat grad))
  have hb := noise_solve (covGrad ks none fp.get) hK k2 (vec fp.length (t ++ flat grad))
  rw [covGrad_reg, covGrad_reg]
  exact noise_residual (covGrad ks none fp.get) hK (sq_nonneg _) (sq_le_sq.2 hr) ha hb fun e => by rw [e]

/-- C292: the model with the larger regularisation is not more certain at any point, whatever the targets and gradients are. -/
theorem C292_uncertainty {N : ℕ} (fp : List (Fin N → ℝ)) (t₁ t₂ : List ℝ) (grad₁ grad₂ : List (Fin N → ℝ)) (ks : List (GDict N))
    (hs : ∀ k ∈ ks, GoodGrad k) (hc : ∀ k ∈ ks, ∀ c1 c2 c3, k.gtype ≠ .constantMulti c1 c2 c3) (r₁ r₂ : ℝ) (hr : |r₁| ≤ |r₂|)
    (gp₁ gp₂ : GradGP N) (h₁ : init fp t₁ grad₁ ks (some r₁) false = .ok gp₁) (h₂ : init fp t₂ grad₂ ks (some r₂) false = .ok gp₂)
    (x : Fin N → ℝ) : ∃ u₁ u₂ : ℝ, uncertainty gp₁ x = .ok (some u₁) ∧ uncertainty gp₂ x = .ok (some u₂) ∧ 0 ≤ u₁ ∧ u₁ ≤ u₂ := by
  obtain ⟨u₁, hu₁, p₁, -⟩ := C209_uncertainty_partial fp t₁ grad₁ ks hs hc r₁ false gp₁ h₁ x
  obtain ⟨u₂, hu₂, p₂, -⟩ := C209_uncertainty_partial fp t₂ grad₂ ks hs hc r₂ false gp₂ h₂ x
  refine ⟨u₁, u₂, hu₁, hu₂, p₁, ?_⟩
  obtain ⟨-, -, -, -, -, k1, -⟩ := init_false h₁
  obtain ⟨-, -, -, -, -, k2, -⟩ := init_false h₂
  rw [(init_predict h₁ x).2, kxx_ok ks x hc fp.get] at hu₁
  rw [(init_predict h₂ x).2, kxx_ok ks x hc fp.get] at hu₂
  simp only [Except.ok.injEq] at hu₁ hu₂
  have key := noise_antitone k1 k2 (fun v => by
    rw [covGrad_reg, covGrad_reg, add_mulVec, add_mulVec, dotProduct_add, dotProduct_add, smul_mulVec, smul_mulVec, one_mulVec,
      dotProduct_smul, dotProduct_smul, smul_eq_mul, smul_eq_mul]
    have := mul_le_mul_of_nonneg_right (sq_le_sq.2 hr) (dot_nonneg v)
    linarith) (covRow ks x fp.get)
  unfold npSqrt postVar at hu₁ hu₂
  rw [← dotProduct_mulVec] at hu₁ hu₂
  split at hu₁
  · cases hu₁
  split at hu₂
  · cases hu₂
  simp only [Option.some.injEq] at hu₁ hu₂
  rw [← hu₁, ← hu₂]
  exact Real.sqrt_le_sqrt (by linarith)

/-- C292: at the training points the uncertainty is at most the regularisation. -/
theorem C292_at_data {N : ℕ} (fp : List (Fin N → ℝ)) (t : List ℝ) (grad : List (Fin N → ℝ)) (ks : List (GDict N))
    (hs : ∀ k ∈ ks, GoodGrad k) (hc : ∀ k ∈ ks, ∀ c1 c2 c3, k.gtype ≠ .constantMulti c1 c2 c3)
    (hn : ∀ k ∈ ks, ∀ t1 t2, k.gtype ≠ .noiseMulti t1 t2) (r : ℝ) (gp : GradGP N) (h : init fp t grad ks (some r) false = .ok gp)
    (x : Fin N → ℝ) (hx : x ∈ fp) : ∃ u : ℝ, uncertainty gp x = .ok (some u) ∧ 0 ≤ u ∧ u ≤ |r| := by
  obtain ⟨u, hu, p, -⟩ := C209_uncertainty_partial fp t grad ks hs hc r false gp h x
  refine ⟨u, hu, p, ?_⟩
  obtain ⟨-, -, -, -, -, k1, -⟩ := init_false h
  obtain ⟨i, rfl⟩ := List.get_of_mem hx
  rw [(init_predict h _).2, kxx_ok ks _ hc fp.get] at hu
  simp only [Except.ok.injEq] at hu
  have h1 := noise_form_ge k1 (covRow ks (fp.get i) fp.get) (Pi.single (.inl i) 1)
  rw [single_one_dotProduct, single_one_dotProduct, mulVec_single_one] at h1
  have h2 : (covGrad ks (some r) fp.get).col (.inl i) (.inl i) = covGrad ks none fp.get (.inl i) (.inl i) + r ^ 2 := by
    rw [covGrad_reg]
    simp
  have h3 : covRow ks (fp.get i) fp.get (.inl i) = covGrad ks none fp.get (.inl i) (.inl i) := by rw [covRow_self ks hn]
  have h4 : covGrad ks none (Sum.elim fp.get fun _ : Unit => fp.get i) (.inl (.inr ())) (.inl (.inr ())) = covGrad ks none fp.get (.inl i) (.inl i) := by
    have e := covGrad_among ks none (N := N) (fun _ : Unit => i) (fun _ _ _ => rfl) fp.get
    have e' := covGrad_among ks none (N := N) (fun _ : Unit => (Sum.inr () : Fin fp.length ⊕ Unit)) (fun _ _ _ => rfl) (Sum.elim fp.get fun _ : Unit => fp.get i)
    have a1 := congrFun (congrFun e (.inl ())) (.inl ())
    have a2 := congrFun (congrFun e' (.inl ())) (.inl ())
    simp only [Sum.elim_inr] at a2
    exact a2.symm.trans a1
  rw [h2, h3] at h1
  rw [h4] at hu
  unfold npSqrt postVar at hu
  rw [← dotProduct_mulVec] at hu
  split at hu
  · cases hu
  simp only [Option.some.injEq] at hu
  rw [← hu, ← Real.sqrt_sq_eq_abs]
  exact Real.sqrt_le_sqrt (by linarith)

private theorem inv_comm {n : Type} [Fintype n] [DecidableEq n] {K : Matrix n n ℝ} {s : ℝ} (h1 : (K + s • (1 : Matrix n n ℝ)).PosDef)
    (v : n → ℝ) : (K + s • (1 : Matrix n n ℝ))⁻¹ *ᵥ (K *ᵥ v) = K *ᵥ ((K + s • (1 : Matrix n n ℝ))⁻¹ *ᵥ v) := by
  set A := K + s • (1 : Matrix n n ℝ) with hA
  have hu := h1.det_pos.ne'.isUnit
  have hc : A * K = K * A := by simp [hA, add_mul, mul_add]
  have : A⁻¹ * K = K * A⁻¹ := by
    calc A⁻¹ * K = A⁻¹ * (K * (A * A⁻¹)) := by rw [mul_nonsing_inv _ hu, mul_one]
      _ = A⁻¹ * (A * K * A⁻¹) := by rw [hc, Matrix.mul_assoc]
      _ = K * A⁻¹ := by rw [Matrix.mul_assoc, ← Matrix.mul_assoc, nonsing_inv_mul _ hu, Matrix.one_mul]
  rw [mulVec_mulVec, this, ← mulVec_mulVec]

/-- Weights with regularisation are not larger than those without. -/
private theorem weights_le {n : Type} [Fintype n] [DecidableEq n] {K : Matrix n n ℝ} (hK : K.PosSemidef) {s : ℝ} (hs : 0 ≤ s)
    (h1 : (K + s • (1 : Matrix n n ℝ)).PosDef) (b : n → ℝ) :
    ((K + s • (1 : Matrix n n ℝ))⁻¹ *ᵥ (K *ᵥ b)) ⬝ᵥ ((K + s • (1 : Matrix n n ℝ))⁻¹ *ᵥ (K *ᵥ b)) ≤ b ⬝ᵥ b := by
  rw [inv_comm h1]
  exact (noise_fit K hK hs (noise_solve K hK h1 b)).1

/-- C292: if the values and gradients can be fitted exactly (the model without regularisation can be made), the squared errors of a model vanish
with the fourth power of its regularisation. -/
theorem C292_exact_limit {N : ℕ} (fp : List (Fin N → ℝ)) (t : List ℝ) (grad : List (Fin N → ℝ)) (hg : grad.length = fp.length) (ks : List (GDict N))
    (hk : ∀ k ∈ ks, SumKernel k) (hs : ∀ k ∈ ks, GoodGrad k) (gp₀ : GradGP N) (h₀ : init fp t grad ks none false = .ok gp₀) :
    ∃ C : ℝ, ∀ (r : ℝ) (gp : GradGP N), init fp t grad ks (some r) false = .ok gp →
      ∀ f g, Predicts gp fp f g → misfit fp t grad f g ≤ C * r ^ 4 := by
  obtain ⟨-, -, -, -, -, k0, -⟩ := init_false h₀
  have hK := (C106_gradient_covariance_partial ks hs fp.get).1 none
  set y := vec (N := N) fp.length (t ++ flat grad) with hy
  set K := covGrad ks none fp.get with hKd
  refine ⟨(K⁻¹ *ᵥ y) ⬝ᵥ (K⁻¹ *ᵥ y), fun r gp h f g hp => ?_⟩
  obtain ⟨-, -, -, -, -, k1, -⟩ := init_false h
  rw [predicts hk h hg f g hp, covGrad_reg]
  rw [covGrad_reg] at k1
  simp only [← hy, ← hKd] at k1 ⊢
  have ha := noise_solve K hK k1 y
  have e : y - K *ᵥ ((K + r ^ 2 • (1 : Matrix _ _ ℝ))⁻¹ *ᵥ y) = r ^ 2 • ((K + r ^ 2 • (1 : Matrix _ _ ℝ))⁻¹ *ᵥ y) := by
    conv_lhs => lhs; rw [← ha]
    simp
  rw [e, smul_dotProduct, dotProduct_smul, smul_eq_mul, smul_eq_mul]
  have hKy : K *ᵥ (K⁻¹ *ᵥ y) = y := by rw [mulVec_mulVec, mul_nonsing_inv _ k0.det_pos.ne'.isUnit, one_mulVec]
  have w := weights_le hK (sq_nonneg r) k1 (K⁻¹ *ᵥ y)
  rw [hKy] at w
  have := mul_le_mul_of_nonneg_left w (by positivity : (0:ℝ) ≤ r ^ 4)
  linarith

/-- C292: and its predictions at any point tend to those of the model without regularisation, with the square of the regularisation. -/
theorem C292_limit {N : ℕ} (fp : List (Fin N → ℝ)) (t : List ℝ) (grad : List (Fin N → ℝ)) (ks : List (GDict N))
    (hs : ∀ k ∈ ks, GoodGrad k) (gp₀ : GradGP N) (h₀ : init fp t grad ks none false = .ok gp₀) (x : Fin N → ℝ) :
    ∃ p₀ C : ℝ, predict gp₀ x = .ok (some p₀) ∧ ∀ (r : ℝ) (gp : GradGP N), init fp t grad ks (some r) false = .ok gp →
      ∃ p : ℝ, predict gp x = .ok (some p) ∧ |p - p₀| ≤ C * r ^ 2 := by
  obtain ⟨-, -, -, -, -, k0, -⟩ := init_false h₀
  have hK := (C106_gradient_covariance_partial ks hs fp.get).1 none
  set y := vec (N := N) fp.length (t ++ flat grad) with hy
  set K := covGrad ks none fp.get with hKd
  set k := covRow ks x fp.get with hkd
  set b := K⁻¹ *ᵥ (K⁻¹ *ᵥ y) with hb
  have hKi : ∀ v, K *ᵥ (K⁻¹ *ᵥ v) = v := fun v => by rw [mulVec_mulVec, mul_nonsing_inv _ k0.det_pos.ne'.isUnit, one_mulVec]
  refine ⟨_, Real.sqrt ((k ⬝ᵥ k) * (b ⬝ᵥ b)), (init_predict h₀ x).1, fun r gp h => ⟨_, (init_predict h x).1, ?_⟩⟩
  obtain ⟨-, -, -, -, -, k1, -⟩ := init_false h
  rw [covGrad_reg] at k1 ⊢
  simp only [postMean, ← hy, ← hKd, ← hkd] at k1 ⊢
  set A := K + r ^ 2 • (1 : Matrix (Ix fp.length N) (Ix fp.length N) ℝ) with hA
  have w := weights_le hK (sq_nonneg r) k1 b
  have hKb : K *ᵥ b = K⁻¹ *ᵥ y := hKi _
  rw [hKb] at w
  simp only [← hA] at w
  have e : A⁻¹ *ᵥ y - K⁻¹ *ᵥ y = -(r ^ 2 • (A⁻¹ *ᵥ (K⁻¹ *ᵥ y))) := by
    have hAi : ∀ v, A⁻¹ *ᵥ (A *ᵥ v) = v := fun v => by rw [mulVec_mulVec, nonsing_inv_mul _ k1.det_pos.ne'.isUnit, one_mulVec]
    have h2 : A *ᵥ (K⁻¹ *ᵥ y) = y + r ^ 2 • (K⁻¹ *ᵥ y) := by
      rw [hA, add_mulVec, hKi, smul_mulVec, one_mulVec]
    have h3 := hAi (K⁻¹ *ᵥ y)
    rw [h2, mulVec_add, mulVec_smul] at h3
    rw [← h3]
    conv_lhs => rw [h3]
    have h4 : A⁻¹ *ᵥ y = K⁻¹ *ᵥ y - r ^ 2 • (A⁻¹ *ᵥ (K⁻¹ *ᵥ y)) := by rw [eq_sub_iff_add_eq]; exact h3
    rw [h3, h4]
    abel
  rw [← dotProduct_sub, e, dotProduct_neg, abs_neg, dotProduct_smul, smul_eq_mul, abs_mul, abs_of_nonneg (sq_nonneg r), mul_comm]
  refine mul_le_mul_of_nonneg_right ?_ (sq_nonneg r)
  apply Real.abs_le_sqrt
  have cs : (k ⬝ᵥ (A⁻¹ *ᵥ (K⁻¹ *ᵥ y))) ^ 2 ≤ (k ⬝ᵥ k) * ((A⁻¹ *ᵥ (K⁻¹ *ᵥ y)) ⬝ᵥ (A⁻¹ *ᵥ (K⁻¹ *ᵥ y))) := by
    have := Finset.sum_mul_sq_le_sq_mul_sq Finset.univ k (A⁻¹ *ᵥ (K⁻¹ *ᵥ y))
    simpa [dotProduct, pow_two] using this
  exact cs.trans (mul_le_mul_of_nonneg_left w (dot_nonneg k))

/-- The models exist: one point, with and without regularisation. -/
example (t : ℝ) (g : Fin 1 → ℝ) : ∃ gp₀ gp₁ gp₂ : GradGP 1, init [![0]] [t] [g] [⟨.gaussian ![1], 1, false⟩] none false = .ok gp₀ ∧
    init [![0]] [t] [g] [⟨.gaussian ![1], 1, false⟩] (some 1) false = .ok gp₁ ∧
    init [![0]] [t] [g] [⟨.gaussian ![1], 1, false⟩] (some (-2)) false = .ok gp₂ ∧ |(1:ℝ)| ≤ |-2| ∧
    SumKernel (N := 1) ⟨.gaussian ![1], 1, false⟩ ∧ GoodGrad (N := 1) ⟨.gaussian ![1], 1, false⟩ := by
  have hK : covGrad [⟨.gaussian ![1], 1, false⟩] none [![(0 : ℝ)]].get = 1 := by
    ext p q
    rcases p with i | ⟨i, a⟩ <;> rcases q with j | ⟨j, b⟩ <;> fin_cases i <;> fin_cases j <;> try fin_cases a
    all_goals try fin_cases b
    all_goals simp [covGrad, gMatrix, gaussXX, gauss, Matrix.one_apply]
  have h0 := init_of (fp := [![(0:ℝ)]]) (t := [t]) (grad := [g]) (ks := [⟨.gaussian ![1], 1, false⟩]) (reg := none) (by simp) rfl rfl rfl rfl
    (by rw [hK]; exact Matrix.PosDef.one)
  obtain ⟨g1, h1⟩ := C123_trains [![(0:ℝ)]] [t] [g] [⟨.gaussian ![1], 1, false⟩] (by simp) rfl (by simp [GoodGrad]) 1 one_ne_zero false (by simp) rfl rfl
  obtain ⟨g2, h2⟩ := C123_trains [![(0:ℝ)]] [t] [g] [⟨.gaussian ![1], 1, false⟩] (by simp) rfl (by simp [GoodGrad]) (-2) (by norm_num) false (by simp) rfl rfl
  exact ⟨_, g1, g2, h0, h1, h2, by norm_num, ⟨rfl, by simp⟩, by simp [GoodGrad]⟩

end CatLearn.GradProc
