import Verif.Props.GPGradUnits
import Verif.Props.GPGradFeatures
import Mathlib.Topology.Instances.Matrix

/-!
# Gradients that are very uncertain (C302)
-/

namespace CatLearn.GradProc

open CatLearn CatLearn.Kernel CatLearn.Proc Matrix Filter Topology

/-- Kernels with noise of standard deviation `t1` on values and `τ` on slopes (up to the scaling `s`). -/
noncomputable def noisy {N : ℕ} (ks : List (GDict N)) (s t1 τ : ℝ) : List (GDict N) := ks ++ [⟨.noiseMulti t1 τ, s, false⟩]

theorem covGrad_noisy {N : ℕ} {n : Type} [DecidableEq n] (ks : List (GDict N)) (s t1 τ : ℝ) (reg : Option ℝ) (X : n → Fin N → ℝ) :
    covGrad (noisy ks s t1 τ) reg X = covGrad ks reg X + s • noiseMultiXX t1 τ := by
  unfold covGrad noisy
  rw [List.foldl_append]
  simp only [List.foldl_cons, List.foldl_nil, Bool.false_eq_true, if_false, gMatrix]
  exact add_right_comm _ _ _

theorem covRow_noisy {N n : ℕ} (ks : List (GDict N)) (s t1 τ : ℝ) (x : Fin N → ℝ) (X : Fin n → Fin N → ℝ) :
    covRow (noisy ks s t1 τ) x X = covRow ks x X := by
  unfold covRow noisy
  rw [List.foldl_append]
  funext p
  simp [gRow]

/-- Posteriors of covariances with an invertible limit. -/
theorem post_lim {ι : Type} [Fintype ι] [DecidableEq ι] {K : ℝ → Matrix ι ι ℝ} {L : Matrix ι ι ℝ} (hK : Tendsto K atTop (𝓝 L)) (hL : L.det ≠ 0)
    {r y : ℝ → ι → ℝ} {r0 y0 : ι → ℝ} (hr : Tendsto r atTop (𝓝 r0)) (hy : Tendsto y atTop (𝓝 y0)) (v : ℝ) :
    Tendsto (fun c => postMean (K c) (r c) (y c)) atTop (𝓝 (postMean L r0 y0)) ∧
    Tendsto (fun c => postVar v (K c) (r c)) atTop (𝓝 (postVar v L r0)) := by
  have hI : Tendsto (fun c => (K c)⁻¹) atTop (𝓝 L⁻¹) := by
    simp only [Matrix.inv_def, Ring.inverse_eq_inv']
    have h1 := ((continuous_id.matrix_det).tendsto L).comp hK
    have h2 := ((continuous_id.matrix_adjugate).tendsto L).comp hK
    exact (h1.inv₀ hL).smul h2
  have hdot : ∀ (w : ℝ → ι → ℝ) (w0 : ι → ℝ), Tendsto w atTop (𝓝 w0) →
      Tendsto (fun c => r c ⬝ᵥ (K c)⁻¹ *ᵥ w c) atTop (𝓝 (r0 ⬝ᵥ L⁻¹ *ᵥ w0)) := by
    intro w w0 hw
    simp only [dotProduct, mulVec]
    refine tendsto_finsetSum _ fun i _ => ((tendsto_pi_nhds.1 hr i).mul (tendsto_finsetSum _ fun j _ => ?_))
    exact ((tendsto_pi_nhds.1 (tendsto_pi_nhds.1 hI i) j).mul (tendsto_pi_nhds.1 hw j))
  constructor
  · exact hdot _ _ hy
  · unfold postVar
    simp only [← dotProduct_mulVec]
    exact tendsto_const_nhds.sub (hdot _ _ hr)

/-- The factors that make slopes measured with noise `τ` of a size that stays finite. -/
noncomputable def shrink {n m : Type} (τ : ℝ) : n ⊕ m → ℝ := Sum.elim (fun _ => 1) (fun _ => τ⁻¹)

/-- The posterior with large noise on the second part of the data tends to that of the first part alone. -/
theorem forget {N n : ℕ} (B : Matrix (Ix n N) (Ix n N) ℝ) {s : ℝ} (hs : 0 < s) (t1 : ℝ) (A : Matrix (Fin n) (Fin n) ℝ)
    (hA : ∀ i j, A i j = B (.inl i) (.inl j) + s * noiseMultiXX (N := N) t1 0 (.inl i) (.inl j)) (hu : IsUnit A.det)
    (r y : Ix n N → ℝ) (v : ℝ) :
    Tendsto (fun τ => postMean (B + s • noiseMultiXX t1 τ) r y) atTop (𝓝 (postMean A (r ∘ .inl) (y ∘ .inl))) ∧
    Tendsto (fun τ => postVar v (B + s • noiseMultiXX t1 τ) r) atTop (𝓝 (postVar v A (r ∘ .inl))) := by
  have hinv : Tendsto (fun τ : ℝ => τ⁻¹) atTop (𝓝 0) := tendsto_inv_atTop_zero
  have hv : ∀ w : Ix n N → ℝ, Tendsto (fun (τ : ℝ) (p : Ix n N) => 1 * w p * shrink τ p) atTop (𝓝 (Sum.elim (w ∘ .inl) 0)) := by
    intro w
    refine tendsto_pi_nhds.2 fun p => ?_
    rcases p with i | p
    · simpa [shrink] using (tendsto_const_nhds : Tendsto (fun _ : ℝ => w (.inl i)) atTop _)
    · simpa [shrink] using hinv.const_mul (w (.inr p))
  have hw : ∀ w : Ix n N → ℝ, Tendsto (fun (τ : ℝ) (p : Ix n N) => shrink τ p * w p) atTop (𝓝 (Sum.elim (w ∘ .inl) 0)) := by
    intro w
    refine (hv w).congr fun τ => ?_
    funext p
    ring
  have hK : Tendsto (fun τ : ℝ => (Matrix.of fun p q => shrink τ p * (B + s • noiseMultiXX t1 τ : Matrix (Ix n N) (Ix n N) ℝ) p q * shrink τ q : Matrix (Ix n N) (Ix n N) ℝ)) atTop
      (𝓝 (Matrix.fromBlocks A 0 0 (Matrix.diagonal fun _ => s))) := by
    refine tendsto_pi_nhds.2 fun p => tendsto_pi_nhds.2 fun q => ?_
    rcases p with i | p <;> rcases q with j | q
    · refine (tendsto_const_nhds (x := A i j)).congr fun τ => ?_
      rw [hA]
      simp only [shrink, noiseMultiXX, Matrix.of_apply, Sum.elim_inl, Matrix.add_apply, Matrix.smul_apply, Matrix.fromBlocks_apply₁₁, smul_eq_mul, one_mul, mul_one]
    · have := hinv.const_mul (B (.inl i) (.inr q))
      simpa [shrink, noiseMultiXX] using this
    · have := hinv.mul_const (B (.inr p) (.inl j))
      simpa [shrink, noiseMultiXX] using this
    · have h1 := ((hinv.mul_const (B (.inr p) (.inr q))).mul hinv).add_const ((Matrix.diagonal fun _ => s : Matrix (Fin n × Fin N) (Fin n × Fin N) ℝ) p q)
      simp only [zero_mul, zero_add, mul_zero] at h1
      refine h1.congr' ?_
      filter_upwards [eventually_gt_atTop 0] with τ hτ
      simp only [shrink, noiseMultiXX, Matrix.of_apply, Sum.elim_inr, Matrix.add_apply, Matrix.smul_apply, Matrix.fromBlocks_apply₂₂, smul_eq_mul,
        Matrix.diagonal_apply]
      split
      · field_simp
      · ring
  have hB : IsUnit (Matrix.diagonal fun _ => s : Matrix (Fin n × Fin N) (Fin n × Fin N) ℝ).det := by
    rw [Matrix.det_diagonal, isUnit_iff_ne_zero]
    exact Finset.prod_ne_zero_iff.2 fun _ _ => hs.ne'
  have hL : (Matrix.fromBlocks A 0 0 (Matrix.diagonal fun _ => s) : Matrix (Ix n N) (Ix n N) ℝ).det ≠ 0 := by
    rw [Matrix.det_fromBlocks_zero₂₁]
    exact mul_ne_zero hu.ne_zero hB.ne_zero
  obtain ⟨l1, l2⟩ := post_lim hK hL (hv r) (hw y) v
  obtain ⟨b1, b2⟩ := block_units A _ hu hB (r ∘ .inl) (Sum.elim (y ∘ .inl) 0) v
  rw [b1] at l1
  rw [b2] at l2
  have hne : ∀ τ : ℝ, 0 < τ → ∀ p : Ix n N, shrink τ p ≠ 0 := by
    intro τ hτ p
    rcases p with i | p
    · simp [shrink]
    · simpa [shrink] using hτ.ne'
  constructor
  · refine l1.congr' ?_
    filter_upwards [eventually_gt_atTop 0] with τ hτ
    have := (post_units (B + s • noiseMultiXX t1 τ) (shrink τ) (hne τ hτ) 1 r y v).2.1
    rwa [one_mul] at this
  · refine l2.congr' ?_
    filter_upwards [eventually_gt_atTop 0] with τ hτ
    have := (post_units (B + s • noiseMultiXX t1 τ) (shrink τ) (hne τ hτ) 1 r y v).2.2
    rwa [one_pow, one_mul, one_mul] at this

/-- C302: gradients with large noise do not influence the model: as the noise on slopes grows, predictions and uncertainties tend to those of the model
that is given the values only. -/
theorem C302_forgotten {N : ℕ} (fp : List (Fin N → ℝ)) (t : List ℝ) (grad : List (Fin N → ℝ)) (ks : List (GDict N)) (hk : ∀ k ∈ ks, GoodGrad k)
    (hc : ∀ k ∈ ks, ∀ c1 c2 c3, k.gtype ≠ .constantMulti c1 c2 c3) {s : ℝ} (hs : 0 < s) (t1 t2 r : ℝ) (gp : GP N)
    (h : Proc.init fp t ((noisy ks s t1 t2).map plain) (some r) false false = .ok gp) (G : ℝ → GradGP N)
    (hG : ∀ τ, 0 < τ → init fp t grad (noisy ks s t1 τ) (some r) false = .ok (G τ)) (x : Fin N → ℝ) :
    ∃ (p u v : ℝ) (P U : ℝ → ℝ), Proc.predict gp [x] true = .ok ⟨[some p], some [(some u, some v)]⟩ ∧
      (∀ τ, 0 < τ → predict (G τ) x = .ok (some (P τ)) ∧ uncertainty (G τ) x = .ok (some (U τ))) ∧
      Tendsto P atTop (𝓝 p) ∧ Tendsto U atTop (𝓝 u) := by
  have hgood : ∀ τ, ∀ k ∈ noisy ks s t1 τ, GoodGrad k := by
    intro τ k hk'
    rcases List.mem_append.1 hk' with h | h
    · exact hk k h
    · rw [List.mem_singleton.1 h]
      exact ⟨hs.le, trivial⟩
  have hcon : ∀ τ, ∀ k ∈ noisy ks s t1 τ, ∀ c1 c2 c3, k.gtype ≠ .constantMulti c1 c2 c3 := by
    intro τ k hk'
    rcases List.mem_append.1 hk' with h | h
    · exact hc k h
    · rw [List.mem_singleton.1 h]
      simp
  obtain ⟨-, hlen, -, -, hlo, -, -⟩ := init_false (hG 1 one_pos)
  have hlo' : lastOnly (noisy ks s t1 t2) = true := by
    unfold lastOnly noisy at hlo ⊢
    rwa [List.dropLast_concat] at hlo ⊢
  obtain ⟨hc0, hh0, k1, k2, k3, k4⟩ := C43_init_partial fp t _ (packsList_plain _ hlo') _ _ _ gp h
  have hst := hh0.1
  unfold store at hst
  rw [k4] at hst
  simp only [Bool.false_eq_true, if_false, Option.isSome_some, if_true, Option.getD_some, Except.ok.injEq, Stored.mk.injEq] at hst
  obtain ⟨e1, e2, e3, -⟩ := hst
  have hrow : gp.scaleRow x = x := by simp [GP.scaleRow, k4]
  have hresc : ∀ z, gp.rescale z = z := by intro z; simp [GP.rescale, k4]
  have htstd : gp.tstd = 1 := by simp [GP.tstd, k4]
  have hunc := hc0.predict_unc [x] (by simp) r k2
  have hv0 := hc0.var_eq x
  have hm0 : ∀ hl : gp.fp.length = gp.target.length, _ = postMean _ _ fun i : Fin gp.fp.length => gp.target.get (i.cast hl) := fun _ => hc0.mean_eq x
  have hu0 := hc0.1
  rw [k1, k2, k3, ← e1] at hu0
  rw [k1, k2, k3] at hv0
  simp only [k1, k2, k3] at hm0
  set A := Proc.gram ((noisy ks s t1 t2).map plain) false (some r) fp with hAdef
  have hA : ∀ i j, A i j = covGrad ks (some r) fp.get (.inl i) (.inl j) + s * noiseMultiXX (N := N) t1 0 (.inl i) (.inl j) := by
    intro i j
    have h1 : covGrad (noisy ks s t1 t2) (some r) fp.get = covGrad (noisy ks s t1 t2) none fp.get + Matrix.diagonal fun _ => r ^ 2 := by simp [covGrad]
    have h2 : covGrad (noisy ks s t1 t2) (some r) fp.get (.inl i) (.inl j) = A i j := by
      rw [h1, Matrix.add_apply, plain_block]
      simp [hAdef, Proc.gram, covSelf, unlog, Matrix.diagonal_apply]
    rw [← h2, covGrad_noisy]
    simp only [noiseMultiXX, Matrix.add_apply, Matrix.smul_apply, Matrix.fromBlocks_apply₁₁, smul_eq_mul]
  have hr : covRow ks x fp.get ∘ Sum.inl = kvec ((noisy ks s t1 t2).map plain) false x fp.get := by
    funext j
    rw [Function.comp_apply, ← covRow_noisy ks s t1 t2, plain_row]
    rfl
  have hy : vec (N := N) fp.length (t ++ flat grad) ∘ Sum.inl = fun i : Fin fp.length => t.get (i.cast hlen) := by
    funext j
    have : j.1 < t.length := by have := j.2; omega
    simp [vec, List.getElem?_append_left this, this]
  have hpr : ∀ τ, prior (noisy ks s t1 τ) x = covEntry ((noisy ks s t1 t2).map plain) false x x true := by
    intro τ
    rw [← plain_prior]
    unfold prior noisy
    rw [List.foldl_append, List.foldl_append]
    rfl
  set v0 := covEntry ((noisy ks s t1 t2).map plain) false x x true with hv0def
  obtain ⟨l1, l2⟩ := forget (covGrad ks (some r) fp.get) hs t1 A hA hu0 (covRow ks x fp.get) (vec fp.length (t ++ flat grad)) v0
  have hpos : ∀ τ, 0 < τ → 0 ≤ postVar v0 (covGrad ks (some r) fp.get + s • noiseMultiXX t1 τ) (covRow ks x fp.get) ∧
      predict (G τ) x = .ok (some (postMean (covGrad ks (some r) fp.get + s • noiseMultiXX t1 τ) (covRow ks x fp.get) (vec fp.length (t ++ flat grad)))) ∧
      uncertainty (G τ) x = .ok (some (Real.sqrt (postVar v0 (covGrad ks (some r) fp.get + s • noiseMultiXX t1 τ) (covRow ks x fp.get)))) := by
    intro τ hτ
    obtain ⟨p1, p2⟩ := init_predict (hG τ hτ) x
    obtain ⟨u, hu, -, -⟩ := C209_uncertainty_partial fp t grad _ (hgood τ) (hcon τ) r false (G τ) (hG τ hτ) x
    rw [kxx_ok _ x (hcon τ) fp.get, prior_eq, hpr τ, covGrad_noisy, covRow_noisy] at p2
    rw [covGrad_noisy, covRow_noisy] at p1
    rw [hu] at p2
    simp only [npSqrt] at p2
    split at p2
    · simp at p2
    · rename_i hn
      refine ⟨not_lt.1 hn, p1, ?_⟩
      rw [hu]
      exact p2
  have hlimpos : 0 ≤ postVar v0 A (covRow ks x fp.get ∘ .inl) := by
    refine ge_of_tendsto l2 ?_
    filter_upwards [eventually_gt_atTop 0] with τ hτ
    exact (hpos τ hτ).1
  have hvar : gp.var x = postVar v0 A (covRow ks x fp.get ∘ .inl) := by
    rw [hv0, hr]
    obtain rfl := e1
    rfl
  have hmean : gp.ktb x ⬝ᵥ (gp.cinv.2 *ᵥ gp.y) = postMean A (covRow ks x fp.get ∘ .inl) (vec (N := N) fp.length (t ++ flat grad) ∘ .inl) := by
    rw [hm0 (by rw [← e1, ← e2, hlen]), hr, hy]
    obtain rfl := e1
    obtain rfl := e2
    rfl
  refine ⟨_, _, Real.sqrt (postVar v0 A (covRow ks x fp.get ∘ .inl)) + r, _, _, ?_, fun τ hτ => (hpos τ hτ).2, l1,
    (Real.continuous_sqrt.tendsto _).comp l2⟩
  rw [hunc]
  simp only [List.map_cons, List.map_nil, hrow, GP.mean, GP.unc, ← e3, hvar, hmean, npSqrt, not_lt.2 hlimpos, if_false, htstd, hresc, Option.map_some,
    mul_one, Bool.false_eq_true]

/-- Two points with a kernel of gradients and noise: the models exist for each noise, and so does the model of the values. -/
example : (∀ τ : ℝ, ∃ gp : GradGP 1, init [![(-1:ℝ)], ![1]] [0, 2] [![1], ![0]] (noisy [⟨.gaussian ![1], 1, false⟩] 1 1 τ) (some 1) false = .ok gp) ∧
    ∃ gp : GP 1, Proc.init [![(-1:ℝ)], ![1]] [0, 2] ((noisy [⟨.gaussian ![1], 1, false⟩] 1 1 0).map plain) (some 1) false false = .ok gp :=
  ⟨fun τ => C123_trains _ _ _ _ (by unfold noisy; simp) rfl (by simp [GoodGrad, noisy]) 1 one_ne_zero false (by simp) rfl rfl,
    C113_can_build (N := 1) _ _ _ 1 false false (by simp) rfl (by simp [noisy]) (packsList_plain _ rfl)
      (by simp [noisy, plain, GoodKernel, scaleFactor, unlog, GoodWidths, columns, pick]) (Or.inr one_ne_zero)⟩

end CatLearn.GradProc
