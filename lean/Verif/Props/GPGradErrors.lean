import Verif.Props.GPGradNear
import Verif.Props.GPNoise

/-!
# What errors of values and gradients do to the predictions (C307)
-/

namespace CatLearn.GradProc

open CatLearn CatLearn.Kernel CatLearn.Scaling CatLearn.Proc Matrix

private theorem zip_flatMap {A : Type} (u v : A → List ℝ) (h : ∀ i, (u i).length = (v i).length) (f : ℝ → ℝ → ℝ) (L : List A) :
    List.zipWith f (L.flatMap u) (L.flatMap v) = L.flatMap fun i => List.zipWith f (u i) (v i) := by
  induction L with
  | nil => rfl
  | cons a L ih => rw [List.flatMap_cons, List.flatMap_cons, List.flatMap_cons, List.zipWith_append (h a), ih]

private theorem zip_rows {N n : ℕ} (a b : Ix n N → ℝ) :
    (List.zipWith (fun x y => (x - y) ^ 2) (List.ofFn (fun i => a (.inl i)) ++ (List.finRange n).flatMap fun i => List.ofFn fun k => a (.inr (i, k)))
      (List.ofFn (fun i => b (.inl i)) ++ (List.finRange n).flatMap fun i => List.ofFn fun k => b (.inr (i, k)))).sum = (a - b) ⬝ᵥ (a - b) := by
  have hz : ∀ {m : ℕ} (f g : Fin m → ℝ), List.zipWith (fun x y => (x - y) ^ 2) (List.ofFn f) (List.ofFn g) = List.ofFn fun i => (f i - g i) ^ 2 := by
    intro m f g
    apply List.ext_getElem
    · simp
    · intro i h1 h2
      simp
  rw [List.zipWith_append (by simp), List.sum_append, zip_flatMap _ _ (by simp), hz, List.sum_ofFn, List.flatMap, List.sum_flatten, List.map_map, dotProduct,
    Fintype.sum_sum_type, Fintype.sum_prod_type]
  congr 1
  · exact Finset.sum_congr rfl fun i _ => sq _
  · rw [← List.ofFn_eq_map, List.sum_ofFn]
    refine Finset.sum_congr rfl fun i _ => ?_
    simp only [Function.comp_apply, hz, List.sum_ofFn]
    exact Finset.sum_congr rfl fun k _ => sq _

/-- C307: of two models that differ in values and gradients, the predicted values and gradients of the training data differ, in the sum of squares, by at most as much as the
values and gradients given do; at any point the uncertainties are the same and the squared difference of the predictions is at most that sum divided by the square of the
regularisation, times the variance that the data has taken away at the point. -/
theorem C307_errors {N : ℕ} (fp : List (Fin N → ℝ)) (t t' : List ℝ) (grad grad' : List (Fin N → ℝ)) (hg : grad.length = fp.length) (hg' : grad'.length = fp.length)
    (ks : List (GDict N)) (hs : ∀ k ∈ ks, GoodGrad k) (hc : ∀ k ∈ ks, ∀ c1 c2 c3, k.gtype ≠ .constantMulti c1 c2 c3)
    (hn : ∀ k ∈ ks, ∀ t1 t2, k.gtype ≠ .noiseMulti t1 t2) (r : ℝ) (gp gp' : GradGP N) (h : init fp t grad ks (some r) false = .ok gp)
    (h' : init fp t' grad' ks (some r) false = .ok gp') :
    ∃ E : ℝ, E = (List.zipWith (fun a b => (a - b) ^ 2) t t').sum + (List.zipWith (fun g g' => ∑ a, (g a - g' a) ^ 2) grad grad').sum ∧
      (List.zipWith (fun a b => (a - b) ^ 2) (trainPrediction gp) (trainPrediction gp')).sum ≤ E ∧
      ∀ z, ∃ p p' u : ℝ, predict gp z = .ok (some p) ∧ predict gp' z = .ok (some p') ∧ uncertainty gp z = .ok (some u) ∧ uncertainty gp' z = .ok (some u) ∧
        (p - p') ^ 2 * r ^ 2 ≤ (prior ks z - u ^ 2) * E := by
  obtain ⟨h0, h1, h2, h3, h4, h5, h6⟩ := init_false h
  obtain ⟨-, h1', -, -, -, -, h6'⟩ := init_false h'
  set K := covGrad ks (some r) fp.get with hK
  set y := vec (N := N) fp.length (t ++ flat grad) with hy
  set y' := vec (N := N) fp.length (t' ++ flat grad') with hy'
  have hreg : K = covGrad ks none fp.get + r ^ 2 • (1 : Matrix _ _ ℝ) := by
    rw [hK, Matrix.smul_one_eq_diagonal]
    simp [covGrad]
  have hB := (C106_gradient_covariance_partial ks hs fp.get).1 none
  have hle : ∀ v, v ⬝ᵥ covGrad ks none fp.get *ᵥ v ≤ v ⬝ᵥ K *ᵥ v := by
    intro v
    rw [hreg, add_mulVec, smul_mulVec, one_mulVec, dotProduct_add, dotProduct_smul, smul_eq_mul]
    have : 0 ≤ v ⬝ᵥ v := by simp only [dotProduct]; exact Finset.sum_nonneg fun i _ => mul_self_nonneg _
    nlinarith [mul_nonneg (sq_nonneg r) this]
  have hyy : (y - y') ⬝ᵥ (y - y') = (List.zipWith (fun a b => (a - b) ^ 2) t t').sum + (List.zipWith (fun g g' => ∑ a, (g a - g' a) ^ 2) grad grad').sum := by
    obtain ⟨v1, v2⟩ := vec_append (N := N) t grad h1.symm hg
    obtain ⟨v1', v2'⟩ := vec_append (N := N) t' grad' h1'.symm hg'
    have e1 : List.zipWith (fun a b => (a - b) ^ 2) t t' = List.ofFn fun i : Fin fp.length => ((y - y') (.inl i)) ^ 2 := by
      apply List.ext_getElem
      · simp [← h1, ← h1']
      · intro i a1 a2
        simp [hy, hy', v1, v1']
    have e2 : List.zipWith (fun g g' : Fin N → ℝ => ∑ a, (g a - g' a) ^ 2) grad grad' = List.ofFn fun i : Fin fp.length => ∑ a, ((y - y') (.inr (i, a))) ^ 2 := by
      apply List.ext_getElem
      · simp [hg, hg']
      · intro i a1 a2
        simp [hy, hy', v2, v2']
    rw [e1, e2, List.sum_ofFn, List.sum_ofFn, dotProduct, Fintype.sum_sum_type, Fintype.sum_prod_type]
    simp only [sq]
  refine ⟨_, rfl, ?_, fun z => ?_⟩
  · rw [← hyy]
    have hfit := (noise_fit (covGrad ks none fp.get) hB (sq_nonneg r) (noise_solve (covGrad ks none fp.get) hB (hreg ▸ h5) (y - y'))).1
    rw [← hreg] at hfit
    refine le_trans (le_of_eq ?_) hfit
    have hX : (fun i : Fin fp.length => fp.getD i 0) = fp.get := by
      funext i
      simp
    rw [h6, h6']
    unfold trainPrediction
    simp only [GradGP.rescale]
    rw [zip_rows, hX]
    have : (fun p => (covGrad ks none fp.get *ᵥ (K⁻¹ *ᵥ y)) p) - (fun p => (covGrad ks none fp.get *ᵥ (K⁻¹ *ᵥ y')) p) = covGrad ks none fp.get *ᵥ (K⁻¹ *ᵥ (y - y')) := by
      rw [mulVec_sub, mulVec_sub]
    exact congrArg (fun v => v ⬝ᵥ v) this
  · obtain ⟨M, hM, m1, m2, m3, m4, m5, m6⟩ := near_joint ks hs hn fp.get z z
    obtain ⟨b1, b2, -⟩ := near_bounds hM (covGrad ks none fp.get) K h5 hle _ _ m1 m2 m3 0 le_rfl
    rw [add_zero, m4] at b1
    refine ⟨_, _, Real.sqrt (postVar (prior ks z) K (covRow ks z fp.get)), (init_predict h z).1, (init_predict h' z).1, ?_, ?_, ?_⟩
    · rw [(init_predict h z).2, kxx_ok ks z hc fp.get, prior_eq]
      simp only
      rw [npSqrt, if_neg (not_lt.2 b1)]
    · rw [(init_predict h' z).2, kxx_ok ks z hc fp.get, prior_eq]
      simp only
      rw [npSqrt, if_neg (not_lt.2 b1)]
    · rw [Real.sq_sqrt b1, postVar, ← dotProduct_mulVec, sub_sub_cancel, ← hyy]
      have e : postMean K (covRow ks z fp.get) y - postMean K (covRow ks z fp.get) y' = covRow ks z fp.get ⬝ᵥ K⁻¹ *ᵥ (y - y') := by
        unfold postMean
        rw [mulVec_sub, dotProduct_sub]
      rw [e]
      have c1 := near_cauchy h5 (covRow ks z fp.get) (y - y')
      have c2 : ((y - y') ⬝ᵥ K⁻¹ *ᵥ (y - y')) * r ^ 2 ≤ (y - y') ⬝ᵥ (y - y') := by
        rw [hreg] at h5 ⊢
        exact near_weight hB (sq_nonneg r) h5 (y - y')
      have c3 := near_nonneg h5 (covRow ks z fp.get)
      calc _ ≤ ((covRow ks z fp.get ⬝ᵥ K⁻¹ *ᵥ covRow ks z fp.get) * ((y - y') ⬝ᵥ K⁻¹ *ᵥ (y - y'))) * r ^ 2 :=
            mul_le_mul_of_nonneg_right c1 (sq_nonneg _)
        _ = (covRow ks z fp.get ⬝ᵥ K⁻¹ *ᵥ covRow ks z fp.get) * (((y - y') ⬝ᵥ K⁻¹ *ᵥ (y - y')) * r ^ 2) := mul_assoc _ _ _
        _ ≤ _ := mul_le_mul_of_nonneg_left c2 c3

/-- Two models of the same points. -/
example : (∃ gp : GradGP 1, init [![(0 : ℝ)], ![1]] [0, 1] [![1], ![0]] [⟨.gaussian ![1], 2, false⟩] (some 1) false = .ok gp) ∧
    (∃ gp : GradGP 1, init [![(0 : ℝ)], ![1]] [0, 2] [![1], ![-1]] [⟨.gaussian ![1], 2, false⟩] (some 1) false = .ok gp) ∧
    ∀ k ∈ [(⟨.gaussian ![1], 2, false⟩ : GDict 1)], GoodGrad k :=
  ⟨C123_trains _ _ _ _ (by simp) rfl (by simp [GoodGrad]) 1 one_ne_zero false (by simp) rfl rfl,
    C123_trains _ _ _ _ (by simp) rfl (by simp [GoodGrad]) 1 one_ne_zero false (by simp) rfl rfl, by simp [GoodGrad]⟩

end CatLearn.GradProc
