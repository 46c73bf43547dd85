import Verif.Props.GPSequential
import Verif.Props.KernelJac

/-!
# A Gaussian process of one training point (C318)
-/

namespace CatLearn.Proc

open CatLearn CatLearn.Kernel CatLearn.Scaling CatLearn.PSD Matrix

private theorem pick_all {N : ℕ} (w : Fin N → ℝ) (a : Fin N) : pick (List.ofFn w) a = w a := by
  unfold pick
  by_cases h : (List.ofFn w).length = 1
  · rw [if_pos h]
    rw [List.length_ofFn] at h
    subst h
    have : a = 0 := Subsingleton.elim _ _
    subst this
    simp
  · rw [if_neg h]
    simp [List.getD_eq_getElem?_getD]

/-- C318: one training point, a gaussian kernel with scaling `s` and one width for each feature: prediction and uncertainty at any point depend on the distance in units of the
widths only. -/
theorem C318_formula {N : ℕ} (x : Fin N → ℝ) (y s : ℝ) (w : Fin N → ℝ) (hw : ∀ a, 0 < w a) (hs : 0 ≤ s) (r : ℝ) (hr : r ≠ 0) (gp : GP N)
    (h : init [x] [y] [⟨.gaussian (List.ofFn w), none, some s, false⟩] (some r) false false = .ok gp) (z : Fin N → ℝ) :
    ∃ g : ℝ, g = Real.exp (-(1 / 2) * ∑ a, ((z a - x a) / w a) ^ 2) ∧ ∃ u : ℝ, u = Real.sqrt (s * (r ^ 2 + s * (1 - g ^ 2)) / (s + r ^ 2)) ∧
      predict gp [z] true = .ok ⟨[some (s * g / (s + r ^ 2) * y)], some [(some u, some (u + r))]⟩ := by
  obtain ⟨hl, hcon, k1, k2, k3, sr, ts, hpd, hmean, hvar⟩ := init_plain (by intro s d b he; cases he) h
  have hk : GoodKernel false (⟨.gaussian (List.ofFn w), none, some s, false⟩ : KDict N) := by
    refine ⟨Or.inr fun s' e => by cases e; exact hs, Or.inr (by simp [columns]), Or.inr fun t ht => ?_⟩
    rw [List.mem_ofFn] at ht
    obtain ⟨a, rfl⟩ := ht
    exact hw a
  have g1 : ∀ k' ∈ gp.kernels, GoodKernel gp.log k' := by rw [k1, k3]; simpa using hk
  have hr2 : 0 < r ^ 2 := by positivity
  have hd : 0 < s + r ^ 2 := by positivity
  have hent : ∀ p q b, covEntry [(⟨.gaussian (List.ofFn w), none, some s, false⟩ : KDict N)] false p q b =
      s * Real.exp (-(1 / 2) * ∑ a, ((p a - q a) / w a) ^ 2) := by
    intro p q b
    simp only [covEntry, List.foldl_cons, List.foldl_nil, Bool.false_eq_true, if_false, zero_add, scaleFactor, unlog, entry, columns, Option.getD_none,
      colSum_finRange, pick_all, sub_div]
    norm_num
  have hself : ∀ p b, covEntry [(⟨.gaussian (List.ofFn w), none, some s, false⟩ : KDict N)] false p p b = s := by
    intro p b
    rw [hent]
    simp
  set G := gram [(⟨.gaussian (List.ofFn w), none, some s, false⟩ : KDict N)] false (some r) [x] with hG
  have hG00 : ∀ i j, G i j = s + r ^ 2 := by
    intro i j
    have hi : i = (0 : Fin 1) := Subsingleton.elim (α := Fin 1) i 0
    have hj : j = (0 : Fin 1) := Subsingleton.elim (α := Fin 1) j 0
    subst hi hj
    rw [hG, gram, covSelf_apply, if_pos rfl, hself]
    rfl
  have hinv : ∀ v : Fin [x].length → ℝ, G⁻¹ *ᵥ v = fun i => v i / (s + r ^ 2) := by
    intro v
    have hu := hpd.det_pos.ne'.isUnit
    have : v = G *ᵥ fun i => v i / (s + r ^ 2) := by
      funext i
      have hi : i = (0 : Fin 1) := Subsingleton.elim (α := Fin 1) i 0
      subst hi
      change _ = ∑ j : Fin 1, G 0 j * (v j / (s + r ^ 2))
      rw [Fin.sum_univ_one, hG00]
      field_simp
    conv_lhs => rw [this]
    rw [mulVec_mulVec, nonsing_inv_mul _ hu, one_mulVec]
  have hdot : ∀ u v : Fin [x].length → ℝ, u ⬝ᵥ v = u (0 : Fin 1) * v (0 : Fin 1) := fun u v => Fin.sum_univ_one _
  refine ⟨_, rfl, _, rfl, ?_⟩
  have hm : gp.mean z = some (s * Real.exp (-(1 / 2) * ∑ a, ((z a - x a) / w a) ^ 2) / (s + r ^ 2) * y) := by
    rw [hmean, postMean, hinv, hdot]
    change some (covEntry _ false z x false * (y / (s + r ^ 2))) = _
    rw [hent]
    congr 1
    ring
  have hv : gp.var z = s * (r ^ 2 + s * (1 - Real.exp (-(1 / 2) * ∑ a, ((z a - x a) / w a) ^ 2) ^ 2)) / (s + r ^ 2) := by
    rw [hvar, postVar, ← dotProduct_mulVec, hinv, hdot]
    change covEntry _ false z z true - covEntry _ false z x false * (covEntry _ false z x false / (s + r ^ 2)) = _
    rw [hent z x, hself]
    field_simp
    ring
  rw [hcon.predict_unc _ (by simp) r k2]
  simp only [List.map_cons, List.map_nil, sr, unc_plain hcon g1 ts, hm, hv]

/-- C318: predictions lie between zero and the target; a point that is further away from the training point has a prediction nearer to zero and no smaller uncertainty. -/
theorem C318_distance {N : ℕ} (x : Fin N → ℝ) (y s : ℝ) (w : Fin N → ℝ) (hw : ∀ a, 0 < w a) (hs : 0 ≤ s) (r : ℝ) (hr : r ≠ 0) (gp : GP N)
    (h : init [x] [y] [⟨.gaussian (List.ofFn w), none, some s, false⟩] (some r) false false = .ok gp) (z z' : Fin N → ℝ)
    (hz : ∑ a, ((z a - x a) / w a) ^ 2 ≤ ∑ a, ((z' a - x a) / w a) ^ 2) :
    ∃ c c' u u' : ℝ, 0 ≤ c' ∧ c' ≤ c ∧ c < 1 ∧ 0 ≤ u ∧ u ≤ u' ∧ u' ≤ Real.sqrt s ∧ predict gp [z] true = .ok ⟨[some (c * y)], some [(some u, some (u + r))]⟩ ∧
      predict gp [z'] true = .ok ⟨[some (c' * y)], some [(some u', some (u' + r))]⟩ := by
  obtain ⟨g, hg, u, hu, q⟩ := C318_formula x y s w hw hs r hr gp h z
  obtain ⟨g', hg', u', hu', q'⟩ := C318_formula x y s w hw hs r hr gp h z'
  have hr2 : 0 < r ^ 2 := by positivity
  have hd : 0 < s + r ^ 2 := by positivity
  have p' : 0 < g' := hg' ▸ Real.exp_pos _
  have hle : g' ≤ g := by
    rw [hg, hg', Real.exp_le_exp]
    linarith
  have h1 : g ≤ 1 := by
    rw [hg, Real.exp_le_one_iff]
    have : 0 ≤ ∑ a, ((z a - x a) / w a) ^ 2 := Finset.sum_nonneg fun a _ => sq_nonneg _
    linarith
  have h2 : g' ^ 2 ≤ g ^ 2 := by nlinarith
  refine ⟨_, _, u, u', by positivity, ?_, ?_, hu ▸ Real.sqrt_nonneg _, ?_, ?_, q, q'⟩
  · rw [div_le_div_iff_of_pos_right hd]
    exact mul_le_mul_of_nonneg_left hle hs
  · rw [div_lt_one hd]
    nlinarith
  · rw [hu, hu']
    refine Real.sqrt_le_sqrt ((div_le_div_iff_of_pos_right hd).2 (mul_le_mul_of_nonneg_left ?_ hs))
    nlinarith
  · rw [hu']
    refine Real.sqrt_le_sqrt ?_
    rw [div_le_iff₀ hd]
    refine mul_le_mul_of_nonneg_left ?_ hs
    nlinarith [mul_nonneg hs (sq_nonneg g')]

/-- C318: a training point, and two points at different distances. -/
example : (∃ gp : GP 2, init [![0, 1]] [3] [⟨.gaussian (List.ofFn ![1, 2]), none, some 2, false⟩] (some 1) false false = .ok gp) ∧
    ∑ a, ((![1, 1] a - ![0, 1] a) / ![1, 2] a : ℝ) ^ 2 ≤ ∑ a, ((![0, 5] a - ![0, 1] a) / ![1, 2] a : ℝ) ^ 2 := by
  refine ⟨C113_can_build [![0, 1]] [3] [⟨.gaussian (List.ofFn ![1, 2]), none, some 2, false⟩] 1 false false (by simp) rfl (by simp)
    (by intro s d b he; cases he) ?_ (Or.inr one_ne_zero), ?_⟩
  · simp [GoodKernel, GoodWidths, columns]
  · simp [Fin.sum_univ_two]
    norm_num

end CatLearn.Proc
