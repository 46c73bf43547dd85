import Verif.Props.GPSequential

/-!
# A Gaussian process that has a constant kernel only (C316)
-/

namespace CatLearn.Proc

open CatLearn CatLearn.Kernel CatLearn.Scaling CatLearn.PSD Matrix

private theorem constant_solve {n : ℕ} (G : Matrix (Fin n) (Fin n) ℝ) (hG : G.PosDef) (c s : ℝ) (hs : s ≠ 0) (hd : n * c + s ≠ 0)
    (h : ∀ i j, G i j = c + if i = j then s else 0) (y : Fin n → ℝ) :
    (fun _ => c) ⬝ᵥ G⁻¹ *ᵥ y = c * (∑ i, y i) / (n * c + s) := by
  have hu := hG.det_pos.ne'.isUnit
  obtain ⟨m, hm⟩ : ∃ m, m = c * (∑ i, y i) / (n * c + s) := ⟨_, rfl⟩
  have hmd : m * (n * c + s) = c * ∑ i, y i := by rw [hm, div_mul_cancel₀ _ hd]
  have hsum : c * ∑ i, (y i - m) / s = m := by
    rw [← Finset.sum_div, Finset.sum_sub_distrib, Finset.sum_const, Finset.card_univ, Fintype.card_fin, nsmul_eq_mul]
    field_simp
    linarith
  have hsol : G⁻¹ *ᵥ y = fun i => (y i - m) / s := by
    have : y = G *ᵥ fun i => (y i - m) / s := by
      funext i
      simp only [mulVec, dotProduct, h, add_mul, ite_mul, zero_mul, Finset.sum_add_distrib, Finset.sum_ite_eq, Finset.mem_univ, if_true]
      rw [← Finset.mul_sum, hsum]
      field_simp
      ring
    conv_lhs => rw [this]
    rw [mulVec_mulVec, nonsing_inv_mul _ hu, one_mulVec]
  rw [hsol, ← hm]
  simp only [dotProduct]
  rw [← Finset.mul_sum, hsum]

/-- C316: with a constant kernel only, all points have the same prediction, the mean of the targets shrunk towards zero, and the same uncertainty, whatever the features are. -/
theorem C316_constant {N : ℕ} (fp : List (Fin N → ℝ)) (t : List ℝ) (k : KDict N) (c : ℝ) (hc : k.ktype = .constant c) (hm : k.mult = false) (log : Bool)
    (hk : GoodKernel log k) (r : ℝ) (hr : unlog log r ≠ 0) (gp : GP N) (h : init fp t [k] (some r) log false = .ok gp) (z : Fin N → ℝ) :
    ∃ C : ℝ, 0 ≤ C ∧ C = scaleFactor k log * unlog log c ∧ 0 < t.length * C + unlog log r ^ 2 ∧
      predict gp [z] true = .ok ⟨[some (C * t.sum / (t.length * C + unlog log r ^ 2))],
        some [(some (Real.sqrt (C * unlog log r ^ 2 / (t.length * C + unlog log r ^ 2))),
          some (Real.sqrt (C * unlog log r ^ 2 / (t.length * C + unlog log r ^ 2)) + r))]⟩ := by
  have hp : PacksList [k] := by intro s d b he; rw [hc] at he; cases he
  obtain ⟨hl, hcon, k1, k2, k3, sr, ts, hpd, hmean, hvar⟩ := init_plain hp h
  have hs : 0 < unlog log r ^ 2 := by positivity
  have hC : 0 ≤ scaleFactor k log * unlog log c := by
    refine mul_nonneg (scaleFactor_nonneg hk) ?_
    have := hk.2
    rw [hc] at this
    rcases this with rfl | h0
    · exact (Real.exp_pos _).le
    · cases log
      · exact h0
      · exact (Real.exp_pos _).le
  set C := scaleFactor k log * unlog log c with hCdef
  have hent : ∀ x y b, covEntry [k] log x y b = C := by
    intro x y b
    simp [covEntry, hc, hm, entry, hCdef]
  have hG : ∀ i j, gram [k] log (some r) fp i j = C + if i = j then unlog log r ^ 2 else 0 := by
    intro i j
    rw [gram, covSelf_apply, hent]
    rfl
  have hd : 0 < (t.length : ℝ) * C + unlog log r ^ 2 := by positivity
  have hd' : 0 < (fp.length : ℝ) * C + unlog log r ^ 2 := by positivity
  have hv : kvec [k] log z fp.get = fun _ => C := by funext i; exact hent _ _ _
  have hsum : ∑ i : Fin fp.length, t.get (i.cast hl.symm) = t.sum := by
    rw [← Equiv.sum_comp (finCongr hl), ← List.sum_ofFn, List.ofFn_congr hl]
    congr 1
    apply List.ext_getElem
    · simp [hl]
    · intro i a b; simp
  refine ⟨C, hC, rfl, hd, ?_⟩
  have g1 : ∀ k' ∈ gp.kernels, GoodKernel gp.log k' := by rw [k1, k3]; simpa using hk
  have hvz : gp.var z = C * unlog log r ^ 2 / (t.length * C + unlog log r ^ 2) := by
    rw [hvar, postVar, ← dotProduct_mulVec, hv, constant_solve _ hpd C _ hs.ne' hd'.ne' hG, hent, Finset.sum_const, Finset.card_univ, Fintype.card_fin,
      nsmul_eq_mul, hl]
    rw [← hl]
    field_simp
    ring
  rw [hcon.predict_unc _ (by simp) r k2]
  simp only [List.map_cons, List.map_nil, sr, unc_plain hcon g1 ts, hmean, hvz]
  rw [postMean, hv, constant_solve _ hpd C _ hs.ne' hd'.ne' hG, hsum, hl]

/-- C316: the prediction is a multiple of the mean of the targets, between zero and the mean; of two constants the larger one predicts nearer to the mean. -/
theorem C316_shrunk {N : ℕ} (fp : List (Fin N → ℝ)) (t : List ℝ) (k k' : KDict N) (c c' : ℝ) (hc : k.ktype = .constant c) (hc' : k'.ktype = .constant c')
    (hm : k.mult = false) (hm' : k'.mult = false) (log : Bool) (hk : GoodKernel log k) (hk' : GoodKernel log k')
    (hle : scaleFactor k log * unlog log c ≤ scaleFactor k' log * unlog log c') (r : ℝ) (hr : unlog log r ≠ 0) (gp gp' : GP N)
    (h : init fp t [k] (some r) log false = .ok gp) (h' : init fp t [k'] (some r) log false = .ok gp') (z : Fin N → ℝ) :
    ∃ (w w' : ℝ) (u u' : Option (List (Option ℝ × Option ℝ))), 0 ≤ w ∧ w ≤ w' ∧ w' < 1 ∧ predict gp [z] true = .ok ⟨[some (w * (t.sum / t.length))], u⟩ ∧
      predict gp' [z] true = .ok ⟨[some (w' * (t.sum / t.length))], u'⟩ := by
  obtain ⟨C, hC, e, hd, q⟩ := C316_constant fp t k c hc hm log hk r hr gp h z
  obtain ⟨C', hC', e', hd', q'⟩ := C316_constant fp t k' c' hc' hm' log hk' r hr gp' h' z
  have hp : PacksList [k] := by intro s d b he; rw [hc] at he; cases he
  have ht : t ≠ [] := by
    rintro rfl
    obtain ⟨hl, -⟩ := init_plain hp h
    have : fp = [] := List.eq_nil_of_length_eq_zero hl.symm
    subst this
    simp [init, updateData] at h
    cases h
  have hn : (0 : ℝ) < t.length := by exact_mod_cast List.length_pos_iff.2 ht
  have hs : 0 < unlog log r ^ 2 := by positivity
  rw [← e, ← e'] at hle
  have sh : ∀ D : ℝ, D * t.sum / (t.length * D + unlog log r ^ 2) = t.length * D / (t.length * D + unlog log r ^ 2) * (t.sum / t.length) := by
    intro D
    rw [div_mul_div_comm, mul_comm (t.length * D + unlog log r ^ 2), mul_assoc, mul_div_mul_left _ _ hn.ne']
  rw [sh] at q q'
  refine ⟨_, _, _, _, by positivity, ?_, ?_, q, q'⟩
  · rw [div_le_div_iff₀ hd hd']
    nlinarith [mul_nonneg hn.le (mul_nonneg hs.le (sub_nonneg.2 hle))]
  · rw [div_lt_one hd']
    linarith

/-- C316: two points. -/
example : ∃ gp : GP 1, init [![(0:ℝ)], ![2]] [1, 2] [⟨.constant 3, none, none, false⟩] (some 1) false false = .ok gp ∧
    GoodKernel false (⟨.constant 3, none, none, false⟩ : KDict 1) ∧ unlog false 1 ≠ 0 := by
  have hk : GoodKernel false (⟨.constant 3, none, none, false⟩ : KDict 1) := by simp [GoodKernel]
  obtain ⟨gp, h⟩ := C113_can_build [![(0:ℝ)], ![2]] [1, 2] [⟨.constant 3, none, none, false⟩] 1 false false (by simp) rfl (by simp)
    (by intro s d b he; cases he) (by simpa using hk) (Or.inr one_ne_zero)
  exact ⟨gp, h, hk, by simp [unlog]⟩

end CatLearn.Proc
