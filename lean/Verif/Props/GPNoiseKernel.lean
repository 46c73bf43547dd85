import Verif.Props.GPSequential

/-!
# A noise kernel and the regularisation (C321)
-/

namespace CatLearn.Proc

open CatLearn CatLearn.Kernel CatLearn.Scaling CatLearn.PSD Matrix

/-- C321: a noise kernel at the end of the list acts on predictions as a larger regularisation; other than the regularisation, it is part of the uncertainty too: the
variance at every point is larger by the variance of the noise. -/
theorem C321_noise {N : ℕ} (fp : List (Fin N → ℝ)) (t : List ℝ) (ks : List (KDict N)) (hp : PacksList ks) (h0 h1 s : ℝ) (hs : 0 ≤ s)
    (hp' : PacksList (ks ++ [⟨.noiseMulti [h0, h1], none, some s, false⟩])) (hk : ∀ k ∈ ks, GoodKernel false k) (r r' : ℝ) (hr : r' ^ 2 = r ^ 2 + s * h0 ^ 2)
    (gp gp' : GP N) (h : init fp t (ks ++ [⟨.noiseMulti [h0, h1], none, some s, false⟩]) (some r) false false = .ok gp)
    (h' : init fp t ks (some r') false false = .ok gp') (z : Fin N → ℝ) :
    ∃ m v : ℝ, 0 ≤ v ∧ predict gp' [z] true = .ok ⟨[some m], some [(some (Real.sqrt v), some (Real.sqrt v + r'))]⟩ ∧
      predict gp [z] true = .ok ⟨[some m], some [(some (Real.sqrt (v + s * h0 ^ 2)), some (Real.sqrt (v + s * h0 ^ 2) + r))]⟩ := by
  obtain ⟨hl, hcon, k1, k2, k3, sr, ts, hpd, hmean, hvar⟩ := init_plain hp' h
  obtain ⟨hl', hcon', k1', k2', k3', sr', ts', hpd', hmean', hvar'⟩ := init_plain hp h'
  have hent : ∀ x y b, covEntry (ks ++ [(⟨.noiseMulti [h0, h1], none, some s, false⟩ : KDict N)]) false x y b =
      covEntry ks false x y b + if b then s * h0 ^ 2 else 0 := by
    intro x y b
    unfold covEntry
    rw [List.foldl_append]
    cases b <;> simp [entry, scaleFactor, unlog]
  have hG : gram (ks ++ [(⟨.noiseMulti [h0, h1], none, some s, false⟩ : KDict N)]) false (some r) fp = gram ks false (some r') fp := by
    ext i j
    rw [gram, gram, covSelf_apply, covSelf_apply, hent]
    by_cases hij : i = j
    · simp only [hij, decide_true, if_true, regSq, unlog, Bool.false_eq_true, if_false, hr]
      ring
    · simp [hij]
  have hv : kvec (ks ++ [(⟨.noiseMulti [h0, h1], none, some s, false⟩ : KDict N)]) false z fp.get = kvec ks false z fp.get := by
    funext i
    unfold kvec
    rw [hent]
    simp
  have g1' : ∀ k' ∈ gp'.kernels, GoodKernel gp'.log k' := by rw [k1', k3']; exact hk
  have g1 : ∀ k' ∈ gp.kernels, GoodKernel gp.log k' := by
    rw [k1, k3]
    intro k' hk'
    rw [List.mem_append, List.mem_singleton] at hk'
    rcases hk' with hk' | rfl
    · exact hk k' hk'
    · exact ⟨Or.inr fun s' e => by cases e; exact hs, rfl⟩
  have hvv : gp.var z = gp'.var z + s * h0 ^ 2 := by
    rw [hvar, hvar', hG, hv, hent]
    simp only [postVar, if_true]
    ring
  refine ⟨postMean (gram ks false (some r') fp) (kvec ks false z fp.get) fun i => t.get (i.cast hl'.symm), gp'.var z, (C42_variance gp' hcon' g1' z).1, ?_, ?_⟩
  · rw [hcon'.predict_unc _ (by simp) r' k2']
    simp only [List.map_cons, List.map_nil, sr', unc_plain hcon' g1' ts', hmean']
  · rw [hcon.predict_unc _ (by simp) r k2]
    simp only [List.map_cons, List.map_nil, sr, unc_plain hcon g1 ts, hmean, hvv, hG, hv]

/-- C321: noise 4 and regularisation 3 give the predictions of the regularisation 5. -/
example : (∃ gp : GP 1, init [![(0:ℝ)], ![2]] [1, 2] ([⟨.linear, none, some 1, false⟩] ++ [⟨.noiseMulti [4, 1], none, some 1, false⟩]) (some 3) false false = .ok gp) ∧
    (∃ gp : GP 1, init [![(0:ℝ)], ![2]] [1, 2] [⟨.linear, none, some 1, false⟩] (some 5) false false = .ok gp) ∧ (5:ℝ) ^ 2 = 3 ^ 2 + 1 * 4 ^ 2 := by
  refine ⟨C113_can_build _ _ _ 3 false false (by simp) rfl (by simp) (by simp [PacksList, Packs]) (by simp [GoodKernel]) (Or.inr (by norm_num)),
    C113_can_build _ _ _ 5 false false (by simp) rfl (by simp) (by simp [PacksList]) (by simp [GoodKernel]) (Or.inr (by norm_num)), by norm_num⟩

end CatLearn.Proc
