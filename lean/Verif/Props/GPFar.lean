import Verif.Props.GPSequential
import Verif.Props.GPLimits
import Verif.Props.GPNear

/-!
# Training points far from all others (C303)
-/

namespace CatLearn.Proc

open CatLearn CatLearn.Kernel CatLearn.Scaling CatLearn.PSD Matrix Filter Topology

/-- C303 (`_partial`: without `scale_data`, which breaks it): a further training point that is far away does not influence the model: as the point moves away, with any bounded target, the predictions and
uncertainties at all other points tend to those of the model without it. -/
theorem C303_far_partial {N : ℕ} {α : Type} (l : Filter α) [l.NeBot] (fp : List (Fin N → ℝ)) (t : List ℝ) (ks : List (KDict N)) (hp : PacksList ks) (log : Bool)
    (hk : ∀ k ∈ ks, GoodKernel log k) (hn : ∀ k ∈ ks, ∀ h, k.ktype ≠ .noiseMulti h) (hf : ∀ k ∈ ks, Fades k) (r : ℝ) (x : α → Fin N → ℝ)
    (hx : ∀ k ∈ ks, Tendsto (fun a => ((columns k).map fun c => |x a c|).sum) l atTop) (y : α → ℝ) (C : ℝ) (hy : ∀ a, |y a| ≤ C)
    (gp : GP N) (h : init fp t ks (some r) log false = .ok gp) (G : α → GP N)
    (hG : ∀ a, init (fp ++ [x a]) (t ++ [y a]) ks (some r) log false = .ok (G a)) (z : Fin N → ℝ) :
    ∃ (p u : ℝ) (P U : α → ℝ), predict gp [z] true = .ok ⟨[some p], some [(some u, some (u + r))]⟩ ∧
      (∀ a, predict (G a) [z] true = .ok ⟨[some (P a)], some [(some (U a), some (U a + r))]⟩) ∧
      Tendsto P l (𝓝 p) ∧ Tendsto U l (𝓝 u) := by
  obtain ⟨hl, hc, k1, k2, k3, sr, ts, hpd, hm, hv⟩ := init_plain hp h
  have g : ∀ k ∈ gp.kernels, GoodKernel gp.log k := by rw [k1, k3]; exact hk
  set μ : (Fin N → ℝ) → ℝ := fun z => postMean (gram ks log (some r) fp) (kvec ks log z fp.get) fun i => t.get (i.cast hl.symm) with hμ
  have hpair : ∀ w, Tendsto (fun a => covEntry ks log (x a) w false) l (𝓝 0) := fun w => covEntry_fades l x w ks log hf hk fun k hkm _ => hx k hkm
  have hkv : Tendsto (fun a => kvec ks log (x a) fp.get) l (𝓝 0) := tendsto_pi_nhds.2 fun i => hpair _
  have hμx : Tendsto (fun a => μ (x a)) l (𝓝 0) := by
    have hcont : Continuous fun v : Fin fp.length → ℝ => v ⬝ᵥ ((gram ks log (some r) fp)⁻¹ *ᵥ fun i => t.get (i.cast hl.symm)) :=
      continuous_id.dotProduct continuous_const
    have h0 := (hcont.tendsto 0).comp hkv
    simp only [zero_dotProduct] at h0
    exact h0
  have hcov : Tendsto (fun a => postCov ks log (some r) fp z (x a)) l (𝓝 0) := by
    have hcont : Continuous fun v : Fin fp.length → ℝ => kvec ks log z fp.get ⬝ᵥ ((gram ks log (some r) fp)⁻¹ *ᵥ v) :=
      continuous_const.dotProduct (Continuous.matrix_mulVec continuous_const continuous_id)
    have h0 := (hcont.tendsto 0).comp hkv
    simp only [mulVec_zero, dotProduct_zero] at h0
    have h1 := (hpair z).sub h0
    rw [sub_zero] at h1
    refine h1.congr fun a => ?_
    simp only [postCov, covEntry_symm ks log z (x a), Function.comp_apply]
  have hvar : Tendsto (fun a => gp.var (x a)) l (𝓝 (covEntry ks log 0 0 true)) := by
    have hcont : Continuous fun v : Fin fp.length → ℝ => covEntry ks log 0 0 true - (v ᵥ* (gram ks log (some r) fp)⁻¹) ⬝ᵥ v :=
      continuous_const.sub ((Continuous.matrix_vecMul continuous_id continuous_const).dotProduct continuous_id)
    have h1 := (hcont.tendsto 0).comp hkv
    simp only [dotProduct_zero, sub_zero] at h1
    refine h1.congr fun a => ?_
    simp only [Function.comp_apply, hv, postVar, covEntry_place ks log hf (x a)]
  have upd : ∀ a, (G a).mean z = some (μ z + postCov ks log (some r) fp z (x a) / (gp.var (x a) + unlog log r ^ 2) * (y a - μ (x a))) ∧
      (G a).var z = gp.var z - postCov ks log (some r) fp z (x a) ^ 2 / (gp.var (x a) + unlog log r ^ 2) ∧ 0 < gp.var (x a) + unlog log r ^ 2 := by
    intro a
    obtain ⟨m, m', e1, e2, -, e4, e5⟩ := update_models hp hn h (hG a)
    have e : ∀ w, m w = μ w := fun w => by
      have := (e1 w).symm.trans (hm w)
      exact Option.some.inj this
    rw [e2, (e5 z).1, e, e]
    exact ⟨rfl, (e5 z).2, e4⟩
  have hD : covEntry ks log 0 0 true + unlog log r ^ 2 ≠ 0 := by
    obtain ⟨a, -⟩ := (hvar.eventually_mem univ_mem).exists
    have h1 := (upd a).2.2
    have h2 := (C42_variance gp hc g (x a)).2
    rw [k1, k3, covEntry_place ks log hf] at h2
    linarith
  have hq : Tendsto (fun a => postCov ks log (some r) fp z (x a) / (gp.var (x a) + unlog log r ^ 2)) l (𝓝 0) := by
    have := hcov.div (hvar.add_const (unlog log r ^ 2)) hD
    rwa [zero_div] at this
  refine ⟨μ z, Real.sqrt (gp.var z), fun a => μ z + postCov ks log (some r) fp z (x a) / (gp.var (x a) + unlog log r ^ 2) * (y a - μ (x a)),
    fun a => Real.sqrt ((G a).var z), ?_, fun a => ?_, ?_, ?_⟩
  · rw [hc.predict_unc _ (by simp) r k2]
    simp only [List.map_cons, List.map_nil, sr, unc_plain hc g ts, hm, hμ]
  · obtain ⟨hl', hc', k1', k2', k3', sr', ts', -⟩ := init_plain hp (hG a)
    have g' : ∀ k ∈ (G a).kernels, GoodKernel (G a).log k := by rw [k1', k3']; exact hk
    rw [hc'.predict_unc _ (by simp) r k2']
    simp only [List.map_cons, List.map_nil, sr', unc_plain hc' g' ts', (upd a).1]
  · have h1 : Tendsto (fun a => postCov ks log (some r) fp z (x a) / (gp.var (x a) + unlog log r ^ 2) * y a) l (𝓝 0) := by
      have h0 := hq.abs.mul_const C
      rw [abs_zero, zero_mul] at h0
      refine squeeze_zero_norm (fun a => ?_) h0
      rw [Real.norm_eq_abs, abs_mul]
      exact mul_le_mul_of_nonneg_left (hy a) (abs_nonneg _)
    have h2 := hq.mul hμx
    have h3 := (h1.sub h2).const_add (μ z)
    simp only [mul_zero, sub_zero, add_zero] at h3
    refine h3.congr fun a => ?_
    ring
  · have h1 : Tendsto (fun a => (G a).var z) l (𝓝 (gp.var z)) := by
      have h2 := (hcov.mul hq).const_sub (gp.var z)
      simp only [mul_zero, sub_zero] at h2
      refine h2.congr fun a => ?_
      rw [(upd a).2.1]
      ring
    exact (Real.continuous_sqrt.tendsto _).comp h1

/-! ### With scaled data -/

/-- A model that scales its data predicts what a model of the scaled data does, in other units. -/
theorem scaled_plain {N : ℕ} {fp : List (Fin N → ℝ)} {t : List ℝ} {ks : List (KDict N)} (hp : PacksList ks) {reg : Option ℝ} {log : Bool}
    (ht : tStd t.get ≠ 0) {gp gp2 : GP N} (h : init fp t ks reg log true = .ok gp)
    (h2 : init (fp.map (scalOf fp t).row) (t.map (scalOf fp t).tgt) ks reg log false = .ok gp2) (x : Fin N → ℝ) :
    gp.mean (gp.scaleRow x) = (gp2.mean ((scalOf fp t).row x)).map (scalOf fp t).untgt := by
  obtain ⟨hc, hh, h1, h2', h3, h4⟩ := C43_init_partial _ _ _ hp _ _ _ gp h
  obtain ⟨hl, -, -, -, -, -, -, -, hm, -⟩ := init_plain hp h2
  have hst := hh.1
  unfold store at hst
  rw [h4] at hst
  simp only [if_true, Except.ok.injEq, Stored.mk.injEq] at hst
  obtain ⟨d1, d2, d3, d4⟩ := hst
  have hm' : ∀ hl : gp.fp.length = gp.target.length, _ = postMean _ _ fun i : Fin gp.fp.length => gp.target.get (i.cast hl) :=
    fun _ => hc.mean_eq (gp.scaleRow x)
  have hs : gp.scaleRow x = (scalOf fp t).row x := by unfold GP.scaleRow; rw [h4, ← d4]
  have hr : ∀ z, gp.rescale z = (scalOf fp t).untgt z := by intro z; unfold GP.rescale; rw [h4, ← d4]
  have hn : gp.nan = false := by rw [← d3]; exact decide_eq_false ht
  simp only [h1, h2', h3] at hm'
  rw [hm]
  unfold GP.mean
  rw [hn, if_neg (by simp), hr, hm' (by rw [← d1, ← d2]; exact hl.symm), hs]
  simp only [Option.map_some]
  congr 2
  clear hm' hr hs hn hc hh h h1 h2' h3 h4 d3 d4
  obtain ⟨gk, greg, glog, gsd, gfp, gt, gnan, gsc, gci, glm⟩ := gp
  simp only at d1 d2
  subst d1 d2
  rfl

private noncomputable def gK : List (KDict 1) := [⟨.gaussian [1], none, none, false⟩]

private theorem gK_packs : PacksList gK := by intro s d b h; simp at h

private theorem gK_good : ∀ k ∈ gK, GoodKernel false k := by simp [gK, GoodKernel, GoodWidths]

private theorem gK_entry (x y : Fin 1 → ℝ) (b : Bool) : covEntry gK false x y b = Real.exp (-(x 0 - y 0) ^ 2 / 2) := by
  have : List.finRange 1 = [0] := rfl
  simp [covEntry, gK, entry, colSum, columns, pick, unlog, scaleFactor, this]
  ring

private theorem gK_can (fp : List (Fin 1 → ℝ)) (t : List ℝ) (sd : Bool) (h : fp ≠ []) (h2 : fp.length = t.length) :
    ∃ gp, init fp t gK (some 1) false sd = .ok gp :=
  C113_can_build fp t gK 1 false sd h h2 (by simp [gK]) gK_packs gK_good (Or.inr one_ne_zero)

private theorem two_scal : scalOf [![(-1:ℝ)], ![1]] [-1, 1] = ⟨0, 1, 0, 1⟩ := by
  have hm : colMean [![(-1:ℝ)], ![1]].get = 0 := by
    funext a
    simp [colMean, Fin.sum_univ_succ]
  have hs : colStd [![(-1:ℝ)], ![1]].get = 1 := by
    funext a
    simp [colStd, hm, Fin.sum_univ_succ]
  have tm : tMean [(-1:ℝ), 1].get = 0 := by simp [tMean, colMean, Fin.sum_univ_succ]
  have ts : tStd [(-1:ℝ), 1].get = 1 := by
    have h : colMean (fun i (_ : Unit) => [(-1:ℝ), 1].get i) () = 0 := tm
    simp only [tStd, colStd, h]
    simp [Fin.sum_univ_succ]
  unfold scalOf
  rw [hm, hs, tm, ts]
  congr 1
  funext a
  simp [placeOnes]

private theorem three_scal (s : ℝ) : (scalOf [![(-1:ℝ)], ![1], ![s]] [-1, 1, 0]).tmean = 0 ∧ (scalOf [![(-1:ℝ)], ![1], ![s]] [-1, 1, 0]).tstd ^ 2 = 2 / 3 ∧
    4 / 27 * s ^ 2 ≤ (scalOf [![(-1:ℝ)], ![1], ![s]] [-1, 1, 0]).fstd 0 ^ 2 := by
  have hm : colMean [![(-1:ℝ)], ![1], ![s]].get 0 = s / 3 := by
    simp [colMean, Fin.sum_univ_succ]
  have tm : tMean [(-1:ℝ), 1, 0].get = 0 := by simp [tMean, colMean, Fin.sum_univ_succ]
  refine ⟨tm, ?_, ?_⟩
  · have h : colMean (fun i (_ : Unit) => [(-1:ℝ), 1, 0].get i) () = 0 := tm
    simp only [scalOf, tStd, colStd, h]
    rw [Real.sq_sqrt (by positivity)]
    simp [Fin.sum_univ_succ]
    norm_num
  · have h0 : colStd [![(-1:ℝ)], ![1], ![s]].get 0 ^ 2 = ((-1 - s / 3) ^ 2 + (1 - s / 3) ^ 2 + (s - s / 3) ^ 2) / 3 := by
      simp only [colStd, hm]
      rw [Real.sq_sqrt (by positivity)]
      simp [Fin.sum_univ_succ]
      ring
    have h1 : 4 / 27 * s ^ 2 ≤ colStd [![(-1:ℝ)], ![1], ![s]].get 0 ^ 2 := by
      rw [h0]
      nlinarith [sq_nonneg (-1 - s / 3), sq_nonneg (1 - s / 3)]
    simp only [scalOf, placeOnes]
    split
    · next h => rw [h] at h1; nlinarith
    · exact h1

/-- C303 fails with `scale_data`: a far point makes the standard deviation of the features large, so that all other points become the same to the kernels.
Of the values -1 and 1 at the points -1 and 1, a model with a third point far away predicts the same in the end. -/
theorem C303_scaled_violated : ∃ (k : KDict 1) (w : List ℝ) (gp : GP 1) (G : ℝ → GP 1), k.ktype = .gaussian w ∧
    init [![-1], ![1]] [-1, 1] [k] (some 1) false true = .ok gp ∧
    (∀ s, init ([![-1], ![1]] ++ [![s]]) ([-1, 1] ++ [0]) [k] (some 1) false true = .ok (G s)) ∧
    ∃ z p P, predict gp [z] false = .ok ⟨[some p], none⟩ ∧ (∀ s, predict (G s) [z] false = .ok ⟨[some (P s)], none⟩) ∧ ¬ Tendsto P atTop (𝓝 p) := by
  obtain ⟨gp, h⟩ := gK_can [![-1], ![1]] [-1, 1] true (by simp) rfl
  have hG : ∀ s : ℝ, ∃ g, init [![-1], ![1], ![s]] [-1, 1, 0] gK (some 1) false true = .ok g := fun s => gK_can _ _ true (by simp) rfl
  choose G hG using hG
  refine ⟨⟨.gaussian [1], none, none, false⟩, [1], gp, G, rfl, h, hG, ?_⟩
  -- the models of scaled data
  obtain ⟨gp2, h2⟩ := gK_can ([![-1], ![1]].map (scalOf [![(-1:ℝ)], ![1]] [-1, 1]).row) ([-1, 1].map (scalOf [![(-1:ℝ)], ![1]] [-1, 1]).tgt) false (by simp) rfl
  have hG2 : ∀ s : ℝ, ∃ g, init ([![-1], ![1], ![s]].map (scalOf [![(-1:ℝ)], ![1], ![s]] [-1, 1, 0]).row)
      ([-1, 1, 0].map (scalOf [![(-1:ℝ)], ![1], ![s]] [-1, 1, 0]).tgt) gK (some 1) false false = .ok g := fun s => gK_can _ _ false (by simp) rfl
  choose G2 hG2 using hG2
  have ht : tStd [(-1:ℝ), 1].get ≠ 0 := by
    have : (scalOf [![(-1:ℝ)], ![1]] [-1, 1]).tstd = 1 := by rw [two_scal]
    have e : (scalOf [![(-1:ℝ)], ![1]] [-1, 1]).tstd = tStd [(-1:ℝ), 1].get := rfl
    rw [← e, this]
    exact one_ne_zero
  have ht3 : tStd [(-1:ℝ), 1, 0].get ≠ 0 := by
    have := (three_scal 0).2.1
    have e : (scalOf [![(-1:ℝ)], ![1], ![0]] [-1, 1, 0]).tstd = tStd [(-1:ℝ), 1, 0].get := rfl
    rw [e] at this
    intro h0
    rw [h0] at this
    norm_num at this
  have hS := fun s => C291_gaussian _ _ ⟨.gaussian [1], none, none, false⟩ [1] rfl rfl gK_packs false (gK_good _ (by simp [gK])) 1 (G2 s) (hG2 s)
  have hmean : ∀ s, ∃ M : (Fin 1 → ℝ) → ℝ, ∀ z, (G2 s).mean z = some (M z) := fun s => by
    obtain ⟨hl, -, -, -, -, -, -, -, hm, -⟩ := init_plain gK_packs (hG2 s)
    exact ⟨_, hm⟩
  choose M hM using hmean
  have hpred : ∀ s z, predict (G s) [z] false = .ok ⟨[some ((scalOf [![(-1:ℝ)], ![1], ![s]] [-1, 1, 0]).untgt
      (M s ((scalOf [![(-1:ℝ)], ![1], ![s]] [-1, 1, 0]).row z)))], none⟩ := by
    intro s z
    obtain ⟨hc, -⟩ := C43_init_partial _ _ _ gK_packs _ _ _ (G s) (hG s)
    rw [hc.predict_eq [z] (by simp)]
    simp only [List.map_cons, List.map_nil, scaled_plain gK_packs ht3 (hG s) (hG2 s), hM, Option.map_some]
  -- the first model
  have hfirst : ∀ z : Fin 1 → ℝ, predict gp [z] false =
      .ok ⟨[some ((Real.exp (-(z 0 - 1) ^ 2 / 2) - Real.exp (-(z 0 - (-1)) ^ 2 / 2)) / (2 - Real.exp (-2)))], none⟩ := by
    intro z
    obtain ⟨hc, -⟩ := C43_init_partial _ _ _ gK_packs _ _ _ gp h
    have hsc := scaled_plain gK_packs ht h h2 z
    rw [two_scal] at hsc h2
    have r1 : ([![-1], ![1]] : List (Fin 1 → ℝ)).map (Scal.row (⟨0, 1, 0, 1⟩ : Scal 1)) = [![-1], ![1]] := by
      have : ∀ v : Fin 1 → ℝ, Scal.row (⟨0, 1, 0, 1⟩ : Scal 1) v = v := fun v => by funext a; simp [Scal.row]
      simp [this]
    have r2 : ([-1, 1] : List ℝ).map (Scal.tgt (⟨0, 1, 0, 1⟩ : Scal 1)) = [-1, 1] := by simp [Scal.tgt]
    rw [r1, r2] at h2
    obtain ⟨hl, -, -, -, -, -, -, hpd, hm, -⟩ := init_plain gK_packs h2
    have r3 : Scal.row (⟨0, 1, 0, 1⟩ : Scal 1) z = z := by funext a; simp [Scal.row]
    have hpos : 0 < 2 - Real.exp (-2) := by
      have : Real.exp (-2) < 1 := Real.exp_lt_one_iff.2 (by norm_num)
      linarith
    have hsol : (gram gK false (some 1) [![-1], ![1]])⁻¹ *ᵥ (fun i => [(-1:ℝ), 1].get (i.cast hl.symm)) =
        (2 - Real.exp (-2))⁻¹ • fun i => [(-1:ℝ), 1].get (i.cast hl.symm) := by
      have e : gram gK false (some 1) [![-1], ![1]] *ᵥ ((2 - Real.exp (-2))⁻¹ • fun i => [(-1:ℝ), 1].get (i.cast hl.symm)) =
          fun i => [(-1:ℝ), 1].get (i.cast hl.symm) := by
        rw [mulVec_smul, inv_smul_eq_iff₀ hpos.ne']
        funext i
        have : i = 0 ∨ i = 1 := by
          obtain ⟨i, hi⟩ := i
          have : i < 2 := hi
          interval_cases i
          · exact Or.inl rfl
          · exact Or.inr rfl
        rcases this with rfl | rfl
        · simp [mulVec, dotProduct, Fin.sum_univ_succ, gram, covSelf_apply, gK_entry, regSq, unlog]
          norm_num
          ring
        · simp [mulVec, dotProduct, Fin.sum_univ_succ, gram, covSelf_apply, gK_entry, regSq, unlog]
          norm_num
          ring
      conv_lhs => rw [← e]
      rw [mulVec_mulVec, nonsing_inv_mul _ hpd.det_pos.ne'.isUnit, one_mulVec]
    rw [hc.predict_eq [z] (by simp)]
    simp only [List.map_cons, List.map_nil, hsc, r3, hm, Option.map_some, postMean, hsol, Scal.untgt]
    congr 4
    rw [dotProduct_smul]
    simp [dotProduct, Fin.sum_univ_succ, kvec, gK_entry]
    ring
  by_contra hno
  push Not at hno
  have l1 := hno ![-1] _ _ (hfirst _) (hpred · _)
  have l2 := hno ![1] _ _ (hfirst _) (hpred · _)
  have hdiff : ∀ s : ℝ, 0 < s → ((scalOf [![(-1:ℝ)], ![1], ![s]] [-1, 1, 0]).untgt (M s ((scalOf [![(-1:ℝ)], ![1], ![s]] [-1, 1, 0]).row ![-1])) -
      (scalOf [![(-1:ℝ)], ![1], ![s]] [-1, 1, 0]).untgt (M s ((scalOf [![(-1:ℝ)], ![1], ![s]] [-1, 1, 0]).row ![1]))) ^ 2 ≤ 54 * (s⁻¹) ^ 2 := by
    intro s hs
    obtain ⟨S, S0, S1, S2⟩ := hS s
    obtain ⟨q1, q2, q3⟩ := three_scal s
    set σ := scalOf [![(-1:ℝ)], ![1], ![s]] [-1, 1, 0] with hσ
    obtain ⟨m, u, m', u', e1, -, e2⟩ := S2 (σ.row ![-1]) (σ.row ![1])
    obtain ⟨-, hc, -, k2, -, sr, -⟩ := init_plain gK_packs (hG2 s)
    rw [hc.predict_unc _ (by simp) 1 k2] at e1
    simp only [List.map_cons, List.map_nil, sr, hM, Except.ok.injEq, Pred.mk.injEq, List.cons.injEq, Option.some.injEq, and_true] at e1
    rw [← e1.1.1, ← e1.1.2] at e2
    have hf : List.finRange 1 = [0] := rfl
    have hfs : 0 < σ.fstd 0 ^ 2 := lt_of_lt_of_le (by positivity) q3
    have hne : σ.fstd 0 ≠ 0 := fun h => by rw [h] at hfs; simp at hfs
    have hts : 0 < σ.tstd ^ 2 := by rw [q2]; norm_num
    have htne : σ.tstd ≠ 0 := fun h => by rw [h] at hts; simp at hts
    have hS3 : S ≤ 3 := by
      simp only [List.map_cons, List.map_nil, List.sum_cons, List.sum_nil, Scal.tgt, q1, div_pow, q2, unlog, Bool.false_eq_true, if_false] at S1
      norm_num at S1
      exact S1
    have hrow : (σ.row ![-1] 0 - σ.row ![1] 0) ^ 2 = 4 / σ.fstd 0 ^ 2 := by
      simp only [Scal.row, Matrix.cons_val_zero]
      field_simp
      ring
    have hsum : scaleFactor (⟨.gaussian [1], none, none, false⟩ : KDict 1) false * ((columns (⟨.gaussian [1], none, none, false⟩ : KDict 1)).zipIdx.map
        fun c => ((σ.row ![-1] c.1 - σ.row ![1] c.1) / unlog false (pick [1] c.2)) ^ 2).sum = 4 / σ.fstd 0 ^ 2 := by
      rw [← hrow]
      simp [scaleFactor, columns, hf, pick, unlog]
    rw [hsum] at e2
    have hle : 4 / σ.fstd 0 ^ 2 ≤ 27 * s⁻¹ ^ 2 := by
      rw [div_le_iff₀ hfs]
      have : 27 * s⁻¹ ^ 2 * (4 / 27 * s ^ 2) ≤ 27 * s⁻¹ ^ 2 * σ.fstd 0 ^ 2 := mul_le_mul_of_nonneg_left q3 (by positivity)
      refine le_trans (le_of_eq ?_) this
      field_simp
    have hfin : (σ.untgt (M s (σ.row ![-1])) - σ.untgt (M s (σ.row ![1]))) ^ 2 = 2 / 3 * (M s (σ.row ![-1]) - M s (σ.row ![1])) ^ 2 := by
      rw [← q2]
      simp only [Scal.untgt]
      ring
    rw [hfin]
    have h0 : 0 ≤ 4 / σ.fstd 0 ^ 2 := by positivity
    nlinarith [mul_le_mul_of_nonneg_right hS3 h0]
  have hzero : Tendsto (fun s : ℝ => 54 * (s⁻¹) ^ 2) atTop (𝓝 0) := by
    have := (tendsto_inv_atTop_zero (𝕜 := ℝ)).pow 2 |>.const_mul 54
    simpa using this
  have hsq := (l1.sub l2).pow 2
  have hle := le_of_tendsto_of_tendsto hsq hzero (by
    filter_upwards [eventually_gt_atTop 0] with s hs
    exact hdiff s hs)
  have hpos : 0 < 2 - Real.exp (-2) := by
    have : Real.exp (-2) < 1 := Real.exp_lt_one_iff.2 (by norm_num)
    linarith
  have h1 : Real.exp (-2) < 1 := Real.exp_lt_one_iff.2 (by norm_num)
  simp only [Matrix.cons_val_zero] at hle
  norm_num at hle
  rw [← sub_div, div_eq_zero_iff] at hle
  rcases hle with hle | hle <;> linarith

/-- The kernels and points of a case. -/
example : (∃ gp, init [![(-1:ℝ)], ![1]] [-1, 1] gK (some 1) false false = .ok gp) ∧
    (∀ n : ℕ, ∃ gp, init ([![(-1:ℝ)], ![1]] ++ [![(n:ℝ)]]) ([-1, 1] ++ [0]) gK (some 1) false false = .ok gp) ∧ (∀ k ∈ gK, GoodKernel false k) ∧
    (∀ k ∈ gK, Fades k) ∧ ∀ k ∈ gK, Tendsto (fun n : ℕ => ((columns k).map fun c => |(![(n:ℝ)] : Fin 1 → ℝ) c|).sum) atTop atTop := by
  refine ⟨gK_can _ _ _ (by simp) rfl, fun n => gK_can _ _ _ (by simp) rfl, gK_good, by simp [gK, Fades], ?_⟩
  intro k hk
  have hk : k = ⟨.gaussian [1], none, none, false⟩ := by simpa [gK] using hk
  subst hk
  have hf : List.finRange 1 = [0] := rfl
  simpa [columns, hf] using tendsto_natCast_atTop_atTop (R := ℝ)

end CatLearn.Proc
