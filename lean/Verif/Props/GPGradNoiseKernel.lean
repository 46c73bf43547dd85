import Verif.Props.GPGradFeatures

/-!
# A noise kernel and the regularisation of a model of values and gradients (C321)
-/

namespace CatLearn.GradProc

open CatLearn CatLearn.Kernel CatLearn.Proc Matrix

private theorem noise_gram {N n : ℕ} (ks : List (GDict N)) (t1 t2 s r r' : ℝ) (h2 : t2 ^ 2 = t1 ^ 2) (hr : r' ^ 2 = r ^ 2 + s * t1 ^ 2) (X : Fin n → Fin N → ℝ) :
    covGrad (ks ++ [⟨.noiseMulti t1 t2, s, false⟩]) (some r) X = covGrad ks (some r') X := by
  unfold covGrad
  rw [List.foldl_append]
  simp only [List.foldl_cons, List.foldl_nil, Bool.false_eq_true, if_false, gMatrix, noiseMultiXX, h2, fromBlocks_diagonal, add_assoc]
  congr 1
  ext i j
  rw [Matrix.add_apply, Matrix.smul_apply]
  by_cases hij : i = j
  · subst hij
    rw [diagonal_apply_eq, diagonal_apply_eq, diagonal_apply_eq, hr]
    rcases i with i | i <;> simp [add_comm]
  · rw [diagonal_apply_ne _ hij, diagonal_apply_ne _ hij, diagonal_apply_ne _ hij]
    simp

private theorem noise_row {N n : ℕ} (ks : List (GDict N)) (t1 t2 s : ℝ) (x : Fin N → ℝ) (X : Fin n → Fin N → ℝ) :
    covRow (ks ++ [⟨.noiseMulti t1 t2, s, false⟩]) x X = covRow ks x X := by
  unfold covRow
  rw [List.foldl_append]
  funext p
  simp [gRow]

private theorem noise_diag {N : ℕ} (ks : List (GDict N)) (t1 t2 s : ℝ) (x : Fin N → ℝ) :
    kxx (ks ++ [⟨.noiseMulti t1 t2, s, false⟩]) x = (kxx ks x).map (· + s * t1 ^ 2) := by
  have h : kxx (ks ++ [⟨.noiseMulti t1 t2, s, false⟩]) x = (kxx ks x).bind fun v => .ok (v + s * t1 ^ 2) := by
    unfold kxx
    rw [List.foldlM_append]
    rfl
  rw [h]
  cases kxx ks x <;> rfl

private theorem noise_finish {N : ℕ} (ks : List (GDict N)) (t1 t2 s r r' : ℝ) (h2 : t2 ^ 2 = t1 ^ 2) (hr : r' ^ 2 = r ^ 2 + s * t1 ^ 2)
    (hl : lastOnly (ks ++ [⟨.noiseMulti t1 t2, s, false⟩]) = true) (g : GradGP N) (hg : g.kernels = ks) (hgr : g.reg = some r') (q : GradGP N)
    (hq : finish g true = .ok q) :
    finish { g with kernels := ks ++ [⟨.noiseMulti t1 t2, s, false⟩], reg := some r } true =
      .ok { q with kernels := ks ++ [⟨.noiseMulti t1 t2, s, false⟩], reg := some r } ∧ q.kernels = ks ∧ q.reg = some r' ∧ q.scaling = g.scaling := by
  subst hg
  obtain ⟨k1, k2, rfl, k4, k5⟩ := finish_ok hq
  obtain ⟨k4, k6⟩ := k4 rfl
  have hK : covGrad (g.kernels ++ [⟨.noiseMulti t1 t2, s, false⟩]) (some r) g.fp.get = covGrad g.kernels g.reg g.fp.get := by
    rw [hgr]; exact noise_gram _ _ _ _ _ _ h2 hr _
  have hf := finish_eq { g with kernels := g.kernels ++ [⟨.noiseMulti t1 t2, s, false⟩], reg := some r } true
    (IsUnit (covGrad g.kernels g.reg g.fp.get).det) (covGrad g.kernels g.reg g.fp.get).PosDef
    ⟨g.fp.length, (covGrad g.kernels g.reg g.fp.get)⁻¹⟩ (by rw [hK]) (by rw [hK]) (by rw [hK])
  refine ⟨?_, rfl, hgr, rfl⟩
  rw [hf, if_neg (by cases g.kernels <;> simp), if_neg (not_not.2 k2), if_neg (by simp), if_neg (not_not.2 hl), if_neg (not_not.2 k4), if_neg (not_not.2 k6)]

private theorem noise_predict {N : ℕ} (q : GradGP N) (hne : q.kernels.isEmpty = false) (t1 t2 s r : ℝ) (x : Fin N → ℝ) :
    predict { q with kernels := q.kernels ++ [⟨.noiseMulti t1 t2, s, false⟩], reg := some r } x = predict q x := by
  unfold predict
  have : (q.kernels ++ [(⟨.noiseMulti t1 t2, s, false⟩ : GDict N)]).isEmpty = q.kernels.isEmpty := by
    rw [hne]; cases q.kernels <;> rfl
  simp only [this, noise_row]
  rfl

private theorem noise_variance {N : ℕ} (q : GradGP N) (t1 t2 s r : ℝ) (x : Fin N → ℝ) :
    variance { q with kernels := q.kernels ++ [⟨.noiseMulti t1 t2, s, false⟩], reg := some r } x = (variance q x).map (· + s * t1 ^ 2) := by
  unfold variance
  simp only [noise_diag, noise_row]
  cases kxx q.kernels x with
  | error e => rfl
  | ok v =>
    simp only [Except.map]
    congr 1
    ring

/-- C321: in a model of values and gradients, a noise kernel with the same noise for both at the end of the list acts on predictions as a larger regularisation, and adds its
variance to that of every prediction (without scaling of the data, where uncertainties are in units of the targets). -/
theorem C321_gradients {N : ℕ} (fp : List (Fin N → ℝ)) (t : List ℝ) (grad : List (Fin N → ℝ)) (ks : List (GDict N)) (t1 t2 s r r' : ℝ) (h2 : t2 ^ 2 = t1 ^ 2)
    (hs : 0 ≤ s) (hr : r' ^ 2 = r ^ 2 + s * t1 ^ 2) (hl : lastOnly (ks ++ [⟨.noiseMulti t1 t2, s, false⟩]) = true) (sd : Bool) (gp' : GradGP N)
    (hi : init fp t grad ks (some r') sd = .ok gp') :
    ∃ gp, init fp t grad (ks ++ [⟨.noiseMulti t1 t2, s, false⟩]) (some r) sd = .ok gp ∧ ∀ x, predict gp x = predict gp' x ∧
      (sd = false → ∀ u, uncertainty gp' x = .ok (some u) → uncertainty gp x = .ok (some (Real.sqrt (u ^ 2 + s * t1 ^ 2)))) := by
  have hfin : ∀ q : GradGP N, q.kernels = ks → q.reg = some r' → q.kernels.isEmpty = false → (sd = false → q.scaling = none) → ∀ x,
      predict { q with kernels := ks ++ [⟨.noiseMulti t1 t2, s, false⟩], reg := some r } x = predict q x ∧
      (sd = false → ∀ u, uncertainty q x = .ok (some u) →
        uncertainty { q with kernels := ks ++ [⟨.noiseMulti t1 t2, s, false⟩], reg := some r } x = .ok (some (Real.sqrt (u ^ 2 + s * t1 ^ 2)))) := by
    intro q hq hqr hne hsc x
    subst hq
    have hp := noise_predict q hne t1 t2 s r x
    refine ⟨hp, fun hsd u hu => ?_⟩
    have hsn := hsc hsd
    unfold uncertainty at hu ⊢
    rw [hp]
    have hsr : GradGP.scaleRow { q with kernels := q.kernels ++ [⟨.noiseMulti t1 t2, s, false⟩], reg := some r } x = q.scaleRow x := rfl
    have hts : GradGP.tstd { q with kernels := q.kernels ++ [⟨.noiseMulti t1 t2, s, false⟩], reg := some r } = 1 := by
      simp only [GradGP.tstd, hsn]
    have hts' : q.tstd = 1 := by simp only [GradGP.tstd, hsn]
    rw [hsr, noise_variance, hts]
    rw [hts', hqr] at hu
    cases he : predict q x with
    | error e => rw [he] at hu; cases hu
    | ok m =>
      rw [he] at hu
      cases hv : variance q (q.scaleRow x) with
      | error e => rw [hv] at hu; cases hu
      | ok v =>
        rw [hv] at hu
        simp only [Except.map, mul_one, Except.ok.injEq] at hu ⊢
        by_cases hneg : v < 0
        · simp [npSqrt, hneg] at hu
        · have h0 : 0 ≤ v := not_lt.1 hneg
          have h1 : ¬ v + s * t1 ^ 2 < 0 := not_lt.2 (by positivity)
          simp only [npSqrt, hneg, h1, if_false, Option.map_some, Option.some.injEq] at hu ⊢
          rw [← hu, Real.sq_sqrt h0]
  unfold init update at hi ⊢
  split at hi
  · cases hi
  rename_i h1
  rw [if_neg h1]
  split at hi
  · cases hi
  rename_i h3
  rw [if_neg h3]
  cases sd with
  | false =>
    rw [if_neg (by simp)] at hi ⊢
    obtain ⟨e1, e2, e3, e4⟩ := noise_finish ks t1 t2 s r r' h2 hr hl ⟨ks, some r', false, fp, t ++ flat grad, false, none, ⟨0, 1⟩⟩ rfl rfl gp' hi
    exact ⟨_, e1, hfin gp' e2 e3 (by rw [e2]; exact (finish_ok hi).1) fun _ => e4⟩
  | true =>
    rw [if_pos rfl] at hi ⊢
    obtain ⟨e1, e2, e3, e4⟩ := noise_finish ks t1 t2 s r r' h2 hr hl ⟨ks, some r', true, fp.map (scalOf fp t).row,
      t.map (scalOf fp t).tgt ++ flat (grad.map (scaleGrad (scalOf fp t))), decide ((scalOf fp t).tstd = 0), some (scalOf fp t), ⟨0, 1⟩⟩ rfl rfl gp' hi
    exact ⟨_, e1, hfin gp' e2 e3 (by rw [e2]; exact (finish_ok hi).1) fun h => by cases h⟩

/-- C321: noise 4 and regularisation 3 in place of the regularisation 5. -/
example : (∃ gp : GradGP 1, init [![(-1:ℝ)], ![1]] [0, 2] [![1], ![0]] [⟨.gaussian ![1], 1, false⟩] (some 5) false = .ok gp) ∧ (5:ℝ) ^ 2 = 3 ^ 2 + 1 * 4 ^ 2 ∧
    lastOnly ([(⟨.gaussian ![1], 1, false⟩ : GDict 1)] ++ [⟨.noiseMulti 4 4, 1, false⟩]) = true :=
  ⟨C123_trains _ _ _ _ (by simp) rfl (by simp [GoodGrad]) 5 (by norm_num) false (by simp) rfl rfl, by norm_num, rfl⟩

end CatLearn.GradProc
