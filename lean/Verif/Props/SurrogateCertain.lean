import Verif.Props.Surrogate
import Verif.Props.MLNEB

/-!
# How certain the surrogate of `MLNEB` is (C293)
-/

namespace CatLearn.Surrogate

open CatLearn CatLearn.Kernel CatLearn.GradProc CatLearn.Proc Matrix

/-- Minimisers that respect the bounds of mlneb.py L679, L697-698: positive widths, a noise of the energies from 0.001 to 0.005 and one of the
forces from 0.0005 to 0.002. -/
def Within {N : ℕ} (minimizer : GradGP N → Hyper N) : Prop :=
  ∀ gp, (∀ a, 0 < (minimizer gp).width a) ∧ 1 / 1000 ≤ (minimizer gp).noiseE ∧ (minimizer gp).noiseE ≤ 5 / 1000 ∧
    5 / 10000 ≤ (minimizer gp).noiseF ∧ (minimizer gp).noiseF ≤ 2 / 1000

theorem Within.bounded {N : ℕ} {minimizer : GradGP N → Hyper N} (h : Within minimizer) : Bounded minimizer := fun gp =>
  ⟨(h gp).1, by linarith [(h gp).2.1], by linarith [(h gp).2.2.2.1]⟩

/-- The kernels of the surrogate are those that the minimiser found. -/
private theorem trained_hyper {M N : ℕ} {minimizer : GradGP N → Hyper N} {mask : Fin N → Fin M} {dist : ℝ}
    {x : List (Fin M → ℝ)} {t : List ℝ} {g : List (Fin M → ℝ)} {r : GradGP N × ℝ} (h : trainGP minimizer mask dist x t g = .ok r) :
    ∃ sf g0, r.1.kernels = kernels sf (minimizer g0) := by
  unfold trainGP at h
  split at h
  · cases h
  simp only at h
  split at h
  · cases h
  split at h
  · cases h
  split at h
  · cases h
  split at h
  · cases h
  next hf =>
  injection h with h
  subst h
  obtain ⟨-, -, rfl, -⟩ := finish_ok hf
  exact ⟨_, _, rfl⟩

theorem covGrad_split {N : ℕ} {n : Type} [DecidableEq n] (sf : ℝ) (h : Hyper N) (X : n → Fin N → ℝ) :
    covGrad (kernels sf h) (some 0) X = covGrad [⟨.gaussian h.width, sf, false⟩] none X +
      Matrix.diagonal (Sum.elim (fun _ : n => h.noiseE ^ 2) (fun _ : n × Fin N => h.noiseF ^ 2)) := by
  have : (noiseMultiXX h.noiseE h.noiseF : Matrix (n ⊕ n × Fin N) (n ⊕ n × Fin N) ℝ) =
      Matrix.diagonal (Sum.elim (fun _ : n => h.noiseE ^ 2) (fun _ : n × Fin N => h.noiseF ^ 2)) := by
    unfold noiseMultiXX
    rw [Matrix.fromBlocks_diagonal]
  simp [covGrad, kernels, gMatrix, this]

theorem covRow_split {N n : ℕ} (sf : ℝ) (h : Hyper N) (z : Fin N → ℝ) (X : Fin n → Fin N → ℝ) :
    covRow (kernels sf h) z X = covRow [⟨.gaussian h.width, sf, false⟩] z X := by
  funext p
  simp [covRow, kernels, gRow]

/-- The variance is at least that of the noise. -/
private theorem var_ge {N n : ℕ} (sf : ℝ) (hs : 0 < sf) (h : Hyper N) (hw : ∀ a, 0 < h.width a) (hE : h.noiseE ≠ 0) (hF : h.noiseF ≠ 0)
    (X : Fin n → Fin N → ℝ) (z : Fin N → ℝ) :
    h.noiseE ^ 2 ≤ postVar (sf + h.noiseE ^ 2) (covGrad (kernels sf h) (some 0) X) (covRow (kernels sf h) z X) := by
  have pd := posDef sf hs.le h hw hE hF X
  have hsym : (covGrad (kernels sf h) (some 0) X).IsSymm := by
    have := pd.posSemidef.1
    rwa [Matrix.IsHermitian, conjTranspose_eq_transpose_of_trivial] at this
  rw [postVar_eq_form hsym pd.det_pos.ne'.isUnit]
  set w := (covGrad (kernels sf h) (some 0) X)⁻¹ *ᵥ covRow (kernels sf h) z X with hw'
  have h1 := varG_form [⟨.gaussian h.width, sf, false⟩] none (by
    intro k hk
    rw [List.mem_singleton] at hk
    subst hk
    exact ⟨hs.le, hw⟩) z X w
  rw [prior_eq] at h1
  have h2 : prior [(⟨.gaussian h.width, sf, false⟩ : GDict N)] z = sf := by simp [prior]
  rw [h2] at h1
  rw [covGrad_split, covRow_split, add_mulVec, dotProduct_add]
  have h3 : 0 ≤ w ⬝ᵥ (Matrix.diagonal (Sum.elim (fun _ : Fin n => h.noiseE ^ 2) (fun _ : Fin n × Fin N => h.noiseF ^ 2))) *ᵥ w := by
    simp only [dotProduct, mulVec_diagonal]
    refine Finset.sum_nonneg fun i _ => ?_
    rcases i with i | i
    · simp only [Sum.elim_inl]; nlinarith [sq_nonneg (h.noiseE * w (.inl i))]
    · simp only [Sum.elim_inr]; nlinarith [sq_nonneg (h.noiseF * w (.inr i))]
  linarith

/-- At a training point it is at most twice that. -/
private theorem var_le {N n : ℕ} (sf : ℝ) (hs : 0 < sf) (h : Hyper N) (hw : ∀ a, 0 < h.width a) (hE : h.noiseE ≠ 0) (hF : h.noiseF ≠ 0)
    (X : Fin n → Fin N → ℝ) (i : Fin n) :
    postVar (sf + h.noiseE ^ 2) (covGrad (kernels sf h) (some 0) X) (covRow (kernels sf h) (X i) X) ≤ 2 * h.noiseE ^ 2 := by
  have pd := posDef sf hs.le h hw hE hF X
  have key := postVar_le_form pd.posSemidef pd.det_pos.ne'.isUnit (sf + h.noiseE ^ 2) (covRow (kernels sf h) (X i) X) (Pi.single (.inl i) 1)
  rw [single_one_dotProduct, single_one_dotProduct, mulVec_single_one] at key
  have e1 : covRow (kernels sf h) (X i) X (.inl i) = sf := by
    simp [covRow, kernels, gRow, gaussXXp, gauss]
  have e2 : (covGrad (kernels sf h) (some 0) X).col (.inl i) (.inl i) = sf + h.noiseE ^ 2 := by
    rw [covGrad_split]
    simp [covGrad, gMatrix, gaussXX, gauss]
  rw [e1, e2] at key
  linarith

/-- Energies and uncertainties of the surrogate as functions of its hyperparameters, which are those the minimiser found. -/
theorem trained_form {M N : ℕ} (minimizer : GradGP N → Hyper N) (hm : Within minimizer) (mask : Fin N → Fin M) (dist : ℝ) (hd : 0 < dist)
    (x : List (Fin M → ℝ)) (t : List ℝ) (g : List (Fin M → ℝ)) (hx : x ≠ []) (ht : t.length = x.length) (hg : g.length = x.length) :
    ∃ (m sf : ℝ) (g0 gp : GradGP N), trainGP minimizer mask dist x t g = .ok (gp, m) ∧ 0 < sf ∧ npMax t = .ok m ∧ sf = sigmaF (t.map (· - m)) ∧
      gp.fp = x.map (· ∘ mask) ∧
      (covGrad (kernels sf (minimizer g0)) (some 0) gp.fp.get).PosDef ∧
      (∀ p, energy (gp, m) mask p = .ok (some (postMean (covGrad (kernels sf (minimizer g0)) (some 0) gp.fp.get)
        (covRow (kernels sf (minimizer g0)) (p ∘ mask) gp.fp.get) (vec gp.fp.length gp.target) + m))) ∧
      ∀ p, unc (gp, m) mask p = .ok (some (Real.sqrt (postVar (sf + (minimizer g0).noiseE ^ 2)
        (covGrad (kernels sf (minimizer g0)) (some 0) gp.fp.get) (covRow (kernels sf (minimizer g0)) (p ∘ mask) gp.fp.get)))) := by
  obtain ⟨m, h, gp, h1, h2, h3, h4, h5, h6, h7, h8, h9, h10, h11, h12, h13⟩ := train_eq minimizer hm.bounded mask dist hd x t g hx ht hg
  obtain ⟨sf', g0, h14⟩ := trained_hyper h5
  have hen := energy_eq (m := m) (by simp [kernels]) h6 h7 (by simpa using ht) hg h8 h9 h10 h13
  have hpos := sigmaF_pos (t.map (· - m))
  generalize hsf : sigmaF (t.map (· - m)) = sf at h6 hen hpos
  obtain rfl : h = minimizer g0 := by
    have := h6.symm.trans h14
    simp only [kernels, List.cons.injEq, GDict.mk.injEq, GType.noiseMulti.injEq, GType.gaussian.injEq] at this
    obtain ⟨w, e, f⟩ := h
    obtain ⟨⟨hw, -⟩, ⟨⟨he, hf⟩, -⟩, -⟩ := this
    simp only at hw he hf
    subst hw he hf
    rfl
  generalize hh : minimizer g0 = h at h2 h3 h4 h6 hen
  set K := covGrad (kernels sf h) (some 0) gp.fp.get with hK
  have hprior : ∀ z, prior (kernels sf h) z = sf + h.noiseE ^ 2 := by
    intro z
    simp [prior, kernels]
  set v : (Fin M → ℝ) → ℝ := fun p => postVar (sf + h.noiseE ^ 2) K (covRow (kernels sf h) (p ∘ mask) gp.fp.get) with hv
  have hge : ∀ p, h.noiseE ^ 2 ≤ v p := fun p => var_ge sf hpos h h2 h3.ne' h4.ne' gp.fp.get (p ∘ mask)
  have hv0 : ∀ p, 0 ≤ v p := fun p => (sq_nonneg _).trans (hge p)
  have hvar : ∀ p, variance gp (p ∘ mask) = .ok (v p) := by
    intro p
    unfold variance
    have hx := kxx_ok (kernels sf h) (p ∘ mask) (by
      intro k hk
      simp only [kernels, List.mem_cons, List.not_mem_nil, or_false] at hk
      rcases hk with rfl | rfl <;> simp) gp.fp.get
    rw [prior_eq, hprior] at hx
    rw [h6, hx]
    simp only
    have key : ∀ c : (n : ℕ) × Matrix (Ix n N) (Ix n N) ℝ, c = ⟨gp.fp.length, K⁻¹⟩ →
        covRow (kernels sf h) (p ∘ mask) (fun i : Fin c.1 => gp.fp.getD i 0) ⬝ᵥ
          (c.2 *ᵥ covRow (kernels sf h) (p ∘ mask) (fun i : Fin c.1 => gp.fp.getD i 0)) =
        covRow (kernels sf h) (p ∘ mask) gp.fp.get ⬝ᵥ (K⁻¹ *ᵥ covRow (kernels sf h) (p ∘ mask) gp.fp.get) := by
      intro c hc
      subst hc
      have : (fun i : Fin gp.fp.length => gp.fp.getD i 0) = gp.fp.get := by funext i; simp
      simp only [this]
    rw [key gp.cinv (by rw [h13, h6])]
    simp only [hv]
    unfold postVar
    rw [dotProduct_mulVec]
  have hU : ∀ p, unc (gp, m) mask p = .ok (some (Real.sqrt (v p))) := by
    intro p
    have he := hen p
    unfold energy at he
    unfold unc uncertainty
    simp only at he ⊢
    cases hpr : predict gp (p ∘ mask) with
    | error e => rw [hpr] at he; cases he
    | ok o =>
      simp only
      have : gp.scaleRow (p ∘ mask) = p ∘ mask := by simp [GradGP.scaleRow, h10]
      rw [this, hvar p]
      simp only [h12, npSqrt, not_lt.mpr (hv0 p), if_false, Option.map_some, GradGP.tstd, h10, mul_one]
  refine ⟨m, sf, g0, gp, h5, hpos, h1, hsf.symm, h7, ?_, ?_, ?_⟩
  · rw [hh]
    exact posDef sf hpos.le h h2 h3.ne' h4.ne' gp.fp.get
  · rw [hh]
    exact hen
  · rw [hh]
    exact hU

/-- C293: the uncertainty of the surrogate of `MLNEB` is nowhere below the noise of the energies that the training found, which is from 0.001 to
0.005, and at every structure that was evaluated (or has the same free coordinates) at most the root of two times this noise. -/
theorem C293_uncertainty {M N : ℕ} (minimizer : GradGP N → Hyper N) (hm : Within minimizer) (mask : Fin N → Fin M) (dist : ℝ) (hd : 0 < dist)
    (x : List (Fin M → ℝ)) (t : List ℝ) (g : List (Fin M → ℝ)) (hx : x ≠ []) (ht : t.length = x.length) (hg : g.length = x.length) :
    ∃ (r : GradGP N × ℝ) (U : (Fin M → ℝ) → ℝ) (noise : ℝ), trainGP minimizer mask dist x t g = .ok r ∧ 1 / 1000 ≤ noise ∧ noise ≤ 5 / 1000 ∧
      (∀ p, unc r mask p = .ok (some (U p)) ∧ noise ≤ U p) ∧
      ∀ q ∈ x, ∀ p : Fin M → ℝ, (∀ a, p (mask a) = q (mask a)) → U p ≤ Real.sqrt 2 * noise := by
  obtain ⟨m, sf, g0, gp, h5, hpos, -, -, h7, -, -, hU⟩ := trained_form minimizer hm mask dist hd x t g hx ht hg
  obtain ⟨h2, hE1, hE2, hF1, -⟩ := hm g0
  have h3 : 0 < (minimizer g0).noiseE := by linarith
  have h4 : 0 < (minimizer g0).noiseF := by linarith
  refine ⟨(gp, m), _, (minimizer g0).noiseE, h5, hE1, hE2, fun p => ⟨hU p, ?_⟩, fun q hq p hp => ?_⟩
  · exact Real.le_sqrt_of_sq_le (var_ge sf hpos _ h2 h3.ne' h4.ne' gp.fp.get (p ∘ mask))
  · have hpq : p ∘ mask = q ∘ mask := funext hp
    have hmem : p ∘ mask ∈ gp.fp := by
      rw [hpq, h7]
      exact List.mem_map_of_mem hq
    obtain ⟨i, hi⟩ := List.get_of_mem hmem
    have := var_le sf hpos _ h2 h3.ne' h4.ne' gp.fp.get i
    rw [hi] at this
    have e : Real.sqrt 2 * (minimizer g0).noiseE = Real.sqrt (2 * (minimizer g0).noiseE ^ 2) := by
      rw [Real.sqrt_mul (by norm_num), Real.sqrt_sq h3.le]
    rw [e]
    exact Real.sqrt_le_sqrt this

/-- The uncertainties of a path are those of a surrogate (mlneb.py L736-745): twice the uncertainty at each image.  `known` tells that the free
coordinates of every interior image are those of a structure the surrogate was trained on. -/
def OfSurrogate (P : MLNEB.Path) (known : Bool) : Prop :=
  ∃ (M N : ℕ) (minimizer : GradGP N → Hyper N) (mask : Fin N → Fin M) (dist : ℝ) (x : List (Fin M → ℝ)) (t : List ℝ) (g : List (Fin M → ℝ))
    (r : GradGP N × ℝ), Within minimizer ∧ 0 < dist ∧ x ≠ [] ∧ t.length = x.length ∧ g.length = x.length ∧
    trainGP minimizer mask dist x t g = .ok r ∧
    ∀ v ∈ MLNEB.interior P.unc, ∃ p u, unc r mask p = .ok (some u) ∧ v = 2 * u ∧ (known = true → ∃ q ∈ x, ∀ a, p (mask a) = q (mask a))

/-- The uncertainties that `MLNEB` compares with `unc_convergence`. -/
theorem path_unc (P : MLNEB.Path) (known : Bool) (h : OfSurrogate P known) :
    ∀ v ∈ MLNEB.interior P.unc, 2 / 1000 ≤ v ∧ (known = true → v ≤ Real.sqrt 2 / 100) := by
  obtain ⟨M, N, minimizer, mask, dist, x, t, g, r, hm, hd, hx, ht, hg, hr, hv⟩ := h
  obtain ⟨r', U, noise, k1, k2, k3, k4, k5⟩ := C293_uncertainty minimizer hm mask dist hd x t g hx ht hg
  rw [hr] at k1
  injection k1 with k1
  subst k1
  intro v hvm
  obtain ⟨p, u, hu, rfl, hq⟩ := hv v hvm
  rw [(k4 p).1] at hu
  injection hu with hu
  injection hu with hu
  subst hu
  refine ⟨by linarith [(k4 p).2], fun hk => ?_⟩
  obtain ⟨q, hqx, hqp⟩ := hq hk
  have h1 := k5 q hqx p hqp
  have h2 := mul_le_mul_of_nonneg_left k3 (Real.sqrt_nonneg 2)
  linarith

/-- C293: with `unc_convergence` at most 0.002 no run of `MLNEB` converges, whatever the forces are. -/
theorem C293_too_strict (E : MLNEB.Env) (hE : ∀ st, OfSurrogate (E.path st) false) (hc : E.uncConv ≤ 2 / 1000) (fuel : ℕ) (s s' : MLNEB.State) :
    MLNEB.run E fuel s ≠ .converged s' := by
  intro h
  unfold MLNEB.run at h
  cases ht : MLNEB.thirdPoint E s with
  | error e => rw [ht] at h; cases h
  | ok s1 =>
    rw [ht] at h
    simp only at h
    obtain ⟨b0, s0, p, hp, hd, rfl⟩ := MLNEB.loop_converged E _ _ _ _ _ h
    obtain ⟨k, m, mu, -, -, -, -, h5, -, h7, -⟩ := MLNEB.pass_spec E _ b0 s0 p hp
    have h6 := (h7.1 hd).2.2
    have := (path_unc _ _ (hE _) mu (MLNEB.maxOf_spec _ _ h5).2).1
    linarith

/-- C293: with `unc_convergence` above 0.0142 (it is 0.05 by default) the uncertainty is no obstacle once the surrogate was trained on all
interior images: then a pass of the loop reports convergence exactly if the largest force on the structure it evaluated is at most `fmax` and the
path has the number of images that was asked for. -/
theorem C293_known (E : MLNEB.Env) (org : ℕ) (b : Bool) (st : MLNEB.State) (hE : OfSurrogate (E.path (MLNEB.entry org b st)) true)
    (hc : Real.sqrt 2 / 100 < E.uncConv) (p : MLNEB.Pass) (h : MLNEB.pass E org b st = .ok p) :
    ∃ m, Masks.getFmax (E.real p.point).2 = .ok m ∧ (p.done = true ↔ m ≤ E.fmax ∧ (MLNEB.entry org b st).nImages = org) := by
  obtain ⟨k, m, mu, -, -, -, h4, h5, -, h7, -⟩ := MLNEB.pass_spec E _ b st p h
  refine ⟨m, h4, ?_⟩
  have := (path_unc _ _ hE mu (MLNEB.maxOf_spec _ _ h5).2).2 rfl
  rw [h7]
  constructor
  · exact fun h => ⟨h.1, h.2.1⟩
  · exact fun h => ⟨h.1, h.2, this.trans_lt hc⟩

/-- 0.0142 is above the bound. -/
theorem known_bound : Real.sqrt 2 / 100 < 142 / 10000 := by
  have : Real.sqrt 2 < 142 / 100 := by
    rw [Real.sqrt_lt' (by norm_num)]
    norm_num
  linarith

/-- A path of three images between which the surrogate was trained on the one in the middle. -/
example : ∃ v, OfSurrogate ⟨[[0], [1], [2]], [0, 0, 0], [0, v, 0]⟩ true ∧ Within (N := 1) fun _ => ⟨fun _ => 1, 1 / 1000, 1 / 1000⟩ := by
  have hw : Within (N := 1) fun _ => ⟨fun _ => 1, 1 / 1000, 1 / 1000⟩ := fun _ => ⟨fun _ => one_pos, by norm_num, by norm_num, by norm_num, by norm_num⟩
  obtain ⟨r, U, noise, k1, -, -, k4, -⟩ := C293_uncertainty _ hw (fun a : Fin 1 => a) 1 one_pos [![1]] [2] [![3]] (by simp) rfl rfl
  refine ⟨2 * U ![1], ⟨1, 1, _, _, 1, [![1]], [2], [![3]], r, hw, one_pos, by simp, rfl, rfl, k1, fun v hv => ?_⟩, hw⟩
  have : v = 2 * U ![1] := by simpa [MLNEB.interior] using hv
  exact ⟨![1], U ![1], (k4 _).1, this, fun _ => ⟨![1], by simp, fun _ => rfl⟩⟩

end CatLearn.Surrogate
