import Verif.Model.Surrogate
import Verif.Props.GPGrad
import Mathlib.Analysis.SpecialFunctions.Exp
import Mathlib.Analysis.SpecialFunctions.Pow.Asymptotics
import Mathlib.Topology.Algebra.Order.Field

/-!
C212: the surrogate of `MLNEB`; C213: the hyperparameters of `MLMin`.
-/

namespace CatLearn.Surrogate

open CatLearn CatLearn.Kernel CatLearn.GradProc CatLearn.Proc Matrix Filter Topology

/-! ### Training -/

theorem sigmaF_pos (t : List ℝ) : 0 < sigmaF t := by
  unfold sigmaF
  positivity

/-- With noise the covariance is positive definite, whatever the data. -/
theorem posDef {N : ℕ} {n : Type} [Fintype n] [DecidableEq n] (sf : ℝ) (hs : 0 ≤ sf) (h : Hyper N) (hw : ∀ a, 0 < h.width a)
    (hE : h.noiseE ≠ 0) (hF : h.noiseF ≠ 0) (X : n → Fin N → ℝ) : (covGrad (kernels sf h) (some 0) X).PosDef := by
  have h0 := (C106_gradient_covariance_partial [⟨.gaussian h.width, sf, false⟩] (by
    intro k hk
    rw [List.mem_singleton] at hk
    subst hk
    exact ⟨hs, hw⟩) X).1 none
  have e : covGrad (kernels sf h) (some 0) X = covGrad [⟨.gaussian h.width, sf, false⟩] none X +
      Matrix.diagonal (Sum.elim (fun _ : n => h.noiseE ^ 2) (fun _ : n × Fin N => h.noiseF ^ 2)) := by
    have : (noiseMultiXX h.noiseE h.noiseF : Matrix (n ⊕ n × Fin N) (n ⊕ n × Fin N) ℝ) =
        Matrix.diagonal (Sum.elim (fun _ : n => h.noiseE ^ 2) (fun _ : n × Fin N => h.noiseF ^ 2)) := by
      unfold noiseMultiXX
      rw [Matrix.fromBlocks_diagonal]
    simp [covGrad, kernels, gMatrix, this]
  rw [e]
  refine Matrix.PosDef.posSemidef_add h0 (Matrix.PosDef.diagonal ?_)
  rintro (i | i)
  · exact pow_pos_of_ne hE
  · exact pow_pos_of_ne hF
where
  pow_pos_of_ne {x : ℝ} (h : x ≠ 0) : 0 < x ^ 2 := by positivity

theorem sigmaF_shift (t : List ℝ) (m : ℝ) :
    sigmaF (t.map (· - m)) = 1 / 1000 + (t.map fun e => (e - t.sum / t.length) ^ 2).sum / t.length := by
  unfold sigmaF
  rw [Real.sq_sqrt, List.length_map, List.map_map]
  · congr 3
    refine List.map_congr_left fun a ha => ?_
    have hl : (t.length : ℝ) ≠ 0 := by
      have := List.length_pos_of_mem ha
      positivity
    have : (t.map (· - m)).sum = t.sum - t.length * m := by
      clear ha hl
      induction t with
      | nil => simp
      | cons b t ih => simp only [List.map_cons, List.sum_cons, ih, List.length_cons]; push_cast; ring
    simp only [Function.comp]
    rw [this]
    field_simp
    ring
  · refine div_nonneg (List.sum_nonneg ?_) (Nat.cast_nonneg _)
    intro x hx
    obtain ⟨y, -, rfl⟩ := List.mem_map.1 hx
    exact sq_nonneg _

/-- Minimisers that respect the bounds give positive widths and noise. -/
def Bounded {N : ℕ} (minimizer : GradGP N → Hyper N) : Prop :=
  ∀ gp, (∀ a, 0 < (minimizer gp).width a) ∧ 0 < (minimizer gp).noiseE ∧ 0 < (minimizer gp).noiseF

theorem npMax_mem {t : List ℝ} {m : ℝ} (h : npMax t = .ok m) : m ∈ t ∧ ∀ y ∈ t, y ≤ m := by
  cases t with
  | nil => cases h
  | cons x l =>
    injection h with h
    subst h
    have key : ∀ (l : List ℝ) (x : ℝ), l.foldl max x ∈ x :: l ∧ ∀ y ∈ x :: l, y ≤ l.foldl max x := by
      intro l
      induction l with
      | nil => intro x; simp
      | cons a l ih =>
        intro x
        obtain ⟨h1, h2⟩ := ih (max x a)
        rw [List.foldl_cons]
        refine ⟨?_, ?_⟩
        · rcases List.mem_cons.1 h1 with h | h
          · rcases max_choice x a with e | e
            · rw [h, e]; simp
            · rw [h, e]; simp
          · exact List.mem_cons_of_mem _ (List.mem_cons_of_mem _ h)
        · intro y hy
          rcases List.mem_cons.1 hy with rfl | hy
          · exact le_trans (le_max_left y a) (h2 _ (by simp))
          · rcases List.mem_cons.1 hy with rfl | hy
            · exact le_trans (le_max_right x y) (h2 _ (by simp))
            · exact h2 y (List.mem_cons_of_mem _ hy)
    exact key l x

/-- The trained model. -/
theorem train_eq {M N : ℕ} (minimizer : GradGP N → Hyper N) (hm : Bounded minimizer) (mask : Fin N → Fin M) (dist : ℝ) (hd : 0 < dist)
    (x : List (Fin M → ℝ)) (t : List ℝ) (g : List (Fin M → ℝ)) (hx : x ≠ []) (ht : t.length = x.length) (hg : g.length = x.length) :
    ∃ m h gp, npMax t = .ok m ∧ (∀ a, 0 < h.width a) ∧ 0 < h.noiseE ∧ 0 < h.noiseF ∧ trainGP minimizer mask dist x t g = .ok (gp, m) ∧
      gp.kernels = kernels (sigmaF (t.map (· - m))) h ∧ gp.fp = x.map (· ∘ mask) ∧ gp.target = t.map (· - m) ++ flat (g.map (· ∘ mask)) ∧
      gp.nan = false ∧ gp.scaling = none ∧ gp.scaleData = false ∧ gp.reg = some 0 ∧
      gp.cinv = ⟨gp.fp.length, (covGrad gp.kernels (some 0) gp.fp.get)⁻¹⟩ := by
  obtain ⟨m, hmx⟩ : ∃ m, npMax t = .ok m := by
    cases t with
    | nil => exact absurd (List.length_eq_zero_iff.1 ht.symm) hx
    | cons a l => exact ⟨_, rfl⟩
  set s := t.map (· - m) with hs
  set sf := sigmaF s with hsf
  have hsl : s.length = x.length := by rw [hs, List.length_map, ht]
  set h0 : Hyper N := ⟨fun _ => dist / 2, 5 / 1000, 5 / 10000⟩ with hh0
  set fp := x.map (· ∘ mask) with hfp
  set gr := g.map (· ∘ mask) with hgr
  set gp0 : GradGP N := ⟨kernels sf h0, some 0, false, fp, s ++ flat gr, false, none,
    ⟨fp.length, (covGrad (kernels sf h0) (some 0) fp.get)⁻¹⟩⟩ with hgp0
  have pd0 : (covGrad (kernels sf h0) (some 0) fp.get).PosDef :=
    posDef sf (sigmaF_pos s).le h0 (fun _ => by rw [hh0]; positivity) (by rw [hh0]; norm_num) (by rw [hh0]; norm_num) _
  have hinit : init fp s gr (kernels sf h0) (some 0) false = .ok gp0 := by
    unfold GradProc.init
    rw [if_neg (by rw [hfp, List.length_map, hsl]; simp)]
    unfold update
    rw [if_neg (by simpa [hfp] using hx)]
    simp only [Bool.false_eq_true, if_false]
    refine finish_of rfl ?_ rfl pd0 ?_
    · exact pd0.isUnit.map Matrix.detMonoidHom
    · simp only [List.length_append, flat_length]
      rw [hsl, hgr, List.length_map, hg, hfp, List.length_map]
  set h := minimizer gp0 with hh
  obtain ⟨b1, b2, b3⟩ := hm gp0
  have pd : (covGrad (kernels sf h) (some 0) fp.get).PosDef := posDef sf (sigmaF_pos s).le h b1 b2.ne' b3.ne' _
  refine ⟨m, h, { gp0 with kernels := kernels sf h, cinv := ⟨fp.length, (covGrad (kernels sf h) (some 0) fp.get)⁻¹⟩ }, hmx, b1, b2, b3, ?_, rfl,
    rfl, rfl, rfl, rfl, rfl, rfl, rfl⟩
  unfold trainGP
  rw [hmx]
  simp only
  rw [if_neg (by rw [← hs, hsl]; simp), if_neg (by linarith)]
  have e : finish { gp0 with kernels := kernels sf h } false =
      .ok { gp0 with kernels := kernels sf h, cinv := ⟨fp.length, (covGrad (kernels sf h) (some 0) fp.get)⁻¹⟩ } := by
    unfold finish
    rw [if_neg (by simp [kernels])]
    simp only
    rw [if_neg (by simpa using (pd.isUnit.map Matrix.detMonoidHom).ne_zero), if_pos (by simp)]
  rw [← hs, ← hsf, ← hfp, ← hgr, ← hh0, hinit]
  simp only
  rw [← hh, e]

/-- The energy as a number. -/
theorem energy_eq {M N : ℕ} {mask : Fin N → Fin M} {x : List (Fin M → ℝ)} {s : List ℝ} {g : List (Fin M → ℝ)} {gp : GradGP N} {m : ℝ}
    {ks : List (GDict N)} (hne : ks ≠ []) (hk : gp.kernels = ks) (hfp : gp.fp = x.map (· ∘ mask)) (hs : s.length = x.length)
    (hg : g.length = x.length) (ht : gp.target = s ++ flat (g.map (· ∘ mask))) (hn : gp.nan = false) (hsc : gp.scaling = none)
    (hc : gp.cinv = ⟨gp.fp.length, (covGrad gp.kernels (some 0) gp.fp.get)⁻¹⟩) (p : Fin M → ℝ) :
    energy (gp, m) mask p = .ok (some (covRow ks (p ∘ mask) gp.fp.get ⬝ᵥ
      ((covGrad ks (some 0) gp.fp.get)⁻¹ *ᵥ vec gp.fp.length gp.target) + m)) := by
  subst hk
  have hl : gp.target.length = gp.fp.length + gp.fp.length * N := by
    rw [ht, hfp]
    simp only [List.length_append, List.length_map, flat_length]
    rw [hs, hg]
  unfold energy GradProc.predict
  rw [if_neg (by simpa using hne), if_neg (by rw [hc]; simp only [not_or, not_not]; exact ⟨trivial, hl⟩), if_neg (by simp [hn])]
  simp only [Option.map_some, GradGP.rescale, GradGP.scaleRow, hsc]
  have key : ∀ c : (n : ℕ) × Matrix (Ix n N) (Ix n N) ℝ, c = ⟨gp.fp.length, (covGrad gp.kernels (some 0) gp.fp.get)⁻¹⟩ →
      covRow gp.kernels (p ∘ mask) (fun i : Fin c.1 => gp.fp.getD i 0) ⬝ᵥ (c.2 *ᵥ vec c.1 gp.target) =
        covRow gp.kernels (p ∘ mask) gp.fp.get ⬝ᵥ ((covGrad gp.kernels (some 0) gp.fp.get)⁻¹ *ᵥ vec gp.fp.length gp.target) := by
    intro c hc
    subst hc
    congr 2
    funext i
    simp
  rw [key gp.cinv hc]

/-! ### Far from the data -/

/-- The weighted distance leaves every bound. -/
theorem far_dist {N : ℕ} (w y : Fin N → ℝ) (B : ℝ) : ∃ R, ∀ z : Fin N → ℝ, (∃ a, R ≤ |z a|) → (∀ a, 0 < w a) →
    B ≤ ∑ a, (z a / w a - y a / w a) ^ 2 := by
  refine ⟨∑ a, (|y a| + |w a| * (|B| + 1)), fun z hz hw => ?_⟩
  obtain ⟨a, ha⟩ := hz
  have h1 : |y a| + |w a| * (|B| + 1) ≤ |z a| :=
    le_trans (Finset.single_le_sum (f := fun a => |y a| + |w a| * (|B| + 1)) (fun i _ => by positivity) (Finset.mem_univ a)) ha
  have hwa := hw a
  rw [abs_of_pos hwa] at h1
  have h2 : |B| + 1 ≤ |z a / w a - y a / w a| := by
    rw [← sub_div, abs_div, abs_of_pos hwa, le_div_iff₀ hwa]
    have := abs_sub_abs_le_abs_sub (z a) (y a)
    linarith
  have h3 : (|B| + 1) ^ 2 ≤ (z a / w a - y a / w a) ^ 2 := by
    rw [← sq_abs (z a / w a - y a / w a)]
    exact pow_le_pow_left₀ (by positivity) h2 2
  have h4 : (z a / w a - y a / w a) ^ 2 ≤ ∑ a, (z a / w a - y a / w a) ^ 2 :=
    Finset.single_le_sum (f := fun a => (z a / w a - y a / w a) ^ 2) (fun i _ => sq_nonneg _) (Finset.mem_univ a)
  have h5 := le_abs_self B
  nlinarith [abs_nonneg B]

/-- The filter of positions of which a coordinate is large. -/
def far (N : ℕ) : Filter (Fin N → ℝ) := ⨅ R : ℝ, 𝓟 {z | ∃ a, R ≤ |z a|}

theorem far_eventually {N : ℕ} {p : (Fin N → ℝ) → Prop} : (∀ᶠ z in far N, p z) ↔ ∃ R, ∀ z, (∃ a, R ≤ |z a|) → p z := by
  unfold far
  rw [Filter.eventually_iff, Filter.mem_iInf_of_directed]
  · simp [Set.subset_def]
  · intro R S
    refine ⟨max R S, ?_, ?_⟩ <;> refine Filter.principal_mono.2 ?_ <;> rintro z ⟨a, ha⟩
    · exact ⟨a, le_trans (le_max_left _ _) ha⟩
    · exact ⟨a, le_trans (le_max_right _ _) ha⟩

theorem tendsto_dist {N : ℕ} (w y : Fin N → ℝ) (hw : ∀ a, 0 < w a) :
    Tendsto (fun z : Fin N → ℝ => ∑ a, (z a / w a - y a / w a) ^ 2) (far N) atTop := by
  rw [tendsto_atTop]
  intro B
  rw [far_eventually]
  obtain ⟨R, hR⟩ := far_dist w y B
  exact ⟨R, fun z hz => hR z hz hw⟩

theorem tendsto_gauss {N : ℕ} (w y : Fin N → ℝ) (hw : ∀ a, 0 < w a) : Tendsto (fun z => gauss w z y) (far N) (𝓝 0) := by
  unfold gauss
  refine Real.tendsto_exp_atBot.comp ?_
  exact (tendsto_dist w y hw).const_mul_atTop_of_neg (by norm_num)

theorem tendsto_slope {N : ℕ} (w y : Fin N → ℝ) (hw : ∀ a, 0 < w a) (a : Fin N) :
    Tendsto (fun z => -((w a) ^ (-2 : ℤ) * (y a - z a) * gauss w z y)) (far N) (𝓝 0) := by
  have h1 : Tendsto (fun r : ℝ => r * Real.exp (-(1 / 2) * r)) atTop (𝓝 0) := by
    have := Real.tendsto_pow_mul_exp_neg_atTop_nhds_zero 1
    have h2 := (this.comp (tendsto_id.const_mul_atTop (show (0 : ℝ) < 1 / 2 by norm_num))).const_mul 2
    simp only [mul_zero] at h2
    refine h2.congr fun r => ?_
    simp only [Function.comp, id, pow_one]
    rw [show -(1 / 2 * r) = -(1 / 2) * r by ring]
    ring
  have h3 := h1.comp (tendsto_dist w y hw)
  have h4 : Tendsto (fun z => (1 / w a) * ((∑ a, (z a / w a - y a / w a) ^ 2) * gauss w z y + gauss w z y)) (far N) (𝓝 0) := by
    have := (h3.add (tendsto_gauss w y hw)).const_mul (1 / w a)
    simp only [add_zero, mul_zero] at this
    refine this.congr fun z => ?_
    simp only [Function.comp, gauss]
    norm_num
  refine squeeze_zero_norm (fun z => ?_) h4
  have hwa := hw a
  have e : (w a) ^ (-2 : ℤ) * (y a - z a) = -(1 / w a * (z a / w a - y a / w a)) := by
    rw [_root_.zpow_neg, ← sub_div]
    have : (w a) ^ (2 : ℤ) = w a * w a := by rw [zpow_ofNat, sq]
    rw [this]
    field_simp
    ring
  rw [e, Real.norm_eq_abs, abs_neg, abs_mul, abs_neg, abs_mul, abs_of_pos (by positivity : (0 : ℝ) < 1 / w a), mul_assoc]
  have hg : 0 < gauss w z y := Real.exp_pos _
  rw [abs_of_pos hg]
  refine mul_le_mul_of_nonneg_left ?_ (by positivity)
  have h5 : (z a / w a - y a / w a) ^ 2 ≤ ∑ a, (z a / w a - y a / w a) ^ 2 :=
    Finset.single_le_sum (f := fun a => (z a / w a - y a / w a) ^ 2) (fun i _ => sq_nonneg _) (Finset.mem_univ a)
  have h6 : |z a / w a - y a / w a| ≤ (∑ a, (z a / w a - y a / w a) ^ 2) + 1 := by
    have := sq_abs (z a / w a - y a / w a)
    nlinarith [sq_nonneg (|z a / w a - y a / w a| - 1), abs_nonneg (z a / w a - y a / w a)]
  nlinarith

theorem tendsto_row {N n : ℕ} (sf : ℝ) (h : Hyper N) (hw : ∀ a, 0 < h.width a) (X : Fin n → Fin N → ℝ) (p : Ix n N) :
    Tendsto (fun z => covRow (kernels sf h) z X p) (far N) (𝓝 0) := by
  have e : ∀ z, covRow (kernels sf h) z X p = sf * gaussXXp h.width (fun _ : Unit => z) X () p := by
    intro z
    simp [covRow, kernels, gRow]
  simp only [e]
  rw [show (0 : ℝ) = sf * 0 by simp]
  refine Tendsto.const_mul sf ?_
  rcases p with j | ⟨j, a⟩
  · exact tendsto_gauss h.width (X j) hw
  · exact tendsto_slope h.width (X j) hw a

theorem tendsto_dot {N n : ℕ} (sf : ℝ) (h : Hyper N) (hw : ∀ a, 0 < h.width a) (X : Fin n → Fin N → ℝ) (v : Ix n N → ℝ) :
    Tendsto (fun z => covRow (kernels sf h) z X ⬝ᵥ v) (far N) (𝓝 0) := by
  have : Tendsto (fun z => ∑ p, covRow (kernels sf h) z X p * v p) (far N) (𝓝 (∑ p : Ix n N, 0 * v p)) :=
    tendsto_finsetSum _ fun p _ => (tendsto_row sf h hw X p).mul_const (v p)
  simpa [dotProduct] using this

/-! ### C212 -/

/-- C212: the surrogate of `MLNEB` can be trained on any data, repeated structures included, if there are as many energies and gradients
as structures and the path has a length, for every minimiser that keeps the bounds.  It then predicts an energy for every position, and
far from the data (if any free coordinate is large) the largest energy of the training data. -/
theorem C212_far {M N : ℕ} (minimizer : GradGP N → Hyper N) (hm : Bounded minimizer) (mask : Fin N → Fin M) (dist : ℝ) (hd : 0 < dist)
    (x : List (Fin M → ℝ)) (t : List ℝ) (g : List (Fin M → ℝ)) (hx : x ≠ []) (ht : t.length = x.length) (hg : g.length = x.length) :
    ∃ (r : GradGP N × ℝ) (E : (Fin M → ℝ) → ℝ) (m : ℝ), trainGP minimizer mask dist x t g = .ok r ∧
      (∀ p, energy r mask p = .ok (some (E p))) ∧ m ∈ t ∧ (∀ e ∈ t, e ≤ m) ∧
      ∀ ε > 0, ∃ R, ∀ p : Fin M → ℝ, (∃ a, R ≤ |p (mask a)|) → |E p - m| < ε := by
  obtain ⟨m, h, gp, h1, h2, h3, h4, h5, h6, h7, h8, h9, h10, h11, h12, h13⟩ := train_eq minimizer hm mask dist hd x t g hx ht hg
  refine ⟨(gp, m), _, m, h5, energy_eq (by simp [kernels]) h6 h7 (by simpa using ht) hg h8 h9 h10 h13, (npMax_mem h1).1, (npMax_mem h1).2, ?_⟩
  intro ε hε
  have := (tendsto_dot (sigmaF (t.map (· - m))) h h2 gp.fp.get
    ((covGrad (kernels (sigmaF (t.map (· - m))) h) (some 0) gp.fp.get)⁻¹ *ᵥ vec gp.fp.length gp.target)).eventually
    (Metric.ball_mem_nhds 0 hε)
  rw [far_eventually] at this
  obtain ⟨R, hR⟩ := this
  refine ⟨R, fun p hp => ?_⟩
  have := hR (p ∘ mask) hp
  rw [dist_zero_right, Real.norm_eq_abs] at this
  simpa using this

theorem npMax_shift (t : List ℝ) (c : ℝ) : npMax (t.map (· + c)) = (npMax t).map (· + c) := by
  cases t with
  | nil => rfl
  | cons x l =>
    have key : ∀ (l : List ℝ) (x : ℝ), (l.map (· + c)).foldl max (x + c) = l.foldl max x + c := by
      intro l
      induction l with
      | nil => intro x; rfl
      | cons a l ih =>
        intro x
        rw [List.map_cons, List.foldl_cons, List.foldl_cons, max_add_add_right, ih]
    simp only [List.map_cons, npMax, key, Except.map]

/-- C212: the zero of the energy does not matter: with all energies shifted by `c` the same model is trained, errors included, and all
predicted energies are shifted by `c`. -/
theorem C212_energy_zero {M N : ℕ} (minimizer : GradGP N → Hyper N) (mask : Fin N → Fin M) (dist : ℝ) (x : List (Fin M → ℝ))
    (t : List ℝ) (g : List (Fin M → ℝ)) (c : ℝ) :
    (∀ e, trainGP minimizer mask dist x t g = .error e → trainGP minimizer mask dist x (t.map (· + c)) g = .error e) ∧
      ∀ r, trainGP minimizer mask dist x t g = .ok r → ∃ r', trainGP minimizer mask dist x (t.map (· + c)) g = .ok r' ∧
        ∀ p, energy r' mask p = (energy r mask p).map (fun o => o.map (· + c)) ∧ unc r' mask p = unc r mask p := by
  have key : trainGP minimizer mask dist x (t.map (· + c)) g = (trainGP minimizer mask dist x t g).map (fun r => (r.1, r.2 + c)) := by
    unfold trainGP
    rw [npMax_shift]
    cases npMax t with
    | error e => rfl
    | ok m =>
      have e : (t.map (· + c)).map (· - (m + c)) = t.map (· - m) := by
        rw [List.map_map]
        refine List.map_congr_left fun a _ => ?_
        simp only [Function.comp]
        ring
      simp only [Except.map, e]
      split
      · rfl
      · split
        · rfl
        · split
          · rfl
          · split <;> rfl
  refine ⟨fun e he => by rw [key, he]; rfl, fun r hr => ⟨(r.1, r.2 + c), by rw [key, hr]; rfl, fun p => ⟨?_, rfl⟩⟩⟩
  unfold energy
  simp only
  cases predict r.1 (p ∘ mask) with
  | error e => rfl
  | ok o =>
    cases o with
    | none => rfl
    | some y =>
      simp only [Except.map, Option.map_some]
      rw [add_assoc]

/-- C212: the uncertainty is a number at every position, at most that of the prior, and far from the data it is that of the prior, which is
set by the spread of the training energies. -/
theorem C212_uncertainty {M N : ℕ} (minimizer : GradGP N → Hyper N) (hm : Bounded minimizer) (mask : Fin N → Fin M) (dist : ℝ) (hd : 0 < dist)
    (x : List (Fin M → ℝ)) (t : List ℝ) (g : List (Fin M → ℝ)) (hx : x ≠ []) (ht : t.length = x.length) (hg : g.length = x.length) :
    ∃ (r : GradGP N × ℝ) (U : (Fin M → ℝ) → ℝ) (noise : ℝ), trainGP minimizer mask dist x t g = .ok r ∧ 0 < noise ∧
      (∀ p, unc r mask p = .ok (some (U p)) ∧ 0 ≤ U p ∧
        U p ^ 2 ≤ 1 / 1000 + (t.map fun e => (e - t.sum / t.length) ^ 2).sum / t.length + noise ^ 2) ∧
      ∀ ε > 0, ∃ R, ∀ p : Fin M → ℝ, (∃ a, R ≤ |p (mask a)|) →
        |U p ^ 2 - (1 / 1000 + (t.map fun e => (e - t.sum / t.length) ^ 2).sum / t.length + noise ^ 2)| < ε := by
  obtain ⟨m, h, gp, h1, h2, h3, h4, h5, h6, h7, h8, h9, h10, h11, h12, h13⟩ := train_eq minimizer hm mask dist hd x t g hx ht hg
  have hen := energy_eq (m := m) (by simp [kernels]) h6 h7 (by simpa using ht) hg h8 h9 h10 h13
  have hsf := sigmaF_shift t m
  have hpos := sigmaF_pos (t.map (· - m))
  rw [← hsf]
  generalize sigmaF (t.map (· - m)) = sf at h6 hen hpos
  set K := covGrad (kernels sf h) (some 0) gp.fp.get with hK
  have pd : K.PosDef := posDef sf hpos.le h h2 h3.ne' h4.ne' _
  have hdet : IsUnit K.det := pd.isUnit.map Matrix.detMonoidHom
  have hsym : K.IsSymm := by
    have := pd.posSemidef.1
    rwa [Matrix.IsHermitian, conjTranspose_eq_transpose_of_trivial] at this
  have hprior : ∀ z, prior (kernels sf h) z = sf + h.noiseE ^ 2 := by
    intro z
    simp [prior, kernels]
  set v : (Fin M → ℝ) → ℝ := fun p => postVar (sf + h.noiseE ^ 2) K (covRow (kernels sf h) (p ∘ mask) gp.fp.get) with hv
  have hgood : ∀ k ∈ kernels sf h, GoodGrad k := by
    intro k hk
    simp only [kernels, List.mem_cons, List.not_mem_nil, or_false] at hk
    rcases hk with rfl | rfl
    · exact ⟨hpos.le, h2⟩
    · exact ⟨zero_le_one, trivial⟩
  have hv0 : ∀ p, 0 ≤ v p := by
    intro p
    rw [hv]
    simp only
    rw [postVar_eq_form hsym hdet]
    have := varG_form (kernels sf h) (some 0) hgood (p ∘ mask) gp.fp.get (K⁻¹ *ᵥ covRow (kernels sf h) (p ∘ mask) gp.fp.get)
    rwa [prior_eq, hprior] at this
  have hv1 : ∀ p, v p ≤ sf + h.noiseE ^ 2 := fun p => postVar_le pd.posSemidef hdet _ _
  have hvar : ∀ p, variance gp (p ∘ mask) = .ok (v p) := by
    intro p
    unfold variance
    have hx := kxx_ok (kernels sf h) (p ∘ mask) (by
      intro k hk
      simp only [kernels, List.mem_cons, List.not_mem_nil, or_false] at hk
      rcases hk with rfl | rfl <;> simp) gp.fp.get
    rw [prior_eq, hprior] at hx
    rw [h6, hx]
    simp only
    have key : ∀ c : (n : ℕ) × Matrix (Ix n N) (Ix n N) ℝ, c = ⟨gp.fp.length, K⁻¹⟩ →
        covRow (kernels sf h) (p ∘ mask) (fun i : Fin c.1 => gp.fp.getD i 0) ⬝ᵥ
          (c.2 *ᵥ covRow (kernels sf h) (p ∘ mask) (fun i : Fin c.1 => gp.fp.getD i 0)) =
        covRow (kernels sf h) (p ∘ mask) gp.fp.get ⬝ᵥ (K⁻¹ *ᵥ covRow (kernels sf h) (p ∘ mask) gp.fp.get) := by
      intro c hc
      subst hc
      have : (fun i : Fin gp.fp.length => gp.fp.getD i 0) = gp.fp.get := by funext i; simp
      simp only [this]
    rw [key gp.cinv (by rw [h13, h6])]
    simp only [hv]
    unfold postVar
    rw [dotProduct_mulVec]
  have hU : ∀ p, unc (gp, m) mask p = .ok (some (Real.sqrt (v p))) := by
    intro p
    have he := hen p
    unfold energy at he
    unfold unc uncertainty
    simp only at he ⊢
    cases hpr : predict gp (p ∘ mask) with
    | error e => rw [hpr] at he; cases he
    | ok o =>
      simp only
      have : gp.scaleRow (p ∘ mask) = p ∘ mask := by simp [GradGP.scaleRow, h10]
      rw [this, hvar p]
      simp only [h12, npSqrt, not_lt.mpr (hv0 p), if_false, Option.map_some, GradGP.tstd, h10, mul_one]
  refine ⟨(gp, m), fun p => Real.sqrt (v p), h.noiseE, h5, h3, fun p => ⟨hU p, Real.sqrt_nonneg _, ?_⟩, ?_⟩
  · simp only
    rw [Real.sq_sqrt (hv0 p)]
    exact hv1 p
  · intro ε hε
    have h14 : Tendsto (fun z => covRow (kernels sf h) z gp.fp.get ⬝ᵥ (K⁻¹ *ᵥ covRow (kernels sf h) z gp.fp.get)) (far N) (𝓝 0) := by
      have : Tendsto (fun z => ∑ p, ∑ q, covRow (kernels sf h) z gp.fp.get p * (K⁻¹ p q * covRow (kernels sf h) z gp.fp.get q)) (far N)
          (𝓝 (∑ p : Ix gp.fp.length N, ∑ q : Ix gp.fp.length N, 0 * (K⁻¹ p q * 0))) :=
        tendsto_finsetSum _ fun p _ => tendsto_finsetSum _ fun q _ =>
          (tendsto_row sf h h2 gp.fp.get p).mul ((tendsto_row sf h h2 gp.fp.get q).const_mul _)
      simp only [zero_mul, Finset.sum_const_zero] at this
      refine this.congr fun z => ?_
      simp only [dotProduct, mulVec, Finset.mul_sum]
    have := h14.eventually (Metric.ball_mem_nhds 0 hε)
    rw [far_eventually] at this
    obtain ⟨R, hR⟩ := this
    refine ⟨R, fun p hp => ?_⟩
    have := hR (p ∘ mask) hp
    rw [dist_zero_right, Real.norm_eq_abs] at this
    rw [Real.sq_sqrt (hv0 p)]
    have e : v p - (sf + h.noiseE ^ 2) = -(covRow (kernels sf h) (p ∘ mask) gp.fp.get ⬝ᵥ
        (K⁻¹ *ᵥ covRow (kernels sf h) (p ∘ mask) gp.fp.get)) := by
      simp only [hv]
      unfold postVar
      rw [dotProduct_mulVec]
      ring
    rw [e, abs_neg]
    exact this

/-- The data of two structures with two coordinates, one of them free; a minimiser that leaves the widths alone. -/
example : Bounded (N := 1) (fun _ => ⟨fun _ => 1, 1 / 1000, 1 / 1000⟩) ∧ ([![0, 1], ![0, 1]] : List (Fin 2 → ℝ)) ≠ [] ∧
    ([1, 2] : List ℝ).length = ([![0, 1], ![0, 1]] : List (Fin 2 → ℝ)).length := by
  refine ⟨fun _ => ⟨fun _ => one_pos, by norm_num, by norm_num⟩, by simp, rfl⟩

/-! ### C213: the hyperparameters of `MLMin` -/

/-- C213 (`_partial`: only as long as no optimisation has succeeded): the prior variance of the model of an iteration is that of the energies
so far, `1e-3` plus their variance, for the kernels `SQE` and `ARD_SQE`; the model is made with new dictionaries, and if an optimisation is
done, it starts from them. -/
theorem C213_first_partial {N : ℕ} (name : KernelName) (hn : name = .sqe ∨ name = .ardSqe) (noise sf : ℝ) (n : ℕ)
    (opt : Dict N → Hyper N × Bool) (v : Vars N) (hv : v.success = none) :
    ∃ s, trainStep name noise sf n opt v = .ok s ∧ s.1.scaling = sf ∧ (used s).scaling = sf ∧
      (used s).hyper = (if 5 < n then (opt s.1).1 else s.1.hyper) ∧
      s.2.2.success = (if 5 < n ∧ (opt s.1).2 = true then some s.2.1 else none) := by
  rcases hn with rfl | rfl
  all_goals
    by_cases h1 : n = 1
    · subst h1
      simp [trainStep, Vars.byName, Vars.single, Vars.new, hv, used]
    · by_cases h5 : 5 < n
      · unfold trainStep
        simp only [Vars.byName, Vars.single, Vars.new, hv, if_neg h1, h5, used]
        simp only [gt_iff_lt, h5, and_self, if_true]
        refine ⟨_, rfl, ?_⟩
        split <;> simp_all [Vars.new]
      · unfold trainStep
        simp only [Vars.byName, Vars.single, Vars.new, hv, if_neg h1, used]
        simp [Vars.new, h5, hv]

/-- What an iteration does after a successful optimisation. -/
theorem step_later {N : ℕ} (name : KernelName) (noise sf : ℝ) (n : ℕ) (opt : Dict N → Hyper N × Bool) (v : Vars N) (r : ℕ)
    (hv : v.success = some r) (hr : r < v.next) :
    ∃ s, trainStep name noise sf n opt v = .ok s ∧ s.1 = v.heap r ∧ s.2.1 = r ∧ s.2.2.success = some r ∧ r < s.2.2.next ∧
      (s.2.2.heap r).scaling = (v.heap r).scaling ∧
      ((name = .sqe ∨ name = .ardSqe) → 5 < n → (s.2.2.heap r).hyper = (opt (v.heap r)).1) := by
  have key : ∀ w : Vars N, w.success = some r → w.heap r = v.heap r → r < w.next →
      ((name = .sqe ∨ name = .ardSqe) → 5 < n → w.opt = true) →
      ∃ s, (let u := (match w.success with
        | none => w
        | some r => { w with kdict := some r } : Vars N)
        match u.kdict with
        | none => (.error .name : Except PyErr (Dict N × ℕ × Vars N))
        | some r =>
          let d := u.heap r
          if u.opt ∧ n > 5 then
            let v' := { u with heap := Function.update u.heap r { d with hyper := (opt d).1 } }
            .ok (d, r, if (opt d).2 then { v' with success := some r } else v')
          else .ok (d, r, u)) = .ok s ∧ s.1 = v.heap r ∧ s.2.1 = r ∧ s.2.2.success = some r ∧ r < s.2.2.next ∧
        (s.2.2.heap r).scaling = (v.heap r).scaling ∧
        ((name = .sqe ∨ name = .ardSqe) → 5 < n → (s.2.2.heap r).hyper = (opt (v.heap r)).1) := by
    intro w h1 h2 h3 h4
    simp only [h1, h2]
    by_cases h : w.opt = true ∧ n > 5
    · rw [if_pos h]
      refine ⟨_, rfl, rfl, rfl, ?_, ?_, ?_, ?_⟩
      · simp only; split <;> simp [h1]
      · simp only; split <;> exact h3
      · simp only; split <;> simp
      · intro _ _
        simp only; split <;> simp
    · rw [if_neg h]
      refine ⟨_, rfl, rfl, rfl, rfl, h3, by simp only [h2], ?_⟩
      intro a b
      exact absurd ⟨h4 a b, b⟩ h
  have hnew : ∀ (w : Vars N) (d : Dict N) (o : Bool), w.success = some r → w.heap r = v.heap r → r < w.next →
      (w.new d o).success = some r ∧ (w.new d o).heap r = v.heap r ∧ r < (w.new d o).next := by
    intro w d o h1 h2 h3
    refine ⟨h1, ?_, by simp only [Vars.new]; omega⟩
    simp only [Vars.new]
    rw [Function.update_of_ne (by omega), h2]
  have hby : ((v.byName name noise sf).success = some r ∧ (v.byName name noise sf).heap r = v.heap r ∧ r < (v.byName name noise sf).next) ∧
      ((name = .sqe ∨ name = .ardSqe) → (v.byName name noise sf).opt = true) := by
    cases name
    · exact ⟨hnew _ _ _ hv rfl hr, by simp⟩
    · exact ⟨hnew _ _ _ hv rfl hr, fun _ => rfl⟩
    · exact ⟨hnew _ _ _ hv rfl hr, fun _ => rfl⟩
    · exact ⟨⟨hv, rfl, hr⟩, by simp⟩
  obtain ⟨⟨b1, b2, b3⟩, b4⟩ := hby
  unfold trainStep
  refine key _ ?_ ?_ ?_ ?_
  · unfold Vars.single; split
    · exact (hnew _ _ _ b1 b2 b3).1
    · exact b1
  · unfold Vars.single; split
    · exact (hnew _ _ _ b1 b2 b3).2.1
    · exact b2
  · unfold Vars.single; split
    · exact (hnew _ _ _ b1 b2 b3).2.2
    · exact b3
  · intro a b
    unfold Vars.single
    rw [if_neg (by omega)]
    exact b4 a

/-- C213 is violated when an optimisation fails: the next model does not go on with the hyperparameters of the last successful optimisation
(as the message says), but with those at which the failed one ended: they were written into the same dictionaries.  Here `v` is any state
after a success, `r` the list of dictionaries kept. -/
theorem C213_failed_violated {N : ℕ} (name : KernelName) (hn : name = .sqe ∨ name = .ardSqe) (noise sf sf' : ℝ) (n n' : ℕ) (h5 : 5 < n)
    (opt opt' : Dict N → Hyper N × Bool) (v : Vars N) (r : ℕ) (hv : v.success = some r) (hr : r < v.next)
    (_hfail : (opt (v.heap r)).2 = false) :
    ∃ s s', trainStep name noise sf n opt v = .ok s ∧ trainStep name noise sf' n' opt' s.2.2 = .ok s' ∧
      (used s).hyper = (opt (v.heap r)).1 ∧ s'.1.hyper = (opt (v.heap r)).1 := by
  obtain ⟨s, h1, h2, h3, h4, h6, -, h7⟩ := step_later name noise sf n opt v r hv hr
  obtain ⟨s', g1, g2, -⟩ := step_later name noise sf' n' opt' s.2.2 r h4 h6
  refine ⟨s, s', h1, g1, ?_, ?_⟩
  · unfold used
    rw [h3]
    exact h7 hn h5
  · rw [g2]
    exact h7 hn h5

/-- C213 is violated after the first successful optimisation: from then on the prior variance of every model is the one of that iteration,
however much the energies found since spread. -/
theorem C213_variance_violated {N : ℕ} (name : KernelName) (noise : ℝ) (is : List (ℝ × ℕ × (Dict N → Hyper N × Bool))) (v : Vars N) (r : ℕ)
    (hv : v.success = some r) (hr : r < v.next) :
    ∃ l v', trainLoop name noise is v = .ok (l, v') ∧ l.length = is.length ∧ ∀ d ∈ l, d.scaling = (v.heap r).scaling := by
  induction is generalizing v with
  | nil => exact ⟨[], v, rfl, rfl, by simp⟩
  | cons i is ih =>
    obtain ⟨s, h1, -, h3, h4, h6, h7, -⟩ := step_later name noise i.1 i.2.1 i.2.2 v r hv hr
    obtain ⟨l, v', g1, g2, g3⟩ := ih s.2.2 h4 h6
    refine ⟨used s :: l, v', ?_, by simp [g2], ?_⟩
    · unfold trainLoop
      rw [h1]
      simp only
      rw [g1]
    · intro d hd
      rcases List.mem_cons.1 hd with rfl | hd
      · unfold used
        rw [h3, h7]
      · rw [g3 d hd, h7]

/-- C213 is violated for a kernel that does not exist, if the run starts with one structure: it is accepted, and every model of the run has
the hyperparameters and the prior variance for one structure. -/
theorem C213_unknown_violated {N : ℕ} (noise sf : ℝ) (opt : Dict N → Hyper N × Bool) (is : List (ℝ × ℕ × (Dict N → Hyper N × Bool)))
    (hi : ∀ i ∈ is, i.2.1 ≠ 1) (h : ℕ → Dict N) :
    ∃ l v', trainLoop .unknown noise ((sf, 1, opt) :: is) { heap := h } = .ok (l, v') ∧ l.length = is.length + 1 ∧
      ∀ d ∈ l, d = ⟨sf, ⟨fun _ => 0.2, noise * 0.4 ^ 2, noise⟩⟩ := by
  have key : ∀ (is : List (ℝ × ℕ × (Dict N → Hyper N × Bool))) (v : Vars N) (r : ℕ), (∀ i ∈ is, i.2.1 ≠ 1) → v.success = none →
      v.kdict = some r → v.opt = false → ∃ l v', trainLoop .unknown noise is v = .ok (l, v') ∧ l.length = is.length ∧ ∀ d ∈ l, d = v.heap r := by
    intro is
    induction is with
    | nil => intro v r _ _ _ _; exact ⟨[], v, rfl, rfl, by simp⟩
    | cons i is ih =>
      intro v r h1 h2 h3 h4
      have e : trainStep .unknown noise i.1 i.2.1 i.2.2 v = .ok (v.heap r, r, v) := by
        simp [trainStep, Vars.byName, Vars.single, h1 i (by simp), h2, h3, h4]
      obtain ⟨l, v', g1, g2, g3⟩ := ih v r (fun j hj => h1 j (List.mem_cons_of_mem _ hj)) h2 h3 h4
      refine ⟨v.heap r :: l, v', ?_, by simp [g2], ?_⟩
      · unfold trainLoop
        rw [e]
        simp only
        rw [g1]
        rfl
      · intro d hd
        rcases List.mem_cons.1 hd with rfl | hd
        · rfl
        · exact g3 d hd
  set w : Vars N := ({ heap := h } : Vars N).new ⟨sf, ⟨fun _ => 0.2, noise * 0.4 ^ 2, noise⟩⟩ false with hw
  have e : trainStep .unknown noise sf 1 opt { heap := h } = .ok (⟨sf, ⟨fun _ => 0.2, noise * 0.4 ^ 2, noise⟩⟩, 0, w) := by
    simp [trainStep, Vars.byName, Vars.single, Vars.new, hw]
  obtain ⟨l, v', g1, g2, g3⟩ := key is w 0 hi rfl rfl rfl
  have hw0 : w.heap 0 = ⟨sf, ⟨fun _ => 0.2, noise * 0.4 ^ 2, noise⟩⟩ := by simp [hw, Vars.new]
  refine ⟨w.heap 0 :: l, v', ?_, by simp [g2], ?_⟩
  · unfold trainLoop
    rw [e]
    simp only
    rw [g1]
    rfl
  · intro d hd
    rcases List.mem_cons.1 hd with rfl | hd
    · exact hw0
    · rw [g3 d hd, hw0]

/-- An unknown kernel is refused if the run starts with several structures. -/
theorem C213_unknown_partial {N : ℕ} (noise sf : ℝ) (n : ℕ) (hn : n ≠ 1) (opt : Dict N → Hyper N × Bool) (h : ℕ → Dict N) :
    trainStep .unknown noise sf n opt { heap := h } = .error .name := by
  simp [trainStep, Vars.byName, Vars.single, hn]

/-- A run with six structures whose optimisation succeeds gives a state after a success. -/
example (h : ℕ → Dict 1) : ∃ s, trainStep .sqe 1 1 6 (fun d => (d.hyper, true)) { heap := h } = .ok s ∧ s.2.2.success = some 0 ∧ 0 < s.2.2.next := by
  simp [trainStep, Vars.byName, Vars.single, Vars.new]

end CatLearn.Surrogate
