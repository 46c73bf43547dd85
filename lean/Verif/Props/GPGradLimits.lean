import Verif.Props.GPGradRelations
import Mathlib.Analysis.SpecialFunctions.Exp
import Mathlib.Analysis.Normed.Group.Bounded

/-!
# Models of values and gradients far from the data (C285)
-/

namespace CatLearn.GradProc

open CatLearn CatLearn.Kernel CatLearn.Scaling CatLearn.Proc Matrix Filter Topology

/-- A Gaussian of the distance, times the square of the distance. -/
theorem sq_exp_far {N : ℕ} (w : Fin N → ℝ) (hw : ∀ a, 0 < w a) (y : Fin N → ℝ) (n : ℕ) :
    Tendsto (fun x => (∑ a, (x a / w a - y a / w a) ^ 2) ^ n * gauss w x y) (cocompact (Fin N → ℝ)) (𝓝 0) := by
  let e : (Fin N → ℝ) ≃ₜ (Fin N → ℝ) :=
    { toFun := fun x a => x a / w a - y a / w a
      invFun := fun z a => z a * w a + y a
      left_inv := fun x => by funext a; have := (hw a).ne'; field_simp; ring
      right_inv := fun x => by funext a; have := (hw a).ne'; field_simp; ring
      continuous_toFun := by fun_prop
      continuous_invFun := by fun_prop }
  have h1 : Tendsto (fun x => ‖e x‖) (cocompact (Fin N → ℝ)) atTop :=
    tendsto_norm_cocompact_atTop.comp e.isClosedEmbedding.tendsto_cocompact
  have h2 : Tendsto (fun x => 0.5 * ∑ a, (x a / w a - y a / w a) ^ 2) (cocompact (Fin N → ℝ)) atTop := by
    have h3 : Tendsto (fun x => 0.5 * ‖e x‖ ^ 2) (cocompact (Fin N → ℝ)) atTop :=
      ((tendsto_pow_atTop (two_ne_zero)).comp h1).const_mul_atTop (by norm_num)
    refine tendsto_atTop_mono (fun x => ?_) h3
    refine mul_le_mul_of_nonneg_left ?_ (by norm_num)
    have hs : 0 ≤ ∑ a, (x a / w a - y a / w a) ^ 2 := Finset.sum_nonneg fun a _ => sq_nonneg _
    rw [← Real.le_sqrt (norm_nonneg _) hs]
    refine (pi_norm_le_iff_of_nonneg (Real.sqrt_nonneg _)).2 fun a => ?_
    rw [Real.norm_eq_abs]
    refine Real.abs_le_sqrt ?_
    exact Finset.single_le_sum (f := fun a => (x a / w a - y a / w a) ^ 2) (fun a _ => sq_nonneg _) (Finset.mem_univ a)
  have h4 := (Real.tendsto_pow_mul_exp_neg_atTop_nhds_zero n).comp h2
  have h5 := h4.const_mul ((2 : ℝ) ^ n)
  rw [mul_zero] at h5
  refine h5.congr fun x => ?_
  simp only [Function.comp_apply, gauss]
  rw [← mul_assoc, ← mul_pow]
  congr 2
  · ring
  · ring

theorem gauss_far {N : ℕ} (w : Fin N → ℝ) (hw : ∀ a, 0 < w a) (y : Fin N → ℝ) :
    Tendsto (fun x => gauss w x y) (cocompact (Fin N → ℝ)) (𝓝 0) := by
  simpa using sq_exp_far w hw y 0

theorem slope_far {N : ℕ} (w : Fin N → ℝ) (hw : ∀ a, 0 < w a) (y : Fin N → ℝ) (a : Fin N) :
    Tendsto (fun x => (w a) ^ (-2 : ℤ) * (y a - x a) * gauss w x y) (cocompact (Fin N → ℝ)) (𝓝 0) := by
  have h := ((gauss_far w hw y).add (sq_exp_far w hw y 1)).const_mul ((w a)⁻¹)
  rw [add_zero, mul_zero] at h
  refine squeeze_zero_norm (fun x => ?_) h
  have hg : 0 ≤ gauss w x y := (Real.exp_pos _).le
  rw [Real.norm_eq_abs, abs_mul, abs_of_nonneg hg, pow_one, ← one_add_mul, ← mul_assoc]
  refine mul_le_mul_of_nonneg_right ?_ hg
  have hwa := hw a
  have e : (w a) ^ (-2 : ℤ) * (y a - x a) = (w a)⁻¹ * (y a / w a - x a / w a) := by
    rw [_root_.zpow_neg]; field_simp
  rw [e, abs_mul, abs_of_pos (inv_pos.2 hwa)]
  refine mul_le_mul_of_nonneg_left ?_ (inv_pos.2 hwa).le
  have h1 : (x a / w a - y a / w a) ^ 2 ≤ ∑ b, (x b / w b - y b / w b) ^ 2 :=
    Finset.single_le_sum (f := fun a => (x a / w a - y a / w a) ^ 2) (fun a _ => sq_nonneg _) (Finset.mem_univ a)
  rw [abs_sub_comm]
  have h2 := sq_abs (x a / w a - y a / w a)
  nlinarith [sq_nonneg (|x a / w a - y a / w a| - 1), abs_nonneg (x a / w a - y a / w a)]

/-- The covariance of a point far away with the training data. -/
noncomputable def farEntry {N n : ℕ} (g : GType N) : Ix n N → ℝ
  | .inl _ => match g with
    | .constant c => c
    | .constantMulti c1 _ _ => c1
    | _ => 0
  | .inr _ => match g with
    | .constantMulti _ c2 _ => c2
    | _ => 0

/-- Kernels of values and gradients that have a limit far from the data: not the linear one, and positive widths. -/
def Settles {N : ℕ} (k : GDict N) : Prop :=
  match k.gtype with
  | .gaussian w => ∀ a, 0 < w a
  | .linear => False
  | _ => True

/-- Kernels that tend to zero far from the data. -/
def Vanishes {N : ℕ} (k : GDict N) : Prop :=
  match k.gtype with
  | .gaussian w => ∀ a, 0 < w a
  | .noiseMulti _ _ => True
  | _ => False

theorem gRow_far {N n : ℕ} (k : GDict N) (hk : Settles k) (X : Fin n → Fin N → ℝ) (p : Ix n N) :
    Tendsto (fun x => gRow k.gtype x X p) (cocompact (Fin N → ℝ)) (𝓝 (farEntry k.gtype p)) := by
  unfold Settles at hk
  cases hg : k.gtype with
  | linear => simp [hg] at hk
  | gaussian w =>
    rw [hg] at hk
    rcases p with j | ⟨j, a⟩
    · exact gauss_far w hk (X j)
    · have := (slope_far w hk (X j) a).neg
      rw [neg_zero] at this
      exact this
  | _ => rcases p with j | ⟨j, a⟩ <;> exact tendsto_const_nhds

/-- The row of covariances far from the data. -/
noncomputable def farRow {N n : ℕ} (ks : List (GDict N)) : Ix n N → ℝ := fun p =>
  ks.foldl (fun c k => if k.mult then c * (k.scaling * farEntry k.gtype p) else c + k.scaling * farEntry k.gtype p) 0

theorem covRow_far {N n : ℕ} (ks : List (GDict N)) (hk : ∀ k ∈ ks, Settles k) (X : Fin n → Fin N → ℝ) :
    Tendsto (fun x => covRow ks x X) (cocompact (Fin N → ℝ)) (𝓝 (farRow ks)) := by
  rw [tendsto_pi_nhds]
  intro p
  unfold covRow farRow
  induction ks using List.reverseRecOn with
  | nil => exact tendsto_const_nhds
  | append_singleton ks k ih =>
    have h1 := ih fun k hk' => hk k (by simp [hk'])
    have h2 := (gRow_far k (hk k (by simp)) X p).const_mul k.scaling
    simp only [List.foldl_append, List.foldl_cons, List.foldl_nil]
    cases k.mult with
    | false => simpa using h1.add h2
    | true => simpa using h1.mul h2

theorem farRow_zero {N n : ℕ} (ks : List (GDict N)) (hk : ∀ k ∈ ks, Vanishes k) : farRow (n := n) ks = 0 := by
  funext p
  unfold farRow
  induction ks using List.reverseRecOn with
  | nil => rfl
  | append_singleton ks k ih =>
    have h1 := ih fun k hk' => hk k (by simp [hk'])
    simp only [List.foldl_append, List.foldl_cons, List.foldl_nil]
    rw [h1]
    have h2 : farEntry k.gtype p = 0 := by
      have := hk k (by simp)
      unfold Vanishes at this
      cases hg : k.gtype <;> rw [hg] at this <;> first | exact this.elim | (rcases p with j | ⟨j, a⟩ <;> rfl)
    simp [h2]

theorem scale_far {N : ℕ} (s : Scal N) (hs : ∀ a, s.fstd a ≠ 0) : Tendsto s.row (cocompact (Fin N → ℝ)) (cocompact (Fin N → ℝ)) := by
  let e : (Fin N → ℝ) ≃ₜ (Fin N → ℝ) :=
    { toFun := s.row
      invFun := fun z a => z a * s.fstd a + s.fmean a
      left_inv := fun x => by funext a; have := hs a; simp only [Scal.row]; field_simp; ring
      right_inv := fun x => by funext a; have := hs a; simp only [Scal.row]; field_simp; ring
      continuous_toFun := by unfold Scal.row; fun_prop
      continuous_invFun := by fun_prop }
  exact e.isClosedEmbedding.tendsto_cocompact

theorem Vanishes.settles {N : ℕ} {k : GDict N} (h : Vanishes k) : Settles k := by
  unfold Vanishes at h
  unfold Settles
  cases hg : k.gtype <;> rw [hg] at h <;> simp_all

/-- C285: far from the data the prediction of a model made with gradients tends to one value, the same in all directions, whatever constant
kernels there are besides Gaussian and noise kernels and however they are combined. -/
theorem C285_settles {N : ℕ} (fp : List (Fin N → ℝ)) (t : List ℝ) (grad : List (Fin N → ℝ)) (ks : List (GDict N)) (hk : ∀ k ∈ ks, Settles k)
    (reg : Option ℝ) (sd : Bool) (gp : GradGP N) (h : init fp t grad ks reg sd = .ok gp) (hnan : gp.nan = false) :
    ∃ (f : (Fin N → ℝ) → ℝ) (L : ℝ), (∀ x, predict gp x = .ok (some (f x))) ∧ Tendsto f (cocompact (Fin N → ℝ)) (𝓝 L) := by
  obtain ⟨-, -, -, -, -, -, -, -, -, -, s, hs, -, -, h13, h14⟩ := init_ok h
  have hfs := fstd_ne fp t sd s hs
  refine ⟨_, gp.rescale (farRow ks ⬝ᵥ ((covGrad ks reg gp.fp.get)⁻¹ *ᵥ vec gp.fp.length gp.target)), fun x => predict_eq h hnan x, ?_⟩
  have h1 : Tendsto (fun x => covRow ks (gp.scaleRow x) gp.fp.get) (cocompact (Fin N → ℝ)) (𝓝 (farRow ks)) := by
    have : gp.scaleRow = s.row := funext h13
    rw [this]
    exact (covRow_far ks hk gp.fp.get).comp (scale_far s hfs)
  have h2 : Continuous gp.rescale := by
    have : gp.rescale = s.untgt := funext h14
    rw [this]; unfold Scal.untgt; fun_prop
  refine (h2.tendsto _).comp ?_
  have h3 : Continuous fun v : Ix gp.fp.length N → ℝ => v ⬝ᵥ ((covGrad ks reg gp.fp.get)⁻¹ *ᵥ vec gp.fp.length gp.target) :=
    continuous_id.dotProduct continuous_const
  exact (h3.tendsto _).comp h1

/-- C285: with Gaussian and noise kernels only it falls back to zero, or with `scale_data` to the mean of the training targets. -/
theorem C285_prior {N : ℕ} (fp : List (Fin N → ℝ)) (t : List ℝ) (grad : List (Fin N → ℝ)) (ks : List (GDict N)) (hk : ∀ k ∈ ks, Vanishes k)
    (reg : Option ℝ) (sd : Bool) (gp : GradGP N) (h : init fp t grad ks reg sd = .ok gp) (hnan : gp.nan = false) :
    ∃ f : (Fin N → ℝ) → ℝ, (∀ x, predict gp x = .ok (some (f x))) ∧
      Tendsto f (cocompact (Fin N → ℝ)) (𝓝 (if sd then tMean t.get else 0)) := by
  obtain ⟨-, -, -, -, -, -, -, -, -, -, s, hs, -, -, h13, h14⟩ := init_ok h
  have hfs := fstd_ne fp t sd s hs
  refine ⟨_, fun x => predict_eq h hnan x, ?_⟩
  have h1 : Tendsto (fun x => covRow ks (gp.scaleRow x) gp.fp.get) (cocompact (Fin N → ℝ)) (𝓝 0) := by
    have : gp.scaleRow = s.row := funext h13
    rw [this, ← farRow_zero ks hk]
    exact (covRow_far ks (fun k h => (hk k h).settles) gp.fp.get).comp (scale_far s hfs)
  have h2 : Continuous gp.rescale := by
    have : gp.rescale = s.untgt := funext h14
    rw [this]; unfold Scal.untgt; fun_prop
  have h3 : Continuous fun v : Ix gp.fp.length N → ℝ => v ⬝ᵥ ((covGrad ks reg gp.fp.get)⁻¹ *ᵥ vec gp.fp.length gp.target) :=
    continuous_id.dotProduct continuous_const
  have h4 := (h2.tendsto _).comp ((h3.tendsto _).comp h1)
  have h5 : gp.rescale ((0 : Ix gp.fp.length N → ℝ) ⬝ᵥ ((covGrad ks reg gp.fp.get)⁻¹ *ᵥ vec gp.fp.length gp.target)) =
      if sd then tMean t.get else 0 := by
    rw [zero_dotProduct, h14, hs]
    cases sd <;> simp [Scal.untgt, scalOf]
  rw [h5] at h4
  exact h4

/-- C285: and the uncertainty tends to that of the prior, the same everywhere, which it never exceeds. -/
theorem C285_uncertainty {N : ℕ} (fp : List (Fin N → ℝ)) (t : List ℝ) (grad : List (Fin N → ℝ)) (ks : List (GDict N)) (hk : ∀ k ∈ ks, Vanishes k)
    (hpos : ∀ k ∈ ks, 0 ≤ k.scaling) (r : ℝ) (sd : Bool) (gp : GradGP N) (h : init fp t grad ks (some r) sd = .ok gp) :
    ∃ u : (Fin N → ℝ) → ℝ, (∀ x, uncertainty gp x = .ok (some (u x)) ∧ 0 ≤ u x ∧ u x ≤ Real.sqrt (prior ks 0) * if sd then tStd t.get else 1) ∧
      Tendsto u (cocompact (Fin N → ℝ)) (𝓝 (Real.sqrt (prior ks 0) * if sd then tStd t.get else 1)) := by
  have hg : ∀ k ∈ ks, GoodGrad k := by
    intro k hk'
    have h1 := hk k hk'
    unfold Vanishes at h1
    refine ⟨hpos k hk', ?_⟩
    cases hg : k.gtype <;> rw [hg] at h1 <;> simp_all
  have hc : ∀ k ∈ ks, ∀ c1 c2 c3, k.gtype ≠ .constantMulti c1 c2 c3 := by
    intro k hk' c1 c2 c3 he
    have h1 := hk k hk'
    unfold Vanishes at h1
    rw [he] at h1
    exact h1
  have hpr : ∀ x, prior ks x = prior ks 0 := by
    intro x
    unfold prior
    refine foldl_congr _ _ ks (fun k hk' c => ?_) 0
    have h1 := hk k hk'
    unfold Vanishes at h1
    cases hg : k.gtype <;> rw [hg] at h1 <;> simp_all
  have hts : gp.tstd = if sd then tStd t.get else 1 := by
    unfold init update at h
    split at h
    · cases h
    split at h
    · cases h
    cases sd with
    | true =>
      simp only [if_true] at h
      obtain ⟨-, -, rfl, -, -⟩ := finish_ok h
      rfl
    | false =>
      simp only [Bool.false_eq_true, if_false] at h
      obtain ⟨-, -, rfl, -, -⟩ := finish_ok h
      rfl
  choose u hu using fun x => C209_uncertainty_partial fp t grad ks hg hc r sd gp h x
  refine ⟨u, fun x => ⟨(hu x).1, (hu x).2.1, ?_⟩, ?_⟩
  · have := (hu x).2.2
    rwa [hpr, hts] at this
  · obtain ⟨h1, h2, h3, h4, h5, h6, h7, h8, h9, h10, s, hs, h11, h12, h13, h14⟩ := init_ok h
    have hfs := fstd_ne fp t sd s hs
    have hform : ∀ x, u x = Real.sqrt (postVar (prior ks 0) (covGrad ks (some r) gp.fp.get) (covRow ks (gp.scaleRow x) gp.fp.get)) * gp.tstd := by
      intro x
      have h15 := (hu x).1
      unfold uncertainty at h15
      cases hp : predict gp x with
      | error e => rw [hp] at h15; cases h15
      | ok o =>
        rw [hp, variance_eq h hc, prior_eq, hpr] at h15
        simp only [h4, npSqrt] at h15
        split at h15
        · simp at h15
        · simp only [Option.map_some, Except.ok.injEq, Option.some.injEq] at h15
          exact h15.symm
    have h16 : Tendsto (fun x => covRow ks (gp.scaleRow x) gp.fp.get) (cocompact (Fin N → ℝ)) (𝓝 0) := by
      have : gp.scaleRow = s.row := funext h13
      rw [this, ← farRow_zero ks hk]
      exact (covRow_far ks (fun k h => (hk k h).settles) gp.fp.get).comp (scale_far s hfs)
    have h17 : Continuous fun v : Ix gp.fp.length N → ℝ => Real.sqrt (postVar (prior ks 0) (covGrad ks (some r) gp.fp.get) v) * gp.tstd := by
      unfold postVar
      refine (Real.continuous_sqrt.comp (continuous_const.sub ?_)).mul continuous_const
      exact (continuous_id.matrix_vecMul continuous_const).dotProduct continuous_id
    have h18 := (h17.tendsto 0).comp h16
    have h19 : postVar (prior ks 0) (covGrad ks (some r) gp.fp.get) 0 = prior ks 0 := by simp [postVar]
    rw [h19, hts] at h18
    refine h18.congr fun x => ?_
    rw [hform, hts]
    rfl

example : (∃ gp : GradGP 2, init [![(-1:ℝ), 0], ![1, 3]] [0, 2] [![1, 1], ![0, 2]] [⟨.gaussian ![1, 2], 1, false⟩, ⟨.noiseMulti 1 1, 1, false⟩] (some 1) false =
    .ok gp ∧ gp.nan = false) ∧ Vanishes (N := 2) ⟨.gaussian ![1, 2], 1, false⟩ ∧ Vanishes (N := 2) ⟨.noiseMulti 1 1, 1, false⟩ ∧
    Settles (N := 2) ⟨.constant 3, 1, true⟩ ∧ (cocompact (Fin 2 → ℝ)).NeBot := by
  refine ⟨?_, ?_, trivial, trivial, inferInstance⟩
  · obtain ⟨gp, h⟩ := C123_trains [![(-1:ℝ), 0], ![1, 3]] [0, 2] [![1, 1], ![0, 2]] [⟨.gaussian ![1, 2], 1, false⟩, ⟨.noiseMulti 1 1, 1, false⟩]
      (by simp) rfl (by simp [GoodGrad, Fin.forall_fin_two]) 1 one_ne_zero false (by simp) rfl rfl
    refine ⟨gp, h, ?_⟩
    obtain ⟨-, -, -, -, -, -, rfl⟩ := init_false h
    rfl
  · simp [Vanishes, Fin.forall_fin_two]

end CatLearn.GradProc
