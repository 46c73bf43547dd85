import Verif.Props.GPUncertainty

/-!
# Predictions far from the data (C274) and at neighbouring points (C275)
-/

namespace CatLearn.Proc

open CatLearn CatLearn.Kernel CatLearn.Scaling CatLearn.PSD Matrix Filter Topology

/-! ### Continuity -/

private theorem colSum_continuous {N : ℕ} (cols : List (Fin N)) (f : ℕ → ℝ → ℝ → ℝ)
    (hf : ∀ i, Continuous fun p : ℝ × ℝ => f i p.1 p.2) :
    Continuous fun p : (Fin N → ℝ) × (Fin N → ℝ) => colSum cols p.1 p.2 f := by
  unfold colSum
  generalize cols.zipIdx = L
  induction L with
  | nil => simpa using continuous_const
  | cons c L ih =>
    simp only [List.map_cons, List.sum_cons]
    refine Continuous.add ?_ ih
    have h1 : Continuous fun p : (Fin N → ℝ) × (Fin N → ℝ) => (p.1 c.1, p.2 c.1) := by fun_prop
    exact (hf c.2).comp h1

private theorem colSum_nonneg {N : ℕ} (cols : List (Fin N)) (x y : Fin N → ℝ) (f : ℕ → ℝ → ℝ → ℝ)
    (hf : ∀ i a b, 0 ≤ f i a b) : 0 ≤ colSum cols x y f := by
  unfold colSum
  apply List.sum_nonneg
  intro v hv
  simp only [List.mem_map] at hv
  obtain ⟨c, -, rfl⟩ := hv
  exact hf _ _ _

private theorem entry_continuous {N : ℕ} (k : KType) (cols : List (Fin N)) (log s : Bool) :
    Continuous fun p : (Fin N → ℝ) × (Fin N → ℝ) => entry k cols log p.1 p.2 s := by
  cases k with
  | gaussian w =>
    exact Real.continuous_exp.comp (continuous_const.mul (colSum_continuous cols _ fun i => by fun_prop))
  | laplacian w =>
    exact Real.continuous_exp.comp (colSum_continuous cols _ fun i => by fun_prop).neg
  | sqe w =>
    exact Real.continuous_exp.comp (continuous_const.mul
      (Real.continuous_sqrt.comp (colSum_continuous cols _ fun i => by fun_prop)))
  | quadratic sl d b =>
    refine Continuous.rpow_const (continuous_const.add (continuous_const.mul
      (colSum_continuous cols _ fun i => by fun_prop))) fun p => Or.inl ?_
    have := colSum_nonneg cols p.1 p.2 (fun _ a b => (a / unlog log ((sl ++ [d]).getD 0 0) * unlog log ((sl ++ [d]).getD 1 0)
      - b / unlog log ((sl ++ [d]).getD 0 0) * unlog log ((sl ++ [d]).getD 1 0)) ^ 2) fun i a b => sq_nonneg _
    positivity
  | linear => exact colSum_continuous cols (fun _ a b => a * b) fun i => by fun_prop
  | constant c => exact continuous_const
  | noiseMulti h => exact continuous_const

private theorem covEntry_continuous {N : ℕ} (ks : List (KDict N)) (log s : Bool) :
    Continuous fun p : (Fin N → ℝ) × (Fin N → ℝ) => covEntry ks log p.1 p.2 s := by
  unfold covEntry
  have key : ∀ (ks : List (KDict N)) (g : (Fin N → ℝ) × (Fin N → ℝ) → ℝ), Continuous g →
      Continuous fun p : (Fin N → ℝ) × (Fin N → ℝ) => ks.foldl (fun cov k =>
        let v := scaleFactor k log * entry k.ktype (columns k) log p.1 p.2 s
        if k.mult then cov * v else cov + v) (g p) := by
    intro ks
    induction ks with
    | nil => intro g hg; exact hg
    | cons k ks ih =>
      intro g hg
      have he := (continuous_const (y := scaleFactor k log)).mul (entry_continuous k.ktype (columns k) log s)
      refine ih (fun p => let v := scaleFactor k log * entry k.ktype (columns k) log p.1 p.2 s
        if k.mult then g p * v else g p + v) ?_
      cases k.mult with
      | true => exact hg.mul he
      | false => exact hg.add he
  exact key ks (fun _ => 0) continuous_const

private theorem ktb_continuous {N : ℕ} (gp : GP N) : Continuous gp.ktb := by
  refine continuous_pi fun j => ?_
  unfold GP.ktb
  generalize gp.fp.getD j.1 0 = y
  have h : Continuous fun x : Fin N → ℝ => (x, y) := continuous_id.prodMk continuous_const
  have h3 := (covEntry_continuous gp.kernels gp.log false).comp h
  exact h3

private theorem scaleRow_continuous {N : ℕ} (gp : GP N) : Continuous gp.scaleRow := by
  unfold GP.scaleRow
  split
  · unfold Scal.row
    fun_prop
  · exact continuous_id

private theorem rescale_continuous {N : ℕ} (gp : GP N) : Continuous gp.rescale := by
  unfold GP.rescale
  split
  · unfold Scal.untgt
    fun_prop
  · exact continuous_id

private theorem var_continuous {N : ℕ} (gp : GP N) : Continuous gp.var := by
  unfold GP.var
  have h2 : Continuous fun x : Fin N → ℝ => (x, x) := by fun_prop
  have h3 := (covEntry_continuous gp.kernels gp.log true).comp h2
  refine Continuous.sub h3 ?_
  have h := ktb_continuous gp
  exact (Continuous.matrix_vecMul h continuous_const).dotProduct h

private theorem mean_eq' {N : ℕ} (gp : GP N) (hn : gp.nan = false) (x : Fin N → ℝ) :
    gp.mean x = some (gp.rescale (gp.ktb x ⬝ᵥ (gp.cinv.2 *ᵥ gp.y))) := by
  simp [GP.mean, hn]

private theorem unc_eq {N : ℕ} (gp : GP N) (hc : Consistent gp) (hk : ∀ k ∈ gp.kernels, GoodKernel gp.log k) (r : ℝ)
    (x : Fin N → ℝ) : gp.unc r x = (some (Real.sqrt (gp.var x) * gp.tstd), some ((Real.sqrt (gp.var x) + r) * gp.tstd)) := by
  have h := (C42_variance gp hc hk x).1
  simp [GP.unc, npSqrt, not_lt.2 h]

private theorem holds_nan {N : ℕ} {gp : GP N} {fp : List (Fin N → ℝ)} {t : List ℝ} (hh : Holds gp fp t)
    (hn : gp.scaleData = true → tStd t.get ≠ 0) : gp.nan = false := by
  have h1 := hh.1
  unfold store at h1
  cases hd : gp.scaleData with
  | false =>
    simp only [hd, Bool.false_eq_true, if_false, Except.ok.injEq, Stored.mk.injEq, Option.isSome_some, if_true] at h1
    exact h1.2.2.1.symm
  | true =>
    simp only [hd, if_true, Except.ok.injEq, Stored.mk.injEq] at h1
    rw [← h1.2.2.1]
    exact decide_eq_false (hn hd)

/-- C275: predictions are a continuous function of the features. -/
theorem C275_prediction {N : ℕ} (gp : GP N) (fp : List (Fin N → ℝ)) (t : List ℝ) (hR : Reach gp fp t)
    (hn : gp.scaleData = true → tStd t.get ≠ 0) :
    ∃ f : (Fin N → ℝ) → ℝ, Continuous f ∧
      ∀ test, test ≠ [] → predict gp test false = .ok ⟨test.map fun x => some (f x), none⟩ := by
  obtain ⟨hc, hh⟩ := C43_consistent_partial gp fp t hR
  have hnan := holds_nan hh hn
  refine ⟨fun x => gp.rescale (gp.ktb (gp.scaleRow x) ⬝ᵥ (gp.cinv.2 *ᵥ gp.y)), ?_, ?_⟩
  · exact (rescale_continuous gp).comp
      (((ktb_continuous gp).comp (scaleRow_continuous gp)).dotProduct continuous_const)
  · intro test ht
    rw [hc.predict_eq test ht]
    simp only [mean_eq' gp hnan]

/-- C275: so are uncertainties. -/
theorem C275_uncertainty {N : ℕ} (gp : GP N) (fp : List (Fin N → ℝ)) (t : List ℝ) (hR : Reach gp fp t)
    (hk : ∀ k ∈ gp.kernels, GoodKernel gp.log k) (r : ℝ) (hr : gp.reg = some r) :
    ∃ u v : (Fin N → ℝ) → ℝ, Continuous u ∧ Continuous v ∧
      ∀ test, test ≠ [] → ∃ p, predict gp test true = .ok ⟨p, some (test.map fun x => (some (u x), some (v x)))⟩ := by
  obtain ⟨hc, hh⟩ := C43_consistent_partial gp fp t hR
  have h1 := Real.continuous_sqrt.comp ((var_continuous gp).comp (scaleRow_continuous gp))
  refine ⟨fun x => Real.sqrt (gp.var (gp.scaleRow x)) * gp.tstd, fun x => (Real.sqrt (gp.var (gp.scaleRow x)) + r) * gp.tstd,
    h1.mul continuous_const, (h1.add continuous_const).mul continuous_const, ?_⟩
  intro test ht
  have h := hc.predict_unc test ht r hr
  simp only [unc_eq gp hc hk r] at h
  exact ⟨_, h⟩

example : ∃ gp : GP 1, init [![(0:ℝ)], ![2]] [0, 2] linK (some 1) false true = .ok gp ∧
    Reach gp [![(0:ℝ)], ![2]] [0, 2] ∧ tStd ([0, 2] : List ℝ).get ≠ 0 := by
  obtain ⟨gp, h⟩ := C113_can_build [![(0:ℝ)], ![2]] [0, 2] linK 1 false true (by simp) rfl (by simp [linK]) linK_packs
    linK_good (Or.inr one_ne_zero)
  refine ⟨gp, h, .init linK_packs h, ?_⟩
  simp [tStd, colStd, colMean, Fin.sum_univ_succ]
  norm_num

/-! ### Far from the data -/

/-- Kernels that vanish for distant points, and noise. -/
def Fades {N : ℕ} (k : KDict N) : Prop :=
  match k.ktype with
  | .gaussian _ => True
  | .laplacian _ => True
  | .sqe _ => True
  | .noiseMulti _ => True
  | _ => False

private theorem sum_lower {N : ℕ} (L : List (Fin N × ℕ)) (f : Fin N × ℕ → ℝ → ℝ)
    (hf : ∀ p ∈ L, ∃ m C : ℝ, 0 < m ∧ ∀ a, m * |a| - C ≤ f p a) :
    ∃ m C : ℝ, 0 < m ∧ ∀ x : Fin N → ℝ, m * (L.map fun p => |x p.1|).sum - C ≤ (L.map fun p => f p (x p.1)).sum := by
  induction L with
  | nil => exact ⟨1, 0, one_pos, by simp⟩
  | cons p L ih =>
    obtain ⟨m, C, hm, h⟩ := ih fun q hq => hf q (by simp [hq])
    obtain ⟨m', C', hm', h'⟩ := hf p (by simp)
    refine ⟨min m m', C + C', lt_min hm hm', fun x => ?_⟩
    simp only [List.map_cons, List.sum_cons]
    have h0 : 0 ≤ (L.map fun p => |x p.1|).sum := by
      apply List.sum_nonneg
      intro v hv
      simp only [List.mem_map] at hv
      obtain ⟨c, -, rfl⟩ := hv
      exact abs_nonneg _
    have e1 := mul_le_mul_of_nonneg_right (min_le_left m m') h0
    have e2 := mul_le_mul_of_nonneg_right (min_le_right m m') (abs_nonneg (x p.1))
    have := h x
    have := h' (x p.1)
    nlinarith

private theorem abs_lower (w a b : ℝ) (hw : 0 < w) : w⁻¹ * |a| - w⁻¹ * |b| ≤ |a / w - b / w| := by
  have h1 : a / w - b / w = w⁻¹ * (a - b) := by field_simp
  rw [h1, abs_mul, abs_of_pos (inv_pos.2 hw), ← mul_sub]
  exact mul_le_mul_of_nonneg_left (abs_sub_abs_le_abs_sub a b) (inv_pos.2 hw).le

private theorem sq_lower (u : ℝ) : |u| - 1 / 4 ≤ u ^ 2 := by
  have := sq_nonneg (|u| - 1 / 2)
  have e : |u| ^ 2 = u ^ 2 := sq_abs u
  nlinarith

private theorem width_pos {log : Bool} {w : List ℝ} {n : ℕ} (h : GoodWidths log w n) (i : ℕ) (hi : i < n) :
    0 < unlog log (pick w i) := by
  unfold unlog
  cases log with
  | true => simpa using Real.exp_pos _
  | false =>
    simp only [Bool.false_eq_true, if_false]
    rcases h.2 with h2 | h2
    · simp at h2
    · apply h2
      unfold pick
      rcases h.1 with h1 | h1
      · rw [if_pos h1, List.getD_eq_getElem _ _ (by omega)]
        exact List.getElem_mem _
      · by_cases h3 : w.length = 1
        · rw [if_pos h3, List.getD_eq_getElem _ _ (by omega)]
          exact List.getElem_mem _
        · rw [if_neg h3, List.getD_eq_getElem _ _ (by omega)]
          exact List.getElem_mem _

private theorem abs_sum_zipIdx {N : ℕ} (cols : List (Fin N)) (x : Fin N → ℝ) :
    (cols.zipIdx.map fun p => |x p.1|).sum = (cols.map fun c => |x c|).sum := by
  have : cols.map (fun c => |x c|) = (cols.zipIdx.map Prod.fst).map (fun c => |x c|) := by
    rw [List.zipIdx_map_fst]
  rw [this, List.map_map]
  rfl

private theorem zipIdx_lt {N : ℕ} {cols : List (Fin N)} {p : Fin N × ℕ} (h : p ∈ cols.zipIdx) : p.2 < cols.length := by
  obtain ⟨c, i⟩ := p
  have := List.mem_zipIdx h
  omega

private theorem colSum_atTop {N : ℕ} {α : Type} (l : Filter α) (x : α → Fin N → ℝ) (y : Fin N → ℝ) (cols : List (Fin N))
    (f : ℕ → ℝ → ℝ → ℝ) (hf : ∀ i b, i < cols.length → ∃ m C : ℝ, 0 < m ∧ ∀ a, m * |a| - C ≤ f i a b)
    (hx : Tendsto (fun a => (cols.map fun c => |x a c|).sum) l atTop) :
    Tendsto (fun a => colSum cols (x a) y f) l atTop := by
  obtain ⟨m, C, hm, h⟩ := sum_lower cols.zipIdx (fun p a => f p.2 a (y p.1)) fun p hp => hf p.2 (y p.1) (zipIdx_lt hp)
  refine tendsto_atTop_mono (fun a => h (x a)) ?_
  simp only [abs_sum_zipIdx]
  exact tendsto_atTop_add_const_right l (-C) (hx.const_mul_atTop hm)

private theorem entry_fades {N : ℕ} {α : Type} (l : Filter α) (x : α → Fin N → ℝ) (y : Fin N → ℝ) (k : KDict N) (log : Bool)
    (hk : Fades k) (hg : GoodKernel log k)
    (hx : (∀ h, k.ktype ≠ .noiseMulti h) → Tendsto (fun a => ((columns k).map fun c => |x a c|).sum) l atTop) :
    Tendsto (fun a => entry k.ktype (columns k) log (x a) y false) l (𝓝 0) := by
  have hg := hg.2
  cases hkt : k.ktype with
  | gaussian w =>
    rw [hkt] at hg
    have h := colSum_atTop l x y (columns k)
      (fun i a b => (a / unlog log (pick w i) - b / unlog log (pick w i)) ^ 2) (fun i b hi => by
        have hw := width_pos hg i hi
        refine ⟨(unlog log (pick w i))⁻¹, (unlog log (pick w i))⁻¹ * |b| + 1 / 4, inv_pos.2 hw, fun a => ?_⟩
        have h1 := abs_lower _ a b hw
        have h2 := sq_lower (a / unlog log (pick w i) - b / unlog log (pick w i))
        linarith) (hx (by simp [hkt]))
    exact Real.tendsto_exp_atBot.comp (h.const_mul_atTop_of_neg (by norm_num))
  | laplacian w =>
    rw [hkt] at hg
    have h := colSum_atTop l x y (columns k)
      (fun i a b => |a / unlog log (pick w i) - b / unlog log (pick w i)|) (fun i b hi => by
        have hw := width_pos hg i hi
        refine ⟨(unlog log (pick w i))⁻¹, (unlog log (pick w i))⁻¹ * |b|, inv_pos.2 hw, fun a => ?_⟩
        exact abs_lower _ a b hw) (hx (by simp [hkt]))
    exact Real.tendsto_exp_atBot.comp (tendsto_neg_atTop_atBot.comp h)
  | sqe w =>
    rw [hkt] at hg
    have h := colSum_atTop l x y (columns k)
      (fun i a b => (a - b) ^ 2 / unlog log (pick w i)) (fun i b hi => by
        have hw := width_pos hg i hi
        refine ⟨(unlog log (pick w i))⁻¹, (unlog log (pick w i))⁻¹ * (|b| + 1 / 4), inv_pos.2 hw, fun a => ?_⟩
        have h1 := abs_sub_abs_le_abs_sub a b
        have h2 := sq_lower (a - b)
        have h3 : |a| - (|b| + 1 / 4) ≤ (a - b) ^ 2 := by linarith
        have h4 := mul_le_mul_of_nonneg_left h3 (inv_pos.2 hw).le
        rw [mul_sub] at h4
        simp only [div_eq_mul_inv] at h4 ⊢
        rw [mul_comm ((a - b) ^ 2)]
        exact h4) (hx (by simp [hkt]))
    exact Real.tendsto_exp_atBot.comp ((Real.tendsto_sqrt_atTop.comp h).const_mul_atTop_of_neg (by norm_num))
  | noiseMulti h =>
    simp only [entry, Bool.false_eq_true, if_false]
    exact tendsto_const_nhds
  | quadratic s d b => simp [Fades, hkt] at hk
  | linear => simp [Fades, hkt] at hk
  | constant c => simp [Fades, hkt] at hk

theorem covEntry_fades {N : ℕ} {α : Type} (l : Filter α) (x : α → Fin N → ℝ) (y : Fin N → ℝ) (ks : List (KDict N))
    (log : Bool) (hk : ∀ k ∈ ks, Fades k) (hg : ∀ k ∈ ks, GoodKernel log k)
    (hx : ∀ k ∈ ks, (∀ h, k.ktype ≠ .noiseMulti h) → Tendsto (fun a => ((columns k).map fun c => |x a c|).sum) l atTop) :
    Tendsto (fun a => covEntry ks log (x a) y false) l (𝓝 0) := by
  unfold covEntry
  have key : ∀ (ks : List (KDict N)), (∀ k ∈ ks, Tendsto (fun a => entry k.ktype (columns k) log (x a) y false) l (𝓝 0)) →
      ∀ (g : α → ℝ), Tendsto g l (𝓝 0) → Tendsto (fun a => ks.foldl (fun cov k =>
        let v := scaleFactor k log * entry k.ktype (columns k) log (x a) y false
        if k.mult then cov * v else cov + v) (g a)) l (𝓝 0) := by
    intro ks
    induction ks with
    | nil => intro _ g hg; exact hg
    | cons k ks ih =>
      intro hall g hg
      have he := (hall k (by simp)).const_mul (scaleFactor k log)
      rw [mul_zero] at he
      refine ih (fun q hq => hall q (by simp [hq])) (fun a => let v := scaleFactor k log * entry k.ktype (columns k) log (x a) y false
        if k.mult then g a * v else g a + v) ?_
      cases k.mult with
      | true => simpa using hg.mul he
      | false => simpa using hg.add he
  exact key ks (fun k hkm => entry_fades l x y k log (hk k hkm) (hg k hkm) (hx k hkm)) _ tendsto_const_nhds

theorem covEntry_place {N : ℕ} (ks : List (KDict N)) (log : Bool) (hk : ∀ k ∈ ks, Fades k) (x : Fin N → ℝ) :
    covEntry ks log x x true = covEntry ks log 0 0 true := by
  unfold covEntry
  generalize (0 : ℝ) = c
  induction ks generalizing c with
  | nil => rfl
  | cons k ks ih =>
    have he : entry k.ktype (columns k) log x x true = entry k.ktype (columns k) log 0 0 true := by
      have := hk k (by simp)
      cases hkt : k.ktype <;> simp [Fades, hkt] at this <;> simp [entry, colSum]
    simp only [List.foldl_cons, he]
    exact ih (fun q hq => hk q (by simp [hq])) _

private theorem scaled_far {N : ℕ} {α : Type} (l : Filter α) (x : α → Fin N → ℝ) (gp : GP N) (cols : List (Fin N))
    (hs : ∀ s, gp.scaleData = true → gp.scaling = some s → ∀ c, 0 < s.fstd c)
    (hx : Tendsto (fun a => (cols.map fun c => |x a c|).sum) l atTop) :
    Tendsto (fun a => (cols.map fun c => |gp.scaleRow (x a) c|).sum) l atTop := by
  by_cases hex : ∃ s, gp.scaleData = true ∧ gp.scaling = some s
  · obtain ⟨s, hd, hsc⟩ := hex
    have hrow : ∀ z, gp.scaleRow z = fun c => (z c - s.fmean c) / s.fstd c := by
      intro z
      unfold GP.scaleRow
      rw [hd, hsc]
      rfl
    simp only [hrow]
    obtain ⟨m, C, hm, h⟩ := sum_lower (cols.map fun c => (c, 0)) (fun p a => |(a - s.fmean p.1) / s.fstd p.1|) fun p _ => by
      have hw := hs s hd hsc p.1
      refine ⟨(s.fstd p.1)⁻¹, (s.fstd p.1)⁻¹ * |s.fmean p.1|, inv_pos.2 hw, fun a => ?_⟩
      rw [sub_div]
      exact abs_lower _ a _ hw
    simp only [List.map_map, Function.comp_def] at h
    refine tendsto_atTop_mono (fun a => h (x a)) ?_
    exact tendsto_atTop_add_const_right l (-C) (hx.const_mul_atTop hm)
  · have hrow : ∀ z, gp.scaleRow z = z := by
      intro z
      unfold GP.scaleRow
      split
      · next s hd hsc => exact absurd ⟨s, hd, hsc⟩ hex
      · rfl
    simp only [hrow]
    exact hx

private theorem holds_fstd {N : ℕ} {gp : GP N} {fp : List (Fin N → ℝ)} {t : List ℝ} (hh : Holds gp fp t) :
    ∀ s, gp.scaleData = true → gp.scaling = some s →
      (∀ c, 0 < s.fstd c) ∧ s.tmean = tMean t.get ∧ s.tstd = tStd t.get := by
  intro s hd hsc
  have h1 := hh.1
  unfold store at h1
  simp only [hd, if_true, Except.ok.injEq, Stored.mk.injEq] at h1
  rw [hsc] at h1
  have h4 := h1.2.2.2
  simp only [Option.some.injEq] at h4
  subst h4
  refine ⟨fun c => ?_, rfl, rfl⟩
  have h0 : 0 ≤ colStd fp.get c := Real.sqrt_nonneg _
  simp only [scalOf, placeOnes]
  split
  · exact one_pos
  · next h => exact lt_of_le_of_ne h0 (Ne.symm h)

/-- C274: far from the data the prediction falls back to zero, or with `scale_data` to the mean of the training
targets. -/
theorem C274_prediction {N : ℕ} {α : Type} (gp : GP N) (fp : List (Fin N → ℝ)) (t : List ℝ) (hR : Reach gp fp t)
    (hn : gp.scaleData = true → tStd t.get ≠ 0) (hf : ∀ k ∈ gp.kernels, Fades k)
    (hk : ∀ k ∈ gp.kernels, GoodKernel gp.log k) (l : Filter α) (x : α → Fin N → ℝ)
    (hx : ∀ k ∈ gp.kernels, (∀ h, k.ktype ≠ .noiseMulti h) →
      Tendsto (fun a => ((columns k).map fun c => |x a c|).sum) l atTop) :
    ∃ f : α → ℝ, (∀ a, predict gp [x a] false = .ok ⟨[some (f a)], none⟩) ∧
      Tendsto f l (𝓝 (if gp.scaleData then tMean t.get else 0)) := by
  obtain ⟨hc, hh⟩ := C43_consistent_partial gp fp t hR
  have hnan := holds_nan hh hn
  have hfs := holds_fstd hh
  have hktb : Tendsto (fun a => gp.ktb (gp.scaleRow (x a))) l (𝓝 0) := by
    rw [tendsto_pi_nhds]
    intro j
    exact covEntry_fades l _ _ gp.kernels gp.log hf hk fun k hkm hno =>
      scaled_far l x gp (columns k) (fun s h1 h2 => (hfs s h1 h2).1) (hx k hkm hno)
  have hdot : Tendsto (fun a => gp.ktb (gp.scaleRow (x a)) ⬝ᵥ (gp.cinv.2 *ᵥ gp.y)) l (𝓝 0) := by
    have hcont : Continuous fun v : Fin gp.cinv.1 → ℝ => v ⬝ᵥ (gp.cinv.2 *ᵥ gp.y) :=
      continuous_id.dotProduct continuous_const
    have h0 := (hcont.tendsto 0).comp hktb
    simp only [zero_dotProduct] at h0
    exact h0
  refine ⟨fun a => gp.rescale (gp.ktb (gp.scaleRow (x a)) ⬝ᵥ (gp.cinv.2 *ᵥ gp.y)), fun a => ?_, ?_⟩
  · rw [hc.predict_eq [x a] (by simp)]
    simp only [List.map_cons, List.map_nil, mean_eq' gp hnan]
  · have h1 := ((rescale_continuous gp).tendsto 0).comp hdot
    have h2 : gp.rescale 0 = if gp.scaleData then tMean t.get else 0 := by
      unfold GP.rescale
      cases hd : gp.scaleData with
      | false => simp
      | true =>
        have h3 := hc.2.2.2
        rw [hd] at h3
        obtain ⟨s, hs⟩ := Option.isSome_iff_exists.1 h3
        rw [hs]
        simp [Scal.untgt, (hfs s hd hs).2.1]
    rw [h2] at h1
    exact h1

/-- C274: and the uncertainty rises to that of the prior, the same everywhere, in the units of the targets. -/
theorem C274_uncertainty {N : ℕ} {α : Type} (gp : GP N) (fp : List (Fin N → ℝ)) (t : List ℝ) (hR : Reach gp fp t)
    (hf : ∀ k ∈ gp.kernels, Fades k) (hk : ∀ k ∈ gp.kernels, GoodKernel gp.log k) (r : ℝ) (hr : gp.reg = some r)
    (l : Filter α) (x : α → Fin N → ℝ)
    (hx : ∀ k ∈ gp.kernels, (∀ h, k.ktype ≠ .noiseMulti h) →
      Tendsto (fun a => ((columns k).map fun c => |x a c|).sum) l atTop) :
    ∃ u v : α → ℝ, (∀ a, ∃ p, predict gp [x a] true = .ok ⟨p, some [(some (u a), some (v a))]⟩) ∧
      (∀ a, u a ≤ Real.sqrt (covEntry gp.kernels gp.log 0 0 true) * if gp.scaleData then tStd t.get else 1) ∧
      Tendsto u l (𝓝 (Real.sqrt (covEntry gp.kernels gp.log 0 0 true) * if gp.scaleData then tStd t.get else 1)) := by
  obtain ⟨hc, hh⟩ := C43_consistent_partial gp fp t hR
  have hfs := holds_fstd hh
  have hts : gp.tstd = if gp.scaleData then tStd t.get else 1 := by
    unfold GP.tstd
    cases hd : gp.scaleData with
    | false => simp
    | true =>
      have h3 := hc.2.2.2
      rw [hd] at h3
      obtain ⟨s, hs⟩ := Option.isSome_iff_exists.1 h3
      rw [hs]
      simp [(hfs s hd hs).2.2]
  have hktb : Tendsto (fun a => gp.ktb (gp.scaleRow (x a))) l (𝓝 0) := by
    rw [tendsto_pi_nhds]
    intro j
    exact covEntry_fades l _ _ gp.kernels gp.log hf hk fun k hkm hno =>
      scaled_far l x gp (columns k) (fun s h1 h2 => (hfs s h1 h2).1) (hx k hkm hno)
  have hvar : Tendsto (fun a => gp.var (gp.scaleRow (x a))) l (𝓝 (covEntry gp.kernels gp.log 0 0 true)) := by
    have hcont : Continuous fun v : Fin gp.cinv.1 → ℝ => covEntry gp.kernels gp.log 0 0 true - (v ᵥ* gp.cinv.2) ⬝ᵥ v :=
      continuous_const.sub ((Continuous.matrix_vecMul continuous_id continuous_const).dotProduct continuous_id)
    have h1 := (hcont.tendsto 0).comp hktb
    simp only [dotProduct_zero, sub_zero] at h1
    refine h1.congr fun a => ?_
    simp only [Function.comp_apply, GP.var, covEntry_place gp.kernels gp.log hf (gp.scaleRow (x a))]
  rw [← hts]
  refine ⟨fun a => Real.sqrt (gp.var (gp.scaleRow (x a))) * gp.tstd,
    fun a => (Real.sqrt (gp.var (gp.scaleRow (x a))) + r) * gp.tstd, fun a => ?_, fun a => ?_, ?_⟩
  · have h := hc.predict_unc [x a] (by simp) r hr
    simp only [List.map_cons, List.map_nil, unc_eq gp hc hk r] at h
    exact ⟨_, h⟩
  · refine mul_le_mul_of_nonneg_right (Real.sqrt_le_sqrt ?_) hh.tstd_nonneg
    rw [← covEntry_place gp.kernels gp.log hf (gp.scaleRow (x a))]
    exact (C42_variance gp hc hk _).2
  · exact ((Real.continuous_sqrt.tendsto _).comp hvar).mul_const _

/-- A Gaussian kernel, and points that go away in one direction. -/
example : ∃ gp : GP 1, init [![(0:ℝ)], ![2]] [0, 2] [⟨.gaussian [1], none, none, false⟩] (some 1) false true = .ok gp ∧
    Reach gp [![(0:ℝ)], ![2]] [0, 2] ∧ (∀ k ∈ gp.kernels, Fades k) ∧ (∀ k ∈ gp.kernels, GoodKernel gp.log k) ∧
    ∀ k ∈ gp.kernels, (∀ h, k.ktype ≠ .noiseMulti h) →
      Tendsto (fun n : ℕ => ((columns k).map fun c => |(fun _ => (n : ℝ)) c|).sum) atTop atTop := by
  have hp : PacksList (N := 1) [⟨.gaussian [1], none, none, false⟩] := by intro s d b h; simp at h
  have hgk : ∀ k ∈ ([⟨.gaussian [1], none, none, false⟩] : List (KDict 1)), GoodKernel false k := by
    simp [GoodKernel, GoodWidths]
  obtain ⟨gp, h⟩ := C113_can_build [![(0:ℝ)], ![2]] [0, 2] [⟨.gaussian [1], none, none, false⟩] 1 false true (by simp) rfl
    (by simp) hp hgk (Or.inr one_ne_zero)
  obtain ⟨-, -, h1, -, h3, -⟩ := C43_init_partial _ _ _ hp _ _ _ gp h
  refine ⟨gp, h, .init hp h, ?_, ?_, ?_⟩
  · rw [h1]; simp [Fades]
  · rw [h1, h3]; exact hgk
  · rw [h1]
    simp [columns, List.finRange]
    exact tendsto_natCast_atTop_atTop

end CatLearn.Proc
