import Verif.Props.Masks
import Verif.Props.GPGrad
import Verif.Props.Surrogate
import Verif.Model.MLMinGP
import Mathlib.Analysis.Calculus.MeanValue
import Mathlib.Analysis.Calculus.ContDiff.Basic
import Mathlib.Analysis.SpecialFunctions.ExpDeriv
import Mathlib.Analysis.Calculus.ContDiff.Operations

/-!
# The forces on the surrogate are the forces of its energy (C271)
-/

namespace CatLearn.MLMin

open CatLearn CatLearn.Masks CatLearn.GradProc CatLearn.Kernel Matrix

/-! ### Central differences -/

/-- A function that vanishes at zero and whose slope is at most `c` up to `h` is at most `c * h` there. -/
private theorem le_of_slope (g g' : ℝ → ℝ) (h c : ℝ) (hh : 0 ≤ h) (h0 : g 0 = 0) (hd : ∀ s ∈ Set.Icc 0 h, HasDerivAt g (g' s) s)
    (hb : ∀ s ∈ Set.Icc 0 h, |g' s| ≤ c) : |g h| ≤ c * h := by
  have := Convex.norm_image_sub_le_of_norm_hasDerivWithin_le (f := g) (f' := g') (s := Set.Icc 0 h) (x := 0) (y := h) (C := c)
    (fun s hs => (hd s hs).hasDerivWithinAt) (fun s hs => by rw [Real.norm_eq_abs]; exact hb s hs) (convex_Icc 0 h) ⟨le_rfl, hh⟩ ⟨hh, le_rfl⟩
  rwa [h0, sub_zero, sub_zero, Real.norm_eq_abs, Real.norm_eq_abs, abs_of_nonneg hh] at this

/-- The central difference of a smooth function is its derivative up to a term of second order in the step. -/
theorem central (f : ℝ → ℝ) (hf : ContDiff ℝ 3 f) (x : ℝ) :
    ∃ C, 0 ≤ C ∧ ∀ h, 0 < h → h ≤ 1 → |(f (x + h) - f (x - h)) / (2 * h) - deriv f x| ≤ C * h ^ 2 := by
  have c1 : ContDiff ℝ 2 (deriv f) := (contDiff_succ_iff_deriv (n := 2).1 (by exact_mod_cast hf)).2.2
  have c2 : ContDiff ℝ 1 (deriv (deriv f)) := (contDiff_succ_iff_deriv (n := 1).1 (by exact_mod_cast c1)).2.2
  have c3 : Continuous (deriv (deriv (deriv f))) := c2.continuous_deriv le_rfl
  have d0 : ∀ y, HasDerivAt f (deriv f y) y := fun y => (hf.differentiable (by norm_num) y).hasDerivAt
  have d1 : ∀ y, HasDerivAt (deriv f) (deriv (deriv f) y) y := fun y => (c1.differentiable (by norm_num) y).hasDerivAt
  have d2 : ∀ y, HasDerivAt (deriv (deriv f)) (deriv (deriv (deriv f)) y) y := fun y => (c2.differentiable (by norm_num) y).hasDerivAt
  obtain ⟨K, hK⟩ := (isCompact_Icc (a := x - 1) (b := x + 1)).exists_bound_of_continuousOn c3.continuousOn
  have hK0 : 0 ≤ K := le_trans (norm_nonneg _) (hK x ⟨by linarith, by linarith⟩)
  refine ⟨K, hK0, fun h hh h1 => ?_⟩
  have plus : ∀ (g g' : ℝ → ℝ) (hg : ∀ y, HasDerivAt g (g' y) y) (s : ℝ), HasDerivAt (fun s => g (x + s)) (g' (x + s)) s := by
    intro g g' hg s
    exact (hg (x + s)).comp_const_add x s
  have minus : ∀ (g g' : ℝ → ℝ) (hg : ∀ y, HasDerivAt g (g' y) y) (s : ℝ), HasDerivAt (fun s => g (x - s)) (-g' (x - s)) s := by
    intro g g' hg s
    exact (hg (x - s)).comp_const_sub x s
  -- the difference of second derivatives
  have e2 : ∀ s ∈ Set.Icc 0 h, |deriv (deriv f) (x + s) - deriv (deriv f) (x - s)| ≤ 2 * K * h := by
    rintro s ⟨hs0, hs1⟩
    refine le_trans (le_of_slope (fun s => deriv (deriv f) (x + s) - deriv (deriv f) (x - s))
      (fun s => deriv (deriv (deriv f)) (x + s) - -deriv (deriv (deriv f)) (x - s)) s (2 * K) hs0 (by simp)
      (fun r _ => (plus _ _ d2 r).sub (minus _ _ d2 r)) ?_) ?_
    · rintro r ⟨hr0, hr1⟩
      have p1 := hK (x + r) ⟨by linarith, by linarith⟩
      have p2 := hK (x - r) ⟨by linarith, by linarith⟩
      rw [Real.norm_eq_abs] at p1 p2
      rw [sub_neg_eq_add]
      exact (abs_add_le _ _).trans (by linarith)
    · exact mul_le_mul_of_nonneg_left hs1 (by linarith)
  -- of first derivatives
  have e1 : ∀ s ∈ Set.Icc 0 h, |deriv f (x + s) + deriv f (x - s) - 2 * deriv f x| ≤ 2 * K * h * h := by
    rintro s ⟨hs0, hs1⟩
    refine le_trans (le_of_slope (fun s => deriv f (x + s) + deriv f (x - s) - 2 * deriv f x)
      (fun s => deriv (deriv f) (x + s) + -deriv (deriv f) (x - s)) s (2 * K * h) hs0 (by simp; ring)
      (fun r _ => ((plus _ _ d1 r).add (minus _ _ d1 r)).sub_const _) ?_) ?_
    · rintro r ⟨hr0, hr1⟩
      rw [← sub_eq_add_neg]
      exact e2 r ⟨hr0, hr1.trans hs1⟩
    · exact mul_le_mul_of_nonneg_left hs1 (by positivity)
  have e0 : |f (x + h) - f (x - h) - h * (2 * deriv f x)| ≤ 2 * K * h * h * h := by
    refine le_of_slope (fun s => f (x + s) - f (x - s) - s * (2 * deriv f x))
      (fun s => deriv f (x + s) - -deriv f (x - s) - 1 * (2 * deriv f x)) h (2 * K * h * h) hh.le (by simp)
      (fun r _ => ((plus _ _ d0 r).sub (minus _ _ d0 r)).sub ((hasDerivAt_id r).mul_const _)) ?_
    rintro r hr
    have := e1 r hr
    rwa [sub_neg_eq_add, one_mul]
  have : (f (x + h) - f (x - h)) / (2 * h) - deriv f x = (f (x + h) - f (x - h) - h * (2 * deriv f x)) / (2 * h) := by
    field_simp
  rw [this, abs_div, abs_of_pos (by positivity : (0 : ℝ) < 2 * h), div_le_iff₀ (by positivity)]
  nlinarith [e0]

/-! ### The prediction is smooth -/

theorem gRow_smooth {N n : ℕ} (g : GType N) (X : Fin n → Fin N → ℝ) (p : Ix n N) : ContDiff ℝ 3 fun x : Fin N → ℝ => gRow g x X p := by
  have hga : ∀ (w y : Fin N → ℝ), ContDiff ℝ 3 fun x : Fin N → ℝ => gauss w x y := by
    intro w y
    unfold gauss
    fun_prop
  cases g with
  | gaussian w =>
    rcases p with j | ⟨j, a⟩
    · exact hga w (X j)
    · simp only [gRow, gaussXXp]
      have := hga w (X j)
      fun_prop
  | linear =>
    rcases p with j | ⟨j, a⟩
    · simp only [gRow]; fun_prop
    · simp only [gRow]; fun_prop
  | constant c => rcases p with j | ⟨j, a⟩ <;> simp only [gRow] <;> fun_prop
  | constantMulti c1 c2 c3 => rcases p with j | ⟨j, a⟩ <;> simp only [gRow] <;> fun_prop
  | noiseMulti _ _ => simp only [gRow]; fun_prop

theorem covRow_smooth {N n : ℕ} (ks : List (GDict N)) (X : Fin n → Fin N → ℝ) (p : Ix n N) : ContDiff ℝ 3 fun x : Fin N → ℝ => covRow ks x X p := by
  unfold covRow
  have : ∀ (ks : List (GDict N)) (c : (Fin N → ℝ) → Ix n N → ℝ), (∀ p, ContDiff ℝ 3 fun x => c x p) → ∀ p, ContDiff ℝ 3 fun x =>
      (ks.foldl (fun cov k => if k.mult then fun p => cov p * (k.scaling * gRow k.gtype x X p) else fun p => cov p + k.scaling * gRow k.gtype x X p) (c x)) p := by
    intro ks
    induction ks with
    | nil => intro c hc p; exact hc p
    | cons k ks ih =>
      intro c hc p
      simp only [List.foldl_cons]
      refine ih (fun x => if k.mult then fun p => c x p * (k.scaling * gRow k.gtype x X p) else fun p => c x p + k.scaling * gRow k.gtype x X p) ?_ p
      intro q
      have h1 := hc q
      have h2 := gRow_smooth k.gtype X q
      cases k.mult
      · simp only [Bool.false_eq_true, if_false]
        fun_prop
      · simp only [if_true]
        fun_prop
  exact this ks (fun _ => 0) (fun p => contDiff_const) p

/-- A model that was trained without scaling predicts a smooth function. -/
theorem predict_smooth {N : ℕ} (gp gp' : GradGP N) (l : Bool) (hk : gp.scaleData = false) (hs : gp.nan = false)
    (ht : gp.target.length = gp.fp.length + gp.fp.length * N) (h : finish gp l = .ok gp') :
    ∃ E : (Fin N → ℝ) → ℝ, ContDiff ℝ 3 E ∧ ∀ u, predict gp' u = .ok (some (E u)) := by
  obtain ⟨hne, -, rfl, -, -⟩ := finish_ok h
  have e1 : ∀ x, GradGP.scaleRow { gp with cinv := ⟨gp.fp.length, (covGrad gp.kernels gp.reg gp.fp.get)⁻¹⟩ } x = x := fun x => by
    unfold GradGP.scaleRow; simp only [hk]; cases gp.scaling <;> rfl
  have e2 : ∀ x, GradGP.rescale { gp with cinv := ⟨gp.fp.length, (covGrad gp.kernels gp.reg gp.fp.get)⁻¹⟩ } x = x := fun x => by
    unfold GradGP.rescale; simp only [hk]; cases gp.scaling <;> rfl
  refine ⟨fun u => covRow gp.kernels u (fun i : Fin gp.fp.length => gp.fp.getD i 0) ⬝ᵥ
    ((covGrad gp.kernels gp.reg gp.fp.get)⁻¹ *ᵥ vec gp.fp.length gp.target), ?_, fun u => ?_⟩
  · unfold dotProduct
    refine ContDiff.sum fun p _ => ?_
    have := covRow_smooth gp.kernels (fun i : Fin gp.fp.length => gp.fp.getD i 0) p
    fun_prop
  · unfold predict
    rw [if_neg (by simp [hne]), if_neg (by simp only [ht]; simp), if_neg (by simp [hs])]
    simp only [e1, e2]

private theorem toVec_set (N : ℕ) (t : List ℝ) (k : Fin N) (hk : k.1 < t.length) (r : ℝ) : toVec N (t.set k r) = Function.update (toVec N t) k r := by
  funext a
  by_cases h : a = k
  · subst h
    simp [toVec, List.getD, hk]
  · rw [Function.update_of_ne h]
    have : k.1 ≠ a.1 := fun e => h (Fin.ext e.symm)
    simp [toVec, List.getD, List.getElem?_set_ne this]

theorem forces_smooth {N : ℕ} (E : (Fin N → ℝ) → ℝ) (hE : ContDiff ℝ 3 E) (s : Masks.Surrogate) (hs : ∀ u, s.energy u = E (toVec N u)) (scaling : ℝ)
    (pos : List ℝ) (idx : List ℕ) (hn : idx.Nodup) (hb : ∀ i ∈ idx, i < pos.length) (hN : idx.length = N) :
    ∃ C, ∀ fs, 0 < fs → fs ≤ 1 → ∃ F, surForces s fs pos idx = .ok F ∧ F.length = pos.length ∧
      ∀ j (hj : j < pos.length), ∃ (e : ℝ → ℝ) (d : ℝ), (∀ r, surEnergy s scaling (pos.set j r) idx = .ok (e r)) ∧ HasDerivAt e d pos[j] ∧
        |F.getD j 0 + d| ≤ C * fs ^ 2 := by
  obtain ⟨t, ht, htl, hk⟩ := pick_ok pos idx hb
  have hline : ∀ k : Fin N, ContDiff ℝ 3 fun r => E (Function.update (toVec N t) k r) := by
    intro k
    exact hE.comp (contDiff_update 3 _ k)
  choose C hC0 hC using fun k : Fin N => central _ (hline k) (toVec N t k)
  refine ⟨∑ k, C k, fun fs h0 h1 => ?_⟩
  have hok : ∃ F, surForces s fs pos idx = .ok F := by
    obtain ⟨y, hy⟩ := writeBack_ok (List.replicate pos.length (0 : ℝ)) idx ((List.range idx.length).map fun (i : ℕ) => surGrad s fs t i)
      (by simp) (by simpa using hb)
    exact ⟨y.map fun x => -x, by simp [surForces, ht, hy, bind, Except.bind, pure, Except.pure]⟩
  obtain ⟨F, hF⟩ := hok
  obtain ⟨f1, f2, t', ht', f3⟩ := C53_forces s fs pos F idx hF
  have ett : t' = t := by
    simp only [applyMask, List.mapM_cons, List.mapM_nil, bind, Except.bind, pure, Except.pure, ht] at ht'
    simpa using ht'.symm
  subst ett
  refine ⟨F, hF, f1, fun j hj => ?_⟩
  by_cases hji : j ∈ idx
  · obtain ⟨k, hk', rfl⟩ := List.mem_iff_getElem.mp hji
    have hset : ∀ v, pick (pos.set idx[k] v) idx = .ok (t'.set k v) := by
      intro v
      refine pick_eq _ idx _ (fun i hi => by simpa using hb i hi) (by simpa using htl) ?_
      intro j hj
      by_cases e : k = j
      · subst e
        rw [List.getElem?_set_self (by omega), List.getElem?_set_self (hb _ hji)]
      · have : idx[k] ≠ idx[j] := fun e' => e ((List.Nodup.getElem_inj_iff hn).mp e')
        rw [List.getElem?_set_ne e, List.getElem?_set_ne this, hk j hj]
    set κ : Fin N := ⟨k, by omega⟩ with hκ
    have hx : toVec N t' κ = pos[idx[k]] := by
      show t'.getD k 0 = _
      rw [List.getD_eq_getElem?_getD, hk k hk', List.getElem?_eq_getElem (hb _ hji)]
      rfl
    have hset' : ∀ r, toVec N (t'.set k r) = Function.update (toVec N t') κ r := fun r => toVec_set N t' κ (by show k < _; omega) r
    refine ⟨fun r => E (Function.update (toVec N t') κ r) + scaling, deriv (fun r => E (Function.update (toVec N t') κ r)) (toVec N t' κ), ?_, ?_, ?_⟩
    · intro r
      simp [surEnergy, hset, hs, hset', bind, Except.bind, pure, Except.pure]
    · rw [← hx]
      exact (((hline κ).differentiable (by norm_num)) _).hasDerivAt.add_const _
    · have h4 := f3 hn k hk'
      have h5 := hC κ fs h0 h1
      rw [List.getD_eq_getElem?_getD, h4, Option.getD_some]
      simp only [hs, hset']
      have hg : t'.getD k 0 = toVec N t' κ := rfl
      rw [hg]
      calc |-((E (Function.update (toVec N t') κ (toVec N t' κ + fs)) - E (Function.update (toVec N t') κ (toVec N t' κ - fs))) / (2 * fs)) +
            deriv (fun r => E (Function.update (toVec N t') κ r)) (toVec N t' κ)|
          = |(E (Function.update (toVec N t') κ (toVec N t' κ + fs)) - E (Function.update (toVec N t') κ (toVec N t' κ - fs))) / (2 * fs) -
            deriv (fun r => E (Function.update (toVec N t') κ r)) (toVec N t' κ)| := by rw [← abs_neg]; congr 1; ring
        _ ≤ C κ * fs ^ 2 := h5
        _ ≤ (∑ k, C k) * fs ^ 2 := by
          refine mul_le_mul_of_nonneg_right ?_ (by positivity)
          exact Finset.single_le_sum (f := C) (fun i _ => hC0 i) (Finset.mem_univ κ)
  · refine ⟨fun _ => E (toVec N t') + scaling, 0, fun r => ?_, hasDerivAt_const _ _, ?_⟩
    · have : pick (pos.set j r) idx = .ok t' := by
        refine pick_eq _ idx _ (fun i hi => by simpa using hb i hi) htl ?_
        intro k hk'
        have : j ≠ idx[k] := fun e => hji (e ▸ List.getElem_mem hk')
        rw [List.getElem?_set_ne this, hk k hk']
      simp [surEnergy, this, hs, bind, Except.bind, pure, Except.pure]
    · rw [List.getD_eq_getElem?_getD, f2 j hji hj]
      simp only [Option.getD_some, add_zero, abs_zero]
      exact mul_nonneg (Finset.sum_nonneg fun k _ => hC0 k) (by positivity)

/-- C271, `MLMin`: the forces that the surrogate calculator reports, with a trained Gaussian process, are minus the derivatives of the energy that it reports, up to a term of second
order in the step `fs` of the differences; coordinates that the constraints remove have no force, and the energy does not depend on them. -/
theorem C271_mlmin {N : ℕ} (mask : List ℕ) (kern : State → List (GDict N)) (st : State) (s : Masks.Surrogate) (h : gpFit mask kern st = .ok s) (scaling : ℝ)
    (pos : List ℝ) (hn : mask.Nodup) (hb : ∀ i ∈ mask, i < pos.length) (hN : mask.length = N) :
    ∃ C, ∀ fs, 0 < fs → fs ≤ 1 → ∃ F, surForces s fs pos mask = .ok F ∧ F.length = pos.length ∧
      ∀ j (hj : j < pos.length), ∃ (e : ℝ → ℝ) (d : ℝ), (∀ r, surEnergy s scaling (pos.set j r) mask = .ok (e r)) ∧ HasDerivAt e d pos[j] ∧
        |F.getD j 0 + d| ≤ C * fs ^ 2 := by
  unfold gpFit at h
  split at h
  · cases h
  split at h
  · cases h
  split at h
  · cases h
  split at h
  · cases h
  rename_i gp hgp
  cases h
  unfold GradProc.init GradProc.update at hgp
  split at hgp
  · cases hgp
  split at hgp
  · cases hgp
  simp only [Bool.false_eq_true, if_false] at hgp
  obtain ⟨E, hE, hp⟩ := predict_smooth _ gp true rfl rfl ((finish_ok hgp).2.2.2.1 rfl).2 hgp
  refine forces_smooth E hE _ (fun u => ?_) scaling pos mask hn hb hN
  simp [hp, number]

/-- C271, `MLNEB`: the same for the images of a path. -/
theorem C271_mlneb {M N : ℕ} (minimizer : GradGP N → CatLearn.Surrogate.Hyper N) (mask : Fin N → Fin M) (dist : ℝ) (x : List (Fin M → ℝ)) (t : List ℝ) (g : List (Fin M → ℝ))
    (r : GradGP N × ℝ) (h : CatLearn.Surrogate.trainGP minimizer mask dist x t g = .ok r) (s : Masks.Surrogate) (hs : ∀ u, s.energy u = number (predict r.1 (toVec N u)))
    (pos : List ℝ) (idx : List ℕ) (hn : idx.Nodup) (hb : ∀ i ∈ idx, i < pos.length) (hN : idx.length = N) :
    ∃ C, ∀ fs, 0 < fs → fs ≤ 1 → ∃ F, surForces s fs pos idx = .ok F ∧ F.length = pos.length ∧
      ∀ j (hj : j < pos.length), ∃ (e : ℝ → ℝ) (d : ℝ), (∀ q, surEnergy s r.2 (pos.set j q) idx = .ok (e q)) ∧ HasDerivAt e d pos[j] ∧
        |F.getD j 0 + d| ≤ C * fs ^ 2 := by
  unfold CatLearn.Surrogate.trainGP at h
  split at h
  · cases h
  simp only at h
  split at h
  · cases h
  split at h
  · cases h
  split at h
  · cases h
  rename_i gp hgp
  split at h
  · cases h
  rename_i gp' hgp'
  cases h
  unfold GradProc.init GradProc.update at hgp
  split at hgp
  · cases hgp
  split at hgp
  · cases hgp
  simp only [Bool.false_eq_true, if_false] at hgp
  have hfacts : gp.scaleData = false ∧ gp.nan = false ∧ gp.target.length = gp.fp.length + gp.fp.length * N := by
    obtain ⟨-, -, rfl, hl, -⟩ := finish_ok hgp
    exact ⟨rfl, rfl, (hl rfl).2⟩
  clear hgp
  obtain ⟨E, hE, hp⟩ := predict_smooth _ gp' false (by exact hfacts.1) (by exact hfacts.2.1) (by exact hfacts.2.2) hgp'
  refine forces_smooth E hE s (fun u => ?_) _ pos idx hn hb hN
  rw [hs, hp]
  rfl

/-- Two atoms of which one is free: the surrogate can be trained, and the theorem speaks about its forces. -/
example : ∃ (r : GradGP 3 × ℝ), CatLearn.Surrogate.trainGP (M := 6) (fun _ => ⟨fun _ => 1, 1 / 1000, 1 / 1000⟩) (Fin.castLE (by decide)) 2
    [![0, 0, 0, 1, 1, 1], ![1, 0, 0, 1, 1, 1]] [0, 1] [![0, 0, 0, 0, 0, 0], ![1, 2, 0, 0, 0, 0]] = .ok r ∧ [0, 1, 2].Nodup ∧ [0, 1, 2].length = 3 := by
  obtain ⟨r, _, _, hr, -⟩ := CatLearn.Surrogate.C212_far (M := 6) (N := 3) (fun _ => ⟨fun _ => 1, 1 / 1000, 1 / 1000⟩)
    (fun _ => ⟨fun _ => one_pos, by norm_num, by norm_num⟩) (Fin.castLE (by decide)) 2 (by norm_num)
    [![0, 0, 0, 1, 1, 1], ![1, 0, 0, 1, 1, 1]] [0, 1] [![0, 0, 0, 0, 0, 0], ![1, 2, 0, 0, 0, 0]] (by simp) rfl rfl
  exact ⟨r, hr, by decide, rfl⟩

end CatLearn.MLMin
