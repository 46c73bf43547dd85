import Verif.Props.GPLikelihood
import Verif.Props.Errors

/-!
# Optimising the hyperparameters and the likelihood of a model (C272)
-/

namespace CatLearn.Kernel

open CatLearn

private theorem item_extra (θ e : List ℝ) (i : Nat) (h : i < θ.length) : item (θ ++ e) i = item θ i := by
  simp [item, List.getElem?_append_left h]

private theorem slice_extra (θ e : List ℝ) (i n : Nat) (h : i + n ≤ θ.length) :
    slice (θ ++ e) i n = slice θ i n := by
  unfold slice
  rw [List.drop_append_of_le_length (by omega), List.take_append_of_le_length (by simp; omega)]

private theorem setKernel_extra {N : Nat} (θ e : List ℝ) (ki : Nat) (k : KDict N)
    (h : ki + (vals k).length ≤ θ.length) : setKernel (θ ++ e) ki k = setKernel θ ki k := by
  obtain ⟨kt, fe, sc, mu⟩ := k
  cases sc with
  | none =>
    cases kt <;> simp [vals] at h <;>
      simp only [setKernel, bind, Except.bind, pure, Except.pure]
    · rw [slice_extra _ _ _ _ (by omega)]
    · rw [slice_extra _ _ _ _ (by omega)]
    · rw [slice_extra _ _ _ _ (by omega)]
    · rw [slice_extra _ _ _ _ (by omega), item_extra _ _ _ (by omega)]
    · rw [item_extra _ _ _ (by omega)]
    · rw [slice_extra _ _ _ _ (by omega)]
  | some s =>
    have h0 : ki < θ.length := by simp [vals] at h; omega
    cases kt <;> simp [vals] at h <;>
      simp only [setKernel, bind, Except.bind, pure, Except.pure, item_extra _ _ _ h0] <;>
      (obtain ⟨v, hv⟩ : ∃ v, item θ ki = .ok v := ⟨θ[ki], by simp [item, h0]⟩) <;> simp only [hv]
    · rw [slice_extra _ _ _ _ (by omega)]
    · rw [slice_extra _ _ _ _ (by omega)]
    · rw [slice_extra _ _ _ _ (by omega)]
    · rw [slice_extra _ _ _ _ (by omega), item_extra _ _ _ (by omega)]
    · rw [item_extra _ _ _ (by omega)]
    · rw [slice_extra _ _ _ _ (by omega)]

private theorem setKernel_next {N : Nat} (θ : List ℝ) (ki : Nat) (k k' : KDict N) (ki' : Nat)
    (h : setKernel θ ki k = .ok (k', ki')) : ki' ≤ ki + (vals k).length := by
  obtain ⟨kt, fe, sc, mu⟩ := k
  cases sc with
  | none =>
    cases kt <;> simp only [setKernel, bind, Except.bind, pure, Except.pure] at h <;> (try split at h) <;>
      simp at h <;> (obtain ⟨-, rfl⟩ := h) <;> simp [vals]
  | some s =>
    cases hi : item θ ki with
    | error er => simp [setKernel, bind, Except.bind, hi] at h
    | ok v =>
      cases kt <;> simp only [setKernel, bind, Except.bind, pure, Except.pure, hi] at h <;> (try split at h) <;>
        simp at h <;> (obtain ⟨-, rfl⟩ := h) <;> simp [vals] <;> omega

private theorem list2kdictFrom_extra {N : Nat} (θ e : List ℝ) (ks : List (KDict N)) (ki : Nat)
    (h : ki + (ks.flatMap vals).length ≤ θ.length) : list2kdictFrom (θ ++ e) ki ks = list2kdictFrom θ ki ks := by
  induction ks generalizing ki with
  | nil => rfl
  | cons k ks ih =>
    rw [List.flatMap_cons, List.length_append] at h
    unfold list2kdictFrom
    rw [setKernel_extra θ e ki k (by omega)]
    cases hs : setKernel θ ki k with
    | error er => rfl
    | ok p =>
      obtain ⟨k', ki'⟩ := p
      have := setKernel_next θ ki k k' ki' hs
      simp only [bind, Except.bind]
      rw [ih ki' (by omega)]

/-- Numbers after those of the kernels are not read. -/
theorem list2kdict_extra {N : Nat} (θ e : List ℝ) (ks : List (KDict N)) (h : (ks.flatMap vals).length ≤ θ.length) :
    list2kdict (θ ++ e) ks = list2kdict θ ks :=
  list2kdictFrom_extra θ e ks 0 (by omega)

/-- The list of hyperparameters has all numbers of the kernels. -/
theorem kdicts2list_vals {N : Nat} (ks : List (KDict N)) (θ : List ℝ) (h : kdicts2list ks = .ok θ) :
    ks ≠ [] ∧ θ = ks.flatMap vals := by
  unfold kdicts2list at h
  split at h
  · simp at h
  · next hne =>
    refine ⟨by simpa using hne, ?_⟩
    have key : ∀ (ks : List (KDict N)) (ls : List (List ℝ)), ks.mapM kdict2list = .ok ls →
        ls.flatten = ks.flatMap vals := by
      intro ks
      induction ks with
      | nil => intro ls h; simp [pure, Except.pure] at h; subst h; rfl
      | cons k ks ih =>
        intro ls h
        simp only [List.mapM_cons, bind, Except.bind, pure, Except.pure] at h
        cases h1 : kdict2list k with
        | error er => simp [h1] at h
        | ok a =>
          cases h2 : ks.mapM kdict2list with
          | error er => simp [h1, h2] at h
          | ok l =>
            simp [h1, h2] at h
            subst h
            have : a = vals k := by
              obtain ⟨kt, fe, sc, mu⟩ := k
              cases kt <;> simp [kdict2list, vals] at h1 ⊢ <;> (try split at h1) <;> simp_all
            simp [ih l h2, this]
    cases hm : ks.mapM kdict2list with
    | error er => simp [hm, bind, Except.bind] at h
    | ok ls =>
      simp [hm, bind, Except.bind, pure, Except.pure] at h
      rw [← h]
      exact key ks ls hm

theorem list2kdict_length {N : Nat} (θ : List ℝ) (ks ks' : List (KDict N)) (h : list2kdict θ ks = .ok ks') :
    ks'.length = ks.length := by
  unfold list2kdict at h
  generalize 0 = ki at h
  induction ks generalizing ki ks' with
  | nil => simp [list2kdictFrom] at h; subst h; rfl
  | cons k ks ih =>
    unfold list2kdictFrom at h
    simp only [bind, Except.bind, pure, Except.pure] at h
    split at h
    · simp at h
    · next p hp =>
      split at h
      · simp at h
      · next l hl =>
        simp at h
        subst h
        simp [ih l p.2 hl]

end CatLearn.Kernel

namespace CatLearn.Proc

open CatLearn CatLearn.Kernel CatLearn.Scaling CatLearn.PSD Matrix

/-- What is asked of a minimiser of the function `loss`: started where the function can be computed it ends at as many
hyperparameters where it can be computed, reports its value there, and that is not above the first one. -/
def Descends (loss : List ℝ → Except PyErr ℝ) (m : List ℝ → List ℝ × ℝ) : Prop :=
  ∀ θ v, loss θ = .ok v →
    (m θ).1.length = θ.length ∧ (m θ).2 ≤ v ∧ loss (m θ).1 = .ok (m θ).2

/-- The optimisation of a model whose covariance is positive definite. -/
private theorem optimize_core {N : Nat} (gp : GP N) (hp : PacksList gp.kernels) (r : ℝ) (hr : gp.reg = some r)
    (hlen : gp.target.length = gp.fp.length) (θ : List ℝ) (h1 : kdicts2list gp.kernels = .ok θ)
    (hpd : (gram gp.kernels gp.log (some r) gp.fp).PosDef)
    (m : List ℝ → List ℝ × ℝ) (hm : Descends (fun θ => lossValue θ gp.fp gp.target gp.kernels gp.log) m) :
    ∃ gp' l' r', optimize m gp = .ok gp' ∧ gp'.reg = some r' ∧ gp'.fp = gp.fp ∧ gp'.target = gp.target ∧
      gp'.log = gp.log ∧ gp'.scaling = gp.scaling ∧ gp'.lml = some l' ∧
      Real.log (normalDensity (covSelf gp.kernels gp.log (some r) gp.fp.get) fun i => gp.target.getD i 0) ≤ l' ∧
      l' = Real.log (normalDensity (covSelf gp'.kernels gp.log (some r') gp.fp.get) fun i => gp.target.getD i 0) ∧
      gp'.cinv = ⟨gp.fp.length, (covSelf gp'.kernels gp.log (some r') gp.fp.get)⁻¹⟩ := by
  obtain ⟨hks, hθ⟩ := kdicts2list_vals gp.kernels θ h1
  have hv : lossValue (θ ++ [r]) gp.fp gp.target gp.kernels gp.log =
      .ok (-(Real.log (normalDensity (covSelf gp.kernels gp.log (some r) gp.fp.get) fun i => gp.target.getD i 0))) := by
    rw [lossValue_of (C45_kernel_round_trip_partial gp.kernels hp θ h1 [r]) hpd hlen,
      lmlValue_eq _ _ hpd.det_pos]
    rfl
  obtain ⟨hml, hmle, hmv⟩ := hm _ _ hv
  obtain ⟨θ', r', hx⟩ : ∃ θ' r', (m (θ ++ [r])).1 = θ' ++ [r'] := by
    rcases List.eq_nil_or_concat (m (θ ++ [r])).1 with he | ⟨a, b, he⟩
    · rw [he] at hml
      simp at hml
    · exact ⟨a, b, by simpa using he⟩
  rw [hx] at hmv
  obtain ⟨ks', j1, j2, j3, j4⟩ := lossValue_ok hmv
  have hl' : θ'.length = θ.length := by rw [hx] at hml; simpa using hml
  have j1' : list2kdict θ' gp.kernels = .ok ks' := by
    rw [← j1, list2kdict_extra θ' [r'] gp.kernels (by rw [hl', hθ])]
  have hks' : ks' ≠ [] := by
    intro he
    have := list2kdict_length _ _ _ j1'
    rw [he] at this
    exact hks (List.length_eq_zero_iff.1 this.symm)
  have hinv : invGram ks' gp.log (some r') gp.fp = .ok ⟨gp.fp.length, (gram ks' gp.log (some r') gp.fp)⁻¹⟩ := by
    unfold invGram invert
    rw [if_neg (by simpa using hks'), if_pos (isUnit_iff_ne_zero.2 j2.det_pos.ne')]
  refine ⟨{ gp with kernels := ks', reg := some r', lml := some (-((m (θ ++ [r])).2)), cinv := ⟨gp.fp.length, (gram ks' gp.log (some r') gp.fp)⁻¹⟩ },
    _, r', ?_, rfl, rfl, rfl, rfl, rfl, rfl, ?_, ?_, rfl⟩
  · unfold optimize
    rw [h1, hr]
    simp [bind, Except.bind, pure, Except.pure, hx, j1', hinv]
  · have := neg_le_neg hmle
    rw [neg_neg] at this
    exact this
  · rw [j4, neg_neg]
    exact lmlValue_eq _ _ j2.det_pos

/-- The covariance of a model that could be built is positive definite. -/
private theorem init_posDef {N : Nat} {fp : List (Fin N → ℝ)} {t : List ℝ} {ks : List (KDict N)} (hp : PacksList ks)
    {r : ℝ} {log sd : Bool} {gp : GP N} (h : init fp t ks (some r) log sd = .ok gp) :
    ∃ θ, kdicts2list gp.kernels = .ok θ ∧ (gram gp.kernels gp.log (some r) gp.fp).PosDef := by
  unfold init at h
  by_cases hl : fp.length = t.length
  · simp [hl, bind, Except.bind, pure, Except.pure] at h
    obtain ⟨st, ci, g1, g2, g3, g4⟩ := updateData_ok h
    obtain ⟨θ, ks', k1, k2, k3, k4, k5⟩ := updateLml_ok g4
    have hr := C45_kernel_round_trip_partial ks hp θ k1 [r]
    have k2 : list2kdict (θ ++ [r]) ks = .ok ks' := k2
    rw [hr] at k2
    simp at k2
    subst k2
    subst k5
    exact ⟨θ, k1, k3⟩
  · simp [hl, bind, Except.bind, throw, throwThe, MonadExceptOf.throw] at h

/-- C272: after optimising the likelihood the model reports the logarithm of the density of its targets under the
prior of its new kernels and regularisation, which is not below the one before; data and options stay, and the model
can predict with the new covariance. -/
theorem C272_likelihood_partial {N : Nat} (fp : List (Fin N → ℝ)) (t : List ℝ) (ks : List (KDict N))
    (hp : PacksList ks) (r : ℝ) (log : Bool) (gp : GP N) (h : init fp t ks (some r) log false = .ok gp)
    (m : List ℝ → List ℝ × ℝ) (hm : Descends (fun θ => lossValue θ gp.fp gp.target gp.kernels gp.log) m) :
    ∃ gp' l l' r', optimize m gp = .ok gp' ∧ gp'.reg = some r' ∧ gp'.fp = fp ∧ gp'.target = t ∧ gp'.log = log ∧
      gp.lml = some l ∧ gp'.lml = some l' ∧ l ≤ l' ∧
      l' = Real.log (normalDensity (covSelf gp'.kernels log (some r') fp.get) fun i => t.getD i 0) ∧
      gp'.cinv = ⟨fp.length, (covSelf gp'.kernels log (some r') fp.get)⁻¹⟩ := by
  have hl := C114_density fp t ks hp (some r) log gp h
  obtain ⟨θ, h1, hpd⟩ := init_posDef hp h
  obtain ⟨⟨hu, hci, htl, -⟩, ⟨hst, hlen, hne⟩, hk, hr, hlog, hsd⟩ := C43_init_partial fp t ks hp (some r) log false gp h
  obtain ⟨hfp, ht⟩ : gp.fp = fp ∧ gp.target = t := by
    simp [store, hsd] at hst
    exact ⟨hst.1.symm, hst.2.1.symm⟩
  obtain ⟨gp', l', r', a1, a2, a3, a4, a5, -, a7, a8, a9, a10⟩ :=
    optimize_core gp (by rw [hk]; exact hp) r hr htl θ h1 hpd m hm
  subst hk hlog hfp ht
  exact ⟨gp', _, l', r', a1, a2, a3, a4, a5, hl, a7, a8, a9, a10⟩

/-- C272 with `scale_data=True`, for the standardised data that the model keeps; targets that are all equal have no
likelihood (C114_scaled). -/
theorem C272_scaled_partial {N : Nat} (fp : List (Fin N → ℝ)) (t : List ℝ) (ks : List (KDict N))
    (hp : PacksList ks) (r : ℝ) (log : Bool) (gp : GP N) (h : init fp t ks (some r) log true = .ok gp)
    (ht : tStd t.get ≠ 0) (m : List ℝ → List ℝ × ℝ)
    (hm : Descends (fun θ => lossValue θ gp.fp gp.target gp.kernels gp.log) m) :
    ∃ gp' l l' r', optimize m gp = .ok gp' ∧ gp'.reg = some r' ∧ gp'.log = log ∧ gp'.scaling = gp.scaling ∧
      gp'.fp = fp.map (fun x a => (x a - colMean fp.get a) / placeOnes (colStd fp.get) a) ∧
      gp'.target = t.map (fun y => (y - tMean t.get) / tStd t.get) ∧
      gp.lml = some l ∧ gp'.lml = some l' ∧ l ≤ l' ∧
      l' = Real.log (normalDensity (covSelf gp'.kernels log (some r')
        (fp.map fun x a => (x a - colMean fp.get a) / placeOnes (colStd fp.get) a).get)
        fun i => (t.map fun y => (y - tMean t.get) / tStd t.get).getD i 0) := by
  have hl := (C114_scaled fp t ks hp (some r) log gp h).1 ht
  obtain ⟨θ, h1, hpd⟩ := init_posDef hp h
  obtain ⟨⟨hu, hci, htl, -⟩, ⟨hst, hlen, hne⟩, hk, hr, hlog, hsd⟩ := C43_init_partial fp t ks hp (some r) log true gp h
  obtain ⟨hfp, htt⟩ : gp.fp = fp.map (fun x a => (x a - colMean fp.get a) / placeOnes (colStd fp.get) a) ∧
      gp.target = t.map (fun y => (y - tMean t.get) / tStd t.get) := by
    simp [store, hsd] at hst
    exact ⟨hst.1.symm, hst.2.1.symm⟩
  obtain ⟨gp', l', r', a1, a2, a3, a4, a5, a6, a7, a8, a9, a10⟩ :=
    optimize_core gp (by rw [hk]; exact hp) r hr htl θ h1 hpd m hm
  rw [← hfp, ← htt] at hl ⊢
  subst hk hlog
  exact ⟨gp', _, l', r', a1, a2, a5, a6, a3, a4, hl, a7, a8, a9⟩

private theorem cost_of {N : Nat} (fp : List (Fin N → ℝ)) (t : List ℝ) (ks : List (KDict N)) (hp : PacksList ks)
    (θ : List ℝ) (h1 : kdicts2list ks = .ok θ) (r : ℝ) (log rmse : Bool)
    (hu : IsUnit (gram ks log (some r) fp).det) (hl : fp.length = t.length) :
    ∃ v, Err.costFunction (θ ++ [r]) fp t ks log rmse = .ok v := by
  have hks := (kdicts2list_vals ks θ h1).1
  have hinv : invGram ks log (some r) fp = .ok ⟨fp.length, (gram ks log (some r) fp)⁻¹⟩ := by
    unfold invGram invert
    rw [if_neg (by simpa using hks), if_pos hu]
  unfold Err.costFunction
  simp [C45_kernel_round_trip_partial ks hp θ h1 [r], bind, Except.bind, pure, Except.pure, hinv, hl, Err.getError]

/-- C272 fails for the other losses 'rmse' and 'absolute': whatever the data, the kernels and the minimiser, the
log marginal likelihood reported after the optimisation is zero. -/
theorem C272_reported_violated {N : Nat} (fp : List (Fin N → ℝ)) (t : List ℝ) (ks : List (KDict N)) (hp : PacksList ks)
    (r : ℝ) (log rmse : Bool) (gp gp' : GP N) (h : init fp t ks (some r) log false = .ok gp)
    (m : List ℝ → List ℝ × ℝ) (hm : Descends (fun θ => Err.costFunction θ gp.fp gp.target gp.kernels gp.log rmse) m)
    (ho : optimize m gp = .ok gp') : gp'.lml = some 0 := by
  obtain ⟨⟨hu, hci, htl, -⟩, -, hk, hr, hlog, hsd⟩ := C43_init_partial fp t ks hp (some r) log false gp h
  obtain ⟨θ, r0, ks', r', ci, o1, o2, o3, o4, o5, o6⟩ := optimize_ok ho
  rw [hr] at o2 hu
  simp at o2
  subst o2
  obtain ⟨v, hv⟩ := cost_of gp.fp gp.target gp.kernels (by rw [hk]; exact hp) θ o1 r gp.log rmse hu htl.symm
  have := Err.C49_zero_violated _ _ _ _ _ _ _ (hm _ _ hv).2.2
  rw [o6]
  simp [this]

/-- C272 fails: the likelihood reported after an optimisation with the loss 'rmse' or 'absolute' is not that of the
model. -/
theorem C272_wrong_likelihood_violated (rmse : Bool) : ∃ (gp gp' : GP 1) (m : List ℝ → List ℝ × ℝ),
    init [![(0:ℝ)]] [0] linK (some 1) false false = .ok gp ∧
    Descends (fun θ => Err.costFunction θ gp.fp gp.target gp.kernels gp.log rmse) m ∧ optimize m gp = .ok gp' ∧
    gp'.kernels = linK ∧ gp'.reg = some 1 ∧ gp'.fp = [![(0:ℝ)]] ∧ gp'.target = [0] ∧ gp'.lml = some 0 ∧
    Real.log (normalDensity (covSelf linK false (some 1) ([![(0:ℝ)]] : List (Fin 1 → ℝ)).get) fun _ => 0) < 0 := by
  obtain ⟨gp, h⟩ := C113_can_build [![(0:ℝ)]] [0] linK 1 false false (by simp) rfl (by simp [linK]) linK_packs
    linK_good (Or.inr one_ne_zero)
  obtain ⟨⟨hu, hci, htl, -⟩, ⟨hst, hlen, hne⟩, hk, hr, hlog, hsd⟩ := C43_init_partial _ _ linK linK_packs (some 1) false false gp h
  have hfp : gp.fp = [![(0:ℝ)]] ∧ gp.target = [0] := by
    simp [store, hsd] at hst
    exact ⟨hst.1.symm, hst.2.1.symm⟩
  obtain ⟨hfp, ht⟩ := hfp
  have hm : Descends (fun θ => Err.costFunction θ gp.fp gp.target gp.kernels gp.log rmse) fun θ => (θ, 0) := by
    intro θ v hv
    have h0 := Err.C49_zero_violated _ _ _ _ _ _ _ hv
    subst h0
    exact ⟨rfl, le_refl _, hv⟩
  have hinv : invGram linK false (some 1) [![(0:ℝ)]] = .ok ⟨1, (gram linK false (some 1) [![(0:ℝ)]])⁻¹⟩ := by
    rw [hk, hr, hlog, hfp] at hu
    unfold invGram invert
    rw [if_neg (by simp [linK]), if_pos hu]
    rfl
  have ho : optimize (fun θ => (θ, 0)) gp = .ok { gp with kernels := linK, reg := some 1, lml := some (-0), cinv := ⟨1, (gram linK false (some 1) [![(0:ℝ)]])⁻¹⟩ } := by
    have e1 : kdicts2list linK = .ok [] := rfl
    have e2 : list2kdict [] linK = .ok linK := rfl
    unfold optimize
    rw [hk, e1, hr]
    simp [bind, Except.bind, pure, Except.pure, e2, hlog, hfp, hinv]
  refine ⟨gp, _, _, h, hm, ho, rfl, rfl, hfp, ht, by simp, ?_⟩
  have hd : (covSelf linK false (some 1) ([![(0:ℝ)]] : List (Fin 1 → ℝ)).get).det = 1 := by
    have : covSelf linK false (some 1) ([![(0:ℝ)]] : List (Fin 1 → ℝ)).get = 1 := by
      ext i j
      have hi : i = 0 := Subsingleton.elim (α := Fin 1) _ _
      have hj : j = 0 := Subsingleton.elim (α := Fin 1) _ _
      subst hi hj
      simp [covSelf, covEntry, linK, unlog]
      right
      simp [entry, columns, pick, colSum, List.finRange]
    rw [this]
    exact det_one
  rw [← lmlValue_eq _ _ (by rw [hd]; norm_num)]
  have hz : (fun _ : Fin ([![(0:ℝ)]] : List (Fin 1 → ℝ)).length => (0:ℝ)) = 0 := rfl
  have hpi : 0 < Real.log (2 * Real.pi) := Real.log_pos (by have := Real.pi_gt_three; linarith)
  simp only [lmlValue, hd, hz, zero_dotProduct, Real.log_one, List.length_singleton]
  norm_num
  linarith

/-- A minimiser that goes to the best of the points it knows, here of two. -/
example (sd : Bool) : ∃ (gp : GP 1) (m : List ℝ → List ℝ × ℝ), init [![(0:ℝ)], ![2]] [0, 2] linK (some 1) false sd = .ok gp ∧
    Descends (fun θ => lossValue θ gp.fp gp.target gp.kernels gp.log) m := by
  obtain ⟨gp, h⟩ := C113_can_build [![(0:ℝ)], ![2]] [0, 2] linK 1 false sd (by simp) rfl (by simp [linK]) linK_packs
    linK_good (Or.inr one_ne_zero)
  classical
  refine ⟨gp, fun θ => match lossValue θ gp.fp gp.target gp.kernels gp.log with
    | .error _ => (θ, 0)
    | .ok v => match lossValue (θ.map (2 * ·)) gp.fp gp.target gp.kernels gp.log with
      | .error _ => (θ, v)
      | .ok v' => if v' ≤ v then (θ.map (2 * ·), v') else (θ, v), h, ?_⟩
  intro θ v hv
  simp only at hv
  simp only [hv]
  cases h2 : lossValue (θ.map (2 * ·)) gp.fp gp.target gp.kernels gp.log with
  | error e => exact ⟨rfl, le_refl _, hv⟩
  | ok v' =>
    simp only
    split
    · next hle => exact ⟨by simp, hle, h2⟩
    · exact ⟨rfl, le_refl _, hv⟩

end CatLearn.Proc
