import Verif.Props.GPUncertainty
import Verif.Props.KernelJac
import Verif.Lemmas.MatCalc

/-!
# The log marginal likelihood (C114) and its gradient (C124)
-/

namespace CatLearn.Proc

open CatLearn CatLearn.Kernel CatLearn.Scaling CatLearn.PSD CatLearn.MatCalc Matrix

/-- C114: the diagonal of a Cholesky factor gives half the logarithm of the determinant. -/
theorem C114_cholesky {n : Nat} (K L : Matrix (Fin n) (Fin n) ℝ) (hl : ∀ i j, i < j → L i j = 0)
    (hp : ∀ i, 0 < L i i) (h : L * Lᵀ = K) : ∑ i, Real.log (L i i) = 1 / 2 * Real.log K.det := by
  have hd : L.det = ∏ i, L i i := det_of_lowerTriangular L fun i j hij => hl i j hij
  have hpos : 0 < L.det := by rw [hd]; exact Finset.prod_pos fun i _ => hp i
  rw [← h, det_mul, det_transpose, Real.log_mul hpos.ne' hpos.ne', hd,
    Real.log_prod fun i _ => (hp i).ne']
  ring

example : ∀ i, (0 : ℝ) < (!![2, 0; 1, 3] : Matrix (Fin 2) (Fin 2) ℝ) i i := by
  intro i; fin_cases i <;> simp

/-- The density of a centred normal distribution with covariance `K`. -/
noncomputable def normalDensity {n : Nat} (K : Matrix (Fin n) (Fin n) ℝ) (y : Fin n → ℝ) : ℝ :=
  (Real.sqrt ((2 * Real.pi) ^ n * K.det))⁻¹ * Real.exp (-(1 / 2) * (y ⬝ᵥ K⁻¹ *ᵥ y))

theorem lmlValue_eq {n : Nat} (K : Matrix (Fin n) (Fin n) ℝ) (y : Fin n → ℝ) (hd : 0 < K.det) :
    lmlValue K K⁻¹ y = Real.log (normalDensity K y) := by
  have h2 : 0 < (2 * Real.pi) ^ n := by positivity
  have h3 : 0 < (2 * Real.pi) ^ n * K.det := mul_pos h2 hd
  unfold lmlValue normalDensity
  rw [Real.log_mul (inv_ne_zero (Real.sqrt_ne_zero'.mpr h3)) (Real.exp_ne_zero _), Real.log_exp, Real.log_inv,
    Real.log_sqrt h3.le, Real.log_mul h2.ne' hd.ne', Real.log_pow]
  ring

private theorem lml_cast {n : Nat} (A K : Matrix (Fin n) (Fin n) ℝ) (ci : Σ n : Nat, Matrix (Fin n) (Fin n) ℝ)
    (h : ci = ⟨n, A⟩) (g : Nat → ℝ) : lmlValue K ci.2 (fun i => g i) = lmlValue K A fun i => g i := by
  subst h; rfl

/-- C114: the stored log marginal likelihood is the logarithm of the density of the training targets under the prior of
the model. -/
theorem C114_density {N : Nat} (fp : List (Fin N → ℝ)) (t : List ℝ) (ks : List (KDict N)) (hp : PacksList ks)
    (reg : Option ℝ) (log : Bool) (gp : GP N) (h : init fp t ks reg log false = .ok gp) :
    gp.lml = some (Real.log (normalDensity (covSelf ks log reg fp.get) fun i => t.getD i 0)) := by
  have hc := C43_init_partial fp t ks hp reg log false gp h
  unfold init at h
  by_cases hl : fp.length = t.length
  · simp [hl, bind, Except.bind, pure, Except.pure] at h
    obtain ⟨st, ci, h1, h2, h3, h4⟩ := updateData_ok h
    obtain ⟨hne, hu, hci⟩ := invGram_ok h3
    obtain ⟨θ, ks', k1, k2, k3, k4, k5⟩ := updateLml_ok h4
    have hr := C45_kernel_round_trip_partial ks hp θ k1 reg.toList
    have k2 : list2kdict (θ ++ reg.toList) ks = .ok ks' := k2
    rw [hr] at k2
    simp at k2
    subst k2
    simp [store, blank] at h2
    subst h2
    rw [k5]
    have e := lml_cast (gram ks log reg fp)⁻¹ (gram ks log reg fp) ci hci fun i => t.getD i 0
    have e2 := lmlValue_eq (gram ks log reg fp) (fun i => t.getD i 0) k3.det_pos
    simp only [Bool.false_eq_true, if_false, Option.some.injEq]
    exact e.trans e2
  · simp [hl, bind, Except.bind, throw, throwThe, MonadExceptOf.throw] at h

/-- C114 with `scale_data=True`: it is the density of the standardised targets under the prior at the standardised features; for targets without variation it is NaN. -/
theorem C114_scaled {N : Nat} (fp : List (Fin N → ℝ)) (t : List ℝ) (ks : List (KDict N)) (hp : PacksList ks)
    (reg : Option ℝ) (log : Bool) (gp : GP N) (h : init fp t ks reg log true = .ok gp) :
    (tStd t.get ≠ 0 → gp.lml = some (Real.log (normalDensity (covSelf ks log reg (fp.map fun x a => (x a - colMean fp.get a) / placeOnes (colStd fp.get) a).get)
      fun i => (t.map fun y => (y - tMean t.get) / tStd t.get).getD i 0))) ∧ (tStd t.get = 0 → gp.lml = none) := by
  unfold init at h
  by_cases hl : fp.length = t.length
  · simp [hl, bind, Except.bind, pure, Except.pure] at h
    obtain ⟨st, ci, h1, h2, h3, h4⟩ := updateData_ok h
    obtain ⟨hne, hu, hci⟩ := invGram_ok h3
    obtain ⟨θ, ks', k1, k2, k3, k4, k5⟩ := updateLml_ok h4
    have hr := C45_kernel_round_trip_partial ks hp θ k1 reg.toList
    have k2 : list2kdict (θ ++ reg.toList) ks = .ok ks' := k2
    rw [hr] at k2
    simp at k2
    subst k2
    simp [store, blank] at h2
    subst h2
    rw [k5]
    have e := lml_cast (gram ks log reg (fp.map (scalOf fp t).row))⁻¹ (gram ks log reg (fp.map (scalOf fp t).row)) ci hci fun i => (t.map (scalOf fp t).tgt).getD i 0
    have e2 := lmlValue_eq (gram ks log reg (fp.map (scalOf fp t).row)) (fun i => (t.map (scalOf fp t).tgt).getD i 0) k3.det_pos
    have hs : (scalOf fp t).tstd = tStd t.get := rfl
    constructor
    · intro h0
      simp only [hs, h0, decide_false, Bool.false_eq_true, if_false, Option.some.injEq]
      exact e.trans e2
    · intro h0
      simp only [hs, h0, decide_true, if_true]
  · simp [hl, bind, Except.bind, throw, throwThe, MonadExceptOf.throw] at h

example : ∃ gp : GP 1, init [![(0:ℝ)], ![2]] [0, 2] linK (some 1) false false = .ok gp :=
  C113_can_build [![(0:ℝ)], ![2]] [0, 2] linK 1 false false (by simp) rfl (by simp [linK]) linK_packs
    linK_good (Or.inr one_ne_zero)

example : (∃ gp : GP 1, init [![(0:ℝ)], ![2]] [0, 2] linK (some 1) false true = .ok gp) ∧ tStd ([0, 2] : List ℝ).get ≠ 0 := by
  refine ⟨C113_can_build [![(0:ℝ)], ![2]] [0, 2] linK 1 false true (by simp) rfl (by simp [linK]) linK_packs
    linK_good (Or.inr one_ne_zero), ?_⟩
  simp [tStd, colStd, colMean, Fin.sum_univ_succ]
  norm_num

/-- What the loss is when it can be computed. -/
theorem lossValue_ok {N : Nat} {θ : List ℝ} {r : ℝ} {fp : List (Fin N → ℝ)} {y : List ℝ} {ks : List (KDict N)}
    {log : Bool} {v : ℝ} (h : lossValue (θ ++ [r]) fp y ks log = .ok v) :
    ∃ ks', list2kdict (θ ++ [r]) ks = .ok ks' ∧ (gram ks' log (some r) fp).PosDef ∧ y.length = fp.length ∧
      v = -(lmlValue (gram ks' log (some r) fp) (gram ks' log (some r) fp)⁻¹ fun i => y.getD i 0) := by
  unfold lossValue at h
  cases h1 : list2kdict (θ ++ [r]) ks with
  | error e => simp [h1, bind, Except.bind] at h
  | ok ks' =>
    simp only [h1, bind, Except.bind, pure, Except.pure, throw, throwThe, MonadExceptOf.throw, List.getLast?_append,
      List.getLast?_singleton, Option.some_or] at h
    split at h
    · simp at h
    · next hpd =>
      split at h
      · simp at h
      · next hl =>
        simp at h
        exact ⟨ks', rfl, by simpa using hpd, by simpa using hl, h.symm⟩

theorem lossValue_of {N : Nat} {θ : List ℝ} {r : ℝ} {fp : List (Fin N → ℝ)} {y : List ℝ} {ks ks' : List (KDict N)}
    {log : Bool} (h1 : list2kdict (θ ++ [r]) ks = .ok ks') (h2 : (gram ks' log (some r) fp).PosDef)
    (h3 : y.length = fp.length) : lossValue (θ ++ [r]) fp y ks log =
      .ok (-(lmlValue (gram ks' log (some r) fp) (gram ks' log (some r) fp)⁻¹ fun i => y.getD i 0)) := by
  unfold lossValue
  simp [h1, h2, h3, bind, Except.bind, pure, Except.pure]

/-- The derivative of the likelihood along a path of covariances. -/
theorem hasDerivAt_lml {n : Nat} {K : ℝ → Matrix (Fin n) (Fin n) ℝ} {K' : Matrix (Fin n) (Fin n) ℝ} {t : ℝ}
    (h : ∀ i j, HasDerivAt (fun s => K s i j) (K' i j) t) (hd : (K t).det ≠ 0) (hs : (K t).IsSymm) (y : Fin n → ℝ) :
    HasDerivAt (fun s => -(lmlValue (K s) (K s)⁻¹ y))
      (-(1 / 2 * ∑ i, ∑ j, (Matrix.of (fun i j => ((K t)⁻¹ *ᵥ y) i * ((K t)⁻¹ *ᵥ y) j) - (K t)⁻¹) i j * K' i j)) t := by
  have h1 := (hasDerivAt_form_inv h hd y).const_mul (-(1 / 2) : ℝ)
  have h2 := (hasDerivAt_log_det h hd).const_mul (1 / 2 : ℝ)
  have h3 := ((h1.fun_sub h2).sub_const (n * Real.log (2 * Real.pi) / 2)).fun_neg
  refine h3.congr_deriv ?_
  have hsi : (K t)⁻¹ᵀ = (K t)⁻¹ := by rw [transpose_nonsing_inv, hs]
  have e1 : y ⬝ᵥ ((K t)⁻¹ * K' * (K t)⁻¹) *ᵥ y = ∑ i, ∑ j, ((K t)⁻¹ *ᵥ y) i * ((K t)⁻¹ *ᵥ y) j * K' i j := by
    rw [← mulVec_mulVec, ← mulVec_mulVec, dotProduct_mulVec, ← mulVec_transpose, hsi]
    generalize (K t)⁻¹ *ᵥ y = u
    simp only [dotProduct, mulVec, Finset.mul_sum]
    refine Finset.sum_congr rfl fun i _ => Finset.sum_congr rfl fun j _ => ?_
    ring
  have e2 : ((K t)⁻¹ * K').trace = ∑ i, ∑ j, (K t)⁻¹ i j * K' i j := by
    have : ∀ i j, (K t)⁻¹ i j = (K t)⁻¹ j i := fun i j => congrFun (congrFun hsi j) i
    simp only [trace, diag, Matrix.mul_apply]
    rw [Finset.sum_comm]
    refine Finset.sum_congr rfl fun i _ => Finset.sum_congr rfl fun j _ => ?_
    rw [this]
  rw [e1, e2]
  simp only [Matrix.sub_apply, of_apply, sub_mul, Finset.sum_sub_distrib]
  ring

/-- C124 (`_partial`: hyperparameters that are not on a log scale, kernels of which the derivatives are right – see C47 –
and not for the regularisation): the gradient given to the optimiser is the gradient of the loss. -/
theorem C124_gradient_partial {N : Nat} (fp : List (Fin N → ℝ)) (y : List ℝ) (ks : List (KDict N))
    (hk : ∀ k ∈ ks, JacOK k) (p : List ℝ) (hp : kdicts2list ks = .ok p) (θ : List ℝ) (hl : θ.length = p.length)
    (hpos : ∀ t ∈ θ, 0 < t) (r v : ℝ) (hv : lossValue (θ ++ [r]) fp y ks false = .ok v) :
    ∃ g, lossJac (θ ++ [r]) fp y ks false = .ok g ∧ g.length = θ.length + 1 ∧
      ∀ (l : Nat) (h1 : l < θ.length) (h2 : l < g.length) (f : ℝ → ℝ),
        (∀ᶠ t in nhds θ[l], lossValue (θ.set l t ++ [r]) fp y ks false = .ok (f t)) → HasDerivAt f g[l] θ[l] := by
  obtain ⟨ks', jac, j1, j2, j3, j4⟩ := C47_jacobian_partial fp.get ks hk p hp θ hl hpos r
  obtain ⟨ks'', l1, l2, l3, l4⟩ := lossValue_ok hv
  rw [j1] at l1
  simp at l1
  subst l1
  have hpk : PacksList ks := by
    have : ∀ l : List (KDict N), (∀ k ∈ l, JacOK k) → PacksList l := by
      intro l
      induction l with
      | nil => intro _; trivial
      | cons k l ih =>
        intro hm
        have hk0 := hm k (by simp)
        cases l with
        | nil =>
          intro s d b hkt
          simp [JacOK, hkt] at hk0
        | cons k2 l =>
          refine ⟨?_, ih fun k hk => hm k (by simp [hk])⟩
          cases hkt : k.ktype <;> simp [JacOK, hkt, Packs] at hk0 ⊢
    exact this ks hk
  have hf : ∀ l t, ∃ k', list2kdict (θ.set l t ++ [r]) ks = .ok k' := by
    intro l t
    obtain ⟨k', h, -⟩ := C45_list_round_trip_partial ks hpk p hp (θ.set l t) [r] (by simp [hl])
    exact ⟨k', h⟩
  refine ⟨jac.map fun D => -(1 / 2 * ∑ i, ∑ j, (Matrix.of (fun i j =>
      ((gram ks' false (some r) fp)⁻¹ *ᵥ fun i => y.getD i 0) i *
        ((gram ks' false (some r) fp)⁻¹ *ᵥ fun i => y.getD i 0) j) - (gram ks' false (some r) fp)⁻¹) i j * D i j), ?_, ?_, ?_⟩
  · unfold lossJac
    simp [j1, j2, l2, l3, bind, Except.bind, pure, Except.pure]
  · simp [j3]
  · intro l h1 h2 f hfv
    choose F hF using hf l
    have hlj : l < jac.length := by simpa using h2
    have hd : ∀ i j, HasDerivAt (fun s => gram (F s) false (some r) fp i j) (jac[l] i j) θ[l] :=
      fun i j => j4 l h1 hlj i j F hF
    have h0 : F θ[l] = ks' := by
      have := hF θ[l]
      rw [List.set_getElem_self, j1] at this
      exact (Except.ok.inj this).symm
    have hdet : (gram (F θ[l]) false (some r) fp).det ≠ 0 := by rw [h0]; exact l2.det_pos.ne'
    have key := hasDerivAt_lml (K := fun s => gram (F s) false (some r) fp) hd hdet (C41_symmetric _ _ _ _)
      fun i => y.getD i 0
    simp only [h0] at key
    simp only [List.getElem_map]
    refine key.congr_of_eventuallyEq ?_
    filter_upwards [hfv] with t ht
    obtain ⟨k', m1, m2, m3, m4⟩ := lossValue_ok ht
    rw [hF t] at m1
    have := Except.ok.inj m1
    subst this
    exact m4

/-- A constant kernel. -/
def constK (c : ℝ) : List (KDict 1) := [⟨.constant c, none, none, false⟩]

theorem constK_set (c d r : ℝ) : list2kdict ([d] ++ [r]) (constK c) = .ok (constK d) := by
  simp [constK, list2kdict, list2kdictFrom, setKernel, item, bind, Except.bind, pure, Except.pure]

theorem constK_entry (c : ℝ) (log : Bool) (x y : Fin 1 → ℝ) (b : Bool) :
    covEntry (constK c) log x y b = unlog log 1 * unlog log c := by
  simp [constK, covEntry, scaleFactor, entry]

example : (∀ k ∈ constK 2, JacOK k) ∧ kdicts2list (constK 2) = .ok [2] ∧
    (∀ᶠ t in nhds (3:ℝ), ∃ v, lossValue ([3].set 0 t ++ [1]) [![(0:ℝ)], ![1]] [5, 7] (constK 2) false = .ok v) := by
  refine ⟨by simp [constK, JacOK], rfl, ?_⟩
  filter_upwards [lt_mem_nhds (show (0:ℝ) < 3 by norm_num)] with t ht
  refine ⟨_, lossValue_of (constK_set 2 t 1) (C41_posDef (constK t) false ?_ 1 (Or.inr one_ne_zero) _).1 rfl⟩
  simp [constK, GoodKernel, ht.le]

/-- The loss of a constant kernel with one training point at which the target is zero. -/
theorem constK_loss (c d r : ℝ) (log : Bool) (h : 0 < unlog log 1 * unlog log d + unlog log r ^ 2) :
    lossValue ([d] ++ [r]) [![(0:ℝ)]] [0] (constK c) log =
      .ok (1 / 2 * Real.log (unlog log 1 * unlog log d + unlog log r ^ 2) + Real.log (2 * Real.pi) / 2) := by
  have hk : kOne (constK d) log r ![0] = unlog log 1 * unlog log d + unlog log r ^ 2 := by
    unfold kOne; rw [constK_entry]
  rw [lossValue_of (constK_set c d r) (gram_single_posDef _ _ _ _ (by rw [hk]; exact h)) rfl]
  have hy : (fun i : Fin [![(0:ℝ)]].length => [(0:ℝ)].getD i 0) = 0 := by
    funext i; fin_cases i; rfl
  unfold lmlValue
  rw [hy, gram_single_det, hk]
  simp
  ring

theorem constK_jac (c d r : ℝ) (log : Bool) (h : 0 < unlog log 1 * unlog log d + unlog log r ^ 2) :
    lossJac ([d] ++ [r]) [![(0:ℝ)]] [0] (constK c) log =
      .ok [1 / 2 * (unlog log 1 * unlog log d + unlog log r ^ 2)⁻¹, 1 / 2 * (unlog log 1 * unlog log d + unlog log r ^ 2)⁻¹] := by
  have hk : kOne (constK d) log r ![0] = unlog log 1 * unlog log d + unlog log r ^ 2 := by
    unfold kOne; rw [constK_entry]
  have hpd := gram_single_posDef (constK d) log r ![0] (by rw [hk]; exact h)
  have hj : dKdTheta ([d] ++ [r]) [![(0:ℝ)]].get (constK d) = .ok [Matrix.of fun _ _ => 1, 1] := by
    simp [dKdTheta, jacLoop, jacStep, constK, bind, Except.bind, pure, Except.pure]
  have hy : (fun i : Fin [![(0:ℝ)]].length => [(0:ℝ)].getD i 0) = 0 := by
    funext i; fin_cases i; rfl
  unfold lossJac
  simp only [constK_set, List.getLast?_append, List.getLast?_singleton, Option.some_or, hpd, hj, hy,
    gram_single_inv _ _ _ _ (by rw [hk]; exact h.ne'), hk, bind, Except.bind, pure, Except.pure, not_true_eq_false,
    if_false, List.length_singleton, ne_eq, mulVec_zero]
  simp [Matrix.one_apply, mulVec, dotProduct]

/-- C124 fails for the regularisation, of which the covariance contains the square: at regularisation 1 the derivative
of the loss is 1/2, the gradient given to the optimiser says 1/4. -/
theorem C124_regularisation_violated : ∃ (fp : List (Fin 1 → ℝ)) (y θ : List ℝ) (ks : List (KDict 1)) (f : ℝ → ℝ)
    (g : List ℝ), (∀ t, lossValue (θ ++ [t]) fp y ks false = .ok (f t)) ∧ HasDerivAt f (1 / 2) 1 ∧
      lossJac (θ ++ [1]) fp y ks false = .ok g ∧ g.getLast? = some (1 / 4) := by
  have hp : ∀ t : ℝ, 0 < 1 + t ^ 2 := fun t => by positivity
  refine ⟨[![0]], [0], [1], constK 1, fun t => 1 / 2 * Real.log (1 + t ^ 2) + Real.log (2 * Real.pi) / 2, _, ?_, ?_,
    constK_jac 1 1 1 false (by simp [unlog]), ?_⟩
  · intro t
    rw [constK_loss 1 1 t false (by simpa [unlog] using hp t)]
    simp [unlog]
  · have h1 : HasDerivAt (fun t : ℝ => 1 + t ^ 2) (2 * 1) 1 := by
      simpa using ((hasDerivAt_id' (1:ℝ)).fun_pow 2).const_add 1
    have h2 := ((h1.log (hp 1).ne').const_mul (1 / 2)).add_const (Real.log (2 * Real.pi) / 2)
    refine h2.congr_deriv ?_
    norm_num
  · simp [unlog]
    norm_num

/-- C124 fails for hyperparameters on a log scale: the derivatives are taken as if they were not. -/
theorem C124_log_scale_violated : ∃ (fp : List (Fin 1 → ℝ)) (y : List ℝ) (ks : List (KDict 1)) (f : ℝ → ℝ)
    (d g0 g1 : ℝ), (∀ t, lossValue ([t] ++ [0]) fp y ks true = .ok (f t)) ∧ HasDerivAt f d 0 ∧
      lossJac ([0] ++ [0]) fp y ks true = .ok [g0, g1] ∧ d = Real.exp 1 * g0 ∧ d ≠ g0 := by
  have hp : ∀ t : ℝ, 0 < Real.exp 1 * Real.exp t + 1 := fun t => by positivity
  refine ⟨[![0]], [0], constK 1,
    fun t => 1 / 2 * Real.log (Real.exp 1 * Real.exp t + 1) + Real.log (2 * Real.pi) / 2,
    1 / 2 * (Real.exp 1 / (Real.exp 1 + 1)), _, _, ?_, ?_, constK_jac 1 0 0 true (by simp [unlog]; positivity), ?_, ?_⟩
  · intro t
    rw [constK_loss 1 t 0 true (by simp [unlog]; positivity)]
    simp [unlog]
  · have h1 : HasDerivAt (fun t : ℝ => Real.exp 1 * Real.exp t + 1) (Real.exp 1 * Real.exp 0) 0 :=
      ((Real.hasDerivAt_exp 0).const_mul _).add_const _
    have h2 := ((h1.log (hp 0).ne').const_mul (1 / 2)).add_const (Real.log (2 * Real.pi) / 2)
    refine h2.congr_deriv ?_
    simp
  · simp [unlog]
    ring
  · have h1 : (1:ℝ) < Real.exp 1 := Real.one_lt_exp_iff.mpr one_pos
    have h2 : 0 < Real.exp 1 + 1 := by positivity
    simp [unlog]
    intro h
    field_simp at h
    linarith

end CatLearn.Proc
