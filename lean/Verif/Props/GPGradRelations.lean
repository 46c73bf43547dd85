import Verif.Props.GPStationary
import Verif.Props.GPOrder

/-!
# Relations between models trained on values and gradients (C282, C283, C284)
-/

namespace CatLearn.GradProc

open CatLearn CatLearn.Kernel CatLearn.Scaling CatLearn.Proc Matrix

/-! ### Points among other points -/

/-- Values and derivatives of points among those of other points. -/
def among {n m : Type} {N : ℕ} (f : n → m) : n ⊕ n × Fin N → m ⊕ m × Fin N
  | .inl i => .inl (f i)
  | .inr (i, a) => .inr (f i, a)

theorem gMatrix_among {N : ℕ} {n m : Type} [DecidableEq n] [DecidableEq m] (g : GType N) (f : n → m) (hf : f.Injective)
    (Y : m → Fin N → ℝ) (p q : n ⊕ n × Fin N) : gMatrix g (fun i => Y (f i)) p q = gMatrix g Y (among f p) (among f q) := by
  cases g with
  | noiseMulti t1 t2 =>
    rcases p with i | ⟨i, a⟩ <;> rcases q with j | ⟨j, b⟩ <;>
      simp [among, gMatrix, noiseMultiXX, Matrix.diagonal_apply, hf.eq_iff]
  | _ => rcases p with i | ⟨i, a⟩ <;> rcases q with j | ⟨j, b⟩ <;> rfl

theorem among_injective {n m : Type} {N : ℕ} (f : n → m) (hf : f.Injective) : (among (N := N) f).Injective := by
  rintro (i | ⟨i, a⟩) (j | ⟨j, b⟩) h <;> simp [among, hf.eq_iff] at h ⊢ <;> exact h

theorem covGrad_among {N : ℕ} {n m : Type} [DecidableEq n] [DecidableEq m] (ks : List (GDict N)) (reg : Option ℝ) (f : n → m)
    (hf : f.Injective) (Y : m → Fin N → ℝ) :
    covGrad ks reg (fun i => Y (f i)) = (covGrad ks reg Y).submatrix (among f) (among f) := by
  unfold covGrad
  ext p q
  simp only [Matrix.add_apply, submatrix_apply]
  congr 1
  · induction ks using List.reverseRecOn with
    | nil => rfl
    | append_singleton ks k ih =>
      rw [List.foldl_append, List.foldl_append]
      simp only [List.foldl_cons, List.foldl_nil]
      cases k.mult <;>
        simp only [Bool.false_eq_true, if_false, if_true, Matrix.add_apply, Matrix.hadamard_apply, Matrix.smul_apply, ih, gMatrix_among k.gtype f hf]
  · cases reg with
    | none => rfl
    | some r => simp only [Matrix.diagonal_apply, (among_injective f hf).eq_iff]

theorem covRow_among {N n m : ℕ} (ks : List (GDict N)) (x : Fin N → ℝ) (f : Fin n → Fin m) (Y : Fin m → Fin N → ℝ) :
    covRow ks x (fun i => Y (f i)) = covRow ks x Y ∘ among f := by
  unfold covRow
  funext p
  simp only [Function.comp_apply]
  induction ks using List.reverseRecOn with
  | nil => rfl
  | append_singleton ks k ih =>
    rw [List.foldl_append, List.foldl_append]
    simp only [List.foldl_cons, List.foldl_nil]
    have : gRow k.gtype x (fun i => Y (f i)) p = gRow k.gtype x Y (among f p) := by
      cases k.gtype <;> rcases p with i | ⟨i, a⟩ <;> rfl
    cases k.mult <;> simp only [Bool.false_eq_true, if_false, if_true, ih, this]

/-- The same for points in another order. -/
def reorder {n m : Type} {N : ℕ} (e : n ≃ m) : n ⊕ n × Fin N ≃ m ⊕ m × Fin N :=
  Equiv.sumCongr e (Equiv.prodCongr e (Equiv.refl _))

theorem reorder_among {n m : Type} {N : ℕ} (e : n ≃ m) : (reorder (N := N) e : n ⊕ n × Fin N → m ⊕ m × Fin N) = among e := by
  funext p
  rcases p with i | ⟨i, a⟩ <;> rfl

/-! ### Predictions of a model -/

/-- Prediction and variance of a model whose inverse is that of its covariance. -/
theorem predict_trained {N : ℕ} (g : GradGP N) (ht : g.target.length = g.fp.length + g.fp.length * N) (hk : g.kernels.isEmpty = false)
    (M : Matrix (Ix g.fp.length N) (Ix g.fp.length N) ℝ) (x : Fin N → ℝ) :
    predict { g with cinv := ⟨g.fp.length, M⟩ } x =
      .ok (if g.nan then none else some (g.rescale (covRow g.kernels (g.scaleRow x) g.fp.get ⬝ᵥ (M *ᵥ vec g.fp.length g.target)))) ∧
    variance { g with cinv := ⟨g.fp.length, M⟩ } x = (kxx g.kernels x).map fun v =>
      v - covRow g.kernels x g.fp.get ⬝ᵥ (M *ᵥ covRow g.kernels x g.fp.get) := by
  have hX : (fun i : Fin g.fp.length => g.fp.getD i 0) = g.fp.get := by funext i; simp
  constructor
  · unfold predict
    simp only [hk, Bool.false_eq_true, if_false, ne_eq, not_true_eq_false, ht, or_self]
    rw [hX]
    cases g.nan <;> rfl
  · unfold variance
    simp only
    rw [hX]
    cases kxx g.kernels x <;> rfl

/-- Two models of the same data in different order. -/
theorem finish_reorder {N : ℕ} (g g' : GradGP N) (h1 : g'.kernels = g.kernels) (h2 : g'.reg = g.reg) (h3 : g'.scaleData = g.scaleData)
    (h4 : g'.nan = g.nan) (h5 : g'.scaling = g.scaling) (h6 : g'.target.length = g.target.length)
    (e : Fin g.fp.length ≃ Fin g'.fp.length) (he : ∀ i, g.fp.get i = g'.fp.get (e i))
    (hv : ∀ p, vec (N := N) g.fp.length g.target p = vec g'.fp.length g'.target (reorder e p)) :
    (∀ er, finish g true = .error er → finish g' true = .error er) ∧
    ∀ r, finish g true = .ok r → ∃ r', finish g' true = .ok r' ∧ ∀ x, predict r' x = predict r x ∧ uncertainty r' x = uncertainty r x := by
  have hlen : g'.fp.length = g.fp.length := by simpa using (Fintype.card_congr e).symm
  have hX : g.fp.get = fun i => g'.fp.get (e i) := funext he
  have hK : covGrad g.kernels g.reg g.fp.get = (covGrad g.kernels g.reg g'.fp.get).submatrix (reorder e) (reorder e) := by
    rw [hX, covGrad_among _ _ e e.injective, reorder_among]
  have hdet : IsUnit (covGrad g'.kernels g'.reg g'.fp.get).det ↔ IsUnit (covGrad g.kernels g.reg g.fp.get).det := by
    rw [hK, det_submatrix_equiv_self, h1, h2]
  have hpd : (covGrad g'.kernels g'.reg g'.fp.get).PosDef ↔ (covGrad g.kernels g.reg g.fp.get).PosDef := by
    rw [h1, h2]
    constructor
    · intro h; rw [hK]; exact h.submatrix (reorder e).injective
    · intro h
      rw [hK] at h
      have := h.submatrix (e := (reorder (N := N) e).symm) (reorder (N := N) e).symm.injective
      simpa using this
  have hf := finish_eq g' true _ _ _ hdet hpd rfl
  have hf0 := finish_eq g true _ _ _ Iff.rfl Iff.rfl rfl
  simp only [h1, h2, h6, hlen] at hf
  constructor
  · intro er h
    rw [hf0] at h
    rw [hf]
    repeat' split at h
    all_goals first | (cases h; done) | skip
    all_goals simp_all
  · intro r h
    obtain ⟨k1, k2, rfl, k4, k5⟩ := finish_ok h
    obtain ⟨k4, k6⟩ := k4 rfl
    refine ⟨_, finish_of (gp := g') (by rw [h1]; exact k1) (hdet.2 k2) (by rw [h1]; exact k5 rfl) (hpd.2 k4) (by rw [h6, k6, hlen]), fun x => ?_⟩
    have ht' : g'.target.length = g'.fp.length + g'.fp.length * N := by rw [h6, k6, hlen]
    obtain ⟨p1, -⟩ := predict_trained g k6 k1 (covGrad g.kernels g.reg g.fp.get)⁻¹ x
    obtain ⟨p2, -⟩ := predict_trained g' ht' (by rw [h1]; exact k1) (covGrad g'.kernels g'.reg g'.fp.get)⁻¹ x
    have hs : ∀ x, g'.scaleRow x = g.scaleRow x := fun x => by unfold GradGP.scaleRow; rw [h5, h3]
    have hr : ∀ p, g'.rescale p = g.rescale p := fun p => by unfold GradGP.rescale; rw [h5, h3]
    have hrow : ∀ x, covRow g.kernels x g.fp.get = covRow g.kernels x g'.fp.get ∘ reorder e := by
      intro x; rw [hX, covRow_among, reorder_among]
    have hvec : vec (N := N) g.fp.length g.target = vec g'.fp.length g'.target ∘ reorder e := funext hv
    have hp : predict { g' with cinv := ⟨g'.fp.length, (covGrad g'.kernels g'.reg g'.fp.get)⁻¹⟩ } x =
        predict { g with cinv := ⟨g.fp.length, (covGrad g.kernels g.reg g.fp.get)⁻¹⟩ } x := by
      rw [p1, p2, h4, hs, hr, h1, h2]
      have := postMean_reindex (reorder (N := N) e) (covGrad g.kernels g.reg g'.fp.get) (covRow g.kernels (g.scaleRow x) g'.fp.get)
        (vec g'.fp.length g'.target)
      rw [← hK, ← hrow, ← hvec] at this
      unfold postMean at this
      rw [this]
    refine ⟨hp, ?_⟩
    obtain ⟨-, q1⟩ := predict_trained g k6 k1 (covGrad g.kernels g.reg g.fp.get)⁻¹ (g.scaleRow x)
    obtain ⟨-, q2⟩ := predict_trained g' ht' (by rw [h1]; exact k1) (covGrad g'.kernels g'.reg g'.fp.get)⁻¹ (g.scaleRow x)
    have hvar : variance { g' with cinv := ⟨g'.fp.length, (covGrad g'.kernels g'.reg g'.fp.get)⁻¹⟩ } (g.scaleRow x) =
        variance { g with cinv := ⟨g.fp.length, (covGrad g.kernels g.reg g.fp.get)⁻¹⟩ } (g.scaleRow x) := by
      rw [q1, q2, h1, h2]
      have := postMean_reindex (reorder (N := N) e) (covGrad g.kernels g.reg g'.fp.get) (covRow g.kernels (g.scaleRow x) g'.fp.get)
        (covRow g.kernels (g.scaleRow x) g'.fp.get)
      rw [← hK, ← hrow] at this
      unfold postMean at this
      rw [this]
    have s1 : ∀ c, ({ g' with cinv := c } : GradGP N).scaleRow x = g.scaleRow x := fun c => hs x
    have s2 : ∀ c, ({ g with cinv := c } : GradGP N).scaleRow x = g.scaleRow x := fun c => rfl
    have s3 : ∀ c c', ({ g' with cinv := c } : GradGP N).tstd = ({ g with cinv := c' } : GradGP N).tstd := fun c c' => by
      simp only [GradGP.tstd, h5, h3]
    unfold uncertainty
    rw [hp, s1, s2, hvar, s3 _ ⟨g.fp.length, (covGrad g.kernels g.reg g.fp.get)⁻¹⟩]
    simp only [h2]
    rfl

/-! ### C282: the order of the training data -/

theorem scalOf_perm3 {N : ℕ} {d d' : List ((Fin N → ℝ) × ℝ × (Fin N → ℝ))} (h : d.Perm d') :
    scalOf (d.map (·.1)) (d.map (·.2.1)) = scalOf (d'.map (·.1)) (d'.map (·.2.1)) := by
  have := scalOf_perm (h.map fun q => (q.1, q.2.1))
  simpa [List.map_map, Function.comp_def] using this

/-- The data in another order, as the lists a model keeps. -/
theorem data_reorder {N : ℕ} {d d' : List ((Fin N → ℝ) × ℝ × (Fin N → ℝ))} (h : d.Perm d') :
    ∃ e : Fin (d.map (·.1)).length ≃ Fin (d'.map (·.1)).length, (∀ i, (d.map (·.1)).get i = (d'.map (·.1)).get (e i)) ∧
      ∀ p, vec (N := N) (d.map (·.1)).length (d.map (·.2.1) ++ flat (d.map (·.2.2))) p =
        vec (d'.map (·.1)).length (d'.map (·.2.1) ++ flat (d'.map (·.2.2))) (reorder e p) := by
  obtain ⟨e, he⟩ := perm_equiv h
  refine ⟨(finCongr (by simp)).trans (e.trans (finCongr (by simp))), ?_, ?_⟩
  · intro i
    have := congrArg (·.1) (he (i.cast (by simp)))
    simpa using this
  · obtain ⟨a1, a2⟩ := vec_append (N := N) (n := (d.map (·.1)).length) (d.map (·.2.1)) (d.map (·.2.2)) (by simp) (by simp)
    obtain ⟨b1, b2⟩ := vec_append (N := N) (n := (d'.map (·.1)).length) (d'.map (·.2.1)) (d'.map (·.2.2)) (by simp) (by simp)
    rintro (i | ⟨i, a⟩)
    · have := congrArg (·.2.1) (he (i.cast (by simp)))
      rw [a1]
      simp only [reorder, Equiv.sumCongr_apply, Sum.map_inl, b1]
      simpa using this
    · have := congrArg (·.2.2) (he (i.cast (by simp)))
      rw [a2]
      simp only [reorder, Equiv.sumCongr_apply, Sum.map_inr, Equiv.prodCongr_apply, Prod.map_apply, Equiv.refl_apply, b2]
      refine congrFun ?_ a
      simpa using this

/-- C282: a model made of the same points with their targets and gradients in another order can be made or not, and makes the same predictions and
uncertainties, with or without scaling of the data. -/
theorem C282_order {N : ℕ} (d d' : List ((Fin N → ℝ) × ℝ × (Fin N → ℝ))) (h : d.Perm d') (ks : List (GDict N)) (reg : Option ℝ) (sd : Bool) :
    (∀ er, init (d.map (·.1)) (d.map (·.2.1)) (d.map (·.2.2)) ks reg sd = .error er →
      init (d'.map (·.1)) (d'.map (·.2.1)) (d'.map (·.2.2)) ks reg sd = .error er) ∧
    ∀ gp, init (d.map (·.1)) (d.map (·.2.1)) (d.map (·.2.2)) ks reg sd = .ok gp →
      ∃ gp', init (d'.map (·.1)) (d'.map (·.2.1)) (d'.map (·.2.2)) ks reg sd = .ok gp' ∧
        ∀ x, predict gp' x = predict gp x ∧ uncertainty gp' x = uncertainty gp x := by
  unfold init update
  simp only [List.length_map, ne_eq, not_true_eq_false, if_false, List.isEmpty_map]
  have hem : d'.isEmpty = d.isEmpty := by
    rw [Bool.eq_iff_iff, List.isEmpty_iff, List.isEmpty_iff]
    exact ⟨fun he => by subst he; exact h.eq_nil, fun he => by subst he; exact h.symm.eq_nil⟩
  rw [hem]
  cases hde : d.isEmpty with
  | true => exact ⟨fun er he => he, fun gp hg => by simp at hg⟩
  | false =>
    simp only [Bool.false_eq_true, if_false]
    cases sd with
    | false =>
      simp only [Bool.false_eq_true, if_false]
      obtain ⟨e, he, hv⟩ := data_reorder h
      exact finish_reorder ⟨ks, reg, false, d.map (·.1), d.map (·.2.1) ++ flat (d.map (·.2.2)), false, none, ⟨0, 1⟩⟩
        ⟨ks, reg, false, d'.map (·.1), d'.map (·.2.1) ++ flat (d'.map (·.2.2)), false, none, ⟨0, 1⟩⟩ rfl rfl rfl rfl rfl
        (by simp [flat_length, h.length_eq]) e he hv
    | true =>
      simp only [if_true]
      rw [← scalOf_perm3 h]
      set s := scalOf (d.map (·.1)) (d.map (·.2.1))
      let f : (Fin N → ℝ) × ℝ × (Fin N → ℝ) → (Fin N → ℝ) × ℝ × (Fin N → ℝ) := fun q => (s.row q.1, s.tgt q.2.1, scaleGrad s q.2.2)
      obtain ⟨e, he, hv⟩ := data_reorder (h.map f)
      have := finish_reorder ⟨ks, reg, true, (d.map f).map (·.1), (d.map f).map (·.2.1) ++ flat ((d.map f).map (·.2.2)), decide (s.tstd = 0), some s, ⟨0, 1⟩⟩
        ⟨ks, reg, true, (d'.map f).map (·.1), (d'.map f).map (·.2.1) ++ flat ((d'.map f).map (·.2.2)), decide (s.tstd = 0), some s, ⟨0, 1⟩⟩ rfl rfl rfl rfl rfl
        (by simp [flat_length, h.length_eq]) e he hv
      simp only [List.map_map] at this ⊢
      exact this

example : ([(![(-1:ℝ)], (0:ℝ), ![1]), (![1], 2, ![0])] : List ((Fin 1 → ℝ) × ℝ × (Fin 1 → ℝ))).Perm [(![1], 2, ![0]), (![(-1:ℝ)], (0:ℝ), ![1])] ∧
    ∃ gp : GradGP 1, init [![(-1:ℝ)], ![1]] [0, 2] [![1], ![0]] [⟨.gaussian ![1], 1, false⟩] (some 1) true = .ok gp :=
  ⟨List.Perm.swap _ _ _, C123_trains _ _ _ _ (by simp) rfl (by simp [GoodGrad]) 1 one_ne_zero true (by simp) rfl rfl⟩

/-! ### C283: more training data -/

/-- What a model made without scaling is. -/
theorem init_false {N : ℕ} {fp : List (Fin N → ℝ)} {t : List ℝ} {grad : List (Fin N → ℝ)} {ks : List (GDict N)} {reg : Option ℝ} {gp : GradGP N}
    (h : init fp t grad ks reg false = .ok gp) : fp ≠ [] ∧ fp.length = t.length ∧ grad.length * N = fp.length * N ∧ ks.isEmpty = false ∧
      lastOnly ks = true ∧ (covGrad ks reg fp.get).PosDef ∧
      gp = { (⟨ks, reg, false, fp, t ++ flat grad, false, none, ⟨0, 1⟩⟩ : GradGP N) with cinv := ⟨fp.length, (covGrad ks reg fp.get)⁻¹⟩ } := by
  unfold init at h
  split at h
  · cases h
  next hlen =>
  unfold update at h
  split at h
  · cases h
  next hfp =>
  obtain ⟨k1, k2, rfl, k4, k5⟩ := finish_ok h
  obtain ⟨k4, k6⟩ := k4 rfl
  have hlen : fp.length = t.length := by simpa using hlen
  refine ⟨by simpa using hfp, hlen, ?_, k1, k5 rfl, k4, rfl⟩
  simp only [List.length_append, flat_length] at k6
  omega

/-- Without scaling, the conditions for a model. -/
theorem init_of {N : ℕ} {fp : List (Fin N → ℝ)} {t : List ℝ} {grad : List (Fin N → ℝ)} {ks : List (GDict N)} {reg : Option ℝ} (h0 : fp ≠ [])
    (h1 : fp.length = t.length) (h2 : grad.length * N = fp.length * N) (h3 : ks.isEmpty = false) (h4 : lastOnly ks = true)
    (h5 : (covGrad ks reg fp.get).PosDef) : init fp t grad ks reg false =
      .ok { (⟨ks, reg, false, fp, t ++ flat grad, false, none, ⟨0, 1⟩⟩ : GradGP N) with cinv := ⟨fp.length, (covGrad ks reg fp.get)⁻¹⟩ } := by
  unfold init update
  rw [if_neg (by simpa using h1), if_neg (by simpa using h0)]
  exact finish_of (gp := ⟨ks, reg, false, fp, t ++ flat grad, false, none, ⟨0, 1⟩⟩) h3 h5.det_pos.ne'.isUnit h4 h5
    (by simp only [List.length_append, flat_length]; omega)

/-- Predictions and uncertainties of a model made without scaling. -/
theorem init_predict {N : ℕ} {fp : List (Fin N → ℝ)} {t : List ℝ} {grad : List (Fin N → ℝ)} {ks : List (GDict N)} {reg : Option ℝ} {gp : GradGP N}
    (h : init fp t grad ks reg false = .ok gp) (x : Fin N → ℝ) :
    predict gp x = .ok (some (postMean (covGrad ks reg fp.get) (covRow ks x fp.get) (vec fp.length (t ++ flat grad)))) ∧
    uncertainty gp x = match (generalizing := false) kxx ks x with
      | .error e => .error e
      | .ok v => match (generalizing := false) reg with
        | none => .error .type
        | some _ => .ok (npSqrt (postVar v (covGrad ks reg fp.get) (covRow ks x fp.get))) := by
  obtain ⟨-, h1, h2, h3, h4, h5, rfl⟩ := init_false h
  obtain ⟨p, q⟩ := predict_trained ⟨ks, reg, false, fp, t ++ flat grad, false, none, ⟨0, 1⟩⟩
    (by simp only [List.length_append, flat_length]; omega) h3 (covGrad ks reg fp.get)⁻¹ x
  have p' : predict { (⟨ks, reg, false, fp, t ++ flat grad, false, none, ⟨0, 1⟩⟩ : GradGP N) with cinv := ⟨fp.length, (covGrad ks reg fp.get)⁻¹⟩ } x =
      .ok (some (postMean (covGrad ks reg fp.get) (covRow ks x fp.get) (vec fp.length (t ++ flat grad)))) := p
  refine ⟨p', ?_⟩
  unfold uncertainty
  rw [p']
  simp only
  have q' : variance { (⟨ks, reg, false, fp, t ++ flat grad, false, none, ⟨0, 1⟩⟩ : GradGP N) with cinv := ⟨fp.length, (covGrad ks reg fp.get)⁻¹⟩ } x =
      (kxx ks x).map fun v => v - covRow ks x fp.get ⬝ᵥ ((covGrad ks reg fp.get)⁻¹ *ᵥ covRow ks x fp.get) := q
  change (match variance { (⟨ks, reg, false, fp, t ++ flat grad, false, none, ⟨0, 1⟩⟩ : GradGP N) with cinv := ⟨fp.length, (covGrad ks reg fp.get)⁻¹⟩ } x with
    | .error e => Except.error e
    | .ok v => match reg with
      | none => .error .type
      | some _ => .ok ((npSqrt v).map fun u => u * 1)) = _
  rw [q']
  cases kxx ks x with
  | error e => rfl
  | ok v =>
    cases reg with
    | none => rfl
    | some r =>
      simp only [Except.map, mul_one, Option.map_id', postVar, dotProduct_mulVec]

/-- C283: of two models without scaling of the data, one of which has further points with their targets and gradients besides those of the other
one (in any order), that one predicts uncertainties that are never larger. -/
theorem C283_more_data {N : ℕ} (ks : List (GDict N)) (reg : Option ℝ) (fp fp' more : List (Fin N → ℝ)) (hfp : fp'.Perm (fp ++ more))
    (t t' : List ℝ) (grad grad' : List (Fin N → ℝ)) (gp gp' : GradGP N) (h : init fp t grad ks reg false = .ok gp)
    (h' : init fp' t' grad' ks reg false = .ok gp') (x : Fin N → ℝ) (u' : ℝ) (hu : uncertainty gp' x = .ok (some u')) :
    ∃ u, uncertainty gp x = .ok (some u) ∧ u' ≤ u := by
  rw [(init_predict h' x).2] at hu
  rw [(init_predict h x).2]
  cases hx : kxx ks x with
  | error e => rw [hx] at hu; simp at hu
  | ok v =>
    rw [hx] at hu
    cases reg with
    | none => simp at hu
    | some r =>
      simp only [Except.ok.injEq] at hu ⊢
      obtain ⟨e, he⟩ := perm_equiv hfp.symm
      let f : Fin fp.length → Fin fp'.length := fun i => e (i.castAdd more.length |>.cast (by simp))
      have hf : f.Injective := fun i j hij => by
        have := e.injective hij
        simpa [Fin.ext_iff] using this
      have hX : fp.get = fun i => fp'.get (f i) := by
        funext i
        rw [← he]
        simp [List.getElem_append_left]
      obtain ⟨-, -, -, -, -, k1, -⟩ := init_false h
      obtain ⟨-, -, -, -, -, k2, -⟩ := init_false h'
      have hsym : (covGrad ks (some r) fp.get).IsSymm := by
        have := k1.posSemidef.1
        rwa [Matrix.IsHermitian, conjTranspose_eq_transpose_of_trivial] at this
      have hle : postVar v (covGrad ks (some r) fp'.get) (covRow ks x fp'.get) ≤ postVar v (covGrad ks (some r) fp.get) (covRow ks x fp.get) := by
        rw [postVar_eq_form hsym k1.det_pos.ne'.isUnit]
        set w := (covGrad ks (some r) fp.get)⁻¹ *ᵥ covRow ks x fp.get with hw
        have hF := among_injective (N := N) f hf
        have key := postVar_le_form k2.posSemidef k2.det_pos.ne'.isUnit v (covRow ks x fp'.get) (Function.extend (among f) w 0)
        refine key.trans (le_of_eq ?_)
        have hsum : ∀ z : Ix fp'.length N → ℝ, Function.extend (among f) w 0 ⬝ᵥ z = w ⬝ᵥ (z ∘ among f) := by
          intro z
          simp only [dotProduct, Function.comp_apply]
          symm
          refine Finset.sum_of_injOn (among f) (fun i _ j _ hij => hF hij) (by simp) ?_ ?_
          · intro p _ hp
            rw [Function.extend_apply' _ _ _ (by rintro ⟨q, rfl⟩; exact hp (by simp))]
            simp
          · intro p _
            rw [hF.extend_apply]
        rw [hsum, hsum, hX, covRow_among ks x f fp'.get]
        have : (covGrad ks (some r) fp'.get *ᵥ Function.extend (among f) w 0) ∘ among f = covGrad ks (some r) (fun i => fp'.get (f i)) *ᵥ w := by
          funext p
          rw [covGrad_among ks (some r) f hf]
          simp only [Function.comp_apply, mulVec]
          rw [dotProduct_comm, hsum, dotProduct_comm]
          rfl
        rw [this]
      unfold npSqrt at hu ⊢
      split at hu
      · simp at hu
      · next hn =>
        rw [if_neg (by linarith)]
        refine ⟨_, rfl, ?_⟩
        simp only [Option.some.injEq] at hu
        rw [← hu]
        exact Real.sqrt_le_sqrt hle

example : ∃ gp gp' : GradGP 1, init [![(1:ℝ)]] [2] [![0]] [⟨.gaussian ![1], 1, false⟩] (some 1) false = .ok gp ∧
    init [![(0:ℝ)], ![1]] [1, 2] [![1], ![0]] [⟨.gaussian ![1], 1, false⟩] (some 1) false = .ok gp' ∧
    ([![(0:ℝ)], ![1]] : List (Fin 1 → ℝ)).Perm ([![1]] ++ [![0]]) ∧ ∃ u, uncertainty gp' ![3] = .ok (some u) := by
  obtain ⟨gp, h⟩ := C123_trains [![(1:ℝ)]] [2] [![0]] [⟨.gaussian ![1], 1, false⟩] (by simp) rfl (by simp [GoodGrad]) 1 one_ne_zero false (by simp) rfl rfl
  obtain ⟨gp', h'⟩ := C123_trains [![(0:ℝ)], ![1]] [1, 2] [![1], ![0]] [⟨.gaussian ![1], 1, false⟩] (by simp) rfl (by simp [GoodGrad]) 1 one_ne_zero false
    (by simp) rfl rfl
  obtain ⟨u, hu, -⟩ := C209_uncertainty_partial _ _ _ _ (by simp [GoodGrad]) (by simp) 1 false gp' h' ![3]
  exact ⟨gp, gp', h, h', List.Perm.swap _ _ _, u, hu⟩

/-! ### C284: linear in the data -/

/-- The targets and gradients as vector, entry by entry. -/
theorem vec_combine {N n : ℕ} (a b : ℝ) (t t' : List ℝ) (g g' : List (Fin N → ℝ)) (h1 : t.length = n) (h2 : t'.length = n) (h3 : g.length * N = n * N)
    (h4 : g'.length * N = n * N) :
    vec (N := N) n (List.zipWith (fun y y' => a * y + b * y') t t' ++ flat (List.zipWith (fun v v' => a • v + b • v') g g')) =
      a • vec n (t ++ flat g) + b • vec n (t' ++ flat g') := by
  funext p
  rcases p with i | ⟨i, c⟩
  · have e1 : ∀ (s : List ℝ) (w : List (Fin N → ℝ)), s.length = n → vec (N := N) n (s ++ flat w) (.inl i) = s.getD i 0 := by
      intro s w hs
      simp only [vec]
      rw [List.getD_append _ _ _ _ (by omega)]
    simp only [Pi.add_apply, Pi.smul_apply, smul_eq_mul]
    rw [e1 _ _ (by simp [h1, h2]), e1 _ _ h1, e1 _ _ h2]
    simp [List.getD_eq_getElem?_getD, h1, h2]
  · have hN : 0 < N := c.pos
    have h3 := Nat.eq_of_mul_eq_mul_right hN h3
    have h4 := Nat.eq_of_mul_eq_mul_right hN h4
    simp only [Pi.add_apply, Pi.smul_apply, smul_eq_mul]
    rw [(vec_append (N := N) _ _ (by simp [h1, h2]) (by simp [h3, h4])).2, (vec_append (N := N) _ _ h1 h3).2, (vec_append (N := N) _ _ h2 h4).2]
    simp

/-- C284: without scaling, the predictions of a model are linear in the targets and gradients it is made of, and uncertainties do not depend on
them: the model of a combination of two sets of targets and gradients at the same points can be made, predicts the same combination of the two
predictions, and has the same uncertainties. -/
theorem C284_linear {N : ℕ} (ks : List (GDict N)) (reg : Option ℝ) (fp : List (Fin N → ℝ)) (t t' : List ℝ) (grad grad' : List (Fin N → ℝ))
    (gp gp' : GradGP N) (h : init fp t grad ks reg false = .ok gp) (h' : init fp t' grad' ks reg false = .ok gp') (a b : ℝ) :
    ∃ gq, init fp (List.zipWith (fun y y' => a * y + b * y') t t') (List.zipWith (fun v v' => a • v + b • v') grad grad') ks reg false = .ok gq ∧
      ∀ x, (∃ p p', predict gp x = .ok (some p) ∧ predict gp' x = .ok (some p') ∧ predict gq x = .ok (some (a * p + b * p'))) ∧
        uncertainty gq x = uncertainty gp x ∧ uncertainty gp' x = uncertainty gp x := by
  obtain ⟨h0, h1, h2, h3, h4, h5, -⟩ := init_false h
  obtain ⟨-, h1', h2', -, -, -, -⟩ := init_false h'
  have hq := init_of (t := List.zipWith (fun y y' => a * y + b * y') t t') (grad := List.zipWith (fun v v' => a • v + b • v') grad grad') h0
    (by simp [← h1, ← h1']) (by
      rw [List.length_zipWith]
      rcases le_total grad.length grad'.length with hg | hg
      · rw [min_eq_left hg, h2]
      · rw [min_eq_right hg, h2']) h3 h4 h5
  refine ⟨_, hq, fun x => ?_⟩
  obtain ⟨p1, u1⟩ := init_predict h x
  obtain ⟨p2, u2⟩ := init_predict h' x
  obtain ⟨p3, u3⟩ := init_predict hq x
  refine ⟨⟨_, _, p1, p2, ?_⟩, by rw [u1, u3], by rw [u1, u2]⟩
  rw [p3, vec_combine a b t t' grad grad' h1.symm h1'.symm h2 h2']
  simp only [postMean, mulVec_add, mulVec_smul, dotProduct_add, dotProduct_smul, smul_eq_mul]

/-- Any targets and gradients may be given. -/
theorem C284_any {N : ℕ} (ks : List (GDict N)) (reg : Option ℝ) (fp : List (Fin N → ℝ)) (t t' : List ℝ) (grad grad' : List (Fin N → ℝ))
    (gp : GradGP N) (h : init fp t grad ks reg false = .ok gp) (ht : t'.length = t.length) (hg : grad'.length = grad.length) :
    ∃ gp', init fp t' grad' ks reg false = .ok gp' := by
  obtain ⟨h0, h1, h2, h3, h4, h5, -⟩ := init_false h
  exact ⟨_, init_of h0 (by rw [ht, h1]) (by rw [hg, h2]) h3 h4 h5⟩

example : ∃ gp gp' : GradGP 1, init [![(0:ℝ)], ![1]] [1, 2] [![1], ![0]] [⟨.gaussian ![1], 1, false⟩] (some 1) false = .ok gp ∧
    init [![(0:ℝ)], ![1]] [-1, 3] [![0], ![4]] [⟨.gaussian ![1], 1, false⟩] (some 1) false = .ok gp' := by
  obtain ⟨gp, h⟩ := C123_trains [![(0:ℝ)], ![1]] [1, 2] [![1], ![0]] [⟨.gaussian ![1], 1, false⟩] (by simp) rfl (by simp [GoodGrad]) 1 one_ne_zero false
    (by simp) rfl rfl
  obtain ⟨gp', h'⟩ := C284_any _ _ _ _ [-1, 3] _ [![0], ![4]] gp h rfl rfl
  exact ⟨gp, gp', h, h'⟩

end CatLearn.GradProc
