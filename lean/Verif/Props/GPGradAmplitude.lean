import Verif.Props.GPGradRelations
import Verif.Props.GPRelations

/-!
# The amplitude of the covariance of values and gradients (C301)
-/

namespace CatLearn.GradProc

open CatLearn CatLearn.Kernel CatLearn.Proc Matrix

/-- A kernel `e²` times as large; kernels that multiply those before them stay as they are. -/
noncomputable def louder {N : ℕ} (e : ℝ) (k : GDict N) : GDict N := if k.mult then k else { k with scaling := e ^ 2 * k.scaling }

private theorem louder_parts {N : ℕ} (e : ℝ) (k : GDict N) : (louder e k).gtype = k.gtype ∧ (louder e k).mult = k.mult ∧
    (louder e k).scaling = if k.mult then k.scaling else e ^ 2 * k.scaling := by
  unfold louder
  split
  · exact ⟨rfl, rfl, rfl⟩
  · exact ⟨rfl, rfl, rfl⟩

theorem covGrad_louder {N : ℕ} {n : Type} [DecidableEq n] (e : ℝ) (ks : List (GDict N)) (reg : Option ℝ) (X : n → Fin N → ℝ) :
    covGrad (ks.map (louder e)) (reg.map (e * ·)) X = e ^ 2 • covGrad ks reg X := by
  unfold covGrad
  ext p q
  simp only [Matrix.add_apply, Matrix.smul_apply, smul_add]
  congr 1
  · induction ks using List.reverseRecOn with
    | nil => simp
    | append_singleton ks k ih =>
      obtain ⟨h1, h2, h3⟩ := louder_parts e k
      rw [List.map_append, List.foldl_append, List.foldl_append]
      simp only [List.map_cons, List.map_nil, List.foldl_cons, List.foldl_nil, h1, h2, h3]
      cases k.mult <;>
        simp only [Bool.false_eq_true, if_false, if_true, Matrix.add_apply, Matrix.hadamard_apply, Matrix.smul_apply, ih, smul_eq_mul] <;> ring
  · cases reg with
    | none => simp
    | some r =>
      simp only [Option.map_some, Matrix.diagonal_apply]
      split <;> simp [mul_pow]

theorem covRow_louder {N n : ℕ} (e : ℝ) (ks : List (GDict N)) (x : Fin N → ℝ) (X : Fin n → Fin N → ℝ) :
    covRow (ks.map (louder e)) x X = e ^ 2 • covRow ks x X := by
  unfold covRow
  funext p
  simp only [Pi.smul_apply]
  induction ks using List.reverseRecOn with
  | nil => simp
  | append_singleton ks k ih =>
    obtain ⟨h1, h2, h3⟩ := louder_parts e k
    rw [List.map_append, List.foldl_append, List.foldl_append]
    simp only [List.map_cons, List.map_nil, List.foldl_cons, List.foldl_nil, h1, h2, h3]
    cases k.mult <;> simp only [Bool.false_eq_true, if_false, if_true, ih, smul_eq_mul] <;> ring

theorem kxx_louder {N : ℕ} (e : ℝ) (ks : List (GDict N)) (x : Fin N → ℝ) : kxx (ks.map (louder e)) x = (kxx ks x).map (e ^ 2 * ·) := by
  have h0 : ∀ (ks : List (GDict N)) (v : ℝ),
      (ks.map (louder e)).foldlM (fun (cov : ℝ) (k : GDict N) =>
        match gDiag k.gtype x with
        | .error e => Except.error e
        | .ok v => .ok (if k.mult then cov * (k.scaling * v) else cov + k.scaling * v)) (e ^ 2 * v) =
      (ks.foldlM (fun (cov : ℝ) (k : GDict N) =>
        match gDiag k.gtype x with
        | .error e => Except.error e
        | .ok v => .ok (if k.mult then cov * (k.scaling * v) else cov + k.scaling * v)) v).map (e ^ 2 * ·) := by
    intro ks
    induction ks with
    | nil => intro v; rfl
    | cons k ks ih =>
      intro v
      obtain ⟨h1, h2, h3⟩ := louder_parts e k
      rw [List.map_cons, List.foldlM_cons, List.foldlM_cons, h1, h2, h3]
      cases gDiag k.gtype x with
      | error er => rfl
      | ok d =>
        have : (if k.mult = true then e ^ 2 * v * ((if k.mult = true then k.scaling else e ^ 2 * k.scaling) * d)
            else e ^ 2 * v + (if k.mult = true then k.scaling else e ^ 2 * k.scaling) * d) =
            e ^ 2 * if k.mult = true then v * (k.scaling * d) else v + k.scaling * d := by
          split <;> ring
        simp only [bind, Except.bind, this]
        exact ih _
  have := h0 ks 0
  rw [mul_zero] at this
  exact this

theorem lastOnly_louder {N : ℕ} (e : ℝ) (ks : List (GDict N)) : lastOnly (ks.map (louder e)) = lastOnly ks := by
  unfold lastOnly
  rw [← List.map_dropLast, List.all_map]
  congr 1
  funext k
  simp only [Function.comp_apply, (louder_parts e k).1]

private theorem npSqrt_louder {e : ℝ} (he : 0 < e) (v : ℝ) : npSqrt (e ^ 2 * v) = (npSqrt v).map (e * ·) := by
  unfold npSqrt
  have h2 : (0:ℝ) < e ^ 2 := by positivity
  by_cases hv : v < 0
  · rw [if_pos hv, if_pos (mul_neg_of_pos_of_neg h2 hv)]
    rfl
  · rw [if_neg hv, if_neg (by push Not at hv ⊢; positivity), Real.sqrt_mul h2.le, Real.sqrt_sq he.le]
    rfl

theorem finish_louder {N : ℕ} {e : ℝ} (he : 0 < e) (g : GradGP N) :
    (∀ er, finish g true = .error er → finish { g with kernels := g.kernels.map (louder e), reg := g.reg.map (e * ·) } true = .error er) ∧
    ∀ r, finish g true = .ok r → ∃ r', finish { g with kernels := g.kernels.map (louder e), reg := g.reg.map (e * ·) } true = .ok r' ∧
      ∀ x, predict r' x = predict r x ∧ uncertainty r' x = (uncertainty r x).map (Option.map (e * ·)) := by
  have he2 : (0:ℝ) < e ^ 2 := by positivity
  set g' : GradGP N := { g with kernels := g.kernels.map (louder e), reg := g.reg.map (e * ·) } with hg'
  have hK : covGrad g'.kernels g'.reg g'.fp.get = e ^ 2 • covGrad g.kernels g.reg g.fp.get := covGrad_louder e g.kernels g.reg g.fp.get
  have hrow : ∀ x, covRow g'.kernels x g'.fp.get = e ^ 2 • covRow g.kernels x g.fp.get := fun x => covRow_louder e g.kernels x g.fp.get
  have hdet : IsUnit (covGrad g'.kernels g'.reg g'.fp.get).det ↔ IsUnit (covGrad g.kernels g.reg g.fp.get).det := by
    rw [hK, det_smul, isUnit_iff_ne_zero, isUnit_iff_ne_zero, mul_ne_zero_iff]
    exact ⟨fun h => h.2, fun h => ⟨pow_ne_zero _ he2.ne', h⟩⟩
  have hpd : (covGrad g'.kernels g'.reg g'.fp.get).PosDef ↔ (covGrad g.kernels g.reg g.fp.get).PosDef := by
    rw [hK]
    constructor
    · intro h
      have := h.smul (inv_pos.2 he2)
      rwa [smul_smul, inv_mul_cancel₀ he2.ne', one_smul] at this
    · intro h
      exact h.smul he2
  have hemp : g'.kernels.isEmpty = g.kernels.isEmpty := List.isEmpty_map
  have hlast : lastOnly g'.kernels = lastOnly g.kernels := lastOnly_louder e g.kernels
  have hf := finish_eq g' true _ _ _ hdet hpd rfl
  have hf0 := finish_eq g true _ _ _ Iff.rfl Iff.rfl rfl
  simp only [hemp, hlast] at hf
  constructor
  · intro er h
    rw [hf0] at h
    rw [hf]
    cases hr : g.reg <;> simp only [hr] at h <;> simp only [hg', hr, Option.map_none, Option.map_some]
    all_goals
      repeat' split at h
      all_goals first | (cases h; done) | skip
      all_goals simp_all
  · intro r h
    obtain ⟨k1, k2, rfl, k4, k5⟩ := finish_ok h
    obtain ⟨k4, k6⟩ := k4 rfl
    refine ⟨_, finish_of (gp := g') (hemp.trans k1) (hdet.2 k2) (hlast.trans (k5 rfl)) (hpd.2 k4) k6, fun x => ?_⟩
    obtain ⟨p1, -⟩ := predict_trained g k6 k1 (covGrad g.kernels g.reg g.fp.get)⁻¹ x
    obtain ⟨p2, -⟩ := predict_trained g' k6 (hemp.trans k1) (covGrad g'.kernels g'.reg g'.fp.get)⁻¹ x
    have hp : predict { g' with cinv := ⟨g'.fp.length, (covGrad g'.kernels g'.reg g'.fp.get)⁻¹⟩ } x =
        predict { g with cinv := ⟨g.fp.length, (covGrad g.kernels g.reg g.fp.get)⁻¹⟩ } x := by
      rw [p1, p2, hrow, hK]
      have := postMean_smul (e ^ 2) he2.ne' (covGrad g.kernels g.reg g.fp.get) k2 (covRow g.kernels (g.scaleRow x) g.fp.get) (vec g.fp.length g.target)
      unfold postMean at this
      have hr : g'.rescale = g.rescale := rfl
      have hs : g'.scaleRow = g.scaleRow := rfl
      have ht : vec g'.fp.length g'.target = vec (N := N) g.fp.length g.target := rfl
      rw [hr, hs, ht]
      exact congrArg (fun z => Except.ok (if g.nan then none else some (g.rescale z))) this
    refine ⟨hp, ?_⟩
    obtain ⟨-, q1⟩ := predict_trained g k6 k1 (covGrad g.kernels g.reg g.fp.get)⁻¹ (g.scaleRow x)
    obtain ⟨-, q2⟩ := predict_trained g' k6 (hemp.trans k1) (covGrad g'.kernels g'.reg g'.fp.get)⁻¹ (g.scaleRow x)
    have hvar : variance { g' with cinv := ⟨g'.fp.length, (covGrad g'.kernels g'.reg g'.fp.get)⁻¹⟩ } (g.scaleRow x) =
        (variance { g with cinv := ⟨g.fp.length, (covGrad g.kernels g.reg g.fp.get)⁻¹⟩ } (g.scaleRow x)).map (e ^ 2 * ·) := by
      rw [q1, q2, hrow, hK]
      have hkx : kxx g'.kernels (g.scaleRow x) = (kxx g.kernels (g.scaleRow x)).map (e ^ 2 * ·) := kxx_louder e g.kernels _
      rw [hkx]
      cases kxx g.kernels (g.scaleRow x) with
      | error er => rfl
      | ok v =>
        have := postVar_smul (e ^ 2) he2.ne' (covGrad g.kernels g.reg g.fp.get) k2 v (covRow g.kernels (g.scaleRow x) g.fp.get)
        unfold postVar at this
        rw [← dotProduct_mulVec, ← dotProduct_mulVec] at this
        exact congrArg Except.ok this
    have s1 : ∀ c, ({ g' with cinv := c } : GradGP N).scaleRow x = g.scaleRow x := fun c => rfl
    have s2 : ∀ c, ({ g with cinv := c } : GradGP N).scaleRow x = g.scaleRow x := fun c => rfl
    have s3 : ∀ c c', ({ g' with cinv := c } : GradGP N).tstd = ({ g with cinv := c' } : GradGP N).tstd := fun c c' => rfl
    unfold uncertainty
    rw [hp, s1, hvar, s3 _ ⟨g.fp.length, (covGrad g.kernels g.reg g.fp.get)⁻¹⟩]
    simp only [s2]
    cases predict { g with cinv := ⟨g.fp.length, (covGrad g.kernels g.reg g.fp.get)⁻¹⟩ } x with
    | error er => rfl
    | ok y =>
      simp only
      cases variance { g with cinv := ⟨g.fp.length, (covGrad g.kernels g.reg g.fp.get)⁻¹⟩ } (g.scaleRow x) with
      | error er => rfl
      | ok v =>
        simp only [Except.map, hg']
        cases hr : g.reg with
        | none => rfl
        | some r =>
          simp only [Option.map_some, npSqrt_louder he, Option.map_map]
          congr 2
          funext z
          simp only [Function.comp_apply]
          ring

/-- C301: a covariance of values and gradients that is `e²` times as large, together with a regularisation `e` times as large, leaves all predictions and
errors as they are and makes uncertainties `e` times as large, with or without scaling of the data. -/
theorem C301_amplitude {N : ℕ} {e : ℝ} (he : 0 < e) (fp : List (Fin N → ℝ)) (t : List ℝ) (grad : List (Fin N → ℝ)) (ks : List (GDict N))
    (reg : Option ℝ) (sd : Bool) :
    (∀ er, init fp t grad ks reg sd = .error er → init fp t grad (ks.map (louder e)) (reg.map (e * ·)) sd = .error er) ∧
    ∀ gp, init fp t grad ks reg sd = .ok gp → ∃ gp', init fp t grad (ks.map (louder e)) (reg.map (e * ·)) sd = .ok gp' ∧
      ∀ x, predict gp' x = predict gp x ∧ uncertainty gp' x = (uncertainty gp x).map (Option.map (e * ·)) := by
  unfold init update
  split
  · exact ⟨fun _ h => h, fun _ h => by cases h⟩
  split
  · exact ⟨fun _ h => h, fun _ h => by cases h⟩
  cases sd with
  | false =>
    simp only [Bool.false_eq_true, if_false]
    exact finish_louder he ⟨ks, reg, false, fp, t ++ flat grad, false, none, ⟨0, 1⟩⟩
  | true =>
    simp only [if_true]
    exact finish_louder he ⟨ks, reg, true, fp.map (scalOf fp t).row, t.map (scalOf fp t).tgt ++ flat (grad.map (scaleGrad (scalOf fp t))),
      decide ((scalOf fp t).tstd = 0), some (scalOf fp t), ⟨0, 1⟩⟩

/-- Two points, with a kernel that multiplies another. -/
example : ∃ gp : GradGP 1, init [![(-1:ℝ)], ![1]] [0, 2] [![1], ![0]] [⟨.gaussian ![1], 1, false⟩, ⟨.constant 2, 3, true⟩] (some 1) true = .ok gp :=
  C123_trains _ _ _ _ (by simp) rfl (by simp [GoodGrad]) 1 one_ne_zero true (by simp) rfl rfl

end CatLearn.GradProc
