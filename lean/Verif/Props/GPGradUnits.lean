import Verif.Props.GPGradSequential

/-!
# Units of models of values and gradients (C298)
-/

namespace CatLearn.GradProc

open CatLearn CatLearn.Kernel CatLearn.Proc Matrix

/-- The hyperparameters of a kernel where lengths are `c` times as large. -/
noncomputable def typeUnits {N : ℕ} (c : ℝ) (g : GType N) : GType N :=
  match g with
  | .gaussian w => .gaussian (c • w)
  | .linear => .linear
  | .constant k => .constant k
  | .constantMulti c1 c2 c3 => .constantMulti c1 (c2 / c) (c3 / c ^ 2)
  | .noiseMulti t1 t2 => .noiseMulti t1 (t2 / c)

/-- The scaling of a kernel where lengths are `c` and values `e` times as large: a covariance has the unit of a squared value, and that of the linear
kernel is divided by a squared length. -/
noncomputable def scaleUnits {N : ℕ} (c e : ℝ) (g : GType N) (s : ℝ) : ℝ :=
  match g with
  | .linear => e ^ 2 / c ^ 2 * s
  | _ => e ^ 2 * s

/-- A kernel dictionary where lengths are `c` and values `e` times as large. -/
noncomputable def inUnits {N : ℕ} (c e : ℝ) (k : GDict N) : GDict N := ⟨typeUnits c k.gtype, scaleUnits c e k.gtype k.scaling, k.mult⟩

/-- The factor of a value and of a slope. -/
noncomputable def unit {N : ℕ} {n : Type} (c e : ℝ) : n ⊕ n × Fin N → ℝ := Sum.elim (fun _ => e) (fun _ => e / c)

private theorem gauss_units {N : ℕ} {c : ℝ} (hc : c ≠ 0) (w x y : Fin N → ℝ) : gauss (c • w) (c • x) (c • y) = gauss w x y := by
  unfold gauss
  congr 2
  refine Finset.sum_congr rfl fun a _ => ?_
  simp only [Pi.smul_apply, smul_eq_mul]
  rw [mul_div_mul_left _ _ hc, mul_div_mul_left _ _ hc]

private theorem slope_units {c : ℝ} (hc : c ≠ 0) (w x y : ℝ) : (c * w) ^ (-2 : ℤ) * (c * x - c * y) = w ^ (-2 : ℤ) * (x - y) / c := by
  rw [mul_zpow, ← mul_sub]
  have : c ^ (-2 : ℤ) * c = 1 / c := by
    rw [_root_.zpow_neg, zpow_ofNat]
    field_simp
  calc c ^ (-2 : ℤ) * w ^ (-2 : ℤ) * (c * (x - y)) = (c ^ (-2 : ℤ) * c) * (w ^ (-2 : ℤ) * (x - y)) := by ring
    _ = _ := by rw [this]; ring

private theorem curve_units (c w : ℝ) : (c * w) ^ (-2 : ℤ) = w ^ (-2 : ℤ) / c ^ 2 := by
  rw [mul_zpow, _root_.zpow_neg c, zpow_ofNat]
  ring

theorem entry_units {N : ℕ} {n : Type} [DecidableEq n] {c : ℝ} (hc : c ≠ 0) (e : ℝ) (k : GDict N) (X : n → Fin N → ℝ) (p q : n ⊕ n × Fin N) :
    (inUnits c e k).scaling * gMatrix (inUnits c e k).gtype (fun i => c • X i) p q = unit c e p * (k.scaling * gMatrix k.gtype X p q) * unit c e q := by
  obtain ⟨g, s, m⟩ := k
  cases g with
  | gaussian w =>
    rcases p with i | ⟨i, a⟩ <;> rcases q with j | ⟨j, b⟩ <;>
      simp only [inUnits, typeUnits, scaleUnits, gMatrix, gaussXX, unit, Matrix.fromBlocks, Matrix.of_apply, Sum.elim_inl, Sum.elim_inr, gauss_units hc,
        Matrix.transpose_apply, Pi.smul_apply, smul_eq_mul, slope_units hc]
    · ring
    · ring
    · ring
    · rw [curve_units]
      split <;> ring
  | linear =>
    rcases p with i | ⟨i, a⟩ <;> rcases q with j | ⟨j, b⟩ <;>
      simp only [inUnits, typeUnits, scaleUnits, gMatrix, linearXX, unit, Matrix.fromBlocks, Matrix.of_apply, Sum.elim_inl, Sum.elim_inr,
        Matrix.transpose_apply, Pi.smul_apply, smul_eq_mul]
    · have : ∑ a, c * X i a * (c * X j a) = c ^ 2 * ∑ a, X i a * X j a := by
        rw [Finset.mul_sum]
        exact Finset.sum_congr rfl fun a _ => by ring
      rw [this]
      field_simp
    all_goals field_simp
  | constant k =>
    rcases p with i | ⟨i, a⟩ <;> rcases q with j | ⟨j, b⟩ <;>
      simp [inUnits, typeUnits, scaleUnits, gMatrix, constantXX, unit, Matrix.fromBlocks]
    ring
  | constantMulti c1 c2 c3 =>
    rcases p with i | ⟨i, a⟩ <;> rcases q with j | ⟨j, b⟩ <;>
      simp only [inUnits, typeUnits, scaleUnits, gMatrix, constantMultiXX, unit, Matrix.fromBlocks, Matrix.of_apply, Sum.elim_inl, Sum.elim_inr] <;> ring
  | noiseMulti t1 t2 =>
    rcases p with i | ⟨i, a⟩ <;> rcases q with j | ⟨j, b⟩ <;>
      simp only [inUnits, typeUnits, scaleUnits, gMatrix, noiseMultiXX, unit, Matrix.fromBlocks, Matrix.of_apply, Sum.elim_inl, Sum.elim_inr,
        Matrix.diagonal_apply, Matrix.zero_apply]
    · split <;> ring
    · ring
    · ring
    · split <;> ring

theorem row_units {N n : ℕ} {c : ℝ} (hc : c ≠ 0) (e : ℝ) (k : GDict N) (x : Fin N → ℝ) (X : Fin n → Fin N → ℝ) (p : Ix n N) :
    (inUnits c e k).scaling * gRow (inUnits c e k).gtype (c • x) (fun i => c • X i) p = e * (k.scaling * gRow k.gtype x X p) * unit c e p := by
  obtain ⟨g, s, m⟩ := k
  cases g with
  | gaussian w =>
    rcases p with j | ⟨j, b⟩ <;>
      simp only [inUnits, typeUnits, scaleUnits, gRow, gaussXXp, unit, Sum.elim_inl, Sum.elim_inr, gauss_units hc, Pi.smul_apply, smul_eq_mul, slope_units hc] <;>
      ring
  | linear =>
    rcases p with j | ⟨j, b⟩ <;> simp only [inUnits, typeUnits, scaleUnits, gRow, unit, Sum.elim_inl, Sum.elim_inr, Pi.smul_apply, smul_eq_mul]
    · have : ∑ a, c * x a * (c * X j a) = c ^ 2 * ∑ a, x a * X j a := by
        rw [Finset.mul_sum]
        exact Finset.sum_congr rfl fun a _ => by ring
      rw [this]
      field_simp
    · field_simp
  | constant k =>
    rcases p with j | ⟨j, b⟩ <;> simp only [inUnits, typeUnits, scaleUnits, gRow, unit, Sum.elim_inl, Sum.elim_inr] <;> ring
  | constantMulti c1 c2 c3 =>
    rcases p with j | ⟨j, b⟩ <;> simp only [inUnits, typeUnits, scaleUnits, gRow, unit, Sum.elim_inl, Sum.elim_inr] <;> ring
  | noiseMulti t1 t2 =>
    simp [inUnits, typeUnits, gRow]

theorem covGrad_units {N : ℕ} {n : Type} [DecidableEq n] {c : ℝ} (hc : c ≠ 0) (e : ℝ) (ks : List (GDict N)) (hk : ∀ k ∈ ks, k.mult = false)
    (reg : Option ℝ) (hr : reg.getD 0 = 0 ∨ c = 1) (X : n → Fin N → ℝ) :
    covGrad (ks.map (inUnits c e)) (reg.map (e * ·)) (fun i => c • X i) = Matrix.of fun p q => unit c e p * covGrad ks reg X p q * unit c e q := by
  have h0 : ∀ ks' : List (GDict N), (∀ k ∈ ks', k.mult = false) → ∀ p q,
      (ks'.map (inUnits c e)).foldl (fun cov k =>
        if k.mult then Matrix.hadamard cov (k.scaling • gMatrix k.gtype (fun i => c • X i)) else cov + k.scaling • gMatrix k.gtype (fun i => c • X i)) 0 p q =
      unit c e p * ks'.foldl (fun cov k =>
        if k.mult then Matrix.hadamard cov (k.scaling • gMatrix k.gtype X) else cov + k.scaling • gMatrix k.gtype X) 0 p q * unit c e q := by
    intro ks' hk' p q
    induction ks' using List.reverseRecOn with
    | nil => simp
    | append_singleton ks' k ih =>
      have hm : k.mult = false := hk' k (by simp)
      have hm' : (inUnits c e k).mult = false := hm
      rw [List.map_append, List.foldl_append, List.foldl_append]
      simp only [List.map_cons, List.map_nil, List.foldl_cons, List.foldl_nil, hm, hm', Bool.false_eq_true, if_false, Matrix.add_apply, Matrix.smul_apply,
        smul_eq_mul, entry_units hc, ih fun k hk => hk' k (by simp [hk])]
      ring
  ext p q
  unfold covGrad
  rw [Matrix.of_apply, Matrix.add_apply, Matrix.add_apply, h0 ks hk]
  cases reg with
  | none => simp
  | some r =>
    simp only [Option.map_some, Matrix.diagonal_apply]
    rcases hr with hr | rfl
    · obtain rfl : r = 0 := by simpa using hr
      simp
    · split
      · rename_i h
        subst h
        rcases p with i | ⟨i, a⟩ <;> simp [unit] <;> ring
      · simp

theorem covRow_units {N n : ℕ} {c : ℝ} (hc : c ≠ 0) (e : ℝ) (ks : List (GDict N)) (hk : ∀ k ∈ ks, k.mult = false) (x : Fin N → ℝ)
    (X : Fin n → Fin N → ℝ) : covRow (ks.map (inUnits c e)) (c • x) (fun i => c • X i) = fun p => e * covRow ks x X p * unit c e p := by
  funext p
  induction ks using List.reverseRecOn with
  | nil => simp [covRow]
  | append_singleton ks k ih =>
    have hm : k.mult = false := hk k (by simp)
    have hm' : (inUnits c e k).mult = false := hm
    have ih := ih fun k hk' => hk k (by simp [hk'])
    unfold covRow at ih ⊢
    rw [List.map_append, List.foldl_append, List.foldl_append]
    simp only [List.map_cons, List.map_nil, List.foldl_cons, List.foldl_nil, hm, hm', Bool.false_eq_true, if_false, row_units hc, ih]
    ring

theorem kxx_units {N : ℕ} {c : ℝ} (hc : c ≠ 0) (e : ℝ) (ks : List (GDict N)) (hk : ∀ k ∈ ks, k.mult = false) (x : Fin N → ℝ) :
    kxx (ks.map (inUnits c e)) (c • x) = (kxx ks x).map (e ^ 2 * ·) := by
  have h0 : ∀ (ks : List (GDict N)), (∀ k ∈ ks, k.mult = false) → ∀ v : ℝ,
      (ks.map (inUnits c e)).foldlM (fun (cov : ℝ) (k : GDict N) =>
        match gDiag k.gtype (c • x) with
        | .error e => Except.error e
        | .ok v => .ok (if k.mult then cov * (k.scaling * v) else cov + k.scaling * v)) (e ^ 2 * v) =
      (ks.foldlM (fun (cov : ℝ) (k : GDict N) =>
        match gDiag k.gtype x with
        | .error e => Except.error e
        | .ok v => .ok (if k.mult then cov * (k.scaling * v) else cov + k.scaling * v)) v).map (e ^ 2 * ·) := by
    intro ks
    induction ks with
    | nil => intro _ v; rfl
    | cons k ks ih =>
      intro hk v
      have hm : k.mult = false := hk k (by simp)
      have ih := ih fun k hk' => hk k (by simp [hk'])
      obtain ⟨g, s, m⟩ := k
      obtain rfl : m = false := hm
      rw [List.map_cons, List.foldlM_cons, List.foldlM_cons]
      cases g with
      | constantMulti c1 c2 c3 => rfl
      | linear =>
        have : ∑ a, (c • x) a * (c • x) a = c ^ 2 * ∑ a, x a * x a := by
          rw [Finset.mul_sum]
          exact Finset.sum_congr rfl fun a _ => by simp only [Pi.smul_apply, smul_eq_mul]; ring
        have h2 : e ^ 2 * v + e ^ 2 / c ^ 2 * s * ∑ a, (c • x) a * (c • x) a = e ^ 2 * (v + s * ∑ a, x a * x a) := by
          rw [this]
          field_simp
        have h3 := ih (v + s * ∑ a, x a * x a)
        rw [← h2] at h3
        exact h3
      | gaussian w =>
        simp only [inUnits, typeUnits, scaleUnits, gDiag, gauss_units hc, bind, Except.bind, Bool.false_eq_true, if_false, mul_assoc, ← mul_add]
        exact ih _
      | constant k =>
        simp only [inUnits, typeUnits, scaleUnits, gDiag, bind, Except.bind, Bool.false_eq_true, if_false, mul_assoc, ← mul_add]
        exact ih _
      | noiseMulti t1 t2 =>
        simp only [inUnits, typeUnits, scaleUnits, gDiag, bind, Except.bind, Bool.false_eq_true, if_false, mul_assoc, ← mul_add]
        exact ih _
  have := h0 ks hk 0
  rw [mul_zero] at this
  exact this

private theorem scaled_inv {ι : Type} [Fintype ι] [DecidableEq ι] (K : Matrix ι ι ℝ) (d : ι → ℝ) (hd : ∀ i, d i ≠ 0) :
    (Matrix.of fun p q => d p * K p q * d q) = Matrix.diagonal d * K * Matrix.diagonal d ∧
      (Matrix.diagonal d)⁻¹ = Matrix.diagonal fun i => (d i)⁻¹ := by
  constructor
  · ext p q
    rw [Matrix.mul_diagonal, Matrix.diagonal_mul, Matrix.of_apply]
  · refine Matrix.inv_eq_left_inv ?_
    rw [Matrix.diagonal_mul_diagonal, ← Matrix.diagonal_one]
    congr 1
    funext i
    exact inv_mul_cancel₀ (hd i)

/-- What a posterior does when rows and columns are multiplied by numbers. -/
theorem post_units {ι : Type} [Fintype ι] [DecidableEq ι] (K : Matrix ι ι ℝ) (d : ι → ℝ) (hd : ∀ i, d i ≠ 0) (e : ℝ) (r y : ι → ℝ) (v : ℝ) :
    (K.PosDef → (Matrix.of fun p q => d p * K p q * d q).PosDef) ∧
      postMean (Matrix.of fun p q => d p * K p q * d q) (fun p => e * r p * d p) (fun p => d p * y p) = e * postMean K r y ∧
      postVar (e ^ 2 * v) (Matrix.of fun p q => d p * K p q * d q) (fun p => e * r p * d p) = e ^ 2 * postVar v K r := by
  obtain ⟨h1, h2⟩ := scaled_inv K d hd
  have hinv : (Matrix.of fun p q => d p * K p q * d q)⁻¹ = Matrix.diagonal (fun i => (d i)⁻¹) * K⁻¹ * Matrix.diagonal (fun i => (d i)⁻¹) := by
    rw [h1, Matrix.mul_inv_rev, Matrix.mul_inv_rev, h2, Matrix.mul_assoc]
  have hform : ∀ y : ι → ℝ, (fun p => e * r p * d p) ⬝ᵥ ((Matrix.of fun p q => d p * K p q * d q)⁻¹ *ᵥ fun p => d p * y p) = e * (r ⬝ᵥ (K⁻¹ *ᵥ y)) := by
    intro y
    rw [hinv, ← Matrix.mulVec_mulVec, ← Matrix.mulVec_mulVec]
    have : (Matrix.diagonal (fun i => (d i)⁻¹) *ᵥ fun p => d p * y p) = y := by
      funext i
      rw [Matrix.mulVec_diagonal]
      exact inv_mul_cancel_left₀ (hd i) _
    rw [this]
    simp only [dotProduct, Matrix.mulVec_diagonal, Finset.mul_sum]
    refine Finset.sum_congr rfl fun i _ => ?_
    have := hd i
    field_simp
  refine ⟨fun hK => ?_, ?_, ?_⟩
  · have hu : IsUnit (Matrix.diagonal d) := by
      rw [Matrix.isUnit_iff_isUnit_det, Matrix.det_diagonal]
      exact (Finset.prod_ne_zero_iff.mpr fun i _ => hd i).isUnit
    have := (Matrix.IsUnit.posDef_star_right_conjugate_iff (x := K) hu).2 hK
    rw [star_eq_conjTranspose, conjTranspose_eq_transpose_of_trivial, Matrix.diagonal_transpose] at this
    rw [h1]
    exact this
  · exact hform y
  · have := hform fun p => e * r p
    have e1 : (fun p => d p * (e * r p)) = fun p => e * r p * d p := by funext p; ring
    rw [e1] at this
    have e2 : (K⁻¹ *ᵥ fun p => e * r p) = e • (K⁻¹ *ᵥ r) := by
      rw [← Matrix.mulVec_smul]
      rfl
    unfold postVar
    rw [← dotProduct_mulVec, ← dotProduct_mulVec, this, e2, dotProduct_smul, smul_eq_mul]
    ring

private theorem npSqrt_units {e : ℝ} (he : 0 < e) (v : ℝ) : npSqrt (e ^ 2 * v) = (npSqrt v).map (e * ·) := by
  unfold npSqrt
  have h2 : (0:ℝ) < e ^ 2 := by positivity
  by_cases hv : v < 0
  · rw [if_pos hv, if_pos (mul_neg_of_pos_of_neg h2 hv)]
    rfl
  · rw [if_neg hv, if_neg (by push Not at hv ⊢; positivity), Real.sqrt_mul h2.le, Real.sqrt_sq he.le]
    rfl

/-- C298: the units of a model of values and gradients.  Where lengths are `c` and values `e` times as large, with widths, scalings and noise in the new
units, the model can be made, too, and its predictions, its uncertainties and their errors are those of the model in the old units, `e` times as large.  Missing:
the regularisation is one number for values and slopes, so that it must be absent or zero unless lengths keep their unit. -/
theorem C298_units_partial {N : ℕ} {c e : ℝ} (hc : 0 < c) (he : 0 < e) (fp : List (Fin N → ℝ)) (t : List ℝ) (grad : List (Fin N → ℝ)) (ks : List (GDict N))
    (hk : ∀ k ∈ ks, k.mult = false) (reg : Option ℝ) (hr : reg.getD 0 = 0 ∨ c = 1) (gp : GradGP N) (h : init fp t grad ks reg false = .ok gp) :
    ∃ gp', init (fp.map (c • ·)) (t.map (e * ·)) (grad.map ((e / c) • ·)) (ks.map (inUnits c e)) (reg.map (e * ·)) false = .ok gp' ∧
      ∀ x, predict gp' (c • x) = (predict gp x).map (Option.map (e * ·)) ∧ uncertainty gp' (c • x) = (uncertainty gp x).map (Option.map (e * ·)) := by
  obtain ⟨h0, h1, h2, h3, h4, hpd, -⟩ := init_false h
  have hd : ∀ p : Ix fp.length N, unit c e p ≠ 0 := by
    intro p
    rcases p with i | ⟨i, a⟩
    · exact he.ne'
    · exact (div_pos he hc).ne'
  have hlast : lastOnly (ks.map (inUnits c e)) = true := by
    unfold lastOnly at h4 ⊢
    rw [← List.map_dropLast, List.all_map]
    rw [List.all_eq_true] at h4 ⊢
    intro k hk'
    have := h4 k hk'
    obtain ⟨g, s, m⟩ := k
    cases g <;> exact this
  -- the new data with the numbering of the old
  have hl : (fp.map (c • ·)).length = fp.length := by simp
  let σ : Fin (fp.map (c • ·)).length ≃ Fin fp.length := finCongr hl
  have hX : (fp.map (c • ·)).get = fun i => (fun j => c • fp.get j) (σ i) := by
    funext i
    simp [σ]
  have hcov : covGrad (ks.map (inUnits c e)) (reg.map (e * ·)) (fp.map (c • ·)).get =
      (Matrix.of fun p q => unit c e p * covGrad ks reg fp.get p q * unit c e q).submatrix (reorder σ) (reorder σ) := by
    rw [hX, reorder_among, ← covGrad_units hc.ne' e ks hk reg hr fp.get]
    exact covGrad_among (ks.map (inUnits c e)) (reg.map (e * ·)) σ σ.injective fun j => c • fp.get j
  have hrow : ∀ x, covRow (ks.map (inUnits c e)) (c • x) (fp.map (c • ·)).get = (fun p => e * covRow ks x fp.get p * unit c e p) ∘ reorder σ := by
    intro x
    rw [hX, reorder_among, ← covRow_units hc.ne' e ks hk x fp.get]
    exact covRow_among (ks.map (inUnits c e)) (c • x) σ fun j => c • fp.get j
  have hvec : vec (fp.map (c • ·)).length (t.map (e * ·) ++ flat (grad.map ((e / c) • ·))) =
      (fun p => unit c e p * vec fp.length (t ++ flat grad) p) ∘ reorder (N := N) σ := by
    funext p
    rcases p with i | ⟨i, a⟩
    · simp only [vec, Function.comp_apply, reorder, Equiv.sumCongr_apply, Sum.map_inl, unit, Sum.elim_inl]
      have hi : i.1 < t.length := by rw [← h1, ← hl]; exact i.2
      have hσ : (σ i).1 = i.1 := rfl
      rw [hσ, List.getD_append _ _ _ _ (by simpa using hi), List.getD_append _ _ _ _ hi, List.getD_eq_getElem _ _ (by simpa using hi),
        List.getD_eq_getElem _ _ hi, List.getElem_map]
    · have hg : grad.length = fp.length := Nat.eq_of_mul_eq_mul_right (Nat.pos_of_ne_zero (by rintro rfl; exact a.elim0)) h2
      rw [(vec_append (t.map (e * ·)) (grad.map ((e / c) • ·)) (by simp [h1]) (by simp [hg])).2]
      have : (reorder (N := N) σ) (.inr (i, a)) = .inr (σ i, a) := rfl
      rw [Function.comp_apply, this, (vec_append t grad h1.symm hg).2, List.getElem_map]
      rfl
  obtain ⟨hp, -⟩ := post_units (covGrad ks reg fp.get) (unit c e) hd e 0 0 0
  have hpd' : (covGrad (ks.map (inUnits c e)) (reg.map (e * ·)) (fp.map (c • ·)).get).PosDef := by
    rw [hcov]
    exact (hp hpd).submatrix (reorder σ).injective
  have hi' := init_of (fp := fp.map (c • ·)) (t := t.map (e * ·)) (grad := grad.map ((e / c) • ·)) (by simpa using h0) (by simpa using h1)
    (by simpa using h2) (by simpa using h3) hlast hpd'
  refine ⟨_, hi', fun x => ?_⟩
  have hpost := fun v => post_units (covGrad ks reg fp.get) (unit c e) hd e (covRow ks x fp.get) (vec fp.length (t ++ flat grad)) v
  constructor
  · rw [(init_predict h x).1, (init_predict hi' (c • x)).1, hcov, hrow, hvec, postMean_reindex, (hpost 0).2.1]
    rfl
  · rw [(init_predict h x).2, (init_predict hi' (c • x)).2, kxx_units hc.ne' e ks hk]
    cases kxx ks x with
    | error err => rfl
    | ok v =>
      cases reg with
      | none => rfl
      | some r =>
        simp only [Option.map_some, Except.map] at hcov ⊢
        rw [hcov, hrow, postVar_reindex, (hpost v).2.2, npSqrt_units he]

/-- A model of two points with another unit of values. -/
example : (∀ k ∈ ([⟨.gaussian ![1], 2, false⟩] : List (GDict 1)), k.mult = false) ∧ ((some (1:ℝ)).getD 0 = 0 ∨ (1:ℝ) = 1) ∧
    ∃ gp : GradGP 1, init [![0], ![2]] [0, 1] [![1], ![2]] [⟨.gaussian ![1], 2, false⟩] (some 1) false = .ok gp :=
  ⟨by simp, .inr rfl, C123_trains _ _ _ _ (by simp) rfl (by simp [GoodGrad]) 1 one_ne_zero false (by simp) (by simp) (by simp)⟩

/-- One point at zero and a Gaussian kernel of width `w`. -/
private theorem one_point (w y d : ℝ) (hw : w ≠ 0) (reg : Option ℝ) (gp : GradGP 1)
    (h : init [![0]] [y] [![d]] [⟨.gaussian ![w], 1, false⟩] reg false = .ok gp) (x : ℝ) :
    predict gp ![x] = .ok (some (Real.exp (-0.5 * (x / w) ^ 2) * (y / (1 + reg.getD 0 ^ 2) + x * d / (1 + w ^ 2 * reg.getD 0 ^ 2)))) := by
  rw [(init_predict h _).1]
  set D : Ix 1 1 → ℝ := Sum.elim (fun _ => 1 + reg.getD 0 ^ 2) (fun _ => w ^ (-2 : ℤ) + reg.getD 0 ^ 2) with hD
  have hw2 : (0:ℝ) < w ^ (-2 : ℤ) := by
    rw [_root_.zpow_neg, zpow_ofNat]
    positivity
  have hD0 : ∀ p, D p ≠ 0 := by
    intro p
    rcases p with p | ⟨p, a⟩ <;> simp only [hD, Sum.elim_inl, Sum.elim_inr] <;> positivity
  have hK : covGrad [(⟨.gaussian ![w], 1, false⟩ : GDict 1)] reg (fun _ : Fin 1 => ![0]) = Matrix.diagonal D := by
    have hr : ∀ p q : Ix 1 1, (match reg with | none => (0 : Matrix (Ix 1 1) (Ix 1 1) ℝ) | some r => Matrix.diagonal fun _ => r ^ 2) p q =
        if p = q then reg.getD 0 ^ 2 else 0 := by
      intro p q
      cases reg with
      | none => simp
      | some r => simp [Matrix.diagonal_apply]
    ext p q
    unfold covGrad
    rw [Matrix.add_apply]
    refine (congrArg _ (hr p q)).trans ?_
    rcases p with p | ⟨p, a⟩ <;> rcases q with q | ⟨q, b⟩
    all_goals
      have := Subsingleton.elim p q
      subst this
      first | (have := Subsingleton.elim a b; subst this) | skip
      simp [gMatrix, gaussXX, gauss, hD, Matrix.fromBlocks, Matrix.diagonal_apply, Subsingleton.elim _ (0 : Fin 1)]
  have hrow : covRow [(⟨.gaussian ![w], 1, false⟩ : GDict 1)] ![x] (fun _ : Fin 1 => ![0]) =
      Sum.elim (fun _ => Real.exp (-0.5 * (x / w) ^ 2)) (fun _ => w ^ (-2 : ℤ) * x * Real.exp (-0.5 * (x / w) ^ 2)) := by
    funext p
    rcases p with p | ⟨p, a⟩ <;> simp [covRow, gRow, gaussXXp, gauss, Subsingleton.elim _ (0 : Fin 1)]
  have hvec : vec (N := 1) 1 [y, d] = Sum.elim (fun _ => y) (fun _ => d) := by
    funext p
    rcases p with p | ⟨p, a⟩ <;> simp [vec, Subsingleton.elim _ (0 : Fin 1)]
  have e0 : (([![0]] : List (Fin 1 → ℝ)).get : Fin 1 → Fin 1 → ℝ) = fun _ : Fin 1 => ![0] := by
    refine funext fun (i : Fin 1) => ?_
    obtain rfl := Subsingleton.elim (α := Fin 1) i 0
    rfl
  have hinv : (Matrix.diagonal D)⁻¹ = Matrix.diagonal fun i => (D i)⁻¹ := (scaled_inv 1 D hD0).2
  have hm : ∀ Y : Fin 1 → Fin 1 → ℝ, (Y = fun _ => ![0]) → postMean (covGrad [(⟨.gaussian ![w], 1, false⟩ : GDict 1)] reg Y)
      (covRow [(⟨.gaussian ![w], 1, false⟩ : GDict 1)] ![x] Y) (vec (N := 1) 1 [y, d]) =
      Real.exp (-0.5 * (x / w) ^ 2) * (y / (1 + reg.getD 0 ^ 2) + x * d / (1 + w ^ 2 * reg.getD 0 ^ 2)) := by
    rintro _ rfl
    rw [hK, hrow, hvec]
    unfold postMean
    rw [hinv]
    simp only [dotProduct, Matrix.mulVec_diagonal, Fintype.sum_sum_type, Sum.elim_inl, Sum.elim_inr, hD, Fintype.sum_prod_type, Finset.univ_unique,
      Finset.sum_singleton]
    have h2 : w ^ (-2 : ℤ) = 1 / w ^ 2 := by
      rw [_root_.zpow_neg, zpow_ofNat, one_div]
    rw [h2]
    have h3 : 1 / w ^ 2 + reg.getD 0 ^ 2 = (1 + w ^ 2 * reg.getD 0 ^ 2) / w ^ 2 := by field_simp
    have h4 : 1 + w ^ 2 * reg.getD 0 ^ 2 ≠ 0 := by positivity
    have h5 : 1 + reg.getD 0 ^ 2 ≠ 0 := by positivity
    rw [h3]
    field_simp
  exact congrArg (fun v => Except.ok (some v)) (hm _ e0)

/-- C298: with regularisation units do matter, whatever the regularisation in the new units: a point at zero with value and slope one, a kernel of width one
and a regularisation of one.  Where lengths are twice as large, no regularisation gives the same predictions. -/
theorem C298_units_violated : ∃ (fp : List (Fin 1 → ℝ)) (t : List ℝ) (grad : List (Fin 1 → ℝ)) (ks : List (GDict 1)) (gp : GradGP 1),
    init fp t grad ks (some 1) false = .ok gp ∧ (∀ k ∈ ks, k.mult = false) ∧
      ∀ (reg' : Option ℝ) (gp' : GradGP 1),
        init (fp.map ((2:ℝ) • ·)) (t.map (1 * ·)) (grad.map (((1:ℝ) / 2) • ·)) (ks.map (inUnits 2 1)) reg' false = .ok gp' →
        ∃ x, predict gp' ((2:ℝ) • x) ≠ (predict gp x).map (Option.map (1 * ·)) := by
  obtain ⟨gp, hg⟩ := C123_trains (N := 1) [![0]] [1] [![1]] [⟨.gaussian ![1], 1, false⟩] (by simp) rfl (by simp [GoodGrad]) 1 one_ne_zero false (by simp)
    (by simp) (by simp)
  refine ⟨_, _, _, _, gp, hg, by simp, fun reg' gp' h' => ?_⟩
  have e1 : ([![0]] : List (Fin 1 → ℝ)).map ((2:ℝ) • ·) = [![0]] := by simp
  have e2 : ([1] : List ℝ).map (1 * ·) = [1] := by simp
  have e3 : ([![1]] : List (Fin 1 → ℝ)).map (((1:ℝ) / 2) • ·) = [![1 / 2]] := by simp
  have e4 : ([⟨.gaussian ![1], 1, false⟩] : List (GDict 1)).map (inUnits 2 1) = [⟨.gaussian ![2], 1, false⟩] := by simp [inUnits, typeUnits, scaleUnits]
  rw [e1, e2, e3, e4] at h'
  by_contra hall
  push Not at hall
  have q := fun x : ℝ => hall ![x]
  have e5 : ∀ x : ℝ, (2:ℝ) • (![x] : Fin 1 → ℝ) = ![2 * x] := fun x => by simp
  simp only [e5, one_point 1 1 1 one_ne_zero (some 1) gp hg, one_point 2 1 (1 / 2) two_ne_zero reg' gp' h', Except.map, Option.map_some, Except.ok.injEq,
    Option.some.injEq, Option.getD_some] at q
  have q0 := q 0
  have q1 := q 1
  norm_num at q0 q1
  rw [q0] at q1
  have h1 : 1 + reg'.getD 0 ^ 2 = 2 := by
    rw [← inv_inv (1 + reg'.getD 0 ^ 2), q0]
    norm_num
  have h2 : reg'.getD 0 ^ 2 = 1 := by linarith
  rw [h2] at q1
  norm_num at q1

end CatLearn.GradProc
