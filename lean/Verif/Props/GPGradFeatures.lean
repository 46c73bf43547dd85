import Verif.Props.GPGradSequential
import Verif.Props.GPRelations

/-!
# The features of models of values and gradients: their order (C299) and coordinates that never change (C300)
-/

namespace CatLearn.GradProc

open CatLearn CatLearn.Kernel CatLearn.Proc Matrix

/-! ### C299: the order of the features -/

/-- A kernel dictionary with the features in another order. -/
def renamed {N : ℕ} (π : Fin N ≃ Fin N) (k : GDict N) : GDict N :=
  { k with gtype := match k.gtype with
    | .gaussian w => .gaussian (w ∘ π)
    | g => g }

/-- The rows of the covariance with points and features in another order. -/
def relabel {n m : Type} {N : ℕ} (e : n ≃ m) (π : Fin N ≃ Fin N) : n ⊕ n × Fin N ≃ m ⊕ m × Fin N :=
  Equiv.sumCongr e (Equiv.prodCongr e π)

private theorem gauss_renamed {N : ℕ} (π : Fin N ≃ Fin N) (w x y : Fin N → ℝ) : gauss (w ∘ π) (x ∘ π) (y ∘ π) = gauss w x y := by
  unfold gauss
  congr 2
  exact Equiv.sum_comp π fun a => (x a / w a - y a / w a) ^ 2

theorem gMatrix_renamed {N : ℕ} {n m : Type} [DecidableEq n] [DecidableEq m] (π : Fin N ≃ Fin N) (e : n ≃ m) (k : GDict N) (X : m → Fin N → ℝ)
    (p q : n ⊕ n × Fin N) : gMatrix (renamed π k).gtype (fun i => X (e i) ∘ π) p q = gMatrix k.gtype X (relabel e π p) (relabel e π q) := by
  obtain ⟨g, s, mu⟩ := k
  cases g with
  | gaussian w =>
    rcases p with i | ⟨i, a⟩ <;> rcases q with j | ⟨j, b⟩ <;>
      simp [renamed, gMatrix, gaussXX, relabel, Matrix.fromBlocks, gauss_renamed]
  | linear =>
    rcases p with i | ⟨i, a⟩ <;> rcases q with j | ⟨j, b⟩ <;> simp [renamed, gMatrix, linearXX, relabel, Matrix.fromBlocks]
    exact Equiv.sum_comp π fun a => X (e i) a * X (e j) a
  | constant c => rcases p with i | ⟨i, a⟩ <;> rcases q with j | ⟨j, b⟩ <;> rfl
  | constantMulti c1 c2 c3 => rcases p with i | ⟨i, a⟩ <;> rcases q with j | ⟨j, b⟩ <;> rfl
  | noiseMulti t1 t2 =>
    rcases p with i | ⟨i, a⟩ <;> rcases q with j | ⟨j, b⟩ <;>
      simp [renamed, gMatrix, noiseMultiXX, relabel, Matrix.fromBlocks, Matrix.diagonal_apply, Prod.ext_iff]

theorem covGrad_renamed {N : ℕ} {n m : Type} [DecidableEq n] [DecidableEq m] (π : Fin N ≃ Fin N) (e : n ≃ m) (ks : List (GDict N)) (reg : Option ℝ)
    (X : m → Fin N → ℝ) : covGrad (ks.map (renamed π)) reg (fun i => X (e i) ∘ π) =
      (covGrad ks reg X).submatrix (relabel e π) (relabel e π) := by
  unfold covGrad
  ext p q
  simp only [Matrix.add_apply, submatrix_apply]
  congr 1
  · induction ks using List.reverseRecOn with
    | nil => rfl
    | append_singleton ks k ih =>
      rw [List.map_append, List.foldl_append, List.foldl_append]
      have hm : (renamed π k).mult = k.mult := rfl
      have hs : (renamed π k).scaling = k.scaling := rfl
      simp only [List.map_cons, List.map_nil, List.foldl_cons, List.foldl_nil, hm, hs]
      cases k.mult <;>
        simp only [Bool.false_eq_true, if_false, if_true, Matrix.add_apply, Matrix.hadamard_apply, Matrix.smul_apply, ih, gMatrix_renamed]
  · cases reg with
    | none => rfl
    | some r => simp [Matrix.diagonal_apply]

theorem covRow_renamed {N n m : ℕ} (π : Fin N ≃ Fin N) (e : Fin n ≃ Fin m) (ks : List (GDict N)) (x : Fin N → ℝ) (X : Fin m → Fin N → ℝ) :
    covRow (ks.map (renamed π)) (x ∘ π) (fun i => X (e i) ∘ π) = covRow ks x X ∘ relabel e π := by
  have hrow : ∀ (k : GDict N) (p : Ix n N), gRow (renamed π k).gtype (x ∘ π) (fun i => X (e i) ∘ π) p = gRow k.gtype x X (relabel e π p) := by
    intro k p
    obtain ⟨g, s, mu⟩ := k
    cases g with
    | gaussian w =>
      rcases p with i | ⟨i, a⟩ <;> simp [renamed, gRow, gaussXXp, relabel, gauss_renamed]
    | linear =>
      rcases p with i | ⟨i, a⟩ <;> simp [renamed, gRow, relabel]
      exact Equiv.sum_comp π fun a => x a * X (e i) a
    | constant c => rcases p with i | ⟨i, a⟩ <;> rfl
    | constantMulti c1 c2 c3 => rcases p with i | ⟨i, a⟩ <;> rfl
    | noiseMulti t1 t2 => rfl
  unfold covRow
  funext p
  simp only [Function.comp_apply]
  induction ks using List.reverseRecOn with
  | nil => rfl
  | append_singleton ks k ih =>
    rw [List.map_append, List.foldl_append, List.foldl_append]
    have hm : (renamed π k).mult = k.mult := rfl
    have hs : (renamed π k).scaling = k.scaling := rfl
    simp only [List.map_cons, List.map_nil, List.foldl_cons, List.foldl_nil, hm, hs]
    cases k.mult <;> simp only [Bool.false_eq_true, if_false, if_true, ih, hrow]

theorem kxx_renamed {N : ℕ} (π : Fin N ≃ Fin N) (ks : List (GDict N)) (x : Fin N → ℝ) : kxx (ks.map (renamed π)) (x ∘ π) = kxx ks x := by
  unfold kxx
  generalize (0 : ℝ) = c
  induction ks generalizing c with
  | nil => rfl
  | cons k ks ih =>
    have : gDiag (renamed π k).gtype (x ∘ π) = gDiag k.gtype x := by
      obtain ⟨g, s, mu⟩ := k
      cases g with
      | gaussian w => simp only [renamed, gDiag, gauss_renamed]
      | linear =>
        simp only [renamed, gDiag]
        congr 1
        exact Equiv.sum_comp π fun a => x a * x a
      | _ => rfl
    simp only [List.map_cons, List.foldlM_cons, this]
    cases gDiag k.gtype x with
    | error e => rfl
    | ok q => exact ih _

theorem lastOnly_renamed {N : ℕ} (π : Fin N ≃ Fin N) (ks : List (GDict N)) : lastOnly (ks.map (renamed π)) = lastOnly ks := by
  unfold lastOnly
  rw [← List.map_dropLast, List.all_map]
  congr 1
  funext k
  obtain ⟨g, s, mu⟩ := k
  cases g <;> rfl

/-- Two models of the same data with the features in different order. -/
theorem finish_renamed {N : ℕ} (π : Fin N ≃ Fin N) (g g' : GradGP N) (h1 : g'.kernels = g.kernels.map (renamed π)) (h2 : g'.reg = g.reg)
    (e : Fin g'.fp.length ≃ Fin g.fp.length) (hX : g'.fp.get = fun i => g.fp.get (e i) ∘ π) (h4 : g'.nan = g.nan)
    (h5 : ∀ x, g'.scaleRow (x ∘ π) = g.scaleRow x ∘ π) (h5' : ∀ p, g'.rescale p = g.rescale p) (h5'' : g'.tstd = g.tstd)
    (h6 : g'.target.length = g.target.length)
    (hv : g.target.length = g.fp.length + g.fp.length * N → vec (N := N) g'.fp.length g'.target = vec g.fp.length g.target ∘ relabel e π) :
    (∀ er, finish g true = .error er → finish g' true = .error er) ∧
    ∀ r, finish g true = .ok r →
      ∃ r', finish g' true = .ok r' ∧ ∀ x, predict r' (x ∘ π) = predict r x ∧ uncertainty r' (x ∘ π) = uncertainty r x := by
  have hlen : g'.fp.length = g.fp.length := by simpa using Fintype.card_congr e
  have hK : covGrad g'.kernels g'.reg g'.fp.get = (covGrad g.kernels g.reg g.fp.get).submatrix (relabel e π) (relabel e π) := by
    rw [hX, h1, h2]
    exact covGrad_renamed π e g.kernels g.reg g.fp.get
  have hrow : ∀ x, covRow g'.kernels (x ∘ π) g'.fp.get = covRow g.kernels x g.fp.get ∘ relabel e π := by
    intro x
    rw [hX, h1]
    exact covRow_renamed π e g.kernels x g.fp.get
  have hdet : IsUnit (covGrad g'.kernels g'.reg g'.fp.get).det ↔ IsUnit (covGrad g.kernels g.reg g.fp.get).det := by
    rw [hK, det_submatrix_equiv_self]
  have hpd : (covGrad g'.kernels g'.reg g'.fp.get).PosDef ↔ (covGrad g.kernels g.reg g.fp.get).PosDef := by
    rw [hK]
    constructor
    · intro h
      have := h.submatrix (e := (relabel e π).symm) (relabel e π).symm.injective
      simpa using this
    · intro h
      exact h.submatrix (relabel e π).injective
  have hemp : g'.kernels.isEmpty = g.kernels.isEmpty := by rw [h1, List.isEmpty_map]
  have hlast : lastOnly g'.kernels = lastOnly g.kernels := by rw [h1, lastOnly_renamed]
  have hf := finish_eq g' true _ _ _ hdet hpd rfl
  have hf0 := finish_eq g true _ _ _ Iff.rfl Iff.rfl rfl
  simp only [hemp, hlast, h2, h6, hlen] at hf
  constructor
  · intro er h
    rw [hf0] at h
    rw [hf]
    repeat' split at h
    all_goals first | (cases h; done) | skip
    all_goals simp_all
  · intro r h
    obtain ⟨k1, k2, rfl, k4, k5⟩ := finish_ok h
    obtain ⟨k4, k6⟩ := k4 rfl
    have ht' : g'.target.length = g'.fp.length + g'.fp.length * N := by rw [h6, k6, hlen]
    refine ⟨_, finish_of (gp := g') (hemp.trans k1) (hdet.2 k2) (hlast.trans (k5 rfl)) (hpd.2 k4) ht', fun x => ?_⟩
    obtain ⟨p1, -⟩ := predict_trained g k6 k1 (covGrad g.kernels g.reg g.fp.get)⁻¹ x
    obtain ⟨p2, -⟩ := predict_trained g' ht' (hemp.trans k1) (covGrad g'.kernels g'.reg g'.fp.get)⁻¹ (x ∘ π)
    have hp : predict { g' with cinv := ⟨g'.fp.length, (covGrad g'.kernels g'.reg g'.fp.get)⁻¹⟩ } (x ∘ π) =
        predict { g with cinv := ⟨g.fp.length, (covGrad g.kernels g.reg g.fp.get)⁻¹⟩ } x := by
      rw [p1, p2, h4, h5, h5', hrow, hv k6, hK]
      have := postMean_reindex (relabel e π) (covGrad g.kernels g.reg g.fp.get) (covRow g.kernels (g.scaleRow x) g.fp.get)
        (vec g.fp.length g.target)
      unfold postMean at this
      rw [this]
    refine ⟨hp, ?_⟩
    obtain ⟨-, q1⟩ := predict_trained g k6 k1 (covGrad g.kernels g.reg g.fp.get)⁻¹ (g.scaleRow x)
    obtain ⟨-, q2⟩ := predict_trained g' ht' (hemp.trans k1) (covGrad g'.kernels g'.reg g'.fp.get)⁻¹ (g.scaleRow x ∘ π)
    have hvar : variance { g' with cinv := ⟨g'.fp.length, (covGrad g'.kernels g'.reg g'.fp.get)⁻¹⟩ } (g.scaleRow x ∘ π) =
        variance { g with cinv := ⟨g.fp.length, (covGrad g.kernels g.reg g.fp.get)⁻¹⟩ } (g.scaleRow x) := by
      rw [q1, q2, hrow, hK, h1, kxx_renamed]
      have := postMean_reindex (relabel e π) (covGrad g.kernels g.reg g.fp.get) (covRow g.kernels (g.scaleRow x) g.fp.get)
        (covRow g.kernels (g.scaleRow x) g.fp.get)
      unfold postMean at this
      rw [this]
    have s1 : ∀ c, ({ g' with cinv := c } : GradGP N).scaleRow (x ∘ π) = g.scaleRow x ∘ π := fun c => h5 x
    have s2 : ∀ c, ({ g with cinv := c } : GradGP N).scaleRow x = g.scaleRow x := fun c => rfl
    have s3 : ∀ c c', ({ g' with cinv := c } : GradGP N).tstd = ({ g with cinv := c' } : GradGP N).tstd := fun c c' => h5''
    unfold uncertainty
    rw [hp, s1, s2, hvar, s3 _ ⟨g.fp.length, (covGrad g.kernels g.reg g.fp.get)⁻¹⟩]
    simp only [h2]
    rfl

private theorem vec_renamed {N : ℕ} (π : Fin N ≃ Fin N) (fp : List (Fin N → ℝ)) (t : List ℝ) (grad : List (Fin N → ℝ)) (ht : fp.length = t.length)
    (hg : grad.length * N = fp.length * N) (fp' : List (Fin N → ℝ)) (hl : fp'.length = fp.length) :
    vec (N := N) fp'.length (t ++ flat (grad.map (· ∘ π))) = vec fp.length (t ++ flat grad) ∘ relabel (finCongr hl) π := by
  funext p
  rcases p with i | ⟨i, a⟩
  · simp only [vec, Function.comp_apply, relabel, Equiv.sumCongr_apply, Sum.map_inl]
    have hi : i.1 < t.length := by rw [← ht, ← hl]; exact i.2
    have hσ : (finCongr hl i).1 = i.1 := rfl
    rw [hσ, List.getD_append _ _ _ _ hi, List.getD_append _ _ _ _ hi]
  · have hg' : grad.length = fp.length := Nat.eq_of_mul_eq_mul_right (Nat.pos_of_ne_zero (by rintro rfl; exact a.elim0)) hg
    rw [(vec_append t (grad.map (· ∘ π)) (by rw [hl, ht]) (by simp [hg', hl])).2]
    have : relabel (finCongr hl) π (.inr (i, a)) = .inr (finCongr hl i, π a) := rfl
    rw [Function.comp_apply, this, (vec_append t grad ht.symm hg').2, List.getElem_map]
    rfl

/-- C299: the order of the features is immaterial to a model of values and gradients: with the features, the components of the gradients and the widths of the
kernels in another order it can be made or not as before, and gives the same predictions, uncertainties and errors, with or without scaling of the data. -/
theorem C299_order {N : ℕ} (π : Fin N ≃ Fin N) (fp : List (Fin N → ℝ)) (t : List ℝ) (grad : List (Fin N → ℝ)) (ks : List (GDict N)) (reg : Option ℝ)
    (sd : Bool) :
    (∀ er, init fp t grad ks reg sd = .error er → init (fp.map (· ∘ π)) t (grad.map (· ∘ π)) (ks.map (renamed π)) reg sd = .error er) ∧
    ∀ gp, init fp t grad ks reg sd = .ok gp → ∃ gp', init (fp.map (· ∘ π)) t (grad.map (· ∘ π)) (ks.map (renamed π)) reg sd = .ok gp' ∧
      ∀ x, predict gp' (x ∘ π) = predict gp x ∧ uncertainty gp' (x ∘ π) = uncertainty gp x := by
  unfold init update
  simp only [List.length_map, List.isEmpty_map]
  split
  · exact ⟨fun _ h => h, fun _ h => by cases h⟩
  rename_i hl
  push Not at hl
  split
  · exact ⟨fun _ h => h, fun _ h => by cases h⟩
  cases sd with
  | false =>
    simp only [Bool.false_eq_true, if_false]
    have hlen : (fp.map (· ∘ π)).length = fp.length := by simp
    refine finish_renamed π ⟨ks, reg, false, fp, t ++ flat grad, false, none, ⟨0, 1⟩⟩
      ⟨ks.map (renamed π), reg, false, fp.map (· ∘ π), t ++ flat (grad.map (· ∘ π)), false, none, ⟨0, 1⟩⟩ rfl rfl (finCongr hlen) ?_ rfl
      (fun _ => rfl) (fun _ => rfl) rfl (by simp [flat_length]) fun h => ?_
    · funext i
      simp
    · refine vec_renamed π fp t grad hl ?_ _ hlen
      simp only [List.length_append, flat_length] at h
      omega
  | true =>
    simp only [if_true]
    have hs := scalOf_select π fp t
    rw [hs]
    generalize scalOf fp t = s
    set s' : Scal N := ⟨s.fmean ∘ π, s.fstd ∘ π, s.tmean, s.tstd⟩ with hs'
    have r1 : ∀ x, s'.row (x ∘ π) = s.row x ∘ π := fun x => rfl
    have e1 : (fp.map (· ∘ π)).map s'.row = (fp.map s.row).map (· ∘ π) := by
      rw [List.map_map, List.map_map]
      rfl
    have e2 : (grad.map (· ∘ π)).map (scaleGrad s') = (grad.map (scaleGrad s)).map (· ∘ π) := by
      rw [List.map_map, List.map_map]
      rfl
    have e3 : t.map s'.tgt = t.map s.tgt := rfl
    rw [e1, e2, e3]
    have hlen : ((fp.map s.row).map (· ∘ π)).length = (fp.map s.row).length := by simp
    refine finish_renamed π ⟨ks, reg, true, fp.map s.row, t.map s.tgt ++ flat (grad.map (scaleGrad s)), decide (s.tstd = 0), some s, ⟨0, 1⟩⟩
      ⟨ks.map (renamed π), reg, true, (fp.map s.row).map (· ∘ π), t.map s.tgt ++ flat ((grad.map (scaleGrad s)).map (· ∘ π)), decide (s.tstd = 0), some s',
        ⟨0, 1⟩⟩ rfl rfl (finCongr hlen) ?_ rfl (fun _ => rfl) (fun _ => rfl) rfl (by simp [flat_length]) fun h => ?_
    · funext i
      simp
    · refine vec_renamed π (fp.map s.row) (t.map s.tgt) (grad.map (scaleGrad s)) (by simpa using hl) ?_ _ hlen
      simp only [List.length_append, flat_length, List.length_map] at h ⊢
      omega

/-- Two features in another order, with scaled data. -/
example : ∃ gp : GradGP 2, init [![(-1:ℝ), 1], ![1, 3]] [0, 2] [![1, 0], ![0, 2]] [⟨.gaussian ![1, 2], 1, false⟩] (some 1) true = .ok gp :=
  C123_trains _ _ _ _ (by simp) rfl (by simp [GoodGrad]) 1 one_ne_zero true (by simp) rfl rfl

/-! ### C300: coordinates that never change -/

/-- A kernel dictionary for one more feature, the first one, which has the width `u`. -/
def moreFeature {N : ℕ} (u : ℝ) (k : GDict N) : GDict (N + 1) :=
  { gtype := match k.gtype with
      | .gaussian w => .gaussian (Fin.cons u w)
      | .linear => .linear
      | .constant c => .constant c
      | .constantMulti c1 c2 c3 => .constantMulti c1 c2 c3
      | .noiseMulti t1 t2 => .noiseMulti t1 t2
    scaling := k.scaling
    mult := k.mult }

/-- A kernel of differences: Gaussian kernels, constants and noise that are added. -/
def DiffKernel {N : ℕ} (k : GDict N) : Prop :=
  k.mult = false ∧ match k.gtype with
    | .gaussian _ => True
    | .constant _ => True
    | .noiseMulti _ _ => True
    | _ => False

private theorem gauss_cons {N : ℕ} (u v : ℝ) (w x y : Fin N → ℝ) : gauss (Fin.cons u w) (Fin.cons v x) (Fin.cons v y : Fin (N + 1) → ℝ) = gauss w x y := by
  unfold gauss
  rw [Fin.sum_univ_succ]
  simp

/-- Rows of the covariance: the values and slopes along the other features, and the slopes along the new one. -/
def splitFirst {n : Type} {N : ℕ} : (n ⊕ n × Fin N) ⊕ n → n ⊕ n × Fin (N + 1)
  | .inl (.inl i) => .inl i
  | .inl (.inr (i, a)) => .inr (i, a.succ)
  | .inr i => .inr (i, 0)

theorem splitFirst_bijective {n : Type} {N : ℕ} : (splitFirst (n := n) (N := N)).Bijective := by
  constructor
  · rintro ((i | ⟨i, a⟩) | i) ((j | ⟨j, b⟩) | j) h <;> simp_all [splitFirst, Fin.succ_ne_zero, (Fin.succ_ne_zero _).symm]
  · rintro (i | ⟨i, a⟩)
    · exact ⟨.inl (.inl i), rfl⟩
    · refine Fin.cases ⟨.inr i, rfl⟩ (fun a => ⟨.inl (.inr (i, a)), rfl⟩) a

theorem gMatrix_more {N : ℕ} {n : Type} [DecidableEq n] (u v : ℝ) (k : GDict N) (hk : DiffKernel k) (X : n → Fin N → ℝ) :
    (∀ p q, gMatrix (moreFeature u k).gtype (fun i => (Fin.cons v (X i) : Fin (N + 1) → ℝ)) (splitFirst (.inl p)) (splitFirst (.inl q)) =
      gMatrix k.gtype X p q) ∧
    ∀ p i, gMatrix (moreFeature u k).gtype (fun i => (Fin.cons v (X i) : Fin (N + 1) → ℝ)) (splitFirst (.inl p)) (splitFirst (.inr i)) = 0 ∧
      gMatrix (moreFeature u k).gtype (fun i => (Fin.cons v (X i) : Fin (N + 1) → ℝ)) (splitFirst (.inr i)) (splitFirst (.inl p)) = 0 := by
  obtain ⟨g, s, mu⟩ := k
  obtain ⟨-, hg⟩ := hk
  cases g with
  | gaussian w =>
    refine ⟨fun p q => ?_, fun p i => ?_⟩
    · rcases p with i | ⟨i, a⟩ <;> rcases q with j | ⟨j, b⟩ <;>
        simp [moreFeature, gMatrix, gaussXX, splitFirst, Matrix.fromBlocks, gauss_cons]
    · rcases p with j | ⟨j, b⟩ <;>
        simp [moreFeature, gMatrix, gaussXX, splitFirst, Matrix.fromBlocks, gauss_cons, Fin.succ_ne_zero, (Fin.succ_ne_zero _).symm]
  | constant c =>
    refine ⟨fun p q => ?_, fun p i => ?_⟩
    · rcases p with i | ⟨i, a⟩ <;> rcases q with j | ⟨j, b⟩ <;> rfl
    · rcases p with j | ⟨j, b⟩ <;> exact ⟨rfl, rfl⟩
  | noiseMulti t1 t2 =>
    refine ⟨fun p q => ?_, fun p i => ?_⟩
    · rcases p with i | ⟨i, a⟩ <;> rcases q with j | ⟨j, b⟩ <;>
        simp [moreFeature, gMatrix, noiseMultiXX, splitFirst, Matrix.fromBlocks, Matrix.diagonal_apply]
    · rcases p with j | ⟨j, b⟩ <;>
        simp [moreFeature, gMatrix, noiseMultiXX, splitFirst, Matrix.fromBlocks, Matrix.diagonal_apply, Fin.succ_ne_zero, (Fin.succ_ne_zero _).symm]
  | linear => exact hg.elim
  | constantMulti c1 c2 c3 => exact hg.elim

theorem covGrad_more {N : ℕ} {n : Type} [DecidableEq n] (u v : ℝ) (ks : List (GDict N)) (hk : ∀ k ∈ ks, DiffKernel k) (reg : Option ℝ) (X : n → Fin N → ℝ) :
    ∃ B : Matrix n n ℝ, (covGrad (ks.map (moreFeature u)) reg fun i => (Fin.cons v (X i) : Fin (N + 1) → ℝ)).submatrix splitFirst splitFirst =
      Matrix.fromBlocks (covGrad ks reg X) 0 0 B := by
  have h0 : ∀ ks' : List (GDict N), (∀ k ∈ ks', DiffKernel k) →
      (∀ p q, (ks'.map (moreFeature u)).foldl (fun cov k =>
        if k.mult then Matrix.hadamard cov (k.scaling • gMatrix k.gtype fun i => (Fin.cons v (X i) : Fin (N + 1) → ℝ))
        else cov + k.scaling • gMatrix k.gtype fun i => (Fin.cons v (X i) : Fin (N + 1) → ℝ)) 0 (splitFirst (.inl p)) (splitFirst (.inl q)) =
      ks'.foldl (fun cov k =>
        if k.mult then Matrix.hadamard cov (k.scaling • gMatrix k.gtype X) else cov + k.scaling • gMatrix k.gtype X) 0 p q) ∧
      ∀ p i, (ks'.map (moreFeature u)).foldl (fun cov k =>
        if k.mult then Matrix.hadamard cov (k.scaling • gMatrix k.gtype fun i => (Fin.cons v (X i) : Fin (N + 1) → ℝ))
        else cov + k.scaling • gMatrix k.gtype fun i => (Fin.cons v (X i) : Fin (N + 1) → ℝ)) 0 (splitFirst (.inl p)) (splitFirst (.inr i)) = 0 ∧
      (ks'.map (moreFeature u)).foldl (fun cov k =>
        if k.mult then Matrix.hadamard cov (k.scaling • gMatrix k.gtype fun i => (Fin.cons v (X i) : Fin (N + 1) → ℝ))
        else cov + k.scaling • gMatrix k.gtype fun i => (Fin.cons v (X i) : Fin (N + 1) → ℝ)) 0 (splitFirst (.inr i)) (splitFirst (.inl p)) = 0 := by
    intro ks' hk'
    induction ks' using List.reverseRecOn with
    | nil => exact ⟨fun _ _ => rfl, fun _ _ => ⟨rfl, rfl⟩⟩
    | append_singleton ks' k ih =>
      obtain ⟨i1, i2⟩ := ih fun k hk => hk' k (by simp [hk])
      have hm : k.mult = false := (hk' k (by simp)).1
      have hm' : (moreFeature u k).mult = false := hm
      have hs : (moreFeature u k).scaling = k.scaling := rfl
      obtain ⟨g1, g2⟩ := gMatrix_more u v k (hk' k (by simp)) X
      rw [List.map_append, List.foldl_append, List.foldl_append]
      simp only [List.map_cons, List.map_nil, List.foldl_cons, List.foldl_nil, hm, hm', hs, Bool.false_eq_true, if_false, Matrix.add_apply,
        Matrix.smul_apply, smul_eq_mul, i1, g1, (i2 _ _).1, (i2 _ _).2, (g2 _ _).1, (g2 _ _).2, mul_zero, add_zero]
      exact ⟨fun _ _ => trivial, fun _ _ => ⟨trivial, trivial⟩⟩
  obtain ⟨h1, h2⟩ := h0 ks hk
  have hr : ∀ p q : (n ⊕ n × Fin N) ⊕ n, (match reg with
      | none => (0 : Matrix (n ⊕ n × Fin (N + 1)) (n ⊕ n × Fin (N + 1)) ℝ)
      | some r => Matrix.diagonal fun _ => r ^ 2) (splitFirst p) (splitFirst q) = if p = q then reg.getD 0 ^ 2 else 0 := by
    intro p q
    cases reg with
    | none => simp
    | some r => simp [Matrix.diagonal_apply, splitFirst_bijective.injective.eq_iff]
  have hr' : ∀ p q : n ⊕ n × Fin N, (match reg with
      | none => (0 : Matrix (n ⊕ n × Fin N) (n ⊕ n × Fin N) ℝ)
      | some r => Matrix.diagonal fun _ => r ^ 2) p q = if p = q then reg.getD 0 ^ 2 else 0 := by
    intro p q
    cases reg with
    | none => simp
    | some r => simp [Matrix.diagonal_apply]
  refine ⟨Matrix.of fun i j => covGrad (ks.map (moreFeature u)) reg (fun i => (Fin.cons v (X i) : Fin (N + 1) → ℝ)) (splitFirst (.inr i)) (splitFirst (.inr j)), ?_⟩
  ext p q
  rcases p with p | i <;> rcases q with q | j
  · simp only [Matrix.submatrix_apply, Matrix.fromBlocks_apply₁₁, covGrad, Matrix.add_apply]
    exact congrArg₂ (· + ·) (h1 p q) ((hr _ _).trans (((hr' p q).trans (by simp)).symm))
  · simp only [Matrix.submatrix_apply, Matrix.fromBlocks_apply₁₂, covGrad, Matrix.add_apply, Matrix.zero_apply]
    rw [(h2 p j).1, zero_add]
    exact (hr (.inl p) (.inr j)).trans (by simp)
  · simp only [Matrix.submatrix_apply, Matrix.fromBlocks_apply₂₁, covGrad, Matrix.add_apply, Matrix.zero_apply]
    rw [(h2 q i).2, zero_add]
    exact (hr (.inr i) (.inl q)).trans (by simp)
  · rfl

theorem covRow_more {N n : ℕ} (u v : ℝ) (ks : List (GDict N)) (hk : ∀ k ∈ ks, DiffKernel k) (x : Fin N → ℝ) (X : Fin n → Fin N → ℝ) :
    (covRow (ks.map (moreFeature u)) (Fin.cons v x : Fin (N + 1) → ℝ) fun i => (Fin.cons v (X i) : Fin (N + 1) → ℝ)) ∘ splitFirst =
      Sum.elim (covRow ks x X) 0 := by
  have hrow : ∀ k : GDict N, DiffKernel k → (gRow (moreFeature u k).gtype (Fin.cons v x : Fin (N + 1) → ℝ) fun i => (Fin.cons v (X i) : Fin (N + 1) → ℝ)) ∘ splitFirst =
      Sum.elim (gRow k.gtype x X) 0 := by
    intro k hk
    obtain ⟨g, s, mu⟩ := k
    obtain ⟨-, hg⟩ := hk
    funext p
    cases g with
    | gaussian w =>
      rcases p with (i | ⟨i, a⟩) | i <;> simp [moreFeature, gRow, gaussXXp, splitFirst, gauss_cons]
    | constant c => rcases p with (i | ⟨i, a⟩) | i <;> rfl
    | noiseMulti t1 t2 => rcases p with (i | ⟨i, a⟩) | i <;> rfl
    | linear => exact hg.elim
    | constantMulti c1 c2 c3 => exact hg.elim
  funext p
  induction ks using List.reverseRecOn with
  | nil => rcases p with p | i <;> rfl
  | append_singleton ks k ih =>
    have ih := ih fun k hk' => hk k (by simp [hk'])
    have hm : k.mult = false := (hk k (by simp)).1
    have hm' : (moreFeature u k).mult = false := hm
    have hs : (moreFeature u k).scaling = k.scaling := rfl
    have hg := congrFun (hrow k (hk k (by simp))) p
    unfold covRow at ih ⊢
    simp only [Function.comp_apply] at ih hg ⊢
    rw [List.map_append, List.foldl_append, List.foldl_append]
    simp only [List.map_cons, List.map_nil, List.foldl_cons, List.foldl_nil, hm, hm', hs, Bool.false_eq_true, if_false, ih, hg]
    rcases p with p | i <;> simp

theorem kxx_more {N : ℕ} (u v : ℝ) (ks : List (GDict N)) (hk : ∀ k ∈ ks, DiffKernel k) (x : Fin N → ℝ) :
    kxx (ks.map (moreFeature u)) (Fin.cons v x : Fin (N + 1) → ℝ) = kxx ks x := by
  unfold kxx
  generalize (0 : ℝ) = c
  induction ks generalizing c with
  | nil => rfl
  | cons k ks ih =>
    have : gDiag (moreFeature u k).gtype (Fin.cons v x : Fin (N + 1) → ℝ) = gDiag k.gtype x := by
      have hd := (hk k (by simp)).2
      obtain ⟨g, s, mu⟩ := k
      cases g with
      | gaussian w => simp only [moreFeature, gDiag, gauss_cons]
      | linear => exact hd.elim
      | _ => rfl
    simp only [List.map_cons, List.foldlM_cons, this]
    cases gDiag k.gtype x with
    | error e => rfl
    | ok q => exact ih (fun k h => hk k (by simp [h])) _

/-- The posterior of a covariance of two blocks, where a new point is correlated with the first. -/
theorem block_units {n m : Type} [Fintype n] [Fintype m] [DecidableEq n] [DecidableEq m] (A : Matrix n n ℝ) (B : Matrix m m ℝ) (uA : IsUnit A.det)
    (uB : IsUnit B.det) (r : n → ℝ) (y : n ⊕ m → ℝ) (c : ℝ) :
    postMean (Matrix.fromBlocks A 0 0 B) (Sum.elim r 0) y = postMean A r (y ∘ .inl) ∧
      postVar c (Matrix.fromBlocks A 0 0 B) (Sum.elim r 0) = postVar c A r := by
  have hi : (Matrix.fromBlocks A 0 0 B)⁻¹ = Matrix.fromBlocks A⁻¹ 0 0 B⁻¹ := by
    refine Matrix.inv_eq_left_inv ?_
    rw [Matrix.fromBlocks_multiply]
    simp [Matrix.nonsing_inv_mul _ uA, Matrix.nonsing_inv_mul _ uB, Matrix.fromBlocks_one]
  have hf : ∀ y : n ⊕ m → ℝ, Sum.elim r 0 ⬝ᵥ ((Matrix.fromBlocks A 0 0 B)⁻¹ *ᵥ y) = r ⬝ᵥ (A⁻¹ *ᵥ (y ∘ .inl)) := by
    intro y
    rw [hi, Matrix.fromBlocks_mulVec]
    simp [dotProduct, Fintype.sum_sum_type]
  refine ⟨hf y, ?_⟩
  unfold postVar
  rw [← dotProduct_mulVec, ← dotProduct_mulVec, hf]
  rfl

private theorem block_post {n m : Type} [Fintype n] [Fintype m] [DecidableEq n] [DecidableEq m] (A : Matrix n n ℝ) (B : Matrix m m ℝ)
    (h : (Matrix.fromBlocks A 0 0 B).PosDef) (r : n → ℝ) (y : n ⊕ m → ℝ) (c : ℝ) :
    A.PosDef ∧ postMean (Matrix.fromBlocks A 0 0 B) (Sum.elim r 0) y = postMean A r (y ∘ .inl) ∧
      postVar c (Matrix.fromBlocks A 0 0 B) (Sum.elim r 0) = postVar c A r := by
  have hA : A.PosDef := by
    have := h.submatrix (e := (Sum.inl : n → n ⊕ m)) Sum.inl_injective
    exact this
  have hB : B.PosDef := by
    have := h.submatrix (e := (Sum.inr : m → n ⊕ m)) Sum.inr_injective
    exact this
  exact ⟨hA, block_units A B hA.det_pos.ne'.isUnit hB.det_pos.ne'.isUnit r y c⟩

/-- C300: a coordinate that never changes does not matter, nor do the slopes along it.  If a model of values and gradients can be made with a further
feature that has the same value `v` at all points, whatever the slopes along it and its width, then it can be made without it, and gives the same predictions
and uncertainties at all points that share the value `v`. -/
theorem C300_frozen {N : ℕ} (u v : ℝ) (fp : List (Fin N → ℝ)) (t : List ℝ) (grad : List (Fin (N + 1) → ℝ)) (ks : List (GDict N))
    (hk : ∀ k ∈ ks, DiffKernel k) (reg : Option ℝ) (gp : GradGP (N + 1))
    (h : init (fp.map fun x => (Fin.cons v x : Fin (N + 1) → ℝ)) t grad (ks.map (moreFeature u)) reg false = .ok gp) :
    ∃ gp', init fp t (grad.map Fin.tail) ks reg false = .ok gp' ∧
      ∀ x, predict gp (Fin.cons v x) = predict gp' x ∧ uncertainty gp (Fin.cons v x) = uncertainty gp' x := by
  obtain ⟨h0, h1, h2, h3, h4, hpd, -⟩ := init_false h
  have hl : (fp.map fun x => (Fin.cons v x : Fin (N + 1) → ℝ)).length = fp.length := by simp
  have hg : grad.length = fp.length := by
    rw [hl] at h2
    exact Nat.eq_of_mul_eq_mul_right (Nat.succ_pos N) h2
  let σ : Fin (fp.map fun x => (Fin.cons v x : Fin (N + 1) → ℝ)).length ≃ Fin fp.length := finCongr hl
  have hX : (fp.map fun x => (Fin.cons v x : Fin (N + 1) → ℝ)).get = fun i => (fun j => (Fin.cons v (fp.get j) : Fin (N + 1) → ℝ)) (σ i) := by
    funext i
    simp [σ]
  let ρ : Ix fp.length N ⊕ Fin fp.length ≃ Ix (fp.map fun x => (Fin.cons v x : Fin (N + 1) → ℝ)).length (N + 1) :=
    (Equiv.ofBijective _ splitFirst_bijective).trans (reorder σ).symm
  have hρ : ∀ p, reorder σ (ρ p) = splitFirst p := fun p => by simp [ρ]
  obtain ⟨B, hB⟩ := covGrad_more u v ks hk reg fp.get
  have hK : (covGrad (ks.map (moreFeature u)) reg (fp.map fun x => (Fin.cons v x : Fin (N + 1) → ℝ)).get).submatrix ρ ρ =
      Matrix.fromBlocks (covGrad ks reg fp.get) 0 0 B := by
    rw [← hB, hX, covGrad_among (ks.map (moreFeature u)) reg σ σ.injective fun j => (Fin.cons v (fp.get j) : Fin (N + 1) → ℝ), ← reorder_among]
    ext p q
    simp only [Matrix.submatrix_apply, hρ]
  have hrow : ∀ x, covRow (ks.map (moreFeature u)) (Fin.cons v x : Fin (N + 1) → ℝ) (fp.map fun x => (Fin.cons v x : Fin (N + 1) → ℝ)).get ∘ ρ =
      Sum.elim (covRow ks x fp.get) 0 := by
    intro x
    rw [← covRow_more u v ks hk x fp.get, hX, covRow_among (ks.map (moreFeature u)) (Fin.cons v x) σ fun j => (Fin.cons v (fp.get j) : Fin (N + 1) → ℝ),
      ← reorder_among]
    funext p
    simp only [Function.comp_apply, hρ]
  have hvec : (vec (fp.map fun x => (Fin.cons v x : Fin (N + 1) → ℝ)).length (t ++ flat grad) ∘ ρ) ∘ .inl = vec (N := N) fp.length (t ++ flat (grad.map Fin.tail)) := by
    obtain ⟨a1, a2⟩ := vec_append (N := N + 1) t grad h1.symm (hg.trans hl.symm)
    obtain ⟨b1, b2⟩ := vec_append (N := N) t (grad.map Fin.tail) (h1.symm.trans hl) (by simpa using hg)
    funext p
    rcases p with i | ⟨i, a⟩
    · have : ρ (.inl (.inl i)) = .inl (σ.symm i) := rfl
      simp only [Function.comp_apply]
      rw [this, a1, b1]
      rfl
    · have : ρ (.inl (.inr (i, a))) = .inr (σ.symm i, a.succ) := rfl
      simp only [Function.comp_apply]
      rw [this, a2, b2, List.getElem_map]
      rfl
  have hpd' : (Matrix.fromBlocks (covGrad ks reg fp.get) 0 0 B).PosDef := by
    rw [← hK]
    exact hpd.submatrix ρ.injective
  have hpost := fun r (y : Ix fp.length N ⊕ Fin fp.length → ℝ) c => block_post (covGrad ks reg fp.get) B hpd' r y c
  have hlast : lastOnly ks = true := by
    unfold lastOnly at h4 ⊢
    rw [← List.map_dropLast, List.all_map] at h4
    rw [List.all_eq_true] at h4 ⊢
    intro k hk'
    have := h4 k hk'
    obtain ⟨g, s, m⟩ := k
    cases g <;> exact this
  have hi' := init_of (fp := fp) (t := t) (grad := grad.map Fin.tail) (by simpa using h0) (by simpa using h1)
    (by simp [hg]) (by simpa using h3) hlast (hpost 0 0 0).1
  refine ⟨_, hi', fun x => ?_⟩
  constructor
  · rw [(init_predict h _).1, (init_predict hi' x).1, ← postMean_reindex ρ, hK, hrow, (hpost _ _ 0).2.1, hvec]
  · rw [(init_predict h _).2, (init_predict hi' x).2, kxx_more u v ks hk]
    cases kxx ks x with
    | error err => rfl
    | ok c =>
      simp only
      rw [← postVar_reindex ρ, hK, hrow, (hpost _ 0 c).2.2]

/-- Two points with a second coordinate that is the same, and slopes along both. -/
example : (∀ k ∈ ([⟨.gaussian ![1], 2, false⟩, ⟨.noiseMulti 1 1, 1, false⟩] : List (GDict 1)), DiffKernel k) ∧
    ∃ gp : GradGP 2, init (([![0], ![2]] : List (Fin 1 → ℝ)).map fun x => (Fin.cons 5 x : Fin 2 → ℝ)) [0, 1] [![3, 1], ![4, 2]]
      (([⟨.gaussian ![1], 2, false⟩, ⟨.noiseMulti 1 1, 1, false⟩] : List (GDict 1)).map (moreFeature 1)) (some 1) false = .ok gp :=
  ⟨by simp [DiffKernel], C123_trains _ _ _ _ (by simp) rfl (by simp [GoodGrad, moreFeature]) 1 one_ne_zero false (by simp) (by simp) (by simp)⟩

end CatLearn.GradProc
