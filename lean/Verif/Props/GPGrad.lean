import Verif.Model.GPGrad
import Verif.Props.KernelGrad
import Verif.Props.GPState
import Verif.Props.GPPredict

/-!
# Gaussian processes with gradients (C123, C209, C210)
-/

namespace CatLearn.GradProc

open CatLearn CatLearn.Kernel CatLearn.Proc CatLearn.Scaling Matrix

/-! ### Auxiliary facts -/

theorem flat_length {N : ℕ} (g : List (Fin N → ℝ)) : (flat g).length = g.length * N := by
  induction g with
  | nil => simp [flat]
  | cons r g ih =>
    simp only [flat, List.flatMap_cons, List.length_append, List.length_ofFn, List.length_cons] at ih ⊢
    rw [ih]; ring

private theorem flat_getD {N : ℕ} (g : List (Fin N → ℝ)) (i : ℕ) (hi : i < g.length) (a : Fin N) :
    (flat g).getD (i * N + a) 0 = g[i] a := by
  induction g generalizing i with
  | nil => simp at hi
  | cons r g ih =>
    have e : flat (r :: g) = List.ofFn r ++ flat g := rfl
    rw [e]
    cases i with
    | zero =>
      rw [List.getD_append _ _ _ _ (by simp)]
      simp [List.getD_eq_getElem?_getD]
    | succ i =>
      rw [List.getD_append_right _ _ _ _ (by simp; rw [Nat.succ_mul]; omega)]
      rw [List.length_ofFn, show (i + 1) * N + (a : ℕ) - N = i * N + a by rw [Nat.succ_mul]; omega,
        ih i (by simpa using hi)]
      simp

theorem vec_append {N n : ℕ} (t : List ℝ) (g : List (Fin N → ℝ)) (ht : t.length = n) (hg : g.length = n) :
    (∀ i : Fin n, vec (N := N) n (t ++ flat g) (.inl i) = t[i.val]'(by omega)) ∧
      ∀ (i : Fin n) (a : Fin N), vec n (t ++ flat g) (.inr (i, a)) = (g[i.val]'(by omega)) a := by
  constructor
  · intro i
    simp only [vec]
    rw [List.getD_append _ _ _ _ (by omega), List.getD_eq_getElem _ _ (by omega)]
  · intro i a
    simp only [vec]
    rw [List.getD_append_right _ _ _ _ (by omega), ht, Nat.add_sub_cancel_left, flat_getD g i (by omega)]

theorem finish_ok {N : ℕ} {gp gp' : GradGP N} {lml : Bool} (h : finish gp lml = .ok gp') :
    gp.kernels.isEmpty = false ∧ IsUnit (covGrad gp.kernels gp.reg gp.fp.get).det ∧
      gp' = { gp with cinv := ⟨gp.fp.length, (covGrad gp.kernels gp.reg gp.fp.get)⁻¹⟩ } ∧
      (lml = true → (covGrad gp.kernels gp.reg gp.fp.get).PosDef ∧ gp.target.length = gp.fp.length + gp.fp.length * N) ∧
      (lml = true → lastOnly gp.kernels = true) := by
  unfold finish at h
  split at h
  · split at h <;> cases h
  · rename_i hk
    simp only at h
    split at h
    · cases h
    · rename_i hdet
      split at h
      · rename_i hl
        cases h
        refine ⟨by simpa using hk, by simpa using hdet, rfl, fun h => absurd h hl, fun h => absurd h hl⟩
      · split at h
        · cases h
        rename_i hlo
        split at h
        · cases h
        · rename_i hpd
          split at h
          · cases h
          · rename_i hlen
            cases h
            exact ⟨by simpa using hk, by simpa using hdet, rfl, fun _ => ⟨by simpa using hpd, by simpa using hlen⟩, fun _ => by simpa using hlo⟩

theorem finish_of {N : ℕ} {gp : GradGP N} (h1 : gp.kernels.isEmpty = false) (h2 : IsUnit (covGrad gp.kernels gp.reg gp.fp.get).det)
    (h0 : lastOnly gp.kernels = true) (h3 : (covGrad gp.kernels gp.reg gp.fp.get).PosDef) (h4 : gp.target.length = gp.fp.length + gp.fp.length * N) :
    finish gp true = .ok { gp with cinv := ⟨gp.fp.length, (covGrad gp.kernels gp.reg gp.fp.get)⁻¹⟩ } := by
  unfold finish
  rw [if_neg (by simp [h1])]
  simp only
  rw [if_neg (by simpa using h2.ne_zero), if_neg (by simp), if_neg (by simp [h0]), if_neg (by simpa using h3), if_neg (by simpa using h4)]

/-- The covariance of a training point with the training data is its row of the covariance, except for noise kernels. -/
theorem covRow_self {N n : ℕ} (ks : List (GDict N)) (hn : ∀ k ∈ ks, ∀ t1 t2, k.gtype ≠ .noiseMulti t1 t2)
    (X : Fin n → Fin N → ℝ) (i : Fin n) : covRow ks (X i) X = fun p => covGrad ks none X (.inl i) p := by
  unfold covRow covGrad
  simp only [add_zero]
  induction ks using List.reverseRecOn with
  | nil => rfl
  | append_singleton ks k ih =>
    have h1 := ih fun k hk => hn k (by simp [hk])
    rw [List.foldl_append, List.foldl_append]
    simp only [List.foldl_cons, List.foldl_nil]
    have h2 : ∀ p, gRow k.gtype (X i) X p = gMatrix k.gtype X (.inl i) p := by
      intro p
      have hk := hn k (by simp)
      cases hg : k.gtype with
      | gaussian w =>
        rcases p with j | ⟨j, a⟩
        · rfl
        · simp only [gRow, gMatrix, gaussXX, gaussXXp, fromBlocks_apply₁₂, of_apply]
          rw [gauss_symm w (X i)]
          ring
      | linear => rcases p with j | ⟨j, a⟩ <;> rfl
      | constant c => rcases p with j | ⟨j, a⟩ <;> rfl
      | constantMulti c1 c2 c3 => rcases p with j | ⟨j, a⟩ <;> rfl
      | noiseMulti t1 t2 => exact absurd hg (hk t1 t2)
    cases k.mult with
    | false =>
      funext p
      simp only [Bool.false_eq_true, if_false, Matrix.add_apply, Matrix.smul_apply, smul_eq_mul, h2]
      rw [h1]
    | true =>
      funext p
      simp only [if_true, Matrix.hadamard_apply, Matrix.smul_apply, smul_eq_mul, h2]
      rw [h1]

private theorem covRow_sum {N n : ℕ} (ks : List (GDict N)) (hk : ∀ k ∈ ks, k.mult = false) (x : Fin N → ℝ)
    (X : Fin n → Fin N → ℝ) (p : Ix n N) : covRow ks x X p = (ks.map fun k => k.scaling * gRow k.gtype x X p).sum := by
  unfold covRow
  induction ks using List.reverseRecOn with
  | nil => simp
  | append_singleton ks k ih =>
    rw [List.foldl_append, List.map_append, List.sum_append, ← ih fun k hk' => hk k (by simp [hk'])]
    simp [hk k (by simp)]

private theorem covGrad_sum' {N n : ℕ} (ks : List (GDict N)) (hk : ∀ k ∈ ks, k.mult = false)
    (X : Fin n → Fin N → ℝ) (p q : Ix n N) :
    covGrad ks none X p q = (ks.map fun k => k.scaling * gMatrix k.gtype X p q).sum := by
  unfold covGrad
  rw [add_zero]
  induction ks using List.reverseRecOn with
  | nil => simp
  | append_singleton ks k ih =>
    rw [List.foldl_append, List.map_append, List.sum_append, ← ih fun k hk' => hk k (by simp [hk'])]
    simp [hk k (by simp)]

private theorem deriv_list_sum {ι : Type} (l : List ι) (f : ι → ℝ → ℝ) (f' : ι → ℝ) (t : ℝ)
    (h : ∀ i ∈ l, HasDerivAt (f i) (f' i) t) :
    HasDerivAt (fun s => (l.map fun i => f i s).sum) (l.map f').sum t := by
  induction l with
  | nil => simpa using hasDerivAt_const t (0:ℝ)
  | cons i l ih =>
    simp only [List.map_cons, List.sum_cons]
    exact (h i (by simp)).fun_add (ih fun j hj => h j (by simp [hj]))

/-- Gaussian kernels with positive widths and constant kernels, all added: the derivative of the covariance with the training
data is the row of the derivative. -/
theorem covRow_deriv {N n : ℕ} (ks : List (GDict N)) (hk : ∀ k ∈ ks, SumKernel k) (X : Fin n → Fin N → ℝ) (i : Fin n)
    (a : Fin N) (p : Ix n N) :
    HasDerivAt (fun s => covRow ks (Function.update (X i) a s) X p) (covGrad ks none X (.inr (i, a)) p) (X i a) := by
  have hm : ∀ k ∈ ks, k.mult = false := fun k h => (hk k h).1
  simp only [covRow_sum ks hm, covGrad_sum' ks hm]
  refine deriv_list_sum ks _ _ _ fun k h => HasDerivAt.const_mul _ ?_
  have hg := (hk k h).2
  cases hk' : k.gtype <;> rw [hk'] at hg <;> try exact hg.elim
  · next w =>
    have hw : ∀ a, w a ≠ 0 := fun a => (hg a).ne'
    rcases p with j | ⟨j, b⟩
    · have h1 := hasDerivAt_gauss_left w (X i) (X j) hw a (X i a)
      rw [Function.update_eq_self] at h1
      exact h1
    · have h1 := (((hasDerivAt_update_apply (X i) a b (X i a)).const_sub (X j b)).const_mul ((w b) ^ (-2 : ℤ))).fun_mul
        (hasDerivAt_gauss_left w (X i) (X j) hw a (X i a))
      rw [Function.update_eq_self] at h1
      have h2 := h1.fun_neg
      refine h2.congr_deriv ?_
      rw [show gMatrix (.gaussian w) X (.inr (i, a)) (.inr (j, b)) = gaussXX w X (.inr (i, a)) (.inr (j, b)) from rfl]
      simp only [gaussXX, fromBlocks_apply₂₂, of_apply]
      rw [gauss_symm w (X j)]
      by_cases hab : a = b
      · subst hab; simp; ring
      · simp [hab, Ne.symm hab]; ring
  · rcases p with j | ⟨j, b⟩ <;> exact hasDerivAt_const _ _

private theorem covGrad_noReg {N n : ℕ} (ks : List (GDict N)) (reg : Option ℝ) (hr : reg = none ∨ reg = some 0)
    (X : Fin n → Fin N → ℝ) : covGrad ks reg X = covGrad ks none X := by
  rcases hr with rfl | rfl
  · rfl
  · simp [covGrad]

/-- What a model made with gradients is. -/
theorem init_ok {N : ℕ} {fp : List (Fin N → ℝ)} {t : List ℝ} {grad : List (Fin N → ℝ)} {ks : List (GDict N)} {reg : Option ℝ}
    {sd : Bool} {gp : GradGP N} (h : init fp t grad ks reg sd = .ok gp) :
    fp.length = t.length ∧ ks.isEmpty = false ∧ gp.kernels = ks ∧ gp.reg = reg ∧ gp.scaleData = sd ∧ grad.length * N = fp.length * N ∧
    gp.fp = fp.map gp.scaleRow ∧ IsUnit (covGrad ks reg gp.fp.get).det ∧ (covGrad ks reg gp.fp.get).PosDef ∧
    gp.cinv = ⟨gp.fp.length, (covGrad ks reg gp.fp.get)⁻¹⟩ ∧
    ∃ s : Scal N, s = (if sd then scalOf fp t else ⟨0, fun _ => 1, 0, 1⟩) ∧ gp.target = t.map s.tgt ++ flat (grad.map (scaleGrad s)) ∧
      (gp.nan = false → s.tstd ≠ 0) ∧ (∀ x, gp.scaleRow x = s.row x) ∧ (∀ p, gp.rescale p = s.untgt p) := by
  unfold init at h
  split at h
  · cases h
  rename_i hlen
  have hlen : fp.length = t.length := by simpa using hlen
  unfold update at h
  split at h
  · cases h
  simp only at h
  cases sd with
  | true =>
    simp only [if_true] at h
    obtain ⟨h1, h2, rfl, h4, -⟩ := finish_ok h
    obtain ⟨h4, h5⟩ := h4 rfl
    simp only [List.length_append, List.length_map, flat_length] at h5
    refine ⟨hlen, h1, rfl, rfl, rfl, by omega, rfl, h2, h4, rfl, scalOf fp t, by simp, rfl, by simp, fun _ => rfl, fun _ => rfl⟩
  | false =>
    simp only [Bool.false_eq_true, if_false] at h
    obtain ⟨h1, h2, rfl, h4, -⟩ := finish_ok h
    obtain ⟨h4, h5⟩ := h4 rfl
    simp only [List.length_append, flat_length] at h5
    refine ⟨hlen, h1, rfl, rfl, rfl, by omega, ?_, h2, h4, rfl, ⟨0, fun _ => 1, 0, 1⟩, by simp, ?_, by simp, ?_, ?_⟩
    · exact (List.map_id fp).symm
    · have e1 : (Scal.tgt (N := N) ⟨0, fun _ => 1, 0, 1⟩) = id := by funext x; simp [Scal.tgt]
      have e2 : (scaleGrad (N := N) ⟨0, fun _ => 1, 0, 1⟩) = id := by funext x a; simp [scaleGrad]
      simp [e1, e2]
    · intro x; funext a; simp [GradGP.scaleRow, Scal.row]
    · intro p; simp [GradGP.rescale, Scal.untgt]

theorem fstd_ne {N : ℕ} (fp : List (Fin N → ℝ)) (t : List ℝ) (sd : Bool) (s : Scal N)
    (hs : s = (if sd then scalOf fp t else ⟨0, fun _ => 1, 0, 1⟩)) (a : Fin N) : s.fstd a ≠ 0 := by
  subst hs
  cases sd with
  | false => simp
  | true =>
    simp only [if_true, scalOf, placeOnes]
    split
    · exact one_ne_zero
    · assumption

/-! ### C123: a model trained on values and gradients reproduces them -/

/-- The prediction of a model made with gradients, as a function. -/
theorem predict_eq {N : ℕ} {fp : List (Fin N → ℝ)} {t : List ℝ} {grad : List (Fin N → ℝ)} {ks : List (GDict N)}
    {reg : Option ℝ} {sd : Bool} {gp : GradGP N} (h : init fp t grad ks reg sd = .ok gp) (hnan : gp.nan = false) (x : Fin N → ℝ) :
    predict gp x = .ok (some (gp.rescale (covRow ks (gp.scaleRow x) gp.fp.get ⬝ᵥ
      ((covGrad ks reg gp.fp.get)⁻¹ *ᵥ vec gp.fp.length gp.target)))) := by
  obtain ⟨h1, h2, h3, h4, h5, h6, h7, h8, h9, h10, s, hs, h11, h12, h13, h14⟩ := init_ok h
  have hl : gp.fp.length = fp.length := by rw [h7]; simp
  have ht : gp.target.length = gp.fp.length + gp.fp.length * N := by
    rw [h11, hl]; simp only [List.length_append, List.length_map, flat_length]; omega
  unfold predict
  rw [h3, h2]
  simp only [Bool.false_eq_true, if_false, hnan]
  rw [if_neg (by rw [h10]; simp only [not_or, not_not]; exact ⟨trivial, ht⟩)]
  have key : ∀ c : (n : ℕ) × Matrix (Ix n N) (Ix n N) ℝ, c = ⟨gp.fp.length, (covGrad ks reg gp.fp.get)⁻¹⟩ →
      covRow ks (gp.scaleRow x) (fun i : Fin c.1 => gp.fp.getD i 0) ⬝ᵥ (c.2 *ᵥ vec c.1 gp.target) =
        covRow ks (gp.scaleRow x) gp.fp.get ⬝ᵥ ((covGrad ks reg gp.fp.get)⁻¹ *ᵥ vec gp.fp.length gp.target) := by
    intro c hc
    subst hc
    congr 2
    funext i
    simp
  rw [key gp.cinv h10]

/-- C123: without regularisation and noise kernels, a model made with gradients predicts the training targets at the training
points, whatever the other kernels and with or without scaling. -/
theorem C123_values {N : ℕ} (fp : List (Fin N → ℝ)) (t : List ℝ) (grad : List (Fin N → ℝ)) (ks : List (GDict N)) (reg : Option ℝ)
    (hr : reg = none ∨ reg = some 0) (sd : Bool) (hn : ∀ k ∈ ks, ∀ t1 t2, k.gtype ≠ .noiseMulti t1 t2) (gp : GradGP N)
    (h : init fp t grad ks reg sd = .ok gp) (hnan : gp.nan = false) (hN : 0 < N) (i : ℕ) (hi : i < fp.length) (hi' : i < t.length) :
    predict gp fp[i] = .ok (some t[i]) := by
  obtain ⟨h1, h2, h3, h4, h5, h6, h7, h8, h9, h10, s, hs, h11, h12, h13, h14⟩ := init_ok h
  have hl : gp.fp.length = fp.length := by rw [h7]; simp
  have hg : grad.length = fp.length := Nat.eq_of_mul_eq_mul_right hN h6
  rw [predict_eq h hnan]
  have hrow : gp.scaleRow fp[i] = gp.fp.get ⟨i, by omega⟩ := by
    have : gp.fp[i]'(by omega) = gp.scaleRow fp[i] := by
      conv_lhs => rw [List.getElem_of_eq h7]
      simp
    exact this.symm
  rw [hrow, covRow_self ks hn, ← covGrad_noReg ks reg hr]
  have e : (fun p => covGrad ks reg gp.fp.get (Sum.inl ⟨i, by omega⟩) p) ⬝ᵥ
      ((covGrad ks reg gp.fp.get)⁻¹ *ᵥ vec gp.fp.length gp.target) = vec (N := N) gp.fp.length gp.target (.inl ⟨i, by omega⟩) := by
    change (covGrad ks reg gp.fp.get *ᵥ _) _ = _
    rw [mulVec_mulVec, mul_nonsing_inv _ h8, one_mulVec]
  rw [e, h14, h11, (vec_append (N := N) (t.map s.tgt) (grad.map (scaleGrad s)) (by simp; omega) (by simp; omega)).1]
  have := h12 hnan
  simp only [List.getElem_map, Scal.untgt, Scal.tgt]
  congr 2
  field_simp
  ring

/-- C123 (`_partial`: Gaussian and constant kernels that are added; see the violations): without regularisation the prediction
of a model made with gradients is a differentiable function through the training targets at the training points, whose slopes there are
the training gradients, with or without scaling of the data. -/
theorem C123_slopes_partial {N : ℕ} (fp : List (Fin N → ℝ)) (t : List ℝ) (grad : List (Fin N → ℝ)) (ks : List (GDict N))
    (hk : ∀ k ∈ ks, SumKernel k) (reg : Option ℝ) (hr : reg = none ∨ reg = some 0) (sd : Bool) (gp : GradGP N)
    (h : init fp t grad ks reg sd = .ok gp) (hnan : gp.nan = false) :
    ∃ f : (Fin N → ℝ) → ℝ, (∀ x, predict gp x = .ok (some (f x))) ∧
      ∀ (i : ℕ) (hi : i < fp.length) (hi' : i < grad.length) (a : Fin N),
        HasDerivAt (fun u => f (Function.update fp[i] a u)) (grad[i] a) (fp[i] a) := by
  obtain ⟨h1, h2, h3, h4, h5, h6, h7, h8, h9, h10, s, hs, h11, h12, h13, h14⟩ := init_ok h
  have hl : gp.fp.length = fp.length := by rw [h7]; simp
  refine ⟨_, fun x => predict_eq h hnan x, ?_⟩
  intro i hi hi' a
  have hN : 0 < N := a.pos
  have hg : grad.length = fp.length := Nat.eq_of_mul_eq_mul_right hN h6
  have hf := fstd_ne fp t sd s hs a
  have ht := h12 hnan
  set α := (covGrad ks reg gp.fp.get)⁻¹ *ᵥ vec gp.fp.length gp.target with hα
  set X := gp.fp.get with hX
  let i' : Fin gp.fp.length := ⟨i, by omega⟩
  have hrow : X i' = s.row fp[i] := by
    have : gp.fp[i]'(by omega) = gp.scaleRow fp[i] := by
      conv_lhs => rw [List.getElem_of_eq h7]
      simp
    rw [← h13]
    exact this
  have hupd : ∀ u, gp.scaleRow (Function.update fp[i] a u) = Function.update (X i') a ((u - s.fmean a) / s.fstd a) := by
    intro u
    rw [h13, hrow]
    funext b
    by_cases hb : b = a
    · subst hb; simp [Scal.row]
    · simp [Scal.row, hb]
  have hd : HasDerivAt (fun v => covRow ks (Function.update (X i') a v) X ⬝ᵥ α)
      (∑ p, covGrad ks none X (.inr (i', a)) p * α p) (X i' a) :=
    HasDerivAt.fun_sum fun p _ => (covRow_deriv ks hk X i' a p).mul_const (α p)
  have hval : (∑ p, covGrad ks none X (.inr (i', a)) p * α p) = grad[i] a / (s.tstd / s.fstd a) := by
    have e : (covGrad ks reg X *ᵥ α) (.inr (i', a)) = vec (N := N) gp.fp.length gp.target (.inr (i', a)) := by
      rw [hα, mulVec_mulVec, mul_nonsing_inv _ h8, one_mulVec]
    rw [covGrad_noReg ks reg hr] at e
    have e2 : (covGrad ks none X *ᵥ α) (.inr (i', a)) = ∑ p, covGrad ks none X (.inr (i', a)) p * α p := rfl
    rw [← e2, e, h11, (vec_append (N := N) (t.map s.tgt) (grad.map (scaleGrad s)) (by simp; omega) (by simp; omega)).2]
    simp [scaleGrad, i']
  rw [hval] at hd
  have hin : HasDerivAt (fun u => (u - s.fmean a) / s.fstd a) (1 / s.fstd a) (fp[i] a) :=
    ((hasDerivAt_id' (fp[i] a)).sub_const (s.fmean a)).div_const (s.fstd a)
  have hx : X i' a = (fp[i] a - s.fmean a) / s.fstd a := by rw [hrow]; rfl
  rw [hx] at hd
  have hcomp := (HasDerivAt.comp (fp[i] a) hd hin)
  have hfin := (hcomp.mul_const s.tstd).add_const s.tmean
  simp only [hupd, h14]
  refine hfin.congr_deriv ?_
  field_simp

/-- C123 is violated with a product of kernels: without regularisation a Gaussian kernel times a constant cannot be trained on
gradients (LinAlgError). -/
theorem C123_product_violated {N : ℕ} (w : Fin N → ℝ) (c : ℝ) (fp : List (Fin N → ℝ)) (t : List ℝ) (grad : List (Fin N → ℝ)) (hN : 0 < N)
    (hfp : fp ≠ []) (ht : fp.length = t.length) : 
    init fp t grad [⟨.gaussian w, 1, false⟩, ⟨.constant c, 1, true⟩] none false = .error .linalg := by
  unfold init
  rw [if_neg (by simpa using ht)]
  unfold update
  rw [if_neg (by simpa using hfp)]
  simp only [Bool.false_eq_true, if_false]
  unfold finish
  simp only [List.isEmpty_cons, Bool.false_eq_true, if_false]
  rw [if_pos]
  have hpos : 0 < fp.length := List.length_pos_iff.2 hfp
  have : (covGrad [⟨.gaussian w, 1, false⟩, ⟨.constant c, 1, true⟩] none fp.get).det = 0 := by
    apply Matrix.det_eq_zero_of_row_eq_zero (.inr (⟨0, hpos⟩, ⟨0, hN⟩))
    intro q
    rcases q with j | ⟨j, b⟩ <;> simp [covGrad, gMatrix, constantXX]
  rw [this]
  simp

/-- C123 is violated with a linear kernel, whose covariance with gradients is no covariance (C106): training fails, here for one
point with two features. -/
theorem C123_linear_violated (t : ℝ) (g : Fin 2 → ℝ) :
    init [![1, 0]] [t] [g] [⟨.linear, 1, false⟩] none false = .error .linalg := by
  unfold init
  rw [if_neg (by simp)]
  unfold update
  rw [if_neg (by simp)]
  simp only [Bool.false_eq_true, if_false]
  unfold finish
  simp only [List.isEmpty_cons, Bool.false_eq_true, if_false]
  split
  · rfl
  · rw [if_neg (by simp), if_neg (by simp [lastOnly]), if_pos]
    intro hp
    refine C106_linear_violated ?_
    have e : (fun _ : Fin 1 => ![(1:ℝ), 0]) = [![1, 0]].get := by funext i; fin_cases i; rfl
    rw [e]
    exact hp.posSemidef

/-- With regularisation a model can be made of any data and any kernels whose covariance is positive semidefinite (C106),
multi kernels last. -/
theorem C123_trains {N : ℕ} (fp : List (Fin N → ℝ)) (t : List ℝ) (grad : List (Fin N → ℝ)) (ks : List (GDict N)) (hks : ks ≠ [])
    (hlo : lastOnly ks = true) (hk : ∀ k ∈ ks, GoodGrad k) (r : ℝ) (hr : r ≠ 0) (sd : Bool) (hfp : fp ≠ []) (ht : fp.length = t.length)
    (hg : grad.length = fp.length) : ∃ gp, init fp t grad ks (some r) sd = .ok gp := by
  have key : ∀ gp : GradGP N, gp.kernels = ks → gp.reg = some r → gp.target.length = gp.fp.length + gp.fp.length * N →
      ∃ gp', finish gp true = .ok gp' := by
    intro gp h1 h2 h3
    obtain ⟨h4, h5⟩ := (C106_gradient_covariance_partial ks hk gp.fp.get).2 r hr
    subst h1
    rw [← h2] at h4 h5
    exact ⟨_, finish_of (by simpa using hks) h5 hlo h4 h3⟩
  unfold init
  rw [if_neg (by simpa using ht)]
  unfold update
  rw [if_neg (by simpa using hfp)]
  cases sd with
  | true =>
    simp only [if_true]
    refine key _ rfl rfl ?_
    simp only [List.length_append, List.length_map, flat_length]
    rw [hg]
    omega
  | false =>
    simp only [Bool.false_eq_true, if_false]
    refine key _ rfl rfl ?_
    simp only [List.length_append, flat_length]
    rw [hg]
    omega

/-- Without regularisation: one point and a Gaussian kernel of width one. -/
example (t : ℝ) (g : Fin 1 → ℝ) : (∃ gp, init [![0]] [t] [g] [⟨.gaussian ![1], 1, false⟩] none false = .ok gp ∧ gp.nan = false) ∧
    SumKernel (N := 1) ⟨.gaussian ![1], 1, false⟩ := by
  have hK : covGrad [⟨.gaussian ![1], 1, false⟩] none [![(0 : ℝ)]].get = 1 := by
    ext p q
    rcases p with i | ⟨i, a⟩ <;> rcases q with j | ⟨j, b⟩ <;> fin_cases i <;> fin_cases j <;> try fin_cases a
    all_goals try fin_cases b
    all_goals simp [covGrad, gMatrix, gaussXX, gauss, Matrix.one_apply]
  refine ⟨?_, rfl, by simp⟩
  have h : ∃ gp, init [![0]] [t] [g] [⟨.gaussian ![1], 1, false⟩] none false = .ok gp := by
    unfold init
    rw [if_neg (by simp)]
    unfold update
    rw [if_neg (by simp)]
    simp only [Bool.false_eq_true, if_false]
    exact ⟨_, finish_of rfl (by simp only; rw [hK]; simp) rfl (by simp only; rw [hK]; exact Matrix.PosDef.one) (by simp [flat])⟩
  obtain ⟨gp, h⟩ := h
  refine ⟨gp, h, ?_⟩
  unfold init at h
  rw [if_neg (by simp)] at h
  unfold update at h
  rw [if_neg (by simp)] at h
  simp only [Bool.false_eq_true, if_false] at h
  obtain ⟨-, -, rfl, -, -⟩ := finish_ok h
  rfl

/-! ### C209: the uncertainty of a model with gradients -/

private theorem covGrad_entry {N : ℕ} {n : Type} [DecidableEq n] (ks : List (GDict N)) (X : n → Fin N → ℝ) (p q : n ⊕ n × Fin N) :
    covGrad ks none X p q = ks.foldl (fun c k => if k.mult then c * (k.scaling * gMatrix k.gtype X p q)
      else c + k.scaling * gMatrix k.gtype X p q) 0 := by
  unfold covGrad
  rw [add_zero]
  induction ks using List.reverseRecOn with
  | nil => rfl
  | append_singleton ks k ih =>
    rw [List.foldl_append, List.foldl_append, ← ih]
    simp only [List.foldl_cons, List.foldl_nil]
    cases k.mult <;> rfl

private theorem covRow_entry {N n : ℕ} (ks : List (GDict N)) (x : Fin N → ℝ) (X : Fin n → Fin N → ℝ) (p : Ix n N) :
    covRow ks x X p = ks.foldl (fun c k => if k.mult then c * (k.scaling * gRow k.gtype x X p)
      else c + k.scaling * gRow k.gtype x X p) 0 := by
  unfold covRow
  induction ks using List.reverseRecOn with
  | nil => rfl
  | append_singleton ks k ih =>
    rw [List.foldl_append, List.foldl_append, ← ih]
    simp only [List.foldl_cons, List.foldl_nil]
    cases k.mult <;> rfl

private theorem foldl_eq {N : ℕ} (ks : List (GDict N)) (f g : GType N → ℝ) (h : ∀ k ∈ ks, f k.gtype = g k.gtype) (c : ℝ) :
    ks.foldl (fun c k => if k.mult then c * (k.scaling * f k.gtype) else c + k.scaling * f k.gtype) c =
      ks.foldl (fun c k => if k.mult then c * (k.scaling * g k.gtype) else c + k.scaling * g k.gtype) c := by
  induction ks generalizing c with
  | nil => rfl
  | cons k ks ih =>
    simp only [List.foldl_cons]
    rw [h k (by simp), ih fun k hk => h k (by simp [hk])]

private theorem kxx_error {N : ℕ} (ks : List (GDict N)) (x : Fin N → ℝ) (h : ∃ k ∈ ks, ∃ c1 c2 c3, k.gtype = .constantMulti c1 c2 c3) :
    kxx ks x = .error .assertion := by
  unfold kxx
  generalize (0 : ℝ) = c
  induction ks generalizing c with
  | nil => simp at h
  | cons k ks ih =>
    simp only [List.foldlM_cons, bind, Except.bind]
    cases hg : k.gtype with
    | constantMulti c1 c2 c3 => rfl
    | _ =>
      simp only [gDiag]
      apply ih
      obtain ⟨k', hk', h'⟩ := h
      rcases List.mem_cons.1 hk' with rfl | hk'
      · simp [hg] at h'
      · exact ⟨k', hk', h'⟩

theorem kxx_ok {N n : ℕ} (ks : List (GDict N)) (x : Fin N → ℝ)
    (h : ∀ k ∈ ks, ∀ c1 c2 c3, k.gtype ≠ .constantMulti c1 c2 c3) (X : Fin n → Fin N → ℝ) :
    kxx ks x = .ok (covGrad ks none (Sum.elim X fun _ : Unit => x) (.inl (.inr ())) (.inl (.inr ()))) := by
  rw [covGrad_entry]
  unfold kxx
  generalize (0 : ℝ) = c
  induction ks generalizing c with
  | nil => rfl
  | cons k ks ih =>
    have hd : gDiag k.gtype x = .ok (gMatrix k.gtype (Sum.elim X fun _ : Unit => x) (.inl (.inr ())) (.inl (.inr ()))) := by
      have := h k (by simp)
      cases hg : k.gtype with
      | constantMulti c1 c2 c3 => exact absurd hg (this c1 c2 c3)
      | noiseMulti t1 t2 => simp [gDiag, gMatrix, noiseMultiXX]
      | _ => rfl
    simp only [List.foldlM_cons, bind, Except.bind, hd, List.foldl_cons]
    exact ih (fun k hk => h k (by simp [hk])) _

/-- The training data among training data and a new point. -/
private def old {n N : ℕ} : Ix n N → (Fin n ⊕ Unit) ⊕ (Fin n ⊕ Unit) × Fin N
  | .inl i => .inl (.inl i)
  | .inr (i, a) => .inr (.inl i, a)

private theorem joint_old {N n : ℕ} (ks : List (GDict N)) (x : Fin N → ℝ) (X : Fin n → Fin N → ℝ) (p q : Ix n N) :
    covGrad ks none (Sum.elim X fun _ : Unit => x) (old p) (old q) = covGrad ks none X p q := by
  rw [covGrad_entry, covGrad_entry]
  refine foldl_eq ks (fun g => gMatrix g (Sum.elim X fun _ : Unit => x) (old p) (old q)) (fun g => gMatrix g X p q) (fun k _ => ?_) 0
  cases k.gtype with
  | noiseMulti t1 t2 =>
    rcases p with i | ⟨i, a⟩ <;> rcases q with j | ⟨j, b⟩ <;>
      simp [old, gMatrix, noiseMultiXX, Matrix.diagonal_apply]
  | _ => rcases p with i | ⟨i, a⟩ <;> rcases q with j | ⟨j, b⟩ <;> rfl

private theorem joint_new {N n : ℕ} (ks : List (GDict N)) (x : Fin N → ℝ) (X : Fin n → Fin N → ℝ) (p : Ix n N) :
    covGrad ks none (Sum.elim X fun _ : Unit => x) (.inl (.inr ())) (old p) = covRow ks x X p := by
  rw [covGrad_entry, covRow_entry]
  refine foldl_eq ks (fun g => gMatrix g (Sum.elim X fun _ : Unit => x) (.inl (.inr ())) (old p)) (fun g => gRow g x X p) (fun k _ => ?_) 0
  cases hg : k.gtype with
  | gaussian w =>
    rcases p with i | ⟨i, a⟩
    · rfl
    · simp only [old, gMatrix, gRow, gaussXX, gaussXXp, fromBlocks_apply₁₂, of_apply, Sum.elim_inl, Sum.elim_inr]
      rw [gauss_symm w x]
      ring
  | noiseMulti t1 t2 =>
    rcases p with i | ⟨i, a⟩ <;> simp [old, gMatrix, gRow, noiseMultiXX, Matrix.diagonal_apply]
  | _ => rcases p with i | ⟨i, a⟩ <;> rfl

private theorem regSqG {N n : ℕ} (ks : List (GDict N)) (reg : Option ℝ) (X : Fin n → Fin N → ℝ) (w : Ix n N → ℝ) :
    w ⬝ᵥ covGrad ks none X *ᵥ w ≤ w ⬝ᵥ covGrad ks reg X *ᵥ w := by
  cases reg with
  | none => exact le_rfl
  | some r =>
    have e : covGrad ks (some r) X = covGrad ks none X + Matrix.diagonal fun _ => r ^ 2 := by simp [covGrad]
    rw [e, add_mulVec, dotProduct_add]
    have : 0 ≤ w ⬝ᵥ (Matrix.diagonal fun _ => r ^ 2) *ᵥ w := by
      simp only [dotProduct, mulVec_diagonal]
      exact Finset.sum_nonneg fun i _ => by nlinarith [sq_nonneg (r * w i)]
    linarith

theorem varG_form {N n : ℕ} (ks : List (GDict N)) (reg : Option ℝ) (hk : ∀ k ∈ ks, GoodGrad k) (x : Fin N → ℝ)
    (X : Fin n → Fin N → ℝ) (w : Ix n N → ℝ) :
    0 ≤ covGrad ks none (Sum.elim X fun _ : Unit => x) (.inl (.inr ())) (.inl (.inr ())) - 2 * (w ⬝ᵥ covRow ks x X) +
      w ⬝ᵥ covGrad ks reg X *ᵥ w := by
  have h := psd_covGrad_none ks hk (Sum.elim X fun _ : Unit => x)
  have h0 := h.submatrix (Sum.elim (old (n := n) (N := N)) fun _ : Unit => .inl (.inr ()))
  have h1 := h0.dotProduct_mulVec_nonneg (Sum.elim w (fun _ => -1))
  have hs : ∀ p, covGrad ks none (Sum.elim X fun _ : Unit => x) (old p) (.inl (.inr ())) = covRow ks x X p := by
    intro p
    rw [← joint_new]
    exact PSD.PSDK.symm (k := covGrad ks none (Sum.elim X fun _ : Unit => x)) h _ _
  simp only [star_trivial, dotProduct, mulVec, Fintype.sum_sum_type (α₁ := Ix n N), submatrix_apply, Sum.elim_inl, Sum.elim_inr,
    Finset.univ_unique, Finset.sum_singleton, joint_old, joint_new, hs] at h1
  have h2 := regSqG ks reg X w
  simp only [dotProduct, mulVec] at h2 ⊢
  simp only [mul_add, Finset.sum_add_distrib, mul_neg, mul_one, neg_mul, one_mul, Finset.sum_neg_distrib, neg_add, neg_neg] at h1
  have e : ∑ i, covRow ks x X i * w i = ∑ i, w i * covRow ks x X i := Finset.sum_congr rfl fun i _ => mul_comm _ _
  rw [e] at h1
  linarith

/-- The variance of a trained model. -/
theorem variance_eq {N : ℕ} {fp : List (Fin N → ℝ)} {t : List ℝ} {grad : List (Fin N → ℝ)} {ks : List (GDict N)}
    {reg : Option ℝ} {sd : Bool} {gp : GradGP N} (h : init fp t grad ks reg sd = .ok gp)
    (hc : ∀ k ∈ ks, ∀ c1 c2 c3, k.gtype ≠ .constantMulti c1 c2 c3) (x : Fin N → ℝ) :
    variance gp x = .ok (postVar (covGrad ks none (Sum.elim gp.fp.get fun _ : Unit => x) (.inl (.inr ())) (.inl (.inr ())))
      (covGrad ks reg gp.fp.get) (covRow ks x gp.fp.get)) := by
  obtain ⟨h1, h2, h3, h4, h5, h6, h7, h8, h9, h10, -⟩ := init_ok h
  unfold variance
  rw [h3, kxx_ok ks x hc gp.fp.get]
  simp only
  have key : ∀ c : (n : ℕ) × Matrix (Ix n N) (Ix n N) ℝ, c = ⟨gp.fp.length, (covGrad ks reg gp.fp.get)⁻¹⟩ →
      covRow ks x (fun i : Fin c.1 => gp.fp.getD i 0) ⬝ᵥ (c.2 *ᵥ covRow ks x (fun i : Fin c.1 => gp.fp.getD i 0)) =
        covRow ks x gp.fp.get ⬝ᵥ ((covGrad ks reg gp.fp.get)⁻¹ *ᵥ covRow ks x gp.fp.get) := by
    intro c hc
    subst hc
    have : (fun i : Fin gp.fp.length => gp.fp.getD i 0) = gp.fp.get := by funext i; simp
    simp only [this]
  rw [key gp.cinv h10]
  unfold postVar
  rw [dotProduct_mulVec]

theorem tstd_nonneg {N : ℕ} {fp : List (Fin N → ℝ)} {t : List ℝ} {grad : List (Fin N → ℝ)} {ks : List (GDict N)}
    {reg : Option ℝ} {sd : Bool} {gp : GradGP N} (h : init fp t grad ks reg sd = .ok gp) : 0 ≤ gp.tstd := by
  unfold init at h
  split at h
  · cases h
  unfold update at h
  split at h
  · cases h
  simp only at h
  cases sd with
  | true =>
    simp only [if_true] at h
    obtain ⟨-, -, rfl, -, -⟩ := finish_ok h
    exact Real.sqrt_nonneg _
  | false =>
    simp only [Bool.false_eq_true, if_false] at h
    obtain ⟨-, -, rfl, -, -⟩ := finish_ok h
    exact zero_le_one

/-- The prior variance of the prediction at a point: the kernels at that point, added or multiplied. -/
noncomputable def prior {N : ℕ} (ks : List (GDict N)) (x : Fin N → ℝ) : ℝ :=
  ks.foldl (fun c k =>
    let v := k.scaling * (match k.gtype with
      | .gaussian _ => 1
      | .linear => ∑ a, x a ^ 2
      | .constant c => c
      | .constantMulti c1 _ _ => c1
      | .noiseMulti t1 _ => t1 ^ 2)
    if k.mult then c * v else c + v) 0

theorem prior_eq {N n : ℕ} (ks : List (GDict N)) (x : Fin N → ℝ) (X : Fin n → Fin N → ℝ) :
    covGrad ks none (Sum.elim X fun _ : Unit => x) (.inl (.inr ())) (.inl (.inr ())) = prior ks x := by
  rw [covGrad_entry]
  refine foldl_eq ks (fun g => gMatrix g (Sum.elim X fun _ : Unit => x) (.inl (.inr ())) (.inl (.inr ()))) (fun g => match g with
      | .gaussian _ => 1
      | .linear => ∑ a, x a ^ 2
      | .constant c => c
      | .constantMulti c1 _ _ => c1
      | .noiseMulti t1 _ => t1 ^ 2) (fun k _ => ?_) 0
  cases k.gtype <;> simp [gMatrix, gaussXX, linearXX, constantXX, constantMultiXX, noiseMultiXX, gauss, sq]

/-- C209 (`_partial`: kernels whose covariance with gradients is positive semidefinite, none of them `constant_multi`; see the
violation): with regularisation the uncertainty of a prediction is a number, never negative, at most the standard deviation of the
prior. -/
theorem C209_uncertainty_partial {N : ℕ} (fp : List (Fin N → ℝ)) (t : List ℝ) (grad : List (Fin N → ℝ)) (ks : List (GDict N))
    (hk : ∀ k ∈ ks, GoodGrad k) (hc : ∀ k ∈ ks, ∀ c1 c2 c3, k.gtype ≠ .constantMulti c1 c2 c3) (r : ℝ) (sd : Bool)
    (gp : GradGP N) (h : init fp t grad ks (some r) sd = .ok gp) (x : Fin N → ℝ) :
    ∃ u, uncertainty gp x = .ok (some u) ∧ 0 ≤ u ∧ u ≤ Real.sqrt (prior ks (gp.scaleRow x)) * gp.tstd := by
  have hv := variance_eq h hc (gp.scaleRow x)
  have ht := tstd_nonneg h
  obtain ⟨h1, h2, h3, h4, h5, h6, h7, h8, h9, h10, s, hs, h11, -⟩ := init_ok h
  have hsym : (covGrad ks (some r) gp.fp.get).IsSymm := by
    have := h9.posSemidef.1
    rwa [Matrix.IsHermitian, conjTranspose_eq_transpose_of_trivial] at this
  rw [prior_eq] at hv
  set v := postVar (prior ks (gp.scaleRow x)) (covGrad ks (some r) gp.fp.get) (covRow ks (gp.scaleRow x) gp.fp.get) with hvd
  have hv0 : 0 ≤ v := by
    rw [hvd, postVar_eq_form hsym h8]
    have := varG_form ks (some r) hk (gp.scaleRow x) gp.fp.get ((covGrad ks (some r) gp.fp.get)⁻¹ *ᵥ covRow ks (gp.scaleRow x) gp.fp.get)
    rwa [prior_eq] at this
  have hv1 : v ≤ prior ks (gp.scaleRow x) := postVar_le h9.posSemidef h8 _ _
  have hp : ∃ o, predict gp x = .ok o := by
    have hl : gp.fp.length = fp.length := by rw [h7]; simp
    have ht : gp.target.length = gp.fp.length + gp.fp.length * N := by
      rw [h11, hl]; simp only [List.length_append, List.length_map, flat_length]; omega
    unfold predict
    rw [h3, h2]
    simp only [Bool.false_eq_true, if_false]
    rw [if_neg (by rw [h10]; simp only [not_or, not_not]; exact ⟨trivial, ht⟩)]
    split <;> exact ⟨_, rfl⟩
  obtain ⟨o, hp⟩ := hp
  refine ⟨Real.sqrt v * gp.tstd, ?_, mul_nonneg (Real.sqrt_nonneg _) ht, mul_le_mul_of_nonneg_right (Real.sqrt_le_sqrt hv1) ht⟩
  unfold uncertainty
  rw [hp]
  simp only
  rw [hv]
  simp only [h4, npSqrt, not_lt.mpr hv0, if_false, Option.map_some]

/-- C209: with `constant_multi` among the kernels a model can be trained and predicts, but asking for the uncertainty raises
AssertionError (the kernel refuses to be evaluated without gradients). -/
theorem C209_constant_multi_violated {N : ℕ} (fp : List (Fin N → ℝ)) (t : List ℝ) (grad : List (Fin N → ℝ)) (ks : List (GDict N))
    (hc : ∃ k ∈ ks, ∃ c1 c2 c3, k.gtype = .constantMulti c1 c2 c3) (reg : Option ℝ) (sd : Bool) (gp : GradGP N)
    (h : init fp t grad ks reg sd = .ok gp) (x : Fin N → ℝ) :
    (∃ o, predict gp x = .ok o) ∧ uncertainty gp x = .error .assertion := by
  obtain ⟨h1, h2, h3, h4, h5, h6, h7, h8, h9, h10, s, hs, h11, -⟩ := init_ok h
  have hp : ∃ o, predict gp x = .ok o := by
    have hl : gp.fp.length = fp.length := by rw [h7]; simp
    have ht : gp.target.length = gp.fp.length + gp.fp.length * N := by
      rw [h11, hl]; simp only [List.length_append, List.length_map, flat_length]; omega
    unfold predict
    rw [h3, h2]
    simp only [Bool.false_eq_true, if_false]
    rw [if_neg (by rw [h10]; simp only [not_or, not_not]; exact ⟨trivial, ht⟩)]
    split <;> exact ⟨_, rfl⟩
  refine ⟨hp, ?_⟩
  obtain ⟨o, hp⟩ := hp
  unfold uncertainty
  rw [hp]
  simp only [variance, h3, kxx_error ks _ hc]

/-- C123 is violated for scaled data if all targets are equal, also if the gradients are not zero: the targets are divided by their standard
deviation, and every prediction is nan. -/
theorem C123_constant_targets_violated {N : ℕ} (fp : List (Fin N → ℝ)) (t : List ℝ) (grad : List (Fin N → ℝ)) (ks : List (GDict N))
    (reg : Option ℝ) (gp : GradGP N) (h : init fp t grad ks reg true = .ok gp) (ht : ∀ a ∈ t, ∀ b ∈ t, a = b) (x : Fin N → ℝ) :
    predict gp x = .ok none := by
  obtain ⟨h1, h2, h3, h4, h5, h6, h7, h8, h9, h10, s, hs, h11, -⟩ := init_ok h
  have hnan : gp.nan = true := by
    have hstd : (scalOf fp t).tstd = 0 := by
      have : ∀ i, t.get i = tMean t.get := by
        intro i
        have hpos : (0 : ℝ) < t.length := by exact_mod_cast i.pos
        unfold tMean colMean
        rw [Finset.sum_congr rfl fun j _ => ht (t.get j) (List.get_mem t j) (t.get i) (List.get_mem t i)]
        simp
        field_simp
      have h0 : ∀ i, t.get i - tMean t.get = 0 := fun i => sub_eq_zero.2 (this i)
      show Real.sqrt ((∑ i, (t.get i - tMean t.get) ^ 2) / _) = 0
      rw [Finset.sum_congr rfl fun i _ => by rw [h0 i]]
      simp
    unfold init at h
    split at h
    · cases h
    unfold update at h
    split at h
    · cases h
    simp only [if_true] at h
    obtain ⟨-, -, rfl, -, -⟩ := finish_ok h
    simp [hstd]
  have hl : gp.fp.length = fp.length := by rw [h7]; simp
  have ht : gp.target.length = gp.fp.length + gp.fp.length * N := by
    rw [h11, hl]; simp only [List.length_append, List.length_map, flat_length]; omega
  unfold predict
  rw [h3, h2]
  simp only [Bool.false_eq_true, if_false, hnan, if_true]
  rw [if_neg (by rw [h10]; simp only [not_or, not_not]; exact ⟨trivial, ht⟩)]

/-- C209 is violated without regularisation: a model can be trained and predicts, but asking for the uncertainty raises TypeError. -/
theorem C209_no_regularisation_violated {N : ℕ} (fp : List (Fin N → ℝ)) (t : List ℝ) (grad : List (Fin N → ℝ)) (ks : List (GDict N))
    (hc : ∀ k ∈ ks, ∀ c1 c2 c3, k.gtype ≠ .constantMulti c1 c2 c3) (sd : Bool) (gp : GradGP N)
    (h : init fp t grad ks none sd = .ok gp) (x : Fin N → ℝ) :
    (∃ o, predict gp x = .ok o) ∧ uncertainty gp x = .error .type := by
  have hv := variance_eq h hc (gp.scaleRow x)
  obtain ⟨h1, h2, h3, h4, h5, h6, h7, h8, h9, h10, s, hs, h11, -⟩ := init_ok h
  have hp : ∃ o, predict gp x = .ok o := by
    have hl : gp.fp.length = fp.length := by rw [h7]; simp
    have ht : gp.target.length = gp.fp.length + gp.fp.length * N := by
      rw [h11, hl]; simp only [List.length_append, List.length_map, flat_length]; omega
    unfold predict
    rw [h3, h2]
    simp only [Bool.false_eq_true, if_false]
    rw [if_neg (by rw [h10]; simp only [not_or, not_not]; exact ⟨trivial, ht⟩)]
    split <;> exact ⟨_, rfl⟩
  refine ⟨hp, ?_⟩
  obtain ⟨o, hp⟩ := hp
  unfold uncertainty
  rw [hp]
  simp only [hv, h4]

/-- Two points with the same target. -/
example : ∃ gp : GradGP 1, init [![0], ![2]] [1, 1] [![3], ![4]] [⟨.gaussian ![1], 1, false⟩] (some 1) true = .ok gp :=
  C123_trains (N := 1) [![0], ![2]] [1, 1] [![3], ![4]] [⟨.gaussian ![1], 1, false⟩] (by simp) rfl (by
    intro k hk
    simp only [List.mem_cons, List.not_mem_nil, or_false] at hk
    subst hk
    exact ⟨by norm_num, by simp⟩) 1 one_ne_zero true (by simp) rfl rfl

example : ∃ gp, init (N := 1) [![0], ![0]] [1, 2] [![3], ![4]] [⟨.gaussian ![1], 1, false⟩, ⟨.constantMulti 1 1 1, 1, false⟩] (some 1) true =
    .ok gp :=
  C123_trains _ _ _ _ (by simp) rfl (by
    intro k hk
    simp only [List.mem_cons, List.not_mem_nil, or_false] at hk
    rcases hk with rfl | rfl
    · exact ⟨by norm_num, by simp⟩
    · norm_num [GoodGrad]) 1 one_ne_zero true (by simp) rfl rfl


/-- The same kernel for a model without gradients. -/
noncomputable def plain {N : ℕ} (k : GDict N) : KDict N :=
  ⟨match k.gtype with
    | .gaussian w => .gaussian (List.ofFn w)
    | .linear => .linear
    | .constant c => .constant c
    | .constantMulti c _ _ => .constant c
    | .noiseMulti t1 t2 => .noiseMulti [t1, t2], none, some k.scaling, k.mult⟩

private theorem colSum_all {N : ℕ} (x y : Fin N → ℝ) (f : ℕ → ℝ → ℝ → ℝ) :
    colSum (List.finRange N) x y f = ∑ a : Fin N, f a (x a) (y a) := by
  unfold colSum
  rw [← List.sum_ofFn]
  congr 1
  apply List.ext_getElem
  · simp
  · intro i h1 h2
    simp

private theorem pick_ofFn {N : ℕ} (w : Fin N → ℝ) (a : Fin N) : pick (List.ofFn w) a = w a := by
  unfold pick
  by_cases h : (List.ofFn w).length = 1
  · rw [if_pos h]
    rw [List.length_ofFn] at h
    subst h
    have : a = 0 := Subsingleton.elim _ _
    subst this
    simp
  · rw [if_neg h]
    simp [List.getD_eq_getElem?_getD]

private theorem plain_entry {N : ℕ} (ks : List (GDict N)) (x y : Fin N → ℝ) (self : Bool) :
    covEntry (ks.map plain) false x y self = ks.foldl (fun c k =>
      if k.mult then c * (k.scaling * entry (plain k).ktype (List.finRange N) false x y self)
      else c + k.scaling * entry (plain k).ktype (List.finRange N) false x y self) 0 := by
  unfold covEntry
  rw [List.foldl_map]
  rfl

private theorem foldl_eq' {N : ℕ} (ks : List (GDict N)) (f g : GDict N → ℝ) (h : ∀ k ∈ ks, f k = g k) (c : ℝ) :
    ks.foldl (fun c k => if k.mult then c * (k.scaling * f k) else c + k.scaling * f k) c =
      ks.foldl (fun c k => if k.mult then c * (k.scaling * g k) else c + k.scaling * g k) c := by
  induction ks generalizing c with
  | nil => rfl
  | cons k ks ih =>
    simp only [List.foldl_cons]
    rw [h k (by simp), ih fun k hk => h k (by simp [hk])]

private theorem gauss_entry {N : ℕ} (w x y : Fin N → ℝ) (b : Bool) :
    entry (.gaussian (List.ofFn w)) (List.finRange N) false x y b = gauss w x y := by
  simp only [entry, colSum_all, unlog, pick_ofFn, gauss, Bool.false_eq_true, if_false]

theorem plain_block {N n : ℕ} (ks : List (GDict N)) (X : Fin n → Fin N → ℝ) (i j : Fin n) :
    covGrad ks none X (.inl i) (.inl j) = covEntry (ks.map plain) false (X i) (X j) (decide (i = j)) := by
  rw [covGrad_entry, plain_entry]
  refine foldl_eq' ks (fun k => gMatrix k.gtype X (.inl i) (.inl j))
    (fun k => entry (plain k).ktype (List.finRange N) false (X i) (X j) (decide (i = j))) (fun k _ => ?_) 0
  unfold plain
  cases k.gtype with
  | gaussian w => exact (gauss_entry w _ _ _).symm
  | linear => simp only [entry, colSum_all]; rfl
  | noiseMulti t1 t2 => simp [gMatrix, noiseMultiXX, entry, unlog, Matrix.diagonal_apply]
  | _ => simp [gMatrix, constantXX, constantMultiXX, entry, unlog]

theorem plain_row {N n : ℕ} (ks : List (GDict N)) (x : Fin N → ℝ) (X : Fin n → Fin N → ℝ) (j : Fin n) :
    covRow ks x X (.inl j) = covEntry (ks.map plain) false x (X j) false := by
  rw [covRow_entry, plain_entry]
  refine foldl_eq' ks (fun k => gRow k.gtype x X (.inl j))
    (fun k => entry (plain k).ktype (List.finRange N) false x (X j) false) (fun k _ => ?_) 0
  unfold plain
  cases k.gtype with
  | gaussian w => exact (gauss_entry w _ _ _).symm
  | linear => simp only [entry, colSum_all]; rfl
  | _ => simp [gRow, entry, unlog]

theorem plain_prior {N : ℕ} (ks : List (GDict N)) (x : Fin N → ℝ) : prior ks x = covEntry (ks.map plain) false x x true := by
  rw [← prior_eq ks x (Fin.elim0 : Fin 0 → Fin N → ℝ), covGrad_entry, plain_entry]
  refine foldl_eq' ks (fun k => gMatrix k.gtype (Sum.elim (Fin.elim0 : Fin 0 → Fin N → ℝ) fun _ : Unit => x) (.inl (.inr ())) (.inl (.inr ())))
    (fun k => entry (plain k).ktype (List.finRange N) false x x true) (fun k _ => ?_) 0
  unfold plain
  cases k.gtype with
  | gaussian w => exact (gauss_entry w _ _ _).symm
  | linear => simp only [entry, colSum_all]; rfl
  | noiseMulti t1 t2 => simp [gMatrix, noiseMultiXX, entry, unlog]
  | _ => simp [gMatrix, constantXX, constantMultiXX, entry, unlog]

theorem packsList_plain {N : ℕ} : ∀ ks : List (GDict N), lastOnly ks = true → PacksList (ks.map plain)
  | [], _ => trivial
  | [k], _ => by
    intro s d b
    unfold plain
    cases k.gtype <;> simp
  | k :: k' :: ks, h => by
    have h1 : multi k.gtype = false ∧ lastOnly (k' :: ks) = true := by simpa [lastOnly] using h
    refine ⟨?_, packsList_plain (k' :: ks) h1.2⟩
    have h2 := h1.1
    unfold Packs plain
    cases hg : k.gtype <;> rw [hg] at h2 <;> simp [multi] at h2 ⊢

/-- C209: gradients never make the model less certain: for the same data, kernels and regularisation, the uncertainty of a model with
gradients is a number at most that of the model without. -/
theorem C209_gradients_help_partial {N : ℕ} (fp : List (Fin N → ℝ)) (t : List ℝ) (grad : List (Fin N → ℝ)) (ks : List (GDict N))
    (hk : ∀ k ∈ ks, GoodGrad k) (hc : ∀ k ∈ ks, ∀ c1 c2 c3, k.gtype ≠ .constantMulti c1 c2 c3) (r : ℝ) (sd : Bool)
    (gp : GradGP N) (h : init fp t grad ks (some r) sd = .ok gp) (gp0 : GP N)
    (h0 : Proc.init fp t (ks.map plain) (some r) false sd = .ok gp0) (x : Fin N → ℝ) :
    ∃ p u u0 u1, uncertainty gp x = .ok (some u) ∧ Proc.predict gp0 [x] true = .ok p ∧ p.uncertainty = some [(some u0, u1)] ∧ u ≤ u0 := by
  obtain ⟨u, hu, hu0, -⟩ := C209_uncertainty_partial fp t grad ks hk hc r sd gp h x
  have hv := variance_eq h hc (gp.scaleRow x)
  have ht := tstd_nonneg h
  have hlo : lastOnly ks = true := by
    unfold init at h
    split at h
    · cases h
    unfold update at h
    split at h
    · cases h
    simp only at h
    split at h
    · exact (finish_ok h).2.2.2.2 rfl
    · exact (finish_ok h).2.2.2.2 rfl
  rw [prior_eq, plain_prior] at hv
  obtain ⟨hc0, hh0, k1, k2, k3, k4⟩ := C43_init_partial fp t _ (packsList_plain ks hlo) _ _ _ gp0 h0
  have hv0 := hc0.var_eq (gp0.scaleRow x)
  rw [k1, k2, k3] at hv0
  have hun0 := hc0.predict_unc [x] (by simp) r k2
  -- both store the same data
  have same : gp0.fp = gp.fp ∧ gp0.scaleRow x = gp.scaleRow x ∧ gp0.tstd = gp.tstd := by
    have hst := hh0.1
    unfold store at hst
    rw [k4] at hst
    unfold init at h
    split at h
    · cases h
    unfold update at h
    split at h
    · cases h
    simp only at h
    cases sd with
    | true =>
      simp only [if_true] at h hst
      obtain ⟨-, -, rfl, -, -⟩ := finish_ok h
      simp only [Except.ok.injEq, Stored.mk.injEq] at hst
      obtain ⟨e1, e2, e3, e4⟩ := hst
      refine ⟨e1.symm, ?_, ?_⟩
      · simp only [GP.scaleRow, GradGP.scaleRow, k4, ← e4, if_true]
      · simp only [GP.tstd, GradGP.tstd, k4, ← e4, if_true]
    | false =>
      simp only [Bool.false_eq_true, if_false] at h hst
      obtain ⟨-, -, rfl, -, -⟩ := finish_ok h
      simp only [Except.ok.injEq, Stored.mk.injEq] at hst
      obtain ⟨e1, e2, e3, e4⟩ := hst
      refine ⟨e1.symm, ?_, ?_⟩
      · simp [GP.scaleRow, GradGP.scaleRow, k4]
      · simp [GP.tstd, GradGP.tstd, k4]
  obtain ⟨s1, s2, s3⟩ := same
  obtain ⟨h1, h2, h3, h4, h5, h6, h7, h8, h9, h10, s, hs, h11, -⟩ := init_ok h
  have hle : postVar (covEntry (ks.map plain) false (gp.scaleRow x) (gp.scaleRow x) true) (covGrad ks (some r) gp.fp.get)
      (covRow ks (gp.scaleRow x) gp.fp.get) ≤ gp0.var (gp0.scaleRow x) := by
    rw [hv0, s1, s2]
    have hu1 : IsUnit (gram (ks.map plain) false (some r) gp.fp).det := by
      have := hc0.1
      rwa [k1, k2, k3, s1] at this
    have he : ∀ i j, covGrad ks (some r) gp.fp.get (.inl i) (.inl j) = gram (ks.map plain) false (some r) gp.fp i j := by
      intro i j
      have e : covGrad ks (some r) gp.fp.get = covGrad ks none gp.fp.get + Matrix.diagonal fun _ => r ^ 2 := by simp [covGrad]
      rw [e, Matrix.add_apply, plain_block]
      simp [gram, covSelf, unlog, Matrix.diagonal_apply]
    have hm := postVar_mono (C41_symmetric _ _ _ _) hu1 h9.posSemidef h8 he
      (covEntry (ks.map plain) false (gp.scaleRow x) (gp.scaleRow x) true)
      (kvec (ks.map plain) false (gp.scaleRow x) gp.fp.get) (fun q => covRow ks (gp.scaleRow x) gp.fp.get (.inr q))
    refine le_trans (le_of_eq ?_) hm
    congr 1
    funext q
    rcases q with j | q
    · exact plain_row ks _ _ j
    · rfl
  have hpos := (hv ▸ rfl : variance gp (gp.scaleRow x) = .ok (postVar (covEntry (ks.map plain) false (gp.scaleRow x) (gp.scaleRow x) true)
    (covGrad ks (some r) gp.fp.get) (covRow ks (gp.scaleRow x) gp.fp.get)))
  set v := postVar (covEntry (ks.map plain) false (gp.scaleRow x) (gp.scaleRow x) true) (covGrad ks (some r) gp.fp.get)
      (covRow ks (gp.scaleRow x) gp.fp.get) with hvd
  have hu' : u = Real.sqrt v * gp.tstd ∧ 0 ≤ v := by
    unfold uncertainty at hu
    split at hu
    · cases hu
    · rw [hv] at hu
      simp only [h4, npSqrt] at hu
      split at hu
      · simp at hu
      · rename_i hn
        simp only [Option.map_some, Except.ok.injEq, Option.some.injEq] at hu
        exact ⟨hu.symm, not_lt.1 hn⟩
  obtain ⟨rfl, hv1⟩ := hu'
  refine ⟨_, _, Real.sqrt (gp0.var (gp0.scaleRow x)) * gp0.tstd, (gp0.unc r (gp0.scaleRow x)).2, hu, hun0, ?_, ?_⟩
  · have e : (gp0.unc r (gp0.scaleRow x)).1 = some (Real.sqrt (gp0.var (gp0.scaleRow x)) * gp0.tstd) := by
      simp only [GP.unc, npSqrt, not_lt.mpr (hv1.trans hle), if_false, Option.map_some]
    rw [← e]
    rfl
  · rw [s3]
    exact mul_le_mul_of_nonneg_right (Real.sqrt_le_sqrt hle) ht

/-- C209: at a training point, with regularisation zero and no noise kernels, the uncertainty is zero. -/
theorem C209_training_points_partial {N : ℕ} (fp : List (Fin N → ℝ)) (t : List ℝ) (grad : List (Fin N → ℝ)) (ks : List (GDict N))
    (hk : ∀ k ∈ ks, GoodGrad k) (hc : ∀ k ∈ ks, ∀ c1 c2 c3, k.gtype ≠ .constantMulti c1 c2 c3)
    (hn : ∀ k ∈ ks, ∀ t1 t2, k.gtype ≠ .noiseMulti t1 t2) (sd : Bool)
    (gp : GradGP N) (h : init fp t grad ks (some 0) sd = .ok gp) (x : Fin N → ℝ) (hx : x ∈ fp) : uncertainty gp x = .ok (some 0) := by
  obtain ⟨u, hu, hu0, -⟩ := C209_uncertainty_partial fp t grad ks hk hc 0 sd gp h x
  have hv := variance_eq h hc (gp.scaleRow x)
  obtain ⟨h1, h2, h3, h4, h5, h6, h7, h8, h9, h10, s, hs, h11, -⟩ := init_ok h
  have hmem : gp.scaleRow x ∈ gp.fp := by rw [h7]; exact List.mem_map_of_mem hx
  obtain ⟨i, hi⟩ := List.get_of_mem hmem
  have hv0 : postVar (covGrad ks none (Sum.elim gp.fp.get fun _ : Unit => gp.scaleRow x) (.inl (.inr ())) (.inl (.inr ())))
      (covGrad ks (some 0) gp.fp.get) (covRow ks (gp.scaleRow x) gp.fp.get) = 0 := by
    rw [prior_eq, ← hi, covRow_self ks hn, ← covGrad_noReg ks (some 0) (Or.inr rfl)]
    unfold postVar
    have hk2 : (fun p => covGrad ks (some 0) gp.fp.get (.inl i) p) ᵥ* (covGrad ks (some 0) gp.fp.get)⁻¹ = Pi.single (.inl i) 1 := by
      have h := mul_nonsing_inv _ h8
      have h2 : (covGrad ks (some 0) gp.fp.get * (covGrad ks (some 0) gp.fp.get)⁻¹) (.inl i) =
          (fun p => covGrad ks (some 0) gp.fp.get (.inl i) p) ᵥ* (covGrad ks (some 0) gp.fp.get)⁻¹ := rfl
      rw [← h2, h]
      funext j
      simp [Matrix.one_apply, Pi.single_apply, eq_comm]
    rw [hk2, single_one_dotProduct, covGrad_noReg ks (some 0) (Or.inr rfl), plain_block, plain_prior]
    simp
  rw [hv0] at hv
  unfold uncertainty at hu ⊢
  split at hu
  · cases hu
  · rename_i hp
    rw [hv] at hu ⊢
    simp only [h4, npSqrt, lt_irrefl, if_false, Option.map_some, Real.sqrt_zero, zero_mul] at hu ⊢

/-- Both models exist. -/
example : ∃ (gp : GradGP 1) (gp0 : GP 1), init [![0], ![2]] [1, 2] [![3], ![4]] [⟨.gaussian ![1], 1, false⟩] (some 1) true = .ok gp ∧
    Proc.init [![0], ![2]] [1, 2] ([⟨.gaussian ![1], 1, false⟩].map plain) (some 1) false true = .ok gp0 := by
  obtain ⟨gp, h⟩ := C123_trains (N := 1) [![0], ![2]] [1, 2] [![3], ![4]] [⟨.gaussian ![1], 1, false⟩] (by simp) rfl (by
    intro k hk
    simp only [List.mem_cons, List.not_mem_nil, or_false] at hk
    subst hk
    exact ⟨by norm_num, by simp⟩) 1 one_ne_zero true (by simp) rfl rfl
  obtain ⟨gp0, h0⟩ := C113_can_build (N := 1) [![0], ![2]] [1, 2] ([⟨.gaussian ![1], 1, false⟩].map plain) 1 false true (by simp) rfl
    (by simp) (packsList_plain _ rfl) (by simp [plain, GoodKernel, scaleFactor, unlog, GoodWidths, columns, pick]) (Or.inr one_ne_zero)
  exact ⟨gp, gp0, h, h0⟩

/-! ### C210: updating a model with gradients -/

/-- C210 (`_partial`: see the violations): updating a model with new features, targets and gradients gives what a new model made of them
would be, or the same error. -/
theorem C210_update_partial {N : ℕ} (fp0 : List (Fin N → ℝ)) (t0 : List ℝ) (g0 : List (Fin N → ℝ)) (ks : List (GDict N)) (reg : Option ℝ)
    (sd : Bool) (gp : GradGP N) (h0 : init fp0 t0 g0 ks reg sd = .ok gp) (fp : List (Fin N → ℝ)) (t : List ℝ) (grad : List (Fin N → ℝ))
    (hl : fp.length = t.length) : update gp fp (some t) (some grad) = init fp t grad ks reg sd := by
  have hgp : gp.kernels = ks ∧ gp.reg = reg ∧ gp.scaleData = sd ∧ (sd = false → gp.scaling = none) := by
    unfold init at h0
    split at h0
    · cases h0
    unfold update at h0
    split at h0
    · cases h0
    simp only at h0
    cases sd with
    | true =>
      simp only [if_true] at h0
      obtain ⟨-, -, rfl, -, -⟩ := finish_ok h0
      exact ⟨rfl, rfl, rfl, by simp⟩
    | false =>
      simp only [Bool.false_eq_true, if_false] at h0
      obtain ⟨-, -, rfl, -, -⟩ := finish_ok h0
      exact ⟨rfl, rfl, rfl, fun _ => rfl⟩
  obtain ⟨rfl, rfl, rfl, h4⟩ := hgp
  have cinv_irrel : ∀ (g g' : GradGP N) (b : Bool), { g with cinv := g'.cinv } = g' → finish g b = finish g' b := by
    intro g g' b e
    rcases g with ⟨a1, a2, a3, a4, a5, a6, a7, a8⟩
    rcases g' with ⟨b1, b2, b3, b4, b5, b6, b7, b8⟩
    simp only [GradGP.mk.injEq] at e
    obtain ⟨rfl, rfl, rfl, rfl, rfl, rfl, rfl, -⟩ := e
    rfl
  unfold init
  rw [if_neg (by simpa using hl)]
  unfold update
  by_cases he : fp.isEmpty = true
  · rw [if_pos he, if_pos he]
  rw [if_neg he, if_neg he]
  cases hsd : gp.scaleData with
  | true => exact cinv_irrel _ _ _ (by simp [hsd])
  | false => exact cinv_irrel _ _ _ (by simp [hsd, h4 hsd])

/-- C210: without `train_target` the targets and gradients the model was made with are kept (with `scale_data=False`; new gradients are not
looked at): the model is the one made from the new features and the old targets and gradients. -/
theorem C210_keep_targets {N : ℕ} (fp0 fp : List (Fin N → ℝ)) (t : List ℝ) (g : List (Fin N → ℝ)) (ks : List (GDict N)) (reg : Option ℝ)
    (gp gp' : GradGP N) (h0 : init fp0 t g ks reg false = .ok gp) (h1 : init fp t g ks reg false = .ok gp') (grad : Option (List (Fin N → ℝ))) :
    update gp fp none grad = .ok gp' := by
  unfold init at h0 h1
  split at h0
  · cases h0
  split at h1
  · cases h1
  unfold update at h0 h1
  split at h0
  · cases h0
  split at h1
  · cases h1
  rename_i hne
  simp only [Bool.false_eq_true, if_false] at h0 h1
  obtain ⟨-, -, rfl, -, -⟩ := finish_ok h0
  obtain ⟨hk, hu, rfl, -, -⟩ := finish_ok h1
  unfold update
  rw [if_neg hne]
  simp only [Bool.false_eq_true, if_false]
  unfold finish
  simp only [hk, Bool.false_eq_true, if_false]
  rw [if_neg (not_not.2 hu)]
  simp

/-- Features of the same length, before and after. -/
example : ∃ gp gp' : GradGP 1, init [![0], ![2]] [1, 2] [![3], ![4]] [⟨.gaussian ![1], 1, false⟩] (some 1) false = .ok gp ∧
    init [![0], ![5]] [1, 2] [![3], ![4]] [⟨.gaussian ![1], 1, false⟩] (some 1) false = .ok gp' := by
  have h : ∀ x : ℝ, ∃ gp : GradGP 1, init [![0], ![x]] [1, 2] [![3], ![4]] [⟨.gaussian ![1], 1, false⟩] (some 1) false = .ok gp := fun x =>
    C123_trains (N := 1) [![0], ![x]] [1, 2] [![3], ![4]] [⟨.gaussian ![1], 1, false⟩] (by simp) rfl (by
      intro k hk
      simp only [List.mem_cons, List.not_mem_nil, or_false] at hk
      subst hk
      exact ⟨by norm_num, by simp⟩) 1 one_ne_zero false (by simp) rfl rfl
  exact ⟨_, _, (h 2).choose_spec, (h 5).choose_spec⟩

/-- C210 is violated without gradients: a model made with gradients cannot be updated with features and targets alone, since the
covariance keeps its rows for gradients. -/
theorem C210_drop_gradients_violated {N : ℕ} (hN : 0 < N) (gp gp' : GradGP N) (fp : List (Fin N → ℝ)) (t : List ℝ)
    (hl : fp.length = t.length) : update gp fp (some t) none ≠ .ok gp' := by
  intro h
  unfold update at h
  split at h
  · cases h
  rename_i he
  have hpos : 0 < fp.length := by
    rw [List.length_pos_iff]; simpa using he
  have h2 : 0 < fp.length * N := Nat.mul_pos hpos hN
  simp only at h
  split at h
  · obtain ⟨-, -, -, h4, -⟩ := finish_ok h
    have := (h4 rfl).2
    simp at this
    omega
  · obtain ⟨-, -, -, h4, -⟩ := finish_ok h
    have := (h4 rfl).2
    simp at this
    omega

/-- C210 is violated the other way round: a model made without gradients cannot be updated with any. -/
theorem C210_add_gradients_violated {N : ℕ} (hN : 0 < N) (gp gp' : GP N) (fp : List (Fin N → ℝ)) (t : List ℝ) (grad : List (Fin N → ℝ))
    (hl : fp.length = t.length) (hg : grad ≠ []) (flag : Bool) : updatePlain gp fp t grad flag ≠ .ok gp' := by
  intro h
  unfold updatePlain at h
  split at h
  · cases h
  split at h
  · cases h
  rename_i st hst
  split at h
  · cases h
  rename_i ci hci
  have hfp : st.fp.length = fp.length ∧ st.target.length = t.length := by
    unfold store at hst
    cases hsd : gp.scaleData with
    | true =>
      simp only [hsd, if_true, Except.ok.injEq] at hst
      subst hst
      simp
    | false =>
      simp only [hsd, Bool.false_eq_true, if_false, Except.ok.injEq] at hst
      subst hst
      simp
  obtain ⟨-, -, rfl⟩ := invGram_ok hci
  have hpos : 0 < grad.length * N := Nat.mul_pos (List.length_pos_iff.2 hg) hN
  have lml_len : ∀ g g' : GP N, updateLml g = .ok g' → g.cinv.1 = g.target.length := by
    intro g g' h
    unfold updateLml at h
    simp only [bind, Except.bind, pure, Except.pure, throw, throwThe, MonadExceptOf.throw] at h
    split at h
    · cases h
    split at h
    · cases h
    split at h
    · cases h
    by_contra hc
    rw [if_pos hc] at h
    cases h
  have hh := lml_len _ _ h
  have hlen : (match st.scaling with
          | some s => if gp.scaleData then grad.map (scaleGrad s) else grad
          | none => grad).length = grad.length := by
    split
    · split <;> simp
    · rfl
  have hh2 : st.fp.length = (st.target ++ flat (match st.scaling with
          | some s => if gp.scaleData then grad.map (scaleGrad s) else grad
          | none => grad)).length := hh
  rw [List.length_append, flat_length, hlen, hfp.1, hfp.2] at hh2
  omega

/-! ### C211: the training error of a model with gradients -/

/-- C211 (`_partial`: no noise kernels; see the violation): the first entries of the predictions that `get_training_error` compares are
the predictions at the training points, and they are compared with the training targets. -/
theorem C211_values_partial {N : ℕ} (fp : List (Fin N → ℝ)) (t : List ℝ) (grad : List (Fin N → ℝ)) (ks : List (GDict N)) (reg : Option ℝ)
    (hn : ∀ k ∈ ks, ∀ t1 t2, k.gtype ≠ .noiseMulti t1 t2) (sd : Bool) (gp : GradGP N)
    (h : init fp t grad ks reg sd = .ok gp) (hnan : gp.nan = false) :
    (trainPrediction gp).length = (trainTarget gp).length ∧
    ∀ i (hi : i < fp.length) (hi' : i < t.length),
      (∃ p, (trainPrediction gp)[i]? = some p ∧ predict gp fp[i] = .ok (some p)) ∧ (trainTarget gp)[i]? = some t[i] := by
  have hpe := predict_eq h hnan
  obtain ⟨h1, h2, h3, h4, h5, h6, h7, h8, h9, h10, s, hs, h11, h12, h13, h14⟩ := init_ok h
  have hl : gp.fp.length = fp.length := by rw [h7]; simp
  have htp : trainPrediction gp = List.ofFn (fun i : Fin gp.fp.length => gp.rescale ((covGrad ks none gp.fp.get *ᵥ
        ((covGrad ks reg gp.fp.get)⁻¹ *ᵥ vec gp.fp.length gp.target)) (.inl i))) ++
      (List.finRange gp.fp.length).flatMap fun i => List.ofFn fun a => gp.rescale ((covGrad ks none gp.fp.get *ᵥ
        ((covGrad ks reg gp.fp.get)⁻¹ *ᵥ vec gp.fp.length gp.target)) (.inr (i, a))) := by
    unfold trainPrediction
    rw [h3]
    have key : ∀ c : (n : ℕ) × Matrix (Ix n N) (Ix n N) ℝ, c = ⟨gp.fp.length, (covGrad ks reg gp.fp.get)⁻¹⟩ →
        List.ofFn (fun i : Fin c.1 => gp.rescale ((covGrad ks none (fun i : Fin c.1 => gp.fp.getD i 0) *ᵥ (c.2 *ᵥ vec c.1 gp.target)) (.inl i))) ++
        ((List.finRange c.1).flatMap fun i => List.ofFn fun a => gp.rescale
          ((covGrad ks none (fun i : Fin c.1 => gp.fp.getD i 0) *ᵥ (c.2 *ᵥ vec c.1 gp.target)) (.inr (i, a)))) =
        List.ofFn (fun i : Fin gp.fp.length => gp.rescale ((covGrad ks none gp.fp.get *ᵥ
        ((covGrad ks reg gp.fp.get)⁻¹ *ᵥ vec gp.fp.length gp.target)) (.inl i))) ++
      (List.finRange gp.fp.length).flatMap fun i => List.ofFn fun a => gp.rescale ((covGrad ks none gp.fp.get *ᵥ
        ((covGrad ks reg gp.fp.get)⁻¹ *ᵥ vec gp.fp.length gp.target)) (.inr (i, a))) := by
      intro c hc
      subst hc
      have : (fun i : Fin gp.fp.length => gp.fp.getD i 0) = gp.fp.get := by funext i; simp
      simp only [this]
    exact key gp.cinv h10
  constructor
  · rw [htp, trainTarget, h11]
    simp only [List.length_append, List.length_ofFn, List.length_flatMap, List.length_map, flat_length, List.map_const', List.sum_replicate,
      List.length_finRange, smul_eq_mul]
    rw [hl, h1, h6, h1]
  · intro i hi hi'
    constructor
    · refine ⟨gp.rescale ((covGrad ks none gp.fp.get *ᵥ
        ((covGrad ks reg gp.fp.get)⁻¹ *ᵥ vec gp.fp.length gp.target)) (.inl ⟨i, by omega⟩)), ?_, ?_⟩
      · rw [htp, List.getElem?_append_left (by simp; omega)]
        rw [List.getElem?_eq_getElem (by simp; omega)]
        simp
      · rw [hpe]
        have hrow : gp.scaleRow fp[i] = gp.fp.get ⟨i, by omega⟩ := by
          have : gp.fp[i]'(by omega) = gp.scaleRow fp[i] := by
            conv_lhs => rw [List.getElem_of_eq h7]
            simp
          exact this.symm
        rw [hrow, covRow_self ks hn]
        rfl
    · rw [trainTarget, h11, List.map_append, List.getElem?_append_left (by simpa using hi')]
      have := h12 hnan
      simp only [List.getElem?_map, List.getElem?_eq_getElem hi', Option.map_some, h14, Scal.untgt, Scal.tgt]
      congr 1
      field_simp
      ring

/-- C211 is violated: the training error is not that of the targets alone; the gradients are counted as if they were targets, with scaled
data after division by the scale of the targets over that of the features and addition of the mean target. -/
theorem C211_gradients_counted_violated {N : ℕ} (fp : List (Fin N → ℝ)) (t : List ℝ) (grad : List (Fin N → ℝ)) (ks : List (GDict N))
    (reg : Option ℝ) (sd : Bool) (gp : GradGP N) (h : init fp t grad ks reg sd = .ok gp) (hnan : gp.nan = false) :
    trainTarget gp = t ++ flat (grad.map fun g a => if sd then g a * (scalOf fp t).fstd a + (scalOf fp t).tmean else g a) := by
  obtain ⟨h1, h2, h3, h4, h5, h6, h7, h8, h9, h10, s, hs, h11, h12, h13, h14⟩ := init_ok h
  have ht := h12 hnan
  rw [trainTarget, h11, List.map_append, List.map_map]
  congr 1
  · conv_rhs => rw [← List.map_id t]
    apply List.map_congr_left
    intro x _
    simp only [Function.comp_apply, h14, Scal.untgt, Scal.tgt, id_eq]
    field_simp
    ring
  · rw [flat, flat, List.map_flatMap, List.flatMap_map, List.flatMap_map]
    congr 1
    funext g
    rw [List.map_ofFn]
    congr 1
    funext a
    have hf := fstd_ne fp t sd s hs a
    simp only [Function.comp_apply, h14, Scal.untgt, scaleGrad]
    cases sd with
    | true =>
      simp only [if_true] at hs ⊢
      subst hs
      field_simp
    | false =>
      simp only [Bool.false_eq_true, if_false] at hs ⊢
      subst hs
      simp

end CatLearn.GradProc
