import Verif.Props.Ridge
import Verif.Props.RidgeSearch
import Verif.Props.GPPredict

/-!
# Relations between ridge regressions (C245), and with Gaussian processes (C246)
-/

set_option linter.unusedSectionVars false

namespace CatLearn.RidgeSearch

open CatLearn CatLearn.Ridge CatLearn.Linalg CatLearn.Props Matrix

variable {n d k : Type} [Fintype n] [Fintype d] [Fintype k] [DecidableEq n] [DecidableEq d] [DecidableEq k]

/-! ### The coefficients -/

/-- The contract of `np.linalg.svd`, for every matrix it is called with. -/
def SvdOk (svd : Svd d) : Prop := ∀ A : Matrix d d ℝ, A.PosSemidef → ∃ V, IsSVD A V (svd A).1 (svd A).2

/-- `RR` on a new object. -/
noncomputable def fit (svd : Svd d) (X : Matrix n d ℝ) (Y : n → ℝ) (w p : ℝ) : d → ℝ := (rr svd ⟨none, none⟩ X Y w p false).1

theorem fit_normal {svd : Svd d} (hs : SvdOk svd) (X : Matrix n d ℝ) (Y : n → ℝ) (w p : ℝ) (hw : 0 < w) :
    (Xᵀ * X + w • (1 : Matrix d d ℝ)) *ᵥ fit svd X Y w p = Xᵀ *ᵥ Y + fun _ => w * p := by
  obtain ⟨V, hV⟩ := hs _ (xtx_psd X)
  exact C38_normal_equations svd ⟨none, none⟩ X Y w p hw false (Or.inl rfl) V hV

theorem fit_unique {svd : Svd d} (hs : SvdOk svd) (X : Matrix n d ℝ) (Y : n → ℝ) (w p : ℝ) (hw : 0 < w) (a : d → ℝ)
    (ha : (Xᵀ * X + w • (1 : Matrix d d ℝ)) *ᵥ a = Xᵀ *ᵥ Y + fun _ => w * p) : fit svd X Y w p = a :=
  posDef_mulVec_inj (reg_posDef X hw) ((fit_normal hs X Y w p hw).trans ha.symm)

/-- C245: the order of features and of data points is immaterial: the coefficients of reordered features are the reordered
coefficients, for any two singular value decompositions. -/
theorem C245_order {n' d' : Type} [Fintype n'] [Fintype d'] [DecidableEq n'] [DecidableEq d'] (svd : Svd d) (svd' : Svd d')
    (hs : SvdOk svd) (hs' : SvdOk svd') (e : d' ≃ d) (f : n' ≃ n) (X : Matrix n d ℝ) (Y : n → ℝ) (w p : ℝ) (hw : 0 < w) :
    (rr svd' ⟨none, none⟩ (X.submatrix f e) (Y ∘ f) w p false).1 = (rr svd ⟨none, none⟩ X Y w p false).1 ∘ e := by
  refine fit_unique hs' _ _ w p hw _ ?_
  have h := fit_normal hs X Y w p hw
  funext i
  have hi := congrFun h (e i)
  have h1 : (X.submatrix f e)ᵀ * X.submatrix f e = (Xᵀ * X).submatrix e e := by
    rw [transpose_submatrix]
    exact submatrix_mul_equiv Xᵀ X e f e
  have h2 : (Xᵀ * X).submatrix e e + w • (1 : Matrix d' d' ℝ) = (Xᵀ * X + w • (1 : Matrix d d ℝ)).submatrix e e := by
    ext i j
    simp [one_apply]
  have h3 : (X.submatrix f e)ᵀ *ᵥ (Y ∘ f) = (Xᵀ *ᵥ Y) ∘ e := by
    rw [transpose_submatrix, submatrix_mulVec_equiv]
    simp [Function.comp_assoc]
  rw [h1, h2, h3, submatrix_mulVec_equiv]
  simpa [Function.comp_assoc, fit] using hi

/-- C245: without a prior, predictions do not depend on the choice of orthogonal axes for the features. -/
theorem C245_rotation {m : Type} (svd : Svd d) (hs : SvdOk svd) (Q : Matrix d d ℝ) (hQ : Q * Qᵀ = 1) (X : Matrix n d ℝ) (Y : n → ℝ)
    (w : ℝ) (hw : 0 < w) (T : Matrix m d ℝ) :
    predict (rr svd ⟨none, none⟩ (X * Q) Y w 0 false).1 (T * Q) = predict (rr svd ⟨none, none⟩ X Y w 0 false).1 T := by
  have hQ' : Qᵀ * Q = 1 := mul_eq_one_comm.mp hQ
  have h : fit svd (X * Q) Y w 0 = Qᵀ *ᵥ fit svd X Y w 0 := by
    refine fit_unique hs _ _ w 0 hw _ ?_
    have h0 := fit_normal hs X Y w 0 hw
    simp only [mul_zero] at h0 ⊢
    have e0 : (fun _ : d => (0 : ℝ)) = 0 := rfl
    rw [e0, add_zero] at h0 ⊢
    have e1 : (X * Q)ᵀ * (X * Q) + w • (1 : Matrix d d ℝ) = Qᵀ * (Xᵀ * X + w • (1 : Matrix d d ℝ)) * Q := by
      rw [transpose_mul, Matrix.mul_add, Matrix.add_mul, Matrix.mul_smul, Matrix.smul_mul, Matrix.mul_one, hQ']
      simp only [Matrix.mul_assoc]
    rw [e1, mulVec_mulVec, Matrix.mul_assoc, hQ, Matrix.mul_one, ← mulVec_mulVec, h0, transpose_mul, mulVec_mulVec]
  change (T * Q) *ᵥ fit svd (X * Q) Y w 0 = T *ᵥ fit svd X Y w 0
  rw [h, mulVec_mulVec, Matrix.mul_assoc, hQ, Matrix.mul_one]

/-- C245: the coefficients are in units of the target divided by units of the features. -/
theorem C245_units (svd : Svd d) (hs : SvdOk svd) (X : Matrix n d ℝ) (Y : n → ℝ) (w p : ℝ) (hw : 0 < w) (b c : ℝ) (hb : b ≠ 0) :
    (rr svd ⟨none, none⟩ (b • X) (c • Y) (b ^ 2 * w) (c / b * p) false).1 = (c / b) • (rr svd ⟨none, none⟩ X Y w p false).1 := by
  refine fit_unique hs _ _ _ _ (by positivity) _ ?_
  have h := fit_normal hs X Y w p hw
  have e1 : (b • X)ᵀ * (b • X) + (b ^ 2 * w) • (1 : Matrix d d ℝ) = b ^ 2 • (Xᵀ * X + w • (1 : Matrix d d ℝ)) := by
    rw [transpose_smul, Matrix.smul_mul, Matrix.mul_smul, smul_smul, smul_add, smul_smul, sq]
  rw [e1, smul_mulVec, mulVec_smul]
  change b ^ 2 • ((c / b) • ((Xᵀ * X + w • (1 : Matrix d d ℝ)) *ᵥ fit svd X Y w p)) = _
  rw [h, transpose_smul, smul_mulVec, mulVec_smul]
  funext i
  simp only [Pi.smul_apply, Pi.add_apply, smul_eq_mul]
  field_simp

theorem svdOk_exists : ∃ svd : Svd d, SvdOk svd := by
  classical
  refine ⟨fun A => if h : A.PosSemidef then ((exists_svd h).choose_spec.choose, (exists_svd h).choose_spec.choose_spec.choose)
    else (0, 0), fun A hA => ?_⟩
  refine ⟨(exists_svd hA).choose, ?_⟩
  simp only [hA, dif_pos]
  exact (exists_svd hA).choose_spec.choose_spec.choose_spec

example : ∃ svd : Svd (Fin 3), SvdOk svd ∧ (0 : ℝ) < 1 := by
  obtain ⟨s, h⟩ := svdOk_exists (d := Fin 3)
  exact ⟨s, h, one_pos⟩

/-! ### The search of the regularisation -/

/-- C245: the leave-one-out error is in units of the target and does not depend on the units of the features. -/
theorem C245_loocv_units (X : Matrix n d ℝ) (Y : n → ℝ) (p w : ℝ) (U : Matrix n k ℝ) (W : k → ℝ) (b c : ℝ) (hb : b ≠ 0) (hc : 0 < c) :
    loocv (b • X) (c • Y) (c / b * p) (b ^ 2 * w) U (b • W) = c * loocv X Y p w U W := by
  have e1 : (c • Y : n → ℝ) - (b • X) *ᵥ (fun _ => c / b * p) = c • (Y - X *ᵥ fun _ => p) := by
    have : (fun _ : d => c / b * p) = (c / b) • fun _ : d => p := rfl
    rw [this, smul_mulVec, mulVec_smul, smul_smul, mul_div_cancel₀ _ hb, smul_sub]
  have e2 : (fun i => (((b • W) i) ^ 2 + b ^ 2 * w)⁻¹ * ((b • W) i) ^ 2) = fun i => (W i ^ 2 + w)⁻¹ * W i ^ 2 := by
    funext i
    have hb2 : b ^ 2 ≠ 0 := pow_ne_zero _ hb
    rw [Pi.smul_apply, smul_eq_mul, mul_pow, ← mul_add, mul_inv, mul_assoc, ← mul_assoc _ (b ^ 2), mul_comm _ (b ^ 2), mul_assoc (b ^ 2),
      ← mul_assoc, inv_mul_cancel₀ hb2, one_mul]
  unfold loocv
  simp only [e1, e2]
  generalize Y - X *ᵥ (fun _ => p) = Z
  rw [smul_vecMul, smul_vecMul, smul_vecMul, smul_dotProduct, dotProduct_smul, smul_eq_mul, smul_eq_mul, ← mul_assoc c c, ← sq,
    mul_left_comm, Real.sqrt_mul (sq_nonneg c), Real.sqrt_sq hc.le]

namespace Fl

theorem scale_nan_iff {c : ℝ} (hc : 0 < c) (x : Fl) : x.scale c = .nan ↔ x = .nan := by
  cases x <;> simp [scale, hc.ne', hc]

theorem scale_le_iff {c : ℝ} (hc : 0 < c) (x y : Fl) : (x.scale c).le (y.scale c) ↔ x.le y := by
  cases x <;> cases y <;> simp [scale, hc.ne', hc, le]

end Fl

theorem argminNum_map (g : Fl → Fl) (key key' : Fl → Fl) (h : ∀ x y, (key' (g x)).le (key' (g y)) ↔ (key x).le (key y)) (l : List Fl) :
    argminNum key' (l.map g) = (argminNum key l).map g := by
  induction l with
  | nil => rfl
  | cons x l ih =>
    simp only [List.map_cons, argminNum, ih]
    cases argminNum key l with
    | none => rfl
    | some y =>
      simp only [Option.map_some]
      by_cases hk : (key x).le (key y)
      · rw [if_pos hk, if_pos ((h x y).2 hk)]; rfl
      · rw [if_neg hk, if_neg (mt (h x y).1 hk)]; rfl

open Classical in
theorem argmin_map (g : Fl → Fl) (key key' : Fl → Fl) (h : ∀ x y, (key' (g x)).le (key' (g y)) ↔ (key x).le (key y))
    (hn : ∀ x, key' (g x) = .nan ↔ key x = .nan) (l : List Fl) : argmin key' (l.map g) = (argmin key l).map g := by
  unfold argmin
  have : (l.map g).find? (fun x => decide (key' x = .nan)) = (l.find? fun x => decide (key x = .nan)).map g := by
    rw [List.find?_map]
    congr 2
    funext x
    simp [hn]
  rw [this]
  cases l.find? fun x => decide (key x = .nan) with
  | none => exact argminNum_map g key key' h l
  | some y => rfl

/-- C245: the units of the targets do not influence the regularisation found: error estimates that are all multiplied by the same
factor give the same result, for every search. -/
theorem C245_search_targets (epe epe' : Fl → Fl) (c : ℝ) (hc : 0 < c) (h : ∀ w, epe' w = (epe w).scale c) (wFirst wLast : ℝ)
    (wsteps rsteps : ℕ) : findOptimal epe' wFirst wLast wsteps rsteps = findOptimal epe wFirst wLast wsteps rsteps := by
  have ha : ∀ l, argmin epe' l = argmin epe l := by
    intro l
    have := argmin_map id epe epe' (fun x y => by simp only [id, h]; exact Fl.scale_le_iff hc _ _)
      (fun x => by simp only [id, h]; exact Fl.scale_nan_iff hc _) l
    simpa using this
  have hr : ∀ (r : ℕ) (tried range : List Fl) (width best : Fl),
      refine epe' wsteps r tried range width best = refine epe wsteps r tried range width best := by
    intro r
    induction r with
    | zero => intros; rfl
    | succ r ih =>
      intro tried range width best
      simp only [refine, ha, ih]
  exact hr _ _ _ _ _

namespace Fl

theorem add_shift (b a : Fl) (s : ℝ) : (b.add (fin s)).add (a.add (fin s)).neg = b.add a.neg := by
  cases a <;> cases b <;> simp [add, neg]

theorem add_assoc_fin (x a : Fl) (s : ℝ) : x.add (a.add (fin s)) = (x.add a).add (fin s) := by
  cases a <;> cases x <;> simp [add]
  ring

theorem add_right_fin (x a : Fl) (s : ℝ) : (a.add (fin s)).add x = (a.add x).add (fin s) := by
  cases a <;> cases x <;> simp [add]
  ring

theorem exp_shift (x : Fl) (s : ℝ) : (x.add (fin s)).exp = x.exp.scale (Real.exp s) := by
  cases x <;> simp [add, exp, scale, Real.exp_pos, Real.exp_ne_zero]
  rw [Real.exp_add, mul_comm]

theorem scale_comm (a b : ℝ) (hb : 0 < b) (ha : 0 < a) (x : Fl) : (x.scale b).scale a = (x.scale a).scale b := by
  cases x <;> simp [scale, ha, hb, ha.ne', hb.ne']
  ring

theorem log_scale (c : ℝ) (hc : 0 < c) (x : Fl) : (x.scale c).log = x.log.add (fin (Real.log c)) := by
  cases x with
  | nan => rfl
  | ninf => simp [scale, hc, hc.ne', log, add]
  | pinf => simp [scale, hc, hc.ne', log, add]
  | fin x =>
    simp only [scale, log]
    by_cases h1 : x < 0
    · simp [h1, mul_neg_of_pos_of_neg hc h1, add]
    · by_cases h2 : x = 0
      · subst h2; simp [add]
      · have h3 : ¬ c * x < 0 := not_lt.2 (mul_nonneg hc.le (not_lt.1 h1))
        rw [if_neg h3, if_neg (mul_ne_zero hc.ne' h2), if_neg h1, if_neg h2, Real.log_mul hc.ne' h2]
        simp [add, add_comm]

end Fl

theorem linspace_shift (a b : Fl) (s : ℝ) (k : ℕ) :
    linspace (a.add (.fin s)) (b.add (.fin s)) k = (linspace a b k).map fun x => x.add (.fin s) := by
  unfold linspace
  simp only [Fl.add_shift]
  split
  · rfl
  · split
    · simp [Fl.add_assoc_fin]
    · simp [Fl.add_assoc_fin]

theorem exps_shift (a b : Fl) (s : ℝ) (k : ℕ) :
    (linspace (a.add (.fin s)) (b.add (.fin s)) k).map Fl.exp = ((linspace a b k).map Fl.exp).map (Fl.scale (Real.exp s)) := by
  rw [linspace_shift, List.map_map, List.map_map]
  exact List.map_congr_left fun x _ => Fl.exp_shift x s

/-- C245: the units of the features do not influence the search: for features multiplied by `b`, whose singular values are `b²`
times as large and whose error estimates belong to regularisations `b²` times as large, the result is `b²` times as large. -/
theorem C245_search_features (epe epe' : Fl → Fl) (b : ℝ) (hb : b ≠ 0) (h : ∀ w, epe' (w.scale (b ^ 2)) = epe w) (wFirst wLast : ℝ)
    (wsteps rsteps : ℕ) : findOptimal epe' (b ^ 2 * wFirst) (b ^ 2 * wLast) wsteps rsteps =
      (findOptimal epe wFirst wLast wsteps rsteps).map (Fl.scale (b ^ 2)) := by
  have hc : 0 < b ^ 2 := by positivity
  have ha : ∀ l, argmin epe' (l.map (Fl.scale (b ^ 2))) = (argmin epe l).map (Fl.scale (b ^ 2)) :=
    argmin_map _ epe epe' (fun x y => by rw [h, h]) fun x => by rw [h]
  have hr : ∀ (r : ℕ) (tried range : List Fl) (width best : Fl),
      refine epe' wsteps r (tried.map (Fl.scale (b ^ 2))) (range.map (Fl.scale (b ^ 2))) width (best.scale (b ^ 2)) =
        (refine epe wsteps r tried range width best).map (Fl.scale (b ^ 2)) := by
    intro r
    induction r with
    | zero => intros; rfl
    | succ r ih =>
      intro tried range width best
      simp only [refine, List.length_map]
      split
      · rfl
      · split
        · rfl
        · rw [← List.map_append, ha]
          cases argmin epe (tried ++ range) with
          | none => rfl
          | some w =>
            simp only [Option.map_some]
            rw [← ih]
            congr 1
            rw [Fl.log_scale _ hc, Fl.add_right_fin, Fl.add_right_fin, exps_shift, Real.exp_log hc]
  unfold findOptimal
  have e1 : ∀ x y : ℝ, (Fl.fin (b ^ 2 * x * y)).log = (Fl.fin (x * y)).log.add (.fin (Real.log (b ^ 2))) := by
    intro x y
    rw [mul_assoc]
    exact Fl.log_scale _ hc (.fin (x * y))
  simp only [e1, Fl.add_shift]
  have e2 : ∀ wl wh : Fl, initialRange (wl.add (.fin (Real.log (b ^ 2)))) (wh.add (.fin (Real.log (b ^ 2)))) wsteps =
      (initialRange wl wh wsteps).map (Fl.scale (b ^ 2)) := by
    intro wl wh
    unfold initialRange
    rw [exps_shift, Fl.exp_shift, Fl.exp_shift, Real.exp_log hc, List.map_append, List.map_append, List.map_singleton, List.map_singleton,
      Fl.scale_comm _ _ hc (by norm_num), Fl.scale_comm _ _ hc (by norm_num)]
  rw [e2]
  have e3 : Fl.pinf = Fl.pinf.scale (b ^ 2) := by simp [Fl.scale, hc, hb]
  have := hr rsteps [] (initialRange (Fl.fin (wLast * 0.5)).log (Fl.fin (wFirst * 2)).log wsteps)
    ((Fl.fin (wFirst * 2)).log.add (Fl.fin (wLast * 0.5)).log.neg) .pinf
  rw [← e3] at this
  exact this

example : ∃ epe epe' : Fl → Fl, (∀ w, epe' w = (epe w).scale 3) ∧ epe (.fin 2) = .fin 1 :=
  ⟨fun w => w.add (.fin (-1)), fun w => (w.add (.fin (-1))).scale 3, fun _ => rfl, by simp [Fl.add]; norm_num⟩

example : ∃ epe epe' : Fl → Fl, (∀ w, epe' (w.scale (3 ^ 2)) = epe w) ∧ epe (.fin 2) = .fin 2 := by
  refine ⟨id, Fl.scale (1 / 9), fun w => ?_, rfl⟩
  cases w <;> simp [Fl.scale]
  ring

/-! ### Gaussian processes with a linear kernel -/

open CatLearn.Proc CatLearn.Kernel in
/-- C246: a Gaussian process with the linear kernel and regularisation `r` is ridge regression with the regularisation `r²`: both
give the same predictions for all test points, whatever training data and singular value decomposition. -/
theorem C246_linear {N : ℕ} (svd : Svd (Fin N)) (hs : SvdOk svd) (fp : List (Fin N → ℝ)) (t : List ℝ) (r : ℝ) (hr : r ≠ 0) (gp : GP N)
    (hi : init fp t [⟨.linear, none, none, false⟩] (some r) false false = .ok gp) (hl : t.length = fp.length) (test : List (Fin N → ℝ)) (ht : test ≠ []) :
    Proc.predict gp test false = .ok ⟨test.map fun x => some (x ⬝ᵥ
      (rr svd ⟨none, none⟩ (Matrix.of fp.get) (fun i => t.get (i.cast hl.symm)) (r ^ 2) 0 false).1), none⟩ := by
  have hp : PacksList ([⟨.linear, none, none, false⟩] : List (KDict N)) := by simp [PacksList]
  obtain ⟨hc, ⟨hst, -, -⟩, h1, h2, h3, h4⟩ := C43_init_partial _ _ _ hp _ _ _ gp hi
  rw [store, h4] at hst
  simp only [Bool.false_eq_true, if_false, Except.ok.injEq, Stored.mk.injEq, Option.getD_some, Option.isSome_some, if_true] at hst
  obtain ⟨g1, g2, g3, -⟩ := hst
  have c1 : gp.cinv.1 = gp.fp.length := by rw [hc.2.1]
  have c2 : gp.cinv.1 = gp.target.length := by rw [hc.2.1, hc.2.2.1]
  have hcov : ∀ (x y : Fin N → ℝ) (s : Bool), covEntry ([⟨.linear, none, none, false⟩] : List (KDict N)) false x y s = x ⬝ᵥ y := by
    intro x y s
    have : ∀ l : List (Fin N), colSum l x y (fun _ a b => a * b) = (l.map fun i => x i * y i).sum := by
      intro l
      unfold colSum
      have : (l.zipIdx.map fun c => x c.1 * y c.1) = (l.zipIdx.map Prod.fst).map fun i => x i * y i := by
        simp only [List.map_map]; rfl
      rw [this, List.zipIdx_map_fst]
    simp only [covEntry, List.foldl_cons, List.foldl_nil, Bool.false_eq_true, if_false, zero_add, scaleFactor, unlog, one_mul, entry, columns,
      Option.getD_none, this]
    simp only [dotProduct]
    rw [← List.sum_ofFn, List.ofFn_eq_map]
  have hmean : ∀ x, gp.mean x = some (x ⬝ᵥ
      fit svd (Matrix.of fp.get) (fun i => t.get (i.cast hl.symm)) (r ^ 2) 0) := by
    intro x
    unfold GP.mean
    rw [hc.mean_eq, ← g3]
    simp only [Bool.false_eq_true, if_false, GP.rescale, h4, Option.some.injEq, h1, h2, h3]
    have key : ∀ (fp' : List (Fin N → ℝ)) (t' : List ℝ) (hl' : t'.length = fp'.length), fp' = fp → t' = t →
        IsUnit (gram [⟨.linear, none, none, false⟩] false (some r) fp').det →
        postMean (gram [⟨.linear, none, none, false⟩] false (some r) fp') (kvec [⟨.linear, none, none, false⟩] false x fp'.get)
          (fun i => t'.get (i.cast hl'.symm)) = x ⬝ᵥ fit svd (Matrix.of fp.get) (fun i => t.get (i.cast hl.symm)) (r ^ 2) 0 := by
      intro fp' t' hl' hf ht' hu
      subst hf ht'
      set X : Matrix (Fin fp'.length) (Fin N) ℝ := Matrix.of fp'.get with hX
      set y : Fin fp'.length → ℝ := fun i => t'.get (i.cast hl'.symm)
      have hw : 0 < r ^ 2 := by positivity
      have hK : gram [⟨.linear, none, none, false⟩] false (some r) fp' = X * Xᵀ + r ^ 2 • (1 : Matrix (Fin fp'.length) (Fin fp'.length) ℝ) := by
        ext i j
        rw [gram, covSelf_apply, hcov, Matrix.add_apply, mul_apply', Matrix.smul_apply, one_apply, regSq, unlog]
        simp only [hX, Matrix.of_apply, smul_eq_mul, mul_ite, mul_one, mul_zero, Bool.false_eq_true, if_false]
        rfl
      have hk : kvec [⟨.linear, none, none, false⟩] false x fp'.get = X *ᵥ x := by
        funext i
        rw [kvec, hcov, dotProduct_comm]
        rfl
      rw [hK] at hu ⊢
      rw [hk]
      unfold postMean
      set K := X * Xᵀ + r ^ 2 • (1 : Matrix (Fin fp'.length) (Fin fp'.length) ℝ) with hKd
      have hfit : fit svd X y (r ^ 2) 0 = Xᵀ *ᵥ (K⁻¹ *ᵥ y) := by
        refine fit_unique hs X y (r ^ 2) 0 hw _ ?_
        have : (Xᵀ * X + r ^ 2 • (1 : Matrix (Fin N) (Fin N) ℝ)) * Xᵀ = Xᵀ * K := by
          rw [hKd, Matrix.add_mul, Matrix.mul_add, Matrix.mul_assoc, Matrix.smul_mul, Matrix.mul_smul, Matrix.one_mul, Matrix.mul_one]
        rw [mulVec_mulVec, this, mulVec_mulVec, Matrix.mul_assoc, mul_nonsing_inv _ hu, Matrix.mul_one]
        funext i
        simp
      rw [hfit, dotProduct_mulVec x, vecMul_transpose]
    refine key gp.fp gp.target hc.2.2.1 g1.symm g2.symm ?_
    have := hc.1
    rwa [h1, h2, h3] at this
  unfold Proc.predict
  have hrow : test.map gp.scaleRow = test := by
    conv_rhs => rw [← List.map_id test]
    exact List.map_congr_left fun x _ => by simp [GP.scaleRow, h4]
  have hte : test.isEmpty = false := by simpa using ht
  simp only [hte, hrow, ← c1, ← c2, Bool.false_eq_true, if_false, ne_eq, not_true_eq_false, bind, Except.bind, pure, Except.pure]
  congr 2
  exact List.map_congr_left fun x _ => hmean x

end CatLearn.RidgeSearch
