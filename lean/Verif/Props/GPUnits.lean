import Verif.Props.GPBuild
import Verif.Props.GPPredict
import Verif.Props.GPOrder

/-!
C118: with `scale_data=True` the units of features and targets do not matter.
-/

namespace CatLearn.Proc

open CatLearn CatLearn.Kernel CatLearn.Scaling Matrix

/-- A change of units of every feature. -/
def units {N : ℕ} (a b : Fin N → ℝ) (x : Fin N → ℝ) : Fin N → ℝ := fun i => a i * x i + b i

/-- What can be done to a model after it was made. -/
inductive Act (N : ℕ) where
  | data (fp : List (Fin N → ℝ)) (target : List ℝ) (flag : Bool)
  | opt (minimizer : List ℝ → List ℝ × ℝ)

/-- One action. -/
noncomputable def act {N : ℕ} (gp : GP N) : Act N → Except PyErr (GP N)
  | .data fp t flag => updateData gp fp (some t) flag
  | .opt m => optimize m gp

/-- A history of a model with `scale_data=True`: made, then updated with new data and optimised in any order. -/
noncomputable def history {N : ℕ} (fp : List (Fin N → ℝ)) (t : List ℝ) (ks : List (KDict N)) (reg : Option ℝ) (log : Bool)
    (acts : List (Act N)) : Except PyErr (GP N) :=
  match init fp t ks reg log true with
  | .error e => .error e
  | .ok gp => acts.foldlM act gp

/-- The same history with data in other units. -/
def Act.units {N : ℕ} (a b : Fin N → ℝ) (c d : ℝ) : Act N → Act N
  | .data fp t flag => .data (fp.map (Proc.units a b)) (t.map fun y => c * y + d) flag
  | .opt m => .opt m

/-- No feature is constant in the data, and there are targets. -/
def Varied {N : ℕ} (fp : List (Fin N → ℝ)) (t : List ℝ) : Prop := (∀ i, ∃ x ∈ fp, ∃ y ∈ fp, x i ≠ y i) ∧ t ≠ []

/-- The data of an action. -/
def Act.varied {N : ℕ} : Act N → Prop
  | .data fp t _ => Varied fp t
  | .opt _ => True

theorem colMean_units {ι δ : Type} [Fintype ι] [Nonempty ι] (X Y : ι → δ → ℝ) (j : δ) (a b : ℝ) (h : ∀ i, Y i j = a * X i j + b) :
    colMean Y j = a * colMean X j + b := by
  unfold colMean
  have hc : (Fintype.card ι : ℝ) ≠ 0 := by exact_mod_cast Fintype.card_ne_zero
  rw [Finset.sum_congr rfl fun i _ => h i, Finset.sum_add_distrib, ← Finset.mul_sum, Finset.sum_const, Finset.card_univ, nsmul_eq_mul]
  field_simp

theorem colStd_units {ι δ : Type} [Fintype ι] [Nonempty ι] (X Y : ι → δ → ℝ) (j : δ) (a b : ℝ) (ha : 0 ≤ a)
    (h : ∀ i, Y i j = a * X i j + b) : colStd Y j = a * colStd X j := by
  unfold colStd
  have : ∀ i, (Y i j - colMean Y j) ^ 2 = a ^ 2 * (X i j - colMean X j) ^ 2 := by
    intro i
    rw [h i, colMean_units X Y j a b h]
    ring
  rw [Finset.sum_congr rfl fun i _ => this i, ← Finset.mul_sum, mul_div_assoc, Real.sqrt_mul (sq_nonneg a), Real.sqrt_sq ha]

/-- Statistics of a list in other units. -/
theorem list_mean {δ : Type} (l : List (δ → ℝ)) (hl : l ≠ []) (f : (δ → ℝ) → δ → ℝ) (j : δ) (a b : ℝ) (h : ∀ x, f x j = a * x j + b) :
    colMean (l.map f).get j = a * colMean l.get j + b ∧ (0 ≤ a → colStd (l.map f).get j = a * colStd l.get j) := by
  have hl' : l.map f ≠ [] := by simpa using hl
  have e : (l.map f).length = l.length := by simp
  have hn : Nonempty (Fin l.length) := ⟨⟨0, List.length_pos_iff.2 hl⟩⟩
  have h1 : colMean (l.map f).get j = colMean (fun i : Fin l.length => f l[i]) j :=
    congrFun (colMean_equiv (finCongr e) _ (fun i : Fin l.length => f l[i]) (fun i => by simp)) j
  have h2 : colStd (l.map f).get j = colStd (fun i : Fin l.length => f l[i]) j :=
    congrFun (colStd_equiv (finCongr e) _ (fun i : Fin l.length => f l[i]) (fun i => by simp)) j
  exact ⟨h1.trans (colMean_units _ _ j a b fun i => h _), fun ha => h2.trans (colStd_units _ _ j a b ha fun i => h _)⟩

theorem list_tmean (t : List ℝ) (ht : t ≠ []) (c d : ℝ) (hc : 0 < c) :
    tMean (t.map fun y => c * y + d).get = c * tMean t.get + d ∧ tStd (t.map fun y => c * y + d).get = c * tStd t.get := by
  have e : (t.map fun y => c * y + d).length = t.length := by simp
  have hn : Nonempty (Fin t.length) := ⟨⟨0, List.length_pos_iff.2 ht⟩⟩
  have h1 : tMean (t.map fun y => c * y + d).get = tMean (fun i : Fin t.length => c * t[i] + d) :=
    congrFun (colMean_equiv (finCongr e) _ (fun (i : Fin t.length) (_ : Unit) => c * t[i] + d) (fun i => by simp)) ()
  have h2 : tStd (t.map fun y => c * y + d).get = tStd (fun i : Fin t.length => c * t[i] + d) :=
    congrFun (colStd_equiv (finCongr e) _ (fun (i : Fin t.length) (_ : Unit) => c * t[i] + d) (fun i => by simp)) ()
  exact ⟨h1.trans (colMean_units _ _ () c d fun i => rfl), h2.trans (colStd_units _ _ () c d hc.le fun i => rfl)⟩

/-- A column that is not constant has a standard deviation. -/
theorem std_ne {N : ℕ} (fp : List (Fin N → ℝ)) (i : Fin N) (h : ∃ x ∈ fp, ∃ y ∈ fp, x i ≠ y i) : colStd fp.get i ≠ 0 := by
  intro h0
  obtain ⟨x, hx, y, hy, hne⟩ := h
  have hpos : 0 < (fp.length : ℝ) := by exact_mod_cast List.length_pos_of_mem hx
  unfold colStd at h0
  rw [Real.sqrt_eq_zero (by positivity), div_eq_zero_iff] at h0
  rcases h0 with h0 | h0
  · rw [Finset.sum_eq_zero_iff_of_nonneg fun _ _ => sq_nonneg _] at h0
    have key : ∀ z ∈ fp, z i = colMean fp.get i := by
      intro z hz
      obtain ⟨k, hk, rfl⟩ := List.getElem_of_mem hz
      have := h0 ⟨k, hk⟩ (Finset.mem_univ _)
      exact sub_eq_zero.1 (pow_eq_zero_iff two_ne_zero |>.1 this)
    exact hne ((key x hx).trans (key y hy).symm)
  · rw [Fintype.card_fin] at h0
    exact hpos.ne' h0

/-- The statistics in other units. -/
def Scal.units {N : ℕ} (a b : Fin N → ℝ) (c d : ℝ) (s : Scal N) : Scal N :=
  ⟨Proc.units a b s.fmean, fun i => a i * s.fstd i, c * s.tmean + d, c * s.tstd⟩

theorem scalOf_units {N : ℕ} (fp : List (Fin N → ℝ)) (t : List ℝ) (hv : Varied fp t) (hfp : fp ≠ []) (a b : Fin N → ℝ) (ha : ∀ i, 0 < a i)
    (c d : ℝ) (hc : 0 < c) :
    scalOf (fp.map (units a b)) (t.map fun y => c * y + d) = (scalOf fp t).units a b c d := by
  unfold scalOf Scal.units
  have hm : colMean (fp.map (units a b)).get = units a b (colMean fp.get) := by
    funext i
    exact (list_mean fp hfp (units a b) i (a i) (b i) fun x => rfl).1
  have hs : placeOnes (colStd (fp.map (units a b)).get) = fun i => a i * placeOnes (colStd fp.get) i := by
    funext i
    have h1 := std_ne fp i (hv.1 i)
    have h2 := (list_mean fp hfp (units a b) i (a i) (b i) fun x => rfl).2 (ha i).le
    unfold placeOnes
    rw [h2, if_neg h1, if_neg (mul_ne_zero (ha i).ne' h1)]
  obtain ⟨h3, h4⟩ := list_tmean t hv.2 c d hc
  rw [hm, hs, h3, h4]

theorem row_units {N : ℕ} (s : Scal N) (a b : Fin N → ℝ) (ha : ∀ i, 0 < a i) (c d : ℝ) (x : Fin N → ℝ) :
    (s.units a b c d).row (units a b x) = s.row x := by
  funext i
  simp only [Scal.row, Scal.units, units]
  rw [show a i * x i + b i - (a i * s.fmean i + b i) = a i * (x i - s.fmean i) by ring, mul_div_mul_left _ _ (ha i).ne']

theorem tgt_units {N : ℕ} (s : Scal N) (a b : Fin N → ℝ) (c d : ℝ) (hc : 0 < c) (y : ℝ) : (s.units a b c d).tgt (c * y + d) = s.tgt y := by
  simp only [Scal.tgt, Scal.units]
  rw [show c * y + d - (c * s.tmean + d) = c * (y - s.tmean) by ring, mul_div_mul_left _ _ hc.ne']

/-- The model in other units. -/
def GP.units {N : ℕ} (a b : Fin N → ℝ) (c d : ℝ) (gp : GP N) : GP N := { gp with scaling := gp.scaling.map (Scal.units a b c d) }

theorem updateLml_units {N : ℕ} (gp : GP N) (a b : Fin N → ℝ) (c d : ℝ) :
    updateLml (gp.units a b c d) = (updateLml gp).map (GP.units a b c d) := by
  unfold updateLml
  have e1 : (gp.units a b c d).kernels = gp.kernels := rfl
  have e2 : (gp.units a b c d).reg = gp.reg := rfl
  rw [e1, e2]
  simp only [bind, Except.bind, pure, Except.pure, throw, throwThe, MonadExceptOf.throw]
  cases kdicts2list gp.kernels with
  | error e => rfl
  | ok θ =>
    simp only
    cases list2kdict (θ ++ gp.reg.toList) gp.kernels with
    | error e => rfl
    | ok ks =>
      simp only
      have e3 : (gp.units a b c d).log = gp.log := rfl
      have e4 : (gp.units a b c d).fp = gp.fp := rfl
      rw [e3, e4]
      by_cases h1 : (gram ks gp.log gp.reg gp.fp).PosDef
      · simp only [h1, not_true_eq_false, if_false]
        by_cases h2 : gp.cinv.1 = gp.target.length
        · have h2' : (gp.units a b c d).cinv.1 = (gp.units a b c d).target.length := h2
          rw [if_neg (not_not.2 h2'), if_neg (not_not.2 h2)]
          rfl
        · have h2' : (gp.units a b c d).cinv.1 ≠ (gp.units a b c d).target.length := h2
          rw [if_pos h2', if_pos h2]
          rfl
      · simp only [h1, not_false_eq_true, if_true]
        rfl

theorem updateData_units {N : ℕ} (gp : GP N) (hsd : gp.scaleData = true) (a b : Fin N → ℝ) (ha : ∀ i, 0 < a i) (c d : ℝ) (hc : 0 < c)
    (fp : List (Fin N → ℝ)) (t : List ℝ) (flag : Bool) (hv : Varied fp t) :
    updateData (gp.units a b c d) (fp.map (units a b)) (some (t.map fun y => c * y + d)) flag =
      (updateData gp fp (some t) flag).map (GP.units a b c d) := by
  by_cases hfp : fp = []
  · subst hfp; rfl
  have h1 : fp.isEmpty = false := by simpa using hfp
  have h2 : (fp.map (units a b)).isEmpty = false := by simpa using hfp
  have e0 : (gp.units a b c d).scaleData = true := hsd
  have e1 : (gp.units a b c d).kernels = gp.kernels := rfl
  have e2 : (gp.units a b c d).reg = gp.reg := rfl
  have s1 : store gp fp (some t) = .ok ⟨fp.map (scalOf fp t).row, t.map (scalOf fp t).tgt, decide ((scalOf fp t).tstd = 0), some (scalOf fp t)⟩ := by
    simp only [store, hsd, if_true]
  have s2 : store (gp.units a b c d) (fp.map (units a b)) (some (t.map fun y => c * y + d)) =
      .ok ⟨fp.map (scalOf fp t).row, t.map (scalOf fp t).tgt, decide ((scalOf fp t).tstd = 0), some ((scalOf fp t).units a b c d)⟩ := by
    simp only [store, e0, if_true, scalOf_units fp t hv hfp a b ha c d hc, List.map_map]
    have r1 : (Scal.row ((scalOf fp t).units a b c d)) ∘ units a b = (scalOf fp t).row := by
      funext x; exact row_units _ a b ha c d x
    have r2 : ((Scal.tgt ((scalOf fp t).units a b c d)) ∘ fun y => c * y + d) = (scalOf fp t).tgt := by
      funext y; exact tgt_units _ a b c d hc y
    have r3 : ((Scal.units a b c d (scalOf fp t)).tstd = 0) ↔ (scalOf fp t).tstd = 0 := by
      simp [Scal.units, hc.ne']
    rw [r1, r2]
    simp only [r3]
  unfold updateData
  rw [e1, e2]
  simp only [h1, h2, s1, s2, bind, Except.bind, pure, Except.pure, Bool.false_eq_true, if_false]
  cases invGram gp.kernels flag gp.reg (fp.map (scalOf fp t).row) with
  | error e => rfl
  | ok ci => exact updateLml_units { gp with
      fp := fp.map (scalOf fp t).row, target := t.map (scalOf fp t).tgt, nan := decide ((scalOf fp t).tstd = 0),
      scaling := some (scalOf fp t), cinv := ci } a b c d

theorem optimize_units {N : ℕ} (gp : GP N) (m : List ℝ → List ℝ × ℝ) (a b : Fin N → ℝ) (c d : ℝ) :
    optimize m (gp.units a b c d) = (optimize m gp).map (GP.units a b c d) := by
  unfold optimize
  have e1 : (gp.units a b c d).kernels = gp.kernels := rfl
  have e2 : (gp.units a b c d).reg = gp.reg := rfl
  have e3 : (gp.units a b c d).log = gp.log := rfl
  have e4 : (gp.units a b c d).fp = gp.fp := rfl
  rw [e1, e2, e3, e4]
  simp only [bind, Except.bind, pure, Except.pure, throw, throwThe, MonadExceptOf.throw]
  cases kdicts2list gp.kernels with
  | error e => rfl
  | ok θ =>
    cases gp.reg with
    | none => rfl
    | some r =>
      simp only
      cases list2kdict (m (θ ++ [r])).1.dropLast gp.kernels with
      | error e => rfl
      | ok ks =>
        simp only
        cases (m (θ ++ [r])).1.getLast? with
        | none => rfl
        | some r' =>
          simp only
          cases invGram ks gp.log (some r') gp.fp with
          | error e => rfl
          | ok ci => rfl

theorem updateLml_scaled {N : ℕ} {gp gp' : GP N} (h : updateLml gp = .ok gp') : gp'.scaleData = gp.scaleData ∧ gp'.scaling = gp.scaling := by
  unfold updateLml at h
  simp only [bind, Except.bind, pure, Except.pure, throw, throwThe, MonadExceptOf.throw] at h
  cases h1 : kdicts2list gp.kernels with
  | error e => simp [h1] at h
  | ok θ =>
    cases h2 : list2kdict (θ ++ gp.reg.toList) gp.kernels with
    | error e => simp [h1, h2] at h
    | ok ks =>
      simp only [h1, h2] at h
      split at h
      · simp at h
      · split at h
        · simp at h
        · simp only [Except.ok.injEq] at h
          subst h
          exact ⟨rfl, rfl⟩

theorem updateData_scaled {N : ℕ} {gp gp' : GP N} {fp : List (Fin N → ℝ)} {t : List ℝ} {flag : Bool} (hsd : gp.scaleData = true)
    (h : updateData gp fp (some t) flag = .ok gp') : gp'.scaleData = true ∧ ∃ s, gp'.scaling = some s := by
  unfold updateData at h
  simp only [bind, Except.bind, pure, Except.pure, throw, throwThe, MonadExceptOf.throw, store, hsd, if_true] at h
  split at h
  · simp at h
  · cases h2 : invGram gp.kernels flag gp.reg (fp.map (scalOf fp t).row) with
    | error e => simp [h2] at h
    | ok ci =>
      simp only [h2] at h
      obtain ⟨h3, h4⟩ := updateLml_scaled h
      exact ⟨h3, _, h4⟩

theorem fold_units {N : ℕ} (a b : Fin N → ℝ) (ha : ∀ i, 0 < a i) (c d : ℝ) (hc : 0 < c) (acts : List (Act N)) (hv : ∀ x ∈ acts, x.varied)
    (gp : GP N) (hsd : gp.scaleData = true) (s : Scal N) (hs : gp.scaling = some s) :
    (acts.map (Act.units a b c d)).foldlM act (gp.units a b c d) =
      (acts.foldlM act gp).map (GP.units a b c d) ∧
    ∀ gp', acts.foldlM act gp = .ok gp' → gp'.scaleData = true ∧ ∃ s, gp'.scaling = some s := by
  induction acts generalizing gp s with
  | nil =>
    refine ⟨rfl, fun gp' h => ?_⟩
    simp only [List.foldlM_nil, pure, Except.pure, Except.ok.injEq] at h
    subst h
    exact ⟨hsd, s, hs⟩
  | cons x acts ih =>
    have hv' : ∀ x ∈ acts, x.varied := fun y hy => hv y (List.mem_cons_of_mem _ hy)
    cases x with
    | data fp t flag =>
      have hx : Varied fp t := hv _ (List.mem_cons_self ..)
      simp only [List.map_cons, Act.units, List.foldlM_cons, act]
      rw [updateData_units gp hsd a b ha c d hc fp t flag hx]
      cases h : updateData gp fp (some t) flag with
      | error e => exact ⟨rfl, fun gp' h => by simp [bind, Except.bind] at h⟩
      | ok gp1 =>
        obtain ⟨h1, s1, h2⟩ := updateData_scaled hsd h
        exact ih hv' gp1 h1 s1 h2
    | opt m =>
      simp only [List.map_cons, Act.units, List.foldlM_cons, act]
      rw [optimize_units]
      cases h : optimize m gp with
      | error e => exact ⟨rfl, fun gp' h => by simp [bind, Except.bind] at h⟩
      | ok gp1 =>
        have : gp1.scaleData = gp.scaleData ∧ gp1.scaling = gp.scaling := by
          obtain ⟨θ, r, ks, r', ci, -, -, -, -, -, rfl⟩ := optimize_ok h
          exact ⟨rfl, rfl⟩
        exact ih hv' gp1 (this.1.trans hsd) s (this.2.trans hs)

/-- Predictions in other units. -/
def Pred.units (c d : ℝ) (p : Pred) : Pred :=
  ⟨p.prediction.map (Option.map fun y => c * y + d), p.uncertainty.map (List.map fun u => (u.1.map (c * ·), u.2.map (c * ·)))⟩

theorem predict_units {N : ℕ} (gp : GP N) (hsd : gp.scaleData = true) (s : Scal N) (hs : gp.scaling = some s) (a b : Fin N → ℝ)
    (ha : ∀ i, 0 < a i) (c d : ℝ) (test : List (Fin N → ℝ)) (unc : Bool) :
    predict (gp.units a b c d) (test.map (units a b)) unc = (predict gp test unc).map (Pred.units c d) := by
  have hs' : (gp.units a b c d).scaling = some (s.units a b c d) := by simp [GP.units, hs]
  have hsd' : (gp.units a b c d).scaleData = true := hsd
  have hr : ∀ x, (gp.units a b c d).scaleRow (units a b x) = gp.scaleRow x := by
    intro x
    simp only [GP.scaleRow, hsd, hsd', hs, hs']
    exact row_units s a b ha c d x
  have hm : ∀ x, (gp.units a b c d).mean x = (gp.mean x).map fun y => c * y + d := by
    intro x
    unfold GP.mean
    have e : (gp.units a b c d).nan = gp.nan := rfl
    rw [e]
    cases gp.nan with
    | true => rfl
    | false =>
      simp only [Bool.false_eq_true, if_false, Option.map_some, Option.some.injEq, GP.rescale, hsd, hsd', hs, hs', Scal.untgt, Scal.units]
      change (gp.ktb x ⬝ᵥ (gp.cinv.2 *ᵥ gp.y)) * (c * s.tstd) + (c * s.tmean + d) = _
      ring
  have hu : ∀ r x, (gp.units a b c d).unc r x = (((gp.unc r x).1.map (c * ·)), ((gp.unc r x).2.map (c * ·))) := by
    intro r x
    unfold GP.unc
    have e1 : (gp.units a b c d).var x = gp.var x := rfl
    have e2 : (gp.units a b c d).tstd = c * gp.tstd := by simp [GP.tstd, hsd, hsd', hs, hs', Scal.units]
    rw [e1, e2]
    cases npSqrt (gp.var x) with
    | none => rfl
    | some v =>
      simp only [Option.map_some, Prod.mk.injEq, Option.some.injEq]
      constructor <;> ring
  have e1 : (gp.units a b c d).cinv = gp.cinv := rfl
  have e2 : (gp.units a b c d).fp = gp.fp := rfl
  have e3 : (gp.units a b c d).target = gp.target := rfl
  have e4 : (gp.units a b c d).reg = gp.reg := rfl
  unfold predict
  rw [e1, e2, e3, e4]
  have e5 : (test.map (units a b)).isEmpty = test.isEmpty := by cases test <;> rfl
  have e6 : (test.map (units a b)).map (gp.units a b c d).scaleRow = test.map gp.scaleRow := by
    rw [List.map_map]; exact List.map_congr_left fun x _ => hr x
  have e7 : (test.map gp.scaleRow).map (gp.units a b c d).mean = ((test.map gp.scaleRow).map gp.mean).map (Option.map fun y => c * y + d) := by
    rw [List.map_map (f := gp.mean)]; exact List.map_congr_left fun x _ => hm x
  rw [e5, e6]
  simp only [bind, Except.bind, pure, Except.pure, throw, throwThe, MonadExceptOf.throw]
  cases test.isEmpty with
  | true => rfl
  | false =>
    simp only [Bool.false_eq_true, if_false]
    by_cases h1 : gp.cinv.1 = gp.target.length
    · by_cases h2 : gp.cinv.1 = gp.fp.length
      · simp only [ne_eq, h1, not_true_eq_false, if_false]
        rw [h1] at h2
        simp only [h2, not_true_eq_false, if_false]
        cases unc with
        | false => simp only [Bool.false_eq_true, if_false, e7]; rfl
        | true =>
          simp only [if_true]
          cases gp.reg with
          | none => rfl
          | some r =>
            simp only [e7, Except.map, Pred.units, Option.map_some, List.map_map]
            simp only [Function.comp_def, hu]
      · simp only [ne_eq, h1, not_true_eq_false, if_false]
        rw [h1] at h2
        simp only [h2, not_false_eq_true, if_true]
        rfl
    · simp only [ne_eq, h1, not_false_eq_true, if_true]
      rfl

/-- C118 (`_partial`: if no feature is constant in the data of an update): whatever data the model was made of, updated with and however
it was optimised, with all features and targets in other units it is made if and only if it was made before, predicts the same values in the
new units, and its uncertainties change by the unit of the targets. -/
theorem C118_units_partial {N : ℕ} (fp : List (Fin N → ℝ)) (t : List ℝ) (ks : List (KDict N)) (reg : Option ℝ) (log : Bool)
    (acts : List (Act N)) (hv : Varied fp t) (hva : ∀ x ∈ acts, x.varied) (a b : Fin N → ℝ) (ha : ∀ i, 0 < a i) (c d : ℝ) (hc : 0 < c) :
    (∀ e, history fp t ks reg log acts = .error e →
      history (fp.map fun x i => a i * x i + b i) (t.map fun y => c * y + d) ks reg log (acts.map (Act.units a b c d)) = .error e) ∧
    ∀ gp, history fp t ks reg log acts = .ok gp →
      ∃ gp', history (fp.map fun x i => a i * x i + b i) (t.map fun y => c * y + d) ks reg log (acts.map (Act.units a b c d)) = .ok gp' ∧
        ∀ test unc, predict gp' (test.map fun x i => a i * x i + b i) unc = (predict gp test unc).map fun p =>
          ⟨p.prediction.map (Option.map fun y => c * y + d), p.uncertainty.map (List.map fun u => (u.1.map (c * ·), u.2.map (c * ·)))⟩ := by
  have h0 : init (fp.map (units a b)) (t.map fun y => c * y + d) ks reg log true = (init fp t ks reg log true).map (GP.units a b c d) := by
    unfold init
    simp only [bind, Except.bind, pure, Except.pure, throw, throwThe, MonadExceptOf.throw, List.length_map]
    split
    · rfl
    · exact updateData_units (blank ks reg log true) rfl a b ha c d hc fp t log hv
  have hsc : ∀ gp, init fp t ks reg log true = .ok gp → gp.scaleData = true ∧ ∃ s, gp.scaling = some s := by
    intro gp h
    unfold init at h
    simp only [bind, Except.bind, pure, Except.pure, throw, throwThe, MonadExceptOf.throw] at h
    split at h
    · simp at h
    · exact updateData_scaled rfl h
  have key : history (fp.map (units a b)) (t.map fun y => c * y + d) ks reg log (acts.map (Act.units a b c d)) =
      (history fp t ks reg log acts).map (GP.units a b c d) ∧
      ∀ gp, history fp t ks reg log acts = .ok gp → gp.scaleData = true ∧ ∃ s, gp.scaling = some s := by
    unfold history
    rw [h0]
    cases h : init fp t ks reg log true with
    | error e => exact ⟨rfl, fun gp h => by simp [bind, Except.bind] at h⟩
    | ok gp0 =>
      obtain ⟨h1, s, h2⟩ := hsc gp0 h
      exact fold_units a b ha c d hc acts hva gp0 h1 s h2
  have key1 := key.1
  constructor
  · intro e h
    rw [h] at key1
    exact key1
  · intro gp h
    rw [h] at key1
    obtain ⟨h1, s, h2⟩ := key.2 gp h
    exact ⟨_, key1, fun test unc => predict_units gp h1 s h2 a b ha c d test unc⟩

/-- A linear model of a feature that is constant in the data. -/
theorem const_unc (v z t1 t2 : ℝ) : ∃ gp m q, init [![v], ![v]] [t1, t2] linK (some 1) false true = .ok gp ∧
    predict gp [![z]] true = .ok ⟨[m], some [(some (|z - v| * tStd [t1, t2].get), q)]⟩ := by
  obtain ⟨gp, hgp⟩ := C113_can_build [![v], ![v]] [t1, t2] linK 1 false true (by simp) rfl (by simp [linK]) linK_packs linK_good (Or.inr one_ne_zero)
  obtain ⟨h1, h2, h3, h4, h5, h6⟩ := C43_init_partial _ _ _ linK_packs _ _ _ gp hgp
  have hst := h2.1
  simp only [store, h6, if_true, Except.ok.injEq, Stored.mk.injEq] at hst
  obtain ⟨s1, -, -, s4⟩ := hst
  have hm : (scalOf [![v], ![v]] [t1, t2]).fmean = ![v] := by
    funext i
    fin_cases i
    simp [scalOf, colMean]
  have hs : (scalOf [![v], ![v]] [t1, t2]).fstd = ![1] := by
    funext i
    fin_cases i
    simp [scalOf, placeOnes, colStd, colMean]
  have hrow : ∀ x : ℝ, (scalOf [![v], ![v]] [t1, t2]).row ![x] = ![x - v] := by
    intro x
    funext i
    fin_cases i
    simp [Scal.row, hm, hs]
  have hfp : gp.fp = [![0], ![0]] := by
    rw [← s1]
    simp [hrow]
  have hsr : gp.scaleRow ![z] = ![z - v] := by
    simp only [GP.scaleRow, h6, ← s4]
    exact hrow z
  have hvar : gp.var ![z - v] = (z - v) ^ 2 := by
    rw [h1.var_eq]
    have hk : kvec gp.kernels gp.log ![z - v] gp.fp.get = 0 := by
      funext j
      have : gp.fp.get j = ![0] := by
        have hall : ∀ x ∈ gp.fp, x = ![0] := by simp [hfp]
        exact hall _ (List.get_mem gp.fp j)
      simp only [kvec, this, h3, h5, Pi.zero_apply]
      rw [linK_entry, mul_zero]
    rw [hk]
    simp [postVar, h3, h5, linK_entry, sq]
  have htstd : gp.tstd = tStd [t1, t2].get := by
    simp only [GP.tstd, h6, ← s4]
    rfl
  refine ⟨gp, gp.mean (gp.scaleRow ![z]), (gp.unc 1 (gp.scaleRow ![z])).2, hgp, ?_⟩
  rw [h1.predict_unc [![z]] (by simp) 1 h4]
  simp only [List.map_cons, List.map_nil, hsr]
  congr 4
  refine Prod.ext ?_ rfl
  simp only [GP.unc, hvar, npSqrt, not_lt.2 (sq_nonneg (z - v)), if_false, Option.map_some, htstd, Real.sqrt_sq_eq_abs]

/-- C118 is violated for a feature that is constant in the training data: it is not scaled (its standard deviation is taken as 1), so that the
uncertainty of a linear model at any other value depends on the unit of this feature. -/
theorem C118_constant_feature_violated (v t1 t2 z : ℝ) (ht : t1 ≠ t2) (hz : z ≠ v) (a b : ℝ) (ha : 0 < a) :
    ∃ gp gp' m m' q q' u, 0 < u ∧ init [![v], ![v]] [t1, t2] linK (some 1) false true = .ok gp ∧
      init [![a * v + b], ![a * v + b]] [t1, t2] linK (some 1) false true = .ok gp' ∧
      predict gp [![z]] true = .ok ⟨[m], some [(some u, q)]⟩ ∧ predict gp' [![a * z + b]] true = .ok ⟨[m'], some [(some (a * u), q')]⟩ := by
  obtain ⟨gp, m, q, h1, h2⟩ := const_unc v z t1 t2
  obtain ⟨gp', m', q', h3, h4⟩ := const_unc (a * v + b) (a * z + b) t1 t2
  refine ⟨gp, gp', m, m', q, q', |z - v| * tStd [t1, t2].get, ?_, h1, h3, h2, ?_⟩
  · have h5 : tStd [t1, t2].get ≠ 0 := by
      intro h0
      have := std_ne [![t1], ![t2]] 0 ⟨![t1], by simp, ![t2], by simp, by simpa using ht⟩
      apply this
      rw [← h0]
      simp [tStd, colStd, colMean]
    have h6 : 0 ≤ tStd [t1, t2].get := Real.sqrt_nonneg _
    exact mul_pos (abs_pos.2 (sub_ne_zero.2 hz)) (lt_of_le_of_ne h6 h5.symm)
  · rw [h4, show a * z + b - (a * v + b) = a * (z - v) by ring, abs_mul, abs_of_pos ha, mul_assoc]

/-- Celsius to Fahrenheit for a feature, electronvolt to kJ/mol for the targets, an update and an optimisation. -/
example : Varied (N := 1) [![0], ![1]] [1, 2] ∧ (∀ x ∈ [Act.data (N := 1) [![3], ![4]] [0] false, .opt fun θ => (θ, 0)], x.varied) ∧
    (0 : ℝ) < 9 / 5 ∧ (0 : ℝ) < 96.485 := by
  refine ⟨⟨?_, by simp⟩, ?_, by norm_num, by norm_num⟩
  · intro i
    exact ⟨![0], by simp, ![1], by simp, by fin_cases i; simp⟩
  · intro x hx
    rcases List.mem_cons.1 hx with rfl | hx
    · refine ⟨fun i => ⟨![3], by simp, ![4], by simp, by fin_cases i; simp⟩, by simp⟩
    · rw [List.mem_singleton.1 hx]
      trivial

/-- Such a model exists. -/
example : ∃ gp, history (N := 1) [![0], ![1]] [1, 2] linK (some 1) false [] = .ok gp := by
  obtain ⟨gp, h⟩ := C113_can_build (N := 1) [![0], ![1]] [1, 2] linK 1 false true (by simp) rfl (by simp [linK]) linK_packs linK_good (Or.inr one_ne_zero)
  exact ⟨gp, by simp only [history, h]; rfl⟩

end CatLearn.Proc
