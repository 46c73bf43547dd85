import Verif.Model.Predictors
import Verif.Props.GADraws
import Verif.Props.GPUnits
import Verif.Props.GAFitness
import Verif.Props.GPState
import Verif.Props.Scaling
import Mathlib.Tactic.FinCases
import Mathlib.Tactic.Positivity

/-!
# The fitness functions of the genetic algorithm and the units of the data (C238)
-/

namespace CatLearn.Predictors

open CatLearn CatLearn.Kernel CatLearn.Proc CatLearn.GA CatLearn.GASearch CatLearn.GADraws Matrix

/-- Data in other units. -/
def rowsUnits {N : ℕ} (a b : Fin N → ℝ) (c d : ℝ) (rows : Rows N) : Rows N :=
  rows.map fun r => (fun i => a i * r.1 i + b i, c * r.2 + d)

/-- No feature is constant in the data. -/
def RowsVaried {N : ℕ} (rows : Rows N) : Prop := rows ≠ [] ∧ ∀ i, ∃ x ∈ rows, ∃ y ∈ rows, x.1 i ≠ y.1 i

private theorem varied_of {N : ℕ} {rows : Rows N} (h : RowsVaried rows) : Varied (rows.map Prod.fst) (rows.map Prod.snd) := by
  refine ⟨fun i => ?_, by simpa using h.1⟩
  obtain ⟨x, hx, y, hy, hne⟩ := h.2 i
  exact ⟨x.1, List.mem_map_of_mem hx, y.1, List.mem_map_of_mem hy, hne⟩

private theorem init_units {N : ℕ} (fp : List (Fin N → ℝ)) (t : List ℝ) (ks : List (KDict N)) (reg : Option ℝ) (log : Bool)
    (hv : Varied fp t) (a b : Fin N → ℝ) (ha : ∀ i, 0 < a i) (c d : ℝ) (hc : 0 < c) :
    init (fp.map (units a b)) (t.map fun y => c * y + d) ks reg log true = (init fp t ks reg log true).map (GP.units a b c d) := by
  unfold init
  simp only [bind, Except.bind, pure, Except.pure, throw, throwThe, MonadExceptOf.throw, List.length_map]
  split
  · rfl
  · exact updateData_units (blank ks reg log true) rfl a b ha c d hc fp t log hv

private theorem init_scaled {N : ℕ} (fp : List (Fin N → ℝ)) (t : List ℝ) (ks : List (KDict N)) (reg : Option ℝ) (log : Bool) (gp : GP N)
    (h : init fp t ks reg log true = .ok gp) : gp.scaleData = true ∧ ∃ s, gp.scaling = some s := by
  unfold init at h
  simp only [bind, Except.bind, pure, Except.pure, throw, throwThe, MonadExceptOf.throw] at h
  split at h
  · simp at h
  · exact updateData_scaled rfl h

private theorem fitted_units {N : ℕ} (m : Optimiser) (train : Rows N) (hv : RowsVaried train) (a b : Fin N → ℝ) (ha : ∀ i, 0 < a i)
    (c d : ℝ) (hc : 0 < c) :
    fitted m (rowsUnits a b c d train) = (fitted m train).map (GP.units a b c d) ∧
    ∀ gp, fitted m train = .ok gp → gp.scaleData = true ∧ ∃ s, gp.scaling = some s := by
  have h1 : (rowsUnits a b c d train).map Prod.fst = (train.map Prod.fst).map (units a b) := by
    simp only [rowsUnits, List.map_map]
    rfl
  have h2 : (rowsUnits a b c d train).map Prod.snd = (train.map Prod.snd).map fun y => c * y + d := by
    simp [rowsUnits, Function.comp_def]
  unfold fitted
  rw [h1, h2, init_units _ _ _ _ _ (varied_of hv) a b ha c d hc]
  cases h : init (train.map Prod.fst) (train.map Prod.snd) (kernel N) (some (1 / 100)) false true with
  | error e => exact ⟨rfl, fun gp h => by simp at h⟩
  | ok gp =>
    obtain ⟨h3, s, h4⟩ := init_scaled _ _ _ _ _ gp h
    have e1 : (gp.units a b c d).fp = gp.fp := rfl
    have e2 : (gp.units a b c d).target = gp.target := rfl
    simp only [Except.map, e1, e2]
    cases m N gp.fp gp.target with
    | error e => exact ⟨rfl, fun gp h => by simp at h⟩
    | ok mm =>
      dsimp only
      refine ⟨optimize_units gp mm a b c d, ?_⟩
      intro gp' h'
      obtain ⟨θ, r, ks, r', ci, -, -, -, -, -, rfl⟩ := optimize_ok h'
      exact ⟨h3, s, h4⟩

private theorem allSome_map (f : ℝ → ℝ) (l : List (Option ℝ)) : allSome (l.map (Option.map f)) = (allSome l).map (List.map f) := by
  induction l with
  | nil => rfl
  | cons x l ih =>
    cases x with
    | none => rfl
    | some y =>
      simp only [List.map_cons, Option.map_some, allSome, ih, Option.map_map]
      rfl

private theorem error_units (c d : ℝ) (hc : 0 < c) (y t : List ℝ) :
    (Err.getError (y.map fun y => c * y + d) (t.map fun y => c * y + d)).map Err.Errors.rmseAverage =
      (Err.getError y t).map fun e => c * e.rmseAverage := by
  unfold Err.getError
  simp only [List.length_map]
  split
  · rfl
  · simp only [Except.map, Except.ok.injEq]
    have h1 : (List.zipWith (· - ·) (y.map fun y => c * y + d) (t.map fun y => c * y + d)).map (fun r => r ^ 2) =
        ((List.zipWith (· - ·) y t).map fun r => r ^ 2).map (c ^ 2 * ·) := by
      rw [List.zipWith_map, List.map_zipWith, List.map_map, List.map_zipWith]
      congr 1
      funext u v
      simp only [Function.comp_apply]
      ring
    have h2 : ∀ l : List ℝ, Err.mean (l.map (c ^ 2 * ·)) = c ^ 2 * Err.mean l := by
      intro l
      have h3 : (l.map (c ^ 2 * ·)).sum = c ^ 2 * l.sum := by
        induction l with
        | nil => simp
        | cons x l ih => simp only [List.map_cons, List.sum_cons, ih]; ring
      simp only [Err.mean, List.length_map, h3]
      ring
    rw [h1, h2, Real.sqrt_mul (sq_nonneg c), Real.sqrt_sq hc.le]

/-- The error of a fit in other units. -/
private theorem rmse_units {N : ℕ} (m : Optimiser) (train test : Rows N) (hv : RowsVaried train) (a b : Fin N → ℝ) (ha : ∀ i, 0 < a i)
    (c d : ℝ) (hc : 0 < c) :
    rmse m (rowsUnits a b c d train) (rowsUnits a b c d test) = (rmse m train test).map (Option.map (c * ·)) := by
  obtain ⟨h1, h2⟩ := fitted_units m train hv a b ha c d hc
  have h3 : (rowsUnits a b c d test).map Prod.fst = (test.map Prod.fst).map (units a b) := by
    simp only [rowsUnits, List.map_map]
    rfl
  have h4 : (rowsUnits a b c d test).map Prod.snd = (test.map Prod.snd).map fun y => c * y + d := by
    simp [rowsUnits, Function.comp_def]
  unfold rmse
  rw [h1, h3, h4]
  cases h : fitted m train with
  | error e => rfl
  | ok gp =>
    obtain ⟨h5, s, h6⟩ := h2 gp h
    simp only [Except.map, predict_units gp h5 s h6 a b ha c d]
    cases predict gp (test.map Prod.fst) false with
    | error e => rfl
    | ok p =>
      simp only [Pred.units, allSome_map]
      cases allSome p.prediction with
      | none => rfl
      | some y =>
        simp only [Option.map_some]
        have := error_units c d hc y (test.map Prod.snd)
        cases h7 : Err.getError y (test.map Prod.snd) with
        | error e =>
          rw [h7] at this
          cases h8 : Err.getError (y.map fun y => c * y + d) ((test.map Prod.snd).map fun y => c * y + d) with
          | error e' => rw [h8] at this; simpa [Except.map] using this
          | ok e' => rw [h8] at this; simp [Except.map] at this
        | ok e =>
          rw [h7] at this
          cases h8 : Err.getError (y.map fun y => c * y + d) ((test.map Prod.snd).map fun y => c * y + d) with
          | error e' => rw [h8] at this; simp [Except.map] at this
          | ok e' => rw [h8] at this; simpa [Except.map] using this

/-! ### Cross validation -/

private theorem select_units {D : ℕ} (p : Ind) (rows : Rows D) (a b : Fin D → ℝ) (c d : ℝ) :
    select p (rowsUnits a b c d rows) =
      rowsUnits (fun i => a ((columnsOf D p).get i)) (fun i => b ((columnsOf D p).get i)) c d (select p rows) := by
  simp only [select, rowsUnits, List.map_map]
  rfl

private theorem select_varied {D : ℕ} (p : Ind) (rows : Rows D) (h : RowsVaried rows) : RowsVaried (select p rows) := by
  refine ⟨by simpa [select] using h.1, fun i => ?_⟩
  obtain ⟨x, hx, y, hy, hne⟩ := h.2 ((columnsOf D p).get i)
  exact ⟨_, List.mem_map_of_mem hx, _, List.mem_map_of_mem hy, hne⟩

/-- Scores times factors. -/
noncomputable def times (cs : ℕ → ℝ) (l : List (WithBot ℝ)) : List (WithBot ℝ) := l.mapIdx fun k => WithBot.map (cs k * ·)

private theorem times_bot (cs : ℕ → ℝ) (l : List (WithBot ℝ)) : (times cs l).map (fun _ => (⊥ : WithBot ℝ)) = times cs (l.map fun _ => ⊥) := by
  apply List.ext_getElem?
  intro i
  simp only [times, List.getElem?_map, List.getElem?_mapIdx, Option.map_map]
  cases l[i]? <;> rfl

private theorem times_add (cs : ℕ → ℝ) (l : List (WithBot ℝ)) (s : List ℝ) :
    List.zipWith (fun x (y : ℝ) => x + (y : WithBot ℝ)) (times cs l) (s.mapIdx fun k x => cs k * x) =
      times cs (List.zipWith (fun x (y : ℝ) => x + (y : WithBot ℝ)) l s) := by
  apply List.ext_getElem?
  intro i
  simp only [times, List.getElem?_zipWith, List.getElem?_mapIdx]
  cases l[i]? with
  | none => rfl
  | some x =>
    cases s[i]? with
    | none => rfl
    | some y =>
      cases x with
      | bot => rfl
      | coe x =>
        simp only [Option.map_some]
        show some (((cs i * x : ℝ) : WithBot ℝ) + ((cs i * y : ℝ) : WithBot ℝ)) = some (WithBot.map (cs i * ·) (((x + y : ℝ)) : WithBot ℝ))
        rw [WithBot.map_coe, ← WithBot.coe_add, mul_add]

private theorem addScores_units {D : ℕ} (fit : (N : ℕ) → Rows N → Rows N → Except PyErr (Option (List ℝ))) (params : ℕ) (p : Ind)
    (cs : ℕ → ℝ) (f : Rows D → Rows D) : ∀ (l : List (Rows D × Rows D)),
    (∀ x ∈ l, fit _ (select p (f x.2)) (select p (f x.1)) =
      (fit _ (select p x.2) (select p x.1)).map (Option.map (List.mapIdx fun k x => cs k * x))) →
    ∀ total, addScores fit params p (l.map fun x => (f x.1, f x.2)) (total.map (times cs)) =
      (addScores fit params p l total).map (Option.map (times cs)) := by
  intro l
  induction l with
  | nil => intro _ total; rfl
  | cons x l ih =>
    intro h total
    obtain ⟨test, train⟩ := x
    have h1 := h (test, train) (by simp)
    have ih := ih fun x hx => h x (by simp [hx])
    simp only at h1
    simp only [List.map_cons, addScores, h1]
    cases fit _ (select p train) (select p test) with
    | error e =>
      cases e with
      | linalg =>
        have := ih (total.map fun t => t.map fun _ => ⊥)
        simp only [Except.map] at this ⊢
        rw [← this]
        congr 1
        cases total with
        | none => rfl
        | some t => simp only [Option.map_some, times_bot]
      | _ => rfl
    | ok o =>
      cases o with
      | none => simpa [Except.map] using ih none
      | some score =>
        simp only [Except.map, Option.map_some, List.length_mapIdx]
        split
        · rfl
        · have := ih (total.map fun t => List.zipWith (fun x (y : ℝ) => x + (y : WithBot ℝ)) t score)
          simp only [Except.map] at this
          rw [← this]
          congr 1
          cases total with
          | none => rfl
          | some t => simp only [Option.map_some, times_add]

private theorem splits_map {ρ σ : Type} (f : ρ → σ) (folds : List (List ρ)) :
    cvSplits (folds.map (List.map f)) = (cvSplits folds).map fun x => (x.1.map f, x.2.map f) := by
  unfold cvSplits
  rw [List.length_map, List.map_map]
  apply List.map_congr_left
  intro k _
  simp only [Function.comp_apply, List.getElem?_map, List.map_flatten, List.eraseIdx_map]
  cases folds[k]? <;> rfl

private theorem cross_units {D : ℕ} (fit : (N : ℕ) → Rows N → Rows N → Except PyErr (Option (List ℝ))) (params : ℕ) (p : Ind)
    (cs : ℕ → ℝ) (a b : Fin D → ℝ) (c d : ℝ) (folds : List (Rows D))
    (h : ∀ x ∈ cvSplits folds, fit _ (select p (rowsUnits a b c d x.2)) (select p (rowsUnits a b c d x.1)) =
      (fit _ (select p x.2) (select p x.1)).map (Option.map (List.mapIdx fun k x => cs k * x))) :
    crossValidate fit params (folds.map (rowsUnits a b c d)) p = (crossValidate fit params folds p).map (Option.map (times cs)) := by
  unfold crossValidate
  have h1 : cvSplits (folds.map (rowsUnits a b c d)) =
      (cvSplits folds).map fun x => (rowsUnits a b c d x.1, rowsUnits a b c d x.2) := splits_map _ folds
  have h2 := addScores_units fit params p cs (rowsUnits a b c d) (cvSplits folds) h (some (List.replicate params 0))
  have h3 : (some (List.replicate params (0 : WithBot ℝ))).map (times cs) = some (List.replicate params 0) := by
    simp only [Option.map_some, Option.some.injEq, times]
    apply List.ext_getElem?
    intro i
    simp only [List.getElem?_mapIdx, List.getElem?_replicate]
    split
    · show some (WithBot.map (cs i * ·) ((0 : ℝ) : WithBot ℝ)) = some (((0 : ℝ)) : WithBot ℝ)
      simp
    · rfl
  rw [h3] at h2
  rw [h1, h2, List.length_map]
  cases addScores fit params p (cvSplits folds) (some (List.replicate params 0)) with
  | error e => rfl
  | ok o =>
    cases o with
    | none => rfl
    | some l =>
      simp only [Except.map, Option.map_some, times]
      congr 2
      apply List.ext_getElem?
      intro i
      simp only [List.getElem?_mapIdx, List.getElem?_map]
      cases l[i]? with
      | none => rfl
      | some x =>
        cases x with
        | bot => rfl
        | coe x =>
          simp only [Option.map_some, WithBot.map_coe]
          rw [mul_div_assoc]

/-- C238 (`_partial`: no feature is constant in a training set).  The cross-validated fitness of any selection of features, with features
and targets in other units, is the fitness in the old units times the unit of the targets; it fails in the same cases. -/
theorem C238_fitness_partial {D : ℕ} (m : Optimiser) (folds : List (Rows D)) (hv : ∀ s ∈ cvSplits folds, RowsVaried s.2)
    (a b : Fin D → ℝ) (ha : ∀ i, 0 < a i) (c d : ℝ) (hc : 0 < c) (p : Ind) :
    crossValidate (minimizeError m) 1 (folds.map fun rows => rows.map fun r => (fun i => a i * r.1 i + b i, c * r.2 + d)) p =
      (crossValidate (minimizeError m) 1 folds p).map (Option.map (List.map (WithBot.map (c * ·)))) ∧
    crossValidate (minimizeErrorDescriptors m) 2 (folds.map fun rows => rows.map fun r => (fun i => a i * r.1 i + b i, c * r.2 + d)) p =
      (crossValidate (minimizeErrorDescriptors m) 2 folds p).map
        (Option.map (List.mapIdx fun k x => if k = 0 then WithBot.map (c * ·) x else x)) := by
  constructor
  · rw [show (List.map (WithBot.map (c * ·))) = times (fun _ => c) from by
      funext l
      apply List.ext_getElem?
      intro i
      simp [times, List.getElem?_mapIdx]]
    refine cross_units (minimizeError m) 1 p (fun _ => c) a b c d folds ?_
    intro x hx
    rw [select_units, select_units]
    unfold minimizeError
    rw [rmse_units m _ _ (select_varied p _ (hv x hx)) _ _ (fun i => ha _) c d hc]
    cases rmse m (select p x.2) (select p x.1) with
    | error e => rfl
    | ok o =>
      cases o with
      | none => rfl
      | some s => simp [Except.map]
  · rw [show (List.mapIdx fun k (x : WithBot ℝ) => if k = 0 then WithBot.map (c * ·) x else x) = times (fun k => if k = 0 then c else 1) from by
      funext l
      unfold times
      congr 1
      funext k x
      by_cases hk : k = 0
      · simp [hk]
      · cases x <;> simp [hk]]
    refine cross_units (minimizeErrorDescriptors m) 2 p (fun k => if k = 0 then c else 1) a b c d folds ?_
    intro x hx
    rw [select_units, select_units]
    unfold minimizeErrorDescriptors
    rw [rmse_units m _ _ (select_varied p _ (hv x hx)) _ _ (fun i => ha _) c d hc]
    cases rmse m (select p x.2) (select p x.1) with
    | error e => rfl
    | ok o =>
      cases o with
      | none => rfl
      | some s => simp [Except.map]

/-- C238, searches for the smallest error (`_partial`: no feature is constant in a training set, no `accuracy`, and the fitness of every
selection is a number or minus infinity; see `C238_defined`).  With features and targets in other units and the same random numbers, a
search goes through the same selections of features, stops at the same generation, and returns the same selections; the errors are those
in the new unit. -/
theorem C238_search_partial {D : ℕ} (m : Optimiser) (folds : List (Rows D)) (hv : ∀ s ∈ cvSplits folds, RowsVaried s.2)
    (a b : Fin D → ℝ) (ha : ∀ i, 0 < a i) (c d : ℝ) (hc : 0 < c) (f : Ind → WithBot ℝ)
    (hf : ∀ p, crossValidate (minimizeError m) 1 folds p = .ok (some [f p])) :
    ∃ f' : Ind → WithBot ℝ,
      (∀ p, crossValidate (minimizeError m) 1 (folds.map fun rows => rows.map fun r => (fun i => a i * r.1 i + b i, c * r.2 + d)) p =
        .ok (some [f' p])) ∧
      ∀ (dmax : Option ℕ) (natural write isList : Bool) (size rpt : ℕ) (pop : List Ind) (gens : List (List Draw)),
        runDefault (R := Unit) ⟨dmax, fun l => l.map f', none, natural, size, write⟩ rpt isList pop none gens =
          (runDefault (R := Unit) ⟨dmax, fun l => l.map f, none, natural, size, write⟩ rpt isList pop none gens).map fun r =>
            ⟨r.pop.map (fun x => (x.1, WithBot.map (c * ·) x.2)), r.file.map (List.map fun x => (x.1, WithBot.map (c * ·) x.2)), r.steps,
              r.converged⟩ := by
  refine ⟨fun p => WithBot.map (c * ·) (f p), ?_, ?_⟩
  · intro p
    rw [(C238_fitness_partial m folds hv a b ha c d hc p).1, hf p]
    rfl
  · intro dmax natural write isList size rpt pop gens
    have hg : StrictMono (WithBot.map (c * ·) : WithBot ℝ → WithBot ℝ) :=
      WithBot.strictMono_map_iff.mpr fun _ _ h => mul_lt_mul_of_pos_left h hc
    have := C237_default_partial (R := Unit) hg rfl ⟨dmax, fun l => l.map f, none, natural, size, write⟩ rfl rpt isList pop gens
    simp only [List.map_map] at this
    exact this

/-- C238, searches for the smallest error and the smallest number of features (`_partial`: no feature is constant in a training set, and the
fitness of every selection is a number or minus infinity).  With features and targets in other units and the same random numbers the whole
search is the same, ranks included, also with `accuracy` and any criterion of convergence. -/
theorem C238_objectives_partial {D : ℕ} (m : Optimiser) (folds : List (Rows D)) (hv : ∀ s ∈ cvSplits folds, RowsVaried s.2)
    (a b : Fin D → ℝ) (ha : ∀ i, 0 < a i) (c d : ℝ) (hc : 0 < c) (f : Ind → List (WithBot ℝ))
    (hf : ∀ p, crossValidate (minimizeErrorDescriptors m) 2 folds p = .ok (some (f p))) :
    ∃ f' : Ind → List (WithBot ℝ),
      (∀ p, crossValidate (minimizeErrorDescriptors m) 2
        (folds.map fun rows => rows.map fun r => (fun i => a i * r.1 i + b i, c * r.2 + d)) p = .ok (some (f' p))) ∧
      ∀ {R S : Type} [DecidableEq R] (o : Options ℤ R) (conv : S → List ℤ → S × Bool) (init : S) (isList : Bool) (pop : List Ind)
        (gens : List (List Draw)),
        run ⟨o.dmax, paretoEval f', o.rnd, o.natural, o.size, o.write⟩ conv init isList pop none gens =
          run ⟨o.dmax, paretoEval f, o.rnd, o.natural, o.size, o.write⟩ conv init isList pop none gens := by
  refine ⟨fun p => (f p).mapIdx fun k x => if k = 0 then WithBot.map (c * ·) x else x, ?_, ?_⟩
  · intro p
    rw [(C238_fitness_partial m folds hv a b ha c d hc p).2, hf p]
    rfl
  · intro R S _ o conv init isList pop gens
    refine C237_objectives (fun k (x : WithBot ℝ) => if k = 0 then WithBot.map (c * ·) x else x) ?_ ?_ f o conv init isList pop none gens
    · intro k
      by_cases hk : k = 0
      · simp only [hk, if_true]
        exact WithBot.strictMono_map_iff.mpr fun _ _ h => mul_lt_mul_of_pos_left h hc
      · simp only [hk, if_false]
        exact strictMono_id
    · intro k
      by_cases hk : k = 0 <;> simp [hk]

/-! ### When the fitness is a number -/

private theorem kernel_packs (N : ℕ) : PacksList (kernel N) := by intro s d b h; simp at h

private theorem good (N : ℕ) (w s : ℝ) (hw : 0 < w) (hs : 0 < s) :
    ∀ k ∈ ([⟨.gaussian [w], none, some s, false⟩] : List (KDict N)), GoodKernel false k := by
  simp [GoodKernel, GoodWidths, hw, hs.le]

/-- An optimiser that keeps to the bounds of the code (positive numbers) and returns as many hyperparameters as it was given. -/
def Positive (m : Optimiser) : Prop :=
  ∀ N fp t, ∃ g, m N fp t = .ok g ∧ ∀ θ, (∀ x ∈ θ, 0 < x) → (g θ).1.length = θ.length ∧ ∀ x ∈ (g θ).1, 0 < x

private theorem three {l : List ℝ} (h : l.length = 3) : ∃ x y z, l = [x, y, z] := by
  match l, h with
  | [x, y, z], _ => exact ⟨x, y, z, rfl⟩

private theorem fitted_ok {N : ℕ} (m : Optimiser) (hm : Positive m) (train : Rows N)
    (ht : ∃ x ∈ train, ∃ y ∈ train, x.2 ≠ y.2) :
    ∃ gp, fitted m train = .ok gp ∧ Consistent gp ∧ Holds gp (train.map Prod.fst) (train.map Prod.snd) ∧ gp.nan = false ∧
      gp.scaleData = true ∧ gp.log = false ∧ ∃ g s w r, m N gp.fp gp.target = .ok g ∧ (g [1, 1, 1 / 100]).1 = [s, w, r] ∧
        gp.kernels = [⟨.gaussian [w], none, some s, false⟩] ∧ gp.reg = some r := by
  obtain ⟨x, hx, y, hy, hne⟩ := ht
  have hne0 : train ≠ [] := List.ne_nil_of_mem hx
  obtain ⟨gp, hgp⟩ := C113_can_build (train.map Prod.fst) (train.map Prod.snd) (kernel N) (1 / 100) false true (by simpa using hne0)
    (by simp) (by simp [kernel]) (kernel_packs N) (good N 1 1 one_pos one_pos) (Or.inr (by norm_num))
  obtain ⟨h1, h2, h3, h4, h5, h6⟩ := C43_init_partial _ _ _ (kernel_packs N) _ _ _ gp hgp
  have hnan : gp.nan = false := by
    have hst := h2.1
    simp only [store, h6, if_true, Except.ok.injEq, Stored.mk.injEq] at hst
    obtain ⟨-, -, s3, -⟩ := hst
    rw [← s3, decide_eq_false_iff_not]
    intro h0
    have h0' : Scaling.colStd (fun i (_ : Unit) => (train.map Prod.snd).get i) () = 0 := h0
    have hcard : Nonempty (Fin (train.map Prod.snd).length) := ⟨⟨0, by simpa using List.length_pos_iff.2 hne0⟩⟩
    rw [Props.std_eq_zero_iff] at h0'
    obtain ⟨i, hi⟩ := List.get_of_mem (List.mem_map_of_mem (f := Prod.snd) hx)
    obtain ⟨j, hj⟩ := List.get_of_mem (List.mem_map_of_mem (f := Prod.snd) hy)
    have := h0' i j
    simp only [hi, hj] at this
    exact hne this
  obtain ⟨g, hg1, hg2⟩ := hm N gp.fp gp.target
  have hθ : kdicts2list gp.kernels = .ok [1, 1] := by
    rw [h3]
    rfl
  obtain ⟨hl, hpos⟩ := hg2 ([1, 1] ++ [1 / 100]) (by intro x hx; simp at hx; rcases hx with rfl | rfl <;> norm_num)
  obtain ⟨s, w, r, hx3⟩ := three hl
  rw [hx3] at hpos
  have hks : list2kdict [s, w] gp.kernels = .ok [⟨.gaussian [w], none, some s, false⟩] := by
    rw [h3]
    rfl
  have hinv : ∃ ci, invGram [⟨.gaussian [w], none, some s, false⟩] gp.log (some r) gp.fp = .ok ci := by
    have := (C41_posDef [⟨.gaussian [w], none, some s, false⟩] false (good N w s (hpos w (by simp)) (hpos s (by simp))) r
      (Or.inr (hpos r (by simp)).ne') gp.fp.get).2
    refine ⟨⟨gp.fp.length, (gram [⟨.gaussian [w], none, some s, false⟩] false (some r) gp.fp)⁻¹⟩, ?_⟩
    unfold invGram invert
    rw [h5]
    simp only [List.isEmpty_cons, Bool.false_eq_true, if_false]
    exact if_pos this
  obtain ⟨ci, hci⟩ := hinv
  have hopt : optimize g gp = .ok { gp with
      kernels := [⟨.gaussian [w], none, some s, false⟩], reg := some r, lml := some (-(g ([1, 1] ++ [1 / 100])).2), cinv := ci } := by
    unfold optimize
    simp only [hθ, h4, bind, Except.bind, pure, Except.pure, hx3, List.dropLast, hks, List.getLast?, hci]
    simp [hks, hci]
  have hr := C43_consistent_partial _ _ _ (Reach.optimize (Reach.init (kernel_packs N) hgp) hopt)
  refine ⟨_, ?_, hr.1, hr.2, hnan, h6, h5, g, s, w, r, hg1, hx3, rfl, rfl⟩
  simp only [fitted, hgp, hg1, hopt]

private theorem allSome_some (l : List ℝ) : allSome (l.map some) = some l := by
  induction l with
  | nil => rfl
  | cons x l ih => simp [allSome, ih]

private theorem rmse_ok {N : ℕ} (m : Optimiser) (hm : Positive m) (train test : Rows N)
    (ht : ∃ x ∈ train, ∃ y ∈ train, x.2 ≠ y.2) (hte : test ≠ []) : ∃ s, 0 ≤ s ∧ rmse m train test = .ok (some s) := by
  obtain ⟨gp, h1, h2, h3, h4, h5, -⟩ := fitted_ok m hm train ht
  have h6 := h2.predict_eq (test.map Prod.fst) (by simpa using hte)
  have h7 : ((test.map Prod.fst).map fun x => gp.mean (gp.scaleRow x)) =
      ((test.map Prod.fst).map fun x => gp.rescale (gp.ktb (gp.scaleRow x) ⬝ᵥ (gp.cinv.2 *ᵥ gp.y))).map some := by
    simp only [List.map_map]
    apply List.map_congr_left
    intro x _
    simp [GP.mean, h4]
  unfold rmse
  simp only [h1, h6, h7, allSome_some, Err.getError, List.length_map, ne_eq, not_true_eq_false, if_false]
  exact ⟨_, Real.sqrt_nonneg _, rfl⟩

private theorem columnsOf_length (D : ℕ) (p : Ind) :
    (columnsOf D p).length = (List.range D).countP fun i => p.getD i 0 ≠ 0 := by
  have : List.range D = (List.finRange D).map Fin.val := by simp
  rw [columnsOf, this, List.countP_map, List.countP_eq_length_filter]
  rfl

/-- C238, features.  The fitness of an individual does not depend on the values of the features it switches off, whatever the fitness
function is. -/
theorem C238_features {D : ℕ} (fit : (N : ℕ) → Rows N → Rows N → Except PyErr (Option (List ℝ))) (params : ℕ) (p : Ind)
    (folds : List (Rows D)) (g : (Fin D → ℝ) → Fin D → ℝ) (hg : ∀ x (i : Fin D), p.getD i 0 ≠ 0 → g x i = x i) :
    crossValidate fit params (folds.map fun rows => rows.map fun r => (g r.1, r.2)) p = crossValidate fit params folds p := by
  have hs : ∀ rows : Rows D, select p (rows.map fun r => (g r.1, r.2)) = select p rows := by
    intro rows
    simp only [select, List.map_map]
    refine List.map_congr_left fun r _ => Prod.ext (funext fun i => ?_) rfl
    have h1 : (columnsOf D p).get i ∈ (List.finRange D).filter fun (i : Fin D) => decide (p.getD i 0 ≠ 0) := List.getElem_mem (l := columnsOf D p) i.2
    exact hg r.1 _ (of_decide_eq_true (List.mem_filter.1 h1).2)
  have h1 : cvSplits (folds.map fun rows => rows.map fun r => (g r.1, r.2)) =
      (cvSplits folds).map fun x => (x.1.map fun r => (g r.1, r.2), x.2.map fun r => (g r.1, r.2)) := splits_map _ folds
  have h2 : ∀ (l : List (Rows D × Rows D)) (t : Option (List (WithBot ℝ))),
      addScores fit params p (l.map fun x => (x.1.map fun r => (g r.1, r.2), x.2.map fun r => (g r.1, r.2))) t =
        addScores fit params p l t := by
    intro l
    induction l with
    | nil => intro t; rfl
    | cons x l ih =>
      intro t
      simp only [List.map_cons, addScores, hs, ih]
  unfold crossValidate
  rw [h1, h2, List.length_map]

example : ∀ (x : Fin 3 → ℝ) (i : Fin 3), ([1, 0, 1] : Ind).getD i 0 ≠ 0 → ![x 0, 5 * x 1, x 2] i = x i := by
  intro x i h
  fin_cases i <;> simp_all

/-- C238, definedness.  If the test sets are not empty and the targets of no training set are all equal, then with an optimiser that keeps
to its bounds the fitness of every selection of features is a number, and it is not positive. -/
theorem C238_defined {D : ℕ} (m : Optimiser) (hm : Positive m) (folds : List (Rows D)) (hn : folds ≠ [])
    (hs : ∀ s ∈ cvSplits folds, s.1 ≠ [] ∧ ∃ x ∈ s.2, ∃ y ∈ s.2, x.2 ≠ y.2) (p : Ind) :
    ∃ v : ℝ, v ≤ 0 ∧ crossValidate (minimizeError m) 1 folds p = .ok (some [(v : WithBot ℝ)]) ∧
      crossValidate (minimizeErrorDescriptors m) 2 folds p =
        .ok (some [(v : WithBot ℝ), ((-(((List.range D).countP fun i => p.getD i 0 ≠ 0 : ℕ) : ℝ) : ℝ) : WithBot ℝ)]) := by
  rw [← columnsOf_length]
  have key : ∀ (l : List (Rows D × Rows D)), (∀ s ∈ l, s.1 ≠ [] ∧ ∃ x ∈ s.2, ∃ y ∈ s.2, x.2 ≠ y.2) → ∃ v : ℝ, v ≤ 0 ∧
      ∀ x y : ℝ, addScores (minimizeError m) 1 p l (some [(x : WithBot ℝ)]) = .ok (some [((x + v : ℝ) : WithBot ℝ)]) ∧
        addScores (minimizeErrorDescriptors m) 2 p l (some [(x : WithBot ℝ), (y : WithBot ℝ)]) =
          .ok (some [((x + v : ℝ) : WithBot ℝ), ((y - l.length * (columnsOf D p).length : ℝ) : WithBot ℝ)]) := by
    intro l
    induction l with
    | nil => intro _; exact ⟨0, le_rfl, fun x y => by simp [addScores]⟩
    | cons s l ih =>
      intro h
      obtain ⟨v, hv, h1⟩ := ih fun s hs => h s (by simp [hs])
      obtain ⟨test, train⟩ := s
      obtain ⟨h2, z, hz, z', hz', hne⟩ := h (test, train) (by simp)
      obtain ⟨r, hr, h3⟩ := rmse_ok m hm (select p train) (select p test)
        ⟨_, List.mem_map_of_mem hz, _, List.mem_map_of_mem hz', hne⟩ (by simpa [select] using h2)
      refine ⟨-r + v, by linarith, fun x y => ⟨?_, ?_⟩⟩
      · simp only [addScores, minimizeError, h3, Except.map, Option.map_some, List.length_cons, List.length_nil, ne_eq, not_true_eq_false,
          if_false, List.zipWith_cons_cons, List.zipWith_nil_left]
        have := (h1 (x + -r) y).1
        rw [WithBot.coe_add] at this
        rw [← add_assoc]
        exact this
      · simp only [addScores, minimizeErrorDescriptors, h3, Except.map, Option.map_some, List.length_cons, List.length_nil, ne_eq,
          not_true_eq_false, if_false, List.zipWith_cons_cons, List.zipWith_nil_left]
        have := (h1 (x + -r) (y + -((columnsOf D p).length : ℝ))).2
        rw [WithBot.coe_add, WithBot.coe_add] at this
        rw [← add_assoc]
        refine this.trans ?_
        congr 5
        push_cast
        ring
  obtain ⟨v, hv, h1⟩ := key (cvSplits folds) hs
  refine ⟨v / folds.length, div_nonpos_of_nonpos_of_nonneg hv (Nat.cast_nonneg _), ?_, ?_⟩
  · unfold crossValidate
    have := (h1 0 0).1
    simp only [WithBot.coe_zero] at this
    rw [List.replicate_one, this]
    simp [Except.map]
  · unfold crossValidate
    have := (h1 0 0).2
    simp only [WithBot.coe_zero] at this
    rw [show List.replicate 2 (0 : WithBot ℝ) = [0, 0] from rfl, this]
    have hl : (cvSplits folds).length = folds.length := by simp [cvSplits]
    have hpos : (folds.length : ℝ) ≠ 0 := by exact_mod_cast fun h => hn (List.length_eq_zero_iff.mp h)
    simp only [Except.map, hl, Option.map_some, List.map_cons, List.map_nil, WithBot.map_coe, zero_add, zero_sub]
    congr 4
    rw [← mul_neg, mul_div_cancel_left₀ _ hpos]

private theorem addScores_length {D : ℕ} (fit : (N : ℕ) → Rows N → Rows N → Except PyErr (Option (List ℝ))) (params : ℕ) (p : Ind)
    (l : List (Rows D × Rows D)) : ∀ (total : List (WithBot ℝ)), total.length = params → ∀ r,
      addScores fit params p l (some total) = .ok (some r) → r.length = params := by
  induction l with
  | nil =>
    intro total ht r h
    simp only [addScores, Except.ok.injEq, Option.some.injEq] at h
    rw [← h, ht]
  | cons x l ih =>
    obtain ⟨test, train⟩ := x
    intro total ht r h
    have hnone : ∀ (l : List (Rows D × Rows D)), addScores fit params p l none ≠ .ok (some r) := by
      intro l
      induction l with
      | nil => simp [addScores]
      | cons y l ih =>
        obtain ⟨te, tr⟩ := y
        rw [addScores]
        split
        · exact ih
        · simp
        · exact ih
        · split
          · simp
          · exact ih
    rw [addScores] at h
    split at h
    · exact ih _ (by simpa using ht) r h
    · cases h
    · exact absurd h (hnone l)
    · split at h
      · cases h
      · rename_i score _ hs
        refine ih _ ?_ r h
        rw [List.length_zipWith, ht, not_not.mp hs, min_self]

/-- C238, objectives.  A fitness has as many entries as objectives were announced; a fitness function that returns another number of
scores for a fold (the folds before it being evaluated) is an AssertionError. -/
theorem C238_objectives {D : ℕ} (fit : (N : ℕ) → Rows N → Rows N → Except PyErr (Option (List ℝ))) (params : ℕ)
    (folds : List (Rows D)) (p : Ind) :
    (∀ r, crossValidate fit params folds p = .ok (some r) → r.length = params) ∧
      ∀ before s after score, cvSplits folds = before ++ s :: after →
        (∀ s' ∈ before, ∃ v, v.length = params ∧ fit _ (select p s'.2) (select p s'.1) = .ok (some v)) →
        fit _ (select p s.2) (select p s.1) = .ok (some score) → score.length ≠ params →
        crossValidate fit params folds p = .error .assertion := by
  constructor
  · intro r h
    unfold crossValidate at h
    cases ha : addScores fit params p (cvSplits folds) (some (List.replicate params 0)) with
    | error e => simp [ha, Except.map] at h
    | ok o =>
      cases o with
      | none => simp [ha, Except.map] at h
      | some l =>
        simp only [ha, Except.map, Option.map_some, Except.ok.injEq, Option.some.injEq] at h
        rw [← h, List.length_map]
        exact addScores_length fit params p _ _ (by simp) l ha
  · intro before s after score hsplit hb hs hl
    have key : ∀ total : Option (List (WithBot ℝ)), addScores fit params p (before ++ s :: after) total = .error .assertion := by
      clear hsplit
      induction before with
      | nil =>
        intro total
        obtain ⟨test, train⟩ := s
        simp only [List.nil_append, addScores, hs, hl, ne_eq, not_false_eq_true, if_true]
      | cons s' before ih =>
        intro total
        obtain ⟨test, train⟩ := s'
        obtain ⟨v, hv, hfit⟩ := hb (test, train) (by simp)
        simp only [List.cons_append, addScores, hfit, hv, ne_eq, not_true_eq_false, if_false]
        exact ih (fun x hx => hb x (by simp [hx])) _
    unfold crossValidate
    rw [hsplit, key]
    rfl

private theorem addScores_sum {D : ℕ} (fit : (N : ℕ) → Rows N → Rows N → Except PyErr (Option (List ℝ))) (params : ℕ) (p : Ind)
    (score : Rows D × Rows D → Fin params → ℝ) (l : List (Rows D × Rows D))
    (h : ∀ s ∈ l, fit _ (select p s.2) (select p s.1) = .ok (some (List.ofFn (score s)))) : ∀ f : Fin params → ℝ,
      addScores fit params p l (some (List.ofFn fun j => (f j : WithBot ℝ)))
        = .ok (some (List.ofFn fun j => ((f j + (l.map fun s => score s j).sum : ℝ) : WithBot ℝ))) := by
  induction l with
  | nil => intro f; simp [addScores]
  | cons x l ih =>
    obtain ⟨test, train⟩ := x
    intro f
    have hx := h (test, train) (by simp)
    simp only at hx
    rw [addScores]
    simp only [hx, List.length_ofFn, ne_eq, not_true_eq_false, if_false, Option.map_some]
    have hz : List.zipWith (fun (x : WithBot ℝ) (y : ℝ) => x + (y : WithBot ℝ)) (List.ofFn fun j => (f j : WithBot ℝ))
        (List.ofFn (score (test, train))) = List.ofFn fun j => ((f j + score (test, train) j : ℝ) : WithBot ℝ) := by
      apply List.ext_getElem
      · simp
      · intro i h1 h2
        simp
    rw [hz, ih fun s hs => h s (by simp [hs])]
    simp only [List.map_cons, List.sum_cons, add_assoc]

/-- C238, mean.  If the fitness function gives its scores for every fold, the fitness of a selection of features is the mean of the
scores over the folds, objective by objective. -/
theorem C238_mean {D : ℕ} (fit : (N : ℕ) → Rows N → Rows N → Except PyErr (Option (List ℝ))) (params : ℕ)
    (folds : List (Rows D)) (p : Ind) (score : Rows D × Rows D → Fin params → ℝ)
    (h : ∀ s ∈ cvSplits folds, fit _ (select p s.2) (select p s.1) = .ok (some (List.ofFn (score s)))) :
    crossValidate fit params folds p = .ok (some (List.ofFn fun j =>
      ((((cvSplits folds).map fun s => score s j).sum / folds.length : ℝ) : WithBot ℝ))) := by
  unfold crossValidate
  have hr : List.replicate params (0 : WithBot ℝ) = List.ofFn fun _ : Fin params => ((0 : ℝ) : WithBot ℝ) := by
    simp [List.ofFn_const]
  rw [hr, addScores_sum fit params p score _ h fun _ => 0]
  simp only [Except.map, Option.map_some, List.map_ofFn, zero_add]
  rfl

private theorem addScores_bot {D : ℕ} (fit : (N : ℕ) → Rows N → Rows N → Except PyErr (Option (List ℝ))) (params : ℕ) (p : Ind)
    (l : List (Rows D × Rows D))
    (h : ∀ s ∈ l, fit _ (select p s.2) (select p s.1) = .error .linalg ∨
      ∃ v, v.length = params ∧ fit _ (select p s.2) (select p s.1) = .ok (some v)) : ∀ total : List (WithBot ℝ), total.length = params →
      (total = List.replicate params ⊥ ∨ ∃ s ∈ l, fit _ (select p s.2) (select p s.1) = .error .linalg) →
      addScores fit params p l (some total) = .ok (some (List.replicate params ⊥)) := by
  induction l with
  | nil =>
    intro total _ ht
    rcases ht with rfl | ⟨s, hs, _⟩
    · rfl
    · simp at hs
  | cons x l ih =>
    obtain ⟨test, train⟩ := x
    intro total hl ht
    have ih := ih fun s hs => h s (by simp [hs])
    rcases h (test, train) (by simp) with hx | ⟨v, hv, hx⟩
    · simp only at hx
      rw [addScores]
      simp only [hx, Option.map_some]
      exact ih _ (by simpa using hl) (Or.inl (by rw [List.map_const', hl]))
    · simp only at hx
      rw [addScores]
      simp only [hx, hv, ne_eq, not_true_eq_false, if_false, Option.map_some]
      refine ih _ (by simp [hl, hv]) ?_
      rcases ht with rfl | ⟨s, hs, he⟩
      · left
        apply List.ext_getElem
        · simp [hv]
        · intro i h1 h2
          simp
      · right
        rcases List.mem_cons.mp hs with rfl | hs
        · simp only at he
          rw [hx] at he
          cases he
        · exact ⟨s, hs, he⟩

/-- C238, failure.  If the model of one fold cannot be fitted (LinAlgError), the fitness is minus infinity in every objective. -/
theorem C238_failing {D : ℕ} (fit : (N : ℕ) → Rows N → Rows N → Except PyErr (Option (List ℝ))) (params : ℕ)
    (folds : List (Rows D)) (p : Ind)
    (h : ∀ s ∈ cvSplits folds, fit _ (select p s.2) (select p s.1) = .error .linalg ∨
      ∃ v, v.length = params ∧ fit _ (select p s.2) (select p s.1) = .ok (some v))
    (hs : ∃ s ∈ cvSplits folds, fit _ (select p s.2) (select p s.1) = .error .linalg) :
    crossValidate fit params folds p = .ok (some (List.replicate params ⊥)) := by
  unfold crossValidate
  rw [addScores_bot fit params p _ h _ (by simp) (Or.inr hs)]
  simp [Except.map]

/-- C238, time.  The first objective of `minimize_error_time` is the one of `minimize_error`, the second is minus the time of the training;
with one objective announced it is refused. -/
theorem C238_time {N : ℕ} (m : Optimiser) (time : (N : ℕ) → Rows N → ℝ) (train test : Rows N) (s : List ℝ)
    (h : minimizeError m N train test = .ok (some s)) :
    ∃ e, s = [-e] ∧ 0 ≤ e ∧ minimizeErrorTime m time N train test = .ok (some [-e, -time N train]) ∧
      minimizeErrorDescriptors m N train test = .ok (some [-e, -(N : ℝ)]) := by
  unfold minimizeError at h
  cases hr : rmse m train test with
  | error e => simp [hr, Except.map] at h
  | ok o =>
    cases o with
    | none => simp [hr, Except.map] at h
    | some e =>
      simp only [hr, Except.map, Option.map_some, Except.ok.injEq, Option.some.injEq] at h
      refine ⟨e, h.symm, ?_, by simp [minimizeErrorTime, hr, Except.map], by simp [minimizeErrorDescriptors, hr, Except.map]⟩
      unfold rmse at hr
      split at hr
      · cases hr
      · split at hr
        · cases hr
        · split at hr
          · cases hr
          · split at hr
            · cases hr
            · rename_i e' he'
              simp only [Except.ok.injEq, Option.some.injEq] at hr
              rw [← hr]
              unfold Err.getError at he'
              split at he'
              · cases he'
              · simp only [Except.ok.injEq] at he'
                rw [← he']
                exact Real.sqrt_nonneg _

/-- Two folds of three points each. -/
def demoFolds : List (Rows 2) :=
  [[(![0, 1], 1), (![1, 0], 2), (![2, 5], 4)], [(![3, 1], 0), (![4, 7], 5), (![5, 6], 6)]]

/-- An optimiser that returns what it was given, in absolute value and not zero. -/
noncomputable def demoOpt : Optimiser := fun _ _ _ => .ok fun θ => (θ.map fun x => |x| + 1, 0)

example : Positive demoOpt ∧ (∀ s ∈ cvSplits demoFolds, s.1 ≠ [] ∧ ∃ x ∈ s.2, ∃ y ∈ s.2, x.2 ≠ y.2) ∧
    (∀ s ∈ cvSplits demoFolds, RowsVaried s.2) := by
  refine ⟨fun N fp t => ⟨_, rfl, fun θ _ => ⟨by simp, ?_⟩⟩, ?_, ?_⟩
  · intro x hx
    obtain ⟨y, -, rfl⟩ := List.mem_map.mp hx
    positivity
  · intro s hs
    simp [cvSplits, demoFolds, List.range_succ] at hs
    rcases hs with rfl | rfl
    · refine ⟨by simp, (![3, 1], 0), by simp, (![4, 7], 5), by simp, by norm_num⟩
    · refine ⟨by simp, (![0, 1], 1), by simp, (![1, 0], 2), by simp, by norm_num⟩
  · intro s hs
    simp [cvSplits, demoFolds, List.range_succ] at hs
    rcases hs with rfl | rfl
    · refine ⟨by simp, fun i => ⟨(![3, 1], 0), by simp, (![4, 7], 5), by simp, ?_⟩⟩
      fin_cases i <;> simp
    · refine ⟨by simp, fun i => ⟨(![0, 1], 1), by simp, (![1, 0], 2), by simp, ?_⟩⟩
      fin_cases i <;> simp

/-- Two scores for one announced objective: the hypotheses of `C238_objectives` hold at the first fold. -/
example : crossValidate (fun N _ _ => .ok (some [-1, -(N : ℝ)])) 1 demoFolds [1, 0] = .error .assertion :=
  (C238_objectives (fun N _ _ => .ok (some [-1, -(N : ℝ)])) 1 demoFolds [1, 0]).2 [] ((cvSplits demoFolds).head (by simp [cvSplits, demoFolds]))
    (cvSplits demoFolds).tail [-1, -((columnsOf 2 [1, 0]).length : ℝ)] rfl (by simp) rfl (by simp)

/-- A fitness function that is given for every fold. -/
example : ∀ s ∈ cvSplits demoFolds, (fun (N : ℕ) (_ test : Rows N) => (.ok (some [-(test.length : ℝ), -(N : ℝ)]) : Except PyErr (Option (List ℝ))))
    _ (select [1, 0] s.2) (select [1, 0] s.1)
      = .ok (some (List.ofFn ((fun s => ![-(s.1.length : ℝ), -((columnsOf 2 [1, 0]).length : ℝ)]) s : Fin 2 → ℝ))) := by
  intro s _
  simp [select, List.ofFn_succ]

/-- A fitness function that fails for one of two folds. -/
def demoFail (N : ℕ) (_ test : Rows N) : Except PyErr (Option (List ℝ)) :=
  if test.length = 1 then .error .linalg else .ok (some [-1])

example : crossValidate demoFail 1 ([[(![0, 1], 1)], [(![1, 0], 2), (![2, 5], 4)]] : List (Rows 2)) [1, 0] = .ok (some [⊥]) := by
  refine C238_failing demoFail 1 [[(![0, 1], 1)], [(![1, 0], 2), (![2, 5], 4)]] [1, 0] ?_ ⟨([(![0, 1], 1)], [(![1, 0], 2), (![2, 5], 4)]), ?_, ?_⟩
  · intro s _
    by_cases h : (select [1, 0] s.1).length = 1
    · exact Or.inl (if_pos h)
    · exact Or.inr ⟨[-1], rfl, if_neg h⟩
  · simp [cvSplits, List.range_succ]
  · simp [demoFail, select]

/-! ### A feature that is constant in the training data -/

/-- The optimiser of the violation: it stays where it starts. -/
def stay : Optimiser := fun _ _ _ => .ok fun θ => (θ, 0)

private theorem entry_two (x y x' y' : ℝ) (b : Bool) :
    covEntry (kernel 2) false ![x, y] ![x', y'] b = Real.exp (-((x - x') ^ 2 + (y - y') ^ 2) / 2) := by
  simp [kernel, covEntry, scaleFactor, entry, unlog, colSum, columns, List.finRange_succ, pick]
  try ring_nf

private theorem stay_positive : Positive stay := fun _ _ _ => ⟨_, rfl, fun _ h => ⟨rfl, h⟩⟩

/-- The training data of the violation. -/
def flat (v : ℝ) : Rows 2 := [(![-1, v], -1), (![1, v], 1)]

private theorem mean_two {δ : Type} (f : Fin 2 → δ → ℝ) (j : δ) : Scaling.colMean f j = (f 0 j + f 1 j) / 2 := by
  unfold Scaling.colMean
  rw [Fin.sum_univ_two]
  simp

private theorem std_two {δ : Type} (f : Fin 2 → δ → ℝ) (j : δ) : Scaling.colStd f j = |f 0 j - f 1 j| / 2 := by
  unfold Scaling.colStd
  rw [mean_two, Fin.sum_univ_two]
  rw [show ((f 0 j - (f 0 j + f 1 j) / 2) ^ 2 + (f 1 j - (f 0 j + f 1 j) / 2) ^ 2) / (Fintype.card (Fin 2) : ℝ) = ((f 0 j - f 1 j) / 2) ^ 2 by
    simp
    ring]
  rw [Real.sqrt_sq_eq_abs, abs_div, abs_two]

private theorem flat_scal (v : ℝ) : scalOf ((flat v).map Prod.fst) ((flat v).map Prod.snd) = ⟨![0, v], ![1, 1], 0, 1⟩ := by
  have hm : Scaling.colMean ((flat v).map Prod.fst).get = ![0, v] := by
    funext i
    refine (mean_two ((flat v).map Prod.fst).get i).trans ?_
    fin_cases i <;> simp [flat]
  have hs : Scaling.placeOnes (Scaling.colStd ((flat v).map Prod.fst).get) = ![1, 1] := by
    have : Scaling.colStd ((flat v).map Prod.fst).get = ![1, 0] := by
      funext i
      refine (std_two ((flat v).map Prod.fst).get i).trans ?_
      fin_cases i
      · show |(-1 : ℝ) - 1| / 2 = 1
        norm_num
      · show |v - v| / 2 = 0
        simp
    rw [this]
    funext i
    fin_cases i <;> simp [Scaling.placeOnes]
  have h1 : Scaling.tMean ((flat v).map Prod.snd).get = 0 := by
    refine (mean_two (fun i (_ : Unit) => ((flat v).map Prod.snd).get i) ()).trans ?_
    simp [flat]
  have h2 : Scaling.tStd ((flat v).map Prod.snd).get = 1 := by
    refine (std_two (fun i (_ : Unit) => ((flat v).map Prod.snd).get i) ()).trans ?_
    show |(-1 : ℝ) - 1| / 2 = 1
    norm_num
  unfold scalOf
  rw [hm, hs, h1, h2]

private theorem two_points (u : ℝ) (hu : IsUnit (gram (kernel 2) false (some (1 / 100)) [![-1, 0], ![1, 0]]).det) :
    postMean (gram (kernel 2) false (some (1 / 100)) [![-1, 0], ![1, 0]]) (kvec (kernel 2) false ![1, u] [![-1, 0], ![1, 0]].get)
      (fun i : Fin 2 => [(-1 : ℝ), 1].get i) =
      Real.exp (-u ^ 2 / 2) * ((1 - Real.exp (-2)) / (1 + (1 / 100) ^ 2 - Real.exp (-2))) := by
  have he : Real.exp (-2) < 1 := by rw [Real.exp_lt_one_iff]; norm_num
  have hq : 1 + (1 / 100 : ℝ) ^ 2 - Real.exp (-2) ≠ 0 := by nlinarith
  set q := 1 + (1 / 100 : ℝ) ^ 2 - Real.exp (-2) with hqd
  have h00 : gram (kernel 2) false (some (1 / 100)) [![-1, 0], ![1, 0]] (0 : Fin 2) (0 : Fin 2) = 1 + (1 / 100) ^ 2 := by
    unfold Proc.gram
    rw [covSelf_apply]
    show covEntry (kernel 2) false ![-1, 0] ![-1, 0] _ + _ = _
    rw [entry_two]
    simp [regSq, unlog]
  have h11 : gram (kernel 2) false (some (1 / 100)) [![-1, 0], ![1, 0]] (1 : Fin 2) (1 : Fin 2) = 1 + (1 / 100) ^ 2 := by
    unfold Proc.gram
    rw [covSelf_apply]
    show covEntry (kernel 2) false ![1, 0] ![1, 0] _ + _ = _
    rw [entry_two]
    simp [regSq, unlog]
  have h01 : gram (kernel 2) false (some (1 / 100)) [![-1, 0], ![1, 0]] (0 : Fin 2) (1 : Fin 2) = Real.exp (-2) := by
    unfold Proc.gram
    rw [covSelf_apply]
    show covEntry (kernel 2) false ![-1, 0] ![1, 0] _ + (if (0 : Fin 2) = 1 then _ else _) = _
    rw [entry_two, if_neg (by decide)]
    norm_num
  have h10 : gram (kernel 2) false (some (1 / 100)) [![-1, 0], ![1, 0]] (1 : Fin 2) (0 : Fin 2) = Real.exp (-2) := by
    unfold Proc.gram
    rw [covSelf_apply]
    show covEntry (kernel 2) false ![1, 0] ![-1, 0] _ + (if (1 : Fin 2) = 0 then _ else _) = _
    rw [entry_two, if_neg (by decide)]
    norm_num
  have hy : (fun i : Fin 2 => [(-1 : ℝ), 1].get i) =
      gram (kernel 2) false (some (1 / 100)) [![-1, 0], ![1, 0]] *ᵥ (fun i : Fin 2 => ![-1 / q, 1 / q] i) := by
    funext i
    have : ∀ i : Fin 2, (gram (kernel 2) false (some (1 / 100)) [![-1, 0], ![1, 0]] *ᵥ (fun i : Fin 2 => ![-1 / q, 1 / q] i)) i =
        gram (kernel 2) false (some (1 / 100)) [![-1, 0], ![1, 0]] i (0 : Fin 2) * (-1 / q) +
          gram (kernel 2) false (some (1 / 100)) [![-1, 0], ![1, 0]] i (1 : Fin 2) * (1 / q) := by
      intro i
      exact (Fin.sum_univ_two fun j : Fin 2 => gram (kernel 2) false (some (1 / 100)) [![-1, 0], ![1, 0]] i j * ![-1 / q, 1 / q] j)
    refine Eq.trans ?_ (this i).symm
    fin_cases i
    · show (-1 : ℝ) = gram (kernel 2) false (some (1 / 100)) [![-1, 0], ![1, 0]] (0 : Fin 2) (0 : Fin 2) * (-1 / q) +
        gram (kernel 2) false (some (1 / 100)) [![-1, 0], ![1, 0]] (0 : Fin 2) (1 : Fin 2) * (1 / q)
      rw [h00, h01]
      field_simp
      rw [hqd]; ring
    · show (1 : ℝ) = gram (kernel 2) false (some (1 / 100)) [![-1, 0], ![1, 0]] (1 : Fin 2) (0 : Fin 2) * (-1 / q) +
        gram (kernel 2) false (some (1 / 100)) [![-1, 0], ![1, 0]] (1 : Fin 2) (1 : Fin 2) * (1 / q)
      rw [h10, h11]
      field_simp
      rw [hqd]; ring
  unfold postMean
  rw [hy, Matrix.mulVec_mulVec, Matrix.nonsing_inv_mul _ hu, Matrix.one_mulVec]
  have : kvec (kernel 2) false ![1, u] [![-1, 0], ![1, 0]].get ⬝ᵥ (fun i : Fin 2 => ![-1 / q, 1 / q] i) =
      covEntry (kernel 2) false ![1, u] ![-1, 0] false * (-1 / q) + covEntry (kernel 2) false ![1, u] ![1, 0] false * (1 / q) :=
    Fin.sum_univ_two _
  refine this.trans ?_
  rw [entry_two, entry_two]
  rw [show -((1 - -1 : ℝ) ^ 2 + (u - 0) ^ 2) / 2 = -u ^ 2 / 2 + -2 by ring, Real.exp_add,
    show -((1 - 1 : ℝ) ^ 2 + (u - 0) ^ 2) / 2 = -u ^ 2 / 2 by ring]
  field_simp
  ring

private theorem flat_rmse (v w : ℝ) : rmse stay (flat v) [(![1, w], 0)] =
    .ok (some (Real.exp (-(w - v) ^ 2 / 2) * ((1 - Real.exp (-2)) / (1 + (1 / 100) ^ 2 - Real.exp (-2))))) := by
  obtain ⟨gp, h1, h2, h3, h4, h5, h6, g, s, wd, r, hg, hsw, hk, hr⟩ := fitted_ok stay stay_positive (flat v)
    ⟨(![-1, v], -1), by simp [flat], (![1, v], 1), by simp [flat], by norm_num⟩
  simp only [stay, Except.ok.injEq] at hg
  subst hg
  simp only [List.cons.injEq, and_true] at hsw
  obtain ⟨rfl, rfl, rfl⟩ := hsw
  have hst := h3.1
  simp only [store, h5, if_true, Except.ok.injEq, Stored.mk.injEq, flat_scal] at hst
  obtain ⟨s1, s2, -, s4⟩ := hst
  have hfp : gp.fp = [![-1, 0], ![1, 0]] := by
    rw [← s1]
    simp only [flat, List.map_cons, List.map_nil]
    congr 1
    · funext i; fin_cases i <;> simp [Scal.row]
    · congr 1
      funext i; fin_cases i <;> simp [Scal.row]
  have htg : gp.target = [-1, 1] := by
    rw [← s2]
    simp [flat, Scal.tgt]
  have hrow : gp.scaleRow ![1, w] = ![1, w - v] := by
    simp only [GP.scaleRow, h5, ← s4]
    funext i; fin_cases i <;> simp [Scal.row]
  have hun : ∀ p, gp.rescale p = p := by
    intro p
    simp [GP.rescale, h5, ← s4, Scal.untgt]
  have hmean : gp.mean (gp.scaleRow ![1, w]) =
      some (Real.exp (-(w - v) ^ 2 / 2) * ((1 - Real.exp (-2)) / (1 + (1 / 100) ^ 2 - Real.exp (-2)))) := by
    rw [GP.mean, h4, hrow, hun, h2.mean_eq]
    simp only [Bool.false_eq_true, if_false, Option.some.injEq]
    have hcon := h2
    obtain ⟨ks, reg, log, sd, fp, target, nan, cinv, scaling, lml⟩ := gp
    simp only at hk hr hfp htg h6
    subst hk hr hfp htg h6
    exact two_points (w - v) hcon.1
  unfold rmse
  rw [h1]
  simp only [List.map_cons, List.map_nil]
  rw [h2.predict_eq _ (by simp)]
  simp only [List.map_cons, List.map_nil, hmean, allSome, Option.map_some, Err.getError, List.length_cons, List.length_nil, ne_eq,
    not_true_eq_false, if_false, List.zipWith_cons_cons, List.zipWith_nil_left, Err.mean, List.sum_cons, List.sum_nil]
  congr 2
  rw [sub_zero, add_zero]
  simp only [zero_add, Nat.cast_one, div_one]
  apply Real.sqrt_sq
  have he : Real.exp (-2) < 1 := by rw [Real.exp_lt_one_iff]; norm_num
  have : 0 < 1 + (1 / 100 : ℝ) ^ 2 - Real.exp (-2) := by nlinarith
  have h0 : 0 ≤ 1 - Real.exp (-2) := by linarith
  positivity

/-- C238 is violated by a feature that is constant in the training data but not in the test data: it is not scaled, so the score returned
by `minimize_error` depends on the unit of this feature. -/
theorem C238_constant_feature_violated (v w a : ℝ) (hvw : v ≠ w) (ha : 0 < a) (ha1 : a ≠ 1) :
    ∃ s s', s ≠ s' ∧ minimizeError stay 2 (flat v) [(![1, w], 0)] = .ok (some [s]) ∧
      minimizeError stay 2 (flat (a * v)) [(![1, a * w], 0)] = .ok (some [s']) := by
  have he : Real.exp (-2) < 1 := by rw [Real.exp_lt_one_iff]; norm_num
  have hq : 0 < 1 + (1 / 100 : ℝ) ^ 2 - Real.exp (-2) := by nlinarith
  have hC : (1 - Real.exp (-2)) / (1 + (1 / 100) ^ 2 - Real.exp (-2)) ≠ 0 := (div_pos (by linarith) hq).ne'
  refine ⟨_, _, ?_, by rw [minimizeError, flat_rmse]; rfl, by rw [minimizeError, flat_rmse]; rfl⟩
  intro h
  rw [neg_inj] at h
  have h1 := Real.exp_injective (mul_right_cancel₀ hC h)
  have h2 : (w - v) ^ 2 * (a ^ 2 - 1) = 0 := by linear_combination 2 * h1
  rcases mul_eq_zero.mp h2 with h3 | h3
  · exact hvw (sub_eq_zero.mp (pow_eq_zero_iff two_ne_zero |>.mp h3)).symm
  · apply ha1
    nlinarith

end CatLearn.Predictors
