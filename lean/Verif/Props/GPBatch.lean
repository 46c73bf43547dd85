import Verif.Model.GPBatch
import Verif.Model.Estimator

/-!
# C265: a prediction depends on no other test point
-/

namespace CatLearn.Proc

open CatLearn CatLearn.Kernel Matrix

private theorem cross_entry {N : ℕ} {m n : Type} (ks : List (KDict N)) (log : Bool) (A : m → Fin N → ℝ) (B : n → Fin N → ℝ) (i : m) (j : n) :
    covCross ks log A B i j = covEntry ks log (A i) (B j) false := by
  have h : ∀ (ks : List (KDict N)) (c : Matrix m n ℝ),
      (ks.foldl (fun cov k => joinKernel k log cov (Matrix.of fun i j => entry k.ktype (columns k) log (A i) (B j) false)) c) i j =
      ks.foldl (fun cov k =>
        let v := scaleFactor k log * entry k.ktype (columns k) log (A i) (B j) false
        if k.mult then cov * v else cov + v) (c i j) := by
    intro ks
    induction ks with
    | nil => exact fun _ => rfl
    | cons k ks ih =>
      intro c
      rw [List.foldl_cons, List.foldl_cons, ih]
      congr 1
      unfold joinKernel
      by_cases hk : k.mult = true <;> simp [hk]
  exact h ks 0

private theorem own_entry {N : ℕ} {m : Type} [DecidableEq m] (ks : List (KDict N)) (log : Bool) (A : m → Fin N → ℝ) (i j : m) :
    covOwn ks log A i j = covEntry ks log (A i) (A j) (decide (i = j)) := by
  have h : ∀ (ks : List (KDict N)) (c : Matrix m m ℝ),
      (ks.foldl (fun cov k => joinKernel k log cov (Matrix.of fun i j => entry k.ktype (columns k) log (A i) (A j) (decide (i = j)))) c) i j =
      ks.foldl (fun cov k =>
        let v := scaleFactor k log * entry k.ktype (columns k) log (A i) (A j) (decide (i = j))
        if k.mult then cov * v else cov + v) (c i j) := by
    intro ks
    induction ks with
    | nil => exact fun _ => rfl
    | cons k ks ih =>
      intro c
      rw [List.foldl_cons, List.foldl_cons, ih]
      congr 1
      unfold joinKernel
      by_cases hk : k.mult = true <;> simp [hk]
  exact h ks 0

private theorem ofFn_get {α β : Type} (f : α → β) (l : List α) : (List.ofFn fun i => f (l.get i)) = l.map f := by
  apply List.ext_getElem <;> simp

/-- C265: the calculation with matrices (covariance of all test points with all training points, products of matrices, diagonal of the covariance of the test points) gives what
`predict` of the model gives point by point, errors included. -/
theorem C265_matrices {N : ℕ} (gp : GP N) (test : List (Fin N → ℝ)) (u : Bool) : predictBatch gp test u = predict gp test u := by
  have hmean : (List.ofFn fun i : Fin test.length => if gp.nan then none else some (gp.rescale
      ((covCross gp.kernels gp.log (fun i => gp.scaleRow (test.get i)) (fun j : Fin gp.cinv.1 => gp.fp.getD j 0) *ᵥ (gp.cinv.2 *ᵥ gp.y)) i))) =
      (test.map gp.scaleRow).map gp.mean := by
    rw [List.map_map, ← ofFn_get]
    congr 1
    funext i
    simp only [Function.comp, GP.mean]
    congr 3
    exact congrArg (· ⬝ᵥ (gp.cinv.2 *ᵥ gp.y)) (funext fun j => cross_entry ..)
  have hunc : ∀ r, (List.ofFn fun i : Fin test.length =>
      ((batchUncertainty gp.kernels gp.log (fun i => gp.scaleRow (test.get i))
        (covCross gp.kernels gp.log (fun i => gp.scaleRow (test.get i)) (fun j : Fin gp.cinv.1 => gp.fp.getD j 0)) gp.cinv.2 i).map fun v => v * gp.tstd,
       (batchUncertainty gp.kernels gp.log (fun i => gp.scaleRow (test.get i))
        (covCross gp.kernels gp.log (fun i => gp.scaleRow (test.get i)) (fun j : Fin gp.cinv.1 => gp.fp.getD j 0)) gp.cinv.2 i).map fun v => (v + r) * gp.tstd)) =
      (test.map gp.scaleRow).map (gp.unc r) := by
    intro r
    rw [List.map_map, ← ofFn_get]
    congr 1
    funext i
    have hv : batchUncertainty gp.kernels gp.log (fun i => gp.scaleRow (test.get i))
        (covCross gp.kernels gp.log (fun i => gp.scaleRow (test.get i)) (fun j : Fin gp.cinv.1 => gp.fp.getD j 0)) gp.cinv.2 i =
        npSqrt (gp.var (gp.scaleRow (test.get i))) := by
      simp only [batchUncertainty, GP.var, Matrix.diag, own_entry, decide_true]
      congr 2
      refine Finset.sum_congr rfl fun j _ => ?_
      rw [cross_entry]
      congr 1
      rw [Matrix.mul_apply]
      refine Finset.sum_congr rfl fun k _ => ?_
      rw [cross_entry]
      rfl
    rw [hv]
    rfl
  unfold predictBatch predict
  simp only [bind, Except.bind, pure, Except.pure, throw, throwThe, MonadExceptOf.throw]
  by_cases h0 : test.isEmpty = true
  · simp [h0]
  by_cases h1 : gp.cinv.1 = gp.target.length
  · by_cases h2 : gp.cinv.1 = gp.fp.length
    · cases u with
      | false => simp [h0, ← h1, ← h2, ← hmean]
      | true =>
        cases hr : gp.reg with
        | none => simp [h0, ← h1, ← h2]
        | some r => simp [h0, ← h1, ← h2, ← hmean, ← hunc r]
    · simp [h0, ← h1, h2]
  · simp [h0, h1]

private theorem predict_eq {N : ℕ} (gp : GP N) (test : List (Fin N → ℝ)) (u : Bool) : predict gp test u =
    if test = [] ∨ gp.cinv.1 ≠ gp.target.length ∨ gp.cinv.1 ≠ gp.fp.length then .error .value
    else if u = true then match gp.reg with
      | none => .error .type
      | some r => .ok ⟨test.map fun x => gp.mean (gp.scaleRow x), some (test.map fun x => gp.unc r (gp.scaleRow x))⟩
    else .ok ⟨test.map fun x => gp.mean (gp.scaleRow x), none⟩ := by
  unfold predict
  simp only [bind, Except.bind, pure, Except.pure, throw, throwThe, MonadExceptOf.throw]
  by_cases h0 : test = []
  · simp [h0]
  by_cases h1 : gp.cinv.1 = gp.target.length
  · by_cases h2 : gp.cinv.1 = gp.fp.length
    · cases u with
      | false => simp [h0, ← h1, ← h2, Function.comp_def]
      | true => cases hr : gp.reg <;> simp [h0, ← h1, ← h2, Function.comp_def]
    · simp [h0, ← h1, h2]
  · simp [h0, h1]

/-- C265: predicting many points is predicting each of them on its own.  If a prediction for a list of points succeeds, it has one entry for every point, and the prediction and the
uncertainties in position `i` are those of a call with the point alone; if it fails for a list of points, every call with one of the points fails in the same way. -/
theorem C265_pointwise {N : ℕ} (gp : GP N) (test : List (Fin N → ℝ)) (u : Bool) :
    (∀ p, predictBatch gp test u = .ok p → p.prediction.length = test.length ∧ (p.uncertainty.isSome ↔ u = true) ∧
      (∀ us, p.uncertainty = some us → us.length = test.length) ∧
      ∀ (i : ℕ) (x : Fin N → ℝ), test[i]? = some x → ∃ q, predictBatch gp [x] u = .ok q ∧
        q.prediction = (p.prediction[i]?).toList ∧ q.uncertainty = p.uncertainty.map fun us => (us[i]?).toList) ∧
    ∀ e, predictBatch gp test u = .error e → ∀ x ∈ test, predictBatch gp [x] u = .error e := by
  simp only [C265_matrices, predict_eq]
  by_cases h0 : test = []
  · simp [h0]
  by_cases h1 : gp.cinv.1 ≠ gp.target.length ∨ gp.cinv.1 ≠ gp.fp.length
  · rw [if_pos (Or.inr h1)]
    exact ⟨fun p h => (by cases h), fun e h x _ => by rw [if_pos (Or.inr h1)]; exact h⟩
  rw [if_neg (by tauto)]
  have h2 : ∀ x : Fin N → ℝ, ¬ ([x] = [] ∨ gp.cinv.1 ≠ gp.target.length ∨ gp.cinv.1 ≠ gp.fp.length) := fun x => by simpa using h1
  cases u with
  | false =>
    refine ⟨fun p h => ?_, fun e h => (by cases h)⟩
    cases h
    refine ⟨by simp, by simp, by simp, fun i x hx => ⟨_, by rw [if_neg (h2 x)]; rfl, ?_, rfl⟩⟩
    simp [hx]
  | true =>
    cases hr : gp.reg with
    | none => exact ⟨fun p h => (by cases h), fun e h x _ => by rw [if_neg (h2 x)]; exact h⟩
    | some r =>
      refine ⟨fun p h => ?_, fun e h => (by cases h)⟩
      cases h
      refine ⟨by simp, by simp, by simp, fun i x hx => ⟨_, by rw [if_neg (h2 x)]; rfl, ?_, ?_⟩⟩ <;> simp [hx]

/-- C265: appending the lists of test points appends the predictions; no test points at all are refused. -/
theorem C265_append {N : ℕ} (gp : GP N) (a b : List (Fin N → ℝ)) (p q : Pred) (ha : predictBatch gp a true = .ok p) (hb : predictBatch gp b true = .ok q) :
    predictBatch gp (a ++ b) true = .ok ⟨p.prediction ++ q.prediction, some (p.uncertainty.getD [] ++ q.uncertainty.getD [])⟩ ∧
    predictBatch gp [] true = .error .value := by
  simp only [C265_matrices, predict_eq] at ha hb ⊢
  by_cases h0 : a = [] ∨ gp.cinv.1 ≠ gp.target.length ∨ gp.cinv.1 ≠ gp.fp.length
  · rw [if_pos h0] at ha; cases ha
  by_cases h1 : b = [] ∨ gp.cinv.1 ≠ gp.target.length ∨ gp.cinv.1 ≠ gp.fp.length
  · rw [if_pos h1] at hb; cases hb
  rw [if_neg h0] at ha
  rw [if_neg h1] at hb
  refine ⟨?_, by simp⟩
  rw [if_neg (by simp; tauto)]
  cases hr : gp.reg with
  | none => simp [hr] at ha
  | some r =>
    simp only [hr, if_true, Except.ok.injEq] at ha hb
    subst ha hb
    simp

/-- A model of one point with a linear kernel: predictions for two points succeed. -/
example : ∃ p q, predictBatch (⟨[⟨.linear, none, none, false⟩], some 1, false, false, [fun _ => 1], [1], false, ⟨1, 1⟩, none, none⟩ : GP 1) [fun _ => 2] true = .ok p ∧
    predictBatch (⟨[⟨.linear, none, none, false⟩], some 1, false, false, [fun _ => 1], [1], false, ⟨1, 1⟩, none, none⟩ : GP 1) [fun _ => 3] true = .ok q :=
  ⟨_, _, rfl, rfl⟩

end CatLearn.Proc

namespace CatLearn.FixedBasis

open CatLearn Matrix

variable {n m m' q : Type} [Fintype n] [DecidableEq n] [Fintype m] [Fintype m'] [Fintype q] [DecidableEq q]

/-- C265, with basis functions: the predictions and covariances of some of the test points, in any order and repeated if wanted, are those computed together with the other test points. -/
theorem C265_basis (scal : Option (ℝ × ℝ)) (cinv : Matrix n n ℝ) (ktb : Matrix m n ℝ) (ktest : Matrix m m ℝ) (H : Matrix n q ℝ) (Hs : Matrix m q ℝ) (y : n → ℝ) (f : m' → m) :
    fixedBasis scal cinv (ktb.submatrix f id) (ktest.submatrix f f) H (Hs.submatrix f id) y =
      (fixedBasis scal cinv ktb ktest H Hs y).map fun g => (g.1 ∘ f, g.2.submatrix f f) := by
  unfold fixedBasis
  by_cases hd : (Hᵀ * (cinv * H)).det = 0
  · simp [hd, Except.map]
  · simp only [if_neg hd, Except.map]
    congr 2
    cases scal <;> rfl

end CatLearn.FixedBasis

namespace CatLearn.Est

open CatLearn CatLearn.Clean

/-- C265, for the general estimator: what `transform` makes of new rows depends on no other row; if it fails for some rows it fails in the same way for any others. -/
theorem C265_transform (eliminate : Bool) (st : Prep) (d : ℕ) (A B : Mat) :
    transform eliminate st d (A ++ B) = (match transform eliminate st d A, transform eliminate st d B with
      | .ok a, .ok b => .ok (a ++ b)
      | .error e, _ => .error e
      | _, .error e => .error e) ∧
    (∀ e, transform eliminate st d A = .error e ↔ transform eliminate st d B = .error e) ∧
    ∀ a, transform eliminate st d A = .ok a → a.length = A.length := by
  unfold transform
  cases st.scale with
  | none => simp
  | some s =>
    cases st.index with
    | none => simp
    | some index =>
      obtain ⟨mean, std⟩ := s
      by_cases h1 : eliminate = true
      · by_cases h2 : d = index.length
        · by_cases h3 : (truePos index).length = mean.length
          · simp [h1, h2, h3]
          · simp [h1, h2, h3]
        · simp [h1, h2]
      · simp [h1]

end CatLearn.Est
