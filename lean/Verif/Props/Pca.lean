import Verif.Model.Pca
import Verif.Lemmas.Py
import Mathlib.Algebra.BigOperators.Fin
import Mathlib.Algebra.Order.BigOperators.Ring.Finset
import Mathlib.Tactic.Linarith
import Mathlib.Tactic.FieldSimp
import Mathlib.Tactic.Ring
import Mathlib.Tactic.NormNum
import Mathlib.Tactic.FinCases

/-!
# C257, C258: principal components
-/

namespace CatLearn.Pca

open CatLearn CatLearn.Scaling

variable {ι κ δ : Type} [Fintype ι] [Fintype κ] [Fintype δ]

/-- A singular value decomposition of `X`: orthonormal vectors on both sides, and singular values that are not negative in decreasing order. -/
def IsSvd (X : δ → ι → ℝ) (r : Svd δ) : Prop :=
  ∃ (p : ℕ) (U : Fin p → δ → ℝ) (S : Fin p → ℝ) (W : Fin p → ι → ℝ), r.u = List.ofFn U ∧ r.s = List.ofFn S ∧
    (∀ i j, ∑ a, U i a * U j a = if i = j then 1 else 0) ∧ (∀ i j, ∑ k, W i k * W j k = if i = j then 1 else 0) ∧
    (∀ i, 0 ≤ S i) ∧ (∀ i j, i ≤ j → S j ≤ S i) ∧ ∀ a k, X a k = ∑ i, U i a * S i * W i k

/-- The data that are decomposed, without cleaning. -/
noncomputable def decomposed (scale : Bool) (train : ι → δ → ℝ) : ι → δ → ℝ :=
  if scale then applyScale (colMean train) (placeOnes (colStd train)) train else train

private theorem along {p : ℕ} (X : δ → ι → ℝ) (U : Fin p → δ → ℝ) (S : Fin p → ℝ) (W : Fin p → ι → ℝ)
    (hU : ∀ i j, ∑ a, U i a * U j a = if i = j then 1 else 0) (hW : ∀ i j, ∑ k, W i k * W j k = if i = j then 1 else 0)
    (hX : ∀ a k, X a k = ∑ i, U i a * S i * W i k) (i : Fin p) : ∑ k, (∑ a, X a k * U i a) ^ 2 = S i ^ 2 := by
  have h1 : ∀ k, (∑ a, X a k * U i a) = S i * W i k := by
    intro k
    simp only [hX, Finset.sum_mul]
    rw [Finset.sum_comm]
    have : ∀ j, (∑ a, U j a * S j * W j k * U i a) = S j * W j k * (if j = i then 1 else 0) := by
      intro j
      rw [← hU, Finset.mul_sum]
      exact Finset.sum_congr rfl fun a _ => by ring
    simp only [this, mul_ite, mul_one, mul_zero, Finset.sum_ite_eq', Finset.mem_univ, if_true]
  simp only [h1, mul_pow, ← Finset.mul_sum]
  have := hW i i
  rw [if_pos rfl] at this
  simp only [sq] at this ⊢
  rw [this, mul_one]

private theorem total {p : ℕ} (X : δ → ι → ℝ) (U : Fin p → δ → ℝ) (S : Fin p → ℝ) (W : Fin p → ι → ℝ)
    (hU : ∀ i j, ∑ a, U i a * U j a = if i = j then 1 else 0) (hW : ∀ i j, ∑ k, W i k * W j k = if i = j then 1 else 0)
    (hX : ∀ a k, X a k = ∑ i, U i a * S i * W i k) : ∑ k, ∑ a, X a k ^ 2 = ∑ i, S i ^ 2 := by
  have h1 : ∀ k, (∑ a, X a k ^ 2) = ∑ i, (S i * W i k) ^ 2 := by
    intro k
    have : ∀ a, X a k ^ 2 = ∑ i, ∑ j, (S i * W i k) * (S j * W j k) * (U i a * U j a) := by
      intro a
      rw [hX, sq, Finset.sum_mul_sum]
      exact Finset.sum_congr rfl fun i _ => Finset.sum_congr rfl fun j _ => by ring
    simp only [this]
    rw [Finset.sum_comm]
    refine Finset.sum_congr rfl fun i _ => ?_
    rw [Finset.sum_comm]
    simp only [← Finset.mul_sum, hU, mul_ite, mul_one, mul_zero, Finset.sum_ite_eq, Finset.mem_univ, if_true]
    ring
  simp only [h1]
  rw [Finset.sum_comm]
  refine Finset.sum_congr rfl fun i _ => ?_
  simp only [mul_pow, ← Finset.mul_sum]
  have := hW i i
  rw [if_pos rfl] at this
  simp only [sq] at this ⊢
  rw [this, mul_one]

private theorem variance_ofFn {p : ℕ} (S : Fin p → ℝ) (hS : ∀ i j, i ≤ j → S j ≤ S i) :
    Screen.variance (List.ofFn S) = List.ofFn fun i => S i / (∑ j, S j) * 100 := by
  have hs : sortDesc id (List.ofFn S) = List.ofFn S := by
    refine List.Perm.eq_of_pairwise (le := fun a b => b ≤ a) (fun a b _ _ h1 h2 => le_antisymm h2 h1) (sortDesc_pairwise id _) ?_ (sortDesc_perm id _)
    rw [List.pairwise_ofFn]
    exact fun i j hij => hS i j hij.le
  unfold Screen.variance
  rw [hs, List.map_ofFn, List.sum_ofFn]
  rfl

/-- What is returned without cleaning. -/
private theorem result_eq (svd : (ε : Type) → (ε → ι → ℝ) → Svd ε) (k : ℕ) (train : ι → δ → ℝ) (test : Option (κ → δ → ℝ)) (scale : Bool)
    (r : Result ι κ) (h : catlearnPca svd k train test false scale = .ok r) :
    ∃ pm, Screen.projection (svd δ fun j i => decomposed scale train i j).u k = .ok pm ∧
      r.variance = Screen.variance (svd δ fun j i => decomposed scale train i j).s ∧ r.train = fun i => project pm (decomposed scale train i) := by
  have hcore : ∀ (D : ι → δ → ℝ) (t : Test κ δ), core (svd δ) k D t = .ok r →
      ∃ pm, Screen.projection (svd δ fun j i => D i j).u k = .ok pm ∧ r.variance = Screen.variance (svd δ fun j i => D i j).s ∧
        r.train = fun i => project pm (D i) := by
    intro D t hc
    unfold core at hc
    simp only at hc
    cases hp : Screen.projection (svd δ fun j i => D i j).u k with
    | error e => rw [hp] at hc; cases hc
    | ok pm =>
      rw [hp] at hc
      cases t with
      | absent => cases hc; exact ⟨pm, rfl, rfl, rfl⟩
      | rows t => cases hc; exact ⟨pm, rfl, rfl, rfl⟩
      | emptyList => cases hc
  unfold catlearnPca at h
  by_cases h0 : k = 0
  · rw [if_pos h0] at h; cases h
  · rw [if_neg h0] at h
    simp only [Bool.false_eq_true, if_false] at h
    unfold scaled at h
    cases scale with
    | false => exact hcore _ _ h
    | true =>
      cases test with
      | none =>
        refine hcore _ .absent ?_
        simpa [decomposed, standardize, onData] using h
      | some t =>
        refine hcore _ (.rows (applyScale (colMean train) (placeOnes (colStd train)) t)) ?_
        simpa [decomposed, standardize, onData] using h

private theorem leading (svd : (ε : Type) → (ε → ι → ℝ) → Svd ε) (k : ℕ) (train : ι → δ → ℝ) (test : Option (κ → δ → ℝ)) (scale : Bool)
    (r : Result ι κ) (h : catlearnPca svd k train test false scale = .ok r)
    (hs : IsSvd (fun j i => decomposed scale train i j) (svd δ fun j i => decomposed scale train i j)) :
    ∃ (p : ℕ) (S : Fin (p + 1) → ℝ), (∀ i, 0 ≤ S i) ∧ (∀ i, S i ≤ S 0) ∧ r.variance = List.ofFn (fun i => S i / (∑ j, S j) * 100) ∧
      (∑ i, ((r.train i).headD 0) ^ 2) = S 0 ^ 2 ∧ (∑ i, ∑ j, decomposed scale train i j ^ 2) = ∑ i, S i ^ 2 := by
  obtain ⟨pm, h1, h2, h3⟩ := result_eq svd k train test scale r h
  obtain ⟨p, U, S, W, hu, hS, hU, hW, h0, hd, hX⟩ := hs
  rw [hu] at h1
  cases p with
  | zero =>
    exfalso
    unfold Screen.projection at h1
    split at h1
    · cases h1
    · simp [Screen.pyGet, bind, Except.bind] at h1
  | succ p =>
    refine ⟨p, S, h0, fun i => hd 0 i (Fin.zero_le i), ?_, ?_, ?_⟩
    · rw [h2, hS, variance_ofFn S hd]
    · have hpm : pm.head? = some (U 0) := by
        unfold Screen.projection at h1
        split at h1
        · cases h1
        · simp only [Screen.pyGet, bind, Except.bind, List.ofFn_succ, List.getElem?_cons_zero] at h1
          split at h1
          · cases h1
          · cases h1
            rfl
      have hpm' : ∃ rest, pm = U 0 :: rest := by
        cases pm with
        | nil => cases hpm
        | cons v rest =>
          cases hpm
          exact ⟨rest, rfl⟩
      obtain ⟨rest, rfl⟩ := hpm'
      rw [h3, ← along _ U S W hU hW hX 0]
      rfl
    · exact total _ U S W hU hW hX

/-- C257 (partial: all the variances reported are equal, or zero).  The leading variance is the percentage of the sum of squares of the data that is found
along the first component. -/
theorem C257_variance_partial (svd : (ε : Type) → (ε → ι → ℝ) → Svd ε) (k : ℕ) (train : ι → δ → ℝ) (test : Option (κ → δ → ℝ)) (scale : Bool)
    (r : Result ι κ) (h : catlearnPca svd k train test false scale = .ok r)
    (hs : IsSvd (fun j i => decomposed scale train i j) (svd δ fun j i => decomposed scale train i j))
    (hne : ∃ i j, decomposed scale train i j ≠ 0) (heq : ∀ v ∈ r.variance, v = 0 ∨ v = r.variance.headD 0) :
    r.variance.headD 0 = 100 * (∑ i, ((r.train i).headD 0) ^ 2) / ∑ i, ∑ j, decomposed scale train i j ^ 2 := by
  obtain ⟨p, S, h0, hm, hv, he, ht⟩ := leading svd k train test scale r h hs
  have htot : 0 < ∑ i, S i ^ 2 := by
    rw [← ht]
    obtain ⟨i, j, hij⟩ := hne
    refine Finset.sum_pos' (fun i _ => Finset.sum_nonneg fun j _ => sq_nonneg _) ⟨i, Finset.mem_univ i, ?_⟩
    exact Finset.sum_pos' (fun j _ => sq_nonneg _) ⟨j, Finset.mem_univ j, by positivity⟩
  have hsum : 0 < ∑ i, S i := by
    rcases (Finset.sum_nonneg fun i _ => h0 i).lt_or_eq with hlt | heq0
    · exact hlt
    · exfalso
      have := (Finset.sum_eq_zero_iff_of_nonneg fun i _ => h0 i).mp heq0.symm
      simp [this] at htot
  have hhead : r.variance.headD 0 = S 0 / (∑ j, S j) * 100 := by
    rw [hv, List.ofFn_succ]
    rfl
  have hS : ∀ i, S i = 0 ∨ S i = S 0 := by
    intro i
    have hmem : S i / (∑ j, S j) * 100 ∈ r.variance := by
      rw [hv, List.mem_ofFn]
      exact ⟨i, rfl⟩
    rcases heq _ hmem with hz | hz
    · left
      field_simp at hz
      linarith
    · right
      rw [hhead] at hz
      field_simp at hz
      linarith
  have hsq : ∀ i, S i ^ 2 = S 0 * S i := by
    intro i
    rcases hS i with hz | hz <;> rw [hz] <;> ring
  rw [hhead, he, ht]
  simp only [hsq, ← Finset.mul_sum] at htot ⊢
  have h00 : S 0 ≠ 0 := fun hz => by simp [hz] at htot
  field_simp

/-- C257 is violated: the numbers are shares of the singular values and not of their squares.  Whenever another component has a smaller variance that is not
zero, the variance reported for the first component is too small. -/
theorem C257_variance_violated (svd : (ε : Type) → (ε → ι → ℝ) → Svd ε) (k : ℕ) (train : ι → δ → ℝ) (test : Option (κ → δ → ℝ)) (scale : Bool)
    (r : Result ι κ) (h : catlearnPca svd k train test false scale = .ok r)
    (hs : IsSvd (fun j i => decomposed scale train i j) (svd δ fun j i => decomposed scale train i j))
    (v : ℝ) (hv : v ∈ r.variance) (h0v : 0 < v) (hlt : v < r.variance.headD 0) :
    r.variance.headD 0 < 100 * (∑ i, ((r.train i).headD 0) ^ 2) / ∑ i, ∑ j, decomposed scale train i j ^ 2 := by
  obtain ⟨p, S, h0, hm, hvar, he, ht⟩ := leading svd k train test scale r h hs
  have hhead : r.variance.headD 0 = S 0 / (∑ j, S j) * 100 := by
    rw [hvar, List.ofFn_succ]
    rfl
  rw [hvar, List.mem_ofFn] at hv
  obtain ⟨m, rfl⟩ := hv
  have hsum : 0 < ∑ i, S i := by
    rcases (Finset.sum_nonneg fun i _ => h0 i).lt_or_eq with h' | h'
    · exact h'
    · rw [← h'] at h0v
      simp at h0v
  have hSm : 0 < S m := by
    rcases (h0 m).lt_or_eq with h' | h'
    · exact h'
    · rw [← h'] at h0v
      simp at h0v
  have hS0 : S m < S 0 := by
    rw [hhead] at hlt
    have := lt_of_mul_lt_mul_right hlt (by norm_num)
    exact (div_lt_div_iff_of_pos_right hsum).mp this
  have hless : ∑ i, S i ^ 2 < S 0 * ∑ i, S i := by
    rw [Finset.mul_sum]
    refine Finset.sum_lt_sum (fun i _ => ?_) ⟨m, Finset.mem_univ m, ?_⟩
    · rw [sq]
      exact mul_le_mul_of_nonneg_right (hm i) (h0 i)
    · rw [sq]
      exact mul_lt_mul_of_pos_right hS0 hSm
  have htot : 0 < ∑ i, S i ^ 2 := Finset.sum_pos' (fun i _ => sq_nonneg _) ⟨m, Finset.mem_univ m, by positivity⟩
  rw [hhead, he, ht, div_mul_eq_mul_div, div_lt_div_iff₀ hsum htot]
  have : 0 < S 0 := lt_trans hSm hS0
  nlinarith

/-- Two rows of data along two features, of lengths 3 and 1: three quarters are reported for the first component, which has nine tenths of the variance. -/
example : let train : Fin 2 → Fin 2 → ℝ := fun i j => if i = j then (if i = 0 then 3 else 1) else 0
    let svd : (ε : Type) → (ε → Fin 2 → ℝ) → Svd ε := fun _ X => ⟨[fun j => X j 0 / 3, fun j => X j 1], [3, 1]⟩
    IsSvd (fun j i => decomposed false train i j) (svd (Fin 2) fun j i => decomposed false train i j) ∧
      ∃ r : Result (Fin 2) (Fin 0), catlearnPca svd 1 train none false false = .ok r ∧ r.variance = [75, 25] ∧
        100 * (∑ i, ((r.train i).headD 0) ^ 2) / ∑ i, ∑ j, decomposed false train i j ^ 2 = 90 := by
  refine ⟨⟨2, fun i j => if i = j then 1 else 0, ![3, 1], fun i j => if i = j then 1 else 0, ?_, ?_, ?_, ?_, ?_, ?_, ?_⟩, ?_⟩
  · simp only [List.ofFn_succ, List.ofFn_zero, decomposed, Bool.false_eq_true, if_false]
    congr 1
    funext j
    fin_cases j <;> norm_num
  · simp [List.ofFn_succ]
  · intro i j
    fin_cases i <;> fin_cases j <;> simp
  · intro i j
    fin_cases i <;> fin_cases j <;> simp
  · intro i
    fin_cases i <;> simp
  · intro i j hij
    fin_cases i <;> fin_cases j <;> simp_all
  · intro a k
    fin_cases a <;> fin_cases k <;> simp [decomposed, Fin.sum_univ_two]
  · refine ⟨_, rfl, ?_, ?_⟩
    · norm_num [Screen.variance, sortDesc]
    · norm_num [project, decomposed, Fin.sum_univ_two]

/-- What is learned from the training data: the variances, and the transformation of one row. -/
private noncomputable def coreMap {ε : Type} [Fintype ε] (svd : (ε → ι → ℝ) → Svd ε) (k : ℕ) (train : ι → ε → ℝ) :
    Except PyErr (List ℝ × ((ε → ℝ) → List ℝ)) :=
  match Screen.projection (svd fun j i => train i j).u k with
  | .error e => .error e
  | .ok pm => .ok (Screen.variance (svd fun j i => train i j).s, project pm)

private noncomputable def scaledMap {ε : Type} [Fintype ε] (svd : (ε → ι → ℝ) → Svd ε) (k : ℕ) (scale : Bool) (train : ι → ε → ℝ) :
    Except PyErr (List ℝ × ((ε → ℝ) → List ℝ)) :=
  (coreMap svd k (decomposed scale train)).map fun p => (p.1, fun row => p.2 fun j =>
    if scale then (row j - colMean train j) / placeOnes (colStd train) j else row j)

open Classical in
private noncomputable def wholeMap (svd : (ε : Type) → (ε → ι → ℝ) → Svd ε) (k : ℕ) (cleanup scale : Bool) (train : ι → δ → ℝ) :
    Except PyErr (List ℝ × ((δ → ℝ) → List ℝ)) :=
  if k = 0 then .error .assertion
  else if cleanup then
    (scaledMap (svd {j // keeps train j}) k scale fun i j => train i j.1).map fun p => (p.1, fun row => p.2 fun j => row j.1)
  else scaledMap (svd δ) k scale train

private theorem scaled_rows {ε : Type} [Fintype ε] (svd : (ε → ι → ℝ) → Svd ε) (k : ℕ) (scale : Bool) (train : ι → ε → ℝ) (t : κ → ε → ℝ) :
    scaled svd k scale train (.rows t) =
      (scaledMap svd k scale train).map fun p => ⟨k, p.1, fun i => p.2 (train i), some fun a => p.2 (t a)⟩ := by
  unfold scaled scaledMap coreMap
  cases scale with
  | false =>
    simp only [Bool.false_eq_true, if_false, core, decomposed]
    cases Screen.projection (svd fun j i => train i j).u k <;> rfl
  | true =>
    simp only [if_true, standardize, onData, Option.getD_none, Option.map_some, core, decomposed]
    cases Screen.projection (svd fun j i => applyScale (colMean train) (placeOnes (colStd train)) train i j).u k <;> rfl

private theorem scaled_absent {ε : Type} [Fintype ε] (svd : (ε → ι → ℝ) → Svd ε) (k : ℕ) (scale : Bool) (train : ι → ε → ℝ) :
    scaled (κ := κ) svd k scale train .absent =
      (scaledMap svd k scale train).map fun p => ⟨k, p.1, fun i => p.2 (train i), none⟩ := by
  unfold scaled scaledMap coreMap
  cases scale with
  | false =>
    simp only [Bool.false_eq_true, if_false, core, decomposed]
    cases Screen.projection (svd fun j i => train i j).u k <;> rfl
  | true =>
    simp only [if_true, standardize, onData, Option.getD_none, core, decomposed]
    cases Screen.projection (svd fun j i => applyScale (colMean train) (placeOnes (colStd train)) train i j).u k <;> rfl

private theorem whole_rows (svd : (ε : Type) → (ε → ι → ℝ) → Svd ε) (k : ℕ) (cleanup scale : Bool) (train : ι → δ → ℝ) (t : κ → δ → ℝ) :
    catlearnPca svd k train (some t) cleanup scale =
      (wholeMap svd k cleanup scale train).map fun p => ⟨k, p.1, fun i => p.2 (train i), some fun a => p.2 (t a)⟩ := by
  classical
  unfold catlearnPca wholeMap
  by_cases h0 : k = 0
  · simp only [if_pos h0]
    rfl
  · simp only [if_neg h0]
    cases cleanup with
    | false =>
      simp only [Bool.false_eq_true, if_false]
      exact scaled_rows _ _ _ _ _
    | true =>
      simp only [if_true]
      rw [scaled_rows]
      cases scaledMap (svd {j // keeps train j}) k scale fun i j => train i j.1 <;> rfl

private theorem whole_absent (svd : (ε : Type) → (ε → ι → ℝ) → Svd ε) (k : ℕ) (scale : Bool) (train : ι → δ → ℝ) :
    catlearnPca (κ := κ) svd k train none false scale =
      (wholeMap svd k false scale train).map fun p => ⟨k, p.1, fun i => p.2 (train i), none⟩ := by
  classical
  unfold catlearnPca wholeMap
  by_cases h0 : k = 0
  · simp only [if_pos h0]
    rfl
  · simp only [if_neg h0, Bool.false_eq_true, if_false]
    exact scaled_absent _ _ _ _

private theorem projection_length {V : Type} (u : List V) (k : ℕ) (pm : List V) (h : Screen.projection u k = .ok pm) : pm.length = k := by
  unfold Screen.projection at h
  split at h
  · cases h
  · rename_i h0
    simp only [bind, Except.bind] at h
    split at h
    · cases h
    · split at h
      · cases h
      · rename_i rest hr
        cases h
        have : rest.length = (List.range (k - 1)).length := by
          have hgen : ∀ (l : List ℕ) (out : List V), l.mapM (Screen.pyGet u) = .ok out → out.length = l.length := by
            intro l
            induction l with
            | nil => intro out ho; simp [pure, Except.pure] at ho; simp [← ho]
            | cons a l ih =>
              intro out ho
              rw [List.mapM_cons] at ho
              simp only [bind, Except.bind, pure, Except.pure] at ho
              split at ho
              · cases ho
              · split at ho
                · cases ho
                · rename_i l' hl'
                  cases ho
                  simp [ih l' hl']
          exact hgen _ _ hr
        simp [this]
        omega

/-- C258: test data are treated like training data.  For any options, every row of the result has as many entries as components were asked for, and a row of
the test data that is also a row of the training data is given the same components. -/
theorem C258_rows (svd : (ε : Type) → (ε → ι → ℝ) → Svd ε) (k : ℕ) (cleanup scale : Bool) (train : ι → δ → ℝ) (t : κ → δ → ℝ) (r : Result ι κ)
    (h : catlearnPca svd k train (some t) cleanup scale = .ok r) :
    0 < k ∧ r.components = k ∧ (∀ i, (r.train i).length = k) ∧
      ∃ rt, r.test = some rt ∧ (∀ a, (rt a).length = k) ∧ ∀ i a, t a = train i → rt a = r.train i := by
  classical
  have hk : 0 < k := by
    rcases Nat.eq_zero_or_pos k with h0 | h0
    · unfold catlearnPca at h
      rw [if_pos h0] at h
      cases h
    · exact h0
  rw [whole_rows] at h
  have hlen : ∀ p, wholeMap svd k cleanup scale train = .ok p → ∀ row, (p.2 row).length = k := by
    have hs : ∀ {ε : Type} [Fintype ε] (svd : (ε → ι → ℝ) → Svd ε) (train : ι → ε → ℝ) p, scaledMap svd k scale train = .ok p →
        ∀ row, (p.2 row).length = k := by
      intro ε _ svd train p hp row
      unfold scaledMap coreMap at hp
      cases hpm : Screen.projection (svd fun j i => decomposed scale train i j).u k with
      | error e => rw [hpm] at hp; cases hp
      | ok pm =>
        rw [hpm] at hp
        cases hp
        simp [project, projection_length _ _ _ hpm]
    intro p hp row
    unfold wholeMap at hp
    rw [if_neg (by omega)] at hp
    split at hp
    · cases hsm : (scaledMap (svd {j // keeps train j}) k scale fun i j => train i j.1) with
      | error e => rw [hsm] at hp; cases hp
      | ok q =>
        rw [hsm] at hp
        cases hp
        exact hs _ _ _ hsm _
    · exact hs _ _ _ hp _
  cases hw : wholeMap svd k cleanup scale train with
  | error e => rw [hw] at h; cases h
  | ok p =>
    rw [hw] at h
    cases h
    exact ⟨hk, rfl, fun i => hlen p hw _, _, rfl, fun a => hlen p hw _, fun i a he => by simp only [he]⟩

/-- C258: the test data have no influence on the training data, nor on each other.  With other test data the same variances and the same training data are
returned, and a row that is found in both is given the same components. -/
theorem C258_independent {κ' : Type} [Fintype κ'] (svd : (ε : Type) → (ε → ι → ℝ) → Svd ε) (k : ℕ) (cleanup scale : Bool) (train : ι → δ → ℝ)
    (t : κ → δ → ℝ) (r : Result ι κ) (h : catlearnPca svd k train (some t) cleanup scale = .ok r) (t' : κ' → δ → ℝ) :
    ∃ r' : Result ι κ', catlearnPca svd k train (some t') cleanup scale = .ok r' ∧ r'.train = r.train ∧ r'.variance = r.variance ∧
      ∃ rt rt', r.test = some rt ∧ r'.test = some rt' ∧ ∀ a a', t a = t' a' → rt a = rt' a' := by
  rw [whole_rows] at h ⊢
  cases hw : wholeMap svd k cleanup scale train with
  | error e => rw [hw] at h; cases h
  | ok p =>
    rw [hw] at h
    cases h
    exact ⟨_, rfl, rfl, rfl, _, _, rfl, rfl, fun a a' he => by rw [he]⟩

/-- C258 (partial: without cleaning).  The test data may be left out: the training data and the variances are the same. -/
theorem C258_no_test_partial (svd : (ε : Type) → (ε → ι → ℝ) → Svd ε) (k : ℕ) (scale : Bool) (train : ι → δ → ℝ)
    (t : κ → δ → ℝ) (r : Result ι κ) (h : catlearnPca svd k train (some t) false scale = .ok r) :
    ∃ r' : Result ι κ, catlearnPca svd k train none false scale = .ok r' ∧ r'.train = r.train ∧ r'.variance = r.variance ∧ r'.test = none := by
  rw [whole_rows] at h
  rw [whole_absent]
  cases hw : wholeMap svd k false scale train with
  | error e => rw [hw] at h; cases h
  | ok p =>
    rw [hw] at h
    cases h
    exact ⟨_, rfl, rfl, rfl, rfl⟩

open Classical in
/-- C258: with `cleanup` the result is that of the features whose standard deviation on the training data exceeds the tolerance (about 1e-8), in training and test data alike: `P` tells
which these are.  A feature that is constant on the training data is never among them. -/
theorem C258_cleanup (svd : (ε : Type) → (ε → ι → ℝ) → Svd ε) (k : ℕ) (scale : Bool) (train : ι → δ → ℝ) (t : κ → δ → ℝ) (P : δ → Prop)
    (hP : ∀ j, P j ↔ 1e-8 < (1 - 1e-5) * Real.sqrt ((∑ i, (train i j - (∑ i, train i j) / Fintype.card ι) ^ 2) / Fintype.card ι)) :
    catlearnPca svd k train (some t) true scale =
      catlearnPca svd k (fun i (j : {j // P j}) => train i j.1) (some fun a (j : {j // P j}) => t a j.1) false scale ∧
    ∀ j, (∀ i i', train i j = train i' j) → ¬ P j := by
  have hk : keeps train = P := by
    funext j
    refine propext (Iff.trans ?_ (hP j).symm)
    have h0 : 0 ≤ colStd train j := Real.sqrt_nonneg _
    change _ ↔ 1e-8 < (1 - 1e-5) * colStd train j
    simp only [keeps, Clean.isCloseZero, zero_sub, abs_neg, abs_of_nonneg h0, decide_eq_false_iff_not, not_le]
    constructor <;> intro h <;> linarith
  subst hk
  refine ⟨?_, fun j hj hk => ?_⟩
  · unfold catlearnPca
    by_cases h0 : k = 0
    · rw [if_pos h0, if_pos h0]
    · rw [if_neg h0, if_neg h0, if_pos rfl]
      simp
  · have h1 := (hP j).mp hk
    have h2 : ∀ i, train i j - (∑ i, train i j) / Fintype.card ι = 0 := by
      intro i
      have : ∑ i', train i' j = Fintype.card ι * train i j := by
        rw [Finset.sum_congr rfl fun i' _ => hj i' i]
        simp
      have hc : (Fintype.card ι : ℝ) ≠ 0 := Nat.cast_ne_zero.mpr (Fintype.card_pos_iff.mpr ⟨i⟩).ne'
      rw [this]
      field_simp
      ring
    simp only [h2] at h1
    norm_num at h1

/-- C258 is violated for cleaned data: `clean_variance` returns a dictionary whose missing entries are empty lists, so without test data an empty list takes
their place and every call raises an exception. -/
theorem C258_no_test_violated (svd : (ε : Type) → (ε → ι → ℝ) → Svd ε) (k : ℕ) (scale : Bool) (train : ι → δ → ℝ) :
    ∃ e, catlearnPca (κ := κ) svd k train none true scale = .error e := by
  classical
  have hcore : ∀ {ε : Type} [Fintype ε] (svd : (ε → ι → ℝ) → Svd ε) (X : ι → ε → ℝ), ∃ e, core (κ := κ) svd k X .emptyList = .error e := by
    intro ε _ svd X
    unfold core
    cases hp : Screen.projection (svd fun j i => X i j).u k with
    | error e => exact ⟨e, by simp only [hp]⟩
    | ok pm => exact ⟨.value, by simp only [hp]⟩
  unfold catlearnPca
  by_cases h0 : k = 0
  · rw [if_pos h0]
    exact ⟨_, rfl⟩
  · rw [if_neg h0, if_pos rfl]
    unfold scaled
    cases scale with
    | false => exact hcore _ _
    | true =>
      simp only [if_true]
      split
      · exact ⟨_, rfl⟩
      · exact hcore _ _

/-- C258: without components, nothing is computed. -/
theorem C258_refused (svd : (ε : Type) → (ε → ι → ℝ) → Svd ε) (cleanup scale : Bool) (train : ι → δ → ℝ) (test : Option (κ → δ → ℝ)) :
    catlearnPca svd 0 train test cleanup scale = .error .assertion := if_pos rfl

/-- C258 for the functions that call scikit-learn, for any model: the rows of both matrices are transformed one by one by the same map, which is learned from
the training data. -/
theorem C258_sklearn {M ρ τ ω : Type} (m : ℕ → Transformer M ρ τ ω) (k : ℕ) (train : List ρ) (target : τ) :
    (∀ test, extract m 0 train target test = .error .assertion) ∧
    (0 < k → ∃ f : ρ → ω, ∀ test, extract m k train target test = .ok (train.map f, test.map f)) := by
  refine ⟨fun test => if_pos rfl, fun hk => ⟨(m k).transform ((m k).fit train target), fun test => ?_⟩⟩
  unfold extract
  rw [if_neg (by omega)]

/-- Two features, one of them constant; the data are cleaned and scaled.  With test data there is a result, without them an exception. -/
example : let train : Fin 2 → Fin 2 → ℝ := fun i j => if j = 0 then (if i = 0 then 0 else 2) else 5
    let svd : (ε : Type) → (ε → Fin 2 → ℝ) → Svd ε := fun _ _ => ⟨[fun _ => 1], [1]⟩
    (∃ r : Result (Fin 2) (Fin 2), catlearnPca svd 1 train (some train) true true = .ok r) ∧
      ∃ e, catlearnPca (κ := Fin 2) svd 1 train none true true = .error e := by
  refine ⟨?_, C258_no_test_violated _ _ _ _⟩
  simp only [whole_rows]
  exact ⟨_, rfl⟩

end CatLearn.Pca
