import Verif.Model.RegFit
import Verif.Lemmas.Py
import Mathlib.Tactic.Linarith
import Mathlib.Tactic.NormNum

/-!
# Feature selection with the models of scikit-learn (C229, C230)
-/

namespace CatLearn.RegFit

open CatLearn CatLearn.Screen CatLearn.Err

private theorem order_perm (v : List ℝ) : (orderByAbs v).Perm (List.range v.length) := sortDesc_perm _ _

private theorem nonzero_eq (c : List ℝ) : nonzero c = (c.filter fun x => decide (x ≠ 0)).length := by
  unfold nonzero
  have := List.length_eq_length_filter_add (l := c) fun x => decide (x = 0)
  have h2 : (c.filter fun x => !decide (x = 0)) = c.filter fun x => decide (x ≠ 0) := by
    congr 1; funext x; simp
  rw [h2] at this
  omega

/-- C229, in part.  With a size, the accepted and the rejected features are all features, each once; there are as many accepted ones as
requested, or all of them; they come in order of decreasing absolute coefficients, and no rejected feature has a larger one. -/
theorem C229_partition_partial (s : Sklearn) (a : Args) (n : ℕ) (hn : a.size = some n) (r : Selected)
    (h : featureSelect s a = .ok r) :
    (r.accepted ++ r.rejected).Perm (List.range r.coeff.length) ∧ r.accepted.length = min n r.coeff.length ∧
    (r.accepted ++ r.rejected).Pairwise (fun i j => |r.coeff.getD j 0| ≤ |r.coeff.getD i 0|) := by
  unfold featureSelect at h
  split at h
  · cases h
  · rename_i c p hc
    split at h
    · cases h
    · rw [hn] at h
      cases h
      refine ⟨by rw [List.take_append_drop]; exact order_perm c, ?_, ?_⟩
      · rw [List.length_take, (order_perm c).length_eq, List.length_range]
      · rw [List.take_append_drop]
        exact sortDesc_pairwise _ _

/-- C229 is violated by default: without a size every feature is accepted and every feature is rejected. -/
theorem C229_default_size_violated (s : Sklearn) (a : Args) (hn : a.size = none) (r : Selected)
    (h : featureSelect s a = .ok r) :
    r.accepted = r.rejected ∧ r.accepted.Perm (List.range r.coeff.length) ∧ r.coeff ≠ [] := by
  unfold featureSelect at h
  split at h
  · cases h
  · rename_i c p hc
    split at h
    · cases h
    · rename_i hne
      rw [hn] at h
      cases h
      exact ⟨rfl, order_perm c, hne⟩

private theorem lineSearch_ok (s : Sklearn) (n : ℕ) : ∀ (l : List ℝ) (c : List ℝ), lineSearch s (some n) l = .ok c →
    ∃ pre α post, l = pre ++ α :: post ∧ c = s.lasso α ∧ n ≤ nonzero (s.lasso α) ∧
      ∀ β ∈ pre, nonzero (s.lasso β) < n := by
  intro l
  induction l with
  | nil => intro c h; simp [lineSearch] at h
  | cons α l ih =>
    intro c h
    rw [lineSearch] at h
    split at h
    · rename_i hα
      cases h
      exact ⟨[], α, l, rfl, rfl, hα, by simp⟩
    · rename_i hα
      obtain ⟨pre, β, post, h1, h2, h3, h4⟩ := ih c h
      refine ⟨α :: pre, β, post, by rw [h1]; rfl, h2, h3, ?_⟩
      intro γ hγ
      rcases List.mem_cons.mp hγ with rfl | hγ
      · omega
      · exact h4 γ hγ

private theorem lineSearch_none (s : Sklearn) (n : ℕ) : ∀ l : List ℝ, (∀ α ∈ l, nonzero (s.lasso α) < n) →
    lineSearch s (some n) l = .error .name := by
  intro l
  induction l with
  | nil => intro _; rfl
  | cons α l ih =>
    intro h
    rw [lineSearch]
    rw [if_neg (by have := h α (by simp); omega)]
    exact ih fun β hβ => h β (by simp [hβ])

/-- Among the positions in order of decreasing absolute values, as many of the first ones as there are non-zero values are non-zero. -/
private theorem take_nonzero (c : List ℝ) (n : ℕ) (hn : n ≤ nonzero c) :
    ∀ i ∈ (orderByAbs c).take n, c.getD i 0 ≠ 0 := by
  intro i hi h0
  obtain ⟨k, hk, rfl⟩ := List.mem_iff_getElem.mp hi
  have hkn : k < n := by simp at hk; omega
  have hkl : k < (orderByAbs c).length := by simp at hk; omega
  rw [List.getElem_take] at h0
  -- all positions from `k` on have the value zero
  have hz : ∀ j ∈ (orderByAbs c).drop k, c.getD j 0 = 0 := by
    intro j hj
    obtain ⟨m, hm, rfl⟩ := List.mem_iff_getElem.mp hj
    rw [List.getElem_drop]
    have hml : k + m < (orderByAbs c).length := by simp at hm; omega
    rcases Nat.eq_zero_or_pos m with rfl | hm0
    · simpa using h0
    · have := List.pairwise_iff_getElem.mp (sortDesc_pairwise (fun i => |c.getD i 0|) (List.range c.length)) k (k + m) hkl hml
        (by omega)
      have hle : |c.getD ((orderByAbs c)[k + m]) 0| ≤ |c.getD ((orderByAbs c)[k]) 0| := this
      rw [h0, abs_zero] at hle
      exact abs_eq_zero.mp (le_antisymm hle (abs_nonneg _))
  have hcount : nonzero c = ((orderByAbs c).filter fun i => decide (c.getD i 0 ≠ 0)).length := by
    rw [nonzero_eq]
    have e1 : c = (List.range c.length).map fun i => c.getD i 0 := by
      apply List.ext_getElem (by simp)
      intro i h1 h2
      simp [List.getD_eq_getElem?_getD, h1]
    have e2 : (c.filter fun x => decide (x ≠ 0)).length =
        ((List.range c.length).filter fun i => decide (c.getD i 0 ≠ 0)).length := by
      conv_lhs => rw [e1]
      rw [List.filter_map, List.length_map]
      rfl
    rw [e2]
    exact (((order_perm c).filter _).length_eq).symm
  have hsplit : ((orderByAbs c).filter fun i => decide (c.getD i 0 ≠ 0)).length ≤ k := by
    conv_lhs => rw [← List.take_append_drop k (orderByAbs c)]
    rw [List.filter_append, List.length_append]
    have h1 : ((orderByAbs c).drop k).filter (fun i => decide (c.getD i 0 ≠ 0)) = [] := by
      rw [List.filter_eq_nil_iff]
      intro j hj
      simpa using hz j hj
    rw [h1]
    have := List.length_filter_le (fun i => decide (c.getD i 0 ≠ 0)) ((orderByAbs c).take k)
    simp at this ⊢
    omega
  omega

/-- C229, line search in part.  If the line search returns, the coefficients are those of the first, that is largest, penalty which
leaves at least the requested number of features, and every accepted feature is one of those. -/
theorem C229_line_search_partial (s : Sklearn) (a : Args) (n : ℕ) (hn : a.size = some n) (hm : a.method = .lasso)
    (hl : a.lineSearch = true) (l : List ℝ) (ha : a.alphas = some l) (r : Selected) (h : featureSelect s a = .ok r) :
    (∃ pre α post, l = pre ++ α :: post ∧ r.coeff = s.lasso α ∧ ∀ β ∈ pre, nonzero (s.lasso β) < n) ∧
    (∀ i ∈ r.accepted, r.coeff.getD i 0 ≠ 0) ∧ n ≤ nonzero r.coeff := by
  unfold featureSelect coefficients at h
  rw [hm, ha, hn, if_pos hl] at h
  simp only at h
  cases hs : lineSearch s (some n) l with
  | error e => rw [hs] at h; cases h
  | ok c =>
    obtain ⟨pre, α, post, h1, h2, h3, h4⟩ := lineSearch_ok s n l c hs
    rw [hs] at h
    simp only at h
    split at h
    · cases h
    · cases h
      refine ⟨⟨pre, α, post, h1, h2, h4⟩, ?_, ?_⟩
      · simp only
        rw [h2]
        exact take_nonzero (s.lasso α) n h3
      · simp only
        rw [h2]
        exact h3

/-- C229 is violated: if no penalty of the list leaves enough features the search does not return the best model it has seen but raises
NameError; the same happens for an unknown method. -/
theorem C229_not_found_violated (s : Sklearn) (a : Args) (n : ℕ) (hn : a.size = some n) (hm : a.method = .lasso)
    (hl : a.lineSearch = true) (l : List ℝ) (ha : a.alphas = some l) (h : ∀ α ∈ l, nonzero (s.lasso α) < n) :
    featureSelect s a = .error .name := by
  unfold featureSelect coefficients
  rw [hm, ha, hn, if_pos hl]
  simp only
  rw [lineSearch_none s n l h]

/-- C229 is violated for the default arguments of the line search: without a size, or without a number of steps, it raises TypeError. -/
theorem C229_line_search_defaults_violated (s : Sklearn) (a : Args) (hm : a.method = .lasso) (hl : a.lineSearch = true)
    (h : a.alphas = none ∨ (a.size = none ∧ ∃ l, a.alphas = some l ∧ l ≠ [])) : featureSelect s a = .error .type := by
  unfold featureSelect coefficients
  rw [hm, if_pos hl]
  rcases h with h | ⟨h1, l, h2, h3⟩
  · rw [h]
  · rw [h1, h2]
    cases l with
    | nil => exact absurd rfl h3
    | cons α l => rfl

/-- The models of the examples: two features, of which the penalty 1 leaves none and the penalty 0 one. -/
noncomputable def sample : Sklearn := ⟨fun _ => [1, -2], fun _ => [1], fun α => if α = 0 then [0, -3] else [0, 0]⟩

private theorem order_sample : orderByAbs [0, -3] = [1, 0] := by
  simp [orderByAbs, sortDesc, List.range_succ, List.insertionSort, List.orderedInsert]

example : ∃ r, featureSelect sample ⟨.lasso, false, [], some 1, true, some [1, 0]⟩ = .ok r ∧ r.accepted = [1] ∧ r.rejected = [0] := by
  have h1 : nonzero [0, 0] = 0 := by simp [nonzero]
  have h2 : nonzero [0, -3] = 1 := by rw [nonzero_eq]; simp [List.filter_cons]
  refine ⟨⟨[0, -3], none, [1], [0]⟩, ?_, rfl, rfl⟩
  simp [featureSelect, coefficients, lineSearch, sample, h1, h2, order_sample]

/-- C230 is violated: the error requested with `predict=True` is never returned.  `get_error` has no entry `average`, and its
dictionary returns an empty list for it. -/
theorem C230_prediction_violated (s : Sklearn) (a : Args) (hp : a.predict = true) (r : Selected)
    (h : featureSelect s a = .ok r) : ∀ x, r.prediction ≠ some (.value x) := by
  have hent : ∀ e : Errors, entry e "average" = .emptyList := by
    intro e
    simp [entry, scalarEntries, List.lookup]
  have hpe : ∀ m p, predictionError s a m = .ok p → ∀ x, p ≠ some (.value x) := by
    intro m p hm x
    unfold predictionError at hm
    rw [if_pos hp] at hm
    split at hm
    · cases hm
    · cases hm
      rw [hent]
      simp
  have hco : ∀ c p, coefficients s a = .ok (c, p) → ∀ x, p ≠ some (.value x) := by
    intro c p hc x
    unfold coefficients at hc
    split at hc
    · cases hc
    · split at hc
      · split at hc
        · cases hc
        · split at hc
          · cases hc
          · cases hc; simp
      · split at hc
        · cases hc
        · rename_i q hq
          cases hc
          exact hpe _ _ hq x
    · split at hc
      · cases hc
      · rename_i q hq
        cases hc
        exact hpe _ _ hq x
  unfold featureSelect at h
  split at h
  · cases h
  · rename_i c p hc
    split at h
    · cases h
    · split at h <;> cases h <;> exact hco c p hc

/-- C230, in part: without `predict` no error is reported; with it the test data are at least compared, lists of different
lengths are refused. -/
theorem C230_prediction_partial (s : Sklearn) (a : Args) (hm : a.method = .ridge ∨ a.method = .elastic ∨ a.method = .lasso)
    (hl : a.method = .lasso → a.lineSearch = false) :
    (a.predict = false → ∀ r, featureSelect s a = .ok r → r.prediction = none) ∧
    (a.predict = true → (s.pred a.method).length ≠ a.testTarget.length → featureSelect s a = .error .assertion) := by
  constructor
  · intro hp r h
    have hpe : ∀ m, predictionError s a m = .ok none := fun m => by unfold predictionError; rw [hp]; simp
    unfold featureSelect coefficients at h
    rcases hm with h1 | h1 | h1
    · rw [h1] at h; simp only [hpe] at h
      split at h
      · cases h
      · split at h <;> cases h <;> rfl
    · rw [h1] at h; simp only [hpe] at h
      split at h
      · cases h
      · split at h <;> cases h <;> rfl
    · rw [h1, hl h1] at h; simp only [hpe, Bool.false_eq_true, if_false] at h
      split at h
      · cases h
      · split at h <;> cases h <;> rfl
  · intro hp hlen
    have hpe : predictionError s a a.method = .error .assertion := by
      unfold predictionError
      rw [if_pos hp]
      unfold getError
      rw [if_pos hlen]
    unfold featureSelect coefficients
    rcases hm with h1 | h1 | h1
    · rw [h1] at hpe ⊢; simp only [hpe]
    · rw [h1] at hpe ⊢; simp only [hpe]
    · rw [hl h1]
      rw [h1] at hpe ⊢; simp [hpe]

example : ∃ r, featureSelect sample ⟨.ridge, true, [2], some 1, false, none⟩ = .ok r :=
  ⟨⟨[1, -2], some (entry _ "average"), (orderByAbs [1, -2]).take 1, (orderByAbs [1, -2]).drop 1⟩, by
    simp [featureSelect, coefficients, predictionError, getError, sample]; rfl⟩

end CatLearn.RegFit
