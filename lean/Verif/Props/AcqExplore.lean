import Verif.Model.Acquisition

/-!
# What kappa does to the ranking by upper confidence bound (C315)
-/

namespace CatLearn.Acq

open CatLearn

/-- Candidate `i` has a score, and none has a higher one. -/
def Best (s : List (Option ℝ)) (i : ℕ) : Prop :=
  ∃ a, s[i]? = some (some a) ∧ ∀ (j : ℕ) b, s[j]? = some (some b) → b ≤ a

private theorem rank_ucb {targets preds uncs : List ℝ} {o : Objective} {kappa : ℝ} {s : List (Option ℝ)}
    (h : rank (fun _ p u => ucb p u o kappa) targets preds uncs o = .ok s) (i : ℕ) (a : ℝ) (hi : s[i]? = some (some a)) :
    ∃ p u, preds[i]? = some p ∧ uncs[i]? = some u ∧ a = -p + kappa * u := by
  unfold rank at h
  split at h
  · cases h
  · cases h
    rw [List.getElem?_zipWith_eq_some] at hi
    obtain ⟨p, u, h1, h2, h3⟩ := hi
    refine ⟨p, u, h1, h2, ?_⟩
    cases o <;> simp only [ucb, Option.some.injEq, reduceCtorEq] at h3 <;> linarith

private theorem rank_score {targets preds uncs : List ℝ} {o : Objective} {kappa : ℝ} {s : List (Option ℝ)}
    (h : rank (fun _ p u => ucb p u o kappa) targets preds uncs o = .ok s) (ho : o = .max ∨ o = .min) (i : ℕ) (p u : ℝ) (hp : preds[i]? = some p)
    (hu : uncs[i]? = some u) : s[i]? = some (some (-p + kappa * u)) := by
  unfold rank at h
  split at h
  · cases h
  · cases h
    rw [List.getElem?_zipWith_eq_some]
    refine ⟨p, u, hp, hu, ?_⟩
    rcases ho with rfl | rfl <;> simp only [ucb, Option.some.injEq]
    ring

/-- What remains of C315 for both objectives and, as the predictions are concerned, for 'min': of two values of kappa the larger one puts a candidate first that is at least as
uncertain and, minimising, has no lower prediction. -/
theorem C315_explore_partial (targets preds uncs : List ℝ) (o : Objective) (kappa kappa' : ℝ) (hk : kappa < kappa') (s s' : List (Option ℝ))
    (h : rank (fun _ p u => ucb p u o kappa) targets preds uncs o = .ok s) (h' : rank (fun _ p u => ucb p u o kappa') targets preds uncs o = .ok s')
    (i j : ℕ) (hi : Best s i) (hj : Best s' j) :
    ∃ p u p' u', preds[i]? = some p ∧ uncs[i]? = some u ∧ preds[j]? = some p' ∧ uncs[j]? = some u' ∧ u ≤ u' ∧ (0 ≤ kappa → o = .min → p ≤ p') := by
  obtain ⟨a, ha, hmax⟩ := hi
  obtain ⟨b, hb, hmax'⟩ := hj
  obtain ⟨p, u, h1, h2, h3⟩ := rank_ucb h i a ha
  obtain ⟨p', u', h1', h2', h3'⟩ := rank_ucb h' j b hb
  have ho : o = .max ∨ o = .min := by
    unfold rank at h
    split at h
    · cases h
    · cases h
      rw [List.getElem?_zipWith_eq_some] at ha
      obtain ⟨_, _, -, -, h3⟩ := ha
      cases o <;> simp [ucb] at h3 ⊢
  have q := hmax j _ (rank_score h ho j p' u' h1' h2')
  have q' := hmax' i _ (rank_score h' ho i p u h1 h2)
  rw [h3] at q
  rw [h3'] at q'
  have hu : u ≤ u' := by
    by_contra hc
    have := mul_pos (sub_pos.2 hk) (sub_pos.2 (not_le.1 hc))
    nlinarith
  exact ⟨p, u, p', u', h1, h2, h1', h2', hu, fun h0 _ => by nlinarith [mul_nonneg h0 (sub_nonneg.2 hu)]⟩

/-- What remains of C315: with kappa zero, minimising puts the lowest prediction first. -/
theorem C315_exploit_partial (targets preds uncs : List ℝ) (hl : preds.length = uncs.length) (s : List (Option ℝ))
    (h : rank (fun _ p u => ucb p u .min 0) targets preds uncs .min = .ok s) (i : ℕ) :
    Best s i ↔ ∃ p, preds[i]? = some p ∧ ∀ q ∈ preds, p ≤ q := by
  constructor
  · rintro ⟨a, ha, hmax⟩
    obtain ⟨p, u, h1, h2, h3⟩ := rank_ucb h i a ha
    refine ⟨p, h1, fun q hq => ?_⟩
    obtain ⟨j, hj, rfl⟩ := List.getElem_of_mem hq
    have := hmax j _ (rank_score h (Or.inr rfl) j _ _ (List.getElem?_eq_getElem hj) (List.getElem?_eq_getElem (hl ▸ hj)))
    rw [h3] at this
    linarith
  · rintro ⟨p, hp, hmin⟩
    obtain ⟨hi, -⟩ := List.getElem?_eq_some_iff.1 hp
    refine ⟨_, rank_score h (Or.inr rfl) i p _ hp (List.getElem?_eq_getElem (hl ▸ hi)), fun j b hb => ?_⟩
    obtain ⟨q, u, h1, h2, rfl⟩ := rank_ucb h j b hb
    have := hmin q (List.mem_of_getElem? h1)
    linarith

/-- C315: if kappa is large, a candidate that is more uncertain than all others comes first, for both objectives. -/
theorem C315_most_uncertain (targets preds uncs : List ℝ) (o : Objective) (ho : o = .max ∨ o = .min) (i : ℕ) (p u : ℝ) (hp : preds[i]? = some p)
    (hu : uncs[i]? = some u) (hmax : ∀ (j : ℕ) v, j ≠ i → uncs[j]? = some v → v < u) :
    ∃ k0 : ℝ, ∀ kappa ≥ k0, ∀ s, rank (fun _ p u => ucb p u o kappa) targets preds uncs o = .ok s → Best s i := by
  have key : ∃ k0 : ℝ, ∀ kappa ≥ k0, ∀ (j : ℕ) q v, preds[j]? = some q → uncs[j]? = some v → -q + kappa * v ≤ -p + kappa * u := by
    have each : ∀ j : ℕ, ∃ k0 : ℝ, ∀ kappa ≥ k0, ∀ q v, preds[j]? = some q → uncs[j]? = some v → -q + kappa * v ≤ -p + kappa * u := by
      intro j
      by_cases hj : j = i
      · subst hj
        refine ⟨0, fun kappa _ q v h1 h2 => ?_⟩
        rw [hp] at h1
        rw [hu] at h2
        cases h1
        cases h2
        exact le_rfl
      · by_cases hex : ∃ q v, preds[j]? = some q ∧ uncs[j]? = some v
        · obtain ⟨q, v, h1, h2⟩ := hex
          have hlt := sub_pos.2 (hmax j v hj h2)
          refine ⟨(p - q) / (u - v), fun kappa hk q' v' h1' h2' => ?_⟩
          rw [h1] at h1'
          rw [h2] at h2'
          cases h1'
          cases h2'
          rw [ge_iff_le, div_le_iff₀ hlt] at hk
          linarith
        · exact ⟨0, fun kappa _ q v h1 h2 => absurd ⟨q, v, h1, h2⟩ hex⟩
    choose k hk using each
    obtain ⟨M, hM⟩ := (Set.toFinite (Set.range fun j : Fin preds.length => k j)).bddAbove
    refine ⟨M, fun kappa hkap j q v h1 h2 => hk j kappa ?_ q v h1 h2⟩
    obtain ⟨hj, -⟩ := List.getElem?_eq_some_iff.1 h1
    exact (hM ⟨⟨j, hj⟩, rfl⟩).trans hkap
  obtain ⟨k0, h0⟩ := key
  refine ⟨k0, fun kappa hk s h => ⟨_, rank_score h ho i p u hp hu, fun j b hb => ?_⟩⟩
  obtain ⟨q, v, h1, h2, rfl⟩ := rank_ucb h j b hb
  exact h0 kappa hk j q v h1 h2

example : ([1, 3] : List ℝ)[1]? = some 3 ∧ ([1, 2] : List ℝ)[1]? = some 2 ∧ ∀ (j : ℕ) (v : ℝ), j ≠ 1 → ([1, 2] : List ℝ)[j]? = some v → v < 2 := by
  refine ⟨rfl, rfl, fun j v hj h => ?_⟩
  match j with
  | 0 => simp at h; linarith
  | 1 => exact absurd rfl hj
  | j + 2 => simp at h

/-- C315 does not hold for 'max' as the predictions are concerned (see C34): with kappa zero the lowest prediction always comes first, so that with two different predictions
the better one does not. -/
theorem C315_exploit_violated :
    (∀ (targets preds uncs : List ℝ) (_ : preds.length = uncs.length) (s : List (Option ℝ))
      (_ : rank (fun _ p u => ucb p u .max 0) targets preds uncs .max = .ok s) (i : ℕ), Best s i → ∃ p, preds[i]? = some p ∧ ∀ q ∈ preds, p ≤ q) ∧
    ∃ s, rank (fun _ p u => ucb p u .max 0) [0] [1, 3] [1, 1] .max = .ok s ∧ Best s 0 ∧ ¬ Best s 1 := by
  constructor
  · intro targets preds uncs hl s h i hi
    obtain ⟨a, ha, hmax⟩ := hi
    obtain ⟨p, u, h1, h2, h3⟩ := rank_ucb h i a ha
    refine ⟨p, h1, fun q hq => ?_⟩
    obtain ⟨j, hj, rfl⟩ := List.getElem_of_mem hq
    have := hmax j _ (rank_score h (Or.inl rfl) j _ _ (List.getElem?_eq_getElem hj) (List.getElem?_eq_getElem (hl ▸ hj)))
    rw [h3] at this
    linarith
  · refine ⟨[some (-(1 - 0 * 1)), some (-(3 - 0 * 1))], rfl, ⟨_, rfl, ?_⟩, ?_⟩
    · intro j b hb
      match j with
      | 0 => simp at hb; linarith
      | 1 => simp at hb; linarith
      | j + 2 => simp at hb
    · rintro ⟨a, ha, hmax⟩
      have := hmax 0 _ rfl
      simp at ha
      linarith

/-- Two candidates, the second more uncertain: with kappa 1 the first comes first, with kappa 3 the second. -/
example : ∃ s s', rank (fun _ p u => ucb p u .min 1) [5] [1, 3] [1, 2] .min = .ok s ∧ rank (fun _ p u => ucb p u .min 3) [5] [1, 3] [1, 2] .min = .ok s' ∧
    Best s 0 ∧ Best s' 1 ∧ ¬ Best s 1 := by
  refine ⟨[some (-1 + 1 * 1), some (-3 + 1 * 2)], [some (-1 + 3 * 1), some (-3 + 3 * 2)], rfl, rfl, ⟨_, rfl, ?_⟩, ⟨_, rfl, ?_⟩, ?_⟩
  · intro j b hb
    match j with
    | 0 => simp at hb; linarith
    | 1 => simp at hb; linarith
    | j + 2 => simp at hb
  · intro j b hb
    match j with
    | 0 => simp at hb; linarith
    | 1 => simp at hb; linarith
    | j + 2 => simp at hb
  · rintro ⟨a, ha, hmax⟩
    have := hmax 0 _ rfl
    simp at ha
    linarith

end CatLearn.Acq
