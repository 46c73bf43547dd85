import Verif.Model.Curve
import Mathlib.Tactic.Linarith
import Mathlib.Tactic.Positivity
import Mathlib.Tactic.FieldSimp

/-!
# C250: refining the penalty of the lasso
-/

namespace CatLearn.Curve

open CatLearn

/-- The penalties inspected between `alpha` and `upper` times `alpha`. -/
noncomputable def tried (upper alpha : ℝ) (splits i : ℕ) : ℝ := upper * alpha - i * ((upper - 1) * alpha / (splits - 1 : ℕ))

private theorem grid_eq (upper alpha : ℝ) (splits : ℕ) :
    Ridge.linspace (upper * alpha) alpha splits = (List.range splits).map (tried upper alpha splits) := by
  unfold Ridge.linspace tried
  apply List.map_congr_left
  intro i _
  ring

private theorem tried_bounds (upper alpha : ℝ) (splits i : ℕ) (hu : 1 ≤ upper) (ha : 0 ≤ alpha) (hi : i < splits) :
    alpha ≤ tried upper alpha splits i ∧ tried upper alpha splits i ≤ upper * alpha := by
  unfold tried
  have h0 : 0 ≤ (upper - 1) * alpha := mul_nonneg (by linarith) ha
  constructor
  · rcases Nat.eq_zero_or_pos i with rfl | hpos
    · simp
      nlinarith
    · have hs : (0 : ℝ) < (splits - 1 : ℕ) := by
        have : 0 < splits - 1 := by omega
        exact_mod_cast this
      have hle : (i : ℝ) ≤ (splits - 1 : ℕ) := by
        have : i ≤ splits - 1 := by omega
        exact_mod_cast this
      have : (i : ℝ) * ((upper - 1) * alpha / (splits - 1 : ℕ)) ≤ (upper - 1) * alpha := by
        rw [← mul_div_assoc, div_le_iff₀ hs]
        nlinarith
      linarith
  · have : 0 ≤ (i : ℝ) * ((upper - 1) * alpha / (splits - 1 : ℕ)) := by positivity
    linarith

private theorem tried_anti (upper alpha : ℝ) (splits i j : ℕ) (hu : 1 ≤ upper) (ha : 0 ≤ alpha) (hij : i ≤ j) :
    tried upper alpha splits j ≤ tried upper alpha splits i := by
  unfold tried
  have h0 : 0 ≤ (upper - 1) * alpha / (splits - 1 : ℕ) := div_nonneg (mul_nonneg (by linarith) ha) (by positivity)
  have : (i : ℝ) ≤ j := by exact_mod_cast hij
  nlinarith

/-- C250: a refinement ends with a penalty that is at least the one found before, at most the bound of the search, and still
selects the requested number of features. -/
theorem C250_refined (count : ℝ → ℕ) (feat splits refsteps : ℕ) (upper alpha : ℝ) (hs : 0 < splits) (hu : 1 ≤ upper)
    (ha : 0 ≤ alpha) (hc : count alpha = feat) :
    ∃ a, alphaRefinement count feat splits upper refsteps alpha = .ok a ∧ count a = feat ∧ alpha ≤ a ∧
      a ≤ upper ^ refsteps * alpha := by
  induction refsteps generalizing alpha with
  | zero => exact ⟨alpha, rfl, hc, le_rfl, by simp⟩
  | succ k ih =>
    unfold alphaRefinement
    rw [if_neg (by omega)]
    cases hf : alphaFinder count (Ridge.linspace (upper * alpha) alpha splits) feat with
    | none =>
      obtain ⟨a, h1, h2, h3, h4⟩ := ih alpha ha hc
      refine ⟨a, h1, h2, h3, h4.trans ?_⟩
      have : (0:ℝ) ≤ upper ^ k * alpha := by positivity
      rw [pow_succ]
      nlinarith
    | some b =>
      rw [alphaFinder] at hf
      have hb := List.find?_some hf
      have hmem := List.mem_of_find?_eq_some hf
      rw [grid_eq] at hmem
      obtain ⟨i, hi, rfl⟩ := List.mem_map.mp hmem
      obtain ⟨l1, l2⟩ := tried_bounds upper alpha splits i hu ha (List.mem_range.mp hi)
      obtain ⟨a, h1, h2, h3, h4⟩ := ih _ (ha.trans l1) (by simpa using hb)
      refine ⟨a, h1, h2, l1.trans h3, h4.trans ?_⟩
      have : (0:ℝ) ≤ upper ^ k := by positivity
      rw [pow_succ, mul_assoc]
      exact mul_le_mul_of_nonneg_left l2 this

example : ∃ (count : ℝ → ℕ) (alpha : ℝ), 0 ≤ alpha ∧ count alpha = 2 ∧ count (2 * alpha) ≠ 2 :=
  ⟨fun a => if a ≤ 1 then 2 else 1, 1, by norm_num, by norm_num, by norm_num⟩

/-- C250: with one step (the default), the result is the largest of the penalties inspected that selects the requested number of
features; if there is none, the penalty found before. -/
theorem C250_largest (count : ℝ → ℕ) (feat splits : ℕ) (upper alpha : ℝ) (hs : 0 < splits) (hu : 1 ≤ upper) (ha : 0 ≤ alpha) :
    ∃ a, alphaRefinement count feat splits upper 1 alpha = .ok a ∧
      (∀ i < splits, count (tried upper alpha splits i) = feat → tried upper alpha splits i ≤ a) ∧
      ((∃ i < splits, count (tried upper alpha splits i) = feat) →
        ∃ i < splits, a = tried upper alpha splits i ∧ count a = feat) ∧
      ((∀ i < splits, count (tried upper alpha splits i) ≠ feat) → a = alpha) := by
  unfold alphaRefinement
  rw [if_neg (by omega)]
  cases hf : alphaFinder count (Ridge.linspace (upper * alpha) alpha splits) feat with
  | none =>
    rw [alphaFinder, grid_eq, List.find?_eq_none] at hf
    have hn : ∀ i < splits, count (tried upper alpha splits i) ≠ feat := by
      intro i hi
      have := hf (tried upper alpha splits i) (List.mem_map.mpr ⟨i, List.mem_range.mpr hi, rfl⟩)
      simpa using this
    exact ⟨alpha, rfl, fun i hi h => absurd h (hn i hi), fun ⟨i, hi, h⟩ => absurd h (hn i hi), fun _ => rfl⟩
  | some b =>
    rw [alphaFinder, grid_eq] at hf
    obtain ⟨hb, k, hk, hbk, hbefore⟩ := List.find?_eq_some_iff_getElem.mp hf
    have hk' : k < splits := by simpa using hk
    simp only [List.getElem_map, List.getElem_range] at hbk hbefore
    subst hbk
    refine ⟨_, rfl, ?_, fun _ => ⟨k, hk', rfl, by simpa using hb⟩, fun h => absurd (by simpa using hb) (h k hk')⟩
    intro i hi hci
    apply tried_anti upper alpha splits k i hu ha
    by_contra hlt
    have := hbefore i (by omega)
    simp [hci] at this

/-- C250: without steps nothing is done, without penalties to inspect the call fails. -/
theorem C250_degenerate (count : ℝ → ℕ) (feat splits refsteps : ℕ) (upper alpha : ℝ) :
    alphaRefinement count feat splits upper 0 alpha = .ok alpha ∧
      alphaRefinement count feat 0 upper (refsteps + 1) alpha = .error .name :=
  ⟨rfl, by simp [alphaRefinement]⟩

end CatLearn.Curve
