import Verif.Props.Elimination
import Mathlib.Tactic.FieldSimp
import Mathlib.Data.Real.Sqrt
import Mathlib.Algebra.BigOperators.Ring.List

/-!
C29: perturbed features and units.
-/

namespace CatLearn.Props

open CatLearn CatLearn.Elim

/-- The same data with feature `f` in other units. -/
def otherUnits (f : Nat) (a b : ℝ) (X : List (List ℝ)) : List (List ℝ) := X.map fun r => r.modify f fun x => a * x + b

private theorem getCol_units (f : Nat) (a b : ℝ) (X : List (List ℝ)) :
    getCol (otherUnits f a b X) f = (getCol X f).map fun x => a * x + b := by
  unfold getCol otherUnits
  rw [List.filterMap_map, List.map_filterMap]
  congr 1
  funext r
  simp [List.getElem?_modify]

private theorem setCol_units (f : Nat) (a b : ℝ) (X : List (List ℝ)) (c : List ℝ) :
    setCol (otherUnits f a b X) f (c.map fun x => a * x + b) = otherUnits f a b (setCol X f c) := by
  unfold setCol otherUnits
  rw [List.map_zipWith, List.zipWith_map]
  congr 1
  funext r v
  apply List.ext_getElem?
  intro i
  by_cases h : f = i
  · subst h
    by_cases hl : f < r.length
    · rw [List.getElem?_set_self (by simpa using hl), List.getElem?_modify, List.getElem?_set_self hl]
      simp
    · rw [List.getElem?_eq_none (by simpa using hl), List.getElem?_eq_none (by simpa using hl)]
  · rw [List.getElem?_set_ne h, List.getElem?_modify, List.getElem?_modify, List.getElem?_set_ne h]

private theorem sum_units (a b : ℝ) (c : List ℝ) : (c.map fun x => a * x + b).sum = a * c.sum + c.length * b := by
  induction c with
  | nil => simp
  | cons x c ih => rw [List.map_cons, List.sum_cons, ih, List.sum_cons, List.length_cons]; push_cast; ring

private theorem colStats_units (a b : ℝ) (ha : 0 ≤ a) (c : List ℝ) (hc : c ≠ []) :
    colStats Real.sqrt (c.map fun x => a * x + b) =
      (a * (colStats Real.sqrt c).1 + b, a * (colStats Real.sqrt c).2) := by
  have hn : (c.length : ℝ) ≠ 0 := by
    have := List.length_pos_iff.mpr hc
    positivity
  have hm : (c.map fun x => a * x + b).sum / ((c.map fun x => a * x + b).length : ℝ) = a * (c.sum / c.length) + b := by
    rw [sum_units, List.length_map]
    field_simp
  unfold colStats
  simp only [hm]
  refine Prod.ext rfl ?_
  simp only [List.map_map, List.length_map]
  have : ((fun x => (x - (a * (c.sum / c.length) + b)) ^ 2) ∘ fun x => a * x + b) =
      fun x => a ^ 2 * (x - c.sum / c.length) ^ 2 := by
    funext x
    simp only [Function.comp_apply]
    ring
  rw [this, List.sum_map_mul_left, mul_div_assoc, Real.sqrt_mul (sq_nonneg a), Real.sqrt_sq ha]

/-- C29: perturbing a feature and changing its units (`a x + b`, `a` not negative) commute, so the perturbed values do not depend
on the units: for an invariant feature, for a random one with the same draws, and for a shuffled one with the same
rearrangement. -/
theorem C29_units (f : Nat) (a b : ℝ) (ha : 0 ≤ a) (train test : List (List ℝ)) (d : Nat) (hf : f < d)
    (htr : ∀ r ∈ train, r.length = d) (hte : ∀ r ∈ test, r.length = d) (r1 r2 : List ℝ)
    (shuf1 shuf2 : List ℝ → List ℝ) (h1 : ∀ (l : List ℝ) (g : ℝ → ℝ), shuf1 (l.map g) = (shuf1 l).map g)
    (h2 : ∀ (l : List ℝ) (g : ℝ → ℝ), shuf2 (l.map g) = (shuf2 l).map g) :
    featureInvariance Real.sqrt f (otherUnits f a b train) (otherUnits f a b test) =
      (otherUnits f a b (featureInvariance Real.sqrt f train test).1,
        otherUnits f a b (featureInvariance Real.sqrt f train test).2) ∧
    featureRandomize Real.sqrt f (otherUnits f a b train) (otherUnits f a b test) r1 r2 =
      (otherUnits f a b (featureRandomize Real.sqrt f train test r1 r2).1,
        otherUnits f a b (featureRandomize Real.sqrt f train test r1 r2).2) ∧
    featureShuffle shuf1 shuf2 f (otherUnits f a b train) (otherUnits f a b test) =
      (otherUnits f a b (featureShuffle shuf1 shuf2 f train test).1,
        otherUnits f a b (featureShuffle shuf1 shuf2 f train test).2) := by
  have happ : otherUnits f a b train ++ otherUnits f a b test = otherUnits f a b (train ++ test) := by
    simp [otherUnits]
  refine ⟨?_, ?_, ?_⟩
  · by_cases he : train ++ test = []
    · obtain ⟨rfl, rfl⟩ := List.append_eq_nil_iff.mp he
      rfl
    · have hc : getCol (train ++ test) f ≠ [] := by
        have hall : ∀ r ∈ train ++ test, r.length = d := fun r hr => (List.mem_append.mp hr).elim (htr r) (hte r)
        intro h0
        have := getCol_length (train ++ test) f d hall hf
        rw [h0] at this
        exact he (List.length_eq_zero_iff.mp this.symm)
      unfold featureInvariance
      rw [happ, getCol_units, colStats_units a b ha _ hc]
      generalize colStats Real.sqrt (getCol (train ++ test) f) = ms
      simp only
      have key : ∀ X : List (List ℝ), List.replicate (otherUnits f a b X).length (a * ms.2 + (a * ms.1 + b)) =
          (List.replicate X.length (ms.2 + ms.1)).map fun x => a * x + b := by
        intro X
        rw [List.map_replicate]
        simp only [otherUnits, List.length_map]
        congr 1
        ring
      rw [key, key, setCol_units, setCol_units]
  · by_cases he : train ++ test = []
    · obtain ⟨rfl, rfl⟩ := List.append_eq_nil_iff.mp he
      simp [featureRandomize, otherUnits, setCol]
    · have hc : getCol (train ++ test) f ≠ [] := by
        have hall : ∀ r ∈ train ++ test, r.length = d := fun r hr => (List.mem_append.mp hr).elim (htr r) (hte r)
        intro h0
        have := getCol_length (train ++ test) f d hall hf
        rw [h0] at this
        exact he (List.length_eq_zero_iff.mp this.symm)
      unfold featureRandomize
      rw [happ, getCol_units, colStats_units a b ha _ hc]
      generalize colStats Real.sqrt (getCol (train ++ test) f) = ms
      simp only
      have key : ∀ r : List ℝ, (r.map fun x => x * (a * ms.2) + (a * ms.1 + b)) =
          (r.map fun x => x * ms.2 + ms.1).map fun x => a * x + b := by
        intro r
        rw [List.map_map]
        apply List.map_congr_left
        intro x _
        simp only [Function.comp_apply]
        ring
      rw [key, key, setCol_units, setCol_units]
  · unfold featureShuffle
    rw [getCol_units, getCol_units, h1, h2, setCol_units, setCol_units]

/-- C29: an invariant feature that did not vary keeps its value. -/
theorem C29_constant (f : Nat) (v : ℝ) (train test : List (List ℝ)) (hv : ∀ r ∈ train ++ test, r[f]? = some v) :
    featureInvariance Real.sqrt f train test = (train, test) := by
  by_cases he : train ++ test = []
  · obtain ⟨rfl, rfl⟩ := List.append_eq_nil_iff.mp he
    rfl
  · have hcol : getCol (train ++ test) f = List.replicate (train ++ test).length v := by
      unfold getCol
      rw [List.eq_replicate_iff]
      have : (train ++ test).filterMap (fun r => r[f]?) = (train ++ test).map fun _ => v := by
        rw [← List.filterMap_eq_map]
        exact List.filterMap_congr fun r hr => hv r hr
      rw [this]
      exact ⟨by simp, fun x hx => by obtain ⟨_, _, rfl⟩ := List.mem_map.mp hx; rfl⟩
    have hn : ((train ++ test).length : ℝ) ≠ 0 := by
      have := List.length_pos_iff.mpr he
      positivity
    have hst : colStats Real.sqrt (getCol (train ++ test) f) = (v, 0) := by
      unfold colStats
      rw [hcol]
      simp only [List.sum_replicate, List.length_replicate, List.map_replicate, nsmul_eq_mul]
      rw [mul_div_cancel_left₀ v hn]
      simp
    have key : ∀ X : List (List ℝ), (∀ r ∈ X, r[f]? = some v) → setCol X f (List.replicate X.length (0 + v)) = X := by
      intro X hX
      induction X with
      | nil => rfl
      | cons r X ih =>
        have h0 := ih fun r hr => hX r (by simp [hr])
        unfold setCol at h0 ⊢
        rw [List.length_cons, List.replicate_succ, List.zipWith_cons_cons, h0]
        congr 1
        have hr := hX r (by simp)
        apply List.ext_getElem?
        intro i
        by_cases hi : f = i
        · subst hi
          rw [hr, zero_add, List.getElem?_set_self (List.getElem?_eq_some_iff.mp hr).1]
        · rw [List.getElem?_set_ne hi]
    unfold featureInvariance
    rw [hst]
    simp only
    rw [key train fun r hr => hv r (by simp [hr]), key test fun r hr => hv r (by simp [hr])]

example : (∀ r ∈ ([[1, 2], [3, 2]] ++ [[5, 2]] : List (List ℝ)), r[1]? = some 2) := by
  intro r hr
  simp only [List.cons_append, List.nil_append, List.mem_cons, List.not_mem_nil, or_false] at hr
  rcases hr with rfl | rfl | rfl <;> rfl

example : ∀ (l : List ℝ) (g : ℝ → ℝ), List.reverse (l.map g) = (List.reverse l).map g := fun l g => List.map_reverse.symm

end CatLearn.Props
