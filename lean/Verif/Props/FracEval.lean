import Verif.Model.FracEval
import Verif.Props.FeatEng
import Verif.Lemmas.MapM
import Mathlib.Algebra.BigOperators.Group.Finset.Basic
import Mathlib.Algebra.BigOperators.Ring.List
import Mathlib.Algebra.Order.Field.Basic
import Mathlib.Tactic.FieldSimp
import Mathlib.Tactic.Positivity

/-!
# Numbers computed by `generate_features` (C220)
-/

namespace CatLearn.FracEval

open CatLearn CatLearn.FeatEng CatLearn.Spec CatLearn.Props CatLearn.MapM

/-- The number denoted by a fraction of two products of features. -/
def fracValue (p : List ℚ) (r : List Nat × List Nat) : ℚ :=
  (r.1.map fun i => p.getD i 0).prod / (r.2.map fun i => p.getD i 0).prod

private theorem getD_lt (p : List ℚ) (i : Nat) (h : i < p.length) : p.getD i 0 = p[i] := by
  simp [List.getElem?_eq_getElem h]

private theorem decodeKey_nil (le : ℚ → ℚ → Bool) (p : List ℚ) : decodeKey le p [] = 1 := by
  simp [decodeKey]

private theorem decodeKey_single (le : ℚ → ℚ → Bool) (p : List ℚ) (i : Nat) :
    decodeKey le p [i] = p.getD i 0 := by
  simp [decodeKey, tokenPow]

private theorem decodeKey_perm (le : ℚ → ℚ → Bool) (p : List ℚ) (key : List Nat) :
    decodeKey le p key = ((key.map fun i => p.getD i 0).dedup.map fun v =>
      tokenPow v ((key.map fun i => p.getD i 0).count v)).prod := by
  unfold decodeKey
  exact List.Perm.prod_eq ((List.mergeSort_perm _ le).map _)

private theorem decodeKey_eq (le : ℚ → ℚ → Bool) (p : List ℚ) (key : List Nat)
    (h : ∀ v ∈ key.map (fun i => p.getD i 0), tokenPow v ((key.map fun i => p.getD i 0).count v)
      = v ^ ((key.map fun i => p.getD i 0).count v)) :
    decodeKey le p key = (key.map fun i => p.getD i 0).prod := by
  rw [decodeKey_perm]
  set tr := key.map fun i => p.getD i 0
  rw [Finset.prod_list_count tr, show tr.toFinset = tr.dedup.toFinset by ext; simp,
    List.prod_toFinset _ (List.nodup_dedup tr)]
  apply congrArg
  apply List.map_congr_left
  intro v hv
  exact h v (List.mem_dedup.mp hv)

private theorem decodeKey_pos (le : ℚ → ℚ → Bool) (p : List ℚ) (hp : ∀ x ∈ p, 0 < x)
    (key : List Nat) (hk : ∀ i ∈ key, i < p.length) :
    decodeKey le p key = (key.map fun i => p.getD i 0).prod := by
  apply decodeKey_eq
  intro v hv
  obtain ⟨i, hi, rfl⟩ := List.mem_map.mp hv
  have h0 : 0 < p.getD i 0 := by
    rw [getD_lt p i (hk i hi)]
    exact hp _ (List.getElem_mem _)
  unfold tokenPow
  split
  · rename_i h; rw [h, pow_one]
  · rw [if_neg (not_lt.mpr h0.le)]

private theorem decodeKey_short (le : ℚ → ℚ → Bool) (p : List ℚ) (key : List Nat)
    (hk : key.length ≤ 1) :
    decodeKey le p key = (key.map fun i => p.getD i 0).prod := by
  match key, hk with
  | [], _ => simp [decodeKey_nil]
  | [i], _ => simp [decodeKey_single]

private theorem decodeKey_ne_zero (le : ℚ → ℚ → Bool) (p : List ℚ) (hp : ∀ x ∈ p, x ≠ 0)
    (key : List Nat) (hk : ∀ i ∈ key, i < p.length) : decodeKey le p key ≠ 0 := by
  rw [decodeKey_perm]
  rw [Ne, List.prod_eq_zero_iff, List.mem_map]
  rintro ⟨v, hv, h0⟩
  obtain ⟨i, hi, rfl⟩ := List.mem_map.mp (List.mem_dedup.mp hv)
  have hne : p.getD i 0 ≠ 0 := by
    rw [getD_lt p i (hk i hi)]
    exact hp _ (List.getElem_mem _)
  unfold tokenPow at h0
  split at h0
  · exact hne h0
  · split at h0
    · exact pow_ne_zero _ (neg_ne_zero.mpr hne) (neg_eq_zero.mp h0)
    · exact pow_ne_zero _ hne h0

/-- Membership in the list of fractions bounds indices and numbers of factors. -/
private theorem mem_bounds {n N D : Nat} {one : Bool} {fr : List (List Nat × List Nat)}
    (h : ReducedFractions n N D one fr) {r : List Nat × List Nat} (hr : r ∈ fr) :
    (∀ i ∈ r.1, i < n) ∧ (∀ i ∈ r.2, i < n) ∧ r.1.length ≤ N ∧ r.2.length ≤ D := by
  have := (h.2 (r.1 : Multiset Nat) (r.2 : Multiset Nat)).mp (List.mem_map.mpr ⟨r, hr, rfl⟩)
  obtain ⟨h1, h2, h3, h4, -⟩ := this
  exact ⟨fun i hi => h1 i (by simpa using hi), fun i hi => h2 i (by simpa using hi),
    by simpa using h3, by simpa using h4⟩

private theorem prod_ne_zero (p : List ℚ) (hp : ∀ x ∈ p, x ≠ 0) (key : List Nat)
    (hk : ∀ i ∈ key, i < p.length) : (key.map fun i => p.getD i 0).prod ≠ 0 := by
  rw [Ne, List.prod_eq_zero_iff, List.mem_map]
  rintro ⟨i, hi, h0⟩
  rw [getD_lt p i (hk i hi)] at h0
  exact hp _ (List.getElem_mem _) h0

theorem mons_map {α β : Type} (f : α → β) (p : List α) (N : Nat) (one : Bool) :
    mons (p.map f) N one = (mons p N one).map (List.map f) := by
  unfold mons
  rw [List.map_append, List.map_flatMap]
  congr 1
  · exact List.flatMap_congr fun i _ => cwr_map f p i
  · cases one <;> simp

private theorem map_getD (p : List ℚ) : (List.range p.length).map (fun i => p.getD i 0) = p := by
  apply List.ext_getElem
  · simp
  · intro i h1 h2
    simp [List.getElem?_eq_getElem h2]

/-- C220 (partial).  The numbers returned by `generate_features` are the values of the fractions in
lowest terms, each fraction once, if every feature is positive, or if every feature is different from zero
and at most one factor is allowed above and below the line.  Missing: negative features with higher powers, zero
features with denominators, and `max_num = 0` with `max_den = 1` (see the violations). -/
theorem C220_values_partial (le : ℚ → ℚ → Bool) (p : List ℚ) (maxNum maxDen : Nat) (exclude : Bool)
    (hp : (∀ x ∈ p, 0 < x) ∨ ((∀ x ∈ p, x ≠ 0) ∧ maxNum ≤ 1 ∧ maxDen ≤ 1))
    (hone : ¬ (maxNum = 0 ∧ maxDen = 0 ∧ exclude = true))
    (htype : ¬ (maxNum = 0 ∧ maxDen = 1 ∧ p ≠ [])) :
    ∃ fr, ReducedFractions p.length maxNum maxDen (!exclude) fr ∧
      genValues le p maxNum maxDen exclude = .ok (fr.map (fracValue p)) := by
  have hr := C85_fractions p.length maxNum maxDen exclude hone
  have hne : ∀ x ∈ p, x ≠ 0 := by
    rcases hp with h | h
    · exact fun x hx => (h x hx).ne'
    · exact h.1
  refine ⟨_, hr, ?_⟩
  unfold genValues
  by_cases hd : maxDen = 0
  · subst hd
    rw [if_pos rfl]
    have hN : maxNum = 0 → exclude = false := fun h0 => by
      cases exclude
      · rfl
      · exact absurd ⟨h0, rfl, rfl⟩ hone
    congr 1
    unfold genFeatures
    simp only [if_true]
    rw [genPositive_idx p.length maxNum exclude hN, List.map_map,
      genPositive_eq List.prod (by simp) 1 p maxNum exclude hN]
    conv_lhs => rw [← map_getD p]
    rw [mons_map, List.map_map]
    apply List.map_congr_left
    intro m _
    cases m with
    | nil => simp [fracValue]
    | cons a m => simp [fracValue]
  · rw [if_neg hd]
    by_cases hn : maxNum = 0
    · subst hn
      rw [if_pos rfl, if_neg (fun h => htype ⟨rfl, h.1, h.2⟩)]
      have hgf : genFeatures p.length 0 maxDen exclude
          = (genPositive List.flatten [] ((List.range p.length).map fun i => [i]) maxDen exclude).map
            fun k => ([], k) := by
        unfold genFeatures
        simp only [if_neg hd, if_true]
      rw [hgf, List.map_map]
      apply mapM_ok_map
      intro k hk
      have hb := (mem_bounds hr (r := ([], k)) (by rw [hgf]; exact List.mem_map.mpr ⟨k, hk, rfl⟩)).2.1
      unfold evalFrac
      rw [if_neg (prod_ne_zero p hne k hb)]
      simp [fracValue]
    · rw [if_neg hn]
      apply mapM_ok_map
      intro r hmem
      obtain ⟨h1, h2, h3, h4⟩ := mem_bounds hr hmem
      have e1 : decodeKey le p r.1 = (r.1.map fun i => p.getD i 0).prod := by
        rcases hp with h | ⟨_, h, _⟩
        · exact decodeKey_pos le p h _ h1
        · exact decodeKey_short le p _ (h3.trans h)
      have e2 : decodeKey le p r.2 = (r.2.map fun i => p.getD i 0).prod := by
        rcases hp with h | ⟨_, _, h⟩
        · exact decodeKey_pos le p h _ h2
        · exact decodeKey_short le p _ (h4.trans h)
      unfold evalFrac
      rw [e1, e2, if_neg (prod_ne_zero p hne _ h2)]
      rfl

/-- The hypotheses are met by two positive features with squares and by two features of either sign. -/
example : ((∀ x ∈ ([2, 3] : List ℚ), 0 < x) ∧ ¬ ((2 : Nat) = 0 ∧ (1 : Nat) = 0 ∧ true = true)) ∧
    ((∀ x ∈ ([2, -3] : List ℚ), x ≠ 0) ∧ (1 : Nat) ≤ 1) := by
  refine ⟨⟨?_, by decide⟩, ?_, le_rfl⟩ <;> intro x hx <;> fin_cases hx <;> norm_num

/-- C220 is violated by negative features: for every list of features without zero, every negative one
of them and all orders with `max_num ≥ 2` and `max_den ≥ 1`, the number returned for the square of the
feature is minus its square. -/
theorem C220_negative_feature_violated (le : ℚ → ℚ → Bool) (p : List ℚ) (hp : ∀ x ∈ p, x ≠ 0)
    (i : Nat) (hi : i < p.length) (hneg : p.getD i 0 < 0) (maxNum maxDen : Nat) (hN : 2 ≤ maxNum)
    (hD : 1 ≤ maxDen) (exclude : Bool) :
    ∃ (out : List ℚ) (k : Nat), genValues le p maxNum maxDen exclude = .ok out ∧
      (genFeatures p.length maxNum maxDen exclude)[k]? = some ([i, i], []) ∧
      out[k]? = some (-(p.getD i 0 * p.getD i 0)) ∧
      -(p.getD i 0 * p.getD i 0) ≠ fracValue p ([i, i], []) := by
  have hr := C85_fractions p.length maxNum maxDen exclude (by omega)
  have hok : genValues le p maxNum maxDen exclude = .ok ((genFeatures p.length maxNum maxDen exclude).map
      fun r => decodeKey le p r.1 / decodeKey le p r.2) := by
    unfold genValues
    rw [if_neg (by omega), if_neg (by omega)]
    apply mapM_ok_map
    intro r hmem
    unfold evalFrac
    rw [if_neg (decodeKey_ne_zero le p hp _ (mem_bounds hr hmem).2.1)]
  have hmem : ([i, i], ([] : List Nat)) ∈ genFeatures p.length maxNum maxDen exclude := by
    have := (hr.2 {i, i} 0).mpr ⟨by simp [hi], by simp, by simpa using hN, by simp, by simp, by simp⟩
    obtain ⟨r, hmem, he⟩ := List.mem_map.mp this
    obtain ⟨a, b⟩ := r
    simp only [Prod.mk.injEq] at he
    have ha : a = [i, i] := by
      have h2 : (a : Multiset Nat) = ((List.replicate 2 i : List Nat) : Multiset Nat) := he.1
      exact List.perm_replicate.mp (Multiset.coe_eq_coe.mp h2)
    have hb : b = [] := by simpa using he.2
    rw [← ha, ← hb]; exact hmem
  obtain ⟨k, hk⟩ := List.mem_iff_getElem?.mp hmem
  have hv : decodeKey le p [i, i] = -(p.getD i 0 * p.getD i 0) := by
    rw [decodeKey_perm]
    have hdd : (List.map (fun j => p.getD j 0) [i, i]).dedup = [p.getD i 0] := by
      simp
    rw [hdd]
    simp only [List.map_cons, List.map_nil, List.prod_cons, List.prod_nil, mul_one]
    have hc : List.count (p.getD i 0) [p.getD i 0, p.getD i 0] = 2 := by simp
    rw [hc]
    unfold tokenPow
    rw [if_neg (by norm_num), if_pos hneg]
    ring
  refine ⟨_, k, hok, hk, ?_, ?_⟩
  · rw [List.getElem?_map, hk]
    simp only [Option.map_some, hv, decodeKey_nil, div_one]
  · have : 0 < p.getD i 0 * p.getD i 0 := mul_pos_of_neg_of_neg hneg hneg
    simp only [fracValue, List.map_cons, List.map_nil, List.prod_cons, List.prod_nil, mul_one, div_one]
    intro h
    linarith

example : (∀ x ∈ ([-2, 3] : List ℚ), x ≠ 0) ∧ (0 : Nat) < ([-2, 3] : List ℚ).length ∧
    ([-2, 3] : List ℚ).getD 0 0 < 0 := by
  refine ⟨?_, by simp, by simp⟩
  intro x hx; fin_cases hx <;> norm_num

/-- C220 is violated by features that are zero: if one feature is zero and denominators are allowed, no
fraction at all is returned, not even those without that feature. -/
theorem C220_zero_feature_violated (le : ℚ → ℚ → Bool) (p : List ℚ) (hz : 0 ∈ p)
    (maxNum maxDen : Nat) (hD : 1 ≤ maxDen) (exclude : Bool)
    (htype : ¬ (maxNum = 0 ∧ maxDen = 1)) :
    genValues le p maxNum maxDen exclude = .error .zeroDiv := by
  have hr := C85_fractions p.length maxNum maxDen exclude (by omega)
  obtain ⟨i, hi, h0⟩ := List.mem_iff_getElem.mp hz
  have h0' : p.getD i 0 = 0 := by rw [getD_lt p i hi, h0]
  have hmem : (([] : List Nat), [i]) ∈ genFeatures p.length maxNum maxDen exclude := by
    have := (hr.2 0 {i}).mpr ⟨by simp, by simpa using hi, by simp, by simpa using hD, by simp, by simp⟩
    obtain ⟨r, hmem, he⟩ := List.mem_map.mp this
    obtain ⟨a, b⟩ := r
    simp only [Prod.mk.injEq] at he
    have ha : a = [] := by simpa using he.1
    have hb : b = [i] := by
      have h2 : (b : Multiset Nat) = {i} := he.2
      simpa using h2
    subst ha hb; exact hmem
  have herr : ∀ a b e, evalFrac a b = .error e → e = .zeroDiv := by
    intro a b e h
    unfold evalFrac at h
    split at h
    · cases h; rfl
    · cases h
  unfold genValues
  rw [if_neg (by omega)]
  by_cases hn : maxNum = 0
  · subst hn
    have hgf : genFeatures p.length 0 maxDen exclude
        = (genPositive List.flatten [] ((List.range p.length).map fun i => [i]) maxDen exclude).map
          fun k => ([], k) := by
      unfold genFeatures
      simp only [if_neg (show ¬ maxDen = 0 by omega), if_true]
    rw [hgf] at hmem
    obtain ⟨k, hk, he⟩ := List.mem_map.mp hmem
    simp only [Prod.mk.injEq, true_and] at he
    subst he
    rw [if_pos rfl, if_neg (fun h => htype ⟨rfl, h.1⟩)]
    obtain ⟨e, he⟩ := mapM_error_of_mem
      (fun key : List Nat => evalFrac 1 (key.map fun i => p.getD i 0).prod) _
      ⟨[i], hk, .zeroDiv, by simp [evalFrac, h0', -List.getD_eq_getElem?_getD]⟩
    obtain ⟨a, _, ha⟩ := mapM_error_exists _ _ _ he
    rw [he, herr _ _ _ ha]
  · rw [if_neg hn]
    obtain ⟨e, he⟩ := mapM_error_of_mem
      (fun r : List Nat × List Nat => evalFrac (decodeKey le p r.1) (decodeKey le p r.2)) _
      ⟨([], [i]), hmem, .zeroDiv, by
        simp [evalFrac, decodeKey_single, h0', -List.getD_eq_getElem?_getD]⟩
    obtain ⟨a, _, ha⟩ := mapM_error_exists _ _ _ he
    rw [he, herr _ _ _ ha]

/-- A list with a zero feature. -/
example : (0 : ℚ) ∈ ([0, 1] : List ℚ) ∧ ¬ ((2 : Nat) = 0 ∧ (1 : Nat) = 1) := by simp

/-- C220 is violated for `max_num = 0, max_den = 1`: the inverses of the features are not returned for
any list of numbers; the call raises. -/
theorem C220_inverses_violated (le : ℚ → ℚ → Bool) (p : List ℚ) (hp : p ≠ []) (exclude : Bool) :
    genValues le p 0 1 exclude = .error .type := by
  simp [genValues, hp]

example : ([2, 3] : List ℚ) ≠ [] := by simp

end CatLearn.FracEval
