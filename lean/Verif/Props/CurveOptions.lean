import Verif.Model.CurveOptions
import Verif.Props.Curve

/-!
# The options of `hierarchy` and `feature_frequency` (C225)
-/

namespace CatLearn.CurveOptions

open CatLearn CatLearn.Curve

/-- C225 (partial).  With global scaling and a fixed number of features, `hierarchy` returns an error for every subset
of every level and every other subset of the same level, in the order of the keys.  Missing: the other options, see the
violations. -/
theorem C225_returns_partial {γ G : Type} (glob : G) (fit : Nat × Nat → List Nat → γ) (sels : List (List Nat))
    (const : List Nat) (hierLevel : Nat) (keys : List (Nat × Nat)) (hne : keys ≠ []) (hk : ∀ k ∈ keys, 1 ≤ k.1) :
    ∃ l, hierarchyOpts glob true false fit sels const hierLevel keys = .ok (.const l) ∧
      l.map (fun r => (r.train, r.test)) = keys.flatMap fun k =>
        ((List.range' 1 (2 ^ k.1)).filter fun s => s ≠ k.2).map fun s => (k, (k.1, s)) := by
  obtain ⟨l, hl, hp⟩ := C181_pairs (fun k => fit k const) keys hk
  refine ⟨l, ?_, hp⟩
  cases keys with
  | nil => exact absurd rfl hne
  | cons k ks =>
    unfold hierarchyOpts
    simp only [if_true, useLocal, Bool.false_eq_true, if_false]
    rw [hl]

example : ([(1, 2), (1, 1)] : List (Nat × Nat)) ≠ [] ∧ ∀ k ∈ ([(1, 2), (1, 1)] : List (Nat × Nat)), 1 ≤ k.1 := by
  simp

/-- C225 is violated without global scaling: `hierarchy` raises for every data set, every feature selection and
either kind of learning curve. -/
theorem C225_local_scaling_violated {γ G : Type} (glob : G) (featvar : Bool) (fit : Nat × Nat → List Nat → γ)
    (sels : List (List Nat)) (const : List Nat) (hierLevel : Nat) (k : Nat × Nat) (ks : List (Nat × Nat)) :
    hierarchyOpts glob false featvar fit sels const hierLevel (k :: ks) = .error .name := rfl

/-- C225 is violated by `feature_frequency` without global scaling, also if the globally scaled subset is not
used. -/
theorem C225_frequency_violated {G F : Type} (glob : G) (smallest : Bool) (select : Option G → F) :
    featureFrequency glob false smallest select = .error .name := rfl

/-- C225: with global scaling `feature_frequency` returns the features selected from the largest or, if asked for, the
smallest subset. -/
theorem C225_frequency_returns {G F : Type} (glob : G) (smallest : Bool) (select : Option G → F) :
    featureFrequency glob true smallest select = .ok (select (if smallest then none else some glob)) := by
  cases smallest <;> rfl

/-! ### Varying number of features -/

private theorem regFeatVar_eq {γ : Type} (fit : Nat × Nat → List Nat → γ) (train test : Nat × Nat)
    (sels : List (List Nat)) (acc : List (FitVar γ)) :
    regFeatVar fit train test true sels acc = .ok (acc ++ sels.map fun fs => ⟨train, test, fs, fit train fs⟩) := by
  induction sels generalizing acc with
  | nil => simp [regFeatVar]
  | cons fs rest ih => simp [regFeatVar, ih]

private theorem predictVar_eq {γ : Type} (fit : Nat × Nat → List Nat → γ) (sels : List (List Nat)) (hs : sels ≠ [])
    (train : Nat × Nat) (ts : List (Nat × Nat)) (acc : List (FitVar γ)) :
    predictVar fit sels train ts acc = .ok (acc ++ ts.flatMap fun t => sels.map fun fs =>
      ⟨train, t, fs, fit train fs⟩, false) := by
  induction ts generalizing acc with
  | nil => simp [predictVar]
  | cons t ts ih =>
    unfold predictVar
    rw [if_neg hs, regFeatVar_eq]
    have hne : ¬ (acc ++ sels.map fun fs => (⟨train, t, fs, fit train fs⟩ : FitVar γ)) = [] := by simp [hs]
    simp only
    rw [if_neg hne, ih]
    simp

/-- C225 (partial): within one subset, the errors for a varying number of features are computed with coefficients
fitted to that subset and to the set of features they are reported for, one for each test subset and each set of
features.  Missing: `hierarchy` does not return them. -/
theorem C225_coefficients_partial {γ : Type} (fit : Nat × Nat → List Nat → γ) (sels : List (List Nat)) (hs : sels ≠ [])
    (train : Nat × Nat) (ts : List (Nat × Nat)) (acc : List (FitVar γ)) :
    ∃ new, predictVar fit sels train ts acc = .ok (acc ++ new, false) ∧
      (∀ r ∈ new, r.train = train ∧ r.coef = fit train r.features) ∧
      new.map (fun r => (r.test, r.features)) = ts.flatMap fun t => sels.map fun fs => (t, fs) := by
  refine ⟨_, predictVar_eq fit sels hs train ts acc, ?_, ?_⟩
  · intro r hr
    obtain ⟨t, _, hr⟩ := List.mem_flatMap.mp hr
    obtain ⟨fs, _, rfl⟩ := List.mem_map.mp hr
    exact ⟨rfl, rfl⟩
  · rw [List.map_flatMap]
    simp [List.map_map, Function.comp_def]

example : ([[0], [0, 2]] : List (List Nat)) ≠ [] := by simp

/-- C225 is violated by a varying number of features: as soon as some set of features is found, `hierarchy` raises at the
first subset with the number 1, which every level has, and returns nothing. -/
theorem C225_feature_variation_violated {γ G : Type} (glob : G) (fit : Nat × Nat → List Nat → γ)
    (sels : List (List Nat)) (hs : sels ≠ []) (const : List Nat) (hierLevel : Nat) (keys : List (Nat × Nat))
    (h1 : ∃ k ∈ keys, k.2 = 1) :
    hierarchyOpts glob true true fit sels const hierLevel keys = .error .type := by
  have main : ∀ (keys : List (Nat × Nat)) (acc : List (FitVar γ)), (∃ k ∈ keys, k.2 = 1) →
      hierarchyVar fit sels hierLevel keys acc = .error .type := by
    intro keys
    induction keys with
    | nil => intro acc h; simp at h
    | cons k ks ih =>
      intro acc h
      unfold hierarchyVar
      simp only [predictVar_eq fit sels hs]
      by_cases hk : k.2 = 1
      · simp [hk]
      · simp only [Bool.false_eq_true, if_false, hk]
        have hks : ∃ k ∈ ks, k.2 = 1 := by
          obtain ⟨x, hx, hx1⟩ := h
          rcases List.mem_cons.mp hx with rfl | hx
          · exact absurd hx1 hk
          · exact ⟨x, hx, hx1⟩
        have hmem : (1 : Nat) ∈ (List.range' 1 (2 ^ k.1)).filter fun s => s ≠ k.2 := by
          refine List.mem_filter.mpr ⟨?_, by simpa using Ne.symm hk⟩
          rw [List.mem_range'_1]
          have := Nat.one_le_two_pow (n := k.1)
          omega
        rw [if_neg, ih _ hks]
        intro hnil
        rw [List.append_eq_nil_iff] at hnil
        have := hnil.2
        rw [List.flatMap_eq_nil_iff] at this
        have := this (k.1, 1) (List.mem_map.mpr ⟨1, hmem, rfl⟩)
        simp [hs] at this
  cases keys with
  | nil => simp at h1
  | cons k ks =>
    unfold hierarchyOpts
    simp only [if_true, useLocal]
    rw [main _ _ h1]

example : ∃ k ∈ ([(2, 4), (2, 3), (2, 2), (2, 1), (1, 2), (1, 1)] : List (Nat × Nat)), k.2 = 1 := ⟨(2, 1), by simp, rfl⟩

end CatLearn.CurveOptions
