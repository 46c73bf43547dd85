import Verif.Model.KFold
import Verif.Spec.Split
import Verif.Lemmas.Py

/-!
# Properties of k-fold splitting (C01, C02)
-/

namespace CatLearn.Props

open CatLearn CatLearn.KFold CatLearn.Spec

/-- Helper: what an accepted split looks like. -/
private theorem arraySplit_ok {α : Type} (l : List α) (k : Nat) (hk : 0 < k) :
    arraySplit l k = .ok (splitBySizes (splitSizes l.length k) l) := by
  simp [arraySplit, Nat.pos_iff_ne_zero.mp hk]

private theorem balanced_split {α : Type} (l : List α) (k : Nat) (hk : 0 < k) :
    Balanced (splitBySizes (splitSizes l.length k) l) := by
  intro a ha b hb
  have hmap := splitBySizes_map_length (splitSizes l.length k) l (splitSizes_sum _ _ hk).le
  have ha' : a.length ∈ splitSizes l.length k := by
    rw [← hmap]; exact List.mem_map_of_mem ha
  have hb' : b.length ∈ splitSizes l.length k := by
    rw [← hmap]; exact List.mem_map_of_mem hb
  rcases splitSizes_mem _ _ _ ha' with h | h <;> rcases splitSizes_mem _ _ _ hb' with h' | h' <;> omega

private theorem zip_map_flatten {α τ : Type} (folds : List (List (α × τ))) :
    (folds.map (·.map Prod.fst)).flatten.zip (folds.map (·.map Prod.snd)).flatten = folds.flatten := by
  rw [← List.map_flatten, ← List.map_flatten]
  generalize folds.flatten = l
  induction l with
  | nil => rfl
  | cons p l ih => simp [ih]

/-- C01.  For every data set with as many targets as rows, every `nsplit ≥ 1` and every outcome of
the shuffle, `k_fold` succeeds with exactly `nsplit` folds, in each fold there are as many targets as
rows, fold sizes differ by at most one, and pairing the rows with the targets of the same fold gives
back exactly the input (row, target) pairs, each once. -/
theorem C01_kfold_partition {α τ : Type} (shuf : List (α × τ) → List (α × τ)) (hs : IsShuffle shuf)
    (features : List α) (targets : List τ) (hl : features.length = targets.length)
    (nsplit : Nat) (hk : 0 < nsplit) :
    ∃ fs ts, kFold shuf features targets nsplit none = .ok (fs, ts) ∧
      fs.length = nsplit ∧ Paired fs ts ∧ Balanced fs ∧ Balanced ts ∧
      (fs.flatten.zip ts.flatten).Perm (features.zip targets) ∧
      fs.flatten.Perm features ∧ ts.flatten.Perm targets := by
  set X := shuf (features.zip targets) with hX
  set folds := splitBySizes (splitSizes X.length nsplit) X with hf
  have hflat : folds.flatten = X := by
    rw [hf, splitBySizes_flatten, splitSizes_sum _ _ hk, List.take_length]
  have hbal : Balanced folds := balanced_split X nsplit hk
  have hperm : X.Perm (features.zip targets) := hs _
  refine ⟨folds.map (·.map Prod.fst), folds.map (·.map Prod.snd), ?_, ?_, ?_, ?_, ?_, ?_, ?_, ?_⟩
  · simp only [kFold, hl, ne_eq, not_true_eq_false, ↓reduceIte]
    rw [← hX]
    simp only [pure_bind, bind, Except.bind, pure, Except.pure]
    rw [arraySplit_ok X nsplit hk]
  · simp [hf, splitBySizes_length, splitSizes_length]
  · simp [Paired, Function.comp_def]
  · intro a ha b hb
    obtain ⟨a', ha', rfl⟩ := List.mem_map.mp ha
    obtain ⟨b', hb', rfl⟩ := List.mem_map.mp hb
    simpa using hbal a' ha' b' hb'
  · intro a ha b hb
    obtain ⟨a', ha', rfl⟩ := List.mem_map.mp ha
    obtain ⟨b', hb', rfl⟩ := List.mem_map.mp hb
    simpa using hbal a' ha' b' hb'
  · rw [zip_map_flatten, hflat]; exact hperm
  · rw [← List.map_flatten, hflat]
    have := hperm.map Prod.fst
    rwa [List.map_fst_zip (by omega)] at this
  · rw [← List.map_flatten, hflat]
    have := hperm.map Prod.snd
    rwa [List.map_snd_zip (by omega)] at this

/-- C01, error branch: `k_fold` raises exactly when the numbers of rows and targets differ or no
fold is requested. -/
theorem C01_kfold_error_iff {α τ : Type} (shuf : List (α × τ) → List (α × τ))
    (features : List α) (targets : List τ) (nsplit : Nat) :
    (∃ e, kFold shuf features targets nsplit none = .error e) ↔
      features.length ≠ targets.length ∨ nsplit = 0 := by
  by_cases hl : features.length = targets.length <;> by_cases hk : nsplit = 0 <;>
    simp [kFold, arraySplit, hl, hk, bind, Except.bind, pure, Except.pure, throw, throwThe,
      MonadExceptOf.throw]

example : ∃ (shuf : List (Nat × Nat) → List (Nat × Nat)), IsShuffle shuf ∧
    kFold shuf [1, 2, 3, 4, 5] [10, 20, 30, 40, 50] 2 none
      = .ok ([[5, 4, 3], [2, 1]], [[50, 40, 30], [20, 10]]) :=
  ⟨List.reverse, fun l => List.reverse_perm l, by rfl⟩

/-- C02.  With `fix_size = s`, whenever `nsplit * s` rows are available, every shuffle gives
`nsplit` folds of exactly `s` rows and `s` targets; the (row, target) pairs of the folds together are
pairs of the input, none used more often than it occurs there. -/
theorem C02_kfold_fix_size {α τ : Type} (shuf : List (α × τ) → List (α × τ)) (hs : IsShuffle shuf)
    (features : List α) (targets : List τ) (hl : features.length = targets.length)
    (nsplit s : Nat) (hk : 0 < nsplit) (hav : nsplit * s ≤ features.length) :
    ∃ fs ts, kFold shuf features targets nsplit (some s) = .ok (fs, ts) ∧
      fs.length = nsplit ∧ ts.length = nsplit ∧
      (∀ f ∈ fs, f.length = s) ∧ (∀ t ∈ ts, t.length = s) ∧
      (fs.flatten.zip ts.flatten).Subperm (features.zip targets) := by
  set X := shuf (features.zip targets) with hX
  have hXl : X.length = features.length := by
    rw [hX, (hs _).length_eq]; simp [hl]
  set Y := X.take (nsplit * s) with hY
  have hYl : Y.length = nsplit * s := by simp [hY, hXl]; omega
  set folds := splitBySizes (splitSizes Y.length nsplit) Y with hf
  have hflat : folds.flatten = Y := by
    rw [hf, splitBySizes_flatten, splitSizes_sum _ _ hk, List.take_length]
  have hsz : ∀ f ∈ folds, f.length = s := by
    intro f hfm
    have hmap := splitBySizes_map_length (splitSizes Y.length nsplit) Y (splitSizes_sum _ _ hk).le
    have : f.length ∈ splitSizes Y.length nsplit := by
      rw [← hmap]; exact List.mem_map_of_mem hfm
    rw [hYl, splitSizes_exact s nsplit hk] at this
    exact (List.mem_replicate.mp this).2
  refine ⟨folds.map (·.map Prod.fst), folds.map (·.map Prod.snd), ?_, ?_, ?_, ?_, ?_, ?_⟩
  · simp only [kFold, hl, ne_eq, not_true_eq_false, ↓reduceIte]
    rw [← hX]
    have : X.length ≥ nsplit * s := by omega
    simp only [pure_bind, bind, Except.bind, pure, Except.pure, this, ↓reduceIte]
    rw [← hY, arraySplit_ok Y nsplit hk]
  · simp [hf, splitBySizes_length, splitSizes_length]
  · simp [hf, splitBySizes_length, splitSizes_length]
  · intro a ha
    obtain ⟨a', ha', rfl⟩ := List.mem_map.mp ha
    simpa using hsz a' ha'
  · intro a ha
    obtain ⟨a', ha', rfl⟩ := List.mem_map.mp ha
    simpa using hsz a' ha'
  · rw [zip_map_flatten, hflat]
    exact (List.take_sublist _ _).subperm.trans (hs _).subperm

/-- C02, error branch: with fewer than `nsplit * s` rows the request is refused. -/
theorem C02_kfold_fix_size_refused {α τ : Type} (shuf : List (α × τ) → List (α × τ))
    (hs : IsShuffle shuf) (features : List α) (targets : List τ)
    (hl : features.length = targets.length) (nsplit s : Nat) (hav : features.length < nsplit * s) :
    kFold shuf features targets nsplit (some s) = .error .assertion := by
  have : ¬ (shuf (features.zip targets)).length ≥ nsplit * s := by
    rw [(hs _).length_eq]; simp; omega
  simp [kFold, hl, this, bind, Except.bind, pure, Except.pure, throw, throwThe, MonadExceptOf.throw]

example : kFold (fun l : List (Nat × Nat) => l) [1, 2, 3, 4, 5] [10, 20, 30, 40, 50] 2 (some 2)
    = .ok ([[1, 2], [3, 4]], [[10, 20], [30, 40]]) := by rfl

/-- C01 without targets: the folds are again a balanced partition of the rows … -/
theorem C01_kfold_no_targets {α : Type} (shuf : List α → List α) (hs : IsShuffle shuf)
    (features : List α) (nsplit : Nat) (hk : 0 < nsplit) :
    ∃ fs, (kFoldNoTargets shuf features nsplit none).2 = .ok fs ∧
      PartitionOf fs features nsplit ∧ Balanced fs := by
  set X := shuf features with hX
  refine ⟨splitBySizes (splitSizes X.length nsplit) X, ?_, ⟨?_, ?_⟩, balanced_split X nsplit hk⟩
  · simp only [kFoldNoTargets]
    rw [← hX]
    simp only [pure_bind]
    exact arraySplit_ok X nsplit hk
  · simp [splitBySizes_length, splitSizes_length]
  · rw [splitBySizes_flatten, splitSizes_sum _ _ hk, List.take_length]; exact hs _

example : (kFoldNoTargets List.reverse [1, 2, 3, 4, 5] 2 none).2 = .ok [[5, 4, 3], [2, 1]] := by rfl

/-- C71 is violated: without targets the caller's own array is reordered, also when the call is then
refused. -/
theorem C71_input_untouched_violated :
    ∃ shuf : List Nat → List Nat, IsShuffle shuf ∧
      (kFoldNoTargets shuf [1, 2, 3] 2 none).1 ≠ [1, 2, 3] ∧
      (kFoldNoTargets shuf [1, 2, 3] 2 (some 2)).1 ≠ [1, 2, 3] ∧
      (kFoldNoTargets shuf [1, 2, 3] 2 (some 2)).2 = .error .assertion :=
  ⟨List.reverse, fun l => List.reverse_perm l, by decide, by decide, by rfl⟩

/-- C71 (partial): the caller's array still has the same rows, in another order. -/
theorem C71_input_untouched_partial {α : Type} (shuf : List α → List α) (hs : IsShuffle shuf)
    (features : List α) (nsplit : Nat) (fixSize : Option Nat) :
    (kFoldNoTargets shuf features nsplit fixSize).1.Perm features := hs features

end CatLearn.Props
