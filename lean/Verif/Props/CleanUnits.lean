import Verif.Props.Clean
import Verif.Props.Errors

/-!
# C253: outlier removal and the units, the sign and the order of the data
-/

namespace CatLearn.Props

open CatLearn CatLearn.Clean

/-- What is kept. -/
private noncomputable def kept (c : Constraint) (med mad t : ℝ) : Bool :=
  decide (c = .high ∨ c = .none → t < med + mad) && decide (c = .low ∨ c = .none → t > med - mad)

private theorem removeOutliers_eq {α : Type} (features : List α) (targets : List ℝ) (con dev : ℝ) (c : Constraint)
    (hl : features.length = targets.length) :
    removeOutliers features targets con dev c = .ok
      ⟨con * median (targets.map fun t => |t - median targets|),
        ((features.zip targets).filter fun p => kept c (median targets) (con * median (targets.map fun t => |t - median targets|)) p.2).map Prod.snd,
        ((features.zip targets).filter fun p => kept c (median targets) (con * median (targets.map fun t => |t - median targets|)) p.2).map Prod.fst⟩ := by
  have zip_unzip : ∀ l : List (α × ℝ), (l.map Prod.fst).zip (l.map Prod.snd) = l := by
    intro l; induction l with
    | nil => rfl
    | cons a l ih => simp [ih]
  set med := median targets with hmed
  set mad := con * median (targets.map fun t => |t - med|) with hmad
  have e1 := boolIndex_zip_filter (fun t => decide (t < med + mad)) features targets hl
  have e2 := boolIndex_snd_filter (fun t => decide (t < med + mad)) features targets hl
  have e3 := boolIndex_zip_filter (fun t => decide (t > med - mad)) features targets hl
  have e4 := boolIndex_snd_filter (fun t => decide (t > med - mad)) features targets hl
  unfold removeOutliers
  rw [if_neg (by simp [hl])]
  simp only [← hmed, ← hmad]
  cases c with
  | high =>
    simp only [true_or, if_true, reduceCtorEq, or_self, if_false, e1, e2, kept, false_implies, decide_true, Bool.and_true, true_implies]
  | low =>
    simp only [true_or, if_true, reduceCtorEq, or_self, if_false, e3, e4, kept, false_implies, decide_true, Bool.true_and, true_implies]
  | none =>
    simp only [or_true, if_true, kept, true_implies]
    have f1 : ((features.zip targets).filter fun p => decide (p.2 < med + mad) && decide (p.2 > med - mad)) =
        ((features.zip targets).filter fun q => decide (q.2 < med + mad)).filter fun q => decide (q.2 > med - mad) := by
      rw [List.filter_filter]
      congr 1; funext p; simp [Bool.and_comm]
    congr 2
    · simp only [e2]
      rw [boolIndex_snd_filter _ (((features.zip targets).filter
        fun q => decide (q.2 < med + mad)).map Prod.fst) _ (by simp), zip_unzip, f1]
    · simp only [e1, e2]
      rw [boolIndex_zip_filter _ _ _ (by simp), zip_unzip, f1]
  | other =>
    simp only [reduceCtorEq, or_self, if_false, kept, false_implies, decide_true, Bool.and_self, List.filter_true]
    rw [List.map_fst_zip (by omega), List.map_snd_zip (by omega)]

/-- A sorted rearrangement is determined by the list. -/
private theorem sort_unique {l s : List ℝ} (hp : s.Perm l) (hs : s.Pairwise (· ≤ ·)) : sortAsc id l = s :=
  ((sortAsc_perm id l).trans hp.symm).eq_of_pairwise (fun _ _ _ _ h1 h2 => le_antisymm h1 h2) (sortAsc_pairwise id l) hs

private theorem median_perm {l l' : List ℝ} (h : l.Perm l') : median l = median l' := by
  unfold median
  rw [sort_unique ((sortAsc_perm id l').trans h.symm) (sortAsc_pairwise id l'), h.length_eq]

private theorem median_mono (l : List ℝ) (hl : l ≠ []) (a b : ℝ) (ha : 0 < a) : median (l.map fun t => a * t + b) = a * median l + b := by
  have hs : sortAsc id (l.map fun t => a * t + b) = (sortAsc id l).map fun t => a * t + b := by
    refine sort_unique ((sortAsc_perm id l).map _) ?_
    rw [List.pairwise_map]
    exact (sortAsc_pairwise id l).imp fun {x y} h => by
      have : x ≤ y := h
      nlinarith
  have hlen : (sortAsc id l).length = l.length := (sortAsc_perm id l).length_eq
  have hpos := List.length_pos_iff.mpr hl
  unfold median
  simp only [hs, List.length_map, List.getElem?_map]
  have h1 : l.length / 2 < (sortAsc id l).length := by omega
  have h2 : l.length / 2 - 1 < (sortAsc id l).length := by omega
  simp only [List.getElem?_eq_getElem h1, List.getElem?_eq_getElem h2, Option.map_some, Option.getD_some]
  split
  · rfl
  · ring

private theorem median_neg (l : List ℝ) (hl : l ≠ []) : median (l.map fun t => -t) = -median l := by
  have hs : sortAsc id (l.map fun t => -t) = ((sortAsc id l).map fun t => -t).reverse := by
    refine sort_unique (((List.reverse_perm _).trans ((sortAsc_perm id l).map _))) ?_
    rw [List.pairwise_reverse, List.pairwise_map]
    exact (sortAsc_pairwise id l).imp fun {x y} h => neg_le_neg (show x ≤ y from h)
  have hlen : (sortAsc id l).length = l.length := (sortAsc_perm id l).length_eq
  have hpos := List.length_pos_iff.mpr hl
  unfold median
  simp only [hs, List.length_map]
  have h1 : l.length / 2 < (sortAsc id l).length := by omega
  have h2 : l.length / 2 - 1 < (sortAsc id l).length := by omega
  rw [List.getElem?_reverse (by simpa using h1), List.getElem?_reverse (by simpa using h2), List.length_map, hlen]
  split
  · rw [show l.length - 1 - l.length / 2 = l.length / 2 by omega]
    simp only [List.getElem?_map, List.getElem?_eq_getElem h1, Option.map_some, Option.getD_some]
  · rw [show l.length - 1 - l.length / 2 = l.length / 2 - 1 by omega, show l.length - 1 - (l.length / 2 - 1) = l.length / 2 by omega]
    simp only [List.getElem?_map, List.getElem?_eq_getElem h1, List.getElem?_eq_getElem h2, Option.map_some, Option.getD_some]
    ring

/-- Exchange of the two one-sided constraints. -/
def mirror : Constraint → Constraint
  | .high => .low
  | .low => .high
  | c => c

private theorem affine {α : Type} (features : List α) (targets : List ℝ) (con dev : ℝ) (c c' : Constraint) (g : ℝ → ℝ) (a : ℝ)
    (hl : features.length = targets.length) (hmed : targets ≠ [] → median (targets.map g) = g (median targets))
    (hdist : ∀ s t, |g s - g t| = |a| * |s - t|) (ha : a ≠ 0)
    (hk : ∀ t med mad, kept c' (g med) (|a| * mad) (g t) = kept c med mad t) :
    removeOutliers features (targets.map g) con dev c' =
      (removeOutliers features targets con dev c).map fun r => ⟨|a| * r.mad, r.targets.map g, r.features⟩ := by
  rw [removeOutliers_eq features (targets.map g) con dev c' (by simpa using hl), removeOutliers_eq features targets con dev c hl]
  by_cases hne : targets = []
  · subst hne
    have h0 : sortAsc id ([] : List ℝ) = [] := (sortAsc_perm id []).eq_nil
    simp [Except.map, median, h0]
  · have habs : median ((targets.map g).map fun t => |t - median (targets.map g)|) =
        |a| * median (targets.map fun t => |t - median targets|) := by
      rw [hmed hne, List.map_map]
      have : ((fun t => |t - g (median targets)|) ∘ g) = fun t => |a| * |t - median targets| + 0 := by
        funext t
        rw [Function.comp_apply, hdist, add_zero]
      rw [this, show (targets.map fun t => |a| * |t - median targets| + 0) = (targets.map fun t => |t - median targets|).map fun t => |a| * t + 0 by
        rw [List.map_map]; rfl, median_mono _ (by simpa using hne) _ _ (abs_pos.mpr ha), add_zero]
    have hz : features.zip (targets.map g) = (features.zip targets).map fun p => (p.1, g p.2) := by
      rw [List.zip_map_right]
      rfl
    rw [habs]
    simp only [hmed hne, Except.map, hz, List.filter_map, List.map_map, Function.comp_def,
      show con * (|a| * median (targets.map fun t => |t - median targets|)) = |a| * (con * median (targets.map fun t => |t - median targets|)) by ring, hk]

/-- Any other constraint: the features do not matter. -/
private theorem other_eq {α β : Type} (features : List α) (features' : List β) (targets : List ℝ) (con dev : ℝ) :
    removeOutliers features targets con dev .other =
      (removeOutliers features' targets con dev .other).map fun r => ⟨r.mad, r.targets, features⟩ := by
  simp [removeOutliers, Except.map]

private theorem other_or {α : Type} (features : List α) (targets : List ℝ) (con dev : ℝ) (c c' : Constraint) (g : ℝ → ℝ)
    (a : ℝ) (hc : c = .other ↔ c' = .other)
    (h : ∀ features' : List Unit, features'.length = targets.length →
      removeOutliers features' (targets.map g) con dev c' =
        (removeOutliers features' targets con dev c).map fun r => ⟨a * r.mad, r.targets.map g, r.features⟩)
    (hl : features.length ≠ targets.length) :
    removeOutliers features (targets.map g) con dev c' =
      (removeOutliers features targets con dev c).map fun r => ⟨a * r.mad, r.targets.map g, r.features⟩ := by
  by_cases ho : c = .other
  · have ho' := hc.mp ho
    subst ho ho'
    have h0 := h (List.replicate targets.length ()) (by simp)
    rw [other_eq features (List.replicate targets.length ()) targets,
      other_eq features (List.replicate targets.length ()) (targets.map g), h0]
    cases removeOutliers (List.replicate targets.length ()) targets con dev .other <;> rfl
  · rw [C20_lengths _ _ _ _ _ (fun h' => ho (hc.mpr h')) (by simpa using hl), C20_lengths _ _ _ _ _ ho hl]
    rfl

/-- C253, units.  With the targets in another unit and from another zero, the same data are removed as outliers and the deviation is that of the
other unit. -/
theorem C253_units {α : Type} (features : List α) (targets : List ℝ) (con dev a b : ℝ) (c : Constraint) (ha : 0 < a) :
    removeOutliers features (targets.map fun t => a * t + b) con dev c =
      (removeOutliers features targets con dev c).map fun r => ⟨a * r.mad, r.targets.map fun t => a * t + b, r.features⟩ := by
  have key : ∀ {β : Type} (features : List β), features.length = targets.length →
      removeOutliers features (targets.map fun t => a * t + b) con dev c =
      (removeOutliers features targets con dev c).map fun r => ⟨a * r.mad, r.targets.map fun t => a * t + b, r.features⟩ := by
    intro β features hl
    have := affine features targets con dev c c (fun t => a * t + b) a hl (fun h => median_mono targets h a b ha)
      (fun s t => by rw [← abs_mul]; congr 1; ring) ha.ne' (fun t med mad => by
        have e1 : a * t + b < a * med + b + |a| * mad ↔ t < med + mad := by
          rw [abs_of_pos ha]
          constructor
          · intro h
            have : a * t < a * (med + mad) := by linarith
            exact lt_of_mul_lt_mul_left this ha.le
          · intro h
            nlinarith
        have e2 : a * t + b > a * med + b - |a| * mad ↔ t > med - mad := by
          rw [abs_of_pos ha]
          constructor
          · intro h
            have : a * (med - mad) < a * t := by linarith
            exact lt_of_mul_lt_mul_left this ha.le
          · intro h
            nlinarith
        simp only [kept, e1, e2])
    rw [abs_of_pos ha] at this
    exact this
  by_cases hl : features.length = targets.length
  · exact key features hl
  · exact other_or features targets con dev c c _ a Iff.rfl (fun f hf => key f hf) hl

/-- C253, sign.  With the sign of the targets reversed the same data are removed, high and low outliers exchanged. -/
theorem C253_sign {α : Type} (features : List α) (targets : List ℝ) (con dev : ℝ) (c : Constraint) :
    removeOutliers features (targets.map fun t => -t) con dev (mirror c) =
      (removeOutliers features targets con dev c).map fun r => ⟨r.mad, r.targets.map fun t => -t, r.features⟩ := by
  have key : ∀ {β : Type} (features : List β), features.length = targets.length →
      removeOutliers features (targets.map fun t => -t) con dev (mirror c) =
      (removeOutliers features targets con dev c).map fun r => ⟨1 * r.mad, r.targets.map fun t => -t, r.features⟩ := by
    intro β features hl
    have := affine features targets con dev c (mirror c) (fun t => -t) (-1) hl (fun h => median_neg targets h)
      (fun s t => by rw [abs_neg, abs_one, one_mul, ← abs_neg]; congr 1; ring) (by norm_num) (fun t med mad => by
        have e1 : -t < -med + mad ↔ t > med - mad := by constructor <;> intro h <;> linarith
        have e2 : -t > -med - mad ↔ t < med + mad := by constructor <;> intro h <;> linarith
        simp only [abs_neg, abs_one, one_mul, kept, e1, e2]
        cases c <;> simp [mirror, Bool.and_comm])
    simpa using this
  have h1 : removeOutliers features (targets.map fun t => -t) con dev (mirror c) =
      (removeOutliers features targets con dev c).map fun r => ⟨1 * r.mad, r.targets.map fun t => -t, r.features⟩ := by
    by_cases hl : features.length = targets.length
    · exact key features hl
    · exact other_or features targets con dev c (mirror c) _ 1 (by cases c <;> simp [mirror]) (fun f hf => key f hf) hl
  simpa using h1

/-- C253, order.  The order of the data is immaterial: the same pairs of features and target are kept. -/
theorem C253_order {α : Type} (features features' : List α) (targets targets' : List ℝ) (con dev : ℝ) (c : Constraint)
    (hl : features.length = targets.length) (hl' : features'.length = targets'.length)
    (hp : (features.zip targets).Perm (features'.zip targets')) :
    ∃ r r', removeOutliers features targets con dev c = .ok r ∧ removeOutliers features' targets' con dev c = .ok r' ∧ r.mad = r'.mad ∧
      (r.features.zip r.targets).Perm (r'.features.zip r'.targets) := by
  have zip_unzip : ∀ l : List (α × ℝ), (l.map Prod.fst).zip (l.map Prod.snd) = l := by
    intro l; induction l with
    | nil => rfl
    | cons a l ih => simp [ih]
  refine ⟨_, _, removeOutliers_eq features targets con dev c hl, removeOutliers_eq features' targets' con dev c hl', ?_, ?_⟩
  all_goals
    have ht : targets.Perm targets' := by
      have := hp.map Prod.snd
      rwa [List.map_snd_zip (by omega), List.map_snd_zip (by omega)] at this
    have hm := median_perm ht
    have hm' := median_perm (ht.map fun t => |t - median targets'|)
  · simp only [hm, hm']
  · simp only [hm, hm', zip_unzip]
    exact hp.filter _

example : (([1, 2, 3] : List ℕ).zip ([5, 6, 50] : List ℝ)).Perm (([2, 1, 3] : List ℕ).zip ([6, 5, 50] : List ℝ)) :=
  List.Perm.swap (2, 6) (1, 5) [(3, 50)]

example : (0 : ℝ) < 96 ∧ mirror .high = .low ∧ mirror .none = .none := ⟨by norm_num, rfl, rfl⟩

end CatLearn.Props
