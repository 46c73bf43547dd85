import Verif.Model.Curve
import Mathlib.Data.List.Perm.Basic
import Mathlib.Data.List.Nodup
import Mathlib.Algebra.Order.BigOperators.Group.List
import Mathlib.Algebra.BigOperators.Ring.List
import Mathlib.Analysis.SpecificLimits.Basic
import Mathlib.Tactic.Linarith
import Mathlib.Tactic.Ring
import Mathlib.Tactic.FieldSimp
import Mathlib.Tactic.Positivity

/-!
C179: the points of the learning curve.  C180: features selected with lasso.  C181: the coefficients behind an error.
-/

namespace CatLearn.Curve

/-! ### C179 -/

theorem groups_flatten (k : Nat) (cur xs : List (Nat × ℝ)) : (groups k cur xs).flatten = cur ++ xs := by
  induction xs generalizing k cur with
  | nil => simp [groups]
  | cons x xs ih =>
    unfold groups
    split
    · simp [ih]
    · simp [ih]

/-- C179: every result whose size is at least two, or that follows such a result, is used exactly once and in order;
results of size one or zero at the beginning are dropped without a message. -/
theorem C179_kept (xs : List (Nat × ℝ)) :
    (statGroups xs).flatten = xs.dropWhile fun x => decide (x.1 ≤ 1) := by
  have h : ∀ (cur xs : List (Nat × ℝ)),
      ((groups 0 cur xs).drop 1).flatten = xs.dropWhile fun x => decide (x.1 ≤ 1) := by
    intro cur xs
    induction xs generalizing cur with
    | nil => simp [groups]
    | cons x xs ih =>
      unfold groups
      by_cases hx : x.1 > 0 + 1
      · have : ¬ x.1 ≤ 1 := by omega
        simp [hx, this, groups_flatten]
      · have h1 : x.1 ≤ 1 := by omega
        rw [if_neg hx, ih, List.dropWhile_cons_of_pos (by simpa using h1)]
  exact h [] xs

example : (statGroups [(1, 5), (4, 2), (5, 3), (9, 1)]).flatten = [(4, 2), (5, 3), (9, 1)] := by
  rw [C179_kept]; simp [List.dropWhile]

theorem groups_append (k : Nat) (cur b xs : List (Nat × ℝ)) (h : ∀ x ∈ b, x.1 ≤ k + 1) :
    groups k cur (b ++ xs) = groups k (cur ++ b) xs := by
  induction b generalizing cur with
  | nil => simp
  | cons x b ih =>
    have hx : ¬ x.1 > k + 1 := by have := h x (by simp); omega
    rw [List.cons_append, groups, if_neg hx, ih _ fun y hy => h y (by simp [hy])]
    simp

/-- C179: if the results come level by level, with sizes that differ by at most one within a level and by more than two
between levels, every level is one point of the curve. -/
theorem C179_levels (L : List (Nat × List (Nat × ℝ)))
    (hL : ∀ p ∈ L, p.2 ≠ [] ∧ ∀ x ∈ p.2, p.1 ≤ x.1 ∧ x.1 ≤ p.1 + 1)
    (hs : L.Pairwise fun p q => p.1 + 2 < q.1) (h2 : ∀ p ∈ L, 2 ≤ p.1) :
    statGroups (L.flatMap (·.2)) = L.map (·.2) := by
  have key : ∀ (L : List (Nat × List (Nat × ℝ))) (k : Nat) (cur : List (Nat × ℝ)),
      (∀ p ∈ L, p.2 ≠ [] ∧ ∀ x ∈ p.2, p.1 ≤ x.1 ∧ x.1 ≤ p.1 + 1) →
      (L.Pairwise fun p q => p.1 + 2 < q.1) → (∀ p ∈ L, k + 1 < p.1) →
      groups k cur (L.flatMap (·.2)) = cur :: L.map (·.2) := by
    intro L
    induction L with
    | nil => intro k cur _ _ _; simp [groups]
    | cons p L ih =>
      intro k cur hL hs hk
      obtain ⟨m, b⟩ := p
      obtain ⟨hb, hbm⟩ := hL (m, b) (by simp)
      cases b with
      | nil => exact absurd rfl hb
      | cons x b =>
        have hx := hbm x (by simp)
        have hkm : k + 1 < m := hk (m, x :: b) (by simp)
        simp only at hx
        rw [List.flatMap_cons, List.cons_append, groups, if_pos (by omega),
          groups_append _ _ _ _ (fun y hy => by have := hbm y (by simp [hy]); simp only at this; omega),
          ih x.1 _ (fun q hq => hL q (by simp [hq])) (List.pairwise_cons.mp hs).2
            (fun q hq => by have := (List.pairwise_cons.mp hs).1 q hq; simp only at this; omega)]
        simp
  unfold statGroups
  rw [key L 0 [] hL hs (fun p hp => by have := h2 p hp; omega)]
  rfl

example : statGroups ([(5, 1), (6, 2), (5, 3)] ++ [(11, 4), (10, 5)]) =
    [[(5, 1), (6, 2), (5, 3)], [(11, 4), (10, 5)]] :=
  C179_levels [(5, [(5, 1), (6, 2), (5, 3)]), (10, [(11, 4), (10, 5)])] (by simp; constructor <;> intros <;> omega) (by simp)
    (by simp)

/-- C179 fails for results in order of decreasing size: they all become a single point, whatever their sizes. -/
theorem C179_decreasing_violated (x : Nat × ℝ) (xs : List (Nat × ℝ)) (hx : 2 ≤ x.1) (h : ∀ y ∈ xs, y.1 ≤ x.1) :
    statGroups (x :: xs) = [x :: xs] := by
  have := groups_append x.1 [x] xs [] (fun y hy => by have := h y hy; omega)
  unfold statGroups
  rw [groups, if_pos (by omega)]
  simp only [List.append_nil] at this
  rw [this]
  simp [groups]

example : statGroups [(40, 1), (20, 2), (5, 7)] = [[(40, 1), (20, 2), (5, 7)]] :=
  C179_decreasing_violated (40, 1) [(20, 2), (5, 7)] (by simp) (by simp)

/-- C179: the point of a group does not depend on the order of its results. -/
theorem C179_order (b : Bool) {g g' : List (Nat × ℝ)} (h : g.Perm g') : point b g = point b g' := by
  have hl := h.length_eq
  have h1 := (h.map fun x : Nat × ℝ => (x.1 : ℝ)).sum_eq
  have h2 := (h.map fun x : Nat × ℝ => x.2).sum_eq
  have h3 := fun c : ℝ => (h.map fun x : Nat × ℝ => (x.2 - c) ^ 2).sum_eq
  have he : g = [] ↔ g' = [] := by rw [← List.length_eq_zero_iff, hl, List.length_eq_zero_iff]
  unfold point
  simp only [hl, h1, h2, h3, he]

example : point true [(4, 2), (5, 3)] = point true [(5, 3), (4, 2)] := C179_order _ (List.Perm.swap _ _ _)

theorem sum_sq_shift (l : List ℝ) (c : ℝ) :
    (l.map fun y => (c - y) ^ 2).sum = l.length * c ^ 2 - 2 * c * l.sum + (l.map fun y => y ^ 2).sum := by
  induction l with
  | nil => simp
  | cons y l ih => simp only [List.map_cons, List.sum_cons, ih, List.length_cons]; push_cast; ring

theorem sum_sq_shift' (l : List ℝ) (c : ℝ) :
    (l.map fun y => (y - c) ^ 2).sum = (l.map fun y => y ^ 2).sum - 2 * c * l.sum + l.length * c ^ 2 := by
  induction l with
  | nil => simp
  | cons y l ih => simp only [List.map_cons, List.sum_cons, ih, List.length_cons]; push_cast; ring

theorem sum_pairs (l m : List ℝ) :
    (l.map fun x => (m.map fun y => (x - y) ^ 2).sum).sum =
      m.length * (l.map fun y => y ^ 2).sum - 2 * l.sum * m.sum + l.length * (m.map fun y => y ^ 2).sum := by
  induction l with
  | nil => simp
  | cons x l ih =>
    rw [List.map_cons, List.sum_cons, ih, sum_sq_shift]
    simp only [List.map_cons, List.sum_cons, List.length_cons]; push_cast; ring

/-- C179: the spread given with a point is that of its results: the squared differences of all ordered pairs of errors
add up to 2 n (n - 1) times its square; it is not negative. -/
theorem C179_spread (b : Bool) (g : List (Nat × ℝ)) (h2 : 2 ≤ g.length) :
    ∃ p s, point b g = .ok p ∧ p.std = some s ∧ 0 ≤ s ∧
      (g.map fun x => (g.map fun y => (x.2 - y.2) ^ 2).sum).sum = 2 * g.length * (g.length - 1) * s ^ 2 := by
  have hne : g ≠ [] := by rintro rfl; simp at h2
  have hn : (2 : ℝ) ≤ g.length := by exact_mod_cast h2
  unfold point
  simp only [hne, if_false, show g.length ≠ 1 by omega]
  refine ⟨_, _, rfl, rfl, Real.sqrt_nonneg _, ?_⟩
  set l := g.map fun x : Nat × ℝ => x.2 with hl
  have e1 : (g.map fun x => (g.map fun y => (x.2 - y.2) ^ 2).sum) =
      l.map fun x => (l.map fun y => (x - y) ^ 2).sum := by
    simp [hl, List.map_map, Function.comp_def]
  have e2 : ∀ c : ℝ, (g.map fun x => (x.2 - c) ^ 2) = l.map fun y => (y - c) ^ 2 := by
    intro c; simp [hl, List.map_map, Function.comp_def]
  have hlen : g.length = l.length := by simp [hl]
  rw [hlen] at hn
  rw [e1, e2, hlen]
  have hpos : 0 ≤ (l.map fun y => (y - l.sum / (l.length : ℝ)) ^ 2).sum :=
    List.sum_nonneg fun z hz => by
      obtain ⟨y, _, rfl⟩ := List.mem_map.mp hz
      positivity
  rw [Real.sq_sqrt (div_nonneg hpos (by linarith)), sum_pairs, sum_sq_shift']
  have h0 : (l.length : ℝ) ≠ 0 := by linarith
  have h1 : (l.length : ℝ) - 1 ≠ 0 := by intro h; linarith
  field_simp
  ring

example : ∃ p s, point false [(4, 2), (5, 3), (4, 7)] = .ok p ∧ p.std = some s ∧ 0 ≤ s ∧
    (([(4, 2), (5, 3), (4, 7)] : List (Nat × ℝ)).map fun x =>
      (([(4, 2), (5, 3), (4, 7)] : List (Nat × ℝ)).map fun y => (x.2 - y.2) ^ 2).sum).sum =
      2 * (3 : ℕ) * ((3 : ℕ) - 1) * s ^ 2 := C179_spread false [(4, 2), (5, 3), (4, 7)] (by simp)

/-- C179: the mean error of a point lies between any bounds on the errors of its group. -/
theorem C179_mean (b : Bool) (g : List (Nat × ℝ)) (p : Point) (lo hi : ℝ) (hp : point b g = .ok p)
    (h : ∀ x ∈ g, lo ≤ x.2 ∧ x.2 ≤ hi) : lo ≤ p.error ∧ p.error ≤ hi := by
  have hne : g ≠ [] := by rintro rfl; simp [point] at hp
  have hn : (0 : ℝ) < g.length := by exact_mod_cast List.length_pos_iff.mpr hne
  have he : p.error = (g.map fun x => x.2).sum / g.length := by
    unfold point at hp
    simp only [hne, if_false] at hp
    split at hp
    · split at hp
      · injection hp with hp; rw [← hp]
      · cases hp
    · injection hp with hp; rw [← hp]
  have key : ∀ g : List (Nat × ℝ), (∀ x ∈ g, lo ≤ x.2 ∧ x.2 ≤ hi) →
      g.length * lo ≤ (g.map fun x => x.2).sum ∧ (g.map fun x => x.2).sum ≤ g.length * hi := by
    intro g
    induction g with
    | nil => simp
    | cons x g ih =>
      intro hg
      have := ih fun y hy => hg y (by simp [hy])
      have hx := hg x (by simp)
      simp only [List.map_cons, List.sum_cons, List.length_cons]; push_cast
      constructor <;> nlinarith
  rw [he, le_div_iff₀ hn, div_le_iff₀ hn]
  have := key g h
  constructor <;> nlinarith

example (p : Point) (hp : point true [(4, 2), (5, 3)] = .ok p) : 2 ≤ p.error ∧ p.error ≤ 3 :=
  C179_mean true _ p 2 3 hp (by simp; norm_num)

/-- C179 fails for a level with a single result: its spread is nan, or an exception for python floats. -/
theorem C179_single_violated (s : Nat) (e : ℝ) (hs : 2 ≤ s) :
    getStatistic true [(s, e)] = .ok [⟨e, s, none⟩] ∧ getStatistic false [(s, e)] = .error .zeroDiv := by
  have h := C179_decreasing_violated (s, e) [] hs (by simp)
  unfold getStatistic
  rw [h]
  constructor
  · simp [point, pure, Except.pure, bind, Except.bind]
  · simp [point, bind, Except.bind]

example : getStatistic true [(7, 3)] = .ok [⟨3, (7 : Nat), none⟩] := (C179_single_violated 7 3 (by simp)).1

/-! ### C180 -/

theorem search_found (count : ℝ → Nat) (feat fuel : Nat) (alphas : List ℝ) (sp ie : Nat) (a : ℝ) (al : List ℝ)
    (h : search count feat fuel alphas sp ie = some (.ok (some a, al))) : count a = feat := by
  induction fuel generalizing alphas sp ie with
  | zero => simp [search] at h
  | succ fuel ih =>
    unfold search at h
    cases hf : alphaFinder count alphas feat with
    | some b =>
      simp only [hf, Option.some.injEq, Except.ok.injEq, Prod.mk.injEq] at h
      have := List.find?_some hf
      rw [← h.1]; simpa using this
    | none =>
      simp only [hf] at h
      split at h
      · split at h
        · simp at h
        · split at h
          · simp at h
          · exact ih _ _ _ h
      · simp at h

/-- C180: every set of features that is returned under the name `f` has exactly `f` features, and `f` lies strictly
between the two limits and is at most the number of features there are. -/
theorem C180_sizes (sel : ℝ → List Nat) (d lo hi fuel : Nat) (out : List (Nat × List Nat))
    (h : selection sel d lo hi fuel = some (.ok out)) :
    ∀ e ∈ out, e.2.length = e.1 ∧ lo < e.1 ∧ e.1 < hi ∧ 1 ≤ e.1 ∧ e.1 ≤ d := by
  have key : ∀ (fs : List Nat) (al : List ℝ) (acc : List (Nat × List Nat)), (∀ f ∈ fs, 1 ≤ f ∧ f ≤ d) →
      (∀ e ∈ acc, e.2.length = e.1 ∧ lo < e.1 ∧ e.1 < hi ∧ 1 ≤ e.1 ∧ e.1 ≤ d) →
      selectLoop (fun a => (sel a).length) sel lo hi fuel fs al acc = some (.ok out) →
      ∀ e ∈ out, e.2.length = e.1 ∧ lo < e.1 ∧ e.1 < hi ∧ 1 ≤ e.1 ∧ e.1 ≤ d := by
    intro fs
    induction fs with
    | nil =>
      intro al acc _ hacc h
      simp only [selectLoop, Option.some.injEq, Except.ok.injEq] at h
      rw [← h]; exact hacc
    | cons f fs ih =>
      intro al acc hfs hacc h
      have hfs' : ∀ f ∈ fs, 1 ≤ f ∧ f ≤ d := fun g hg => hfs g (by simp [hg])
      unfold selectLoop at h
      split at h
      · rename_i hl
        split at h
        · simp at h
        · simp at h
        · rename_i a al' hs
          refine ih _ _ hfs' ?_ h
          intro e he
          rcases List.mem_append.mp he with he | he
          · exact hacc e he
          · obtain rfl := List.mem_singleton.mp he
            exact ⟨search_found _ _ _ _ _ _ _ _ hs, hl.1, hl.2, hfs f (by simp)⟩
        · exact ih _ _ hfs' hacc h
      · exact ih _ _ hfs' hacc h
  refine key _ _ [] (fun f hf => ?_) (by simp) h
  rw [List.mem_range'_1] at hf
  omega

theorem linspace_mem (u : ℝ) (m : Nat) (a : ℝ) (ha : a ∈ Ridge.linspace u 0 m) :
    ∃ i, i < m ∧ a = u + (i : ℝ) * ((0 - u) / (m - 1 : ℕ)) := by
  unfold Ridge.linspace at ha
  obtain ⟨i, hi, rfl⟩ := List.mem_map.mp ha
  exact ⟨i, List.mem_range.mp hi, rfl⟩

/-- C180: if lasso never keeps as many features as the smallest number asked for, the selection ends in an `IndexError`
and not in an empty answer (for example for a target without variation). -/
theorem C180_too_few_violated (sel : ℝ → List Nat) (d lo hi fuel : Nat) (hd : lo < d) (hh : lo + 1 < hi)
    (hs : ∀ a, (sel a).length ≤ lo) : selection sel d lo hi (fuel + 1) = some (.error .index) := by
  have key : ∀ (fs : List Nat) (al : List ℝ) (acc : List (Nat × List Nat)), (lo + 1) ∈ fs →
      fs.Pairwise (· < ·) →
      selectLoop (fun a => (sel a).length) sel lo hi (fuel + 1) fs al acc = some (.error .index) := by
    intro fs
    induction fs with
    | nil => intro _ _ h; simp at h
    | cons f fs ih =>
      intro al acc hm hp
      unfold selectLoop
      by_cases hf : f = lo + 1
      · subst hf
        have h1 : alphaFinder (fun a => (sel a).length) al (lo + 1) = none := by
          unfold alphaFinder
          rw [List.find?_eq_none]
          intro a _
          have := hs a
          simp; omega
        have h2 : intervalModifier (fun a => (sel a).length) al (lo + 1) 10 0 = .error .index := by
          unfold intervalModifier
          have : (al.findIdx? fun a => decide ((sel a).length > lo + 1)) = none := by
            rw [List.findIdx?_eq_none_iff]
            intro a _
            have := hs a
            simp; omega
          rw [this]
        have h3 : search (fun a => (sel a).length) (lo + 1) (fuel + 1) al 10 0 = some (.error .index) := by
          unfold search
          rw [h1]
          simp only [Nat.lt_one_iff, if_true, h2]
        rw [if_pos ⟨by omega, hh⟩, h3]
      · have hm' : lo + 1 ∈ fs := by
          rcases List.mem_cons.mp hm with h | h
          · exact absurd h.symm hf
          · exact h
        have : f < lo + 1 := (List.pairwise_cons.mp hp).1 _ hm'
        rw [if_neg (by omega)]
        exact ih _ _ hm' (List.pairwise_cons.mp hp).2
  refine key _ _ [] ?_ List.pairwise_lt_range'
  rw [List.mem_range'_1]
  omega

example : selection (fun _ => []) 10 0 20 5 = some (.error .index) :=
  C180_too_few_violated _ 10 0 20 4 (by simp) (by simp) (by simp)

theorem linspace_length (u : ℝ) (m : Nat) : (Ridge.linspace u 0 m).length = m := by simp [Ridge.linspace]

theorem linspace_get (u : ℝ) (m i : Nat) (h : i < (Ridge.linspace u 0 m).length) :
    (Ridge.linspace u 0 m)[i] = u * (1 - (i : ℝ) / (m - 1 : ℕ)) := by
  simp only [Ridge.linspace, List.getElem_map, List.getElem_range]; ring

theorem linspace_pos (u : ℝ) (hu : 0 < u) (m i : Nat) (h : i < (Ridge.linspace u 0 m).length) (hi : i < m - 1) :
    0 < (Ridge.linspace u 0 m)[i] := by
  rw [linspace_get]
  have h1 : (0 : ℝ) < (m - 1 : ℕ) := by exact_mod_cast (by omega : 0 < m - 1)
  have h2 : (i : ℝ) / (m - 1 : ℕ) < 1 := by rw [div_lt_one h1]; exact_mod_cast hi
  exact mul_pos hu (by linarith)

theorem linspace_last (u : ℝ) (m : Nat) (h2 : 2 ≤ m) (h : m - 1 < (Ridge.linspace u 0 m).length) :
    (Ridge.linspace u 0 m)[m - 1] = 0 := by
  rw [linspace_get]
  have h1 : ((m - 1 : ℕ) : ℝ) ≠ 0 := by exact_mod_cast (by omega : m - 1 ≠ 0)
  rw [div_self h1]; ring

theorem linspace_le (u : ℝ) (hu : 0 < u) (m i : Nat) (h : i < (Ridge.linspace u 0 m).length) :
    (Ridge.linspace u 0 m)[i] ≤ u := by
  rw [linspace_get]
  have : (0 : ℝ) ≤ (i : ℝ) / (m - 1 : ℕ) := by positivity
  nlinarith

/-- One pass of the search when no alpha fits: either an error, or the search goes on from the alpha three places before
the first one with too many features (or from the first alpha). -/
theorem search_step (count : ℝ → Nat) (feat fuel : Nat) (u : ℝ) (m index : Nat) (hi : index < m)
    (hf : alphaFinder count (Ridge.linspace u 0 m) feat = none)
    (hx : (Ridge.linspace u 0 m).findIdx? (fun a => decide (count a > feat)) = some index) :
    search count feat (fuel + 1) (Ridge.linspace u 0 m) 10 0 =
      search count feat fuel
        (Ridge.linspace ((Ridge.linspace u 0 m)[index - 3]'(by rw [linspace_length]; omega)) 0
          (if index < 4 then 20 else 10)) (if index < 4 then 20 else 10) (if index < 4 then 1 else 0) := by
  have hlen := linspace_length u m
  rw [search, hf]
  simp only [Nat.lt_one_iff, if_true, intervalModifier, hx]
  by_cases h2 : index > 2
  · have hd : (Ridge.linspace u 0 m).drop (index - 3) =
        (Ridge.linspace u 0 m)[index - 3]'(by rw [hlen]; omega) ::
          (Ridge.linspace u 0 m).drop (index - 3 + 1) :=
      List.drop_eq_getElem_cons (by rw [hlen]; omega)
    simp only [h2, if_true]
    rw [hd]
  · have h0 : index - 3 = 0 := by omega
    have h4 : index < 4 := by omega
    simp only [h2, if_false, h4, if_true, h0]
    split
    · rename_i heq
      rw [heq] at hlen
      simp at hlen; omega
    · rename_i heq
      simp [heq]

/-- C180 fails: the search never ends if lasso keeps more features than wanted only without regularisation and fewer at
every positive alpha (in exact arithmetic; the interval shrinks to a third in every pass). -/
theorem C180_endless_violated (sel : ℝ → List Nat) (d lo hi : Nat) (hd : lo < d) (hh : lo + 1 < hi)
    (h0 : lo + 1 < (sel 0).length) (hs : ∀ a, 0 < a → (sel a).length ≤ lo) :
    ∀ fuel, selection sel d lo hi fuel = none := by
  have srch : ∀ (fuel : Nat) (u : ℝ) (m : Nat), 0 < u → 5 ≤ m →
      search (fun a => (sel a).length) (lo + 1) fuel (Ridge.linspace u 0 m) 10 0 = none := by
    intro fuel
    induction fuel with
    | zero => intro u m _ _; rfl
    | succ fuel ih =>
      intro u m hu hm
      have hlen := linspace_length u m
      have hf : alphaFinder (fun a => (sel a).length) (Ridge.linspace u 0 m) (lo + 1) = none := by
        unfold alphaFinder
        rw [List.find?_eq_none]
        intro a ha
        obtain ⟨i, hi', rfl⟩ := List.mem_iff_getElem.mp ha
        rw [hlen] at hi'
        by_cases hl : i < m - 1
        · have := hs _ (linspace_pos u hu m i (by rw [hlen]; exact hi') hl)
          simp; omega
        · have : i = m - 1 := by omega
          subst this
          rw [linspace_last u m (by omega)]
          simp; omega
      have hx : (Ridge.linspace u 0 m).findIdx? (fun a => decide ((sel a).length > lo + 1)) = some (m - 1) := by
        rw [List.findIdx?_eq_some_iff_getElem]
        refine ⟨by rw [hlen]; omega, ?_, ?_⟩
        · rw [linspace_last u m (by omega)]; simpa using h0
        · intro j hj
          have := hs _ (linspace_pos u hu m j (by rw [hlen]; omega) hj)
          simp; omega
      rw [search_step _ _ _ _ _ (m - 1) (by omega) hf hx]
      have h4 : ¬ m - 1 < 4 := by omega
      simp only [h4, if_false]
      exact ih _ 10 (linspace_pos u hu m _ (by rw [hlen]; omega) (by omega)) (by omega)
  intro fuel
  have key : ∀ (fs : List Nat) (acc : List (Nat × List Nat)), (lo + 1) ∈ fs → fs.Pairwise (· < ·) →
      selectLoop (fun a => (sel a).length) sel lo hi fuel fs (Ridge.linspace 1 0 100) acc = none := by
    intro fs
    induction fs with
    | nil => intro _ h; simp at h
    | cons f fs ih =>
      intro acc hm hp
      unfold selectLoop
      by_cases hf : f = lo + 1
      · subst hf
        rw [if_pos ⟨by omega, hh⟩, srch fuel 1 100 (by norm_num) (by norm_num)]
      · have hm' : lo + 1 ∈ fs := by
          rcases List.mem_cons.mp hm with h | h
          · exact absurd h.symm hf
          · exact h
        have : f < lo + 1 := (List.pairwise_cons.mp hp).1 _ hm'
        rw [if_neg (by omega)]
        exact ih _ hm' (List.pairwise_cons.mp hp).2
  refine key _ [] ?_ List.pairwise_lt_range'
  rw [List.mem_range'_1]
  omega

example : ∀ fuel, selection (fun a => if 0 < a then [3] else [0, 1, 2, 3]) 4 1 3 fuel = none :=
  C180_endless_violated _ 4 1 3 (by simp) (by simp) (by simp) (fun a ha => by simp [ha])

theorem search_done (count : ℝ → Nat) (feat fuel : Nat) (al : List ℝ) (sp ie : Nat) (h : 1 ≤ ie) :
    ∃ r, search count feat (fuel + 1) al sp ie = some (.ok (r, al)) := by
  unfold search
  cases alphaFinder count al feat with
  | some a => exact ⟨some a, rfl⟩
  | none => exact ⟨none, by simp [show ¬ ie < 1 by omega]⟩

theorem search_ends (count : ℝ → Nat) (feat : Nat) (a0 : ℝ) (ha0 : 0 < a0)
    (hc : ∀ a, 0 ≤ a → a ≤ a0 → feat < count a) (n : Nat) :
    ∀ (u : ℝ) (m fuel : Nat), 0 < u → 2 ≤ m → u ≤ a0 * (100 / 99) ^ n → m ≤ 100 → n + 2 ≤ fuel →
      ∃ r u' m', search count feat fuel (Ridge.linspace u 0 m) 10 0 = some (.ok (r, Ridge.linspace u' 0 m')) ∧
        0 < u' ∧ u' ≤ u ∧ 2 ≤ m' ∧ m' ≤ 100 := by
  induction n with
  | zero =>
    intro u m fuel hu hm hle hm2 hfuel
    obtain ⟨fuel, rfl⟩ : ∃ k, fuel = k + 2 := ⟨fuel - 2, by omega⟩
    have hlen := linspace_length u m
    cases hf : alphaFinder count (Ridge.linspace u 0 m) feat with
    | some a => exact ⟨some a, u, m, by rw [search, hf], hu, le_refl _, hm, hm2⟩
    | none =>
      have hx : (Ridge.linspace u 0 m).findIdx? (fun a => decide (count a > feat)) = some 0 := by
        rw [List.findIdx?_eq_some_iff_getElem]
        refine ⟨by rw [hlen]; omega, ?_, fun j hj => absurd hj (by omega)⟩
        have : (Ridge.linspace u 0 m)[0]'(by rw [hlen]; omega) = u := by rw [linspace_get]; simp
        rw [this]
        have := hc u hu.le (by simpa using hle)
        simpa using this
      rw [search_step _ _ _ _ _ 0 (by omega) hf hx]
      obtain ⟨r, hr⟩ := search_done count feat fuel
        (Ridge.linspace ((Ridge.linspace u 0 m)[0 - 3]'(by rw [hlen]; omega)) 0 (if 0 < 4 then 20 else 10)) 20 1
        (le_refl _)
      refine ⟨r, _, _, hr, linspace_pos u hu m _ (by rw [hlen]; omega) (by omega),
        linspace_le u hu m _ (by rw [hlen]; omega), by simp, by simp⟩
  | succ n ih =>
    intro u m fuel hu hm hle hm2 hfuel
    obtain ⟨fuel, rfl⟩ : ∃ k, fuel = k + 1 := ⟨fuel - 1, by omega⟩
    have hlen := linspace_length u m
    cases hf : alphaFinder count (Ridge.linspace u 0 m) feat with
    | some a => exact ⟨some a, u, m, by rw [search, hf], hu, le_refl _, hm, hm2⟩
    | none =>
      cases hx : (Ridge.linspace u 0 m).findIdx? (fun a => decide (count a > feat)) with
      | none =>
        exfalso
        rw [List.findIdx?_eq_none_iff] at hx
        have := hx _ (List.getElem_mem (show m - 1 < (Ridge.linspace u 0 m).length by rw [hlen]; omega))
        rw [linspace_last u m hm] at this
        have h0 := hc 0 (le_refl _) ha0.le
        simp at this; omega
      | some index =>
        obtain ⟨hi, hp, hj⟩ := List.findIdx?_eq_some_iff_getElem.mp hx
        have hi' : index < m := by rwa [hlen] at hi
        have hb : index - 3 < (Ridge.linspace u 0 m).length := by rw [hlen]; omega
        rw [search_step _ _ _ _ _ index hi' hf hx]
        have hpos := linspace_pos u hu m (index - 3) hb (by omega)
        have hleu := linspace_le u hu m (index - 3) hb
        by_cases h4 : index < 4
        · simp only [h4, if_true]
          obtain ⟨k, rfl⟩ : ∃ k, fuel = k + 1 := ⟨fuel - 1, by omega⟩
          obtain ⟨r, hr⟩ := search_done count feat k
            (Ridge.linspace ((Ridge.linspace u 0 m)[index - 3]'hb) 0 20) 20 1 (le_refl _)
          exact ⟨r, _, _, hr, hpos, hleu, by simp, by simp⟩
        · simp only [h4, if_false]
          have hsmall : (Ridge.linspace u 0 m)[index - 3] ≤ a0 * (100 / 99) ^ n := by
            have h1 : (Ridge.linspace u 0 m)[index - 3] ≤ u * (99 / 100) := by
              rw [linspace_get]
              have hm1 : (0 : ℝ) < (m - 1 : ℕ) := by exact_mod_cast (by omega : 0 < m - 1)
              have : (1 / 100 : ℝ) ≤ ((index - 3 : ℕ) : ℝ) / (m - 1 : ℕ) := by
                rw [le_div_iff₀ hm1]
                have a1 : (1 : ℝ) ≤ ((index - 3 : ℕ) : ℝ) := by exact_mod_cast (by omega : 1 ≤ index - 3)
                have a2 : ((m - 1 : ℕ) : ℝ) ≤ 100 := by exact_mod_cast (by omega : m - 1 ≤ 100)
                linarith
              nlinarith
            have h2 : u * (99 / 100) ≤ a0 * (100 / 99) ^ n := by
              have : a0 * (100 / 99 : ℝ) ^ (n + 1) = a0 * (100 / 99) ^ n * (100 / 99) := by ring
              rw [this] at hle
              linarith
            linarith
          obtain ⟨r, u', m', h, h1, h2, h3, h5⟩ := ih _ 10 fuel hpos (by omega) hsmall (by omega) (by omega)
          exact ⟨r, u', m', h, h1, le_trans h2 hleu, h3, h5⟩

/-- C180: the selection ends, without an exception, if there is a positive alpha up to which lasso keeps more features
than any number asked for.  What is missing for the full claim is `C180_too_few_violated` and
`C180_endless_violated`; numbers of features that lasso jumps over are left out of the answer. -/
theorem C180_ends_partial (sel : ℝ → List Nat) (d lo hi : Nat) (a0 : ℝ) (ha0 : 0 < a0)
    (hc : ∀ a, 0 ≤ a → a ≤ a0 → ∀ f, lo < f → f < hi → f ≤ d → f < (sel a).length) :
    ∃ N, ∀ fuel, N ≤ fuel → ∃ out, selection sel d lo hi fuel = some (.ok out) := by
  obtain ⟨n, hn⟩ := pow_unbounded_of_one_lt (1 / a0) (show (1 : ℝ) < 100 / 99 by norm_num)
  have hn' : (1 : ℝ) ≤ a0 * (100 / 99) ^ n := by
    rw [div_lt_iff₀ ha0] at hn; linarith
  refine ⟨n + 2, fun fuel hfuel => ?_⟩
  have key : ∀ (fs : List Nat) (u : ℝ) (m : Nat) (acc : List (Nat × List Nat)), (∀ f ∈ fs, f ≤ d) →
      0 < u → u ≤ 1 → 2 ≤ m → m ≤ 100 →
      ∃ out, selectLoop (fun a => (sel a).length) sel lo hi fuel fs (Ridge.linspace u 0 m) acc =
        some (.ok out) := by
    intro fs
    induction fs with
    | nil => intro u m acc _ _ _ _ _; exact ⟨acc, rfl⟩
    | cons f fs ih =>
      intro u m acc hd hu hu1 hm hm2
      have hd' : ∀ g ∈ fs, g ≤ d := fun g hg => hd g (by simp [hg])
      unfold selectLoop
      by_cases hl : lo < f ∧ f < hi
      · obtain ⟨r, u', m', h, h1, h2, h3, h4⟩ := search_ends (fun a => (sel a).length) f a0 ha0
          (fun a h0 h1 => hc a h0 h1 f hl.1 hl.2 (hd f (by simp))) n u m fuel hu hm (by linarith) hm2 hfuel
        rw [if_pos hl, h]
        cases r with
        | none => exact ih _ _ _ hd' h1 (by linarith) h3 h4
        | some a => exact ih _ _ _ hd' h1 (by linarith) h3 h4
      · rw [if_neg hl]
        exact ih _ _ _ hd' hu hu1 hm hm2
  refine key _ 1 100 [] (fun f hf => ?_) (by norm_num) (le_refl _) (by norm_num) (by norm_num)
  rw [List.mem_range'_1] at hf
  omega

example : ∃ N, ∀ fuel, N ≤ fuel → ∃ out,
    selection (fun a => if a ≤ 1 / 10 then [0, 1, 2, 3] else [2]) 4 0 3 fuel = some (.ok out) :=
  C180_ends_partial _ 4 0 3 (1 / 10) (by norm_num) (fun a _ h f _ h2 _ => by
    have : a ≤ 10⁻¹ := by simpa using h
    simp [this]; omega)

/-- C180: a set of a certain size that lasso finds on the first grid is returned. -/
theorem C180_found (sel : ℝ → List Nat) (d lo fuel : Nat) (hd : lo < d) (i : Nat) (hi : i < 100)
    (h : (sel (1 - (i : ℝ) / 99)).length = lo + 1) :
    ∃ s, selection sel d lo (lo + 2) (fuel + 1) = some (.ok [(lo + 1, s)]) ∧ s.length = lo + 1 := by
  have hlen := linspace_length 1 100
  obtain ⟨a, ha⟩ : ∃ a, alphaFinder (fun a => (sel a).length) (Ridge.linspace 1 0 100) (lo + 1) = some a := by
    rw [← Option.isSome_iff_exists, alphaFinder, List.find?_isSome]
    refine ⟨_, List.getElem_mem (show i < (Ridge.linspace 1 0 100).length by rw [hlen]; exact hi), ?_⟩
    rw [linspace_get]
    norm_num at h ⊢
    exact h
  have hs : search (fun a => (sel a).length) (lo + 1) (fuel + 1) (Ridge.linspace 1 0 100) 10 0 =
      some (.ok (some a, Ridge.linspace 1 0 100)) := by rw [search, ha]
  have after : ∀ (fs : List Nat) (al : List ℝ) (acc : List (Nat × List Nat)), (∀ f ∈ fs, lo + 1 < f) →
      selectLoop (fun a => (sel a).length) sel lo (lo + 2) (fuel + 1) fs al acc = some (.ok acc) := by
    intro fs
    induction fs with
    | nil => intro al acc _; rfl
    | cons f fs ih =>
      intro al acc hf
      have := hf f (by simp)
      rw [selectLoop, if_neg (by omega)]
      exact ih _ _ fun g hg => hf g (by simp [hg])
  have key : ∀ (fs : List Nat), (lo + 1) ∈ fs → fs.Pairwise (· < ·) →
      selectLoop (fun a => (sel a).length) sel lo (lo + 2) (fuel + 1) fs (Ridge.linspace 1 0 100) [] =
        some (.ok [(lo + 1, sel a)]) := by
    intro fs
    induction fs with
    | nil => intro h; simp at h
    | cons f fs ih =>
      intro hm hp
      obtain ⟨hp1, hp2⟩ := List.pairwise_cons.mp hp
      rw [selectLoop]
      by_cases hf : f = lo + 1
      · subst hf
        rw [if_pos ⟨by omega, by omega⟩, hs]
        exact after fs _ _ hp1
      · have hm' : lo + 1 ∈ fs := by
          rcases List.mem_cons.mp hm with h | h
          · exact absurd h.symm hf
          · exact h
        have : f < lo + 1 := hp1 _ hm'
        rw [if_neg (by omega)]
        exact ih hm' hp2
  refine ⟨sel a, key _ ?_ List.pairwise_lt_range', search_found _ _ _ _ _ _ _ _ hs⟩
  rw [List.mem_range'_1]
  omega

example : ∃ s, selection (fun a => if a ≤ 1 / 10 then [0, 1, 2, 3] else [2]) 4 0 2 1 = some (.ok [(1, s)]) ∧
    s.length = 1 := C180_found _ 4 0 0 (by simp) 0 (by simp) (by norm_num)

example : ∃ out, selection (fun a => if a ≤ 1 / 10 then [0, 1, 2, 3] else [2]) 4 0 2 1 = some (.ok out) ∧
    ∀ e ∈ out, e.2.length = e.1 ∧ 0 < e.1 ∧ e.1 < 2 ∧ 1 ≤ e.1 ∧ e.1 ≤ 4 := by
  obtain ⟨s, h, _⟩ := C180_found (fun a => if a ≤ 1 / 10 then [0, 1, 2, 3] else [2]) 4 0 0 (by simp) 0 (by simp)
    (by norm_num)
  exact ⟨_, h, C180_sizes _ _ _ _ _ _ h⟩

/-! ### C181 -/

/-- The test subsets of a training subset. -/
def others (k : Nat × Nat) : List (Nat × Nat) :=
  ((List.range' 1 (2 ^ k.1)).filter fun s => s ≠ k.2).map fun s => (k.1, s)

theorem predict_false {κ γ : Type} (fit : κ → γ) (k : κ) (r : Fit κ γ) (ts : List κ) (rs : List (Fit κ γ)) :
    predictSubsets fit k false ts (r :: rs) = .ok (r :: rs ++ ts.map fun t => ⟨k, t, r.coef⟩) := by
  induction ts generalizing rs with
  | nil => simp [predictSubsets]
  | cons t ts ih =>
    rw [predictSubsets]
    simp only [regDataVar, Bool.false_eq_true, if_false, List.cons_append, ih]
    simp

theorem hierarchy_later {γ : Type} (fit : Nat × Nat → γ) (ks : List (Nat × Nat)) (r : Fit (Nat × Nat) γ)
    (rs : List (Fit (Nat × Nat) γ)) :
    hierarchy fit ks (r :: rs) = .ok (r :: rs ++ ks.flatMap fun k =>
      match others k with
      | [] => []
      | t :: ts => ⟨k, t, fit k⟩ :: ts.map fun s => ⟨k, s, r.coef⟩) := by
  induction ks generalizing rs with
  | nil => simp [hierarchy]
  | cons k ks ih =>
    rw [hierarchy]
    change (match predictSubsets fit k true (others k) (r :: rs) with
      | .error e => Except.error e
      | .ok r => hierarchy fit ks r) = _
    rw [List.flatMap_cons]
    cases ho : others k with
    | nil => simp [predictSubsets, ih]
    | cons t ts =>
      rw [predictSubsets]
      simp only [regDataVar, if_true, List.cons_append, predict_false, ih]
      simp

theorem others_ne_nil (k : Nat × Nat) (h : 1 ≤ k.1) : others k ≠ [] := by
  have h2 : 2 ≤ 2 ^ k.1 := by
    calc 2 = 2 ^ 1 := rfl
      _ ≤ 2 ^ k.1 := Nat.pow_le_pow_right (by omega) h
  intro h0
  have hm : ∀ s, 1 ≤ s → s ≤ 2 ^ k.1 → s = k.2 := by
    intro s h1 hs
    by_contra hne
    have : (k.1, s) ∈ others k := by
      refine List.mem_map.mpr ⟨s, List.mem_filter.mpr ⟨?_, by simpa using hne⟩, rfl⟩
      rw [List.mem_range'_1]; omega
    rw [h0] at this
    simp at this
  have a := hm 1 (by omega) (by omega)
  have b := hm 2 (by omega) h2
  omega

/-- The results of a run, in order. -/
theorem hierarchy_eq {γ : Type} (fit : Nat × Nat → γ) (k : Nat × Nat) (ks : List (Nat × Nat)) (h : 1 ≤ k.1) :
    hierarchy fit (k :: ks) [] = .ok ((others k).map (fun t => ⟨k, t, fit k⟩) ++ ks.flatMap fun k' =>
      match others k' with
      | [] => []
      | t :: ts => ⟨k', t, fit k'⟩ :: ts.map fun s => ⟨k', s, fit k⟩) := by
  rw [hierarchy]
  change (match predictSubsets fit k true (others k) [] with
    | .error e => Except.error e
    | .ok r => hierarchy fit ks r) = _
  cases ho : others k with
  | nil => exact absurd ho (others_ne_nil k h)
  | cons t ts =>
    rw [predictSubsets]
    simp only [regDataVar, if_true, List.nil_append, predict_false, List.cons_append, hierarchy_later]
    simp

/-- C181: every training subset is tested on every other subset of its level exactly as often as it is listed, and on
nothing else. -/
theorem C181_pairs {γ : Type} (fit : Nat × Nat → γ) (ks : List (Nat × Nat)) (hk : ∀ k ∈ ks, 1 ≤ k.1) :
    ∃ rs, hierarchy fit ks [] = .ok rs ∧
      rs.map (fun r => (r.train, r.test)) = ks.flatMap fun k =>
        ((List.range' 1 (2 ^ k.1)).filter fun s => s ≠ k.2).map fun s => (k, (k.1, s)) := by
  have he : ∀ k : Nat × Nat, (((List.range' 1 (2 ^ k.1)).filter fun s => s ≠ k.2).map fun s => (k, (k.1, s))) =
      (others k).map fun t => (k, t) := by
    intro k; simp [others, List.map_map, Function.comp_def]
  cases ks with
  | nil => exact ⟨[], rfl, rfl⟩
  | cons k ks =>
    refine ⟨_, hierarchy_eq fit k ks (hk k (by simp)), ?_⟩
    simp only [he]
    rw [List.flatMap_cons, List.map_append, List.map_map, List.map_flatMap]
    congr 1
    congr 1
    funext k'
    cases others k' with
    | nil => rfl
    | cons t ts => simp [List.map_map, Function.comp_def]

example : ∃ rs, hierarchy (fun k => k.2) [(1, 2), (1, 1)] [] = .ok rs ∧
    rs.map (fun r => (r.train, r.test)) = [((1, 2), (1, 1)), ((1, 1), (1, 2))] :=
  C181_pairs (fun k => k.2) [(1, 2), (1, 1)] (by simp)

/-- C181, what holds: the errors of the subset treated first, and the first error of every other subset, belong to the
model trained on that subset. -/
theorem C181_coefficients_partial {γ : Type} (fit : Nat × Nat → γ) (k : Nat × Nat) (ks : List (Nat × Nat))
    (h : 1 ≤ k.1) :
    ∃ rs, hierarchy fit (k :: ks) [] = .ok rs ∧ (∀ r ∈ rs, r.train = k → r.coef = fit k) ∧
      ∀ k' ∈ ks, 1 ≤ k'.1 → ∃ r ∈ rs, r.train = k' ∧ r.coef = fit k' := by
  refine ⟨_, hierarchy_eq fit k ks h, ?_, ?_⟩
  · intro r hr hrk
    rcases List.mem_append.mp hr with hr | hr
    · obtain ⟨t, _, rfl⟩ := List.mem_map.mp hr
      rfl
    · obtain ⟨k', _, hr⟩ := List.mem_flatMap.mp hr
      cases ho : others k' with
      | nil => simp [ho] at hr
      | cons t ts =>
        simp only [ho, List.mem_cons, List.mem_map] at hr
        rcases hr with rfl | ⟨s, _, rfl⟩
        · simp only at hrk; rw [hrk]
        · rfl
  · intro k' hk' h1
    cases ho : others k' with
    | nil => exact absurd ho (others_ne_nil k' h1)
    | cons t ts =>
      refine ⟨⟨k', t, fit k'⟩, List.mem_append_right _ (List.mem_flatMap.mpr ⟨k', hk', ?_⟩), rfl, rfl⟩
      simp [ho]

example : ∃ rs, hierarchy (fun k => k.2) [(2, 4), (2, 3)] [] = .ok rs ∧ (∀ r ∈ rs, r.train = (2, 4) → r.coef = 4) ∧
    ∀ k' ∈ [(2, 3)], 1 ≤ k'.1 → ∃ r ∈ rs, r.train = k' ∧ r.coef = k'.2 :=
  C181_coefficients_partial (fun k => k.2) (2, 4) [(2, 3)] (by simp)

/-- C181 fails: every later subset of a level with at least four subsets has errors computed with the coefficients of the
very first model of the run (`result[0][4]`), not with its own. -/
theorem C181_stale_violated {γ : Type} (fit : Nat × Nat → γ) (k : Nat × Nat) (ks : List (Nat × Nat)) (h : 1 ≤ k.1)
    (k' : Nat × Nat) (hk' : k' ∈ ks) (h2 : 2 ≤ k'.1) (hne : fit k' ≠ fit k) :
    ∃ rs, hierarchy fit (k :: ks) [] = .ok rs ∧ ∃ r ∈ rs, r.train = k' ∧ r.coef = fit k ∧ r.coef ≠ fit r.train := by
  refine ⟨_, hierarchy_eq fit k ks h, ?_⟩
  have h4 : 4 ≤ 2 ^ k'.1 := by
    calc 4 = 2 ^ 2 := rfl
      _ ≤ 2 ^ k'.1 := Nat.pow_le_pow_right (by omega) h2
  have hmem : ∀ s, 1 ≤ s → s ≤ 2 ^ k'.1 → s ≠ k'.2 → (k'.1, s) ∈ others k' := by
    intro s h1 hs hn
    refine List.mem_map.mpr ⟨s, List.mem_filter.mpr ⟨?_, by simpa using hn⟩, rfl⟩
    rw [List.mem_range'_1]; omega
  cases ho : others k' with
  | nil => exact absurd ho (others_ne_nil k' (by omega))
  | cons t ts =>
    have : ∃ s, s ∈ ts := by
      cases ts with
      | cons s ts => exact ⟨s, by simp⟩
      | nil =>
        exfalso
        have one : ∀ s, 1 ≤ s → s ≤ 2 ^ k'.1 → s ≠ k'.2 → s = t.2 := by
          intro s a b c
          have := hmem s a b c
          rw [ho, List.mem_singleton] at this
          rw [← this]
        by_cases c1 : k'.2 = 1
        · have a := one 2 (by omega) (by omega) (by omega)
          have b := one 3 (by omega) (by omega) (by omega)
          omega
        · have a := one 1 (by omega) (by omega) (by omega)
          by_cases c2 : k'.2 = 2
          · have b := one 3 (by omega) (by omega) (by omega)
            omega
          · have b := one 2 (by omega) (by omega) (by omega)
            omega
    obtain ⟨s, hs⟩ := this
    refine ⟨⟨k', s, fit k⟩, List.mem_append_right _ (List.mem_flatMap.mpr ⟨k', hk', ?_⟩), rfl, rfl, fun e => hne e.symm⟩
    simp only [ho, List.mem_cons, List.mem_map]
    exact Or.inr ⟨s, hs, rfl⟩

example : ∃ rs, hierarchy (fun k => k.2) [(2, 4), (2, 3), (2, 2), (2, 1)] [] = .ok rs ∧
    ∃ r ∈ rs, r.train = (2, 1) ∧ r.coef = 4 ∧ r.coef ≠ r.train.2 :=
  C181_stale_violated (fun k => k.2) (2, 4) [(2, 3), (2, 2), (2, 1)] (by simp) (2, 1) (by simp) (by simp) (by simp)

end CatLearn.Curve
