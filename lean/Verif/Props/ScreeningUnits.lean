import Verif.Model.ScreeningExt
import Verif.Props.Correlation
import Verif.Props.Screening
import Mathlib.Algebra.BigOperators.Fin

/-!
# C252: screening and the units and zeros of features and target
-/

namespace CatLearn.Props

open CatLearn CatLearn.Screen CatLearn.Correlation

/-- A coefficient after a change of unit and zero of both columns: the sign may change. -/
private theorem coef_affine {n : ℕ} (k : Kind) (x y : Fin n → ℝ) (a b c e : ℝ) (ha : a ≠ 0) (hc : c ≠ 0) :
    |(coef k (fun i => a * x i + b) fun i => c * y i + e).getD 0| = |(coef k x y).getD 0| := by
  have one : ∀ (x y : Fin n → ℝ) (a b : ℝ), a ≠ 0 → |(coef k (fun i => a * x i + b) y).getD 0| = |(coef k x y).getD 0| := by
    intro x y a b ha
    rcases lt_or_gt_of_ne ha with h | h
    · have h1 := C214_units k (fun i => -x i) y (-a) b 1 0 (by linarith) one_pos
      have h2 := C214_reversed k x y
      simp only [neg_mul_neg, one_mul, add_zero] at h1
      rw [h1, h2]
      cases coef k x y <;> simp
    · have h1 := C214_units k x y a b 1 0 h one_pos
      simp only [one_mul, add_zero] at h1
      rw [h1]
  rw [one x _ a b ha, C214_symmetric k x, one y x c e hc, C214_symmetric k y]

private theorem coefOf_affine (k : Kind) (d t : Col) (a b c e : ℝ) (ha : a ≠ 0) (hc : c ≠ 0) (hl : d.length = t.length) :
    |coefOf (fun {n} => coef (n := n) k) (d.map fun v => a * v + b) (t.map fun v => c * v + e)| = |coefOf (fun {n} => coef (n := n) k) d t| := by
  have cast : ∀ (m : ℕ) (h : m = d.length) (x y : Fin m → ℝ) (x' y' : Fin d.length → ℝ), (∀ i, x i = x' (i.cast h)) → (∀ i, y i = y' (i.cast h)) →
      coef k x y = coef k x' y' := by
    intro m h x y x' y' hx hy
    subst h
    congr
    · funext i; exact hx i
    · funext i; exact hy i
  unfold coefOf
  rw [← coef_affine k d.get (fun i => t.getD i 0) a b c e ha hc]
  congr 2
  apply cast _ (by simp)
  · intro i
    simp
  · intro i
    have hi : (i : ℕ) < t.length := by
      have := i.2
      simp only [List.length_map] at this
      omega
    simp [List.getD_eq_getElem?_getD, hi]

private theorem orderByAbs_congr {v w : List ℝ} (h : v.map (fun r => |r|) = w.map fun r => |r|) : orderByAbs v = orderByAbs w := by
  have hg : ∀ i, |v.getD i 0| = |w.getD i 0| := by
    intro i
    have := congrArg (fun l : List ℝ => l[i]?) h
    simp only [List.getElem?_map] at this
    rw [List.getD_eq_getElem?_getD, List.getD_eq_getElem?_getD]
    cases hv : v[i]? <;> cases hw : w[i]? <;> simp_all
  unfold orderByAbs
  have hl : v.length = w.length := by simpa using congrArg List.length h
  rw [hl]
  congr 1
  funext i
  exact hg i

/-- C252 (partial: the test for constant features must give the same answers in both units, see below).  Expressing features and target in other units and with other zeros, also with the
sign reversed, changes neither the order, nor the strengths of the correlations, nor the number of features that screening suggests. -/
theorem C252_units_partial (lin : List Col → Col → List ℝ) (c : String) (rc : Bool) (fresh : Nat → List Col) (n : Nat) (t : Col) (cols : List Col)
    (α β : ℕ → ℝ) (γ δ : ℝ) (hα : ∀ i, α i ≠ 0) (hγ : γ ≠ 0) (hlen : ∀ d ∈ cols, d.length = t.length)
    (hfresh : ∀ r, ∀ d ∈ fresh r, d.length = t.length)
    (hconst : ∀ (i : ℕ) (d : Col), cols[i]? = some d → allclose (d.map fun v => α i * v + β i) = allclose d) :
    screen (scipy lin) c rc fresh (t.map fun v => γ * v + δ) n (cols.mapIdx fun i d => d.map fun v => α i * v + β i) =
      screen (scipy lin) c rc fresh t n cols := by
  -- one column
  have hone : ∀ (d : Col) (a b : ℝ), a ≠ 0 → d.length = t.length → allclose (d.map fun v => a * v + b) = allclose d →
      ∃ r r', corrOf (scipy lin) c (t.map fun v => γ * v + δ) (d.map fun v => a * v + b) = some r' ∧ corrOf (scipy lin) c t d = some r ∧ |r'| = |r| := by
    intro d a b ha hd hcl
    have hk := fun k => coefOf_affine k d t a b γ δ ha hγ hd
    unfold corrOf
    simp only [scipy, hcl]
    by_cases h0 : allclose d = true
    · simp [h0]
    · by_cases h1 : c = "pearson"
      · subst h1
        simp only [h0, Bool.false_eq_true, if_false, ne_eq, not_true_eq_false]
        rw [if_pos (by decide)]
        exact ⟨_, _, rfl, rfl, hk .spearman⟩
      · simp only [h0, Bool.false_eq_true, if_false, ne_eq, h1, not_false_eq_true, if_true]
        exact ⟨_, _, rfl, rfl, hk .pearson⟩
  -- all columns
  have hall : ∀ l : List (Col × Col), (∀ p ∈ l, ∃ r r', corrOf (scipy lin) c (t.map fun v => γ * v + δ) p.2 = some r' ∧
      corrOf (scipy lin) c t p.1 = some r ∧ |r'| = |r|) →
      (getCorrelation (scipy lin) c (t.map fun v => γ * v + δ) (l.map Prod.snd)).map (fun r => |r|) =
        (getCorrelation (scipy lin) c t (l.map Prod.fst)).map fun r => |r| := by
    intro l hl
    induction l with
    | nil => rfl
    | cons p l ih =>
      obtain ⟨r, r', h1, h2, h3⟩ := hl p (by simp)
      have ih := ih fun q hq => hl q (by simp [hq])
      unfold getCorrelation at ih ⊢
      simp only [List.map_cons, List.filterMap_cons, h1, h2, h3, ih]
  have hcore : ∀ (extra : List Col) (randf : List Nat), (∀ d ∈ extra, d.length = t.length) →
      screenCore (scipy lin) c (t.map fun v => γ * v + δ) n ((cols.mapIdx fun i d => d.map fun v => α i * v + β i) ++ extra) randf =
        screenCore (scipy lin) c t n (cols ++ extra) randf := by
    intro extra randf hextra
    have key := hall ((cols.mapIdx fun i d => (d, d.map fun v => α i * v + β i)) ++ extra.map fun d => (d, d)) (by
      intro p hp
      rcases List.mem_append.mp hp with hp | hp
      · rw [List.mem_mapIdx] at hp
        obtain ⟨i, hi, rfl⟩ := hp
        exact hone _ _ _ (hα i) (hlen _ (List.getElem_mem hi)) (hconst i _ (List.getElem?_eq_getElem hi))
      · obtain ⟨d, hd, rfl⟩ := List.mem_map.mp hp
        have := hone d 1 0 one_ne_zero (hextra d hd) (by simp)
        simpa using this)
    have e1 : ((cols.mapIdx fun i d => (d, d.map fun v => α i * v + β i)) ++ extra.map fun d => (d, d)).map Prod.snd =
        (cols.mapIdx fun i d => d.map fun v => α i * v + β i) ++ extra := by
      rw [List.map_append, List.map_map]
      congr 1
      · apply List.ext_getElem <;> simp
      · simp [Function.comp_def]
    have e2 : ((cols.mapIdx fun i d => (d, d.map fun v => α i * v + β i)) ++ extra.map fun d => (d, d)).map Prod.fst = cols ++ extra := by
      rw [List.map_append, List.map_map]
      congr 1
      · apply List.ext_getElem <;> simp
      · simp [Function.comp_def]
    rw [e1, e2] at key
    unfold screenCore
    have hnil : (cols.mapIdx fun i d => d.map fun v => α i * v + β i) ++ extra = [] ↔ cols ++ extra = [] := by simp
    by_cases h : cols ++ extra = []
    · rw [if_pos h, if_pos (hnil.mpr h)]
    · rw [if_neg h, if_neg fun h' => h (hnil.mp h')]
      have ho := orderByAbs_congr key
      simp only [ho]
      congr 2
      apply List.map_congr_left
      intro i _
      have := congrArg (fun l : List ℝ => l[i]?) key
      simp only [List.getElem?_map] at this
      rw [List.getD_eq_getElem?_getD, List.getD_eq_getElem?_getD]
      generalize (getCorrelation (scipy lin) c (t.map fun v => γ * v + δ) _)[i]? = u at this ⊢
      generalize (getCorrelation (scipy lin) c t _)[i]? = w at this ⊢
      cases u <;> cases w <;> simp_all
  unfold screen setIndex
  cases rc with
  | false =>
    have := hcore [] [] (by simp)
    simpa [bind, Except.bind] using this
  | true =>
    simp only [if_true, List.length_mapIdx, bind, Except.bind]
    by_cases h : cols.length / 10 = 0
    · simp only [h, if_true]
    · simp only [h, if_false]
      exact hcore _ _ (hfresh _)

theorem coefOf3 (f : {n : ℕ} → (Fin n → ℝ) → (Fin n → ℝ) → Option ℝ) (a b c x y z : ℝ) :
    coefOf f [a, b, c] [x, y, z] = (f ![a, b, c] ![x, y, z]).getD 0 := by
  unfold coefOf
  show (f (n := 3) _ _).getD 0 = _
  congr 2
  · funext i; fin_cases i <;> rfl
  · funext i; fin_cases i <;> rfl

theorem pearson3 (x y : Fin 3 → ℝ) (hx : ∃ i j, x i ≠ x j) (hy : ∃ i j, y i ≠ y j) :
    ∃ r, pearson x y = some r ∧ -1 ≤ r ∧ r ≤ 1 ∧ (r = 1 ↔ ∃ a > 0, ∃ b, ∀ i, y i = a * x i + b) := by
  obtain ⟨r, h1, h2, h3⟩ := (C214_range .pearson x y).1 ⟨hx, hy⟩
  refine ⟨r, h1, h2, h3, ?_⟩
  rw [← (C214_perfect x y hx hy).1]
  have : pearson x y = some r := h1
  rw [this, Option.some.injEq]

theorem order_two (lin : List Col → Col → List ℝ) (fresh : Nat → List Col) (t d e : Col) (n : ℕ)
    (u v : ℝ) (hu : corrOf (scipy lin) "spearman" t d = some u) (hv : corrOf (scipy lin) "spearman" t e = some v) (h : |u| < |v|) :
    (∃ r, screen (scipy lin) "spearman" false fresh t n [d, e] = .ok r ∧ r.index = [1, 0]) ∧
      ∃ r, screen (scipy lin) "spearman" false fresh t n [e, d] = .ok r ∧ r.index = [0, 1] := by
  have two : ∀ l : List ℕ, l.Perm (List.range 2) → l = [0, 1] ∨ l = [1, 0] := by
    intro l hl
    have hl' : l.Perm [0, 1] := hl
    have h2 : l.length = 2 := hl'.length_eq
    match l, h2 with
    | [a, b], _ =>
      have ha : a ∈ [0, 1] := hl'.mem_iff.mp (by simp)
      have hb : b ∈ [0, 1] := hl'.mem_iff.mp (by simp)
      have hnd : [a, b].Nodup := hl'.nodup_iff.mpr (by decide)
      simp at ha hb hnd
      rcases ha with rfl | rfl <;> rcases hb with rfl | rfl <;> simp_all
  have hval : ∀ d r, corrOf (scipy lin) "spearman" t d = some r →
      (if (scipy lin).isConst d then (0 : ℝ) else if "spearman" = "pearson" then (scipy lin).spearmanr d t else (scipy lin).pearsonr d t) = r := by
    intro d r hr
    unfold corrOf at hr
    by_cases h0 : (scipy lin).isConst d = true
    · simp only [h0, if_true, Option.some.injEq] at hr ⊢
      exact hr
    · rw [if_neg h0, if_pos (by decide)] at hr
      rw [if_neg h0, if_neg (by decide)]
      exact Option.some.inj hr
  constructor
  · obtain ⟨r, h1, h2, h3, -⟩ := C27_screen_partial (scipy lin) "spearman" fresh t n [d, e] (by simp)
    refine ⟨r, h1, (two _ h2).resolve_left fun h0 => ?_⟩
    rw [h0] at h3
    have := (List.pairwise_cons.mp h3).1 1 (by simp) d e rfl rfl
    rw [hval d u hu, hval e v hv] at this
    linarith
  · obtain ⟨r, h1, h2, h3, -⟩ := C27_screen_partial (scipy lin) "spearman" fresh t n [e, d] (by simp)
    refine ⟨r, h1, (two _ h2).resolve_right fun h0 => ?_⟩
    rw [h0] at h3
    have := (List.pairwise_cons.mp h3).1 0 (by simp) d e rfl rfl
    rw [hval d u hu, hval e v hv] at this
    linarith

theorem corr_const (lin : List Col → Col → List ℝ) (t d : Col) (h : allclose d = true) :
    corrOf (scipy lin) "spearman" t d = some 0 := by
  unfold corrOf
  exact if_pos h

theorem corr_pearson (lin : List Col → Col → List ℝ) (t d : Col) (h : allclose d = false) :
    corrOf (scipy lin) "spearman" t d = some (coefOf pearson d t) := by
  unfold corrOf
  rw [if_neg (by simp [scipy, h]), if_pos (by decide)]
  rfl

private theorem other : ∃ v, coefOf pearson [0, 1, 0] [0, 1, -1] = v ∧ v ≠ 0 ∧ |v| < 1 := by
  obtain ⟨r, h1, h2, h3, h4⟩ := pearson3 ![0, 1, 0] ![0, 1, -1] ⟨0, 1, by simp⟩ ⟨0, 1, by simp⟩
  have hpos : 0 < r := by
    have h1' := h1
    unfold pearson at h1'
    simp only at h1'
    split at h1'
    · cases h1'
    · rename_i hne
      push Not at hne
      have s1 := Real.sqrt_pos.mpr (lt_of_le_of_ne (Finset.sum_nonneg fun i _ => sq_nonneg _) (Ne.symm hne.1))
      have s2 := Real.sqrt_pos.mpr (lt_of_le_of_ne (Finset.sum_nonneg fun i _ => sq_nonneg _) (Ne.symm hne.2))
      rw [← Option.some.inj h1']
      refine div_pos ?_ (mul_pos s1 s2)
      simp [mean, Fin.sum_univ_three]
  refine ⟨r, by rw [coefOf3, h1]; rfl, hpos.ne', ?_⟩
  · rw [abs_lt]
    constructor
    · linarith
    · refine lt_of_le_of_ne h3 fun h => ?_
      obtain ⟨a, -, b, hb⟩ := h4.mp h
      have b0 := hb 0
      have b2 := hb 2
      simp at b0 b2
      linarith

/-- C252 is violated for another zero: the test for constant features is relative to the first value.  A feature that is the
target itself but for its unit and zero comes last if it is measured from a distant zero, and first otherwise. -/
theorem C252_zero_violated (lin : List Col → Col → List ℝ) (fresh : Nat → List Col) :
    (∃ r, screen (scipy lin) "spearman" false fresh [0, 1, -1] 3 [[1000, 1000 + 1 / 200, 1000 - 1 / 200], [0, 1, 0]] = .ok r ∧ r.index = [1, 0]) ∧
      ∃ r, screen (scipy lin) "spearman" false fresh [0, 1, -1] 3 [[0, 1 / 200, -1 / 200], [0, 1, 0]] = .ok r ∧ r.index = [0, 1] := by
  obtain ⟨v, hv, hv0, hv1⟩ := other
  have c1 : allclose [1000, 1000 + 1 / 200, 1000 - 1 / 200] = true := by
    unfold allclose
    rw [decide_eq_true_iff]
    intro x hx
    simp only [List.mem_cons, List.not_mem_nil, or_false] at hx
    rcases hx with rfl | rfl | rfl <;> norm_num [abs_le]
  have c2 : allclose [0, 1, 0] = false := by
    unfold allclose
    rw [decide_eq_false_iff_not]
    intro h
    have := h 1 (by simp)
    norm_num at this
  have c3 : allclose [0, 1 / 200, -1 / 200] = false := by
    unfold allclose
    rw [decide_eq_false_iff_not]
    intro h
    have := h (1 / 200) (by simp)
    norm_num at this
  have p3 : coefOf pearson [0, 1 / 200, -1 / 200] [0, 1, -1] = 1 := by
    rw [coefOf3]
    have : pearson ![0, 1 / 200, -1 / 200] ![0, 1, -1] = some 1 := by
      rw [(C214_perfect _ _ ⟨0, 1, by simp⟩ ⟨0, 1, by simp⟩).1]
      refine ⟨200, by norm_num, 0, fun i => ?_⟩
      fin_cases i <;> norm_num
    rw [this]
    rfl
  have hother := corr_pearson lin [0, 1, -1] [0, 1, 0] c2
  rw [hv] at hother
  constructor
  · exact (order_two lin fresh _ _ _ 3 0 v (corr_const lin _ _ c1) hother (by simpa using hv0)).1
  · have := corr_pearson lin [0, 1, -1] [0, 1 / 200, -1 / 200] c3
    rw [p3] at this
    exact (order_two lin fresh _ _ _ 3 v 1 hother this (by simpa using hv1)).2

/-- C252 is violated for other units, too: the same with a feature measured in a unit a billion times as large. -/
theorem C252_unit_violated (lin : List Col → Col → List ℝ) (fresh : Nat → List Col) :
    ∃ r, screen (scipy lin) "spearman" false fresh [0, 1, -1] 3 [[0, 1 / 1000000000, -1 / 1000000000], [0, 1, 0]] = .ok r ∧ r.index = [1, 0] := by
  obtain ⟨v, hv, hv0, -⟩ := other
  have c1 : allclose [0, 1 / 1000000000, -1 / 1000000000] = true := by
    unfold allclose
    rw [decide_eq_true_iff]
    intro x hx
    simp only [List.mem_cons, List.not_mem_nil, or_false] at hx
    rcases hx with rfl | rfl | rfl <;> norm_num [abs_le]
  have c2 : allclose [0, 1, 0] = false := by
    unfold allclose
    rw [decide_eq_false_iff_not]
    intro h
    have := h 1 (by simp)
    norm_num at this
  have hother := corr_pearson lin [0, 1, -1] [0, 1, 0] c2
  rw [hv] at hother
  exact (order_two lin fresh _ _ _ 3 0 v (corr_const lin _ _ c1) hother (by simpa using hv0)).1

/-- Ordinary features in ordinary units meet the hypotheses of the partial statement. -/
example : allclose ([0, 1, 3].map fun v => (-2 : ℝ) * v + 5) = allclose [0, 1, 3] := by
  have a : allclose ([0, 1, 3].map fun v => (-2 : ℝ) * v + 5) = false := by
    unfold allclose
    rw [decide_eq_false_iff_not]
    intro h
    have := h 3 (by norm_num)
    norm_num at this
  have b : allclose [0, 1, 3] = false := by
    unfold allclose
    rw [decide_eq_false_iff_not]
    intro h
    have := h 3 (by norm_num)
    norm_num at this
  rw [a, b]

end CatLearn.Props
