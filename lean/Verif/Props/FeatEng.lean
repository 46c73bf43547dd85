import Verif.Model.FeatEng
import Verif.Spec.FeatEng
import Mathlib.Tactic.Linarith
import Mathlib.Tactic.Ring
import Mathlib.Tactic.NormNum
import Mathlib.Data.List.Sym
import Mathlib.Data.Sym.Basic
import Mathlib.Data.List.Range

/-!
# Properties of feature engineering (C21–C23, C82–C85)
-/

namespace CatLearn.Props

open CatLearn CatLearn.FeatEng CatLearn.Spec

/-! ### Loops and filling of columns -/

theorem loopTri_spec (m : Nat) : UnorderedPairs m (loopTri m) := by
  refine ⟨?_, ?_⟩
  · unfold loopTri
    rw [List.nodup_flatMap]
    refine ⟨?_, ?_⟩
    · intro f1 _
      exact (List.nodup_range').map fun a b h => by simpa using h
    · refine List.Pairwise.imp_of_mem ?_ List.nodup_range
      intro a b _ _ hab
      simp only [Function.onFun]
      intro x hx hy
      simp only [List.mem_map] at hx hy
      obtain ⟨_, _, rfl⟩ := hx
      obtain ⟨_, _, h⟩ := hy
      exact hab (by simpa using (congrArg Prod.fst h).symm)
  · intro f1 f2
    simp only [loopTri, List.mem_flatMap, List.mem_range, List.mem_map, List.mem_range'_1,
      Prod.mk.injEq]
    constructor
    · rintro ⟨a, ha, b, hb, rfl, rfl⟩; omega
    · rintro ⟨h1, h2⟩; exact ⟨f1, by omega, f2, by omega, rfl, rfl⟩

theorem loopTri_length (m : Nat) : (loopTri m).length = triangular m := by
  have key : ∀ m, ((List.range m).map fun f1 => m - f1).sum = triangular m := by
    intro m
    induction m with
    | zero => rfl
    | succ m ih =>
      unfold triangular at ih ⊢
      rw [List.range_succ_eq_map, List.map_cons, List.sum_cons, List.map_map]
      have : ((fun f1 => m + 1 - f1) ∘ Nat.succ) = fun f1 => m - f1 := by
        funext x; simp
      rw [this, ih, List.range_succ (n := m + 1), List.sum_append]
      simp; omega
  rw [← key]
  unfold loopTri
  rw [List.length_flatMap]
  simp

theorem fill_foldlM {C : Type} (L : List C) (s : Fill C) (h : s.nfi + L.length ≤ s.cols.length) :
    L.foldlM Fill.write s =
      .ok ⟨s.nfi + L.length, s.cols.take s.nfi ++ L ++ s.cols.drop (s.nfi + L.length)⟩ := by
  induction L generalizing s with
  | nil => simp [pure, Except.pure]
  | cons c L ih =>
    simp only [List.length_cons] at h
    have hlt : s.nfi < s.cols.length := by omega
    simp only [List.foldlM_cons, Fill.write, hlt, if_true, bind, Except.bind]
    rw [ih _ (by simp; omega)]
    simp only [Except.ok.injEq, List.length_cons]
    rw [Fill.mk.injEq]
    refine ⟨by omega, ?_⟩
    have h1 : (s.cols.set s.nfi c).take (s.nfi + 1) = s.cols.take s.nfi ++ [c] := by
      rw [List.take_add_one, List.take_set_of_le (by omega)]
      simp [hlt]
    have h2 : (s.cols.set s.nfi c).drop (s.nfi + 1 + L.length)
        = s.cols.drop (s.nfi + (L.length + 1)) := by
      rw [List.drop_set_of_lt (by omega)]
      congr 1; omega
    rw [h1, h2]
    simp

theorem foldlM_map {C D S : Type} (g : S → C → Except PyErr S) (f : D → C) (L : List D) (s : S) :
    L.foldlM (fun s d => g s (f d)) s = (L.map f).foldlM g s := by
  induction L generalizing s with
  | nil => rfl
  | cons d L ih =>
    simp only [List.foldlM_cons, List.map_cons]
    congr 1; funext s'; exact ih s'

theorem foldlM_filter {D S : Type} (g : S → D → Except PyErr S) (q : D → Prop) [DecidablePred q]
    (L : List D) (s : S) :
    L.foldlM (fun s d => if q d then g s d else .ok s) s = (L.filter fun d => decide (q d)).foldlM g s := by
  induction L generalizing s with
  | nil => rfl
  | cons d L ih =>
    by_cases h : q d
    · simp only [List.foldlM_cons, h, if_true, decide_true, List.filter_cons_of_pos]
      congr 1; funext s'; exact ih s'
    · simp only [List.foldlM_cons, h, if_false, decide_false, Bool.false_eq_true, not_false_eq_true,
        List.filter_cons_of_neg, bind, Except.bind]
      exact ih s

theorem order2With_eq {V : Type} (zero : V) (op : V → V → V) (n : Nat) (A : List (List V)) :
    order2With zero op n A =
      .ok ((loopTri A.length).map fun p => List.zipWith op (col A p.1) (col A p.2)) := by
  unfold order2With
  rw [foldlM_map Fill.write, fill_foldlM _ _ (by simp [loopTri_length])]
  simp only [bind, Except.bind, pure, Except.pure, List.length_map, loopTri_length]
  simp

/-! ### C21 -/

/-- C21: products.  There is an enumeration of all pairs `f1 ≤ f2 < m`, each once, such that the k-th column
is the product of the two columns, and the k-th label the combination of the two labels, of the k-th
pair. -/
theorem C21_order_2 {V : Type} [Mul V] (zero : V) (n : Nat) (A : List (List V)) (l : List String)
    (hl : l.length = A.length) (hA : 0 < A.length) :
    ∃ pairs, UnorderedPairs A.length pairs ∧
      getOrder2 zero n A = .ok (pairs.map fun p =>
        List.zipWith (· * ·) (A.getD p.1 []) (A.getD p.2 [])) ∧
      labelsOrder2 l false = pairs.map fun p => l.getD p.1 "" ++ "_x_" ++ l.getD p.2 "" := by
  refine ⟨_, loopTri_spec _, (if_neg hA.ne').trans (order2With_eq _ _ _ _), ?_⟩
  simp [labelsOrder2, hl]

/-- C21: a matrix without columns is refused by the products and the ratios (ZeroDivisionError), not by the others. -/
theorem C21_no_columns {V E : Type} [Mul V] (zero : V) (div : V → V → V) (pw : V → E → V) (n : Nat) (a b : E) (x y : ℝ) :
    getOrder2 zero n ([] : List (List V)) = .error .zeroDiv ∧ getDivOrder2 zero div n [] = .error .zeroDiv ∧
      getOrder2ab pw zero n [] a b = .ok [] ∧ getAblog n [] x y = .ok ([], []) ∧ singleTransform [] = .ok [] :=
  ⟨rfl, rfl, rfl, rfl, rfl⟩

/-- C21: products of powers. -/
theorem C21_order_2ab {V E : Type} [Mul V] (pw : V → E → V) (zero : V) (n : Nat) (A : List (List V))
    (a b : E) (l : List String) (sa sb : String) (hl : l.length = A.length) :
    ∃ pairs, UnorderedPairs A.length pairs ∧
      getOrder2ab pw zero n A a b = .ok (pairs.map fun p =>
        List.zipWith (fun x y => pw x a * pw y b) (A.getD p.1 []) (A.getD p.2 [])) ∧
      labelsOrder2ab l sa sb = pairs.map fun p =>
        l.getD p.1 "" ++ "_" ++ sa ++ "_x_" ++ l.getD p.2 "" ++ "_" ++ sb := by
  refine ⟨_, loopTri_spec _, order2With_eq _ _ _ _, ?_⟩
  simp [labelsOrder2ab, hl]

private theorem foldl_min_le (xs : List ℝ) (x : ℝ) : xs.foldl min x ≤ x ∧ ∀ y ∈ xs, xs.foldl min x ≤ y := by
  induction xs generalizing x with
  | nil => simp
  | cons a xs ih =>
    obtain ⟨h1, h2⟩ := ih (min x a)
    refine ⟨h1.trans (min_le_left _ _), ?_⟩
    intro y hy
    rcases List.mem_cons.mp hy with rfl | hy
    · exact h1.trans (min_le_right _ _)
    · exact h2 y hy

private theorem foldl_min_mem (xs : List ℝ) (x : ℝ) : xs.foldl min x ∈ x :: xs := by
  induction xs generalizing x with
  | nil => simp
  | cons a xs ih =>
    rw [List.foldl_cons]
    have := ih (min x a)
    rcases List.mem_cons.mp this with h | h
    · rw [h]
      rcases min_choice x a with h' | h' <;> rw [h'] <;> simp
    · simp [h]

/-- `mn` is the smallest entry of `c`. -/
def IsMin (c : List ℝ) (mn : ℝ) : Prop := mn ∈ c ∧ ∀ x ∈ c, mn ≤ x

theorem shiftCol_ok (c : List ℝ) (hc : c ≠ []) :
    ∃ mn, IsMin c mn ∧ shiftCol c = .ok (c.map fun x => x + |mn| + 1) := by
  cases c with
  | nil => exact absurd rfl hc
  | cons x xs =>
    refine ⟨xs.foldl min x, ⟨foldl_min_mem xs x, ?_⟩, ?_⟩
    · intro y hy
      rcases List.mem_cons.mp hy with rfl | hy
      · exact (foldl_min_le xs y).1
      · exact (foldl_min_le xs x).2 y hy
    · simp only [shiftCol, colMin, bind, Except.bind, pure, Except.pure, add_assoc]

theorem mapM_shift (A : List (List ℝ)) (hA : ∀ c ∈ A, c ≠ []) :
    ∃ mn : List ℝ, mn.length = A.length ∧
      (∀ j (h : j < A.length) (h' : j < mn.length), IsMin A[j] mn[j]) ∧
      A.mapM shiftCol = .ok (List.zipWith (fun c m => c.map fun x => x + |m| + 1) A mn) := by
  induction A with
  | nil => exact ⟨[], rfl, by simp, rfl⟩
  | cons c A ih =>
    obtain ⟨mn, hl, hmin, he⟩ := ih fun c hc => hA c (by simp [hc])
    obtain ⟨m, hm, hs⟩ := shiftCol_ok c (hA c (by simp))
    refine ⟨m :: mn, by simp [hl], ?_, ?_⟩
    · intro j h h'
      cases j with
      | zero => exact hm
      | succ j => exact hmin j (by simpa using h) (by simpa using h')
    · rw [List.mapM_cons, hs, he]
      rfl

/-- C21: combinations of logarithms.  Column and label k belong to the same pair `(f1, f2)`; the column is
`a log(x1 + |min x1| + 1) + b log(x2 + |min x2| + 1)`. -/
theorem C21_ablog (n : Nat) (A : List (List ℝ)) (a b : ℝ) (l : List String) (sa sb : String)
    (hl : l.length = A.length) (hA : ∀ c ∈ A, c ≠ []) :
    ∃ pairs r A', UnorderedPairs A.length pairs ∧ getAblog n A a b = .ok (r, A') ∧
      labelsAblog l sa sb = pairs.map (fun p =>
        "log" ++ sa ++ "_" ++ l.getD p.1 "" ++ "log" ++ sb ++ "_" ++ l.getD p.2 "") ∧
      r.length = pairs.length ∧
      ∀ (k f1 f2 : Nat), pairs[k]? = some (f1, f2) → ∃ c1 c2 m1 m2, A[f1]? = some c1 ∧ A[f2]? = some c2 ∧
        IsMin c1 m1 ∧ IsMin c2 m2 ∧
        r[k]? = some (List.zipWith
          (fun x y => a * Real.log (x + |m1| + 1) + b * Real.log (y + |m2| + 1)) c1 c2) := by
  obtain ⟨mn, hlm, hmin, he⟩ := mapM_shift A hA
  have hg : getAblog n A a b = .ok
      ((loopTri (List.zipWith (fun c m => c.map fun x => x + |m| + 1) A mn).length).map (fun p =>
        List.zipWith (fun x y => a * Real.log x + b * Real.log y)
          (col (List.zipWith (fun c m => c.map fun x => x + |m| + 1) A mn) p.1)
          (col (List.zipWith (fun c m => c.map fun x => x + |m| + 1) A mn) p.2)),
       List.zipWith (fun c m => c.map fun x => x + |m| + 1) A mn) := by
    unfold getAblog
    rw [he]
    simp only [bind, Except.bind, order2With_eq]
    rfl
  refine ⟨loopTri A.length, _, _, loopTri_spec _, hg, ?_, ?_, ?_⟩
  · simp [labelsAblog, hl]
  · simp [hlm]
  · intro k f1 f2 hk
    have hmem : (f1, f2) ∈ loopTri A.length := List.mem_of_getElem? hk
    obtain ⟨h1, h2⟩ := ((loopTri_spec A.length).2 f1 f2).mp hmem
    have hf1 : f1 < A.length := by omega
    refine ⟨A[f1], A[f2], mn[f1], mn[f2], List.getElem?_eq_getElem hf1, List.getElem?_eq_getElem h2,
      hmin f1 hf1 (by omega), hmin f2 h2 (by omega), ?_⟩
    have hlen : (List.zipWith (fun c m => List.map (fun x => x + |m| + 1) c) A mn).length = A.length := by
      simp [hlm]
    rw [hlen, List.getElem?_map, hk]
    have hc : ∀ f (h : f < A.length), col (List.zipWith (fun c m => List.map (fun x => x + |m| + 1) c) A mn) f
        = (A[f]).map (fun x => x + |mn[f]| + 1) := by
      intro f h
      unfold col
      rw [List.getD_eq_getElem?_getD, List.getElem?_eq_getElem (by omega), Option.getD_some,
        List.getElem_zipWith]
    simp only [Option.map_some, hc f1 hf1, hc f2 h2, List.zipWith_map]

/-- The hypotheses of C21 are met by two features. -/
example : (["a", "b"] : List String).length = ([[1, 2], [3, 4]] : List (List ℝ)).length ∧
    ∀ c ∈ ([[1, 2], [3, 4]] : List (List ℝ)), c ≠ [] := by simp

/-- C21: the number of columns is `m (m + 1) / 2`. -/
theorem C21_number_of_columns {V : Type} [Mul V] (zero : V) (n : Nat) (A : List (List V)) (hA : 0 < A.length) :
    ∃ cols, getOrder2 zero n A = .ok cols ∧ 2 * cols.length = A.length * (A.length + 1) := by
  refine ⟨_, (if_neg hA.ne').trans (order2With_eq _ _ _ _), ?_⟩
  rw [List.length_map, loopTri_length]
  clear hA
  generalize A.length = m
  unfold triangular
  induction m with
  | zero => rfl
  | succ m ih =>
    rw [List.range_succ, List.sum_append]
    simp only [List.sum_cons, List.sum_nil]
    rw [Nat.mul_add, ih]; ring

example : ∃ cols, getOrder2 (V := Nat) 0 1 [[2], [3]] = .ok cols ∧ cols.length = 3 := ⟨[[4], [6], [9]], rfl, rfl⟩

/-! ### C82: the shift makes roots and logarithms defined -/

/-- C82: every number whose root or logarithm is taken by `single_transform` is at least 1, so the
transformed features are finite; there are `3 m` of them: squares, roots, logarithms. -/
theorem C82_single_transform (A : List (List ℝ)) (hA : ∀ c ∈ A, c ≠ []) :
    ∃ S, (S : List (List ℝ)).length = A.length ∧ (∀ c ∈ S, ∀ x ∈ c, 1 ≤ x) ∧
      singleTransform A = .ok (A.map (fun c => c.map fun x => x ^ 2) ++ S.map (fun c => c.map Real.sqrt)
        ++ S.map (fun c => c.map Real.log)) ∧
      ∀ j (h : j < A.length) (h' : j < S.length), ∃ mn, IsMin A[j] mn ∧
        S[j] = A[j].map fun x => x + |mn| + 1 := by
  obtain ⟨mn, hlm, hmin, he⟩ := mapM_shift A hA
  refine ⟨_, ?_, ?_, by rw [singleTransform, he]; rfl, ?_⟩
  · simp [hlm]
  · intro c hc x hx
    obtain ⟨j, hj, rfl⟩ := List.mem_iff_getElem.mp hc
    rw [List.getElem_zipWith] at hx
    obtain ⟨y, hy, rfl⟩ := List.mem_map.mp hx
    have hjA : j < A.length := by simp at hj; omega
    have := (hmin j hjA (by omega)).2 y hy
    have h2 := neg_abs_le mn[j]
    linarith
  · intro j h h'
    exact ⟨mn[j], hmin j h (by omega), by rw [List.getElem_zipWith]⟩

example : ∀ c ∈ ([[-3, 2], [0, 4]] : List (List ℝ)), c ≠ [] := by simp

/-- C83 is violated by every matrix: whatever matrix with at least one entry is given to `get_ablog`, its caller finds every
entry larger by at least one afterwards, so that a second call on the same variable works on other data. -/
theorem C83_input_untouched_violated (n : Nat) (A : List (List ℝ)) (hA : ∀ c ∈ A, c ≠ []) (hne : A ≠ []) (a b : ℝ) :
    ∃ r A', getAblog n A a b = .ok (r, A') ∧ A' ≠ A ∧ A'.length = A.length ∧
      ∀ (j i : ℕ) (c c' : List ℝ) (x y : ℝ), A[j]? = some c → A'[j]? = some c' → c[i]? = some x → c'[i]? = some y → x + 1 ≤ y := by
  obtain ⟨mn, hlm, hmin, he⟩ := mapM_shift A hA
  have hgrow : ∀ (j i : ℕ) (c c' : List ℝ) (x y : ℝ), A[j]? = some c →
      (List.zipWith (fun c m => c.map fun x => x + |m| + 1) A mn)[j]? = some c' → c[i]? = some x → c'[i]? = some y →
      x + 1 ≤ y := by
    intro j i c c' x y hc hc' hx hy
    rw [List.getElem?_zipWith, hc] at hc'
    cases hm : mn[j]? with
    | none => rw [hm] at hc'; cases hc'
    | some m =>
      rw [hm] at hc'
      cases hc'
      rw [List.getElem?_map, hx] at hy
      cases hy
      have := abs_nonneg m
      linarith
  refine ⟨_, _, by rw [getAblog, he]; simp only [bind, Except.bind, order2With_eq]; rfl, ?_, by simp [hlm], hgrow⟩
  intro h
  cases A with
  | nil => exact hne rfl
  | cons c A =>
    cases c with
    | nil => exact hA [] (by simp) rfl
    | cons x c =>
      have := hgrow 0 0 (x :: c) (x :: c) x x rfl (by rw [h]; rfl) rfl rfl
      linarith

example : (∀ c ∈ ([[-3, 2], [0, 4]] : List (List ℝ)), c ≠ []) ∧ ([[-3, 2], [0, 4]] : List (List ℝ)) ≠ [] := by simp

/-! ### C22 -/

theorem loopAll_mem (m f1 f2 : Nat) : (f1, f2) ∈ loopAll m ↔ f1 < m ∧ f2 < m := by
  simp only [loopAll, List.mem_flatMap, List.mem_range, List.mem_map, Prod.mk.injEq]
  constructor
  · rintro ⟨a, ha, b, hb, rfl, rfl⟩; exact ⟨ha, hb⟩
  · rintro ⟨h1, h2⟩; exact ⟨f1, h1, f2, h2, rfl, rfl⟩

theorem loopAll_nodup (m : Nat) : (loopAll m).Nodup := by
  unfold loopAll
  rw [List.nodup_flatMap]
  refine ⟨fun f1 _ => (List.nodup_range).map fun a b h => by simpa using h, ?_⟩
  refine List.Pairwise.imp_of_mem ?_ List.nodup_range
  intro a b _ _ hab
  simp only [Function.onFun]
  intro x hx hy
  simp only [List.mem_map] at hx hy
  obtain ⟨_, _, rfl⟩ := hx
  obtain ⟨_, _, h⟩ := hy
  exact hab (by simpa using (congrArg Prod.fst h).symm)

private theorem loopAll_length (m : Nat) : (loopAll m).length = m ^ 2 := by
  unfold loopAll
  rw [List.length_flatMap]
  simp [pow_two]

private theorem loopAll_diag (m : Nat) : ((loopAll m).filter fun p => decide (p.1 = p.2)).length = m := by
  have h : ((loopAll m).filter fun p => decide (p.1 = p.2)).Perm ((List.range m).map fun i => (i, i)) := by
    rw [List.perm_ext_iff_of_nodup ((loopAll_nodup m).filter _)
      ((List.nodup_range).map fun a b h => by simpa using h)]
    rintro ⟨a, b⟩
    simp only [List.mem_filter, loopAll_mem, decide_eq_true_eq, List.mem_map, List.mem_range,
      Prod.mk.injEq]
    constructor
    · rintro ⟨⟨h1, _⟩, rfl⟩; exact ⟨a, h1, rfl, rfl⟩
    · rintro ⟨i, hi, rfl, rfl⟩; exact ⟨⟨hi, hi⟩, rfl⟩
  simpa using h.length_eq

private theorem loopAll_offdiag (m : Nat) :
    ((loopAll m).filter fun p => decide (p.1 ≠ p.2)).length + m = m ^ 2 := by
  rw [← loopAll_length m]
  conv_rhs => rw [List.length_eq_length_filter_add (fun p : Nat × Nat => decide (p.1 ≠ p.2))]
  congr 1
  conv_lhs => rw [← loopAll_diag m]
  congr 2
  funext p; simp

theorem getDiv_eq {V : Type} (zero : V) (div : V → V → V) (n : Nat) (A : List (List V)) (hA : 0 < A.length) :
    getDivOrder2 zero div n A = .ok (((loopAll A.length).filter fun p => decide (p.1 ≠ p.2)).map (fun p =>
      List.zipWith div (col A p.1) (col A p.2)) ++ List.replicate A.length (List.replicate n zero)) := by
  have hlen := loopAll_offdiag A.length
  unfold getDivOrder2
  rw [if_neg hA.ne', foldlM_filter (fun s (p : Nat × Nat) => Fill.write s (List.zipWith div (col A p.1) (col A p.2)))
    (fun p => p.1 ≠ p.2), foldlM_map Fill.write, fill_foldlM _ _ (by simp at hlen ⊢; omega)]
  simp only [bind, Except.bind, pure, Except.pure, List.length_map, List.take_zero, List.nil_append,
    zero_add, List.drop_replicate]
  congr 3
  omega

/-- C22 (partial): `get_div_order_2` computes the ratio of every ordered pair of different features
exactly once, followed by `m` columns of zeros; the labels (equally many) name every ordered pair
including a feature with itself. -/
theorem C22_ratio_labels_partial {V : Type} (zero : V) (div : V → V → V) (n : Nat) (A : List (List V))
    (l : List String) (hl : l.length = A.length) (hA : 0 < A.length) :
    ∃ pairs lpairs : List (Nat × Nat),
      pairs.Nodup ∧ (∀ f1 f2, (f1, f2) ∈ pairs ↔ f1 < A.length ∧ f2 < A.length ∧ f1 ≠ f2) ∧
      getDivOrder2 zero div n A = .ok (pairs.map (fun p =>
        List.zipWith div (A.getD p.1 []) (A.getD p.2 [])) ++
          List.replicate A.length (List.replicate n zero)) ∧
      lpairs.Nodup ∧ (∀ f1 f2, (f1, f2) ∈ lpairs ↔ f1 < A.length ∧ f2 < A.length) ∧
      labelsOrder2 l true = lpairs.map (fun p => l.getD p.1 "" ++ "_div_" ++ l.getD p.2 "") ∧
      lpairs.length = pairs.length + A.length := by
  have hlen := loopAll_offdiag A.length
  refine ⟨(loopAll A.length).filter (fun p => decide (p.1 ≠ p.2)), loopAll A.length,
    (loopAll_nodup _).filter _, ?_, ?_, loopAll_nodup _, loopAll_mem _, ?_, ?_⟩
  · intro f1 f2
    rw [List.mem_filter, loopAll_mem]
    simp [and_assoc]
  · exact getDiv_eq zero div n A hA
  · simp [labelsOrder2, hl]
  · rw [loopAll_length]; omega

/-- C22 is violated for every number `m ≥ 1` of features and all their values: the last label names the ratio
of the last feature with itself, the last column is zero. -/
theorem C22_ratio_labels_violated {V : Type} (zero : V) (div : V → V → V) (n : Nat) (A : List (List V))
    (l : List String) (hl : l.length = A.length) (hm : 0 < A.length) :
    ∃ cols, getDivOrder2 zero div n A = .ok cols ∧
      (labelsOrder2 l true).getLast? =
        some (l.getD (A.length - 1) "" ++ "_div_" ++ l.getD (A.length - 1) "") ∧
      cols.getLast? = some (List.replicate n zero) := by
  obtain ⟨pairs, -, -, -, h, -⟩ := C22_ratio_labels_partial zero div n A l hl hm
  refine ⟨_, h, ?_, ?_⟩
  · obtain ⟨m, hm'⟩ : ∃ m, A.length = m + 1 := ⟨A.length - 1, by omega⟩
    simp only [labelsOrder2, if_true, hl, hm', loopAll]
    rw [List.range_succ, List.flatMap_append]
    simp
  · rw [List.getLast?_append]
    obtain ⟨m, hm'⟩ : ∃ m, A.length = m + 1 := ⟨A.length - 1, by omega⟩
    rw [hm', List.replicate_succ', List.getLast?_concat]
    rfl

/-- In a concrete case the wrong label is visible: column 0 of `[[1], [2]]` is 1/2, its label says `a/a`. -/
example : getDivOrder2 (0 : Int) (fun x y => 10 * x / y) 1 [[1], [2]] = .ok [[5], [20], [0], [0]] ∧
    labelsOrder2 ["a", "b"] true = ["a_div_a", "a_div_b", "b_div_a", "b_div_b"] := by
  constructor <;> decide

/-! ### C23 -/

private theorem cwr_zero {α : Type} (p : List α) : cwr p 0 = [[]] := by cases p <;> simp [cwr]

private theorem cwr_sym {α : Type} (p : List α) (n : Nat) :
    (cwr p n).map (fun m : List α => (m : Multiset α)) = (p.sym n).map (fun s : Sym α n => (s : Multiset α)) := by
  induction p generalizing n with
  | nil => cases n <;> simp [cwr, List.sym]
  | cons a p ihp =>
    induction n with
    | zero => simp [cwr, List.sym]
    | succ n ihn =>
      rw [cwr, List.sym, List.map_append, List.map_append, ihp (n + 1), List.map_map, List.map_map]
      congr 1
      have h1 : (fun m : List α => (m : Multiset α)) ∘ (fun x => a :: x)
          = (fun s => a ::ₘ s) ∘ fun m : List α => (m : Multiset α) := by
        funext m; simp
      rw [h1, ← List.map_map, ihn, List.map_map]
      rfl

private theorem mem_cwr {α : Type} (p : List α) (n : Nat) (s : Multiset α) :
    s ∈ (cwr p n).map (fun m : List α => (m : Multiset α)) ↔ (∀ x ∈ s, x ∈ p) ∧ s.card = n := by
  induction p generalizing n s with
  | nil =>
    cases n with
    | zero =>
      simp only [cwr_zero, List.map_cons, List.map_nil, List.mem_singleton, Multiset.card_eq_zero]
      constructor
      · rintro rfl; simp
      · rintro ⟨_, h⟩; rw [h]; rfl
    | succ n =>
      simp only [cwr, List.map_nil, List.not_mem_nil, false_iff, not_and]
      intro h hc
      obtain ⟨x, hx⟩ := Multiset.card_pos_iff_exists_mem.mp (by omega : 0 < s.card)
      exact absurd (h x hx) (by simp)
  | cons a p ihp =>
    induction n generalizing s with
    | zero =>
      simp only [cwr_zero, List.map_cons, List.map_nil, List.mem_singleton, Multiset.card_eq_zero]
      constructor
      · rintro rfl; simp
      · rintro ⟨_, h⟩; rw [h]; rfl
    | succ n ihn =>
      rw [cwr, List.map_append, List.mem_append, ihp (n + 1) s, List.map_map]
      constructor
      · rintro (h | ⟨h1, h2⟩)
        · obtain ⟨m, hm, rfl⟩ := List.mem_map.mp h
          have := (ihn (m : Multiset α)).mp (List.mem_map.mpr ⟨m, hm, rfl⟩)
          refine ⟨?_, ?_⟩
          · intro x hx
            simp only [Function.comp, Multiset.mem_coe, List.mem_cons] at hx
            rcases hx with rfl | hx
            · simp
            · exact this.1 x (by simpa using hx)
          · have h2 := this.2
            simp only [Multiset.coe_card] at h2
            simp [h2]
        · exact ⟨fun x hx => by simp [h1 x hx], h2⟩
      · rintro ⟨h1, h2⟩
        by_cases ha : a ∈ s
        · left
          obtain ⟨t, rfl⟩ := Multiset.exists_cons_of_mem ha
          have ht := (ihn t).mpr ⟨fun x hx => h1 x (by simp [hx]), by simpa using h2⟩
          obtain ⟨m, hm, rfl⟩ := List.mem_map.mp ht
          exact List.mem_map.mpr ⟨m, hm, by simp⟩
        · right
          refine ⟨fun x hx => ?_, h2⟩
          rcases List.mem_cons.mp (h1 x hx) with rfl | h
          · exact absurd hx ha
          · exact h

private theorem cwr_nodup {α : Type} (p : List α) (hp : p.Nodup) (n : Nat) :
    ((cwr p n).map fun m : List α => (m : Multiset α)).Nodup := by
  rw [cwr_sym]
  exact (hp.sym n).map fun a b h => Subtype.ext h

/-- The products in the order in which they are generated. -/
def mons {α : Type} (p : List α) (N : Nat) (one : Bool) : List (List α) :=
  (List.range' 1 N).reverse.flatMap (fun i => cwr p i) ++ if one then [[]] else []

private theorem cwr_card {α : Type} (p : List α) (n : Nat) (m : List α) (h : m ∈ cwr p n) : m.length = n := by
  have := ((mem_cwr p n (m : Multiset α)).mp (List.mem_map.mpr ⟨m, h, rfl⟩)).2
  simpa using this

theorem mons_spec {α : Type} (p : List α) (hp : p.Nodup) (N : Nat) (one : Bool) :
    Monomials p N one (mons p N one) := by
  refine ⟨?_, ?_⟩
  · unfold mons
    rw [List.map_append, List.nodup_append']
    refine ⟨?_, ?_, ?_⟩
    · rw [List.map_flatMap, List.nodup_flatMap]
      refine ⟨fun i _ => cwr_nodup p hp i, ?_⟩
      refine List.Pairwise.imp_of_mem ?_ (List.nodup_reverse.mpr List.nodup_range')
      intro a b _ _ hab x hx hy
      exact hab (((mem_cwr p a x).mp hx).2.symm.trans ((mem_cwr p b x).mp hy).2)
    · cases one <;> simp
    · intro x hx hy
      rw [List.map_flatMap, List.mem_flatMap] at hx
      obtain ⟨i, hi, hxi⟩ := hx
      have hc := ((mem_cwr p i x).mp hxi).2
      have hi' : 1 ≤ i := by
        rw [List.mem_reverse, List.mem_range'_1] at hi; omega
      cases one
      · simp at hy
      · simp at hy; subst hy; simp at hc; omega
  · intro s
    unfold mons
    rw [List.map_append, List.mem_append, List.map_flatMap, List.mem_flatMap]
    simp only [mem_cwr, List.mem_reverse, List.mem_range'_1]
    constructor
    · rintro (⟨i, hi, h1, h2⟩ | h)
      · refine ⟨h1, by omega, ?_⟩
        rintro rfl; simp at h2; omega
      · cases one
        · simp at h
        · simp at h; subst h; simp
    · rintro ⟨h1, h2, h3⟩
      by_cases hs : s = 0
      · right; subst hs; simp [h3 rfl]
      · left
        refine ⟨s.card, ?_, h1, rfl⟩
        have := Multiset.card_pos.mpr hs
        omega

private theorem cwr_one {α : Type} (p : List α) : cwr p 1 = p.map fun a => [a] := by
  induction p with
  | nil => simp [cwr]
  | cons a p ih => rw [cwr, cwr_zero, ih]; rfl

theorem genPositive_eq {α : Type} (join : List α → α) (hj : ∀ a, join [a] = a) (one : α)
    (p : List α) (N : Nat) (exclude : Bool) (hN : N = 0 → exclude = false) :
    genPositive join one p N exclude =
      (mons p N (!exclude)).map fun m => if m.isEmpty then one else join m := by
  have hne : ∀ i ∈ (List.range' 1 N).reverse, (cwr p i).map (fun m => if m.isEmpty then one else join m)
      = (cwr p i).map join := by
    intro i hi
    apply List.map_congr_left
    intro m hm
    have := cwr_card p i m hm
    rw [List.mem_reverse, List.mem_range'_1] at hi
    cases m with
    | nil => simp at this; omega
    | cons x m => rfl
  have hmons : (mons p N (!exclude)).map (fun m => if m.isEmpty then one else join m) =
      (List.range' 1 N).reverse.flatMap (fun i => (cwr p i).map join) ++
        if exclude then [] else [one] := by
    unfold mons
    rw [List.map_append, List.map_flatMap]
    congr 1
    · exact List.flatMap_congr hne
    · cases exclude <;> simp
  rw [hmons]
  unfold genPositive
  by_cases h0 : N = 0
  · subst h0; simp [hN rfl]
  · rw [if_neg h0]
    by_cases h1 : N = 1
    · subst h1
      have : (List.map (join ∘ fun a => [a]) p) = p := by
        conv_rhs => rw [← List.map_id p]
        exact List.map_congr_left fun a _ => hj a
      cases exclude <;> simp [cwr_one, this]
    · simp only [h1, false_and, if_false]
      cases exclude <;> simp [List.flatMap]

/-- C23.  For different symbols, `generate_positive_features(p, N)` returns every product of at most `N`
symbols (repetition allowed) exactly once, and `1` unless excluded. -/
theorem C23_monomials {α : Type} (join : List α → α) (hj : ∀ a, join [a] = a) (one : α)
    (p : List α) (hp : p.Nodup) (N : Nat) (exclude : Bool) (hN : N = 0 → exclude = false) :
    ∃ ms, Monomials p N (!exclude) ms ∧
      genPositive join one p N exclude = ms.map fun m => if m.isEmpty then one else join m :=
  ⟨_, mons_spec p hp N (!exclude), genPositive_eq join hj one p N exclude hN⟩

example : (∀ a, String.intercalate "*" [a] = a) ∧ (["a", "b"] : List String).Nodup ∧
    ((2 : Nat) = 0 → true = false) := by
  refine ⟨fun a => ?_, by decide, by decide⟩
  rfl

example : (∀ a : Int, ([a] : List Int).prod = a) ∧
    genPositive (α := Int) List.prod 1 [2, 3] 2 false = [4, 6, 9, 2, 3, 1] := by
  refine ⟨by simp, ?_⟩
  simp [genPositive, cwr, List.range']

/-- C84 (partial): for `N ≥ 1`, `1` is not among the generated products if excluded. -/
theorem C84_exclude_partial {α : Type} (join : List α → α) (hj : ∀ a, join [a] = a) (one : α)
    (p : List α) (hp : p.Nodup) (N : Nat) (hN : N ≠ 0) :
    ∃ ms : List (List α), [] ∉ ms ∧ genPositive join one p N true = ms.map join := by
  obtain ⟨ms, hm, h⟩ := C23_monomials join hj one p hp N true (fun h => absurd h hN)
  have hnot : [] ∉ ms := by
    intro hmem
    have := (hm.2 0).mp (List.mem_map.mpr ⟨[], hmem, rfl⟩)
    simp at this
  refine ⟨ms, hnot, ?_⟩
  rw [h]
  apply List.map_congr_left
  intro m hmem
  cases m with
  | nil => exact absurd hmem hnot
  | cons a m => rfl

example : (∀ a, String.intercalate "*" [a] = a) ∧ (["a", "b"] : List String).Nodup ∧ (3 : Nat) ≠ 0 :=
  ⟨fun _ => rfl, by decide, by decide⟩

/-- C84 is violated for `N = 0`: `1` is returned although excluded. -/
theorem C84_exclude_violated {α : Type} (join : List α → α) (one : α) (p : List α) :
    genPositive join one p 0 true = [one] := by
  simp [genPositive]

/-! ### C85 -/

theorem cwr_map {α β : Type} (f : α → β) (p : List α) (n : Nat) :
    cwr (p.map f) n = (cwr p n).map (List.map f) := by
  induction p generalizing n with
  | nil => cases n <;> simp [cwr]
  | cons a p ihp =>
    induction n with
    | zero => simp [cwr]
    | succ n ihn =>
      rw [List.map_cons, cwr, cwr, List.map_append, ihp (n + 1), ← List.map_cons, ihn, List.map_map,
        List.map_map]
      rfl

theorem genPositive_idx (numP N : Nat) (ex : Bool) (hN : N = 0 → ex = false) :
    genPositive List.flatten [] ((List.range numP).map fun i => [i]) N ex
      = mons (List.range numP) N (!ex) := by
  rw [genPositive_eq _ (by simp) _ _ _ _ hN]
  unfold mons
  rw [List.map_append, List.map_flatMap]
  congr 1
  · apply List.flatMap_congr
    intro i hi
    rw [cwr_map, List.map_map]
    conv_rhs => rw [← List.map_id (cwr (List.range numP) i)]
    apply List.map_congr_left
    intro m hm
    have : ∀ m : List Nat, (m.map fun i => [i]).flatten = m := by
      intro m; induction m with
      | nil => rfl
      | cons a m ih => simp [ih]
    cases m with
    | nil => rfl
    | cons a m => simpa using this m
  · cases ex <;> simp

private theorem mem_mons (n N : Nat) (one : Bool) (s : Multiset Nat) :
    (∃ m ∈ mons (List.range n) N one, (m : Multiset Nat) = s) ↔
      (∀ x ∈ s, x < n) ∧ s.card ≤ N ∧ (s = 0 → one = true) := by
  have := (mons_spec (List.range n) List.nodup_range N one).2 s
  simp only [List.mem_range] at this
  rw [← this, List.mem_map]

/-- C85.  `generate_features` returns every fraction in lowest terms with at most `max_num` factors in the
numerator and at most `max_den` in the denominator exactly once, and `1` unless excluded. -/
theorem C85_fractions (n maxNum maxDen : Nat) (exclude : Bool)
    (h : ¬ (maxNum = 0 ∧ maxDen = 0 ∧ exclude = true)) :
    ReducedFractions n maxNum maxDen (!exclude) (genFeatures n maxNum maxDen exclude) := by
  have inj := fun N one => (mons_spec (List.range n) List.nodup_range N one).1
  unfold genFeatures
  by_cases hd : maxDen = 0
  · subst hd
    simp only [if_true]
    rw [genPositive_idx n maxNum exclude (fun h0 => by
      cases exclude
      · rfl
      · exact absurd ⟨h0, rfl, rfl⟩ h)]
    refine ⟨?_, ?_⟩
    · rw [List.map_map]
      have h2 : ((fun r : List Nat × List Nat => ((r.1 : Multiset Nat), (r.2 : Multiset Nat))) ∘ fun k => (k, []))
        = (fun s => (s, (0 : Multiset Nat))) ∘ (fun m : List Nat => (m : Multiset Nat)) := by
        funext k; rfl
      rw [h2, ← List.map_map]
      exact (inj maxNum (!exclude)).map fun a b h => by simpa using h
    · intro s t
      have hm := mem_mons n maxNum (!exclude) s
      simp only [List.map_map, List.mem_map, Function.comp, Prod.mk.injEq]
      constructor
      · rintro ⟨m, hmm, rfl, rfl⟩
        obtain ⟨h1, h2, h3⟩ := hm.mp ⟨m, hmm, rfl⟩
        exact ⟨h1, by simp, h2, by simp, by simp, fun h => h3 h.1⟩
      · rintro ⟨h1, h2, h3, h4, h5, h6⟩
        have ht : t = 0 := by simpa using h4
        obtain ⟨m, hm1, hm2⟩ := hm.mpr ⟨h1, h3, fun h => h6 ⟨h, ht⟩⟩
        exact ⟨m, hm1, hm2, by rw [ht]; rfl⟩
  · rw [if_neg hd]
    by_cases hn : maxNum = 0
    · subst hn
      simp only [if_true]
      rw [genPositive_idx n maxDen exclude (fun h0 => absurd h0 hd)]
      refine ⟨?_, ?_⟩
      · rw [List.map_map]
        have h2 : ((fun r : List Nat × List Nat => ((r.1 : Multiset Nat), (r.2 : Multiset Nat))) ∘ fun k => ([], k))
          = (fun s => ((0 : Multiset Nat), s)) ∘ (fun m : List Nat => (m : Multiset Nat)) := by
          funext k; rfl
        rw [h2, ← List.map_map]
        exact (inj maxDen (!exclude)).map fun a b h => by simpa using h
      · intro s t
        have hm := mem_mons n maxDen (!exclude) t
        simp only [List.map_map, List.mem_map, Function.comp, Prod.mk.injEq]
        constructor
        · rintro ⟨m, hmm, rfl, rfl⟩
          obtain ⟨h1, h2, h3⟩ := hm.mp ⟨m, hmm, rfl⟩
          exact ⟨by simp, h1, by simp, h2, by simp, fun h => h3 h.2⟩
        · rintro ⟨h1, h2, h3, h4, h5, h6⟩
          have hs : s = 0 := by simpa using h3
          obtain ⟨m, hm1, hm2⟩ := hm.mpr ⟨h2, h4, fun h => h6 ⟨hs, h⟩⟩
          exact ⟨m, hm1, by rw [hs]; rfl, hm2⟩
    · rw [if_neg hn]
      simp only
      rw [genPositive_idx n maxNum true (fun h0 => absurd h0 hn),
        genPositive_idx n maxDen true (fun h0 => absurd h0 hd)]
      simp only [Bool.not_true]
      set K1 := mons (List.range n) maxNum false
      set K2 := mons (List.range n) maxDen false
      have i1 : (K1.map fun m : List Nat => (m : Multiset Nat)).Nodup := inj maxNum false
      have i2 : (K2.map fun m : List Nat => (m : Multiset Nat)).Nodup := inj maxDen false
      have z1 : [] ∉ K1 := fun hm => by
        have := (mem_mons n maxNum false 0).mp ⟨[], hm, rfl⟩; simp at this
      have z2 : [] ∉ K2 := fun hm => by
        have := (mem_mons n maxDen false 0).mp ⟨[], hm, rfl⟩; simp at this
      have z1' : ∀ m ∈ K1, (m : Multiset Nat) ≠ 0 := by
        intro m hm h0
        have : m = [] := by simpa using h0
        exact z1 (this ▸ hm)
      have z2' : ∀ m ∈ K2, (m : Multiset Nat) ≠ 0 := by
        intro m hm h0
        have : m = [] := by simpa using h0
        exact z2 (this ▸ hm)
      set φ := fun r : List Nat × List Nat => ((r.1 : Multiset Nat), (r.2 : Multiset Nat)) with hφ
      refine ⟨?_, ?_⟩
      · rw [List.map_append, List.map_append, List.map_append]
        have n1 : ((K1.flatMap fun a => (K2.filter fun b => a.all fun x => !b.contains x).map
            fun b => (a, b)).map φ).Nodup := by
          rw [List.map_flatMap, List.nodup_flatMap]
          refine ⟨?_, ?_⟩
          · intro a _
            rw [List.map_map]
            have h2 : (φ ∘ fun b => (a, b)) = (fun s => ((a : Multiset Nat), s)) ∘
                (fun m : List Nat => (m : Multiset Nat)) := by funext k; rfl
            rw [h2, ← List.map_map]
            refine List.Nodup.map (fun a b h => by simpa using h) ?_
            exact i2.sublist (List.Sublist.map _ List.filter_sublist)
          · have := List.pairwise_map.mp i1
            refine this.imp ?_
            intro a b hab x hx hy
            simp only [List.map_map, List.mem_map] at hx hy
            obtain ⟨_, _, rfl⟩ := hx
            obtain ⟨_, _, h⟩ := hy
            exact hab (congrArg Prod.fst h).symm
        have n2 : ((K1.map fun a => (a, ([] : List Nat))).map φ).Nodup := by
          rw [List.map_map]
          have h2 : (φ ∘ fun k => (k, [])) = (fun s => (s, (0 : Multiset Nat))) ∘
            (fun m : List Nat => (m : Multiset Nat)) := by funext k; rfl
          rw [h2, ← List.map_map]
          exact i1.map fun a b h => by simpa using h
        have n3 : ((K2.map fun b => (([] : List Nat), b)).map φ).Nodup := by
          rw [List.map_map]
          have h2 : (φ ∘ fun k => ([], k)) = (fun s => ((0 : Multiset Nat), s)) ∘
            (fun m : List Nat => (m : Multiset Nat)) := by funext k; rfl
          rw [h2, ← List.map_map]
          exact i2.map fun a b h => by simpa using h
        rw [List.nodup_append', List.nodup_append', List.nodup_append']
        refine ⟨⟨⟨n1, n2, ?_⟩, n3, ?_⟩, by cases exclude <;> simp, ?_⟩
        · intro x hx hy
          simp only [List.map_flatMap, List.map_map, List.mem_flatMap, List.mem_map, List.mem_filter] at hx hy
          obtain ⟨a, ha, b, hb, rfl⟩ := hx
          obtain ⟨c, hc, h⟩ := hy
          exact z2' b hb.1 (congrArg Prod.snd h).symm
        · intro x hx hy
          simp only [List.map_flatMap, List.map_map, List.mem_flatMap, List.mem_map, List.mem_filter,
            List.mem_append] at hx hy
          obtain ⟨c, hc, rfl⟩ := hy
          rcases hx with ⟨a, ha, b, hb, h⟩ | ⟨a, ha, h⟩
          · exact z1' a ha (congrArg Prod.fst h)
          · exact z1' a ha (congrArg Prod.fst h)
        · intro x hx hy
          cases exclude
          · simp only [Bool.false_eq_true, if_false, List.map_cons, List.map_nil, List.mem_singleton] at hy
            subst hy
            simp only [List.map_flatMap, List.map_map, List.mem_flatMap, List.mem_map, List.mem_filter,
              List.mem_append] at hx
            rcases hx with (⟨a, ha, b, hb, h⟩ | ⟨a, ha, h⟩) | ⟨b, hb, h⟩
            · exact z1' a ha (congrArg Prod.fst h)
            · exact z1' a ha (congrArg Prod.fst h)
            · exact z2' b hb (congrArg Prod.snd h)
          · simp at hy
      · intro s t
        have m1 := mem_mons n maxNum false s
        have m2 := mem_mons n maxDen false t
        simp only [List.map_append, List.mem_append, List.map_flatMap, List.map_map, List.mem_flatMap,
          List.mem_map, List.mem_filter]
        constructor
        · rintro (((⟨a, ha, b, ⟨hb, hab⟩, h⟩ | ⟨a, ha, h⟩) | ⟨b, hb, h⟩) | h)
          · simp only [hφ, Function.comp, Prod.mk.injEq] at h
            obtain ⟨rfl, rfl⟩ := h
            obtain ⟨p1, p2, p3⟩ := m1.mp ⟨a, ha, rfl⟩
            obtain ⟨q1, q2, q3⟩ := m2.mp ⟨b, hb, rfl⟩
            refine ⟨p1, q1, p2, q2, ?_, fun h => absurd h.1 (z1' a ha)⟩
            intro x hx hxb
            rw [List.all_eq_true] at hab
            have := hab x (by simpa using hx)
            simp at this
            exact this (by simpa using hxb)
          · simp only [hφ, Function.comp, Prod.mk.injEq] at h
            obtain ⟨rfl, rfl⟩ := h
            obtain ⟨p1, p2, p3⟩ := m1.mp ⟨a, ha, rfl⟩
            exact ⟨p1, by simp, p2, by simp, by simp, fun h => absurd h.1 (z1' a ha)⟩
          · simp only [hφ, Function.comp, Prod.mk.injEq] at h
            obtain ⟨rfl, rfl⟩ := h
            obtain ⟨q1, q2, q3⟩ := m2.mp ⟨b, hb, rfl⟩
            exact ⟨by simp, q1, by simp, q2, by simp, fun h => absurd h.2 (z2' b hb)⟩
          · cases exclude
            · simp only [Bool.false_eq_true, if_false, List.mem_singleton, exists_eq_left, hφ,
                Prod.mk.injEq] at h
              obtain ⟨rfl, rfl⟩ := h
              simp
            · simp at h
        · rintro ⟨h1, h2, h3, h4, h5, h6⟩
          by_cases hs : s = 0
          · by_cases ht : t = 0
            · right
              have : exclude = false := by simpa using h6 ⟨hs, ht⟩
              subst this
              exact ⟨([], []), by simp, by simp [hφ, hs, ht]⟩
            · left; right
              obtain ⟨b, hb, rfl⟩ := m2.mpr ⟨h2, h4, fun h => absurd h ht⟩
              exact ⟨b, hb, by simp [hφ, hs]⟩
          · obtain ⟨a, ha, rfl⟩ := m1.mpr ⟨h1, h3, fun h => absurd h hs⟩
            by_cases ht : t = 0
            · left; left; right
              exact ⟨a, ha, by simp [hφ, ht]⟩
            · obtain ⟨b, hb, rfl⟩ := m2.mpr ⟨h2, h4, fun h => absurd h ht⟩
              left; left; left
              refine ⟨a, ha, b, ⟨hb, ?_⟩, rfl⟩
              rw [List.all_eq_true]
              intro x hx
              have := h5 x (by simpa using hx)
              simpa using this

example : ¬ ((2 : Nat) = 0 ∧ (1 : Nat) = 0 ∧ true = true) := by decide

example : genFeatures 2 1 1 false
    = [([0], [1]), ([1], [0]), ([0], []), ([1], []), ([], [0]), ([], [1]), ([], [])] := by decide

end CatLearn.Props
