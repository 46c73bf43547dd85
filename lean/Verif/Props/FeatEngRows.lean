import Verif.Props.FeatEng
import Mathlib.Tactic.Positivity

/-!
# C259: engineered features row by row
-/

namespace CatLearn.Props

open CatLearn CatLearn.FeatEng CatLearn.Spec

/-- Row `r` of a matrix that is given by its columns. -/
def rowAt {V : Type} (A : List (List V)) (r : ℕ) : List (Option V) := A.map fun c => c[r]?

private theorem rowAt_length {V : Type} (A : List (List V)) (r : ℕ) : (rowAt A r).length = A.length := by simp [rowAt]

private theorem rowAt_col {V : Type} {A A' : List (List V)} {r r' : ℕ} (h : rowAt A r = rowAt A' r') (j : ℕ) :
    (col A j)[r]? = (col A' j)[r']? := by
  have := congrArg (fun l => (l[j]?).getD none) h
  simp only [rowAt, List.getElem?_map] at this
  unfold col
  rw [List.getD_eq_getElem?_getD, List.getD_eq_getElem?_getD]
  cases h1 : A[j]? <;> cases h2 : A'[j]? <;> simp [h1, h2] at this ⊢ <;> first | exact this | (symm; exact this) | skip

private theorem zip_row {V W : Type} (op : V → V → W) {c d c' d' : List V} {r r' : ℕ} (h1 : c[r]? = c'[r']?) (h2 : d[r]? = d'[r']?) :
    (List.zipWith op c d)[r]? = (List.zipWith op c' d')[r']? := by
  rw [List.getElem?_zipWith, List.getElem?_zipWith, h1, h2]

private theorem order2_rows {V : Type} (zero : V) (op : V → V → V) (n n' : ℕ) (A A' R R' : List (List V)) (r r' : ℕ)
    (h : rowAt A r = rowAt A' r') (hR : order2With zero op n A = .ok R) (hR' : order2With zero op n' A' = .ok R') :
    rowAt R r = rowAt R' r' := by
  have hlen : A.length = A'.length := by rw [← rowAt_length A r, h, rowAt_length]
  rw [order2With_eq] at hR hR'
  cases hR
  cases hR'
  unfold rowAt
  rw [hlen, List.map_map, List.map_map]
  refine List.map_congr_left fun p _ => ?_
  exact zip_row op (rowAt_col h p.1) (rowAt_col h p.2)

/-- C259: products.  Two matrices of any sizes that have one row in common: the engineered features of this row are the same. -/
theorem C259_order_2 {V : Type} [Mul V] (zero : V) (n n' : ℕ) (A A' R R' : List (List V)) (r r' : ℕ) (h : rowAt A r = rowAt A' r')
    (hR : getOrder2 zero n A = .ok R) (hR' : getOrder2 zero n' A' = .ok R') : rowAt R r = rowAt R' r' := by
  unfold getOrder2 at hR hR'
  split at hR
  · cases hR
  split at hR'
  · cases hR'
  exact order2_rows zero _ n n' A A' R R' r r' h hR hR'

/-- C259: products of powers. -/
theorem C259_order_2ab {V E : Type} [Mul V] (pw : V → E → V) (zero : V) (a b : E) (n n' : ℕ) (A A' R R' : List (List V)) (r r' : ℕ)
    (h : rowAt A r = rowAt A' r') (hR : getOrder2ab pw zero n A a b = .ok R) (hR' : getOrder2ab pw zero n' A' a b = .ok R') :
    rowAt R r = rowAt R' r' := order2_rows zero _ n n' A A' R R' r r' h hR hR'

/-- C259: ratios. -/
theorem C259_div {V : Type} (zero : V) (div : V → V → V) (n n' : ℕ) (A A' R R' : List (List V)) (r r' : ℕ) (hr : r < n) (hr' : r' < n')
    (h : rowAt A r = rowAt A' r') (hR : getDivOrder2 zero div n A = .ok R) (hR' : getDivOrder2 zero div n' A' = .ok R') :
    rowAt R r = rowAt R' r' := by
  have hlen : A.length = A'.length := by rw [← rowAt_length A r, h, rowAt_length]
  have hA : 0 < A.length := by
    rcases Nat.eq_zero_or_pos A.length with h0 | h0
    · rw [List.length_eq_zero_iff.mp h0] at hR
      cases hR
    · exact h0
  rw [getDiv_eq _ _ _ _ hA] at hR
  rw [getDiv_eq _ _ _ _ (hlen ▸ hA)] at hR'
  cases hR
  cases hR'
  unfold rowAt
  rw [hlen, List.map_append, List.map_append, List.map_map, List.map_map]
  congr 1
  · refine List.map_congr_left fun p _ => ?_
    exact zip_row div (rowAt_col h p.1) (rowAt_col h p.2)
  · simp [hr, hr']

/-- Columns of the same least absolute shift. -/
private theorem shift_rows (A A' : List (List ℝ)) (hA : ∀ c ∈ A, c ≠ []) (hA' : ∀ c ∈ A', c ≠ []) (r r' : ℕ) (h : rowAt A r = rowAt A' r')
    (hmin : ∀ (j : ℕ) (c c' : List ℝ) (m m' : ℝ), A[j]? = some c → A'[j]? = some c' → IsMin c m → IsMin c' m' → |m| = |m'|) :
    ∃ S S', A.mapM shiftCol = .ok S ∧ A'.mapM shiftCol = .ok S' ∧ rowAt S r = rowAt S' r' := by
  obtain ⟨mn, hl, hm, he⟩ := mapM_shift A hA
  obtain ⟨mn', hl', hm', he'⟩ := mapM_shift A' hA'
  have hlen : A.length = A'.length := by rw [← rowAt_length A r, h, rowAt_length]
  refine ⟨_, _, he, he', ?_⟩
  unfold rowAt at h ⊢
  apply List.ext_getElem
  · simp [hl, hl', hlen]
  · intro j h1 h2
    simp only [List.length_map, List.length_zipWith] at h1 h2
    have hj : j < A.length := by omega
    have hj' : j < A'.length := by omega
    have hrow : (A[j])[r]? = (A'[j])[r']? := by
      have := congrArg (fun l => l[j]?) h
      simpa [hj, hj'] using this
    have habs : |mn[j]'(by omega)| = |mn'[j]'(by omega)| :=
      hmin j A[j] A'[j] _ _ (List.getElem?_eq_getElem hj) (List.getElem?_eq_getElem hj') (hm j hj (by omega)) (hm' j hj' (by omega))
    simp only [List.getElem_map, List.getElem_zipWith, List.getElem?_map, hrow, habs]

private theorem rowAt_map {V W : Type} (f : V → W) (A : List (List V)) (r : ℕ) : rowAt (A.map fun c => c.map f) r = (rowAt A r).map fun x => x.map f := by
  simp [rowAt, Function.comp_def]

private theorem rowAt_append {V : Type} (A B : List (List V)) (r : ℕ) : rowAt (A ++ B) r = rowAt A r ++ rowAt B r := by simp [rowAt]

/-- C259 (partial: every column has the same smallest absolute entry `|min|` in both matrices): squares, roots and logarithms. -/
theorem C259_single_partial (A A' R R' : List (List ℝ)) (hA : ∀ c ∈ A, c ≠ []) (hA' : ∀ c ∈ A', c ≠ []) (r r' : ℕ) (h : rowAt A r = rowAt A' r')
    (hmin : ∀ (j : ℕ) (c c' : List ℝ) (m m' : ℝ), A[j]? = some c → A'[j]? = some c' → IsMin c m → IsMin c' m' → |m| = |m'|)
    (hR : singleTransform A = .ok R) (hR' : singleTransform A' = .ok R') : rowAt R r = rowAt R' r' := by
  obtain ⟨S, S', he, he', hS⟩ := shift_rows A A' hA hA' r r' h hmin
  unfold singleTransform at hR hR'
  rw [he] at hR
  rw [he'] at hR'
  cases hR
  cases hR'
  simp only [rowAt_append, rowAt_map, h, hS]

/-- C259 (partial: as before): combinations of logarithms. -/
theorem C259_ablog_partial (n n' : ℕ) (a b : ℝ) (A A' : List (List ℝ)) (R R' : List (List ℝ) × List (List ℝ)) (hA : ∀ c ∈ A, c ≠ [])
    (hA' : ∀ c ∈ A', c ≠ []) (r r' : ℕ) (h : rowAt A r = rowAt A' r')
    (hmin : ∀ (j : ℕ) (c c' : List ℝ) (m m' : ℝ), A[j]? = some c → A'[j]? = some c' → IsMin c m → IsMin c' m' → |m| = |m'|)
    (hR : getAblog n A a b = .ok R) (hR' : getAblog n' A' a b = .ok R') : rowAt R.1 r = rowAt R'.1 r' := by
  obtain ⟨S, S', he, he', hS⟩ := shift_rows A A' hA hA' r r' h hmin
  unfold getAblog at hR hR'
  rw [he] at hR
  rw [he'] at hR'
  simp only [bind, Except.bind, pure, Except.pure] at hR hR'
  cases h1 : order2With 0 (fun x y => a * Real.log x + b * Real.log y) n S with
  | error e => rw [h1] at hR; cases hR
  | ok T =>
    cases h2 : order2With 0 (fun x y => a * Real.log x + b * Real.log y) n' S' with
    | error e => rw [h2] at hR'; cases hR'
    | ok T' =>
      rw [h1] at hR
      rw [h2] at hR'
      cases hR
      cases hR'
      exact order2_rows 0 _ n n' S S' T T' r r' hS h1 h2

/-- C259: the squares of `single_transform`, which are its first columns, in every case. -/
theorem C259_squares (A A' R R' : List (List ℝ)) (r r' : ℕ) (h : rowAt A r = rowAt A' r')
    (hR : singleTransform A = .ok R) (hR' : singleTransform A' = .ok R') : (rowAt R r).take A.length = (rowAt R' r').take A'.length := by
  have key : ∀ (A R : List (List ℝ)) (r : ℕ), singleTransform A = .ok R → (rowAt R r).take A.length = (rowAt A r).map fun x => x.map (· ^ 2) := by
    intro A R r hR
    unfold singleTransform at hR
    simp only [bind, Except.bind, pure, Except.pure] at hR
    split at hR
    · cases hR
    · cases hR
      rw [rowAt_append, rowAt_append, rowAt_map, List.append_assoc, List.take_left' (by simp [rowAt])]
  rw [key A R r hR, key A' R' r' hR', h]

/-- C259 is violated for roots and logarithms: the shift is taken from the matrix that is given.  Wherever the smallest entry of a column has another absolute
value, the same entry has another root and another logarithm in the other matrix; so test data that are transformed on their own do not match the training
data. -/
theorem C259_single_violated (A A' R R' : List (List ℝ)) (hA : ∀ c ∈ A, c ≠ []) (hA' : ∀ c ∈ A', c ≠ []) (hlen : A.length = A'.length)
    (hR : singleTransform A = .ok R) (hR' : singleTransform A' = .ok R') (j r r' : ℕ) (c c' : List ℝ) (m m' x : ℝ) (hc : A[j]? = some c)
    (hc' : A'[j]? = some c') (hm : IsMin c m) (hm' : IsMin c' m') (hx : c[r]? = some x) (hx' : c'[r']? = some x) (hne : |m| ≠ |m'|) :
    (rowAt R r)[A.length + j]? ≠ (rowAt R' r')[A.length + j]? ∧ (rowAt R r)[2 * A.length + j]? ≠ (rowAt R' r')[2 * A.length + j]? := by
  have uniq : ∀ {c : List ℝ} {m m' : ℝ}, IsMin c m → IsMin c m' → m = m' := fun h1 h2 => le_antisymm (h1.2 _ h2.1) (h2.2 _ h1.1)
  have key : ∀ (A R : List (List ℝ)) (r : ℕ) (c : List ℝ) (m : ℝ), (∀ c ∈ A, c ≠ []) → singleTransform A = .ok R → A[j]? = some c → IsMin c m →
      c[r]? = some x → (rowAt R r)[A.length + j]? = some (some (Real.sqrt (x + |m| + 1))) ∧
        (rowAt R r)[2 * A.length + j]? = some (some (Real.log (x + |m| + 1))) ∧ 0 < x + |m| + 1 := by
    intro A R r c m hA hR hc hm hx
    obtain ⟨mn, hl, hmn, he⟩ := mapM_shift A hA
    unfold singleTransform at hR
    rw [he] at hR
    cases hR
    have hj : j < A.length := by
      by_contra hcon
      rw [List.getElem?_eq_none (by omega)] at hc
      cases hc
    have hcj : A[j] = c := by
      rw [List.getElem?_eq_getElem hj] at hc
      exact Option.some.inj hc
    have hmj : mn[j]'(by omega) = m := by
      have := hmn j hj (by omega)
      rw [hcj] at this
      exact uniq this hm
    have hS : (rowAt (List.zipWith (fun c m => c.map fun x => x + |m| + 1) A mn) r)[j]? = some (some (x + |m| + 1)) := by
      rw [rowAt, List.getElem?_map, List.getElem?_zipWith, hc, List.getElem?_eq_getElem (by omega), hmj]
      simp [hx]
    have hl1 : (rowAt (A.map fun c => c.map fun x => x ^ 2) r).length = A.length := by simp [rowAt]
    have hl2 : (rowAt ((List.zipWith (fun c m => c.map fun x => x + |m| + 1) A mn).map fun c => c.map Real.sqrt) r).length = A.length := by
      simp [rowAt, hl]
    refine ⟨?_, ?_, ?_⟩
    · rw [rowAt_append, rowAt_append, List.append_assoc, List.getElem?_append_right (by omega), hl1, Nat.add_sub_cancel_left,
        List.getElem?_append_left (by omega), rowAt_map, List.getElem?_map, hS]
      rfl
    · rw [rowAt_append, List.getElem?_append_right (by rw [rowAt_append, List.length_append]; omega), rowAt_append, List.length_append, hl1, hl2,
        show 2 * A.length + j - (A.length + A.length) = j by omega, rowAt_map, List.getElem?_map, hS]
      rfl
    · have h1 := hm.2 x (List.mem_of_getElem? hx)
      have h2 := neg_abs_le m
      linarith
  obtain ⟨h1, h2, h3⟩ := key A R r c m hA hR hc hm hx
  obtain ⟨h1', h2', h3'⟩ := key A' R' r' c' m' hA' hR' hc' hm' hx'
  rw [← hlen] at h1' h2'
  constructor
  · rw [h1, h1']
    intro he
    have he := Option.some.inj (Option.some.inj he)
    have := (Real.sqrt_inj h3.le h3'.le).mp he
    exact hne (by linarith)
  · rw [h2, h2']
    intro he
    have he := Option.some.inj (Option.some.inj he)
    have := Real.log_injOn_pos (Set.mem_Ioi.mpr h3) (Set.mem_Ioi.mpr h3') he
    exact hne (by linarith)

/-- C259 is violated for the combinations of logarithms in the same way, unless `a + b = 0`. -/
theorem C259_ablog_violated (n n' : ℕ) (a b : ℝ) (hab : a + b ≠ 0) (A A' : List (List ℝ)) (R R' : List (List ℝ) × List (List ℝ))
    (hA : ∀ c ∈ A, c ≠ []) (hA' : ∀ c ∈ A', c ≠ []) (hlen : A.length = A'.length)
    (hR : getAblog n A a b = .ok R) (hR' : getAblog n' A' a b = .ok R') (j r r' : ℕ) (c c' : List ℝ) (m m' x : ℝ) (hc : A[j]? = some c)
    (hc' : A'[j]? = some c') (hm : IsMin c m) (hm' : IsMin c' m') (hx : c[r]? = some x) (hx' : c'[r']? = some x) (hne : |m| ≠ |m'|) :
    rowAt R.1 r ≠ rowAt R'.1 r' := by
  have uniq : ∀ {c : List ℝ} {m m' : ℝ}, IsMin c m → IsMin c m' → m = m' := fun h1 h2 => le_antisymm (h1.2 _ h2.1) (h2.2 _ h1.1)
  have hjA : j < A.length := by
    by_contra hcon
    rw [List.getElem?_eq_none (by omega)] at hc
    cases hc
  have hmem : (j, j) ∈ loopTri A.length := ((loopTri_spec A.length).2 j j).mpr ⟨le_refl j, hjA⟩
  obtain ⟨k, hk, hkj⟩ := List.mem_iff_getElem.mp hmem
  have key : ∀ (n : ℕ) (A : List (List ℝ)) (R : List (List ℝ) × List (List ℝ)) (r : ℕ) (c : List ℝ) (m : ℝ), (∀ c ∈ A, c ≠ []) →
      getAblog n A a b = .ok R → A[j]? = some c → IsMin c m → c[r]? = some x → (loopTri A.length)[k]? = some (j, j) →
      (rowAt R.1 r)[k]? = some (some ((a + b) * Real.log (x + |m| + 1))) ∧ 0 < x + |m| + 1 := by
    intro n A R r c m hA hR hc hm hx hk
    obtain ⟨mn, hl, hmn, he⟩ := mapM_shift A hA
    unfold getAblog at hR
    rw [he] at hR
    simp only [bind, Except.bind, pure, Except.pure, order2With_eq] at hR
    cases hR
    have hj : j < A.length := by
      by_contra hcon
      rw [List.getElem?_eq_none (by omega)] at hc
      cases hc
    have hcj : A[j] = c := by
      rw [List.getElem?_eq_getElem hj] at hc
      exact Option.some.inj hc
    have hmj : mn[j]'(by omega) = m := by
      have := hmn j hj (by omega)
      rw [hcj] at this
      exact uniq this hm
    have hcol : col (List.zipWith (fun c m => c.map fun x => x + |m| + 1) A mn) j = c.map fun x => x + |m| + 1 := by
      unfold col
      rw [List.getD_eq_getElem?_getD, List.getElem?_zipWith, hc, List.getElem?_eq_getElem (by omega), hmj]
      rfl
    have hll : (List.zipWith (fun c m => c.map fun x => x + |m| + 1) A mn).length = A.length := by simp [hl]
    refine ⟨?_, ?_⟩
    · rw [rowAt, List.getElem?_map, List.getElem?_map, hll, hk]
      simp only [Option.map_some, hcol, List.getElem?_zipWith, List.getElem?_map, hx]
      rw [add_mul]
    · have h1 := hm.2 x (List.mem_of_getElem? hx)
      have h2 := neg_abs_le m
      linarith
  obtain ⟨h1, h2⟩ := key n A R r c m hA hR hc hm hx (by rw [List.getElem?_eq_getElem hk, hkj])
  obtain ⟨h1', h2'⟩ := key n' A' R' r' c' m' hA' hR' hc' hm' hx' (by rw [← hlen, List.getElem?_eq_getElem hk, hkj])
  intro he
  rw [he, h1'] at h1
  have h3 := Option.some.inj (Option.some.inj h1)
  have h4 := mul_left_cancel₀ hab h3
  have := Real.log_injOn_pos (Set.mem_Ioi.mpr h2') (Set.mem_Ioi.mpr h2) h4
  exact hne (by linarith)

/-- One feature with the values 1 and 3; the value 3 alone has another shift.  Products and ratios do not notice. -/
example : rowAt ([[1, 3]] : List (List ℝ)) 1 = rowAt ([[3]] : List (List ℝ)) 0 ∧ IsMin [1, 3] 1 ∧ IsMin [3] 3 ∧ |(1 : ℝ)| ≠ |3| ∧
    (∃ R R', singleTransform [[1, 3]] = .ok R ∧ singleTransform [[3]] = .ok R' ∧ (rowAt R 1)[1]? ≠ (rowAt R' 0)[1]?) := by
  have h1 : IsMin [1, 3] 1 := ⟨by simp, by intro x hx; simp at hx; rcases hx with rfl | rfl <;> norm_num⟩
  have h3 : IsMin [3] 3 := ⟨by simp, by intro x hx; simp at hx; rw [hx]⟩
  have hne : |(1 : ℝ)| ≠ |3| := by norm_num
  refine ⟨rfl, h1, h3, hne, _, _, rfl, rfl, ?_⟩
  exact (C259_single_violated [[1, 3]] [[3]] _ _ (by simp) (by simp) rfl rfl rfl 0 1 0 [1, 3] [3] 1 3 3 rfl rfl h1 h3 rfl rfl hne).1

end CatLearn.Props
