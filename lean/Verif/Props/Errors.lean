import Verif.Model.Errors
import Verif.Lemmas.Py
import Verif.Props.GPBuild
import Mathlib.Algebra.Order.Chebyshev
import Mathlib.Algebra.BigOperators.Fin
import Mathlib.Data.List.GetD
import Mathlib.Tactic.Linarith
import Mathlib.Tactic.Ring
import Mathlib.Tactic.FieldSimp

/-!
# Error statistics (C48) and the cost function (C49)
-/

namespace CatLearn.Err

open CatLearn CatLearn.Kernel CatLearn.Proc Matrix

/-- C48: unequal lengths raise AssertionError, and nothing else does. -/
theorem C48_raises (p t : List ℝ) :
    (getError p t = .error .assertion ↔ p.length ≠ t.length) ∧ (p.length = t.length → ∃ e, getError p t = .ok e) := by
  unfold getError
  constructor
  · split <;> simp_all
  · intro h
    simp [h]

theorem getError_ok {p t : List ℝ} {e : Errors} (h : getError p t = .ok e) :
    p.length = t.length ∧ e.residuals = List.zipWith (· - ·) p t ∧ e.signedMean = mean e.residuals ∧
      e.signedMedian = median e.residuals ∧ e.signedPercentiles = percentiles e.residuals ∧
      e.absoluteAll = e.residuals.map (fun r => |r|) ∧ e.absoluteAverage = mean e.absoluteAll ∧
      e.rmseAll = e.absoluteAll ∧ e.rmseAverage = Real.sqrt (mean (e.residuals.map fun r => r ^ 2)) ∧
      e.rmsePercentiles = percentiles e.rmseAll ∧ e.absolutePercentiles = percentiles e.absoluteAll := by
  unfold getError at h
  split at h
  · simp at h
  · next hl =>
    simp at h hl
    subst h
    refine ⟨hl, rfl, rfl, rfl, rfl, ?_, rfl, ?_, ?_, rfl, rfl⟩
    · simp [List.map_zipWith]
    · simp [Real.sqrt_sq_eq_abs]
    · simp [List.map_zipWith]

theorem sum_eq (l : List ℝ) (f : ℝ → ℝ) : (l.map f).sum = ∑ i : Fin l.length, f l[i] := by
  conv_lhs => rw [← List.ofFn_get l]
  rw [List.map_ofFn, List.sum_ofFn]
  rfl

theorem mean_le {l : List ℝ} {f g : ℝ → ℝ} (h : ∀ x ∈ l, f x ≤ g x) : mean (l.map f) ≤ mean (l.map g) := by
  unfold mean
  simp only [List.length_map]
  apply div_le_div_of_nonneg_right _ (by positivity)
  exact List.sum_le_sum h

theorem mean_const {l : List ℝ} (hl : l ≠ []) (c : ℝ) : mean (l.map fun _ => c) = c := by
  have : (l.length : ℝ) ≠ 0 := by simpa using hl
  unfold mean
  simp [List.map_const']
  field_simp

/-- C48: |signed mean| ≤ mean absolute error ≤ rmse ≤ largest absolute error. -/
theorem C48_bounds (p t : List ℝ) (hne : p ≠ []) (e : Errors) (h : getError p t = .ok e) :
    |e.signedMean| ≤ e.absoluteAverage ∧ e.absoluteAverage ≤ e.rmseAverage ∧
      ∃ m ∈ List.zipWith (fun a b => |a - b|) p t, e.rmseAverage ≤ m := by
  obtain ⟨hl, h1, h2, -, -, h3, h4, h5, h6, -⟩ := getError_ok h
  have hlen : e.residuals.length = p.length := by rw [h1]; simp [hl]
  have hres : e.residuals ≠ [] := by
    intro h0
    rw [h0] at hlen
    exact hne (List.eq_nil_of_length_eq_zero hlen.symm)
  have hpos : (0:ℝ) < e.residuals.length := by
    rw [hlen]
    exact_mod_cast List.length_pos_iff.mpr hne
  refine ⟨?_, ?_, ?_⟩
  · rw [h2, h4, h3]
    unfold mean
    rw [abs_div, List.length_map, abs_of_pos hpos]
    apply div_le_div_of_nonneg_right _ hpos.le
    have := sum_eq e.residuals id
    rw [List.map_id] at this
    rw [this, sum_eq]
    exact Finset.abs_sum_le_sum_abs _ _
  · rw [h4, h6, h3]
    apply Real.le_sqrt_of_sq_le
    unfold mean
    rw [div_pow, List.length_map, List.length_map, div_le_div_iff₀ (by positivity) hpos, sum_eq, sum_eq]
    have hc := sq_sum_le_card_mul_sum_sq (s := Finset.univ) (f := fun i : Fin e.residuals.length => |e.residuals[i]|)
    simp only [Finset.card_univ, Fintype.card_fin, sq_abs] at hc
    nlinarith
  · obtain ⟨m, hm1, hm2⟩ : ∃ m ∈ e.residuals.map (fun r => |r|), ∀ x ∈ e.residuals.map (fun r => |r|), x ≤ m := by
      obtain ⟨i, -, hi⟩ := Finset.exists_max_image (Finset.univ : Finset (Fin e.residuals.length))
        (fun i => |e.residuals[i]|) ⟨⟨0, List.length_pos_iff.mpr hres⟩, Finset.mem_univ _⟩
      refine ⟨|e.residuals[i]|, List.mem_map.mpr ⟨_, List.getElem_mem _, rfl⟩, ?_⟩
      intro x hx
      obtain ⟨r, hr, rfl⟩ := List.mem_map.mp hx
      obtain ⟨j, hj, rfl⟩ := List.getElem_of_mem hr
      exact hi ⟨j, hj⟩ (Finset.mem_univ _)
    refine ⟨m, ?_, ?_⟩
    · rw [h1, List.map_zipWith] at hm1
      exact hm1
    · have hm0 : 0 ≤ m := by
        obtain ⟨r, -, rfl⟩ := List.mem_map.mp hm1
        exact abs_nonneg r
      rw [h6]
      apply Real.sqrt_le_iff.mpr ⟨hm0, ?_⟩
      rw [← mean_const hres (m ^ 2)]
      apply mean_le
      intro x hx
      have := hm2 |x| (List.mem_map.mpr ⟨x, hx, rfl⟩)
      rw [← sq_abs x]
      exact pow_le_pow_left₀ (abs_nonneg x) this 2

theorem mean_zero_iff {l : List ℝ} (h : ∀ x ∈ l, 0 ≤ x) : mean l = 0 ↔ ∀ x ∈ l, x = 0 := by
  unfold mean
  by_cases hl : l = []
  · subst hl; simp
  · have : (l.length : ℝ) ≠ 0 := by simpa using hl
    rw [div_eq_zero_iff, or_iff_left this]
    constructor
    · intro h0 x hx
      exact le_antisymm (h0 ▸ List.single_le_sum h x hx) (h x hx)
    · intro h0
      exact List.sum_eq_zero h0

/-- C48: the mean absolute error, and the rmse, are zero exactly if the prediction is the target. -/
theorem C48_zero (p t : List ℝ) (e : Errors) (h : getError p t = .ok e) :
    (e.absoluteAverage = 0 ↔ p = t) ∧ (e.rmseAverage = 0 ↔ p = t) := by
  obtain ⟨hl, h1, h2, -, -, h3, h4, h5, h6, -⟩ := getError_ok h
  have hz : (∀ r ∈ e.residuals, r = 0) ↔ p = t := by
    rw [h1]
    clear h h1 h2 h3 h4 h5 h6 e
    induction p generalizing t with
    | nil => cases t with
      | nil => simp
      | cons b t => simp at hl
    | cons a p ih => cases t with
      | nil => simp at hl
      | cons b t =>
        have := ih t (by simpa using hl)
        simp only [List.zipWith_cons_cons, List.mem_cons, forall_eq_or_imp, List.cons.injEq, sub_eq_zero]
        rw [this]
  constructor
  · rw [h4, h3, mean_zero_iff (by simp), ← hz]
    simp
  · have hn : 0 ≤ mean (e.residuals.map fun r => r ^ 2) := by
      unfold mean
      apply div_nonneg _ (by positivity)
      exact List.sum_nonneg (by simp; intros; positivity)
    rw [h6, Real.sqrt_eq_zero hn, mean_zero_iff (by simp; intros; positivity), ← hz]
    simp

/-- C48: the lists of errors are those of the single points. -/
theorem C48_pointwise (p t : List ℝ) (e : Errors) (h : getError p t = .ok e) :
    e.residuals = List.zipWith (fun a b => a - b) p t ∧ e.rmseAll = List.zipWith (fun a b => |a - b|) p t ∧
      e.absoluteAll = List.zipWith (fun a b => |a - b|) p t := by
  obtain ⟨hl, h1, h2, -, -, h3, h4, h5, h6, -⟩ := getError_ok h
  refine ⟨h1, ?_, ?_⟩
  · rw [h5, h3, h1, List.map_zipWith]
  · rw [h3, h1, List.map_zipWith]

/-! ### Sorted lists -/

theorem sort_pairwise (l : List ℝ) : (sortAsc id l).Pairwise (· ≤ ·) := sortAsc_pairwise id l

theorem sort_perm {l l' : List ℝ} (h : l.Perm l') : sortAsc id l = sortAsc id l' := by
  refine List.Perm.eq_of_pairwise' (sort_pairwise l) (sort_pairwise l') ?_
  exact (sortAsc_perm id l).trans (h.trans (sortAsc_perm id l').symm)

theorem sort_neg (l : List ℝ) : sortAsc id (l.map fun x => -x) = ((sortAsc id l).map fun x => -x).reverse := by
  refine List.Perm.eq_of_pairwise' (sort_pairwise _) ?_ ?_
  · rw [List.pairwise_reverse, List.pairwise_map]
    exact (sortAsc_pairwise id l).imp fun h => neg_le_neg h
  · exact (sortAsc_perm id _).trans ((sortAsc_perm id l).symm.map _ |>.trans (List.reverse_perm _).symm)

theorem sort_length (l : List ℝ) : (sortAsc id l).length = l.length := (sortAsc_perm id l).length_eq

theorem sort_mono (l : List ℝ) (i j : Nat) (hij : i ≤ j) (hj : j < l.length) :
    (sortAsc id l).getD i 0 ≤ (sortAsc id l).getD j 0 := by
  rcases Nat.eq_or_lt_of_le hij with rfl | hlt
  · exact le_rfl
  · have hj' : j < (sortAsc id l).length := by rwa [sort_length]
    rw [List.getD_eq_getElem _ _ (by omega), List.getD_eq_getElem _ _ hj']
    exact List.pairwise_iff_getElem.mp (sortAsc_pairwise id l) i j (by omega) hj' hlt

/-- Linear interpolation between the elements of a sorted list. -/
noncomputable def interp (s : List ℝ) (x : ℝ) : ℝ :=
  s.getD ⌊x⌋₊ 0 + (x - ⌊x⌋₊) * (s.getD (⌊x⌋₊ + 1) (s.getD ⌊x⌋₊ 0) - s.getD ⌊x⌋₊ 0)

theorem percentile_eq (l : List ℝ) (p : ℝ) : percentile l p = interp (sortAsc id l) (p / 100 * (l.length - 1)) := rfl

theorem interp_nat (s : List ℝ) (i : Nat) : interp s i = s.getD i 0 := by simp [interp]

theorem interp_seg (s : List ℝ) (i : Nat) (hi : i + 1 < s.length) (x : ℝ) (h1 : (i:ℝ) ≤ x) (h2 : x ≤ i + 1) :
    interp s x = s.getD i 0 + (x - i) * (s.getD (i + 1) 0 - s.getD i 0) := by
  rcases h2.lt_or_eq with h2 | h2
  · have hf : ⌊x⌋₊ = i := by
      rw [Nat.floor_eq_iff (le_trans (by positivity) h1)]
      exact ⟨h1, h2⟩
    unfold interp
    rw [hf, List.getD_eq_getElem _ (s.getD i 0) hi, List.getD_eq_getElem _ 0 hi]
  · have : x = ((i + 1 : Nat) : ℝ) := by rw [h2]; push_cast; rfl
    rw [this, interp_nat]
    push_cast
    ring

/-- Every position is in a segment, or there is only one element. -/
theorem seg (n : Nat) (x : ℝ) (h0 : 0 ≤ x) (h1 : x ≤ n) : (n = 0 ∧ x = 0) ∨ ∃ i : Nat, i < n ∧ (i:ℝ) ≤ x ∧ x ≤ i + 1 := by
  rcases Nat.eq_zero_or_pos n with rfl | hn
  · left; exact ⟨rfl, le_antisymm (by simpa using h1) h0⟩
  · right
    rcases h1.lt_or_eq with h1 | h1
    · refine ⟨⌊x⌋₊, (Nat.floor_lt h0).mpr h1, Nat.floor_le h0, (Nat.lt_floor_add_one x).le⟩
    · refine ⟨n - 1, by omega, ?_, ?_⟩
      · rw [h1]; exact_mod_cast Nat.sub_le n 1
      · rw [h1]; push_cast [Nat.cast_sub hn]; linarith

theorem interp_neg (s : List ℝ) (n : Nat) (hs : s.length = n + 1) (x : ℝ) (h0 : 0 ≤ x) (h1 : x ≤ n) :
    interp (s.map fun y => -y).reverse (n - x) = -interp s x := by
  have hg : ∀ i, i ≤ n → ((s.map fun y => -y).reverse).getD i 0 = -s.getD (n - i) 0 := by
    intro i hi
    rw [List.getD_eq_getElem _ _ (by simp; omega), List.getD_eq_getElem _ _ (by omega)]
    simp [hs]
  rcases seg n x h0 h1 with ⟨rfl, rfl⟩ | ⟨i, hi, h2, h3⟩
  · have e0 : ((0:ℕ):ℝ) - 0 = ((0:ℕ):ℝ) := by simp
    rw [e0, interp_nat, hg 0 (le_refl _)]
    have := interp_nat s 0
    simp at this ⊢
    rw [this]
  · rw [interp_seg s i (by omega) x h2 h3]
    have hc : ((n - 1 - i : Nat) : ℝ) = n - 1 - i := by
      rw [Nat.cast_sub (by omega), Nat.cast_sub (by omega)]; simp
    rw [interp_seg _ (n - 1 - i) (by simp; omega) (n - x) (by rw [hc]; linarith) (by rw [hc]; linarith), hg _ (by omega),
      hg _ (by omega), hc, show n - (n - 1 - i) = i + 1 by omega, show n - (n - 1 - i + 1) = i by omega]
    ring

theorem interp_mono (l : List ℝ) (n : Nat) (hl : l.length = n + 1) (x y : ℝ) (h0 : 0 ≤ x) (hxy : x ≤ y) (hy : y ≤ n) :
    interp (sortAsc id l) x ≤ interp (sortAsc id l) y := by
  have hs : (sortAsc id l).length = n + 1 := by rw [sort_length, hl]
  rcases seg n x h0 (hxy.trans hy) with ⟨rfl, rfl⟩ | ⟨i, hi, h2, h3⟩
  · have : y = 0 := le_antisymm (by simpa using hy) hxy
    rw [this]
  · rcases seg n y (h0.trans hxy) hy with ⟨rfl, -⟩ | ⟨j, hj, h4, h5⟩
    · omega
    · have hm : ∀ a b, a ≤ b → b ≤ n → (sortAsc id l).getD a 0 ≤ (sortAsc id l).getD b 0 :=
        fun a b hab hb => sort_mono l a b hab (by omega)
      rw [interp_seg _ i (by omega) x h2 h3, interp_seg _ j (by omega) y h4 h5]
      have hsi := hm i (i + 1) (by omega) (by omega)
      have hsj := hm j (j + 1) (by omega) (by omega)
      rcases Nat.lt_trichotomy i j with hij | rfl | hij
      · have hjk := hm (i + 1) j (by omega) (by omega)
        nlinarith [mul_le_mul_of_nonneg_right (show x - i ≤ 1 by linarith)
          (show 0 ≤ (sortAsc id l).getD (i + 1) 0 - (sortAsc id l).getD i 0 by linarith),
          mul_nonneg (show 0 ≤ y - j by linarith)
          (show 0 ≤ (sortAsc id l).getD (j + 1) 0 - (sortAsc id l).getD j 0 by linarith)]
      · nlinarith [mul_le_mul_of_nonneg_right (show x - i ≤ y - i by linarith)
          (show 0 ≤ (sortAsc id l).getD (i + 1) 0 - (sortAsc id l).getD i 0 by linarith)]
      · -- then x = y = i
        have h6 : ((j + 1 : Nat) : ℝ) ≤ i := by exact_mod_cast hij
        push_cast at h6
        have hx : x = i := by linarith
        have hy' : y = j + 1 := by linarith
        have hji : i = j + 1 := by
          have : (i:ℝ) = (j:ℝ) + 1 := by linarith
          exact_mod_cast this
        subst hji
        rw [hx, hy']
        simp

theorem pos_range (n : Nat) (p : ℝ) (h0 : 0 ≤ p) (h1 : p ≤ 100) :
    0 ≤ p / 100 * (((n + 1 : Nat) : ℝ) - 1) ∧ p / 100 * (((n + 1 : Nat) : ℝ) - 1) ≤ n := by
  push_cast
  have hn : (0:ℝ) ≤ n := by positivity
  constructor
  · have : 0 ≤ p / 100 := by positivity
    nlinarith
  · have : p / 100 ≤ 1 := by rw [div_le_one (by norm_num)]; exact h1
    nlinarith

/-- C48: percentiles are ordered. -/
theorem C48_percentile_mono (l : List ℝ) (hl : l ≠ []) (p q : ℝ) (h0 : 0 ≤ p) (hpq : p ≤ q) (h1 : q ≤ 100) :
    percentile l p ≤ percentile l q := by
  obtain ⟨n, hn⟩ : ∃ n, l.length = n + 1 := ⟨l.length - 1, by have := List.length_pos_iff.mpr hl; omega⟩
  rw [percentile_eq, percentile_eq, hn]
  refine interp_mono l n hn _ _ (pos_range n p h0 (hpq.trans h1)).1 ?_ (pos_range n q (h0.trans hpq) h1).2
  push_cast
  have hn0 : (0:ℝ) ≤ n := by positivity
  have : p / 100 ≤ q / 100 := by linarith
  nlinarith

/-- C48: and lie between the smallest and the largest element, which are the percentiles 0 and 100. -/
theorem C48_percentile_bounds (l : List ℝ) (hl : l ≠ []) (p : ℝ) (h0 : 0 ≤ p) (h1 : p ≤ 100) :
    percentile l 0 ∈ l ∧ percentile l 100 ∈ l ∧ (∀ x ∈ l, percentile l 0 ≤ x ∧ x ≤ percentile l 100) ∧
      percentile l 0 ≤ percentile l p ∧ percentile l p ≤ percentile l 100 := by
  obtain ⟨n, hn⟩ : ∃ n, l.length = n + 1 := ⟨l.length - 1, by have := List.length_pos_iff.mpr hl; omega⟩
  have hs : (sortAsc id l).length = n + 1 := by rw [sort_length, hn]
  have e0 : percentile l 0 = (sortAsc id l).getD 0 0 := by
    rw [percentile_eq]; simpa using interp_nat (sortAsc id l) 0
  have e1 : percentile l 100 = (sortAsc id l).getD n 0 := by
    rw [percentile_eq, hn]
    have : (100:ℝ) / 100 * (((n + 1 : Nat) : ℝ) - 1) = n := by push_cast; ring
    rw [this, interp_nat]
  refine ⟨?_, ?_, ?_, C48_percentile_mono l hl 0 p le_rfl h0 h1, C48_percentile_mono l hl p 100 h0 h1 le_rfl⟩
  · rw [e0, List.getD_eq_getElem _ _ (by omega)]
    exact (sortAsc_perm id l).mem_iff.mp (List.getElem_mem _)
  · rw [e1, List.getD_eq_getElem _ _ (by omega)]
    exact (sortAsc_perm id l).mem_iff.mp (List.getElem_mem _)
  · intro x hx
    obtain ⟨i, hi, rfl⟩ := List.getElem_of_mem ((sortAsc_perm id l).mem_iff.mpr hx)
    have h2 := sort_mono l 0 i (by omega) (by omega)
    have h3 := sort_mono l i n (by omega) (by omega)
    rw [List.getD_eq_getElem _ _ hi] at h2 h3
    rw [e0, e1]
    exact ⟨h2, h3⟩

/-- C48: the median is the percentile 50. -/
theorem C48_median (l : List ℝ) (hl : l ≠ []) : median l = percentile l 50 := by
  obtain ⟨n, hn⟩ : ∃ n, l.length = n + 1 := ⟨l.length - 1, by have := List.length_pos_iff.mpr hl; omega⟩
  have hs : (sortAsc id l).length = n + 1 := by rw [sort_length, hn]
  rw [percentile_eq]
  unfold median
  simp only [hn]
  have hx : (50:ℝ) / 100 * (((n + 1 : Nat) : ℝ) - 1) = n / 2 := by push_cast; ring
  rw [hx, Nat.add_sub_cancel]
  rcases Nat.even_or_odd' n with ⟨k, rfl | rfl⟩
  · have : (((2 * k : Nat)) : ℝ) / 2 = (k : Nat) := by push_cast; ring
    rw [this, interp_nat, show 2 * k / 2 = k by omega, show (2 * k + 1) / 2 = k by omega]
    ring
  · have : (((2 * k + 1 : Nat)) : ℝ) / 2 = k + 1 / 2 := by push_cast; ring
    rw [this, interp_seg _ k (by omega) _ (by linarith) (by linarith), show (2 * k + 1) / 2 = k by omega,
      show (2 * k + 1 + 1) / 2 = k + 1 by omega]
    ring

theorem percentile_neg (l : List ℝ) (hl : l ≠ []) (p : ℝ) (h0 : 0 ≤ p) (h1 : p ≤ 100) :
    percentile (l.map fun x => -x) (100 - p) = -percentile l p := by
  obtain ⟨n, hn⟩ : ∃ n, l.length = n + 1 := ⟨l.length - 1, by have := List.length_pos_iff.mpr hl; omega⟩
  have hs : (sortAsc id l).length = n + 1 := by rw [sort_length, hn]
  obtain ⟨r1, r2⟩ := pos_range n p h0 h1
  rw [percentile_eq, percentile_eq, sort_neg, List.length_map, hn, ← interp_neg _ n hs _ r1 r2]
  congr 1
  push_cast
  ring

/-- C48: exchanging prediction and target changes nothing but the sign of the signed statistics. -/
theorem C48_swap (p t : List ℝ) (hne : p ≠ []) (e e' : Errors) (h : getError p t = .ok e) (h' : getError t p = .ok e') :
    e'.absoluteAll = e.absoluteAll ∧ e'.rmseAll = e.rmseAll ∧ e'.absoluteAverage = e.absoluteAverage ∧
      e'.rmseAverage = e.rmseAverage ∧ e'.absolutePercentiles = e.absolutePercentiles ∧
      e'.rmsePercentiles = e.rmsePercentiles ∧ e'.residuals = e.residuals.map (fun r => -r) ∧
      e'.signedMean = -e.signedMean ∧ e'.signedMedian = -e.signedMedian ∧
      ∀ q x y, (q, x) ∈ e.signedPercentiles → (100 - q, y) ∈ e'.signedPercentiles → y = -x := by
  obtain ⟨hl, h1, h2, h2m, h2p, h3, h4, h5, h6, h7, h8⟩ := getError_ok h
  obtain ⟨hl', h1', h2', h2m', h2p', h3', h4', h5', h6', h7', h8'⟩ := getError_ok h'
  have hr : e'.residuals = e.residuals.map fun r => -r := by
    rw [h1, h1', List.map_zipWith, List.zipWith_comm]
    congr 1
    funext a b
    ring
  have hres : e.residuals ≠ [] := by
    intro h0
    have hlen : e.residuals.length = p.length := by rw [h1]; simp [hl]
    rw [h0] at hlen
    exact hne (List.eq_nil_of_length_eq_zero hlen.symm)
  have ha : e'.absoluteAll = e.absoluteAll := by rw [h3, h3', hr, List.map_map]; simp [Function.comp_def]
  refine ⟨ha, by rw [h5, h5', ha], by rw [h4, h4', ha], ?_, by rw [h8, h8', ha], by rw [h7, h7', h5, h5', ha], hr, ?_, ?_, ?_⟩
  · rw [h6, h6', hr, List.map_map]; simp [Function.comp_def]
  · rw [h2, h2', hr]
    unfold mean
    have := sum_eq e.residuals id
    rw [List.map_id] at this
    rw [sum_eq, this, List.length_map]
    simp [neg_div]
  · rw [h2m, h2m', hr, C48_median _ hres, C48_median _ (by simpa using hres)]
    have := percentile_neg e.residuals hres 50 (by norm_num) (by norm_num)
    rw [← this]
    norm_num
  · intro q x y hx hy
    rw [h2p] at hx
    rw [h2p', hr] at hy
    have hn := fun q h0 h1 => percentile_neg e.residuals hres q h0 h1
    simp only [percentiles, List.map_cons, List.map_nil, List.mem_cons, Prod.mk.injEq, List.not_mem_nil, or_false] at hx hy
    rcases hx with ⟨rfl, rfl⟩ | ⟨rfl, rfl⟩ | ⟨rfl, rfl⟩ | ⟨rfl, rfl⟩ | ⟨rfl, rfl⟩ | ⟨rfl, rfl⟩ <;> simp at hy <;> subst hy
    · rw [← hn _ (by norm_num) (by norm_num)]; norm_num
    · rw [← hn _ (by norm_num) (by norm_num)]; norm_num
    · rw [← hn _ (by norm_num) (by norm_num)]; norm_num
    · rw [← hn _ (by norm_num) (by norm_num)]; norm_num
    · rw [← hn _ (by norm_num) (by norm_num)]; norm_num
    · rw [← hn _ (by norm_num) (by norm_num)]; norm_num

theorem mean_perm {l l' : List ℝ} (h : l.Perm l') : mean l = mean l' := by
  unfold mean; rw [h.sum_eq, h.length_eq]

/-- C48: the order of the pairs does not matter. -/
theorem C48_order (d d' : List (ℝ × ℝ)) (hd : d.Perm d') (e : Errors)
    (h : getError (d.map Prod.fst) (d.map Prod.snd) = .ok e) :
    ∃ e', getError (d'.map Prod.fst) (d'.map Prod.snd) = .ok e' ∧ e'.signedMean = e.signedMean ∧
      e'.signedMedian = e.signedMedian ∧ e'.signedPercentiles = e.signedPercentiles ∧
      e'.rmseAverage = e.rmseAverage ∧ e'.rmsePercentiles = e.rmsePercentiles ∧
      e'.absoluteAverage = e.absoluteAverage ∧ e'.absolutePercentiles = e.absolutePercentiles := by
  obtain ⟨e', h'⟩ := (C48_raises (d'.map Prod.fst) (d'.map Prod.snd)).2 (by simp)
  refine ⟨e', h', ?_⟩
  obtain ⟨hl, h1, h2, h2m, h2p, h3, h4, h5, h6, h7, h8⟩ := getError_ok h
  obtain ⟨hl', h1', h2', h2m', h2p', h3', h4', h5', h6', h7', h8'⟩ := getError_ok h'
  have hz : ∀ d : List (ℝ × ℝ), List.zipWith (· - ·) (d.map Prod.fst) (d.map Prod.snd) = d.map fun x => x.1 - x.2 := by
    intro d
    induction d with
    | nil => rfl
    | cons x d ih => simpa using ih
  have hr : e'.residuals.Perm e.residuals := by
    rw [h1, h1', hz, hz]
    exact hd.symm.map _
  have hp : ∀ l l' : List ℝ, l.Perm l' → percentiles l = percentiles l' := by
    intro l l' h
    unfold percentiles percentile
    rw [sort_perm h, h.length_eq]
  have ha : e'.absoluteAll.Perm e.absoluteAll := by rw [h3, h3']; exact hr.map _
  refine ⟨by rw [h2, h2', mean_perm hr], ?_, by rw [h2p, h2p', hp _ _ hr], by rw [h6, h6', mean_perm (hr.map _)],
    by rw [h7, h7', h5, h5', hp _ _ ha], by rw [h4, h4', mean_perm ha], by rw [h8, h8', hp _ _ ha]⟩
  rw [h2m, h2m']
  unfold median
  rw [sort_perm hr, hr.length_eq]

example : getError [1, 2] [3, 5, 4] = .error .assertion := by simp [getError]

example : ∃ e, getError [1, 2] [3, 5] = .ok e ∧ e.residuals = [-2, -3] := by
  refine ⟨_, rfl, ?_⟩
  norm_num

/-- C48: the insensitive error is between zero and the absolute error, and vanishes exactly when no error exceeds the
threshold. -/
theorem C48_insensitive (p t : List ℝ) (eps : ℝ) (he : 0 ≤ eps) (rp : Bool) (e : Errors) (h : getError p t = .ok e) :
    ∃ i, insensitive p t (some eps) rp = .ok i ∧ 0 ≤ i.average ∧ i.average ≤ e.absoluteAverage ∧
      (i.average = 0 ↔ ∀ r ∈ e.residuals, |r| ≤ eps) ∧ i.percentiles.isSome = rp := by
  obtain ⟨hl, h1, h2, h2m, h2p, h3, h4, h5, h6, h7, h8⟩ := getError_ok h
  have hn : ∀ r : ℝ, 0 ≤ (if |r| - eps < 0 then 0 else |r| - eps) := by
    intro r; split <;> linarith
  have hi : insensitive p t (some eps) rp = .ok
      { all := e.residuals.map fun r => if |r| - eps < 0 then 0 else |r| - eps
        average := mean (e.residuals.map fun r => if |r| - eps < 0 then 0 else |r| - eps)
        percentiles := if rp = true then
          some (percentiles (e.residuals.map fun r => if |r| - eps < 0 then 0 else |r| - eps)) else none } := by
    simp only [insensitive, h, bind, Except.bind, pure, Except.pure]
  refine ⟨_, hi, ?_, ?_, ?_, ?_⟩
  · unfold mean
    apply div_nonneg _ (by positivity)
    apply List.sum_nonneg
    intro x hx
    obtain ⟨r, -, rfl⟩ := List.mem_map.mp hx
    exact hn r
  · rw [h4, h3]
    apply mean_le
    intro r _
    split
    · exact abs_nonneg r
    · linarith
  · rw [mean_zero_iff]
    · simp only [List.mem_map, forall_exists_index, and_imp, forall_apply_eq_imp_iff₂]
      apply forall₂_congr
      intro r _
      split
      · next h => simp; linarith
      · next h => constructor <;> intro h' <;> linarith [le_antisymm (show |r| - eps ≤ 0 by linarith) (by linarith)]
    · intro x hx
      obtain ⟨r, -, rfl⟩ := List.mem_map.mp hx
      exact hn r
  · cases rp <;> rfl

/-- C49 fails: whatever the hyperparameters, the error of the predictions on the training data is zero, as they are
made with the covariance that includes the regularisation. -/
theorem C49_zero_violated {N : Nat} (θ : List ℝ) (fp : List (Fin N → ℝ)) (y : List ℝ) (ks : List (KDict N))
    (log rmse : Bool) (v : ℝ) (h : costFunction θ fp y ks log rmse = .ok v) : v = 0 := by
  unfold costFunction at h
  cases h1 : list2kdict θ ks with
  | error e => simp [h1, bind, Except.bind] at h
  | ok ks' =>
    cases h2 : θ.getLast? with
    | none => simp [h1, h2, bind, Except.bind, throw, throwThe, MonadExceptOf.throw] at h
    | some r =>
      cases h3 : invGram ks' log (some r) fp with
      | error e => simp [h1, h2, h3, bind, Except.bind] at h
      | ok ci =>
        obtain ⟨-, hu, hci⟩ := invGram_ok h3
        subst hci
        by_cases hl : y.length = fp.length
        · have hy : (List.ofFn (gram ks' log (some r) fp *ᵥ fun i => if h : i.1 < fp.length then
              ((gram ks' log (some r) fp)⁻¹ *ᵥ fun i => y.getD i 0) ⟨i.1, h⟩ else 0)) = y := by
            have e1 : (fun i : Fin fp.length => if h : i.1 < fp.length then
                ((gram ks' log (some r) fp)⁻¹ *ᵥ fun i => y.getD i 0) ⟨i.1, h⟩ else 0) =
                (gram ks' log (some r) fp)⁻¹ *ᵥ fun i => y.getD i 0 := by
              funext i; simp
            rw [e1, mulVec_mulVec, mul_nonsing_inv _ hu, one_mulVec]
            apply List.ext_getElem
            · simp [hl]
            · intro i h1 h2
              simp [h2]
          cases h4 : getError y y with
          | error e =>
            obtain ⟨e', he'⟩ := (C48_raises y y).2 rfl
            rw [he'] at h4
            simp at h4
          | ok e =>
            simp only [h1, h2, h3, hl, hy, h4, bind, Except.bind, pure, Except.pure, ne_eq, not_true_eq_false,
              if_false] at h
            have hz := C48_zero y y e h4
            have ha := hz.1.mpr rfl
            have hb := hz.2.mpr rfl
            cases rmse <;> simp at h
            · rw [← h, ha]
            · rw [← h, hb]
        · simp [h1, h2, h3, hl, bind, Except.bind, throw, throwThe, MonadExceptOf.throw] at h

/-- The cost function does return: here for a constant kernel. -/
example : ∃ v, costFunction (N := 1) [3, 1] [![0], ![1]] [5, 7] [⟨.constant 2, none, none, false⟩] false true = .ok v := by
  have h1 : list2kdict (N := 1) [3, 1] [⟨.constant 2, none, none, false⟩] = .ok [⟨.constant 3, none, none, false⟩] := by
    simp [list2kdict, list2kdictFrom, setKernel, item, bind, Except.bind, pure, Except.pure]
  have h2 := invGram_of (N := 1) (ks := [⟨.constant 3, none, none, false⟩]) (log := false) (reg := some 1)
    (fp := [![0], ![1]]) (by simp) (C41_posDef _ false (by simp [GoodKernel]) 1 (Or.inr one_ne_zero) _).2
  unfold costFunction
  simp only [h1, h2, bind, Except.bind, pure, Except.pure, List.getLast?_cons_cons, List.getLast?_singleton]
  simp only [List.length_cons, List.length_nil, ne_eq, not_true_eq_false, if_false]
  generalize hL : List.ofFn _ = L
  obtain ⟨e, he⟩ := (C48_raises L [5, 7]).2 (by rw [← hL]; simp)
  exact ⟨e.rmseAverage, by rw [he]; simp⟩

end CatLearn.Err
