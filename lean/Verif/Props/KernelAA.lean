import Verif.Model.KernelAA
import Verif.Lemmas.PSD
import Mathlib.Algebra.BigOperators.Fin

/-!
# C256: the kernels for categories and with scaled features
-/

namespace CatLearn.KernelAA

open CatLearn CatLearn.PSD Matrix

/-- The kernel of Aitchison and Aitken for `N` features with `c` categories: `l` for each feature in which two rows agree, `(1 - l) / (c - 1)` for each in which
they differ. -/
noncomputable def aitchisonAitken {N : ℕ} (l c : ℝ) (u v : Fin N → ℝ) : ℝ :=
  l ^ (Finset.univ.filter fun j => u j = v j).card * ((1 - l) / (c - 1)) ^ (Finset.univ.filter fun j => u j ≠ v j).card

private theorem entry_eq {N : ℕ} (l : ℝ) (c : List ℝ) (u v : Fin N → ℝ) :
    entry l c u v = (c.map fun c => ∑ j, l ^ ((N : ℝ) - |u j - v j|) * ((1 - l) / (c - l)) ^ |u j - v j|).sum := by
  unfold entry
  simp only [Real.sqrt_sq_eq_abs]

/-- C256, defined.  With a number and at least one number of categories the result is a matrix with one entry for each pair of rows; with the
logarithms of the hyperparameters it is the same. -/
theorem C256_defined {n m : Type} {N : ℕ} (l c : ℝ) (cs : List ℝ) (X : n → Fin N → ℝ) (Y : m → Fin N → ℝ) :
    (∃ K : Matrix n m ℝ, aaKernel (l :: c :: cs) false X Y false = .ok K) ∧
      aaKernel (l :: c :: cs) true X Y false = aaKernel ((l :: c :: cs).map Real.exp) false X Y false ∧
      aaKernel ([] : List ℝ) false X Y false = .error .index ∧ aaKernel [l] false X Y false = .error .value ∧
      aaKernel (l :: c :: cs) false X Y true = .error .notImpl := by
  refine ⟨⟨_, rfl⟩, ?_, rfl, rfl, rfl⟩
  simp [aaKernel]

/-- C256, symmetry.  Exchanging the two lists of rows transposes the matrix; the matrix of one list is symmetric. -/
theorem C256_symmetric {n m : Type} {N : ℕ} (θ : List ℝ) (log : Bool) (X : n → Fin N → ℝ) (Y : m → Fin N → ℝ) (grad : Bool) :
    aaKernel θ log Y X grad = (aaKernel θ log X Y grad).map Matrix.transpose := by
  have h : ∀ (l : ℝ) (c : List ℝ) (u v : Fin N → ℝ), entry l c u v = entry l c v u := by
    intro l c u v
    rw [entry_eq, entry_eq]
    simp only [abs_sub_comm]
  unfold aaKernel
  cases grad with
  | true => rfl
  | false =>
    simp only [Bool.false_eq_true, if_false]
    match θ with
    | [] => rfl
    | [_] => rfl
    | l :: c :: cs =>
      simp only [Except.map, Except.ok.injEq]
      ext i j
      simp only [Matrix.of_apply, Matrix.transpose_apply]
      exact h _ _ _ _

/-- C256 (partial: hyperparameters for which differing is penalised, `(1 - l) / (c - l) ≤ l`).  The matrix is positive semidefinite, the entry of two equal rows is `l ^ N` for
each feature and number of categories, and no entry is larger. -/
theorem C256_covariance_partial {n : Type} {N : ℕ} (l : ℝ) (c : List ℝ) (h0 : 0 < l) (h1 : l < 1) (hc : ∀ x ∈ c, l < x ∧ (1 - l) / (x - l) ≤ l)
    (hne : c ≠ []) (X : n → Fin N → ℝ) :
    ∃ K, aaKernel (l :: c) false X X false = .ok K ∧ K.PosSemidef ∧ (∀ i, K i i = c.length * (N * l ^ N)) ∧ ∀ i j, K i j ≤ c.length * (N * l ^ N) := by
  refine ⟨Matrix.of fun i j => entry l c (X i) (X j), ?_, ?_, ?_, ?_⟩
  · cases c with
    | nil => exact absurd rfl hne
    | cons x c => rfl
  · have term : ∀ x ∈ c, ∀ d : ℝ, l ^ ((N : ℝ) - d) * ((1 - l) / (x - l)) ^ d = l ^ (N : ℝ) * Real.exp (-(Real.log (l / ((1 - l) / (x - l))) * d)) := by
      intro x hx d
      have hq : 0 < (1 - l) / (x - l) := div_pos (by linarith) (by linarith [(hc x hx).1])
      rw [Real.rpow_sub h0, Real.rpow_def_of_pos hq, Real.log_div h0.ne' hq.ne', div_mul_eq_mul_div, div_eq_mul_inv, mul_assoc]
      congr 1
      rw [Real.rpow_def_of_pos h0, ← Real.exp_neg, ← Real.exp_add]
      congr 1
      ring
    have hp : PSDK fun u v : Fin N → ℝ => entry l c u v := by
      have : (fun u v : Fin N → ℝ => entry l c u v) = fun u v => (c.map fun x => ((List.finRange N).map fun j =>
          l ^ (N : ℝ) * Real.exp (-(Real.log (l / ((1 - l) / (x - l))) * |u j - v j|))).sum).sum := by
        funext u v
        rw [entry_eq]
        congr 1
        apply List.map_congr_left
        intro x hx
        rw [← List.ofFn_eq_map, List.sum_ofFn]
        exact Finset.sum_congr rfl fun j _ => term x hx _
      rw [this]
      refine psdk_list_sum c _ fun x hx => psdk_list_sum _ _ fun j _ => ?_
      refine PSDK.smul ?_ (Real.rpow_nonneg h0.le _)
      refine (negType_abs fun u : Fin N → ℝ => u j).2 _ (Real.log_nonneg ?_)
      have hq : 0 < (1 - l) / (x - l) := div_pos (by linarith) (by linarith [(hc x hx).1])
      rw [le_div_iff₀ hq, one_mul]
      exact (hc x hx).2
    exact hp.comp X
  · intro i
    rw [Matrix.of_apply, entry_eq]
    simp [List.map_const']
  · intro i j
    rw [Matrix.of_apply, entry_eq]
    have hb : ∀ x ∈ c, (∑ k, l ^ ((N : ℝ) - |X i k - X j k|) * ((1 - l) / (x - l)) ^ |X i k - X j k|) ≤ N * l ^ N := by
      intro x hx
      have hq : 0 < (1 - l) / (x - l) := div_pos (by linarith) (by linarith [(hc x hx).1])
      calc (∑ k, l ^ ((N : ℝ) - |X i k - X j k|) * ((1 - l) / (x - l)) ^ |X i k - X j k|)
          ≤ ∑ _k : Fin N, l ^ N := by
            refine Finset.sum_le_sum fun k _ => ?_
            calc l ^ ((N : ℝ) - |X i k - X j k|) * ((1 - l) / (x - l)) ^ |X i k - X j k|
                ≤ l ^ ((N : ℝ) - |X i k - X j k|) * l ^ |X i k - X j k| :=
                  mul_le_mul_of_nonneg_left (Real.rpow_le_rpow hq.le (hc x hx).2 (abs_nonneg _)) (Real.rpow_nonneg h0.le _)
              _ = l ^ N := by rw [← Real.rpow_add h0, sub_add_cancel, Real.rpow_natCast]
        _ = N * l ^ N := by simp
    have := List.sum_le_sum (l := c) (f := fun x => ∑ k, l ^ ((N : ℝ) - |X i k - X j k|) * ((1 - l) / (x - l)) ^ |X i k - X j k|)
      (g := fun _ => N * l ^ N) hb
    simpa [List.map_const'] using this

example : (0 : ℝ) < 3 / 4 ∧ (3 / 4 : ℝ) < 1 ∧ ∀ x ∈ ([2, 3] : List ℝ), 3 / 4 < x ∧ (1 - 3 / 4) / (x - 3 / 4) ≤ (3 / 4 : ℝ) := by
  refine ⟨by norm_num, by norm_num, ?_⟩
  intro x hx
  simp only [List.mem_cons, List.not_mem_nil, or_false] at hx
  rcases hx with rfl | rfl <;> norm_num

private theorem entry1 (l c x y : ℝ) : entry l [c] (fun _ : Fin 1 => x) (fun _ => y) = l ^ (1 - |x - y|) * ((1 - l) / (c - l)) ^ |x - y| := by
  rw [entry_eq]
  simp

/-- C256 is violated: the label of a category matters.  Two rows with different categories get `1/3` or `2/9` depending on the numbers by which
the categories are called, and not the value `1/2` of Aitchison and Aitken. -/
theorem C256_labels_violated :
    entry (1 / 2) [2] (fun _ : Fin 1 => 0) (fun _ => 1) = 1 / 3 ∧ entry (1 / 2) [2] (fun _ : Fin 1 => 0) (fun _ => 2) = 2 / 9 ∧
      aitchisonAitken (1 / 2) 2 (fun _ : Fin 1 => 0) (fun _ => 1) = 1 / 2 ∧ aitchisonAitken (1 / 2) 2 (fun _ : Fin 1 => 0) (fun _ => 2) = 1 / 2 := by
  refine ⟨?_, ?_, ?_, ?_⟩
  · rw [entry1]
    norm_num
  · rw [entry1]
    have e : (1 : ℝ) - |0 - 2| = ((-1 : ℤ) : ℝ) := by norm_num
    have e2 : |(0 : ℝ) - 2| = ((2 : ℕ) : ℝ) := by norm_num
    rw [e, e2, Real.rpow_intCast, Real.rpow_natCast]
    norm_num
  · norm_num [aitchisonAitken]
  · norm_num [aitchisonAitken]

/-- C256 is violated: for `l = 1/4` and two categories, different rows have a larger entry than equal rows, and the matrix is not positive semidefinite. -/
theorem C256_covariance_violated :
    ∃ K, aaKernel [1 / 4, 2] false (fun (i : Fin 2) (_ : Fin 1) => (i : ℝ)) (fun (i : Fin 2) (_ : Fin 1) => (i : ℝ)) false = .ok K ∧
      K 0 0 < K 0 1 ∧ ¬ K.PosSemidef := by
  refine ⟨_, rfl, ?_, ?_⟩
  · simp only [Bool.false_eq_true, if_false, Matrix.of_apply, entry1]
    norm_num
  · intro h
    have := PSDK.form (k := fun i j : Fin 2 => entry (1 / 4) [2] (fun _ : Fin 1 => (i : ℝ)) fun _ => (j : ℝ)) h Finset.univ ![1, -1]
    simp only [Fin.sum_univ_two, entry1] at this
    norm_num at this

/-- C256 is violated: `scaled_sqe_kernel` raises TypeError for all arguments (NotImplementedError if gradients are asked for). -/
theorem C256_scaled_violated {n m : Type} {N : ℕ} (θ : List ℝ) (log : Bool) (X : n → Fin N → ℝ) (Y : m → Fin N → ℝ) :
    scaledSqe θ log X Y false = .error .type ∧ scaledSqe θ log X Y true = .error .notImpl := ⟨rfl, rfl⟩

end CatLearn.KernelAA
