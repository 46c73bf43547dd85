import Verif.Spec.Kernel
import Verif.Lemmas.PSD
import Mathlib.Analysis.Matrix.PosDef
import Mathlib.Data.List.GetD

/-!
# Properties of the covariance functions (C41)
-/

namespace CatLearn.Kernel

open CatLearn CatLearn.PSD

theorem entry_symm {N : Nat} (k : KType) (cols : List (Fin N)) (log : Bool) (x y : Fin N → ℝ) (s : Bool) :
    entry k cols log x y s = entry k cols log y x s := by
  have hc : ∀ f : Nat → ℝ → ℝ → ℝ, (∀ i a b, f i a b = f i b a) → colSum cols x y f = colSum cols y x f := by
    intro f hf
    unfold colSum
    congr 1
    apply List.map_congr_left
    intro c _
    exact hf _ _ _
  cases k with
  | gaussian w => simp only [entry]; rw [hc]; intro i a b; ring
  | laplacian w => simp only [entry]; rw [hc]; intro i a b; rw [abs_sub_comm]
  | sqe w => simp only [entry]; rw [hc]; intro i a b; ring
  | quadratic s d bx => simp only [entry]; rw [hc]; intro i a b; ring
  | linear => simp only [entry]; rw [hc]; intro i a b; ring
  | constant c => rfl
  | noiseMulti h => rfl

theorem covEntry_symm {N : Nat} (ks : List (KDict N)) (log : Bool) (x y : Fin N → ℝ) (s : Bool) :
    covEntry ks log x y s = covEntry ks log y x s := by
  unfold covEntry
  congr 1
  funext cov k
  rw [entry_symm]

/-- C41: the covariance matrix of any data set is symmetric, for every kernel list. -/
theorem C41_symmetric {N : Nat} {n : Type} [DecidableEq n] (ks : List (KDict N)) (log : Bool) (reg : Option ℝ)
    (X : n → Fin N → ℝ) : (covSelf ks log reg X).IsSymm := by
  have h1 : (Matrix.of (fun i j => covEntry ks log (X i) (X j) (decide (i = j)))).IsSymm := by
    ext i j
    simp only [Matrix.transpose_apply, Matrix.of_apply]
    rw [covEntry_symm]
    congr 1
    exact decide_eq_decide.mpr eq_comm
  unfold covSelf
  cases reg with
  | none => simpa using h1
  | some r => exact h1.add (Matrix.isSymm_diagonal _)

theorem unlog_pos {log : Bool} {t : ℝ} (h : log = true ∨ 0 < t) : 0 < unlog log t := by
  unfold unlog
  rcases h with h | h
  · simp [h, Real.exp_pos]
  · split
    · exact Real.exp_pos _
    · exact h

theorem unlog_nonneg {log : Bool} {t : ℝ} (h : log = true ∨ 0 ≤ t) : 0 ≤ unlog log t := by
  unfold unlog
  rcases h with h | h
  · simp [h, (Real.exp_pos t).le]
  · split
    · exact (Real.exp_pos _).le
    · exact h

theorem pick_mem {w : List ℝ} {ncols i : Nat} (hw : w.length = 1 ∨ w.length = ncols) (hi : i < ncols) :
    pick w i ∈ w := by
  unfold pick
  split
  · next h => rw [List.getD_eq_getElem _ _ (by omega)]; exact List.getElem_mem _
  · next h =>
    have : i < w.length := by omega
    rw [List.getD_eq_getElem _ _ this]; exact List.getElem_mem _

theorem pick_pos {log : Bool} {w : List ℝ} {ncols i : Nat} (hw : GoodWidths log w ncols) (hi : i < ncols) :
    0 < unlog log (pick w i) := by
  apply unlog_pos
  rcases hw.2 with h | h
  · exact Or.inl h
  · exact Or.inr (h _ (pick_mem hw.1 hi))

theorem negType_zero {α : Type} : NegType (fun _ _ : α => (0:ℝ)) := by
  refine ⟨fun _ _ => le_rfl, fun u hu => ?_⟩
  simpa using psdk_const (α := α) zero_le_one

theorem psdk_diag {n : Type} [DecidableEq n] {c : ℝ} (hc : 0 ≤ c) :
    PSDK (fun i j : n => if decide (i = j) = true then c else 0) := by
  refine psdk_of_form (fun x y => ?_) (fun s v => ?_)
  · simp [eq_comm]
  · apply Finset.sum_nonneg
    intro i hi
    simp [hi]
    nlinarith [mul_self_nonneg (v i), mul_nonneg hc (mul_self_nonneg (v i))]

theorem psdk_entry {N : Nat} {n : Type} [DecidableEq n] (k : KDict N) (log : Bool) (hk : GoodKernel log k)
    (X : n → Fin N → ℝ) :
    PSDK (fun i j : n => entry k.ktype (columns k) log (X i) (X j) (decide (i = j))) := by
  obtain ⟨-, hk⟩ := hk
  have hlt : ∀ c ∈ (columns k).zipIdx, c.2 < (columns k).length := by
    intro c hc
    have := List.mem_zipIdx hc
    omega
  generalize columns k = cols at *
  cases hkt : k.ktype with
  | gaussian w =>
    rw [hkt] at hk
    have h1 := negType_list_sum (α := n) cols.zipIdx (fun c i j =>
      (X i c.1 / unlog log (pick w c.2) - X j c.1 / unlog log (pick w c.2)) ^ 2)
      (fun c _ => negType_sq fun i => X i c.1 / unlog log (pick w c.2))
    have h2 := h1.2 0.5 (by norm_num)
    simpa [entry, colSum, neg_mul] using h2
  | laplacian w =>
    have h1 := negType_list_sum (α := n) cols.zipIdx (fun c i j =>
      |X i c.1 / unlog log (pick w c.2) - X j c.1 / unlog log (pick w c.2)|)
      (fun c _ => negType_abs fun i => X i c.1 / unlog log (pick w c.2))
    have h2 := h1.2 1 (by norm_num)
    simpa [entry, colSum] using h2
  | sqe w =>
    rw [hkt] at hk
    have h1 := negType_list_sum (α := n) cols.zipIdx (fun c i j =>
      (X i c.1 - X j c.1) ^ 2 / unlog log (pick w c.2))
      (fun c hc => by
        have := (negType_sq fun i => X i c.1).smul (c := (unlog log (pick w c.2))⁻¹)
          (inv_nonneg.mpr (pick_pos hk (hlt c hc)).le)
        simpa [div_eq_inv_mul] using this)
    have h2 := h1.sqrt.2 0.5 (by norm_num)
    simpa [entry, colSum, neg_mul] using h2
  | quadratic s d bx =>
    rw [hkt] at hk
    obtain ⟨hs, hd⟩ := hk
    have hg : 0 < unlog log ((s ++ [d]).getD 1 0) ∨ (s = []) := by
      rcases s with _ | ⟨a, _ | ⟨b, s⟩⟩
      · exact Or.inr rfl
      · left; simpa using unlog_pos hd
      · left
        simp only [List.cons_append, List.getD_cons_succ, List.getD_cons_zero]
        apply unlog_pos
        rcases hs.2 with h | h
        · exact Or.inl h
        · exact Or.inr (h b (by simp))
    rcases hg with hg | hs0
    · have h1 := (negType_list_sum (α := n) cols.zipIdx (fun c i j =>
        (X i c.1 / unlog log ((s ++ [d]).getD 0 0) * unlog log ((s ++ [d]).getD 1 0) -
          X j c.1 / unlog log ((s ++ [d]).getD 0 0) * unlog log ((s ++ [d]).getD 1 0)) ^ 2)
        (fun c _ => negType_sq fun i => X i c.1 / unlog log ((s ++ [d]).getD 0 0) *
          unlog log ((s ++ [d]).getD 1 0))).smul (c := 0.5) (by norm_num)
      simpa [entry, colSum] using h1.quadratic hg
    · subst hs0
      have hc : cols = [] := by
        rcases hs.1 with h | h
        · simp at h
        · exact List.length_eq_zero_iff.mp h.symm
      subst hc
      simpa [entry, colSum] using psdk_const (α := n) zero_le_one
  | linear =>
    have := psdk_list_sum (α := n) cols.zipIdx (fun c i j => X i c.1 * X j c.1)
      (fun c _ => psdk_rank_one fun i => X i c.1)
    simpa [entry, colSum] using this
  | constant c =>
    rw [hkt] at hk
    exact psdk_const (unlog_nonneg hk)
  | noiseMulti h =>
    exact psdk_diag (sq_nonneg (unlog log (h.getD 0 0)))

theorem scaleFactor_nonneg {N : Nat} {log : Bool} {k : KDict N} (hk : GoodKernel log k) : 0 ≤ scaleFactor k log := by
  unfold scaleFactor
  have h := hk.1
  cases hs : k.scaling with
  | none => exact unlog_nonneg (Or.inr zero_le_one)
  | some s =>
    apply unlog_nonneg
    rcases h with h | h
    · exact Or.inl h
    · exact Or.inr (h s hs)

theorem psdk_cov {N : Nat} {n : Type} [DecidableEq n] (ks : List (KDict N)) (log : Bool)
    (hk : ∀ k ∈ ks, GoodKernel log k) (X : n → Fin N → ℝ) :
    PSDK (fun i j : n => covEntry ks log (X i) (X j) (decide (i = j))) := by
  induction ks using List.reverseRecOn with
  | nil => exact psdk_zero
  | append_singleton ks k ih =>
    have h1 := ih fun k hk' => hk k (by simp [hk'])
    have h2 := (psdk_entry k log (hk k (by simp)) X).smul (scaleFactor_nonneg (hk k (by simp)))
    cases hm : k.mult with
    | false => simpa [covEntry, List.foldl_append, hm] using h1.add h2
    | true => simpa [covEntry, List.foldl_append, hm] using h1.mul h2

/-- C41: the covariance matrix of any data set is positive semidefinite, for every list of kernels that are added or
multiplied, of all the types that need no gradients. -/
theorem C41_posSemidef {N : Nat} {n : Type} [DecidableEq n] [Fintype n] (ks : List (KDict N)) (log : Bool)
    (hk : ∀ k ∈ ks, GoodKernel log k) (reg : Option ℝ) (X : n → Fin N → ℝ) :
    (covSelf ks log reg X).PosSemidef := by
  unfold covSelf
  have h1 : (Matrix.of (fun i j => covEntry ks log (X i) (X j) (decide (i = j)))).PosSemidef := psdk_cov ks log hk X
  cases reg with
  | none => simpa using h1
  | some r => exact h1.add (Matrix.PosSemidef.diagonal fun _ => sq_nonneg _)

/-- C41: with regularisation it is positive definite and so invertible. -/
theorem C41_posDef {N : Nat} {n : Type} [DecidableEq n] [Fintype n] (ks : List (KDict N)) (log : Bool)
    (hk : ∀ k ∈ ks, GoodKernel log k) (r : ℝ) (hr : log = true ∨ r ≠ 0) (X : n → Fin N → ℝ) :
    (covSelf ks log (some r) X).PosDef ∧ IsUnit (covSelf ks log (some r) X).det := by
  have h1 : (Matrix.of (fun i j => covEntry ks log (X i) (X j) (decide (i = j)))).PosSemidef := psdk_cov ks log hk X
  have hne : unlog log r ≠ 0 := by
    unfold unlog
    rcases hr with h | h
    · simp [h]
    · split
      · exact (Real.exp_pos _).ne'
      · exact h
  have h2 : (covSelf ks log (some r) X).PosDef :=
    Matrix.PosDef.posSemidef_add h1 (Matrix.PosDef.diagonal fun _ => by positivity)
  exact ⟨h2, h2.isUnit.map Matrix.detMonoidHom⟩

example : GoodKernel (N := 2) false ⟨.gaussian [1, 2], none, some 3, false⟩ ∧
    GoodKernel (N := 2) false ⟨.sqe [1], some [1], none, true⟩ ∧
    GoodKernel (N := 2) false ⟨.quadratic [1, 2] 3 false, none, none, true⟩ ∧
    GoodKernel (N := 2) true ⟨.laplacian [-1, 2], none, some (-3), true⟩ := by
  simp [GoodKernel, GoodWidths, columns]

end CatLearn.Kernel
