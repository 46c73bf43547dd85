import Verif.Model.Sammon
import Mathlib.Algebra.Order.BigOperators.Group.Finset
import Mathlib.Algebra.BigOperators.Field
import Mathlib.Tactic.FieldSimp
import Mathlib.Tactic.Linarith
import Mathlib.Tactic.Positivity

/-!
C196: Sammon's error.
-/

namespace CatLearn.Sammon

open Finset

variable {n d m : ℕ}

theorem dist_nonneg (x : Fin n → Fin d → ℝ) (i j : Fin n) : 0 ≤ dist x i j := Real.sqrt_nonneg _

theorem dist_eq_zero (x : Fin n → Fin d → ℝ) (i j : Fin n) : dist x i j = 0 ↔ x i = x j := by
  unfold dist
  rw [Real.sqrt_eq_zero (Finset.sum_nonneg fun k _ => sq_nonneg _), Finset.sum_eq_zero_iff_of_nonneg fun k _ => sq_nonneg _]
  constructor
  · intro h
    funext k
    have := h k (Finset.mem_univ k)
    have := pow_eq_zero_iff (two_ne_zero) |>.mp this
    linarith
  · intro h k _
    rw [h]
    simp

theorem dist_symm (x : Fin n → Fin d → ℝ) (i j : Fin n) : dist x i j = dist x j i := by
  unfold dist
  congr 1
  exact Finset.sum_congr rfl fun k _ => by ring

theorem sammonsError_distinct {original : Fin n → Fin d → ℝ} (reduced : Fin n → Fin m → ℝ)
    (hinj : Function.Injective original) (hn : 2 ≤ n) :
    0 < ∑ p ∈ pairs n, dist original p.1 p.2 ∧ sammonsError original reduced = .num (1 / (∑ p ∈ pairs n, dist original p.1 p.2) *
      ∑ p ∈ pairs n, (dist original p.1 p.2 - dist reduced p.1 p.2) ^ 2 / dist original p.1 p.2) := by
  have hpos : ∀ p ∈ pairs n, 0 < dist original p.1 p.2 := by
    intro p hp
    refine lt_of_le_of_ne (dist_nonneg _ _ _) (Ne.symm ?_)
    rw [ne_eq, dist_eq_zero]
    intro h
    have := hinj h
    rw [pairs, Finset.mem_filter] at hp
    exact absurd this (ne_of_gt hp.2)
  have hne : (pairs n).Nonempty := ⟨(⟨1, by omega⟩, ⟨0, by omega⟩), by
    rw [pairs, Finset.mem_filter]
    exact ⟨Finset.mem_univ _, Fin.mk_lt_mk.mpr Nat.zero_lt_one⟩⟩
  have htot : 0 < ∑ p ∈ pairs n, dist original p.1 p.2 := Finset.sum_pos hpos hne
  refine ⟨htot, ?_⟩
  unfold sammonsError
  simp only
  rw [if_neg, if_neg htot.ne']
  · congr 2
    refine Finset.sum_congr rfl fun p hp => ?_
    rw [term, if_neg (hpos p hp).ne']
    rfl
  · rintro ⟨p, hp, h⟩
    rw [term, if_neg (hpos p hp).ne'] at h
    cases h

/-- C196: if the original points are all different, the error is a number, not negative, and 0 exactly if the reduction keeps
all distances. -/
theorem C196_partial {original : Fin n → Fin d → ℝ} (reduced : Fin n → Fin m → ℝ)
    (hinj : Function.Injective original) (hn : 2 ≤ n) :
    ∃ e, sammonsError original reduced = .num e ∧ 0 ≤ e ∧
      (e = 0 ↔ ∀ i j, Real.sqrt (∑ k, (reduced i k - reduced j k) ^ 2) = Real.sqrt (∑ k, (original i k - original j k) ^ 2)) := by
  obtain ⟨htot, he⟩ := sammonsError_distinct reduced hinj hn
  have hpos : ∀ p ∈ pairs n, 0 < dist original p.1 p.2 := by
    intro p hp
    refine lt_of_le_of_ne (dist_nonneg _ _ _) (Ne.symm ?_)
    rw [ne_eq, dist_eq_zero]
    intro h
    rw [pairs, Finset.mem_filter] at hp
    exact absurd (hinj h) (ne_of_gt hp.2)
  have hterm : ∀ p ∈ pairs n, 0 ≤ (dist original p.1 p.2 - dist reduced p.1 p.2) ^ 2 / dist original p.1 p.2 :=
    fun p hp => div_nonneg (sq_nonneg _) (hpos p hp).le
  refine ⟨_, he, mul_nonneg (by positivity) (Finset.sum_nonneg hterm), ?_⟩
  rw [mul_eq_zero, or_iff_right (by positivity), Finset.sum_eq_zero_iff_of_nonneg hterm]
  have hp0 : ∀ p ∈ pairs n, (dist original p.1 p.2 - dist reduced p.1 p.2) ^ 2 / dist original p.1 p.2 = 0 ↔
      dist reduced p.1 p.2 = dist original p.1 p.2 := by
    intro p hp
    rw [div_eq_zero_iff, or_iff_left (hpos p hp).ne', pow_eq_zero_iff two_ne_zero, sub_eq_zero, eq_comm]
  constructor
  · intro h i j
    change dist reduced i j = dist original i j
    rcases lt_trichotomy i j with hij | rfl | hij
    · rw [dist_symm reduced, dist_symm original]
      exact (hp0 (j, i) (by simp [pairs, hij])).mp (h (j, i) (by simp [pairs, hij]))
    · simp [dist]
    · exact (hp0 (i, j) (by simp [pairs, hij])).mp (h (i, j) (by simp [pairs, hij]))
  · intro h p hp
    exact (hp0 p hp).mpr (h p.1 p.2)

/-- C196: the error depends on the distances only: moving the original or reduced points rigidly, or adding columns of zeros,
changes nothing. -/
theorem C196_isometry {d' m' : ℕ} {original : Fin n → Fin d → ℝ} {reduced : Fin n → Fin m → ℝ}
    {original' : Fin n → Fin d' → ℝ} {reduced' : Fin n → Fin m' → ℝ}
    (ho : ∀ i j, ∑ k, (original' i k - original' j k) ^ 2 = ∑ k, (original i k - original j k) ^ 2)
    (hr : ∀ i j, ∑ k, (reduced' i k - reduced' j k) ^ 2 = ∑ k, (reduced i k - reduced j k) ^ 2) :
    sammonsError original' reduced' = sammonsError original reduced := by
  have h1 : dist original' = dist original := by
    funext i j
    rw [dist, dist, ho]
  have h2 : dist reduced' = dist reduced := by
    funext i j
    rw [dist, dist, hr]
  unfold sammonsError
  rw [h1, h2]

theorem sum_pairs_perm (σ : Equiv.Perm (Fin n)) (f : Fin n → Fin n → ℝ) (hf : ∀ i j, f i j = f j i) :
    ∑ p ∈ pairs n, f (σ p.1) (σ p.2) = ∑ p ∈ pairs n, f p.1 p.2 := by
  refine Finset.sum_bij' (fun p _ => if σ p.2 < σ p.1 then (σ p.1, σ p.2) else (σ p.2, σ p.1))
    (fun p _ => if σ.symm p.2 < σ.symm p.1 then (σ.symm p.1, σ.symm p.2) else (σ.symm p.2, σ.symm p.1)) ?_ ?_ ?_ ?_ ?_
  · intro p hp
    rw [pairs, Finset.mem_filter] at hp
    have hne : σ p.2 ≠ σ p.1 := fun h => (ne_of_lt hp.2) (σ.injective h)
    split
    · simp [pairs, *]
    · have : σ p.1 < σ p.2 := by omega
      simp [pairs, this]
  · intro p hp
    rw [pairs, Finset.mem_filter] at hp
    have hne : σ.symm p.2 ≠ σ.symm p.1 := fun h => (ne_of_lt hp.2) (σ.symm.injective h)
    split
    · simp [pairs, *]
    · have : σ.symm p.1 < σ.symm p.2 := by omega
      simp [pairs, this]
  · intro p hp
    rw [pairs, Finset.mem_filter] at hp
    by_cases h : σ p.2 < σ p.1
    · simp [h, hp.2]
    · simp [h, not_lt.mpr hp.2.le]
  · intro p hp
    rw [pairs, Finset.mem_filter] at hp
    by_cases h : σ.symm p.2 < σ.symm p.1
    · simp [h, hp.2]
    · simp [h, not_lt.mpr hp.2.le]
  · intro p hp
    by_cases h : σ p.2 < σ p.1
    · simp [h]
    · simp only [h, if_false]
      exact hf _ _

/-- C196: the order of the points is immaterial. -/
theorem C196_order (σ : Equiv.Perm (Fin n)) (original : Fin n → Fin d → ℝ) (reduced : Fin n → Fin m → ℝ) :
    sammonsError (fun i => original (σ i)) (fun i => reduced (σ i)) = sammonsError original reduced := by
  have h1 : ∀ i j, dist (fun i => original (σ i)) i j = dist original (σ i) (σ j) := fun i j => rfl
  have h2 : ∀ i j, dist (fun i => reduced (σ i)) i j = dist reduced (σ i) (σ j) := fun i j => rfl
  unfold sammonsError
  simp only [h1, h2]
  have e1 : (∃ p ∈ pairs n, term (dist original (σ p.1) (σ p.2)) (dist reduced (σ p.1) (σ p.2)) = none) ↔
      ∃ p ∈ pairs n, term (dist original p.1 p.2) (dist reduced p.1 p.2) = none := by
    have key : ∀ τ : Equiv.Perm (Fin n), (∃ p ∈ pairs n, term (dist original (τ p.1) (τ p.2)) (dist reduced (τ p.1) (τ p.2)) = none) →
        ∃ i j, i ≠ j ∧ term (dist original i j) (dist reduced i j) = none := by
      rintro τ ⟨p, hp, h⟩
      rw [pairs, Finset.mem_filter] at hp
      exact ⟨τ p.1, τ p.2, fun e => (ne_of_gt hp.2) (τ.injective e), h⟩
    have back : ∀ τ : Equiv.Perm (Fin n), (∃ i j, i ≠ j ∧ term (dist original i j) (dist reduced i j) = none) →
        ∃ p ∈ pairs n, term (dist original (τ p.1) (τ p.2)) (dist reduced (τ p.1) (τ p.2)) = none := by
      rintro τ ⟨i, j, hne, h⟩
      have hne' : τ.symm i ≠ τ.symm j := fun e => hne (τ.symm.injective e)
      rcases lt_or_gt_of_ne hne' with hlt | hlt
      · refine ⟨(τ.symm j, τ.symm i), by simp [pairs, hlt], ?_⟩
        simp only [Equiv.apply_symm_apply]
        rw [dist_symm original, dist_symm reduced]
        exact h
      · refine ⟨(τ.symm i, τ.symm j), by simp [pairs, hlt], ?_⟩
        simp only [Equiv.apply_symm_apply]
        exact h
    constructor
    · intro h
      exact back (Equiv.refl _) (key σ h)
    · intro h
      exact back σ (key (Equiv.refl _) h)
  have e2 := sum_pairs_perm σ (fun i j => dist original i j) (fun i j => dist_symm _ _ _)
  have e3 := sum_pairs_perm σ (fun i j => (term (dist original i j) (dist reduced i j)).getD 0)
    (fun i j => by rw [dist_symm original, dist_symm reduced])
  simp only [e1, e2, e3]

/-- C196: the unit of length is immaterial if it is changed for both sets. -/
theorem C196_scale_partial {original : Fin n → Fin d → ℝ} (reduced : Fin n → Fin m → ℝ) (hinj : Function.Injective original)
    (hn : 2 ≤ n) (c : ℝ) (hc : 0 < c) :
    sammonsError (fun i k => c * original i k) (fun i k => c * reduced i k) = sammonsError original reduced := by
  have hd : ∀ {e : ℕ} (x : Fin n → Fin e → ℝ) i j, dist (fun i k => c * x i k) i j = c * dist x i j := by
    intro e x i j
    unfold dist
    rw [← Real.sqrt_sq hc.le, ← Real.sqrt_mul (sq_nonneg c), Real.sqrt_sq hc.le, Finset.mul_sum]
    congr 1
    exact Finset.sum_congr rfl fun k _ => by ring
  have hinj' : Function.Injective fun i k => c * original i k := by
    intro i j h
    apply hinj
    funext k
    have := congrFun h k
    exact mul_left_cancel₀ hc.ne' this
  obtain ⟨htot, h1⟩ := sammonsError_distinct reduced hinj hn
  obtain ⟨htot', h2⟩ := sammonsError_distinct (fun i k => c * reduced i k) hinj' hn
  rw [h1, h2]
  simp only [hd]
  congr 1
  rw [← Finset.mul_sum]
  have : ∑ p ∈ pairs n, (c * dist original p.1 p.2 - c * dist reduced p.1 p.2) ^ 2 / (c * dist original p.1 p.2) =
      c * ∑ p ∈ pairs n, (dist original p.1 p.2 - dist reduced p.1 p.2) ^ 2 / dist original p.1 p.2 := by
    rw [Finset.mul_sum]
    refine Finset.sum_congr rfl fun p _ => ?_
    by_cases h : dist original p.1 p.2 = 0
    · simp [h]
    · field_simp
  rw [this]
  field_simp

/-- C196 fails for repeated points: if two equal original points are apart after the reduction the error is infinite;
if all points are the same, before and after, or there are fewer than two, it is NaN. -/
theorem C196_repeated_violated :
    (∀ (original : Fin n → Fin d → ℝ) (reduced : Fin n → Fin m → ℝ) (i j : Fin n), original i = original j →
      reduced i ≠ reduced j → sammonsError original reduced = .inf) ∧
    (∀ (original : Fin n → Fin d → ℝ) (reduced : Fin n → Fin m → ℝ), (∀ i j, original i = original j) →
      (∀ i j, reduced i = reduced j) → sammonsError original reduced = .nan) := by
  constructor
  · intro original reduced i j h1 h2
    have hne : i ≠ j := fun e => h2 (e ▸ rfl)
    have key : ∀ i j : Fin n, j < i → original i = original j → reduced i ≠ reduced j → sammonsError original reduced = .inf := by
      intro i j hlt h1 h2
      unfold sammonsError
      simp only
      rw [if_pos]
      refine ⟨(i, j), by simp [pairs, hlt], ?_⟩
      rw [term, if_pos ((dist_eq_zero _ _ _).mpr h1), if_neg (fun e => h2 ((dist_eq_zero _ _ _).mp e))]
    rcases lt_or_gt_of_ne hne with h | h
    · exact key j i h h1.symm h2.symm
    · exact key i j h h1 h2
  · intro original reduced h1 h2
    have e1 : ∀ i j, dist original i j = 0 := fun i j => (dist_eq_zero _ _ _).mpr (h1 i j)
    have e2 : ∀ i j, dist reduced i j = 0 := fun i j => (dist_eq_zero _ _ _).mpr (h2 i j)
    unfold sammonsError
    simp [e1, e2, term]

/-- Three points on a line, reduced to two dimensions. -/
example : Function.Injective (fun i : Fin 3 => fun _ : Fin 1 => (i : ℝ)) := by
  intro i j h
  have := congrFun h 0
  simp at this
  exact Fin.ext (by exact_mod_cast this)

end CatLearn.Sammon
