import Verif.Props.GPStationary
import Verif.Props.Surrogate
import Mathlib.LinearAlgebra.Matrix.Kronecker

/-!
# Models trained on values and gradients do not depend on the axes of the features, if all features have the same width (C270)
-/

namespace CatLearn.GradProc

open CatLearn CatLearn.Kernel CatLearn.Proc Matrix
open scoped Kronecker

/-- The kernels that know no direction, added up: Gaussian with one width, constant and noise. -/
def Isotropic {N : ℕ} (k : GDict N) : Prop :=
  k.mult = false ∧
  match k.gtype with
  | .gaussian w => ∃ u : ℝ, w = fun _ => u
  | .constant _ => True
  | .noiseMulti _ _ => True
  | _ => False

/-- What a change of axes does to values and gradients of `n` points. -/
noncomputable def turnAll {N : ℕ} (n : ℕ) (Q : Matrix (Fin N) (Fin N) ℝ) : Matrix (Ix n N) (Ix n N) ℝ :=
  fromBlocks 1 0 0 ((1 : Matrix (Fin n) (Fin n) ℝ) ⊗ₖ Q)

theorem turnAll_orth {N n : ℕ} (Q : Matrix (Fin N) (Fin N) ℝ) (hQ : Qᵀ * Q = 1) : (turnAll n Q)ᵀ * turnAll n Q = 1 := by
  unfold turnAll
  rw [fromBlocks_transpose, fromBlocks_multiply, ← kroneckerMap_transpose, transpose_one, ← mul_kronecker_mul, hQ]
  simp [one_kronecker_one]

theorem turnAll_inl {N n : ℕ} (Q : Matrix (Fin N) (Fin N) ℝ) (y : Ix n N → ℝ) (i : Fin n) : (turnAll n Q *ᵥ y) (.inl i) = y (.inl i) := by
  simp [turnAll, mulVec, dotProduct, Fintype.sum_sum_type, Matrix.one_apply]

theorem turnAll_inr {N n : ℕ} (Q : Matrix (Fin N) (Fin N) ℝ) (y : Ix n N → ℝ) (i : Fin n) (a : Fin N) :
    (turnAll n Q *ᵥ y) (.inr (i, a)) = ∑ b, Q a b * y (.inr (i, b)) := by
  simp [turnAll, mulVec, dotProduct, Fintype.sum_sum_type, Matrix.one_apply, Fintype.sum_prod_type, ite_mul, Finset.sum_ite_irrel]

/-- The matrix with turned columns is found by turning rows of the turned matrix. -/
theorem conj_apply {N n : ℕ} (Q : Matrix (Fin N) (Fin N) ℝ) (M : Matrix (Ix n N) (Ix n N) ℝ) (p q : Ix n N) :
    (turnAll n Q * M * (turnAll n Q)ᵀ) p q = (turnAll n Q *ᵥ fun r => (turnAll n Q *ᵥ M r) q) p := by
  rw [Matrix.mul_assoc]
  simp only [Matrix.mul_apply, mulVec, dotProduct, transpose_apply]
  refine Finset.sum_congr rfl fun r _ => ?_
  congr 1
  exact Finset.sum_congr rfl fun s _ => mul_comm _ _

theorem conj_ext {N n : ℕ} (Q : Matrix (Fin N) (Fin N) ℝ) (M M' : Matrix (Ix n N) (Ix n N) ℝ)
    (h1 : ∀ i j, M' (.inl i) (.inl j) = M (.inl i) (.inl j))
    (h2 : ∀ i j b, M' (.inl i) (.inr (j, b)) = ∑ d, Q b d * M (.inl i) (.inr (j, d)))
    (h3 : ∀ i a j, M' (.inr (i, a)) (.inl j) = ∑ c, Q a c * M (.inr (i, c)) (.inl j))
    (h4 : ∀ i a j b, M' (.inr (i, a)) (.inr (j, b)) = ∑ c, Q a c * ∑ d, Q b d * M (.inr (i, c)) (.inr (j, d))) :
    M' = turnAll n Q * M * (turnAll n Q)ᵀ := by
  ext p q
  rw [conj_apply]
  rcases p with i | ⟨i, a⟩ <;> rcases q with j | ⟨j, b⟩
  · rw [turnAll_inl, turnAll_inl, h1]
  · rw [turnAll_inl, turnAll_inr, h2]
  · rw [turnAll_inr, h3]
    simp only [turnAll_inl]
  · rw [turnAll_inr, h4]
    simp only [turnAll_inr]

/-- Turned and shifted features. -/
noncomputable def turn {N : ℕ} (Q : Matrix (Fin N) (Fin N) ℝ) (v x : Fin N → ℝ) : Fin N → ℝ := Q *ᵥ x + v

theorem turn_sub {N : ℕ} (Q : Matrix (Fin N) (Fin N) ℝ) (v x y : Fin N → ℝ) (a : Fin N) :
    turn Q v x a - turn Q v y a = ∑ b, Q a b * (x b - y b) := by
  simp only [turn, Pi.add_apply, add_sub_add_right_eq_sub, mulVec, dotProduct, ← Finset.sum_sub_distrib, mul_sub]

theorem turn_dist {N : ℕ} (Q : Matrix (Fin N) (Fin N) ℝ) (hQ : Qᵀ * Q = 1) (v x y : Fin N → ℝ) :
    ∑ a, (turn Q v x a - turn Q v y a) ^ 2 = ∑ a, (x a - y a) ^ 2 := by
  have h : ∀ z : Fin N → ℝ, (Q *ᵥ z) ⬝ᵥ (Q *ᵥ z) = z ⬝ᵥ z := by
    intro z
    rw [dotProduct_mulVec, vecMul_mulVec, hQ, vecMul_one]
  have := h (fun b => x b - y b)
  simp only [dotProduct, ← pow_two] at this
  rw [← this]
  refine Finset.sum_congr rfl fun a _ => ?_
  rw [turn_sub]
  rfl

theorem gauss_turn {N : ℕ} (u : ℝ) (Q : Matrix (Fin N) (Fin N) ℝ) (hQ : Qᵀ * Q = 1) (v x y : Fin N → ℝ) :
    gauss (fun _ => u) (turn Q v x) (turn Q v y) = gauss (fun _ => u) x y := by
  unfold gauss
  simp only [← sub_div, div_pow, ← Finset.sum_div]
  rw [turn_dist Q hQ]

theorem rows_orth {N : ℕ} (Q : Matrix (Fin N) (Fin N) ℝ) (hQ : Qᵀ * Q = 1) (a b : Fin N) : ∑ c, Q a c * Q b c = if a = b then 1 else 0 := by
  have := congrArg (fun M : Matrix (Fin N) (Fin N) ℝ => M a b) (mul_eq_one_comm.1 hQ)
  have e : (Q * Qᵀ) a b = ∑ c, Q a c * Q b c := by rw [Matrix.mul_apply]; rfl
  rw [← e, ← Matrix.one_apply]
  exact this

theorem gMatrix_turn {N n : ℕ} (k : GDict N) (hk : Isotropic k) (Q : Matrix (Fin N) (Fin N) ℝ) (hQ : Qᵀ * Q = 1) (v : Fin N → ℝ)
    (X : Fin n → Fin N → ℝ) : gMatrix k.gtype (fun i => turn Q v (X i)) = turnAll n Q * gMatrix k.gtype X * (turnAll n Q)ᵀ := by
  obtain ⟨-, hk⟩ := hk
  cases hg : k.gtype with
  | linear => simp [hg] at hk
  | constantMulti _ _ _ => simp [hg] at hk
  | constant c =>
    apply conj_ext <;> intros <;> simp [gMatrix, constantXX]
  | noiseMulti t1 t2 =>
    have e : (noiseMultiXX t1 t2 : Matrix (Ix n N) (Ix n N) ℝ) = Matrix.diagonal (Sum.elim (fun _ => t1 ^ 2) (fun _ => t2 ^ 2)) := by
      ext p q
      rcases p with p | p <;> rcases q with q | q <;> simp [noiseMultiXX, Matrix.diagonal_apply, Matrix.fromBlocks]
    simp only [gMatrix, e]
    apply conj_ext
    · intros; rfl
    · intros; simp [Matrix.diagonal_apply]
    · intros; simp [Matrix.diagonal_apply]
    · intro i a j b
      simp only [Matrix.diagonal_apply, Sum.inr.injEq, Prod.mk.injEq, Sum.elim_inr, mul_ite, mul_zero]
      by_cases hij : i = j
      · subst hij
        simp only [true_and, Finset.sum_ite_eq, Finset.mem_univ, if_true]
        have := rows_orth Q hQ a b
        calc (if a = b then t2 ^ 2 else 0) = (∑ c, Q a c * Q b c) * t2 ^ 2 := by rw [this]; split <;> simp
          _ = _ := by rw [Finset.sum_mul]; exact Finset.sum_congr rfl fun c _ => by ring
      · simp [hij]
  | gaussian w =>
    simp only [hg] at hk
    obtain ⟨u, rfl⟩ := hk
    simp only [gMatrix, gaussXX]
    apply conj_ext
    · intro i j
      simp [gauss_turn u Q hQ]
    · intro i j b
      simp only [fromBlocks_apply₁₂, Matrix.of_apply, gauss_turn u Q hQ, turn_sub, Finset.mul_sum, Finset.sum_mul]
      exact Finset.sum_congr rfl fun c _ => by ring
    · intro i a j
      simp only [fromBlocks_apply₂₁, transpose_apply, Matrix.of_apply, gauss_turn u Q hQ, turn_sub, Finset.mul_sum, Finset.sum_mul]
      exact Finset.sum_congr rfl fun c _ => by ring
    · intro i a j b
      simp only [fromBlocks_apply₂₂, Matrix.of_apply, gauss_turn u Q hQ, turn_sub]
      have e1 : ∀ c, ∑ d, Q b d * (((if c = d then u ^ (-2 : ℤ) else 0) -
          u ^ (-2 : ℤ) * (X i d - X j d) * (u ^ (-2 : ℤ) * (X i c - X j c))) * gauss (fun _ => u) (X j) (X i)) =
          (Q b c * u ^ (-2 : ℤ) - u ^ (-2 : ℤ) * (∑ d, Q b d * (X i d - X j d)) * (u ^ (-2 : ℤ) * (X i c - X j c))) * gauss (fun _ => u) (X j) (X i) := by
        intro c
        have : ∀ d, Q b d * (((if c = d then u ^ (-2 : ℤ) else 0) -
          u ^ (-2 : ℤ) * (X i d - X j d) * (u ^ (-2 : ℤ) * (X i c - X j c))) * gauss (fun _ => u) (X j) (X i)) =
            (if c = d then Q b d * u ^ (-2 : ℤ) * gauss (fun _ => u) (X j) (X i) else 0) -
              Q b d * (X i d - X j d) * (u ^ (-2 : ℤ) * (u ^ (-2 : ℤ) * (X i c - X j c)) * gauss (fun _ => u) (X j) (X i)) := by
          intro d
          split <;> ring
        simp only [this, Finset.sum_sub_distrib, Finset.sum_ite_eq, Finset.mem_univ, if_true, ← Finset.sum_mul]
        ring
      simp only [e1]
      have e2 : ∀ c, Q a c * ((Q b c * u ^ (-2 : ℤ) - u ^ (-2 : ℤ) * (∑ d, Q b d * (X i d - X j d)) * (u ^ (-2 : ℤ) * (X i c - X j c))) *
          gauss (fun _ => u) (X j) (X i)) = Q a c * Q b c * (u ^ (-2 : ℤ) * gauss (fun _ => u) (X j) (X i)) -
            Q a c * (X i c - X j c) * (u ^ (-2 : ℤ) * (∑ d, Q b d * (X i d - X j d)) * u ^ (-2 : ℤ) * gauss (fun _ => u) (X j) (X i)) := by
        intro c; ring
      simp only [e2, Finset.sum_sub_distrib, ← Finset.sum_mul, rows_orth Q hQ]
      split <;> ring

theorem conj_one {N n : ℕ} (Q : Matrix (Fin N) (Fin N) ℝ) (hQ : Qᵀ * Q = 1) : turnAll n Q * (turnAll n Q)ᵀ = 1 :=
  mul_eq_one_comm.1 (turnAll_orth Q hQ)

theorem covGrad_turn {N n : ℕ} (ks : List (GDict N)) (hk : ∀ k ∈ ks, Isotropic k) (reg : Option ℝ) (Q : Matrix (Fin N) (Fin N) ℝ) (hQ : Qᵀ * Q = 1)
    (v : Fin N → ℝ) (X : Fin n → Fin N → ℝ) : covGrad ks reg (fun i => turn Q v (X i)) = turnAll n Q * covGrad ks reg X * (turnAll n Q)ᵀ := by
  have hf : ∀ (ks : List (GDict N)), (∀ k ∈ ks, Isotropic k) → ∀ c c' : Matrix (Ix n N) (Ix n N) ℝ, c' = turnAll n Q * c * (turnAll n Q)ᵀ →
      ks.foldl (fun cov k => if k.mult then Matrix.hadamard cov (k.scaling • gMatrix k.gtype (fun i => turn Q v (X i)))
        else cov + k.scaling • gMatrix k.gtype (fun i => turn Q v (X i))) c' =
      turnAll n Q * ks.foldl (fun cov k => if k.mult then Matrix.hadamard cov (k.scaling • gMatrix k.gtype X)
        else cov + k.scaling • gMatrix k.gtype X) c * (turnAll n Q)ᵀ := by
    intro ks
    induction ks with
    | nil => intro _ c c' h; exact h
    | cons k ks ih =>
      intro hk c c' h
      simp only [List.foldl_cons]
      refine ih (fun k h => hk k (by simp [h])) _ _ ?_
      have hm := (hk k (by simp)).1
      rw [hm, gMatrix_turn k (hk k (by simp)) Q hQ, h]
      simp only [Bool.false_eq_true, if_false, Matrix.mul_add, Matrix.add_mul, Matrix.mul_smul, Matrix.smul_mul]
  unfold covGrad
  rw [hf ks hk 0 0 (by simp), Matrix.mul_add, Matrix.add_mul]
  congr 1
  cases reg with
  | none => simp
  | some r =>
    have : (Matrix.diagonal fun _ : Ix n N => r ^ 2) = (r ^ 2) • (1 : Matrix (Ix n N) (Ix n N) ℝ) := by
      ext p q; simp [Matrix.diagonal_apply, Matrix.one_apply]
    simp only [this, Matrix.mul_smul, Matrix.smul_mul, Matrix.mul_one, conj_one Q hQ]

theorem covRow_turn {N n : ℕ} (ks : List (GDict N)) (hk : ∀ k ∈ ks, Isotropic k) (Q : Matrix (Fin N) (Fin N) ℝ) (hQ : Qᵀ * Q = 1)
    (v x : Fin N → ℝ) (X : Fin n → Fin N → ℝ) : covRow ks (turn Q v x) (fun i => turn Q v (X i)) = turnAll n Q *ᵥ covRow ks x X := by
  have hrow : ∀ k : GDict N, Isotropic k → gRow k.gtype (turn Q v x) (fun i => turn Q v (X i)) = turnAll n Q *ᵥ gRow k.gtype x X := by
    rintro k ⟨-, hk⟩
    funext p
    rcases p with i | ⟨i, a⟩
    · rw [turnAll_inl]
      cases hg : k.gtype with
      | linear => simp [hg] at hk
      | constantMulti _ _ _ => simp [hg] at hk
      | constant c => rfl
      | noiseMulti _ _ => rfl
      | gaussian w =>
        simp only [hg] at hk
        obtain ⟨u, rfl⟩ := hk
        simp only [gRow, gaussXXp, gauss_turn u Q hQ]
    · rw [turnAll_inr]
      cases hg : k.gtype with
      | linear => simp [hg] at hk
      | constantMulti _ _ _ => simp [hg] at hk
      | constant c => simp [gRow]
      | noiseMulti _ _ => simp [gRow]
      | gaussian w =>
        simp only [hg] at hk
        obtain ⟨u, rfl⟩ := hk
        simp only [gRow, gaussXXp, gauss_turn u Q hQ, turn_sub, Finset.mul_sum, Finset.sum_mul, ← Finset.sum_neg_distrib]
        exact Finset.sum_congr rfl fun c _ => by ring
  have hf : ∀ (ks : List (GDict N)), (∀ k ∈ ks, Isotropic k) → ∀ c c' : Ix n N → ℝ, c' = turnAll n Q *ᵥ c →
      ks.foldl (fun cov k => if k.mult then fun p => cov p * (k.scaling * gRow k.gtype (turn Q v x) (fun i => turn Q v (X i)) p)
        else fun p => cov p + k.scaling * gRow k.gtype (turn Q v x) (fun i => turn Q v (X i)) p) c' =
      turnAll n Q *ᵥ ks.foldl (fun cov k => if k.mult then fun p => cov p * (k.scaling * gRow k.gtype x X p)
        else fun p => cov p + k.scaling * gRow k.gtype x X p) c := by
    intro ks
    induction ks with
    | nil => intro _ c c' h; exact h
    | cons k ks ih =>
      intro hk c c' h
      simp only [List.foldl_cons]
      refine ih (fun k h => hk k (by simp [h])) _ _ ?_
      rw [(hk k (by simp)).1, hrow k (hk k (by simp)), h]
      simp only [Bool.false_eq_true, if_false]
      have : (fun p => c p + k.scaling * gRow k.gtype x X p) = c + k.scaling • gRow k.gtype x X := rfl
      rw [this, mulVec_add, mulVec_smul]
      rfl
  exact hf ks hk 0 0 (by simp)

theorem kxx_turn {N : ℕ} (ks : List (GDict N)) (hk : ∀ k ∈ ks, Isotropic k) (Q : Matrix (Fin N) (Fin N) ℝ) (hQ : Qᵀ * Q = 1) (v x : Fin N → ℝ) :
    kxx ks (turn Q v x) = kxx ks x := by
  unfold kxx
  generalize (0 : ℝ) = c
  induction ks generalizing c with
  | nil => rfl
  | cons k ks ih =>
    have : gDiag k.gtype (turn Q v x) = gDiag k.gtype x := by
      have hd := (hk k (by simp)).2
      cases hg : k.gtype with
      | linear => simp [hg] at hd
      | gaussian w =>
        simp only [hg] at hd
        obtain ⟨u, rfl⟩ := hd
        simp only [gDiag, gauss_turn u Q hQ]
      | _ => rfl
    simp only [List.foldlM_cons, this]
    cases gDiag k.gtype x with
    | error e => rfl
    | ok q => exact ih (fun k h => hk k (by simp [h])) _

/-! ### The inverse, and whether it exists -/

theorem conj_facts {N n : ℕ} (Q : Matrix (Fin N) (Fin N) ℝ) (hQ : Qᵀ * Q = 1) (K : Matrix (Ix n N) (Ix n N) ℝ) :
    (turnAll n Q * K * (turnAll n Q)ᵀ).det = K.det ∧ ((turnAll n Q * K * (turnAll n Q)ᵀ).PosDef ↔ K.PosDef) ∧
      (turnAll n Q * K * (turnAll n Q)ᵀ)⁻¹ = turnAll n Q * K⁻¹ * (turnAll n Q)ᵀ := by
  have h1 := turnAll_orth (n := n) Q hQ
  have h2 := conj_one (n := n) Q hQ
  set B := turnAll n Q
  have hu : IsUnit B := ⟨⟨B, Bᵀ, h2, h1⟩, rfl⟩
  have hi : B⁻¹ = Bᵀ := inv_eq_left_inv h1
  have hi' : (Bᵀ)⁻¹ = B := inv_eq_left_inv h2
  refine ⟨?_, ?_, ?_⟩
  · rw [det_mul, det_mul, mul_right_comm, ← det_mul, h2, det_one, one_mul]
  · have := Matrix.IsUnit.posDef_star_right_conjugate_iff (x := K) hu
    rw [star_eq_conjTranspose, conjTranspose_eq_transpose_of_trivial] at this
    exact this
  · rw [Matrix.mul_inv_rev, Matrix.mul_inv_rev, hi, hi', Matrix.mul_assoc]

theorem conj_dot {N n : ℕ} (Q : Matrix (Fin N) (Fin N) ℝ) (hQ : Qᵀ * Q = 1) (C : Matrix (Ix n N) (Ix n N) ℝ) (r y : Ix n N → ℝ) :
    (turnAll n Q *ᵥ r) ⬝ᵥ ((turnAll n Q * C * (turnAll n Q)ᵀ) *ᵥ (turnAll n Q *ᵥ y)) = r ⬝ᵥ (C *ᵥ y) := by
  have h1 := turnAll_orth (n := n) Q hQ
  rw [mulVec_mulVec, Matrix.mul_assoc, h1, Matrix.mul_one, ← mulVec_mulVec, dotProduct_mulVec, vecMul_mulVec, h1, vecMul_one]

theorem cov_list_turn {N : ℕ} (ks : List (GDict N)) (hk : ∀ k ∈ ks, Isotropic k) (reg : Option ℝ) (Q : Matrix (Fin N) (Fin N) ℝ) (hQ : Qᵀ * Q = 1)
    (v : Fin N → ℝ) {n m : ℕ} (h : n = m) (X : Fin n → Fin N → ℝ) (Y : Fin m → Fin N → ℝ) (hX : ∀ i, X i = turn Q v (Y (i.cast h))) :
    (covGrad ks reg X).det = (covGrad ks reg Y).det ∧ ((covGrad ks reg X).PosDef ↔ (covGrad ks reg Y).PosDef) ∧
      (⟨n, (covGrad ks reg X)⁻¹⟩ : Σ n : ℕ, Matrix (Ix n N) (Ix n N) ℝ) = ⟨m, turnAll m Q * (covGrad ks reg Y)⁻¹ * (turnAll m Q)ᵀ⟩ := by
  subst h
  have : X = fun i => turn Q v (Y i) := funext hX
  rw [this, covGrad_turn ks hk reg Q hQ]
  obtain ⟨h1, h2, h3⟩ := conj_facts Q hQ (covGrad ks reg Y)
  exact ⟨h1, h2, by rw [h3]⟩

/-- The model made from turned features and gradients. -/
noncomputable def GradGP.turn {N : ℕ} (Q : Matrix (Fin N) (Fin N) ℝ) (v : Fin N → ℝ) (gp : GradGP N) (target : List ℝ) : GradGP N :=
  { gp with
    fp := gp.fp.map (GradProc.turn Q v)
    target := target
    cinv := ⟨gp.cinv.1, turnAll gp.cinv.1 Q * gp.cinv.2 * (turnAll gp.cinv.1 Q)ᵀ⟩ }

theorem finish_turn {N : ℕ} (gp : GradGP N) (hk : ∀ k ∈ gp.kernels, Isotropic k) (Q : Matrix (Fin N) (Fin N) ℝ) (hQ : Qᵀ * Q = 1) (v : Fin N → ℝ)
    (target : List ℝ) (ht : target.length = gp.target.length) (l : Bool) (c : Σ n : ℕ, Matrix (Ix n N) (Ix n N) ℝ) :
    finish { gp with fp := gp.fp.map (GradProc.turn Q v), target := target, cinv := c } l = (finish gp l).map fun gp' => gp'.turn Q v target := by
  have hl : (gp.fp.map (GradProc.turn Q v)).length = gp.fp.length := by simp
  obtain ⟨h1, h2, h3⟩ := cov_list_turn gp.kernels hk gp.reg Q hQ v hl (gp.fp.map (GradProc.turn Q v)).get gp.fp.get (fun i => List.getElem_map _)
  rw [finish_eq { gp with fp := gp.fp.map (GradProc.turn Q v), target := target, cinv := c } l _ _ _ (by rw [h1]) h2 h3,
    finish_eq gp l _ _ _ Iff.rfl Iff.rfl rfl]
  simp only [ht]
  repeat' (first | rfl | split)

theorem predict_turn {N : ℕ} (gp : GradGP N) (hk : ∀ k ∈ gp.kernels, Isotropic k) (hsd : gp.scaleData = false) (hc : gp.cinv.1 = gp.fp.length)
    (Q : Matrix (Fin N) (Fin N) ℝ) (hQ : Qᵀ * Q = 1) (v x : Fin N → ℝ) (target : List ℝ) (ht : target.length = gp.target.length)
    (hv : gp.target.length = gp.fp.length + gp.fp.length * N → vec gp.cinv.1 target = turnAll gp.cinv.1 Q *ᵥ vec gp.cinv.1 gp.target) :
    predict (gp.turn Q v target) (turn Q v x) = predict gp x ∧ uncertainty (gp.turn Q v target) (turn Q v x) = uncertainty gp x := by
  have e1 : ∀ x, gp.scaleRow x = x := fun x => by unfold GradGP.scaleRow; rw [hsd]; cases gp.scaling <;> rfl
  have e2 : ∀ x, (gp.turn Q v target).scaleRow x = x := fun x => e1 x
  have e3 : ∀ p, (gp.turn Q v target).rescale p = gp.rescale p := fun p => rfl
  have hX : (fun i : Fin gp.cinv.1 => (gp.fp.map (GradProc.turn Q v)).getD i 0) = fun i : Fin gp.cinv.1 => GradProc.turn Q v (gp.fp.getD i 0) := by
    funext i
    have : i.1 < gp.fp.length := by rw [← hc]; exact i.2
    simp [List.getD_eq_getElem?_getD, this]
  have hp : predict (gp.turn Q v target) (turn Q v x) = predict gp x := by
    unfold predict
    simp only [e1, e2, e3]
    simp only [GradGP.turn, hX, covRow_turn gp.kernels hk Q hQ, List.length_map, ht]
    split
    · rfl
    · split
      · rfl
      · rename_i h
        push Not at h
        rw [hv h.2]
        have := conj_dot Q hQ gp.cinv.2 (covRow gp.kernels x fun i => gp.fp.getD (↑i) 0) (vec gp.cinv.1 gp.target)
        split
        · rfl
        · exact congrArg (fun p => Except.ok (some (gp.rescale p))) this
  refine ⟨hp, ?_⟩
  have hvar : variance (gp.turn Q v target) (turn Q v x) = variance gp x := by
    unfold variance
    simp only [GradGP.turn, hX, covRow_turn gp.kernels hk Q hQ, kxx_turn gp.kernels hk Q hQ]
    have := conj_dot Q hQ gp.cinv.2 (covRow gp.kernels x fun i => gp.fp.getD (↑i) 0) (covRow gp.kernels x fun i => gp.fp.getD (↑i) 0)
    cases kxx gp.kernels x with
    | error e => rfl
    | ok w => exact congrArg (fun p => Except.ok (w - p)) this
  unfold uncertainty
  rw [hp, e1, e2, hvar]
  rfl

theorem vec_turn {N n : ℕ} (t : List ℝ) (g : List (Fin N → ℝ)) (ht : t.length = n) (hg : g.length * N = n * N) (Q : Matrix (Fin N) (Fin N) ℝ) :
    vec n (t ++ flat (g.map (Q *ᵥ ·))) = turnAll n Q *ᵥ vec n (t ++ flat g) := by
  funext p
  rcases p with i | ⟨i, a⟩
  · rw [turnAll_inl]
    simp only [vec]
    rw [List.getD_append _ _ _ _ (by omega), List.getD_append _ _ _ _ (by omega)]
  · have hg' : g.length = n := Nat.eq_of_mul_eq_mul_right (Nat.pos_of_ne_zero (by rintro rfl; exact a.elim0)) hg
    rw [turnAll_inr, (vec_append t (g.map (Q *ᵥ ·)) ht (by simpa using hg')).2]
    simp only [(vec_append t g ht hg').2, List.getElem_map]
    rfl

theorem init_turn {N : ℕ} (ks : List (GDict N)) (hk : ∀ k ∈ ks, Isotropic k) (reg : Option ℝ) (Q : Matrix (Fin N) (Fin N) ℝ) (hQ : Qᵀ * Q = 1)
    (v : Fin N → ℝ) (fp : List (Fin N → ℝ)) (t : List ℝ) (grad : List (Fin N → ℝ)) :
    init (fp.map (turn Q v)) t (grad.map (Q *ᵥ ·)) ks reg false =
      (init fp t grad ks reg false).map fun gp => gp.turn Q v (t ++ flat (grad.map (Q *ᵥ ·))) := by
  unfold init update
  simp only [List.length_map, List.isEmpty_map]
  split
  · rfl
  · split
    · rfl
    · exact finish_turn ⟨ks, reg, false, fp, t ++ flat grad, false, none, ⟨0, 1⟩⟩ hk Q hQ v (t ++ flat (grad.map (Q *ᵥ ·)))
        (by simp [flat_length]) true _

/-- C270: the axes of the features do not matter to a model trained on values and gradients with Gaussian kernels of one width, constants and noise: with all
features turned by an orthogonal matrix and shifted, and the gradients turned alike, it can be made or not as before, and predictions, uncertainties and errors at turned points
are the same. -/
theorem C270_axes {N : ℕ} (ks : List (GDict N)) (hk : ∀ k ∈ ks, Isotropic k) (reg : Option ℝ) (Q : Matrix (Fin N) (Fin N) ℝ) (hQ : Qᵀ * Q = 1)
    (v : Fin N → ℝ) (fp : List (Fin N → ℝ)) (t : List ℝ) (grad : List (Fin N → ℝ)) :
    (∀ e, init fp t grad ks reg false = .error e → init (fp.map fun x => Q *ᵥ x + v) t (grad.map (Q *ᵥ ·)) ks reg false = .error e) ∧
    ∀ gp, init fp t grad ks reg false = .ok gp → ∃ gp', init (fp.map fun x => Q *ᵥ x + v) t (grad.map (Q *ᵥ ·)) ks reg false = .ok gp' ∧
      ∀ x, predict gp' (Q *ᵥ x + v) = predict gp x ∧ uncertainty gp' (Q *ᵥ x + v) = uncertainty gp x := by
  have h0 := init_turn ks hk reg Q hQ v fp t grad
  have e0 : (fun x => Q *ᵥ x + v) = turn Q v := rfl
  rw [e0]
  refine ⟨fun e he => by rw [h0, he]; rfl, fun gp hg => ⟨_, by rw [h0, hg]; rfl, fun x => ?_⟩⟩
  unfold init update at hg
  split at hg
  · cases hg
  rename_i hl
  split at hg
  · cases hg
  obtain ⟨-, -, rfl, -, -⟩ := finish_ok hg
  refine predict_turn _ hk rfl rfl Q hQ v x _ (by simp [flat_length]) fun hlen => ?_
  push Not at hl
  refine vec_turn t grad hl.symm ?_ Q
  simp only [List.length_append, flat_length] at hlen
  show grad.length * N = fp.length * N
  omega

/-- C270: the likelihood of such data is the same, whatever the hyperparameters: the determinant of the covariance and the quadratic form of the targets are. -/
theorem C270_likelihood {N n : ℕ} (ks : List (GDict N)) (hk : ∀ k ∈ ks, Isotropic k) (reg : Option ℝ) (Q : Matrix (Fin N) (Fin N) ℝ) (hQ : Qᵀ * Q = 1)
    (v : Fin N → ℝ) (X : Fin n → Fin N → ℝ) (y y' : Ix n N → ℝ) (h1 : ∀ i, y' (.inl i) = y (.inl i)) (h2 : ∀ i a, y' (.inr (i, a)) = ∑ b, Q a b * y (.inr (i, b))) :
    (covGrad ks reg fun i => Q *ᵥ X i + v).det = (covGrad ks reg X).det ∧
      y' ⬝ᵥ ((covGrad ks reg fun i => Q *ᵥ X i + v)⁻¹ *ᵥ y') = y ⬝ᵥ ((covGrad ks reg X)⁻¹ *ᵥ y) := by
  have e0 : (fun i => Q *ᵥ X i + v) = fun i => turn Q v (X i) := rfl
  have ey : y' = turnAll n Q *ᵥ y := by
    funext p
    rcases p with i | ⟨i, a⟩
    · rw [turnAll_inl, h1]
    · rw [turnAll_inr, h2]
  obtain ⟨f1, -, f3⟩ := conj_facts Q hQ (covGrad ks reg X)
  rw [e0, covGrad_turn ks hk reg Q hQ, f1, f3, ey]
  exact ⟨rfl, conj_dot Q hQ _ y y⟩

/-- A quarter turn of two features: what was along the first is along the second. -/
noncomputable def quarter : Matrix (Fin 2) (Fin 2) ℝ := !![0, -1; 1, 0]

theorem quarter_orth : quarterᵀ * quarter = 1 := by
  ext i j
  fin_cases i <;> fin_cases j <;> simp [quarter, Matrix.mul_apply, Fin.sum_univ_two]

/-- Two widths do know directions: after a quarter turn the same two points are no longer as similar. -/
theorem C270_widths_differ : ∃ (w v x : Fin 2 → ℝ), covRow [⟨.gaussian w, 1, false⟩] (quarter *ᵥ x + v) (fun _ : Fin 1 => quarter *ᵥ 0 + v) (.inl 0) ≠
    covRow [⟨.gaussian w, 1, false⟩] x (fun _ : Fin 1 => 0) (.inl 0) := by
  refine ⟨![1, 2], 0, ![1, 0], ?_⟩
  simp only [covRow, List.foldl_cons, List.foldl_nil, gRow, gaussXXp, gauss, Fin.sum_univ_two, Bool.false_eq_true, if_false]
  simp [quarter, mulVec, dotProduct, Fin.sum_univ_two]
  norm_num

end CatLearn.GradProc

namespace CatLearn.Surrogate

open CatLearn CatLearn.Kernel CatLearn.GradProc Matrix

theorem kernels_isotropic {N : ℕ} (sf u e f : ℝ) : ∀ k ∈ kernels (N := N) sf ⟨fun _ => u, e, f⟩, Isotropic k := by
  intro k hk
  simp only [kernels, List.mem_cons, List.not_mem_nil, or_false] at hk
  rcases hk with rfl | rfl
  · exact ⟨rfl, u, rfl⟩
  · exact ⟨rfl, trivial⟩

/-- What the optimisation of the hyperparameters evaluates: determinant and quadratic form of the likelihood for a list of kernels. -/
noncomputable def evidence {N : ℕ} (gp : GradGP N) (ks : List (GDict N)) : ℝ × ℝ :=
  let K := covGrad ks gp.reg gp.fp.get
  (K.det, vec gp.fp.length gp.target ⬝ᵥ (K⁻¹ *ᵥ vec gp.fp.length gp.target))

/-- The optimisation finds one width and two noises from the likelihood, the number of points and the kernels it starts with. -/
def ByEvidence {N : ℕ} (minimizer : GradGP N → Hyper N) : Prop :=
  ∃ F : List (GDict N) → ℕ → (ℝ → ℝ → ℝ → ℝ → ℝ × ℝ) → ℝ × ℝ × ℝ, ∀ gp,
    minimizer gp = ⟨fun _ => (F gp.kernels gp.fp.length fun sf u e f => evidence gp (kernels sf ⟨fun _ => u, e, f⟩)).1,
      (F gp.kernels gp.fp.length fun sf u e f => evidence gp (kernels sf ⟨fun _ => u, e, f⟩)).2.1,
      (F gp.kernels gp.fp.length fun sf u e f => evidence gp (kernels sf ⟨fun _ => u, e, f⟩)).2.2⟩

theorem quad_cast {N n m : ℕ} (h : n = m) (Q : Matrix (Fin N) (Fin N) ℝ) (hQ : Qᵀ * Q = 1) (M : Matrix (Ix n N) (Ix n N) ℝ) (C : Matrix (Ix m N) (Ix m N) ℝ)
    (hM : (⟨n, M⟩ : Σ n : ℕ, Matrix (Ix n N) (Ix n N) ℝ) = ⟨m, turnAll m Q * C * (turnAll m Q)ᵀ⟩) (t t' : List ℝ)
    (ht : vec m t' = turnAll m Q *ᵥ vec m t) : vec n t' ⬝ᵥ (M *ᵥ vec n t') = vec m t ⬝ᵥ (C *ᵥ vec m t) := by
  subst h
  obtain rfl : M = _ := eq_of_heq (Sigma.mk.inj_iff.1 hM).2
  rw [ht]
  exact conj_dot Q hQ C _ _

theorem evidence_turn {N : ℕ} (gp : GradGP N) (Q : Matrix (Fin N) (Fin N) ℝ) (hQ : Qᵀ * Q = 1) (v : Fin N → ℝ) (target : List ℝ)
    (hv : vec gp.fp.length target = turnAll gp.fp.length Q *ᵥ vec gp.fp.length gp.target) (ks : List (GDict N)) (hk : ∀ k ∈ ks, Isotropic k) :
    evidence (gp.turn Q v target) ks = evidence gp ks := by
  have hl : (gp.fp.map (turn Q v)).length = gp.fp.length := by simp
  obtain ⟨h1, -, h3⟩ := cov_list_turn ks hk gp.reg Q hQ v hl (gp.fp.map (turn Q v)).get gp.fp.get (fun i => List.getElem_map _)
  exact Prod.ext h1 (quad_cast hl Q hQ _ _ h3 gp.target target hv)

/-- C270: the surrogate of `MLNEB` does not depend on the place and orientation of the structures nor on the zero of the energy: if the free coordinates are turned by an orthogonal
matrix and shifted, the gradients turned alike, and `c` is added to the energies, then training raises the same errors, and at moved positions the energy is larger by `c` and the
uncertainty is the same. -/
theorem C270_surrogate {M N : ℕ} (minimizer : GradGP N → Hyper N) (hm : ByEvidence minimizer) (mask : Fin N → Fin M) (dist : ℝ) (x : List (Fin M → ℝ))
    (t : List ℝ) (g : List (Fin M → ℝ)) (Q : Matrix (Fin N) (Fin N) ℝ) (hQ : Qᵀ * Q = 1) (v : Fin N → ℝ) (c : ℝ)
    (φ γ : (Fin M → ℝ) → Fin M → ℝ) (hφ : ∀ p, φ p ∘ mask = Q *ᵥ (p ∘ mask) + v) (hγ : ∀ p, γ p ∘ mask = Q *ᵥ (p ∘ mask)) :
    (∀ e, trainGP minimizer mask dist x t g = .error e → trainGP minimizer mask dist (x.map φ) (t.map (· + c)) (g.map γ) = .error e) ∧
      ∀ r, trainGP minimizer mask dist x t g = .ok r → ∃ r', trainGP minimizer mask dist (x.map φ) (t.map (· + c)) (g.map γ) = .ok r' ∧
        ∀ p, energy r' mask (φ p) = (energy r mask p).map (fun o => o.map (· + c)) ∧ unc r' mask (φ p) = unc r mask p := by
  have e0 : ∀ l : List (Fin M → ℝ), (l.map φ).map (· ∘ mask) = (l.map (· ∘ mask)).map (turn Q v) := by
    intro l
    rw [List.map_map, List.map_map]
    exact List.map_congr_left fun p _ => hφ p
  have e1 : ∀ l : List (Fin M → ℝ), (l.map γ).map (· ∘ mask) = (l.map (· ∘ mask)).map (Q *ᵥ ·) := by
    intro l
    rw [List.map_map, List.map_map]
    exact List.map_congr_left fun p _ => hγ p
  obtain ⟨F, hF⟩ := hm
  -- the same without another zero of the energy
  have key : (∀ e, trainGP minimizer mask dist x t g = .error e → trainGP minimizer mask dist (x.map φ) t (g.map γ) = .error e) ∧
      ∀ r, trainGP minimizer mask dist x t g = .ok r → ∃ r', trainGP minimizer mask dist (x.map φ) t (g.map γ) = .ok r' ∧
        r'.2 = r.2 ∧ ∀ p, predict r'.1 (turn Q v p) = predict r.1 p ∧ uncertainty r'.1 (turn Q v p) = uncertainty r.1 p := by
    unfold trainGP
    rw [e0, e1]
    simp only [List.length_map]
    cases npMax t with
    | error e => exact ⟨fun _ h => h, fun _ h => by cases h⟩
    | ok m =>
      simp only
      split
      · exact ⟨fun _ h => h, fun _ h => by cases h⟩
      · rename_i hxl
        split
        · exact ⟨fun _ h => h, fun _ h => by cases h⟩
        · generalize hs : t.map (· - m) = s
          generalize hX : x.map (· ∘ mask) = X
          generalize hG : g.map (· ∘ mask) = G
          have hlen : s.length = X.length := by
            rw [← hs, ← hX]
            simp only [List.length_map]
            push Not at hxl
            exact hxl.symm
          rw [init_turn _ (kernels_isotropic _ _ _ _) (some 0) Q hQ v X s G]
          cases hi : init X s G (kernels (sigmaF s) ⟨fun _ => dist / 2, 5 / 1000, 5 / 10000⟩) (some 0) false with
          | error e =>
            exact ⟨fun _ h => h, fun _ h => by cases h⟩
          | ok gp =>
            simp only [Except.map]
            have hgp : gp.fp = X ∧ gp.target = s ++ flat G ∧ gp.scaleData = false ∧ G.length * N = X.length * N := by
              unfold init update at hi
              split at hi
              · cases hi
              split at hi
              · cases hi
              have hi : finish ⟨kernels (sigmaF s) ⟨fun _ => dist / 2, 5 / 1000, 5 / 10000⟩, some 0, false, X, s ++ flat G, false, none, ⟨0, 1⟩⟩ true =
                .ok gp := hi
              obtain ⟨-, -, rfl, h, -⟩ := finish_ok hi
              have h := (h rfl).2
              simp only [List.length_append, flat_length] at h
              exact ⟨rfl, rfl, rfl, by omega⟩
            obtain ⟨g1, g2, g3, g4⟩ := hgp
            have hv : vec gp.fp.length (s ++ flat (G.map (Q *ᵥ ·))) = turnAll gp.fp.length Q *ᵥ vec gp.fp.length gp.target := by
              rw [g1, g2]
              exact vec_turn s G hlen g4 Q
            have hmin : minimizer (gp.turn Q v (s ++ flat (G.map (Q *ᵥ ·)))) = minimizer gp := by
              have e3 : (gp.turn Q v (s ++ flat (G.map (Q *ᵥ ·)))).kernels = gp.kernels := rfl
              have e4 : (gp.turn Q v (s ++ flat (G.map (Q *ᵥ ·)))).fp.length = gp.fp.length := by simp [GradGP.turn]
              rw [hF, hF gp, e3, e4]
              simp only [fun sf u e f => evidence_turn gp Q hQ v _ hv _ (kernels_isotropic sf u e f)]
            have hiso : ∀ k ∈ kernels (sigmaF s) (minimizer gp), Isotropic k := by
              rw [hF gp]
              exact kernels_isotropic _ _ _ _
            have hfin := finish_turn { gp with kernels := kernels (sigmaF s) (minimizer gp) } hiso Q hQ v (s ++ flat (G.map (Q *ᵥ ·)))
              (by rw [g2]; simp [flat_length]) false ⟨gp.cinv.1, turnAll gp.cinv.1 Q * gp.cinv.2 * (turnAll gp.cinv.1 Q)ᵀ⟩
            rw [hmin]
            have e5 : { gp.turn Q v (s ++ flat (G.map (Q *ᵥ ·))) with kernels := kernels (sigmaF s) (minimizer gp) } =
                { { gp with kernels := kernels (sigmaF s) (minimizer gp) } with
                  fp := gp.fp.map (turn Q v)
                  target := s ++ flat (G.map (Q *ᵥ ·))
                  cinv := ⟨gp.cinv.1, turnAll gp.cinv.1 Q * gp.cinv.2 * (turnAll gp.cinv.1 Q)ᵀ⟩ } := rfl
            rw [e5, hfin]
            cases hf : finish { gp with kernels := kernels (sigmaF s) (minimizer gp) } false with
            | error e => exact ⟨fun _ h => h, fun _ h => by cases h⟩
            | ok gp2 =>
              refine ⟨(fun _ h => by cases h), fun r h => ?_⟩
              cases h
              refine ⟨_, rfl, rfl, fun p => ?_⟩
              obtain ⟨-, -, rfl, -, -⟩ := finish_ok hf
              exact predict_turn { { gp with kernels := kernels (sigmaF s) (minimizer gp) } with
                  cinv := ⟨gp.fp.length, (covGrad (kernels (sigmaF s) (minimizer gp)) gp.reg gp.fp.get)⁻¹⟩ }
                hiso g3 rfl Q hQ v p (s ++ flat (G.map (Q *ᵥ ·))) (by simp [g2, flat_length]) fun _ => hv
  obtain ⟨z1, z2⟩ := C212_energy_zero minimizer mask dist (x.map φ) t (g.map γ) c
  refine ⟨fun e he => z1 e (key.1 e he), fun r hr => ?_⟩
  obtain ⟨r1, k1, k2, k3⟩ := key.2 r hr
  obtain ⟨r2, k4, k5⟩ := z2 r1 k1
  refine ⟨r2, k4, fun p => ?_⟩
  have hp : φ p ∘ mask = turn Q v (p ∘ mask) := hφ p
  obtain ⟨k6, k7⟩ := k5 (φ p)
  rw [k6, k7]
  unfold energy unc
  rw [hp, (k3 _).1, (k3 _).2, k2]
  exact ⟨rfl, rfl⟩

/-- Two structures of an atom in the plane, turned by a quarter, with another zero of the energy: both models can be trained. -/
example (c : ℝ) : ∃ r r', trainGP (N := 2) (fun _ => ⟨fun _ => 1, 1 / 1000, 1 / 1000⟩) id 2 [![0, 0], ![1, 0]] [0, 1] [![0, 0], ![1, 2]] = .ok r ∧
    trainGP (N := 2) (fun _ => ⟨fun _ => 1, 1 / 1000, 1 / 1000⟩) id 2 ([![0, 0], ![1, 0]].map (quarter *ᵥ ·)) ([0, 1].map (· + c))
      ([![0, 0], ![1, 2]].map (quarter *ᵥ ·)) = .ok r' ∧ ∀ p, energy r' id (quarter *ᵥ p) = (energy r id p).map (fun o => o.map (· + c)) := by
  have hb : Bounded (N := 2) (fun _ => ⟨fun _ => 1, 1 / 1000, 1 / 1000⟩) := fun _ => ⟨fun _ => one_pos, by norm_num, by norm_num⟩
  obtain ⟨r, _, _, hr, -⟩ := C212_far (N := 2) (fun _ => ⟨fun _ => 1, 1 / 1000, 1 / 1000⟩) hb id 2 (by norm_num)
    [![0, 0], ![1, 0]] [0, 1] [![0, 0], ![1, 2]] (by simp) rfl rfl
  obtain ⟨r', h1, h2⟩ := (C270_surrogate (N := 2) (fun _ => ⟨fun _ => 1, 1 / 1000, 1 / 1000⟩) ⟨fun _ _ _ => (1, 1 / 1000, 1 / 1000), fun _ => rfl⟩ id 2
    [![0, 0], ![1, 0]] [0, 1] [![0, 0], ![1, 2]] quarter quarter_orth 0 c (quarter *ᵥ ·) (quarter *ᵥ ·) (fun p => by simp) (fun p => by simp)).2 r hr
  exact ⟨r, r', hr, h1, fun p => (h2 p).1⟩

end CatLearn.Surrogate
