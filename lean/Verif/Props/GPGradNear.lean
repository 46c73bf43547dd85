import Verif.Props.GPNear
import Verif.Props.GPGradNoise
import Verif.Props.SurrogateCertain

/-!
# How much a model of values and gradients can change from one point to another (C296)
-/

namespace CatLearn.GradProc

open CatLearn CatLearn.Kernel CatLearn.Proc Matrix

/-- Two further points of a process whose covariance `M` (without noise) has the blocks `B`, `kx` and `kz`; `K` is `B` with the noise of the data and
`e` the noise of the further points. -/
theorem near_bounds {n : Type} [Fintype n] [DecidableEq n] {M : Matrix (n ⊕ Bool) (n ⊕ Bool) ℝ} (hM : M.PosSemidef) (B K : Matrix n n ℝ)
    (hpd : K.PosDef) (hle : ∀ v, v ⬝ᵥ B *ᵥ v ≤ v ⬝ᵥ K *ᵥ v) (kx kz : n → ℝ) (h11 : ∀ i j, M (.inl i) (.inl j) = B i j)
    (hx : ∀ i, M (.inl i) (.inr true) = kx i) (hz : ∀ i, M (.inl i) (.inr false) = kz i) (e : ℝ) (he : 0 ≤ e) :
    0 ≤ postVar (M (.inr true) (.inr true) + e) K kx ∧ 0 ≤ postVar (M (.inr false) (.inr false) + e) K kz ∧
    (Real.sqrt (postVar (M (.inr true) (.inr true) + e) K kx) - Real.sqrt (postVar (M (.inr false) (.inr false) + e) K kz)) ^ 2 ≤
      M (.inr true) (.inr true) - 2 * M (.inr true) (.inr false) + M (.inr false) (.inr false) ∧
    ∀ y, (postMean K kx y - postMean K kz y) ^ 2 ≤
      (y ⬝ᵥ K⁻¹ *ᵥ y) * (M (.inr true) (.inr true) - 2 * M (.inr true) (.inr false) + M (.inr false) (.inr false)) := by
  have hu := hpd.det_pos.ne'.isUnit
  have hform : ∀ a b : ℝ, (a • kx + b • kz) ⬝ᵥ K⁻¹ *ᵥ (a • kx + b • kz) ≤
      a ^ 2 * M (.inr true) (.inr true) + 2 * (a * b * M (.inr true) (.inr false)) + b ^ 2 * M (.inr false) (.inr false) := by
    intro a b
    set v := a • kx + b • kz with hv
    have h := near_form hM B kx kz h11 hx hz (K⁻¹ *ᵥ v) a b
    have hKv : K *ᵥ (K⁻¹ *ᵥ v) = v := by rw [mulVec_mulVec, mul_nonsing_inv _ hu, one_mulVec]
    have h2 := hle (K⁻¹ *ᵥ v)
    rw [hKv] at h2
    rw [← hv] at h
    rw [dotProduct_comm (K⁻¹ *ᵥ v) v] at h h2
    linarith
  have hex : ∀ a b : ℝ, (a • kx + b • kz) ⬝ᵥ K⁻¹ *ᵥ (a • kx + b • kz) =
      a ^ 2 * (kx ⬝ᵥ K⁻¹ *ᵥ kx) + 2 * (a * b * (kx ⬝ᵥ K⁻¹ *ᵥ kz)) + b ^ 2 * (kz ⬝ᵥ K⁻¹ *ᵥ kz) := by
    intro a b
    rw [mulVec_add, mulVec_smul, mulVec_smul, add_dotProduct, dotProduct_add, dotProduct_add, smul_dotProduct, smul_dotProduct,
      smul_dotProduct, smul_dotProduct, dotProduct_smul, dotProduct_smul, dotProduct_smul, dotProduct_smul, near_symm hpd kz kx]
    simp only [smul_eq_mul]
    ring
  have evx : postVar (M (.inr true) (.inr true) + e) K kx = M (.inr true) (.inr true) + e - kx ⬝ᵥ K⁻¹ *ᵥ kx := by
    rw [postVar, ← dotProduct_mulVec]
  have evz : postVar (M (.inr false) (.inr false) + e) K kz = M (.inr false) (.inr false) + e - kz ⬝ᵥ K⁻¹ *ᵥ kz := by
    rw [postVar, ← dotProduct_mulVec]
  have hx0 : 0 ≤ postVar (M (.inr true) (.inr true) + e) K kx := by
    have := hform 1 0
    rw [hex] at this
    rw [evx]
    linarith
  have hz0 : 0 ≤ postVar (M (.inr false) (.inr false) + e) K kz := by
    have := hform 0 1
    rw [hex] at this
    rw [evz]
    linarith
  refine ⟨hx0, hz0, ?_, fun y => ?_⟩
  · set vx := postVar (M (.inr true) (.inr true) + e) K kx
    set vz := postVar (M (.inr false) (.inr false) + e) K kz
    set c := M (.inr true) (.inr false) + e - kx ⬝ᵥ K⁻¹ *ᵥ kz with hc
    have hq : ∀ a : ℝ, 0 ≤ vx * (a * a) + (2 * c) * a + vz := by
      intro a
      have h1 := hform a 1
      rw [hex] at h1
      rw [evx, evz, hc]
      nlinarith [mul_nonneg he (sq_nonneg (a + 1))]
    have hcs := discrim_le_zero hq
    unfold discrim at hcs
    have hprod : c ≤ Real.sqrt vx * Real.sqrt vz := by
      rw [← Real.sqrt_mul hx0]
      refine Real.le_sqrt_of_sq_le ?_
      linarith
    have h3 := near_nonneg hpd ((1 : ℝ) • kx + (-1 : ℝ) • kz)
    rw [hex] at h3
    have s1 := Real.sq_sqrt hx0
    have s2 := Real.sq_sqrt hz0
    have hsq : (Real.sqrt vx - Real.sqrt vz) ^ 2 = vx + vz - 2 * (Real.sqrt vx * Real.sqrt vz) := by
      rw [sub_sq, s1, s2]; ring
    rw [hsq]
    rw [hc] at hprod
    linarith
  · have h1 := hform 1 (-1)
    have h2 := near_cauchy hpd ((1 : ℝ) • kx + (-1 : ℝ) • kz) y
    have h3 : postMean K kx y - postMean K kz y = ((1 : ℝ) • kx + (-1 : ℝ) • kz) ⬝ᵥ K⁻¹ *ᵥ y := by
      rw [add_dotProduct, smul_dotProduct, smul_dotProduct]
      unfold postMean
      simp only [smul_eq_mul]
      ring
    rw [h3, mul_comm]
    refine h2.trans (mul_le_mul_of_nonneg_right ?_ (near_nonneg hpd y))
    linarith

/-- The squared distance of two points as the kernels see it: the variance of the difference of the values before any data.  The covariance is that of a
point with a training point (`covRow`). -/
noncomputable def gapSq {N : ℕ} (ks : List (GDict N)) (x z : Fin N → ℝ) : ℝ :=
  prior ks x - 2 * covRow ks x (fun _ : Fin 1 => z) (.inl 0) + prior ks z

theorem prior_self {N n : ℕ} (ks : List (GDict N)) (Y : Fin n → Fin N → ℝ) (i : Fin n) :
    covGrad ks none Y (.inl i) (.inl i) = prior ks (Y i) := by
  rw [← prior_eq ks (Y i) (fun j : Fin 0 => Y (j.elim0))]
  have e := covGrad_among ks none (N := N) (fun _ : Unit => i) (fun _ _ _ => rfl) Y
  have e' := covGrad_among ks none (N := N) (fun _ : Unit => (Sum.inr () : Fin 0 ⊕ Unit)) (fun _ _ _ => rfl)
    (Sum.elim (fun j : Fin 0 => Y (j.elim0)) fun _ : Unit => Y i)
  have h := congrFun (congrFun (e.symm.trans e') (.inl ())) (.inl ())
  exact h

/-- The covariance of the training data with two further points. -/
theorem near_joint {N n : ℕ} (ks : List (GDict N)) (hs : ∀ k ∈ ks, GoodGrad k) (hn : ∀ k ∈ ks, ∀ t1 t2, k.gtype ≠ .noiseMulti t1 t2)
    (X : Fin n → Fin N → ℝ) (x z : Fin N → ℝ) : ∃ M : Matrix (Ix n N ⊕ Bool) (Ix n N ⊕ Bool) ℝ, M.PosSemidef ∧
      (∀ i j, M (.inl i) (.inl j) = covGrad ks none X i j) ∧ (∀ i, M (.inl i) (.inr true) = covRow ks x X i) ∧
      (∀ i, M (.inl i) (.inr false) = covRow ks z X i) ∧ M (.inr true) (.inr true) = prior ks x ∧ M (.inr false) (.inr false) = prior ks z ∧
      M (.inr true) (.inr true) - 2 * M (.inr true) (.inr false) + M (.inr false) (.inr false) = gapSq ks x z := by
  set Y : Fin (n + 2) → Fin N → ℝ := Fin.append X ![x, z] with hY
  set e : Ix n N ⊕ Bool → Ix (n + 2) N := Sum.elim (among (Fin.castAdd 2)) fun b => .inl (Fin.natAdd n (if b then 0 else 1)) with he
  have hYX : (fun i => Y (Fin.castAdd 2 i)) = X := by funext i; simp [hY]
  have hYx : Y (Fin.natAdd n 0) = x := by simp [hY]
  have hYz : Y (Fin.natAdd n 1) = z := by simp [hY]
  have hP := (C106_gradient_covariance_partial ks hs Y).1 none
  have hsym : ∀ p q, covGrad ks none Y p q = covGrad ks none Y q p := by
    intro p q
    have := hP.1
    rw [Matrix.IsHermitian, conjTranspose_eq_transpose_of_trivial] at this
    simpa using congrFun (congrFun this q) p
  have hrow : ∀ (i : Fin (n + 2)) (q : Ix n N), covGrad ks none Y (.inl i) (among (Fin.castAdd 2) q) = covRow ks (Y i) X q := by
    intro i q
    have h1 := congrFun (covRow_self ks hn Y i) (among (Fin.castAdd 2) q)
    have h2 := congrFun (covRow_among ks (Y i) (Fin.castAdd 2) Y) q
    rw [hYX] at h2
    rw [h2]
    exact h1.symm
  refine ⟨(covGrad ks none Y).submatrix e e, hP.submatrix e, ?_, ?_, ?_, ?_, ?_, ?_⟩
  · intro i j
    have := covGrad_among ks none (N := N) (Fin.castAdd (n := n) 2) (Fin.castAdd_injective n 2) Y
    rw [hYX] at this
    rw [this]
    rfl
  · intro i
    rw [submatrix_apply, hsym]
    have := hrow (Fin.natAdd n 0) i
    rw [hYx] at this
    exact this
  · intro i
    rw [submatrix_apply, hsym]
    have := hrow (Fin.natAdd n 1) i
    rw [hYz] at this
    exact this
  · have := prior_self ks Y (Fin.natAdd n 0)
    rw [hYx] at this
    exact this
  · have := prior_self ks Y (Fin.natAdd n 1)
    rw [hYz] at this
    exact this
  · have h1 := prior_self ks Y (Fin.natAdd n 0)
    have h2 := prior_self ks Y (Fin.natAdd n 1)
    have h3 : covGrad ks none Y (.inl (Fin.natAdd n 0)) (.inl (Fin.natAdd n 1)) = covRow ks x (fun _ : Fin 1 => z) (.inl 0) := by
      have h4 := congrFun (covRow_self ks hn Y (Fin.natAdd n 0)) (.inl (Fin.natAdd n 1))
      have h5 := congrFun (covRow_among ks (Y (Fin.natAdd n 0)) (fun _ : Fin 1 => Fin.natAdd n 1) Y) (.inl 0)
      rw [hYx, hYz] at h5
      rw [h5]
      rw [hYx] at h4
      exact h4.symm
    rw [hYx] at h1
    rw [hYz] at h2
    unfold gapSq
    rw [← h1, ← h2, ← h3]
    rfl

/-- With noise `c` the weight of the targets is at most their sum of squares divided by `c`. -/
theorem near_weight {n : Type} [Fintype n] [DecidableEq n] {B : Matrix n n ℝ} (hB : B.PosSemidef) {c : ℝ} (hc : 0 ≤ c)
    (hpd : (B + c • (1 : Matrix n n ℝ)).PosDef) (y : n → ℝ) : (y ⬝ᵥ (B + c • (1 : Matrix n n ℝ))⁻¹ *ᵥ y) * c ≤ y ⬝ᵥ y := by
  set K := B + c • (1 : Matrix n n ℝ) with hK
  have hKy : K *ᵥ (K⁻¹ *ᵥ y) = y := by rw [mulVec_mulVec, mul_nonsing_inv _ hpd.det_pos.ne'.isUnit, one_mulVec]
  set α := K⁻¹ *ᵥ y with hα
  have hy : y = B *ᵥ α + c • α := by rw [← hKy, hK, add_mulVec, smul_mulVec, one_mulVec]
  have h1 : 0 ≤ α ⬝ᵥ B *ᵥ α := by simpa using hB.dotProduct_mulVec_nonneg α
  have h2 : 0 ≤ (B *ᵥ α) ⬝ᵥ (B *ᵥ α) := by
    simp only [dotProduct]; exact Finset.sum_nonneg fun i _ => mul_self_nonneg _
  have h3 : y ⬝ᵥ α = α ⬝ᵥ B *ᵥ α + c * (α ⬝ᵥ α) := by
    conv_lhs => rw [hy]
    rw [add_dotProduct, smul_dotProduct, smul_eq_mul, dotProduct_comm (B *ᵥ α)]
  have h4 : y ⬝ᵥ y = (B *ᵥ α) ⬝ᵥ (B *ᵥ α) + 2 * c * (α ⬝ᵥ B *ᵥ α) + c ^ 2 * (α ⬝ᵥ α) := by
    conv_lhs => rw [hy]
    rw [add_dotProduct, dotProduct_add, dotProduct_add, smul_dotProduct, smul_dotProduct, dotProduct_smul, dotProduct_smul,
      dotProduct_comm (B *ᵥ α) α]
    simp only [smul_eq_mul]
    ring
  rw [h3, h4]
  nlinarith [mul_nonneg hc h1]

/-- C296: from one point to another the uncertainty changes by at most the distance of the points as the kernels see it, and the prediction by at most this
distance times the root of a number that depends on the data only and is at most the sum of the squared targets and gradients divided by the square of
the regularisation. -/
theorem C296_change {N : ℕ} (fp : List (Fin N → ℝ)) (t : List ℝ) (grad : List (Fin N → ℝ)) (hg : grad.length = fp.length) (ks : List (GDict N))
    (hs : ∀ k ∈ ks, GoodGrad k) (hc : ∀ k ∈ ks, ∀ c1 c2 c3, k.gtype ≠ .constantMulti c1 c2 c3)
    (hn : ∀ k ∈ ks, ∀ t1 t2, k.gtype ≠ .noiseMulti t1 t2) (r : ℝ) (gp : GradGP N) (h : init fp t grad ks (some r) false = .ok gp) :
    ∃ S : ℝ, 0 ≤ S ∧ S * r ^ 2 ≤ (t.map fun y => y ^ 2).sum + (grad.map fun g => ∑ a, g a ^ 2).sum ∧ ∀ x z, ∃ m u m' u' : ℝ,
      predict gp x = .ok (some m) ∧ uncertainty gp x = .ok (some u) ∧ predict gp z = .ok (some m') ∧ uncertainty gp z = .ok (some u') ∧
      (u - u') ^ 2 ≤ gapSq ks x z ∧ (m - m') ^ 2 ≤ S * gapSq ks x z := by
  obtain ⟨h0, h1, h2, h3, h4, h5, -⟩ := init_false h
  set K := covGrad ks (some r) fp.get with hK
  set y := vec (N := N) fp.length (t ++ flat grad) with hy
  have hreg : K = covGrad ks none fp.get + r ^ 2 • (1 : Matrix _ _ ℝ) := by
    rw [hK, Matrix.smul_one_eq_diagonal]
    simp [covGrad]
  have hB := (C106_gradient_covariance_partial ks hs fp.get).1 none
  have hle : ∀ v, v ⬝ᵥ covGrad ks none fp.get *ᵥ v ≤ v ⬝ᵥ K *ᵥ v := by
    intro v
    rw [hreg, add_mulVec, smul_mulVec, one_mulVec, dotProduct_add, dotProduct_smul, smul_eq_mul]
    have : 0 ≤ v ⬝ᵥ v := by simp only [dotProduct]; exact Finset.sum_nonneg fun i _ => mul_self_nonneg _
    nlinarith [mul_nonneg (sq_nonneg r) this]
  have hyy : y ⬝ᵥ y = (t.map fun y => y ^ 2).sum + (grad.map fun g => ∑ a, g a ^ 2).sum := by
    obtain ⟨v1, v2⟩ := vec_append (N := N) t grad h1.symm hg
    rw [dotProduct, Fintype.sum_sum_type, Fintype.sum_prod_type]
    congr 1
    · have : ∀ i : Fin t.length, y (.inl (finCongr h1.symm i)) * y (.inl (finCongr h1.symm i)) = t[i] ^ 2 := by
        intro i; rw [hy, v1, sq]; rfl
      rw [← Equiv.sum_comp (finCongr h1.symm)]
      simp only [this]
      rw [← List.sum_ofFn]
      exact congrArg List.sum (List.ofFn_getElem_eq_map t fun y => y ^ 2)
    · have : ∀ i : Fin grad.length, (∑ a, y (.inr (finCongr hg i, a)) * y (.inr (finCongr hg i, a))) = ∑ a, grad[i] a ^ 2 := by
        intro i
        refine Finset.sum_congr rfl fun a _ => ?_
        rw [hy, v2, sq]; rfl
      rw [← Equiv.sum_comp (finCongr hg)]
      simp only [this]
      rw [← List.sum_ofFn]
      exact congrArg List.sum (List.ofFn_getElem_eq_map grad fun g => ∑ a, g a ^ 2)
  refine ⟨y ⬝ᵥ K⁻¹ *ᵥ y, near_nonneg h5 y, ?_, fun x z => ?_⟩
  · rw [← hyy]
    rw [hreg] at h5 ⊢
    exact near_weight hB (sq_nonneg r) h5 y
  · obtain ⟨M, hM, m1, m2, m3, m4, m5, m6⟩ := near_joint ks hs hn fp.get x z
    obtain ⟨b1, b2, b3, b4⟩ := near_bounds hM (covGrad ks none fp.get) K h5 hle _ _ m1 m2 m3 0 le_rfl
    rw [add_zero, add_zero, m4, m5] at b3
    rw [add_zero, m4] at b1
    rw [add_zero, m5] at b2
    rw [m4, m5] at m6
    rw [m6] at b3
    have b4 := b4 y
    rw [m4, m5, m6] at b4
    refine ⟨_, _, _, _, (init_predict h x).1, ?_, (init_predict h z).1, ?_, b3, b4⟩
    · rw [(init_predict h x).2, kxx_ok ks x hc fp.get, prior_eq]
      simp only
      rw [npSqrt, if_neg (not_lt.2 b1)]
    · rw [(init_predict h z).2, kxx_ok ks z hc fp.get, prior_eq]
      simp only
      rw [npSqrt, if_neg (not_lt.2 b2)]

/-- The distance as a Gaussian kernel sees it is at most the root of its scaling times the distance in units of the widths. -/
theorem gapSq_gaussian {N : ℕ} (w : Fin N → ℝ) (s : ℝ) (hs : 0 ≤ s) (x z : Fin N → ℝ) :
    gapSq [⟨.gaussian w, s, false⟩] x z ≤ s * ∑ a, ((x a - z a) / w a) ^ 2 := by
  have h1 : ∀ x : Fin N → ℝ, prior [(⟨.gaussian w, s, false⟩ : GDict N)] x = s := by intro x; simp [prior]
  have h2 : covRow [(⟨.gaussian w, s, false⟩ : GDict N)] x (fun _ : Fin 1 => z) (.inl 0) =
      s * Real.exp (-0.5 * ∑ a, ((x a - z a) / w a) ^ 2) := by
    simp [covRow, gRow, gaussXXp, gauss, sub_div]
  unfold gapSq
  rw [h1, h1, h2]
  have := Real.add_one_le_exp (-0.5 * ∑ a, ((x a - z a) / w a) ^ 2)
  nlinarith [mul_le_mul_of_nonneg_left this hs]

/-- C296: with one Gaussian kernel. -/
theorem C296_gaussian {N : ℕ} (fp : List (Fin N → ℝ)) (t : List ℝ) (grad : List (Fin N → ℝ)) (hg : grad.length = fp.length) (w : Fin N → ℝ)
    (hw : ∀ a, 0 < w a) (s : ℝ) (hs : 0 ≤ s) (r : ℝ) (gp : GradGP N) (h : init fp t grad [⟨.gaussian w, s, false⟩] (some r) false = .ok gp) :
    ∃ S : ℝ, 0 ≤ S ∧ S * r ^ 2 ≤ (t.map fun y => y ^ 2).sum + (grad.map fun g => ∑ a, g a ^ 2).sum ∧ ∀ x z, ∃ m u m' u' : ℝ,
      predict gp x = .ok (some m) ∧ uncertainty gp x = .ok (some u) ∧ predict gp z = .ok (some m') ∧ uncertainty gp z = .ok (some u') ∧
      (u - u') ^ 2 ≤ s * ∑ a, ((x a - z a) / w a) ^ 2 ∧ (m - m') ^ 2 ≤ S * (s * ∑ a, ((x a - z a) / w a) ^ 2) := by
  obtain ⟨S, h0, h1, h2⟩ := C296_change fp t grad hg [⟨.gaussian w, s, false⟩] (by simpa [GoodGrad] using ⟨hs, hw⟩) (by simp) (by simp) r gp h
  refine ⟨S, h0, h1, fun x z => ?_⟩
  obtain ⟨m, u, m', u', e1, e2, e3, e4, e5, e6⟩ := h2 x z
  have := gapSq_gaussian w s hs x z
  exact ⟨m, u, m', u', e1, e2, e3, e4, e5.trans this, e6.trans (mul_le_mul_of_nonneg_left this h0)⟩

/-- Two points with their slopes. -/
example : ∃ gp : GradGP 1, init [![(0 : ℝ)], ![1]] [0, 1] [![1], ![0]] [⟨.gaussian ![1], 2, false⟩] (some 1) false = .ok gp :=
  C123_trains _ _ _ _ (by simp) rfl (by simp [GoodGrad]) 1 one_ne_zero false (by simp) rfl rfl

end CatLearn.GradProc

namespace CatLearn.Surrogate

open CatLearn CatLearn.Kernel CatLearn.GradProc CatLearn.Proc Matrix

/-- C296: the surrogate of `MLNEB`, whose widths are at least 0.1 (L679): from one structure to another its uncertainty changes by at most ten times the
distance of the free coordinates times the standard deviation of its kernel, and its energy by at most this times a number that depends on the data
only; so a structure at this distance of one that was evaluated has at most this uncertainty, besides the noise. -/
theorem C296_surrogate {M N : ℕ} (minimizer : GradGP N → Hyper N) (hm : Within minimizer) (hw : ∀ gp a, 1 / 10 ≤ (minimizer gp).width a)
    (mask : Fin N → Fin M) (dist : ℝ) (hd : 0 < dist) (x : List (Fin M → ℝ)) (t : List ℝ) (g : List (Fin M → ℝ)) (hx : x ≠ [])
    (ht : t.length = x.length) (hg : g.length = x.length) :
    ∃ (r : GradGP N × ℝ) (U E : (Fin M → ℝ) → ℝ) (m S : ℝ), trainGP minimizer mask dist x t g = .ok r ∧ npMax t = .ok m ∧ 0 ≤ S ∧
      (∀ p, unc r mask p = .ok (some (U p)) ∧ energy r mask p = .ok (some (E p))) ∧
      (∀ p q, |U p - U q| ≤ 10 * Real.sqrt (sigmaF (t.map (· - m))) * Real.sqrt (∑ a, (p (mask a) - q (mask a)) ^ 2) ∧
        |E p - E q| ≤ S * Real.sqrt (∑ a, (p (mask a) - q (mask a)) ^ 2)) ∧
      ∀ q ∈ x, ∀ p, U p ≤ Real.sqrt 2 / 200 + 10 * Real.sqrt (sigmaF (t.map (· - m))) * Real.sqrt (∑ a, (p (mask a) - q (mask a)) ^ 2) := by
  obtain ⟨m, sf, g0, gp, h5, hpos, hmx, hsf, h7, hpd, hen, hun⟩ := trained_form minimizer hm mask dist hd x t g hx ht hg
  have hwid := hw g0
  obtain ⟨hw0, hE1, hE2, hF1, -⟩ := hm g0
  obtain ⟨r', U', noise, c1, c2, c3, c4, c5⟩ := C293_uncertainty minimizer hm mask dist hd x t g hx ht hg
  rw [h5] at c1
  injection c1 with c1
  subst c1
  generalize minimizer g0 = h at *
  set K := covGrad (kernels sf h) (some 0) gp.fp.get with hK
  set ks : List (GDict N) := [⟨.gaussian h.width, sf, false⟩] with hks
  have hgood : ∀ k ∈ ks, GoodGrad k := by
    intro k hk
    rw [hks, List.mem_singleton] at hk
    subst hk
    exact ⟨hpos.le, hw0⟩
  have hle : ∀ v, v ⬝ᵥ covGrad ks none gp.fp.get *ᵥ v ≤ v ⬝ᵥ K *ᵥ v := by
    intro v
    rw [hK, covGrad_split, add_mulVec, dotProduct_add]
    have h3 : 0 ≤ v ⬝ᵥ (Matrix.diagonal (Sum.elim (fun _ : Fin gp.fp.length => h.noiseE ^ 2) (fun _ : Fin gp.fp.length × Fin N => h.noiseF ^ 2))) *ᵥ v := by
      simp only [dotProduct, mulVec_diagonal]
      refine Finset.sum_nonneg fun i _ => ?_
      rcases i with i | i
      · simp only [Sum.elim_inl]; nlinarith [sq_nonneg (h.noiseE * v (.inl i))]
      · simp only [Sum.elim_inr]; nlinarith [sq_nonneg (h.noiseF * v (.inr i))]
    linarith
  set y := vec (N := N) gp.fp.length gp.target with hy
  have hS0 := near_nonneg hpd y
  -- the distance in units of the widths
  have hgap : ∀ p q : Fin M → ℝ, gapSq ks (p ∘ mask) (q ∘ mask) ≤ 100 * sf * ∑ a, (p (mask a) - q (mask a)) ^ 2 := by
    intro p q
    refine (gapSq_gaussian h.width sf hpos.le _ _).trans ?_
    have : ∑ a, (((p ∘ mask) a - (q ∘ mask) a) / h.width a) ^ 2 ≤ 100 * ∑ a, (p (mask a) - q (mask a)) ^ 2 := by
      rw [Finset.mul_sum]
      refine Finset.sum_le_sum fun a _ => ?_
      simp only [Function.comp_apply]
      rw [div_pow, div_le_iff₀ (pow_pos (hw0 a) 2)]
      have h1 : 1 ≤ 100 * h.width a ^ 2 := by nlinarith [hwid a]
      nlinarith [mul_le_mul_of_nonneg_right h1 (sq_nonneg (p (mask a) - q (mask a)))]
    nlinarith [mul_le_mul_of_nonneg_left this hpos.le]
  have hboth : ∀ p q : Fin M → ℝ,
      (Real.sqrt (postVar (sf + h.noiseE ^ 2) K (covRow (kernels sf h) (p ∘ mask) gp.fp.get)) -
        Real.sqrt (postVar (sf + h.noiseE ^ 2) K (covRow (kernels sf h) (q ∘ mask) gp.fp.get))) ^ 2 ≤ gapSq ks (p ∘ mask) (q ∘ mask) ∧
      (postMean K (covRow (kernels sf h) (p ∘ mask) gp.fp.get) y - postMean K (covRow (kernels sf h) (q ∘ mask) gp.fp.get) y) ^ 2 ≤
        (y ⬝ᵥ K⁻¹ *ᵥ y) * gapSq ks (p ∘ mask) (q ∘ mask) := by
    intro p q
    obtain ⟨M', hM, m1, m2, m3, m4, m5, m6⟩ := near_joint ks hgood (by simp [hks]) gp.fp.get (p ∘ mask) (q ∘ mask)
    obtain ⟨-, -, b3, b4⟩ := near_bounds hM (covGrad ks none gp.fp.get) K hpd hle _ _ m1 m2 m3 (h.noiseE ^ 2) (sq_nonneg _)
    have hpr : ∀ z : Fin N → ℝ, prior ks z = sf := by intro z; simp [hks, prior]
    have b4 := b4 y
    rw [m6] at b3 b4
    rw [m4, m5, hpr, hpr] at b3
    rw [covRow_split, covRow_split]
    exact ⟨b3, b4⟩
  have hroot : ∀ p q : Fin M → ℝ, |Real.sqrt (postVar (sf + h.noiseE ^ 2) K (covRow (kernels sf h) (p ∘ mask) gp.fp.get)) -
        Real.sqrt (postVar (sf + h.noiseE ^ 2) K (covRow (kernels sf h) (q ∘ mask) gp.fp.get))| ≤
      10 * Real.sqrt sf * Real.sqrt (∑ a, (p (mask a) - q (mask a)) ^ 2) := by
    intro p q
    have h1 := ((hboth p q).1).trans (hgap p q)
    have h2 := Real.abs_le_sqrt h1
    refine h2.trans (le_of_eq ?_)
    rw [Real.sqrt_mul (by positivity), Real.sqrt_mul (by norm_num), show (100 : ℝ) = 10 ^ 2 by norm_num, Real.sqrt_sq (by norm_num)]
  refine ⟨(gp, m), fun p => Real.sqrt (postVar (sf + h.noiseE ^ 2) K (covRow (kernels sf h) (p ∘ mask) gp.fp.get)),
    fun p => postMean K (covRow (kernels sf h) (p ∘ mask) gp.fp.get) y + m, m, Real.sqrt ((y ⬝ᵥ K⁻¹ *ᵥ y) * (100 * sf)), h5, hmx,
    Real.sqrt_nonneg _, fun p => ⟨hun p, hen p⟩, fun p q => ⟨?_, ?_⟩, fun q hq p => ?_⟩
  · rw [← hsf]
    exact hroot p q
  · simp only [add_sub_add_right_eq_sub]
    have h1 := (hboth p q).2.trans (mul_le_mul_of_nonneg_left (hgap p q) hS0)
    have h2 := Real.abs_le_sqrt h1
    refine h2.trans (le_of_eq ?_)
    rw [← Real.sqrt_mul (by positivity)]
    congr 1
    ring
  · have hq1 := (c4 q).1
    rw [hun q] at hq1
    injection hq1 with hq1
    injection hq1 with hq1
    have h1 := c5 q hq q fun _ => rfl
    rw [← hq1] at h1
    have h2 := hroot p q
    rw [hsf] at h2
    have h3 := (abs_le.1 h2).2
    have h4 := mul_le_mul_of_nonneg_left c3 (Real.sqrt_nonneg 2)
    rw [hsf] at h1 ⊢
    linarith

/-- A minimiser that keeps the bounds. -/
example : Within (N := 2) (fun _ => ⟨fun _ => 1 / 2, 2 / 1000, 1 / 1000⟩) ∧
    ∀ gp a, 1 / 10 ≤ ((fun _ => ⟨fun _ => 1 / 2, 2 / 1000, 1 / 1000⟩ : GradGP 2 → Hyper 2) gp).width a :=
  ⟨fun _ => by norm_num, fun _ _ => by norm_num⟩

end CatLearn.Surrogate
