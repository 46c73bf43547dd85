import Verif.Props.GPLimits
import Verif.Props.GPOrder

/-!
# Gaussian processes of repeated measurements (C276)
-/

namespace CatLearn.Proc

open CatLearn CatLearn.Kernel CatLearn.Scaling CatLearn.PSD Matrix

section
variable {l n : Type} [Fintype l] [DecidableEq l] [Fintype n] [DecidableEq n]

/-- The matrix that copies the entries of a vector. -/
def copies (π : l → n) : Matrix l n ℝ := Matrix.of fun p j => if π p = j then (1:ℝ) else 0

theorem copies_mulVec (π : l → n) (k : n → ℝ) : copies π *ᵥ k = k ∘ π := by
  funext p
  simp [copies, mulVec, dotProduct]

theorem copies_gram (π : l → n) (m : ℝ) (hπ : ∀ j, (∑ p, if π p = j then (1:ℝ) else 0) = m) :
    (copies π)ᵀ * copies π = m • (1 : Matrix n n ℝ) := by
  ext i j
  rw [Matrix.mul_apply, Matrix.smul_apply, Matrix.one_apply]
  simp only [copies, Matrix.transpose_apply, Matrix.of_apply]
  by_cases h : i = j
  · subst h
    simp only [if_true, smul_eq_mul, mul_one, ← hπ i]
    exact Finset.sum_congr rfl fun p _ => by split <;> simp
  · simp only [h, if_false, smul_zero]
    refine Finset.sum_eq_zero fun p _ => ?_
    by_cases h' : π p = i
    · simp [h', h]
    · simp [h']

theorem copies_cov (K : Matrix n n ℝ) (K' : Matrix l l ℝ) (π : l → n) (m s s' : ℝ)
    (hs : s' * m = s) (hπ : ∀ j, (∑ p, if π p = j then (1:ℝ) else 0) = m)
    (hK' : ∀ p q, K' p q = K (π p) (π q) + if p = q then s else 0) :
    K' * copies π = m • (copies π * (K + s' • (1 : Matrix n n ℝ))) := by
  ext p j
  rw [Matrix.mul_apply, Matrix.smul_apply, Matrix.mul_apply]
  have e1 : ∀ q, K' p q * copies π q j = K (π p) j * (if π q = j then 1 else 0) + if p = q then s * copies π p j else 0 := by
    intro q
    rw [hK']
    simp only [copies, Matrix.of_apply]
    by_cases h : π q = j <;> by_cases h' : p = q <;> simp [h, h']
  rw [Finset.sum_congr rfl fun q _ => e1 q, Finset.sum_add_distrib, ← Finset.mul_sum, hπ, ← hs]
  simp only [copies, Matrix.of_apply, Matrix.add_apply, Matrix.smul_apply, Matrix.one_apply, smul_eq_mul, ite_mul, one_mul,
    zero_mul, Finset.sum_ite_eq, Finset.mem_univ, if_true]
  by_cases h : π p = j <;> simp [h]
  all_goals ring

/-- Copies of points, each as often as any other. -/
theorem copies_inv (K : Matrix n n ℝ) (K' : Matrix l l ℝ) (π : l → n) (m s s' : ℝ) (hm : m ≠ 0)
    (hs : s' * m = s) (hπ : ∀ j, (∑ p, if π p = j then (1:ℝ) else 0) = m)
    (hK' : ∀ p q, K' p q = K (π p) (π q) + if p = q then s else 0)
    (hu : IsUnit K'.det) (hu0 : IsUnit (K + s' • (1 : Matrix n n ℝ)).det) :
    K'⁻¹ * copies π = (1 / m) • (copies π * (K + s' • (1 : Matrix n n ℝ))⁻¹) := by
  have h1 := copies_cov K K' π m s s' hs hπ hK'
  set A := K + s' • (1 : Matrix n n ℝ)
  have h2 : copies π = (1 / m) • (K' * copies π * A⁻¹) := by
    rw [h1, Matrix.smul_mul, smul_smul, Matrix.mul_assoc, mul_nonsing_inv _ hu0, Matrix.mul_one]
    simp [hm]
  conv_lhs => rw [h2]
  rw [Matrix.mul_smul, Matrix.mul_assoc K', nonsing_inv_mul_cancel_left _ _ hu]

theorem copies_posDef (K : Matrix n n ℝ) (K' : Matrix l l ℝ) (π : l → n) (m s s' : ℝ) (hm : 0 < m)
    (hs : s' * m = s) (hπ : ∀ j, (∑ p, if π p = j then (1:ℝ) else 0) = m)
    (hK' : ∀ p q, K' p q = K (π p) (π q) + if p = q then s else 0) (hp : K'.PosDef) :
    (K + s' • (1 : Matrix n n ℝ)).PosDef := by
  have hinj : Function.Injective (copies π).mulVec := by
    intro a b h
    have h3 := congrArg ((copies π)ᵀ *ᵥ ·) h
    simp only [mulVec_mulVec, copies_gram π m hπ, smul_mulVec, one_mulVec] at h3
    exact smul_right_injective _ hm.ne' h3
  have h4 := hp.conjTranspose_mul_mul_same hinj
  rw [conjTranspose_eq_transpose_of_trivial, Matrix.mul_assoc, copies_cov K K' π m s s' hs hπ hK', Matrix.mul_smul,
    ← Matrix.mul_assoc, copies_gram π m hπ, Matrix.smul_mul, Matrix.one_mul, smul_smul] at h4
  have h5 := h4.smul (a := (m * m)⁻¹) (by positivity)
  rwa [smul_smul, inv_mul_cancel₀ (by positivity), one_smul] at h5

theorem copies_post (K : Matrix n n ℝ) (K' : Matrix l l ℝ) (π : l → n) (m s s' : ℝ) (hm : 0 < m)
    (hs : s' * m = s) (hπ : ∀ j, (∑ p, if π p = j then (1:ℝ) else 0) = m)
    (hK' : ∀ p q, K' p q = K (π p) (π q) + if p = q then s else 0) (hp : K'.PosDef) (k : n → ℝ) (y : l → ℝ) (c : ℝ) :
    postMean K' (k ∘ π) y = postMean (K + s' • (1 : Matrix n n ℝ)) k (fun j => (∑ p, if π p = j then y p else 0) / m) ∧
    postVar c K' (k ∘ π) = postVar c (K + s' • (1 : Matrix n n ℝ)) k := by
  have hA := copies_posDef K K' π m s s' hm hs hπ hK' hp
  have hi := copies_inv K K' π m s s' hm.ne' hs hπ hK' hp.det_pos.ne'.isUnit hA.det_pos.ne'.isUnit
  set A := K + s' • (1 : Matrix n n ℝ)
  have hAs : A⁻¹ᵀ = A⁻¹ := by
    have := hA.1
    rw [Matrix.IsHermitian, conjTranspose_eq_transpose_of_trivial] at this
    rw [transpose_nonsing_inv, this]
  have hKs : K'⁻¹ᵀ = K'⁻¹ := by
    have := hp.1
    rw [Matrix.IsHermitian, conjTranspose_eq_transpose_of_trivial] at this
    rw [transpose_nonsing_inv, this]
  have ht : (copies π)ᵀ * K'⁻¹ = (1 / m) • (A⁻¹ * (copies π)ᵀ) := by
    have := congrArg Matrix.transpose hi
    rwa [Matrix.transpose_mul, hKs, Matrix.transpose_smul, Matrix.transpose_mul, hAs] at this
  constructor
  · unfold postMean
    rw [← copies_mulVec, ← vecMul_transpose, ← dotProduct_mulVec, mulVec_mulVec, ht, smul_mulVec, ← mulVec_mulVec,
      ← mulVec_smul]
    congr 2
    funext j
    simp only [copies, mulVec, dotProduct, Pi.smul_apply, smul_eq_mul, Matrix.transpose_apply, Matrix.of_apply, ite_mul,
      one_mul, zero_mul]
    ring
  · unfold postVar
    rw [← copies_mulVec]
    congr 1
    rw [← vecMul_transpose, vecMul_vecMul, ht, ← dotProduct_mulVec, ← dotProduct_mulVec, vecMul_transpose, mulVec_mulVec, Matrix.smul_mul, Matrix.mul_assoc,
      copies_gram π m hπ, Matrix.mul_smul, smul_smul, Matrix.mul_one]
    simp [hm.ne']

end

/-- The positions in lists that are written one after the other. -/
theorem flatten_positions {α : Type} {m n : ℕ} (f : Fin m → Fin n → α) (L : List α)
    (hL : L = (List.ofFn fun i => List.ofFn (f i)).flatten) :
    ∃ h : L.length = m * n, ∀ p : Fin L.length,
      L.get p = f (finProdFinEquiv.symm (finCongr h p)).1 (finProdFinEquiv.symm (finCongr h p)).2 := by
  have e : L = List.ofFn fun p : Fin (m * n) => f (finProdFinEquiv.symm p).1 (finProdFinEquiv.symm p).2 := by
    rw [hL, List.ofFn_mul]
    congr 2
    funext i
    congr 1
    funext j
    have : finProdFinEquiv.symm (⟨i * n + j, by
        calc (i : ℕ) * n + j < (i + 1) * n := by rw [Nat.add_mul, Nat.one_mul]; exact Nat.add_lt_add_left j.2 _
          _ ≤ _ := Nat.mul_le_mul_right _ i.2⟩ : Fin (m * n)) = (i, j) := by
      rw [Equiv.symm_apply_eq]
      apply Fin.ext
      simp [finProdFinEquiv]
      ring
    rw [this]
  clear hL
  subst e
  refine ⟨by simp, fun p => ?_⟩
  rw [List.get_ofFn]
  rfl

/-- C276: repeated measurements.  A model that is trained on its points `m` times, each time with targets of their own, is
the model of the averaged targets with the regularisation (a standard deviation, possibly as a logarithm) divided by the
square root of `m`: it can be built, too, and gives the same predictions and the same uncertainties. -/
theorem C276_repeat {N m n : ℕ} (hm : 0 < m) (X : Fin n → Fin N → ℝ) (ts : Fin m → Fin n → ℝ) (ks : List (KDict N))
    (hp : PacksList ks) (hn : ∀ k ∈ ks, ∀ h, k.ktype ≠ .noiseMulti h) (log : Bool) (r r' : ℝ)
    (hr : unlog log r' = unlog log r / Real.sqrt m) (gp : GP N)
    (h : init (List.replicate m (List.ofFn X)).flatten (List.ofFn fun i => List.ofFn (ts i)).flatten ks (some r) log false =
      .ok gp) :
    ∃ gp', init (List.ofFn X) (List.ofFn fun j => (∑ i, ts i j) / m) ks (some r') log false = .ok gp' ∧
      (∀ test, predict gp test false = predict gp' test false) ∧
      ∀ test, (predict gp test true).map (fun p => (p.prediction, p.uncertainty.map (·.map Prod.fst))) =
        (predict gp' test true).map (fun p => (p.prediction, p.uncertainty.map (·.map Prod.fst))) := by
  have hm' : (0:ℝ) < m := by exact_mod_cast hm
  have hreg : regSq log (some r') * m = regSq log (some r) := by
    simp only [regSq, hr, div_pow]
    rw [Real.sq_sqrt hm'.le]
    field_simp
  obtain ⟨hne, hpd⟩ := init_posDef hp h
  obtain ⟨hc, hh, h1, h2, h3, h4⟩ := C43_init_partial _ _ _ hp _ _ _ gp h
  -- the data of the model
  have hst := hh.1
  unfold store at hst
  rw [h4] at hst
  simp only [Bool.false_eq_true, if_false, Except.ok.injEq, Stored.mk.injEq, Option.getD_some, Option.isSome_some,
    if_true] at hst
  obtain ⟨d1, d2, d3, -⟩ := hst
  have d1' : gp.fp = (List.ofFn fun _ : Fin m => List.ofFn X).flatten := by
    rw [← d1]; congr 1; exact (List.ofFn_const m _).symm
  obtain ⟨l1, g1⟩ := flatten_positions (fun (_ : Fin m) j => X j) gp.fp d1'
  obtain ⟨l2, g2⟩ := flatten_positions ts gp.target d2.symm
  set F : List (Fin N → ℝ) := List.ofFn X with hFd
  set T : List ℝ := List.ofFn fun j => (∑ i, ts i j) / (m:ℝ) with hTd
  have hF : F.length = n := by simp [hFd]
  have hT : T.length = n := by simp [hTd]
  have gF : ∀ j : Fin F.length, F.get j = X (finCongr hF j) := by intro j; simp [hFd]; rfl
  have gT : ∀ j : Fin F.length, T.get (j.cast (hF.trans hT.symm)) = (∑ i, ts i (finCongr hF j)) / (m:ℝ) := by
    intro j; simp [hTd]; rfl
  set π : Fin gp.fp.length → Fin F.length := fun p => finCongr hF.symm (finProdFinEquiv.symm (finCongr l1 p)).2 with hπd
  have hsum : ∀ (f : Fin m → Fin n → ℝ) (j : Fin F.length),
      (∑ p : Fin gp.fp.length, if π p = j then f (finProdFinEquiv.symm (finCongr l1 p)).1 (finProdFinEquiv.symm (finCongr l1 p)).2
        else 0) = ∑ i, f i (finCongr hF j) := by
    intro f j
    refine (Fintype.sum_equiv ((finCongr l1).trans finProdFinEquiv.symm) _
      (fun q : Fin m × Fin n => if finCongr hF.symm q.2 = j then f q.1 q.2 else 0) (fun p => rfl)).trans ?_
    rw [Fintype.sum_prod_type]
    refine Finset.sum_congr rfl fun i _ => ?_
    have : ∀ q : Fin n, (finCongr hF.symm q = j) = (q = finCongr hF j) := by
      intro q; rw [← Equiv.eq_symm_apply]; rfl
    simp only [this, Finset.sum_ite_eq', Finset.mem_univ, if_true]
  have hπ : ∀ j, (∑ p, if π p = j then (1:ℝ) else 0) = (m:ℝ) := by
    intro j
    have := hsum (fun _ _ => 1) j
    simpa using this
  set K : Matrix (Fin F.length) (Fin F.length) ℝ := Matrix.of fun i j => covEntry ks log (F.get i) (F.get j) false with hK
  have gπ : ∀ p, gp.fp.get p = F.get (π p) := by
    intro p
    rw [g1, gF, hπd]
    rfl
  have hK' : ∀ p q, gram ks log (some r) gp.fp p q = K (π p) (π q) + if p = q then regSq log (some r) else 0 := by
    intro p q
    rw [gram, covSelf_apply, covEntry_self ks log hn, gπ, gπ]
    rfl
  have hA : gram ks log (some r') F = K + regSq log (some r') • (1 : Matrix (Fin F.length) (Fin F.length) ℝ) := by
    ext i j
    rw [gram, covSelf_apply, covEntry_self ks log hn]
    simp [hK, Matrix.one_apply]
  have hpd' := copies_posDef K _ π m _ _ hm' hreg hπ hK' hpd
  rw [← hA] at hpd'
  have hF0 : F ≠ [] := by
    intro h0
    have := hh.2.2
    apply this
    rw [h0]; simp
  obtain ⟨l, hb⟩ := updateData_of (blank ks (some r') log false) F T log ⟨F, T, false, none⟩ hF0 (hF.trans hT.symm)
    (by simp [store, blank]) hp hne hpd'.det_pos.ne'.isUnit hpd'
  obtain ⟨gp', hi', f1, f2, f3⟩ : ∃ gp', init F T ks (some r') log false = .ok gp' ∧
      gp'.fp = F ∧ gp'.target = T ∧ gp'.nan = false := by
    refine ⟨_, Eq.trans ?_ hb, rfl, rfl, rfl⟩
    unfold init
    simp only [hF, hT, ne_eq, not_true_eq_false, if_false, bind, Except.bind, pure, Except.pure]
  refine ⟨gp', hi', ?_⟩
  obtain ⟨hc', hh', h1', h2', h3', h4'⟩ := C43_init_partial _ _ _ hp _ _ _ _ hi'
  have hpost := fun (x : Fin N → ℝ) (y : Fin gp.fp.length → ℝ) (c : ℝ) =>
    copies_post K _ π m _ _ hm' hreg hπ hK' hpd (kvec ks log x F.get) y c
  have hkv : ∀ x, kvec ks log x gp.fp.get = kvec ks log x F.get ∘ π := by
    intro x; funext p; simp only [kvec, Function.comp_apply, gπ]
  have key : ∀ (G : List (Fin N → ℝ)) (S : List ℝ) (hl : S.length = G.length), G = F → S = T → ∀ x,
      postMean (gram ks log (some r) gp.fp) (kvec ks log x gp.fp.get) (fun i => gp.target.get (i.cast hc.2.2.1.symm)) =
        postMean (gram ks log (some r') G) (kvec ks log x G.get) (fun i => S.get (i.cast hl.symm)) ∧
      ∀ c, postVar c (gram ks log (some r) gp.fp) (kvec ks log x gp.fp.get) =
        postVar c (gram ks log (some r') G) (kvec ks log x G.get) := by
    rintro _ _ hl rfl rfl x
    rw [hkv, hA]
    refine ⟨?_, fun c => (hpost x 0 c).2⟩
    rw [(hpost x _ 0).1]
    congr 1
    funext j
    rw [gT, ← hsum ts j]
    congr 1
    refine Finset.sum_congr rfl fun p _ => ?_
    rw [g2]
    rfl
  have hm1 : gp'.mean = gp.mean := by
    funext x
    unfold GP.mean
    have hre : ∀ p, gp.rescale p = gp'.rescale p := by
      intro p; unfold GP.rescale; rw [h4, h4']
    rw [hc.mean_eq, hc'.mean_eq, f3, ← d3, ← hre]
    congr 3
    have := (key gp'.fp gp'.target hc'.2.2.1 f1 f2 x).1
    simp only [h1, h2, h3, h1', h2', h3']
    exact this.symm
  have hv : gp'.var = gp.var := by
    funext x
    rw [hc.var_eq, hc'.var_eq, h1, h2, h3, h1', h2', h3']
    exact ((key gp'.fp gp'.target hc'.2.2.1 f1 f2 x).2 _).symm
  have hrow : gp'.scaleRow = gp.scaleRow := by
    funext x; unfold GP.scaleRow; rw [h4, h4']
  have hts : gp'.tstd = gp.tstd := by unfold GP.tstd; rw [h4, h4']
  have c1 : gp.cinv.1 = gp.fp.length := by rw [hc.2.1]
  have c2 : gp.cinv.1 = gp.target.length := by rw [hc.2.1, hc.2.2.1]
  have c1' : gp'.cinv.1 = gp'.fp.length := by rw [hc'.2.1]
  have c2' : gp'.cinv.1 = gp'.target.length := by rw [hc'.2.1, hc'.2.2.1]
  constructor
  · intro test
    unfold predict
    simp only [← c1, ← c2, ← c1', ← c2', hm1, hrow, bind, Except.bind, pure, Except.pure, ne_eq,
      not_true_eq_false, if_false, Bool.false_eq_true]
  · intro test
    unfold predict
    simp only [← c1, ← c2, ← c1', ← c2', hm1, hrow, h2, h2', bind, Except.bind, pure, Except.pure, ne_eq,
      not_true_eq_false, if_false, if_true]
    split
    · rfl
    · simp [Except.map, GP.unc, hv, hts]

/-- Two measurements at each of two points. -/
example : (∃ gp : GP 1, init (List.replicate 2 (List.ofFn ![![(0:ℝ)], ![2]])).flatten
      (List.ofFn fun i => List.ofFn ((![![0, 1], ![2, 5]] : Fin 2 → Fin 2 → ℝ) i)).flatten linK (some 1) false false =
        .ok gp) ∧
    (∀ k ∈ linK, ∀ h, k.ktype ≠ .noiseMulti h) ∧ unlog false (1 / Real.sqrt 2) = unlog false 1 / Real.sqrt (2 : ℕ) :=
  ⟨C113_can_build _ _ linK 1 false false (by simp) (by simp) (by simp [linK]) linK_packs linK_good
    (Or.inr one_ne_zero), by simp [linK], by simp [unlog]⟩

end CatLearn.Proc
