import Verif.Props.GPOrder

/-!
# Naming of the features (C241) and the amplitude of the covariance (C242)
-/

namespace CatLearn.Proc

open CatLearn CatLearn.Kernel CatLearn.Scaling CatLearn.PSD Matrix

/-! ### Models whose covariances correspond -/

theorem scalOf_select {N M : ℕ} (σ : Fin M → Fin N) (fp : List (Fin N → ℝ)) (t : List ℝ) :
    scalOf (fp.map (· ∘ σ)) t =
      ⟨(scalOf fp t).fmean ∘ σ, (scalOf fp t).fstd ∘ σ, (scalOf fp t).tmean, (scalOf fp t).tstd⟩ := by
  have h1 : colMean (fp.map (· ∘ σ)).get = colMean fp.get ∘ σ := by
    funext a
    have := congrFun (colMean_equiv (finCongr (by simp)) (fp.map (· ∘ σ)).get
      (fun i : Fin fp.length => fp.get i ∘ σ) (fun i => by simp)) a
    rw [this]
    rfl
  have h2 : colStd (fp.map (· ∘ σ)).get = colStd fp.get ∘ σ := by
    funext a
    have := congrFun (colStd_equiv (finCongr (by simp)) (fp.map (· ∘ σ)).get
      (fun i : Fin fp.length => fp.get i ∘ σ) (fun i => by simp)) a
    rw [this]
    rfl
  simp only [scalOf, h1, h2]
  rfl

theorem gram_select {N M : ℕ} (σ : Fin M → Fin N) (a : ℝ) (ks : List (KDict N)) (ks' : List (KDict M)) (log : Bool)
    (reg reg' : Option ℝ) (hcov : ∀ x y s, covEntry ks' log (x ∘ σ) (y ∘ σ) s = a * covEntry ks log x y s)
    (hreg : regSq log reg' = a * regSq log reg) (fp : List (Fin N → ℝ)) (fp' : List (Fin M → ℝ))
    (hf : fp' = fp.map (· ∘ σ)) (e : Fin fp'.length ≃ Fin fp.length) (he : ∀ i, (e i).1 = i.1) :
    gram ks' log reg' fp' = (a • gram ks log reg fp).submatrix e e := by
  subst hf
  ext i j
  have hg : ∀ i, (fp.map (· ∘ σ)).get i = fp.get (e i) ∘ σ := by
    intro i; simp [he]
  rw [submatrix_apply, Matrix.smul_apply, gram, gram, covSelf_apply, covSelf_apply, hg, hg, hcov, hreg, smul_eq_mul]
  simp only [EmbeddingLike.apply_eq_iff_eq]
  split <;> ring

theorem smul_inv' {n : Type} [Fintype n] [DecidableEq n] (a : ℝ) (ha : a ≠ 0) (K : Matrix n n ℝ) (hu : IsUnit K.det) :
    (a • K)⁻¹ = a⁻¹ • K⁻¹ := by
  apply inv_eq_right_inv
  rw [smul_mul_smul_comm, mul_inv_cancel₀ ha, one_smul, mul_nonsing_inv _ hu]

theorem postMean_smul {n : Type} [Fintype n] [DecidableEq n] (a : ℝ) (ha : a ≠ 0) (K : Matrix n n ℝ) (hu : IsUnit K.det)
    (k y : n → ℝ) : postMean (a • K) (a • k) y = postMean K k y := by
  unfold postMean
  rw [smul_inv' a ha K hu, smul_mulVec, smul_dotProduct, dotProduct_smul, smul_eq_mul, smul_eq_mul, ← mul_assoc,
    mul_inv_cancel₀ ha, one_mul]

theorem postVar_smul {n : Type} [Fintype n] [DecidableEq n] (a : ℝ) (ha : a ≠ 0) (K : Matrix n n ℝ) (hu : IsUnit K.det)
    (c : ℝ) (k : n → ℝ) : postVar (a * c) (a • K) (a • k) = a * postVar c K k := by
  unfold postVar
  rw [smul_inv' a ha K hu, smul_vecMul, vecMul_smul, smul_smul, mul_inv_cancel₀ ha, one_smul, dotProduct_smul, smul_eq_mul]
  ring

/-- A model on selected (or renamed, or repeated) features whose covariance is a multiple of that of another model. -/
theorem transport {N M : ℕ} (σ : Fin M → Fin N) (a : ℝ) (ha : 0 < a) (ks : List (KDict N)) (ks' : List (KDict M))
    (log : Bool) (reg reg' : Option ℝ)
    (hcov : ∀ x y s, covEntry ks' log (x ∘ σ) (y ∘ σ) s = a * covEntry ks log x y s)
    (hreg : regSq log reg' = a * regSq log reg) (hp : PacksList ks) (hp' : PacksList ks') (hne : ks' ≠ [])
    (fp : List (Fin N → ℝ)) (t : List ℝ) (sd : Bool) (gp : GP N) (hi : init fp t ks reg log sd = .ok gp) :
    ∃ gp', init (fp.map (· ∘ σ)) t ks' reg' log sd = .ok gp' ∧ gp'.fits ∧ gp.fits ∧ gp.reg = reg ∧ gp'.reg = reg' ∧
      gp'.tstd = gp.tstd ∧ (∀ x, gp'.scaleRow (x ∘ σ) = gp.scaleRow x ∘ σ) ∧
      (∀ x, gp'.mean (x ∘ σ) = gp.mean x) ∧ ∀ x, gp'.var (x ∘ σ) = a * gp.var x := by
  obtain ⟨-, hpd⟩ := init_posDef hp hi
  obtain ⟨hc, hh, h1, h2, h3, h4⟩ := C43_init_partial _ _ _ hp _ _ _ gp hi
  obtain ⟨hst, hlen, hfp⟩ := hh
  -- what is stored
  obtain ⟨s', hs', hrow, hstore⟩ : ∃ s' : Option (Scal M),
      (s' = gp.scaling.map fun s => ⟨s.fmean ∘ σ, s.fstd ∘ σ, s.tmean, s.tstd⟩) ∧ True ∧
      store (blank ks' reg' log sd) (fp.map (· ∘ σ)) (some t) =
        .ok ⟨gp.fp.map (· ∘ σ), gp.target, gp.nan, s'⟩ := by
    refine ⟨_, rfl, trivial, ?_⟩
    unfold store at hst ⊢
    cases hsd : sd with
    | false =>
      rw [h4, hsd] at hst
      simp only [Bool.false_eq_true, if_false, Except.ok.injEq, Stored.mk.injEq, Option.getD_some, Option.isSome_some,
        if_true] at hst
      have hsc := hc.2.2.2
      rw [h4, hsd] at hsc
      have hsc : gp.scaling = none := by simpa using hsc
      simp [blank, hst.1, hst.2.1, hst.2.2.1.symm, hsc]
    | true =>
      rw [h4, hsd] at hst
      simp only [if_true, Except.ok.injEq, Stored.mk.injEq] at hst
      obtain ⟨g1, g2, g3, g4⟩ := hst
      simp only [blank, if_true, Except.ok.injEq, Stored.mk.injEq]
      rw [scalOf_select]
      refine ⟨?_, ?_, ?_, ?_⟩
      · rw [← g1, List.map_map, List.map_map]
        rfl
      · rw [← g2]; rfl
      · rw [← g3]
      · rw [← g4]; rfl
  let e : Fin (gp.fp.map (· ∘ σ)).length ≃ Fin gp.fp.length := finCongr (by simp)
  have hge := gram_select σ a ks ks' log reg reg' hcov hreg gp.fp _ rfl e (fun _ => rfl)
  have hpd' : (gram ks' log reg' (gp.fp.map (· ∘ σ))).PosDef := by
    rw [hge]
    exact (hpd.smul ha).submatrix e.injective
  obtain ⟨l, hb⟩ := updateData_of (blank ks' reg' log sd) (fp.map (· ∘ σ)) t log _ (by simpa using hfp) (by simpa using hlen)
    hstore hp' hne hpd'.det_pos.ne'.isUnit hpd'
  obtain ⟨gp', hi', f1, f2, f3, f4⟩ : ∃ gp', init (fp.map (· ∘ σ)) t ks' reg' log sd = .ok gp' ∧
      gp'.fp = gp.fp.map (· ∘ σ) ∧ gp'.target = gp.target ∧ gp'.nan = gp.nan ∧ gp'.scaling = s' := by
    refine ⟨_, Eq.trans ?_ hb, rfl, rfl, rfl, rfl⟩
    unfold init
    simp [hlen, bind, Except.bind, pure, Except.pure]
  obtain ⟨hc', hh', h1', h2', h3', h4'⟩ := C43_init_partial _ _ _ hp' _ _ _ _ hi'
  have key : ∀ x, (kvec ks' log (x ∘ σ) gp'.fp.get) =
      (a • kvec ks log x gp.fp.get) ∘ finCongr (by rw [f1]; simp : gp'.fp.length = gp.fp.length) := by
    intro x
    funext i
    have : gp'.fp.get i = gp.fp.get (finCongr (by rw [f1]; simp : gp'.fp.length = gp.fp.length) i) ∘ σ := by
      simp only [f1, List.get_eq_getElem, List.getElem_map]
      rfl
    simp only [kvec, Function.comp_apply, Pi.smul_apply, smul_eq_mul, this, hcov]
  have hg2 : gram ks' log reg' gp'.fp = (a • gram ks log reg gp.fp).submatrix
      (finCongr (by rw [f1]; simp : gp'.fp.length = gp.fp.length)) (finCongr (by rw [f1]; simp)) :=
    gram_select σ a ks ks' log reg reg' hcov hreg gp.fp gp'.fp f1 _ (fun _ => rfl)
  have hu : IsUnit (gram ks log reg gp.fp).det := hpd.det_pos.ne'.isUnit
  refine ⟨gp', hi', ⟨by rw [hc'.2.1], by rw [hc'.2.1, hc'.2.2.1]⟩, ⟨by rw [hc.2.1], by rw [hc.2.1, hc.2.2.1]⟩, h2, h2',
    ?_, ?_, ?_, ?_⟩
  · unfold GP.tstd
    rw [h4, h4', f4, hs']
    cases sd <;> cases gp.scaling <;> rfl
  · intro x
    unfold GP.scaleRow
    rw [h4, h4', f4, hs']
    cases sd <;> cases gp.scaling <;> rfl
  · intro x
    unfold GP.mean
    rw [hc.mean_eq, hc'.mean_eq, f3]
    split
    · rfl
    · congr 1
      have hr : ∀ p, gp'.rescale p = gp.rescale p := by
        intro p
        unfold GP.rescale
        rw [h4, h4', f4, hs']
        cases sd <;> cases gp.scaling <;> rfl
      rw [hr]
      congr 1
      simp only [h1, h2, h3, h1', h2', h3']
      rw [key, hg2]
      have hy : (fun i : Fin gp'.fp.length => gp'.target.get (i.cast hc'.2.2.1.symm)) =
          (fun i : Fin gp.fp.length => gp.target.get (i.cast hc.2.2.1.symm)) ∘
            finCongr (by rw [f1]; simp : gp'.fp.length = gp.fp.length) := by
        funext i
        simp only [f2, List.get_eq_getElem, Function.comp_apply]
        rfl
      rw [hy, postMean_reindex, postMean_smul a ha.ne' _ hu]
  · intro x
    rw [hc.var_eq, hc'.var_eq]
    simp only [h1, h2, h3, h1', h2', h3']
    rw [key, hg2, postVar_reindex, hcov, postVar_smul a ha.ne' _ hu]

/-! ### Naming of the features (C241) -/

/-- The features a kernel uses, each with the width that belongs to it. -/
def used {N : ℕ} (k : KDict N) (w : List ℝ) : List (Fin N × ℝ) :=
  (columns k).zipIdx.map fun c => (c.1, pick w c.2)

/-- Two kernel dictionaries for data sets of which the second has the feature `σ j` of the first one as its feature `j`: same
type, scaling and operation, the same features with the same widths, in any order. -/
def SameKernel {N M : ℕ} (σ : Fin M → Fin N) (k : KDict N) (k' : KDict M) : Prop :=
  k'.scaling = k.scaling ∧ k'.mult = k.mult ∧
  match k.ktype, k'.ktype with
  | .gaussian w, .gaussian w' => ((used k' w').map (Prod.map σ id)).Perm (used k w)
  | .laplacian w, .laplacian w' => ((used k' w').map (Prod.map σ id)).Perm (used k w)
  | .sqe w, .sqe w' => ((used k' w').map (Prod.map σ id)).Perm (used k w)
  | .quadratic s d _, .quadratic s' d' _ => s.length = 1 ∧ s' = s ∧ d' = d ∧ ((columns k').map σ).Perm (columns k)
  | .linear, .linear => ((columns k').map σ).Perm (columns k)
  | .constant c, .constant c' => c' = c
  | .noiseMulti h, .noiseMulti h' => h' = h
  | _, _ => False

theorem colSum_used {N M : ℕ} (σ : Fin M → Fin N) (k : KDict N) (k' : KDict M) (w w' : List ℝ)
    (h : ((used k' w').map (Prod.map σ id)).Perm (used k w)) (g : ℝ → ℝ → ℝ → ℝ) (x y : Fin N → ℝ) :
    colSum (columns k') (x ∘ σ) (y ∘ σ) (fun i a b => g (pick w' i) a b) =
      colSum (columns k) x y fun i a b => g (pick w i) a b := by
  have := (h.map fun p : Fin N × ℝ => g p.2 (x p.1) (y p.1)).sum_eq
  simp only [used, List.map_map] at this
  exact this

theorem colSum_plain {N M : ℕ} (σ : Fin M → Fin N) (l : List (Fin N)) (l' : List (Fin M)) (h : (l'.map σ).Perm l)
    (g : ℝ → ℝ → ℝ) (x y : Fin N → ℝ) :
    colSum l' (x ∘ σ) (y ∘ σ) (fun _ a b => g a b) = colSum l x y fun _ a b => g a b := by
  have := (h.map fun j : Fin N => g (x j) (y j)).sum_eq
  have e : ∀ {K : ℕ} (l : List (Fin K)) (f : Fin K → ℝ), (l.zipIdx.map fun c => f c.1) = l.map f := by
    intro K l f
    have : (l.zipIdx.map fun c => f c.1) = (l.zipIdx.map Prod.fst).map f := by simp only [List.map_map]; rfl
    rw [this, List.zipIdx_map_fst]
  have e1 : colSum l' (x ∘ σ) (y ∘ σ) (fun _ a b => g a b) = (l'.map fun j => g (x (σ j)) (y (σ j))).sum :=
    congrArg List.sum (e l' fun j => g (x (σ j)) (y (σ j)))
  have e2 : colSum l x y (fun _ a b => g a b) = (l.map fun j => g (x j) (y j)).sum :=
    congrArg List.sum (e l fun j => g (x j) (y j))
  rw [e1, e2, ← this, List.map_map]
  rfl

theorem entry_same {N M : ℕ} (σ : Fin M → Fin N) (k : KDict N) (k' : KDict M) (h : SameKernel σ k k') (log : Bool)
    (x y : Fin N → ℝ) (s : Bool) :
    entry k'.ktype (columns k') log (x ∘ σ) (y ∘ σ) s = entry k.ktype (columns k) log x y s := by
  obtain ⟨-, -, h⟩ := h
  split at h
  · next w w' e e' =>
    rw [e, e']
    simp only [entry]
    rw [colSum_used σ k k' w w' h fun p a b => (a / unlog log p - b / unlog log p) ^ 2]
  · next w w' e e' =>
    rw [e, e']
    simp only [entry]
    rw [colSum_used σ k k' w w' h fun p a b => |a / unlog log p - b / unlog log p|]
  · next w w' e e' =>
    rw [e, e']
    simp only [entry]
    rw [colSum_used σ k k' w w' h fun p a b => (a - b) ^ 2 / unlog log p]
  · next s d b s' d' b' e e' =>
    obtain ⟨-, rfl, rfl, h⟩ := h
    rw [e, e']
    simp only [entry]
    rw [colSum_plain σ _ _ h fun a b => (a / unlog log ((s' ++ [d']).getD 0 0) * unlog log ((s' ++ [d']).getD 1 0) -
      b / unlog log ((s' ++ [d']).getD 0 0) * unlog log ((s' ++ [d']).getD 1 0)) ^ 2]
  · next e e' =>
    rw [e, e']
    simp only [entry]
    exact colSum_plain σ _ _ h (fun a b => a * b) x y
  · next c c' e e' => rw [e, e', h]; rfl
  · next c c' e e' => rw [e, e', h]; rfl
  · exact h.elim

/-- C241: the covariance of two points does not depend on the order in which the features are given, nor on features no
kernel uses. -/
theorem C241_covariance_partial {N M : ℕ} (σ : Fin M → Fin N) (ks : List (KDict N)) (ks' : List (KDict M))
    (h : List.Forall₂ (SameKernel σ) ks ks') (log : Bool) (x y : Fin N → ℝ) (s : Bool) :
    covEntry ks' log (x ∘ σ) (y ∘ σ) s = covEntry ks log x y s := by
  unfold covEntry
  generalize (0 : ℝ) = acc
  induction h generalizing acc with
  | nil => rfl
  | @cons k k' _ _ hk _ ih =>
    have hs : scaleFactor k' log = scaleFactor k log := by unfold scaleFactor; rw [hk.1]
    simp only [List.foldl_cons, entry_same σ _ _ hk, hs, hk.2.1]
    exact ih _

/-- C241: the order of the features is immaterial to a Gaussian process, and so are features that no kernel uses: a model
trained on the features `σ 0, σ 1, …` with corresponding kernels can be built whenever the one trained on all features can,
and then the predictions and uncertainties of both are the same, with and without standardisation of the data. -/
theorem C241_partial {N M : ℕ} (σ : Fin M → Fin N) (ks : List (KDict N)) (ks' : List (KDict M))
    (h : List.Forall₂ (SameKernel σ) ks ks') (hp : PacksList ks) (hp' : PacksList ks') (fp : List (Fin N → ℝ)) (t : List ℝ)
    (reg : Option ℝ) (log sd : Bool) (gp : GP N) (hi : init fp t ks reg log sd = .ok gp) :
    ∃ gp', init (fp.map (· ∘ σ)) t ks' reg log sd = .ok gp' ∧
      (∀ test u, predict gp' (test.map (· ∘ σ)) u = predict gp test u) ∧
      ∀ test, predictUncertainty gp' (test.map (· ∘ σ)) = predictUncertainty gp test := by
  have hne : ks' ≠ [] := by
    obtain ⟨h0, -⟩ := init_posDef hp hi
    rintro rfl
    cases h
    exact h0 rfl
  obtain ⟨gp', hi', ⟨a1, a2⟩, ⟨b1, b2⟩, r1, r2, hts, hrow, hm, hv⟩ := transport σ 1 one_pos ks ks' log reg reg
    (fun x y s => by rw [one_mul]; exact C241_covariance_partial σ ks ks' h log x y s) (one_mul _).symm hp hp' hne fp t sd gp hi
  have hunc : ∀ r x, gp'.unc r (x ∘ σ) = gp.unc r x := by
    intro r x; unfold GP.unc; rw [hv, hts, one_mul]
  refine ⟨gp', hi', ?_, ?_⟩
  · intro test u
    have e1 : (test.map (· ∘ σ)).map gp'.scaleRow = (test.map gp.scaleRow).map (· ∘ σ) := by
      simp only [List.map_map]
      exact List.map_congr_left fun x _ => hrow x
    have e2 : ∀ l : List (Fin N → ℝ), (l.map (· ∘ σ)).map gp'.mean = l.map gp.mean := fun l => by
      rw [List.map_map]; exact List.map_congr_left fun x _ => hm x
    have e3 : ∀ (r : ℝ) (l : List (Fin N → ℝ)), (l.map (· ∘ σ)).map (gp'.unc r) = l.map (gp.unc r) := fun r l => by
      rw [List.map_map]; exact List.map_congr_left fun x _ => hunc r x
    unfold predict
    simp only [e1, e2, e3, ← a1, ← a2, ← b1, ← b2, r1, r2, bind, Except.bind, pure, Except.pure, ne_eq,
      not_true_eq_false, if_false, List.isEmpty_map]
  · intro test
    have e3 : ∀ (r : ℝ) (l : List (Fin N → ℝ)), (l.map (· ∘ σ)).map (gp'.unc r) = l.map (gp.unc r) := fun r l => by
      rw [List.map_map]; exact List.map_congr_left fun x _ => hunc r x
    unfold predictUncertainty
    simp only [e3, ← a1, ← b1, r1, r2, bind, Except.bind, pure, Except.pure, ne_eq,
      not_true_eq_false, if_false, List.isEmpty_map]

/-- Features in another order, with a Gaussian kernel that has a width for each of them. -/
theorem same_gaussian {N : ℕ} (σ : Equiv.Perm (Fin N)) (w : Fin N → ℝ) (sc : Option ℝ) (mu : Bool) :
    SameKernel σ ⟨.gaussian (List.ofFn w), none, sc, mu⟩ ⟨.gaussian (List.ofFn (w ∘ σ)), none, sc, mu⟩ := by
  refine ⟨rfl, rfl, ?_⟩
  have e : ∀ v : Fin N → ℝ, used (⟨.gaussian (List.ofFn v), none, sc, mu⟩ : KDict N) (List.ofFn v) =
      (List.finRange N).map fun i => (i, v i) := by
    intro v
    apply List.ext_getElem
    · simp [used, columns]
    · intro i h1 h2
      simp only [used, columns, Option.getD_none, List.getElem_map, List.getElem_zipIdx, List.getElem_finRange]
      simp at h2
      congr 1
      by_cases h3 : N = 1
      · subst h3
        have : i = 0 := by omega
        subst this
        simp [pick]
      · simp [pick, h3, h2]
  simp only [e, List.map_map]
  have : (Prod.map (⇑σ) id ∘ fun i => (i, (w ∘ ⇑σ) i)) = (fun i => (i, w i)) ∘ σ := by
    funext i; rfl
  rw [this, ← List.map_map]
  exact (Equiv.Perm.map_finRange_perm σ).map _

example : ∃ (gp : GP 3), init [![1, 2, 3], ![4, 5, 7]] [1, 2] [⟨.gaussian (List.ofFn ![1, 2, 3]), none, none, false⟩] (some 1) false true
    = .ok gp ∧ List.Forall₂ (SameKernel (finRotate 3)) [⟨.gaussian (List.ofFn ![1, 2, 3]), none, none, false⟩]
      [⟨.gaussian (List.ofFn (![1, 2, 3] ∘ finRotate 3)), none, none, false⟩] := by
  refine (fun ⟨gp, h⟩ => ⟨gp, h, .cons (same_gaussian (finRotate 3) _ _ _) .nil⟩)
    (C113_can_build _ _ _ 1 false true (by simp) rfl (by simp) ?_ ?_ (Or.inr one_ne_zero))
  · simp [PacksList]
  · simp [GoodKernel, GoodWidths, columns, unlog]

/-- A kernel that uses two of three features does not need the third one. -/
example : SameKernel (![2, 0] : Fin 2 → Fin 3) ⟨.laplacian [1, 5], some [0, 2], some 2, true⟩
    ⟨.laplacian [5, 1], none, some 2, true⟩ := by
  refine ⟨rfl, rfl, ?_⟩
  simp only [used, columns, Option.getD_some, Option.getD_none]
  exact List.Perm.swap _ _ _

/-- C241 fails for the quadratic kernel with a slope for each feature: exchanging the two features and their slopes changes the
covariance, as the second slope is used as the degree. -/
theorem C241_quadratic_violated : ∃ (k k' : KDict 2) (s1 s2 d : ℝ) (x y : Fin 2 → ℝ),
    k = ⟨.quadratic [s1, s2] d false, none, none, false⟩ ∧ k' = ⟨.quadratic [s2, s1] d false, none, none, false⟩ ∧
      covEntry [k'] false (x ∘ Equiv.swap 0 1) (y ∘ Equiv.swap 0 1) false ≠ covEntry [k] false x y false := by
  refine ⟨_, _, 1, 2, 1, ![0, 0], ![1, 0], rfl, rfl, ?_⟩
  simp [covEntry, scaleFactor, entry, columns, colSum, unlog, List.finRange_succ]
  norm_num

/-! ### The amplitude of the covariance (C242) -/

/-- The kernel dictionary with a covariance `c²` times as large: 'scaling' is multiplied (a missing one counts as 1), except in
kernels that are themselves factors. -/
noncomputable def louder {N : ℕ} (c : ℝ) (k : KDict N) : KDict N :=
  if k.mult then k else { k with scaling := some (c ^ 2 * k.scaling.getD 1) }

theorem louder_ktype {N : ℕ} (c : ℝ) (k : KDict N) : (louder c k).ktype = k.ktype := by
  unfold louder; split <;> rfl

theorem louder_packs {N : ℕ} (c : ℝ) (ks : List (KDict N)) (hp : PacksList ks) : PacksList (ks.map (louder c)) := by
  induction ks with
  | nil => trivial
  | cons k ks ih =>
    cases ks with
    | nil => simpa [PacksList, louder_ktype] using hp
    | cons k2 ks =>
      obtain ⟨h1, h2⟩ := hp
      refine ⟨?_, ih h2⟩
      unfold Packs at h1 ⊢
      rw [louder_ktype]
      exact h1

theorem covEntry_louder {N : ℕ} (c : ℝ) (ks : List (KDict N)) (x y : Fin N → ℝ) (s : Bool) :
    covEntry (ks.map (louder c)) false x y s = c ^ 2 * covEntry ks false x y s := by
  have : ∀ acc : ℝ, (ks.map (louder c)).foldl (fun cov k =>
      let v := scaleFactor k false * entry k.ktype (columns k) false x y s
      if k.mult then cov * v else cov + v) (c ^ 2 * acc) = c ^ 2 * ks.foldl (fun cov k =>
      let v := scaleFactor k false * entry k.ktype (columns k) false x y s
      if k.mult then cov * v else cov + v) acc := by
    induction ks with
    | nil => intro acc; rfl
    | cons k ks ih =>
      intro acc
      simp only [List.map_cons, List.foldl_cons]
      rw [← ih]
      congr 1
      unfold louder
      by_cases hm : k.mult
      · simp [hm]; ring
      · obtain ⟨kt, fe, sc, mu⟩ := k
        cases sc <;> simp_all [scaleFactor, unlog, columns] <;> ring
  simpa [covEntry] using this 0

theorem npSqrt_sq (c v : ℝ) (hc : 0 < c) : npSqrt (c ^ 2 * v) = (npSqrt v).map (c * ·) := by
  unfold npSqrt
  have h2 : 0 < c ^ 2 := by positivity
  by_cases hv : v < 0
  · simp [hv, mul_neg_of_pos_of_neg h2 hv]
  · have : ¬ c ^ 2 * v < 0 := not_lt.2 (mul_nonneg h2.le (not_lt.1 hv))
    simp only [hv, this, if_false, Option.map_some]
    rw [Real.sqrt_mul h2.le, Real.sqrt_sq hc.le]

/-- C242: a covariance `c²` times as large together with a regularisation `c` times as large leaves all predictions as they are
and multiplies all uncertainties by `c` (hyperparameters not on a log scale). -/
theorem C242_amplitude {N : ℕ} (c : ℝ) (hc : 0 < c) (ks : List (KDict N)) (hp : PacksList ks) (fp : List (Fin N → ℝ))
    (t : List ℝ) (reg : Option ℝ) (sd : Bool) (gp : GP N) (hi : init fp t ks reg false sd = .ok gp) :
    ∃ gp', init fp t (ks.map (louder c)) (reg.map (c * ·)) false sd = .ok gp' ∧
      (∀ test u, predict gp' test u = (predict gp test u).map fun p =>
        ⟨p.prediction, p.uncertainty.map (List.map fun q => (q.1.map (c * ·), q.2.map (c * ·)))⟩) ∧
      ∀ test, predictUncertainty gp' test =
        (predictUncertainty gp test).map (List.map fun q => (q.1.map (c * ·), q.2.map (c * ·))) := by
  have h2 : 0 < c ^ 2 := by positivity
  have hne : ks.map (louder c) ≠ [] := by
    obtain ⟨h0, -⟩ := init_posDef hp hi
    simpa using h0
  have hfp : fp.map (· ∘ (id : Fin N → Fin N)) = fp := by simp
  obtain ⟨gp', hi', ⟨a1, a2⟩, ⟨b1, b2⟩, r1, r2, hts, hrow, hm, hv⟩ := transport id (c ^ 2) h2 ks (ks.map (louder c)) false reg
    (reg.map (c * ·)) (fun x y s => covEntry_louder c ks x y s) (by cases reg <;> simp [regSq, unlog]; ring) hp
    (louder_packs c ks hp) hne fp t sd gp hi
  rw [hfp] at hi'
  simp only [Function.comp_id] at hrow hm hv
  have hunc : ∀ r x, gp'.unc (c * r) x = ((gp.unc r x).1.map (c * ·), (gp.unc r x).2.map (c * ·)) := by
    intro r x
    unfold GP.unc
    rw [hv, hts, npSqrt_sq c _ hc]
    cases npSqrt (gp.var x) with
    | none => rfl
    | some u => simp; constructor <;> ring
  refine ⟨gp', hi', ?_, ?_⟩
  · intro test u
    have e1 : test.map gp'.scaleRow = test.map gp.scaleRow := List.map_congr_left fun x _ => hrow x
    have e2 : gp'.mean = gp.mean := funext hm
    unfold predict
    rw [e1, e2, r1, r2, ← a1, ← a2, ← b1, ← b2]
    by_cases ht : test.isEmpty
    · simp [ht, bind, Except.bind, throw, throwThe, MonadExceptOf.throw, Except.map]
    · cases u <;> cases reg <;>
        simp [ht, bind, Except.bind, pure, Except.pure, throw, throwThe, MonadExceptOf.throw, Except.map, Function.comp_def, hunc]
  · intro test
    unfold predictUncertainty
    rw [r1, r2, ← a1, ← b1]
    by_cases ht : test.isEmpty
    · simp [ht, bind, Except.bind, throw, throwThe, MonadExceptOf.throw, Except.map]
    · cases reg <;>
        simp [ht, bind, Except.bind, pure, Except.pure, throw, throwThe, MonadExceptOf.throw, Except.map, Function.comp_def, hunc]

example : ∃ gp : GP 1, init [![1], ![2]] [1, 2] linK (some 1) false true = .ok gp :=
  C113_can_build _ _ linK 1 false true (by simp) rfl (by simp [linK]) linK_packs linK_good (Or.inr one_ne_zero)

end CatLearn.Proc
