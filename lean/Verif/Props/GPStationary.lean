import Verif.Props.GPRelations
import Verif.Props.GPUnits
import Verif.Props.GPLikelihood
import Verif.Props.GPGrad

/-!
# Zero and units of the features without `scale_data` (C247), and units of gradients (C118)
-/

namespace CatLearn.Proc

open CatLearn CatLearn.Kernel CatLearn.Scaling CatLearn.PSD Matrix

/-! ### Models with the same covariance -/

theorem gram_map {N M : ℕ} (φ : (Fin N → ℝ) → Fin M → ℝ) (ks : List (KDict N)) (ks' : List (KDict M)) (log : Bool) (reg : Option ℝ)
    (hcov : ∀ x y s, covEntry ks' log (φ x) (φ y) s = covEntry ks log x y s) (fp : List (Fin N → ℝ)) (fp' : List (Fin M → ℝ))
    (hf : fp' = fp.map φ) (e : Fin fp'.length ≃ Fin fp.length) (he : ∀ i, (e i).1 = i.1) :
    gram ks' log reg fp' = (gram ks log reg fp).submatrix e e := by
  subst hf
  ext i j
  have hg : ∀ i, (fp.map φ).get i = φ (fp.get (e i)) := by
    intro i; simp [he]
  rw [submatrix_apply, gram, gram, covSelf_apply, covSelf_apply, hg, hg, hcov]
  simp only [EmbeddingLike.apply_eq_iff_eq]

theorem normalDensity_cast {n m : ℕ} (h : n = m) (K : Matrix (Fin n) (Fin n) ℝ) (K' : Matrix (Fin m) (Fin m) ℝ)
    (hK : K = K'.submatrix (finCongr h) (finCongr h)) (t : List ℝ) :
    normalDensity K (fun i => t.getD i 0) = normalDensity K' fun i => t.getD i 0 := by
  subst h
  rw [hK]
  rfl

/-- A model on other features, not standardised, for which the covariance is the same. -/
theorem transport_map {N M : ℕ} (φ : (Fin N → ℝ) → Fin M → ℝ) (ks : List (KDict N)) (ks' : List (KDict M)) (log : Bool) (reg : Option ℝ)
    (hcov : ∀ x y s, covEntry ks' log (φ x) (φ y) s = covEntry ks log x y s) (hp : PacksList ks) (hp' : PacksList ks') (hne : ks' ≠ [])
    (fp : List (Fin N → ℝ)) (t : List ℝ) (gp : GP N) (hi : init fp t ks reg log false = .ok gp) :
    ∃ gp', init (fp.map φ) t ks' reg log false = .ok gp' ∧ gp'.lml = gp.lml ∧
      (∀ test u, predict gp' (test.map φ) u = predict gp test u) ∧
      ∀ test, predictUncertainty gp' (test.map φ) = predictUncertainty gp test := by
  obtain ⟨-, hpd⟩ := init_posDef hp hi
  obtain ⟨hc, ⟨hst, hlen, hfp⟩, h1, h2, h3, h4⟩ := C43_init_partial _ _ _ hp _ _ _ gp hi
  have hstored : gp.fp = fp ∧ gp.target = t ∧ gp.nan = false := by
    unfold store at hst
    rw [h4] at hst
    simp only [Bool.false_eq_true, if_false, Except.ok.injEq, Stored.mk.injEq, Option.getD_some, Option.isSome_some, if_true] at hst
    exact ⟨hst.1.symm, hst.2.1.symm, hst.2.2.1.symm⟩
  obtain ⟨g1, g2, g3⟩ := hstored
  let e : Fin (gp.fp.map φ).length ≃ Fin gp.fp.length := finCongr (by simp)
  have hge := gram_map φ ks ks' log reg hcov gp.fp _ rfl e (fun _ => rfl)
  have hpd' : (gram ks' log reg (fp.map φ)).PosDef := by
    rw [← g1, hge]
    exact hpd.submatrix e.injective
  have hstore : store (blank ks' reg log false) (fp.map φ) (some t) = .ok ⟨fp.map φ, t, false, none⟩ := by
    simp [store, blank]
  obtain ⟨l, hb⟩ := updateData_of (blank ks' reg log false) (fp.map φ) t log _ (by simpa using hfp) (by simpa using hlen) hstore hp' hne
    hpd'.det_pos.ne'.isUnit hpd'
  obtain ⟨gp', hi', f1, f2, f3⟩ : ∃ gp', init (fp.map φ) t ks' reg log false = .ok gp' ∧
      gp'.fp = gp.fp.map φ ∧ gp'.target = gp.target ∧ gp'.nan = gp.nan := by
    refine ⟨_, Eq.trans ?_ hb, by rw [g1], g2.symm, g3.symm⟩
    unfold init
    simp [hlen, bind, Except.bind, pure, Except.pure]
  obtain ⟨hc', hh', h1', h2', h3', h4'⟩ := C43_init_partial _ _ _ hp' _ _ _ _ hi'
  have hlf : gp'.fp.length = gp.fp.length := by rw [f1]; simp
  have key : ∀ x, (kvec ks' log (φ x) gp'.fp.get) = (kvec ks log x gp.fp.get) ∘ finCongr hlf := by
    intro x
    funext i
    have : gp'.fp.get i = φ (gp.fp.get (finCongr hlf i)) := by
      simp only [f1, List.get_eq_getElem, List.getElem_map]
      rfl
    simp only [kvec, Function.comp_apply, this, hcov]
  have hg2 : gram ks' log reg gp'.fp = (gram ks log reg gp.fp).submatrix (finCongr hlf) (finCongr hlf) :=
    gram_map φ ks ks' log reg hcov gp.fp gp'.fp f1 _ (fun _ => rfl)
  have hy : (fun i : Fin gp'.fp.length => gp'.target.get (i.cast hc'.2.2.1.symm)) =
      (fun i : Fin gp.fp.length => gp.target.get (i.cast hc.2.2.1.symm)) ∘ finCongr hlf := by
    funext i
    simp only [f2, List.get_eq_getElem, Function.comp_apply]
    rfl
  have hm : ∀ x, gp'.mean (φ x) = gp.mean x := by
    intro x
    unfold GP.mean
    rw [hc.mean_eq, hc'.mean_eq, f3]
    split
    · rfl
    · congr 1
      simp only [GP.rescale, h4, h4', Bool.false_eq_true, if_false, h1, h2, h3, h1', h2', h3']
      rw [key, hg2, hy, postMean_reindex]
  have hv : ∀ x, gp'.var (φ x) = gp.var x := by
    intro x
    rw [hc.var_eq, hc'.var_eq]
    simp only [h1, h2, h3, h1', h2', h3']
    rw [key, hg2, postVar_reindex, hcov]
  have hts : gp'.tstd = gp.tstd := by simp [GP.tstd, h4, h4']
  have hunc : ∀ r x, gp'.unc r (φ x) = gp.unc r x := by
    intro r x; unfold GP.unc; rw [hv, hts]
  have a1 : gp'.cinv.1 = gp'.fp.length := by rw [hc'.2.1]
  have a2 : gp'.cinv.1 = gp'.target.length := by rw [hc'.2.1, hc'.2.2.1]
  have b1 : gp.cinv.1 = gp.fp.length := by rw [hc.2.1]
  have b2 : gp.cinv.1 = gp.target.length := by rw [hc.2.1, hc.2.2.1]
  have e3 : ∀ (r : ℝ) (l : List (Fin N → ℝ)), (l.map φ).map (gp'.unc r) = l.map (gp.unc r) := fun r l => by
    rw [List.map_map]; exact List.map_congr_left fun x _ => hunc r x
  refine ⟨gp', hi', ?_, ?_, ?_⟩
  · rw [C114_density _ _ _ hp _ _ _ hi, C114_density _ _ _ hp' _ _ _ hi']
    have hl2 : (fp.map φ).length = fp.length := by simp
    have : covSelf ks' log reg (fp.map φ).get = (covSelf ks log reg fp.get).submatrix (finCongr hl2) (finCongr hl2) :=
      gram_map φ ks ks' log reg hcov fp _ rfl _ (fun _ => rfl)
    rw [normalDensity_cast hl2 _ _ this t]
  · intro test u
    have e1 : ∀ x, gp'.scaleRow x = x := fun x => by simp [GP.scaleRow, h4']
    have e1' : ∀ x, gp.scaleRow x = x := fun x => by simp [GP.scaleRow, h4]
    have e2 : ∀ l : List (Fin N → ℝ), (l.map φ).map gp'.mean = l.map gp.mean := fun l => by
      rw [List.map_map]; exact List.map_congr_left fun x _ => hm x
    have e4 : ∀ l : List (Fin M → ℝ), l.map gp'.scaleRow = l := fun l => by rw [show gp'.scaleRow = id from funext e1, List.map_id]
    have e5 : ∀ l : List (Fin N → ℝ), l.map gp.scaleRow = l := fun l => by rw [show gp.scaleRow = id from funext e1', List.map_id]
    unfold predict
    simp only [e2, e3, e4, e5, ← a1, ← a2, ← b1, ← b2, h2, h2', bind, Except.bind, pure, Except.pure, ne_eq,
      not_true_eq_false, if_false, List.isEmpty_map]
  · intro test
    unfold predictUncertainty
    simp only [e3, ← a1, ← b1, h2, h2', bind, Except.bind, pure, Except.pure, ne_eq, not_true_eq_false, if_false, List.isEmpty_map]

/-! ### Kernels of differences -/

/-- Two kernel dictionaries of which the second measures the feature `j` in units `b j` times as small: same type, features, scaling and
operation, and widths `b j` times as large (`b j ^ 2` for `sqe`, whose widths are those of squares).  The linear kernel is not among them. -/
def Rescaled {N : ℕ} (b : Fin N → ℝ) (log : Bool) (k k' : KDict N) : Prop :=
  k'.features = k.features ∧ k'.scaling = k.scaling ∧ k'.mult = k.mult ∧
  match k.ktype, k'.ktype with
  | .gaussian w, .gaussian w' => ∀ c ∈ (columns k).zipIdx, unlog log (pick w' c.2) = b c.1 * unlog log (pick w c.2)
  | .laplacian w, .laplacian w' => ∀ c ∈ (columns k).zipIdx, unlog log (pick w' c.2) = b c.1 * unlog log (pick w c.2)
  | .sqe w, .sqe w' => ∀ c ∈ (columns k).zipIdx, unlog log (pick w' c.2) = b c.1 ^ 2 * unlog log (pick w c.2)
  | .quadratic s d _, .quadratic s' d' _ => (s' = s ∧ d' = d ∧ ∀ j ∈ columns k, b j = 1) ∨
      (∃ s1 s1', s = [s1] ∧ s' = [s1'] ∧ d' = d ∧ ∀ j ∈ columns k, unlog log s1' = b j * unlog log s1)
  | .constant c, .constant c' => c' = c
  | .noiseMulti h, .noiseMulti h' => h' = h
  | _, _ => False

theorem colSum_congr {N : ℕ} (l : List (Fin N)) (x y x' y' : Fin N → ℝ) (f f' : ℕ → ℝ → ℝ → ℝ)
    (h : ∀ c ∈ l.zipIdx, f' c.2 (x' c.1) (y' c.1) = f c.2 (x c.1) (y c.1)) : colSum l x' y' f' = colSum l x y f :=
  congrArg List.sum (List.map_congr_left h)

theorem mem_cols {N : ℕ} {l : List (Fin N)} {c : Fin N × ℕ} (h : c ∈ l.zipIdx) : c.1 ∈ l := by
  have := List.mem_map_of_mem (f := Prod.fst) h
  rwa [List.zipIdx_map_fst] at this

theorem entry_rescaled {N : ℕ} (b v : Fin N → ℝ) (hb : ∀ j, b j ≠ 0) (log : Bool) (k k' : KDict N) (h : Rescaled b log k k')
    (x y : Fin N → ℝ) (s : Bool) :
    entry k'.ktype (columns k') log (units b v x) (units b v y) s = entry k.ktype (columns k) log x y s := by
  obtain ⟨hf, -, -, h⟩ := h
  have hcol : columns k' = columns k := by unfold columns; rw [hf]
  have hd : ∀ j w, (units b v x j) / (b j * w) - (units b v y j) / (b j * w) = x j / w - y j / w := by
    intro j w
    unfold units
    rw [← sub_div, ← sub_div, add_sub_add_right_eq_sub, ← mul_sub, mul_div_mul_left _ _ (hb j)]
  rw [hcol]
  split at h
  · next w w' e e' =>
    rw [e, e']
    simp only [entry]
    rw [colSum_congr]
    intro c hc
    rw [h c hc, hd]
  · next w w' e e' =>
    rw [e, e']
    simp only [entry]
    rw [colSum_congr]
    intro c hc
    rw [h c hc, hd]
  · next w w' e e' =>
    rw [e, e']
    simp only [entry]
    rw [colSum_congr]
    intro c hc
    rw [h c hc]
    unfold units
    rw [add_sub_add_right_eq_sub, ← mul_sub, mul_pow, mul_div_mul_left _ _ (pow_ne_zero 2 (hb _))]
  · next s d bx s' d' bx' e e' =>
    rw [e, e']
    rcases h with ⟨rfl, rfl, h⟩ | ⟨s1, s1', rfl, rfl, rfl, h⟩
    · simp only [entry]
      rw [colSum_congr]
      intro c hc
      simp only [units, h c.1 (mem_cols hc), one_mul]
      ring
    · simp only [entry, List.cons_append, List.nil_append, List.getD_cons_zero, List.getD_cons_succ]
      rw [colSum_congr]
      intro c hc
      rw [← sub_mul, ← sub_mul, h c.1 (mem_cols hc), hd]
  · next c c' e e' => rw [e, e', h]; rfl
  · next c c' e e' => rw [e, e', h]; rfl
  · exact h.elim

theorem covEntry_rescaled {N : ℕ} (b v : Fin N → ℝ) (hb : ∀ j, b j ≠ 0) (log : Bool) (ks ks' : List (KDict N))
    (h : List.Forall₂ (Rescaled b log) ks ks') (x y : Fin N → ℝ) (s : Bool) :
    covEntry ks' log (units b v x) (units b v y) s = covEntry ks log x y s := by
  unfold covEntry
  generalize (0 : ℝ) = acc
  induction h generalizing acc with
  | nil => rfl
  | @cons k k' _ _ hk _ ih =>
    have hs : scaleFactor k' log = scaleFactor k log := by unfold scaleFactor; rw [hk.2.1]
    simp only [List.foldl_cons, entry_rescaled b v hb log _ _ hk, hs, hk.2.2.1]
    exact ih _

/-- C247: a Gaussian process whose kernels depend on differences of features predicts the same, with the same uncertainties and the same
likelihood, if features are given with another zero and in other units, and the widths in these units, without standardisation. -/
theorem C247_units {N : ℕ} (b v : Fin N → ℝ) (hb : ∀ j, b j ≠ 0) (ks ks' : List (KDict N)) (log : Bool)
    (h : List.Forall₂ (Rescaled b log) ks ks') (hp : PacksList ks) (hp' : PacksList ks') (reg : Option ℝ) (fp : List (Fin N → ℝ))
    (t : List ℝ) (gp : GP N) (hi : init fp t ks reg log false = .ok gp) :
    ∃ gp', init (fp.map fun x j => b j * x j + v j) t ks' reg log false = .ok gp' ∧ gp'.lml = gp.lml ∧
      (∀ test u, predict gp' (test.map fun x j => b j * x j + v j) u = predict gp test u) ∧
      ∀ test, predictUncertainty gp' (test.map fun x j => b j * x j + v j) = predictUncertainty gp test := by
  have hne : ks' ≠ [] := by
    obtain ⟨h0, -⟩ := init_posDef hp hi
    rintro rfl
    cases h
    exact h0 rfl
  exact transport_map (units b v) ks ks' log reg (covEntry_rescaled b v hb log ks ks' h) hp hp' hne fp t gp hi

/-- The kernel is not the linear one. -/
def Differences {N : ℕ} (k : KDict N) : Prop :=
  match k.ktype with
  | .linear => False
  | _ => True

/-- C247: the zero of the features does not matter unless there is a linear kernel; the kernels stay as they are. -/
theorem C247_shift {N : ℕ} (v : Fin N → ℝ) (ks : List (KDict N)) (hk : ∀ k ∈ ks, Differences k) (hp : PacksList ks) (log : Bool)
    (reg : Option ℝ) (fp : List (Fin N → ℝ)) (t : List ℝ) (gp : GP N) (hi : init fp t ks reg log false = .ok gp) :
    ∃ gp', init (fp.map fun x j => x j + v j) t ks reg log false = .ok gp' ∧ gp'.lml = gp.lml ∧
      (∀ test u, predict gp' (test.map fun x j => x j + v j) u = predict gp test u) ∧
      ∀ test, predictUncertainty gp' (test.map fun x j => x j + v j) = predictUncertainty gp test := by
  have h : List.Forall₂ (Rescaled (fun _ => 1) log) ks ks := by
    rw [List.forall₂_same]
    intro k hk'
    have := hk k hk'
    refine ⟨rfl, rfl, rfl, ?_⟩
    unfold Differences at this
    cases e : k.ktype <;> simp_all
  simpa only [one_mul] using C247_units (fun _ => 1) v (fun _ => one_ne_zero) ks ks log h hp hp reg fp t gp hi

/-- C247 concerns kernels of differences only: with the linear kernel the zero of the features matters. -/
theorem C247_linear_differs : ∃ x y v : Fin 1 → ℝ, covEntry [⟨.linear, none, none, false⟩] false (x + v) (y + v) false ≠
    covEntry [⟨.linear, none, none, false⟩] false x y false := by
  refine ⟨0, 0, 1, ?_⟩
  simp [covEntry, scaleFactor, entry, columns, colSum, unlog, List.finRange_succ]

/-- Widths in other units, on a linear and on a logarithmic scale. -/
example : List.Forall₂ (Rescaled (![2, 3] : Fin 2 → ℝ) false)
    [⟨.gaussian [1, 5], none, some 2, false⟩, ⟨.sqe [7], some [1], none, true⟩]
    [⟨.gaussian [2, 15], none, some 2, false⟩, ⟨.sqe [63], some [1], none, true⟩] := by
  refine .cons ⟨rfl, rfl, rfl, ?_⟩ (.cons ⟨rfl, rfl, rfl, ?_⟩ .nil)
  · simp [columns, List.finRange_succ, pick, unlog]; norm_num
  · simp [columns, pick, unlog]; norm_num

example (w : ℝ) : Rescaled (fun _ : Fin 2 => 2) true ⟨.laplacian [w], none, none, false⟩ ⟨.laplacian [w + Real.log 2], none, none, false⟩ := by
  refine ⟨rfl, rfl, rfl, ?_⟩
  intro c _
  simp [pick, unlog, Real.exp_add, Real.exp_log]
  ring

example : ∃ gp : GP 1, init [![1], ![2]] [1, 2] [⟨.gaussian [1], none, none, false⟩] (some 1) false false = .ok gp :=
  C113_can_build _ _ _ 1 false false (by simp) rfl (by simp) (by simp [PacksList])
    (by simp [GoodKernel, GoodWidths, columns, unlog]) (Or.inr one_ne_zero)

end CatLearn.Proc

namespace CatLearn.GradProc

open CatLearn CatLearn.Kernel CatLearn.Scaling CatLearn.Proc Matrix

/-! ### Training with gradients -/

theorem foldl_congr {α β : Type} (f g : β → α → β) (l : List α) (h : ∀ a ∈ l, ∀ c, f c a = g c a) (c : β) : l.foldl f c = l.foldl g c := by
  induction l generalizing c with
  | nil => rfl
  | cons a l ih =>
    simp only [List.foldl_cons]
    rw [h a (by simp), ih fun a ha => h a (by simp [ha])]

/-- The kernel is not the linear one. -/
def Differences {N : ℕ} (k : GDict N) : Prop :=
  match k.gtype with
  | .linear => False
  | _ => True

theorem gauss_shift {N : ℕ} (w v x y : Fin N → ℝ) : gauss w (x + v) (y + v) = gauss w x y := by
  unfold gauss
  congr 2
  refine Finset.sum_congr rfl fun a _ => ?_
  simp only [Pi.add_apply]
  ring

theorem gMatrix_shift {N : ℕ} {n : Type} [DecidableEq n] (k : GDict N) (hk : Differences k) (v : Fin N → ℝ) (X : n → Fin N → ℝ) :
    gMatrix k.gtype (fun i => X i + v) = gMatrix k.gtype X := by
  unfold Differences at hk
  cases hg : k.gtype with
  | linear => simp [hg] at hk
  | gaussian w => simp only [gMatrix, gaussXX, gauss_shift, Pi.add_apply, add_sub_add_right_eq_sub]
  | _ => rfl

theorem covGrad_shift {N : ℕ} {n : Type} [DecidableEq n] (ks : List (GDict N)) (hk : ∀ k ∈ ks, Differences k) (reg : Option ℝ)
    (v : Fin N → ℝ) (X : n → Fin N → ℝ) : covGrad ks reg (fun i => X i + v) = covGrad ks reg X := by
  unfold covGrad
  congr 1
  exact foldl_congr _ _ ks (fun k h c => by rw [gMatrix_shift k (hk k h)]) 0

theorem covRow_shift {N n : ℕ} (ks : List (GDict N)) (hk : ∀ k ∈ ks, Differences k) (v x : Fin N → ℝ) (X : Fin n → Fin N → ℝ) :
    covRow ks (x + v) (fun i => X i + v) = covRow ks x X := by
  unfold covRow
  refine foldl_congr _ _ ks (fun k h c => ?_) 0
  have : gRow k.gtype (x + v) (fun i => X i + v) = gRow k.gtype x X := by
    have hd := hk k h
    unfold Differences at hd
    cases hg : k.gtype with
    | linear => simp [hg] at hd
    | gaussian w =>
      funext p
      rcases p with j | ⟨j, a⟩ <;> simp only [gRow, gaussXXp, gauss_shift, Pi.add_apply, add_sub_add_right_eq_sub]
    | _ => rfl
  rw [this]

theorem kxx_shift {N : ℕ} (ks : List (GDict N)) (hk : ∀ k ∈ ks, Differences k) (v x : Fin N → ℝ) : kxx ks (x + v) = kxx ks x := by
  unfold kxx
  generalize (0 : ℝ) = c
  induction ks generalizing c with
  | nil => rfl
  | cons k ks ih =>
    have : gDiag k.gtype (x + v) = gDiag k.gtype x := by
      have hd := hk k (by simp)
      unfold Differences at hd
      cases hg : k.gtype with
      | linear => simp [hg] at hd
      | gaussian w => simp only [gDiag, gauss_shift]
      | _ => rfl
    simp only [List.foldlM_cons, this]
    cases gDiag k.gtype x with
    | error e => rfl
    | ok q => exact ih (fun k h => hk k (by simp [h])) _

/-- The model with another zero of the features. -/
def GradGP.shift {N : ℕ} (v : Fin N → ℝ) (gp : GradGP N) : GradGP N := { gp with fp := gp.fp.map (· + v) }

theorem cov_list {N : ℕ} (ks : List (GDict N)) (hk : ∀ k ∈ ks, Differences k) (reg : Option ℝ) (v : Fin N → ℝ) {n m : ℕ} (h : n = m)
    (X : Fin n → Fin N → ℝ) (Y : Fin m → Fin N → ℝ) (hX : ∀ i, X i = Y (i.cast h) + v) :
    (IsUnit (covGrad ks reg X).det ↔ IsUnit (covGrad ks reg Y).det) ∧ ((covGrad ks reg X).PosDef ↔ (covGrad ks reg Y).PosDef) ∧
      (⟨n, (covGrad ks reg X)⁻¹⟩ : Σ n : ℕ, Matrix (Ix n N) (Ix n N) ℝ) = ⟨m, (covGrad ks reg Y)⁻¹⟩ := by
  subst h
  have : X = fun i => Y i + v := funext hX
  rw [this, covGrad_shift ks hk]
  exact ⟨Iff.rfl, Iff.rfl, rfl⟩

open Classical in
theorem finish_eq {N : ℕ} (gp : GradGP N) (l : Bool) (P Q : Prop) (c : Σ n : ℕ, Matrix (Ix n N) (Ix n N) ℝ)
    (hP : IsUnit (covGrad gp.kernels gp.reg gp.fp.get).det ↔ P) (hQ : (covGrad gp.kernels gp.reg gp.fp.get).PosDef ↔ Q)
    (hc : (⟨gp.fp.length, (covGrad gp.kernels gp.reg gp.fp.get)⁻¹⟩ : Σ n : ℕ, Matrix (Ix n N) (Ix n N) ℝ) = c) :
    finish gp l =
      if gp.kernels.isEmpty then
        match gp.reg with
        | none => .error .linalg
        | some _ => .error .type
      else if ¬ P then .error .linalg
      else if ¬ l then .ok { gp with cinv := c }
      else if ¬ lastOnly gp.kernels then .error .other
      else if ¬ Q then .error .linalg
      else if gp.target.length ≠ c.1 + c.1 * N then .error .value
      else .ok { gp with cinv := c } := by
  obtain rfl := propext hP
  obtain rfl := propext hQ
  subst hc
  rfl

theorem finish_shift {N : ℕ} (gp : GradGP N) (hk : ∀ k ∈ gp.kernels, Differences k) (v : Fin N → ℝ) (l : Bool) :
    finish (gp.shift v) l = (finish gp l).map (GradGP.shift v) := by
  have hl : (gp.shift v).fp.length = gp.fp.length := by simp [GradGP.shift]
  obtain ⟨h1, h2, h3⟩ := cov_list gp.kernels hk gp.reg v hl (gp.shift v).fp.get gp.fp.get (fun i => List.getElem_map _)
  rw [finish_eq (gp.shift v) l _ _ _ h1 h2 h3, finish_eq gp l _ _ _ Iff.rfl Iff.rfl rfl]
  have e1 : (gp.shift v).kernels = gp.kernels := rfl
  have e2 : (gp.shift v).reg = gp.reg := rfl
  have e3 : (gp.shift v).target = gp.target := rfl
  simp only [e1, e2, e3]
  repeat' (first | rfl | split)

theorem predict_shift {N : ℕ} (gp : GradGP N) (hk : ∀ k ∈ gp.kernels, Differences k) (hsd : gp.scaleData = false)
    (hc : gp.cinv.1 = gp.fp.length) (v x : Fin N → ℝ) :
    predict (gp.shift v) (x + v) = predict gp x ∧ uncertainty (gp.shift v) (x + v) = uncertainty gp x := by
  have e1 : ∀ x, gp.scaleRow x = x := fun x => by unfold GradGP.scaleRow; rw [hsd]; cases gp.scaling <;> rfl
  have e2 : ∀ x, (gp.shift v).scaleRow x = x := fun x => e1 x
  have e3 : ∀ p, (gp.shift v).rescale p = gp.rescale p := fun p => rfl
  have hX : (fun i : Fin gp.cinv.1 => (gp.fp.map (· + v)).getD i 0) = fun i : Fin gp.cinv.1 => gp.fp.getD i 0 + v := by
    funext i
    have : i.1 < gp.fp.length := by rw [← hc]; exact i.2
    simp [List.getD_eq_getElem?_getD, this]
  have hp : predict (gp.shift v) (x + v) = predict gp x := by
    unfold predict
    simp only [e1, e2, e3]
    simp only [GradGP.shift, hX, covRow_shift gp.kernels hk, List.length_map]
    rfl
  refine ⟨hp, ?_⟩
  have hvar : variance (gp.shift v) (x + v) = variance gp x := by
    unfold variance
    simp only [GradGP.shift, hX, covRow_shift gp.kernels hk, kxx_shift gp.kernels hk]
    rfl
  unfold uncertainty
  rw [hp, e1, e2, hvar]
  rfl

/-- C247: the zero of the features does not matter to a model trained on values and gradients either, unless there is a linear kernel:
it can be made or not, and predictions, uncertainties and errors are the same. -/
theorem C247_gradients {N : ℕ} (v : Fin N → ℝ) (ks : List (GDict N)) (hk : ∀ k ∈ ks, Differences k) (reg : Option ℝ)
    (fp : List (Fin N → ℝ)) (t : List ℝ) (grad : List (Fin N → ℝ)) :
    (∀ e, init fp t grad ks reg false = .error e → init (fp.map (· + v)) t grad ks reg false = .error e) ∧
    ∀ gp, init fp t grad ks reg false = .ok gp → ∃ gp', init (fp.map (· + v)) t grad ks reg false = .ok gp' ∧
      ∀ x, predict gp' (x + v) = predict gp x ∧ uncertainty gp' (x + v) = uncertainty gp x := by
  have h0 : init (fp.map (· + v)) t grad ks reg false = (init fp t grad ks reg false).map (GradGP.shift v) := by
    unfold init update
    simp only [List.length_map, List.isEmpty_map]
    split
    · rfl
    · split
      · rfl
      · exact finish_shift ⟨ks, reg, false, fp, t ++ flat grad, false, none, ⟨0, 1⟩⟩ hk v true
  refine ⟨fun e he => by rw [h0, he]; rfl, fun gp hg => ⟨gp.shift v, by rw [h0, hg]; rfl, fun x => ?_⟩⟩
  unfold init update at hg
  split at hg
  · cases hg
  split at hg
  · cases hg
  obtain ⟨-, -, rfl, -, -⟩ := finish_ok hg
  exact predict_shift _ hk rfl rfl v x

/-! ### Units of gradients (C118) -/

/-- The model in other units. -/
def GradGP.units {N : ℕ} (a b : Fin N → ℝ) (c d : ℝ) (gp : GradGP N) : GradGP N := { gp with scaling := gp.scaling.map (Scal.units a b c d) }

theorem finish_units {N : ℕ} (gp : GradGP N) (a b : Fin N → ℝ) (c d : ℝ) (l : Bool) :
    finish (gp.units a b c d) l = (finish gp l).map (GradGP.units a b c d) := by
  rw [finish_eq (gp.units a b c d) l _ _ _ Iff.rfl Iff.rfl rfl, finish_eq gp l _ _ _ Iff.rfl Iff.rfl rfl]
  simp only [apply_ite (Except.map (GradGP.units a b c d))]
  have e : ∀ (r : Option ℝ), (match r with | none => Except.error PyErr.linalg | some _ => Except.error PyErr.type) =
      Except.map (GradGP.units a b c d) (match r with | none => Except.error PyErr.linalg | some _ => Except.error PyErr.type) := by
    intro r; cases r <;> rfl
  rw [← e]
  rfl

/-- C118 (`_partial`: if no feature is constant in the training data): a model made with gradients and `scale_data=True` does not depend on
the units of features and targets: with gradients in the units that belong to them, it can be made or not, predictions are those of the first
model in the new units and uncertainties as well. -/
theorem C118_gradients_partial {N : ℕ} (fp : List (Fin N → ℝ)) (t : List ℝ) (grad : List (Fin N → ℝ)) (ks : List (GDict N)) (reg : Option ℝ)
    (hv : Varied fp t) (a b : Fin N → ℝ) (ha : ∀ i, 0 < a i) (c d : ℝ) (hc : 0 < c) :
    (∀ e, init fp t grad ks reg true = .error e →
      init (fp.map fun x i => a i * x i + b i) (t.map fun y => c * y + d) (grad.map fun g i => c / a i * g i) ks reg true = .error e) ∧
    ∀ gp, init fp t grad ks reg true = .ok gp →
      ∃ gp', init (fp.map fun x i => a i * x i + b i) (t.map fun y => c * y + d) (grad.map fun g i => c / a i * g i) ks reg true = .ok gp' ∧
        ∀ x, predict gp' (fun i => a i * x i + b i) = (predict gp x).map (Option.map fun y => c * y + d) ∧
          uncertainty gp' (fun i => a i * x i + b i) = (uncertainty gp x).map (Option.map (c * ·)) := by
  have h0 : init (fp.map (Proc.units a b)) (t.map fun y => c * y + d) (grad.map fun g i => c / a i * g i) ks reg true =
      (init fp t grad ks reg true).map (GradGP.units a b c d) := by
    unfold init update
    simp only [List.length_map, List.isEmpty_map]
    split
    · rfl
    · split
      · rfl
      · next hfp =>
        have hfp : fp ≠ [] := by simpa using hfp
        have hs := scalOf_units fp t hv hfp a b ha c d hc
        simp only [if_true, hs]
        rw [← finish_units]
        congr 1
        simp only [GradGP.units, GradGP.mk.injEq, true_and, Option.map_some, and_true]
        have e1 : (fp.map (Proc.units a b)).map ((scalOf fp t).units a b c d).row = fp.map (scalOf fp t).row := by
          rw [List.map_map]
          exact List.map_congr_left fun x _ => row_units _ a b ha c d x
        have e2 : (t.map fun y => c * y + d).map ((scalOf fp t).units a b c d).tgt = t.map (scalOf fp t).tgt := by
          rw [List.map_map]
          exact List.map_congr_left fun x _ => tgt_units _ a b c d hc x
        have e3 : (grad.map fun g i => c / a i * g i).map (scaleGrad ((scalOf fp t).units a b c d)) = grad.map (scaleGrad (scalOf fp t)) := by
          rw [List.map_map]
          refine List.map_congr_left fun x _ => ?_
          funext i
          simp only [Function.comp_apply, scaleGrad, Scal.units]
          have hai := (ha i).ne'
          rw [mul_div_mul_comm, mul_div_mul_left]
          exact div_ne_zero hc.ne' hai
        refine ⟨e1, by rw [e2, e3], ?_⟩
        simp [Scal.units, hc.ne']
  refine ⟨fun e he => ?_, fun gp hg => ⟨gp.units a b c d, ?_, fun x => ?_⟩⟩
  · have := h0
    rw [he] at this
    exact this
  · have := h0
    rw [hg] at this
    exact this
  · obtain ⟨s, hs, hsd, htn⟩ : ∃ s, gp.scaling = some s ∧ gp.scaleData = true ∧ 0 ≤ s.tstd := by
      unfold init update at hg
      split at hg
      · cases hg
      split at hg
      · cases hg
      simp only [if_true] at hg
      obtain ⟨-, -, rfl, -, -⟩ := finish_ok hg
      exact ⟨_, rfl, rfl, Real.sqrt_nonneg _⟩
    have e1 : (gp.units a b c d).scaleRow (fun i => a i * x i + b i) = gp.scaleRow x := by
      simp only [GradGP.scaleRow, GradGP.units, hs, hsd, Option.map_some, if_true]
      exact row_units s a b ha c d x
    have e2 : ∀ p, (gp.units a b c d).rescale p = c * gp.rescale p + d := by
      intro p
      simp only [GradGP.rescale, GradGP.units, hs, hsd, Option.map_some, if_true, Scal.untgt, Scal.units]
      ring
    have e3 : (gp.units a b c d).tstd = c * gp.tstd := by
      simp [GradGP.tstd, GradGP.units, hs, hsd, Scal.units]
    have hp : predict (gp.units a b c d) (fun i => a i * x i + b i) = (predict gp x).map (Option.map fun y => c * y + d) := by
      unfold predict
      simp only [e1, e2]
      simp only [apply_ite (Except.map (Option.map fun y => c * y + d))]
      rfl
    refine ⟨hp, ?_⟩
    unfold uncertainty
    rw [hp, e1, e3]
    cases predict gp x with
    | error e => rfl
    | ok p =>
      have hvar : variance (gp.units a b c d) (gp.scaleRow x) = variance gp (gp.scaleRow x) := rfl
      simp only [Except.map, hvar]
      cases variance gp (gp.scaleRow x) with
      | error e => rfl
      | ok q =>
        have : (gp.units a b c d).reg = gp.reg := rfl
        rw [this]
        cases gp.reg with
        | none => rfl
        | some r =>
          simp only [Except.ok.injEq, Option.map_map]
          cases npSqrt q <;> simp; ring

example : Varied [![1, 2], ![3, 5]] [1, 2] := by
  refine ⟨fun i => ?_, by simp⟩
  refine ⟨![1, 2], by simp, ![3, 5], by simp, ?_⟩
  fin_cases i <;> simp

end CatLearn.GradProc
