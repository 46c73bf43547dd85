import Verif.Model.ModelFiles
import Verif.Lemmas.Py
import Verif.Props.GPPredict
import Verif.Props.GPBuild

/-!
# Scaling of kernels and targets (C50), model files (C51, C126)
-/

namespace CatLearn.Proc

open CatLearn CatLearn.Kernel CatLearn.Scaling Matrix

/-- C50 (`_partial`: targets that are not all equal): rescaling inverts the scaling of targets. -/
theorem C50_targets_partial (ts : List ℝ) (t : ℝ) (h : tStd ts.get ≠ 0) : rescaled ts (scaledTarget ts t) = some t := by
  unfold rescaled scaledTarget npDiv
  rw [if_neg h]
  simp
  field_simp
  ring

/-- C50 (`_partial`: targets that are not all equal): the same for the scaling a model keeps. -/
theorem C50_model_targets_partial {N : Nat} (fp : List (Fin N → ℝ)) (t : List ℝ) (h : (scalOf fp t).tstd ≠ 0) (y : ℝ) :
    (scalOf fp t).untgt ((scalOf fp t).tgt y) = y ∧ (scalOf fp t).tgt ((scalOf fp t).untgt y) = y := by
  unfold Scal.untgt Scal.tgt
  constructor
  · rw [div_mul_cancel₀ _ h, sub_add_cancel]
  · rw [add_sub_cancel_right, mul_div_cancel_right₀ _ h]

/-- C50 fails for equal targets: the scaled targets are nan, and so is what they are rescaled to. -/
theorem C50_constant_violated (n : Nat) (c t : ℝ) :
    scaledTarget (List.replicate (n + 1) c) t = none ∧ rescaled (List.replicate (n + 1) c) (scaledTarget (List.replicate (n + 1) c) t) = none := by
  have hm : tMean (List.replicate (n + 1) c).get = c := by
    unfold tMean colMean
    simp
    field_simp
  have hs : tStd (List.replicate (n + 1) c).get = 0 := by
    unfold tStd colStd
    unfold tMean at hm
    rw [hm]
    simp
  have : scaledTarget (List.replicate (n + 1) c) t = none := by
    unfold scaledTarget npDiv
    rw [if_pos hs]
  exact ⟨this, by rw [this]; rfl⟩

/-- The standard deviations of features that are kept are never zero. -/
theorem C50_no_zero_std {N : Nat} (fp : List (Fin N → ℝ)) (t : List ℝ) (a : Fin N) : (scalOf fp t).fstd a ≠ 0 := by
  simp only [scalOf, placeOnes]
  split
  · exact one_ne_zero
  · assumption

theorem pick_ne {s : List ℝ} (hs : ∀ x ∈ s, x ≠ 0) (n : Nat) (h : s.length = n ∨ s.length = 1) {i : Nat} (hi : i < n) :
    pick s i ≠ 0 := by
  unfold pick
  split
  · next h1 => rw [List.getD_eq_getElem _ _ (by omega)]; exact hs _ (List.getElem_mem _)
  · next h1 => rw [List.getD_eq_getElem _ _ (by omega)]; exact hs _ (List.getElem_mem _)

theorem scaleKernel_round {N : Nat} {std : Fin N → ℝ} (hs : ∀ a, std a ≠ 0) (b : Bool) {k k' : KDict N × Bool}
    (h : scaleKernel std b k = .ok k') : scaleKernel std (!b) k' = .ok k := by
  obtain ⟨⟨kt, fe, sc, mu⟩, si⟩ := k
  unfold scaleKernel at h
  cases si
  · cases kt with
    | gaussian w =>
      simp only [Bool.false_eq_true, if_false] at h
      split at h
      · next hl =>
        simp at h
        subst h
        unfold scaleKernel
        have hl' := hl
        simp only [List.length_map] at hl'
        have hc : ∀ w' : List ℝ, columns (N := N) ⟨.gaussian w', fe, sc, mu⟩ = columns (N := N) ⟨.gaussian w, fe, sc, mu⟩ := fun _ => rfl
        simp only [Bool.false_eq_true, if_false, hc, List.length_map, List.length_zipIdx, hl', if_true]
        congr 4
        apply List.ext_getElem
        · simp
        · intro i h1 h2
          have hp := pick_ne (s := (columns (N := N) ⟨.gaussian w, fe, sc, mu⟩).map std) (by simp [hs]) w.length hl h2
          cases b <;> simp <;> field_simp
      · simp at h
    | _ => simp at h <;> subst h <;> simp [scaleKernel]
  · simp at h
    subst h
    simp [scaleKernel]

/-- C50: scaling the hyperparameters and scaling them back, in either order, gives back the kernels. -/
theorem C50_round_trip {N : Nat} (fp : List (Fin N → ℝ)) (t : List ℝ) (ks ks' : List (KDict N × Bool)) (b : Bool)
    (h : kernelScaling (scalOf fp t) ks b = .ok ks') : kernelScaling (scalOf fp t) ks' (!b) = .ok ks := by
  unfold kernelScaling at h ⊢
  have hs := C50_no_zero_std fp t
  generalize (scalOf fp t).fstd = std at h hs ⊢
  induction ks generalizing ks' with
  | nil =>
    simp [pure, Except.pure] at h
    subst h
    rfl
  | cons k ks ih =>
    simp only [List.mapM_cons, bind, Except.bind, pure, Except.pure] at h
    cases h1 : scaleKernel std b k with
    | error e => rw [h1] at h; simp at h
    | ok k1 =>
      cases h2 : ks.mapM (scaleKernel std b) with
      | error e => rw [h1, h2] at h; simp at h
      | ok ks1 =>
        rw [h1, h2] at h
        simp at h
        subst h
        simp only [List.mapM_cons, scaleKernel_round hs b h1, ih ks1 h2, bind, Except.bind, pure, Except.pure]

/-- A kernel on which scaled hyperparameters do for scaled features what the original ones do for the original
features. -/
def Rescalable {N : Nat} (k : KDict N × Bool) : Prop :=
  match k.1.ktype with
  | .gaussian w => k.2 = false ∧ w.length = (columns k.1).length
  | .constant _ => True
  | _ => False

theorem entry_scaled {N : Nat} (s : Scal N) (hs : ∀ a, s.fstd a ≠ 0) (k k' : KDict N × Bool) (hk : Rescalable k)
    (h : scaleKernel s.fstd false k = .ok k') (x y : Fin N → ℝ) (b : Bool) :
    entry k'.1.ktype (columns k'.1) false (s.row x) (s.row y) b = entry k.1.ktype (columns k.1) false x y b ∧
      k'.1.scaling = k.1.scaling ∧ k'.1.mult = k.1.mult := by
  obtain ⟨⟨kt, fe, sc, mu⟩, si⟩ := k
  cases kt with
  | gaussian w =>
    obtain ⟨h1, h2⟩ := hk
    simp only at h1 h2
    subst h1
    unfold scaleKernel at h
    simp only [Bool.false_eq_true, if_false, List.length_map, h2, true_or, if_true, Except.ok.injEq] at h
    subst h
    refine ⟨?_, rfl, rfl⟩
    simp only [entry, unlog, Bool.false_eq_true, if_false]
    congr 2
    unfold colSum
    have hc : ∀ w' : List ℝ, columns (N := N) ⟨.gaussian w', fe, sc, mu⟩ = columns (N := N) ⟨.gaussian w, fe, sc, mu⟩ := fun _ => rfl
    generalize hcol : columns (N := N) ⟨.gaussian w, fe, sc, mu⟩ = cols at h2 ⊢
    rw [show ∀ w', columns (N := N) ⟨.gaussian w', fe, sc, mu⟩ = cols from fun w' => (hc w').trans hcol]
    congr 1
    apply List.map_congr_left
    rintro ⟨a, i⟩ hmem
    have hi : i < cols.length ∧ cols[i]? = some a := by
      rw [List.mem_zipIdx_iff_getElem?] at hmem
      exact ⟨(List.getElem?_eq_some_iff.mp hmem).1, hmem⟩
    have hps : pick (cols.map s.fstd) i = s.fstd a := by
      unfold pick
      split
      · next hl =>
        have : i = 0 := by rw [List.length_map] at hl; omega
        subst this
        simp [List.getD_eq_getElem?_getD, hi.2]
      · simp [List.getD_eq_getElem?_getD, hi.2]
    have hpw : pick (w.zipIdx.map fun c => c.1 / pick (cols.map s.fstd) c.2) i = pick w i / s.fstd a := by
      have hlt : i < w.length := by omega
      have e : ∀ j, j < w.length → (w.zipIdx.map fun c => c.1 / pick (cols.map s.fstd) c.2).getD j 0 =
          w.getD j 0 / pick (cols.map s.fstd) j := by
        intro j hj
        rw [List.getD_eq_getElem _ _ (by simpa using hj), List.getD_eq_getElem _ _ hj]
        simp
      generalize hL : (w.zipIdx.map fun c => c.1 / pick (cols.map s.fstd) c.2) = L at e ⊢
      have hLl : L.length = w.length := by rw [← hL]; simp
      have hj : (if w.length = 1 then 0 else i) = i := by split <;> omega
      conv_lhs => unfold pick
      conv_rhs => unfold pick
      rw [hLl, hj, e i hlt, hps]
    simp only
    rw [hpw]
    have hsa := hs a
    simp only [Scal.row]
    by_cases hw : pick w i = 0
    · simp [hw]
    · field_simp
      ring
  | constant c =>
    unfold scaleKernel at h
    have : k' = (⟨⟨.constant c, fe, sc, mu⟩, si⟩ : KDict N × Bool) := by
      cases si <;> simp at h <;> exact h.symm
    subst this
    refine ⟨?_, rfl, rfl⟩
    simp [entry]
  | _ => exact hk.elim

/-- C50 (`_partial`: Gaussian kernels with one width per feature and constant kernels, hyperparameters not on a log
scale): the covariance of scaled features with the scaled hyperparameters is that of the original features with the
original hyperparameters. -/
theorem C50_covariance_partial {N : Nat} (fp : List (Fin N → ℝ)) (t : List ℝ) (ks ks' : List (KDict N × Bool))
    (hk : ∀ k ∈ ks, Rescalable k) (h : kernelScaling (scalOf fp t) ks false = .ok ks') (x y : Fin N → ℝ) (b : Bool) :
    covEntry (ks'.map Prod.fst) false ((scalOf fp t).row x) ((scalOf fp t).row y) b =
      covEntry (ks.map Prod.fst) false x y b := by
  have hs := C50_no_zero_std fp t
  generalize scalOf fp t = s at h hs ⊢
  unfold kernelScaling at h
  unfold covEntry
  generalize (0:ℝ) = c
  induction ks generalizing ks' c with
  | nil =>
    simp [pure, Except.pure] at h
    subst h
    rfl
  | cons k ks ih =>
    simp only [List.mapM_cons, bind, Except.bind, pure, Except.pure] at h
    cases h1 : scaleKernel s.fstd false k with
    | error e => rw [h1] at h; simp at h
    | ok k1 =>
      cases h2 : ks.mapM (scaleKernel s.fstd false) with
      | error e => rw [h1, h2] at h; simp at h
      | ok ks1 =>
        rw [h1, h2] at h
        simp at h
        subst h
        obtain ⟨e1, e2, e3⟩ := entry_scaled s hs k k1 (hk k (by simp)) h1 x y b
        simp only [List.map_cons, List.foldl_cons]
        have e4 : scaleFactor k1.1 false = scaleFactor k.1 false := by unfold scaleFactor; rw [e2]
        rw [e1, e4, e3]
        exact ih ks1 (fun k hk' => hk k (by simp [hk'])) h2 _

example : Rescalable (N := 2) (⟨.gaussian [1, 2], none, some 3, false⟩, false) := by
  simp [Rescalable, columns]

theorem std2 : (scalOf (N := 1) [![0], ![4]] [0, 1]).fstd 0 = 2 := by
  have : colStd (List.get [![(0:ℝ)], ![(4:ℝ)]]) (0 : Fin 1) = 2 := by
    unfold colStd colMean
    have h4 : Real.sqrt 4 = 2 := by
      rw [show (4:ℝ) = 2 ^ 2 by norm_num, Real.sqrt_sq (by norm_num)]
    simp [Fin.sum_univ_two]
    norm_num [h4]
    rw [← Real.sqrt_div (by norm_num), show (8:ℝ) / 2 = 4 by norm_num, h4]
  simp [scalOf, placeOnes, this]

/-- C50 fails for Laplacian kernels, whose widths stay as they are although the features are scaled. -/
theorem C50_laplacian_violated : ∃ (fp : List (Fin 1 → ℝ)) (t : List ℝ) (k k' : KDict 1 × Bool) (x y : Fin 1 → ℝ),
    kernelScaling (scalOf fp t) [k] false = .ok [k'] ∧
    covEntry [k'.1] false ((scalOf fp t).row x) ((scalOf fp t).row y) false ≠ covEntry [k.1] false x y false := by
  refine ⟨[![0], ![4]], [0, 1], (⟨.laplacian [1], none, none, false⟩, false), (⟨.laplacian [1], none, none, false⟩, false),
    ![0], ![2], rfl, ?_⟩
  have : ∀ c : ℝ, -c / 2 - (2 - c) / 2 = -1 := fun c => by ring
  simp [covEntry, entry, colSum, columns, scaleFactor, unlog, pick, Scal.row, std2, List.finRange_succ, this]

/-- C50 fails for Gaussian kernels when the hyperparameters are on a log scale: the logarithms are divided. -/
theorem C50_log_scale_violated : ∃ (fp : List (Fin 1 → ℝ)) (t : List ℝ) (k k' : KDict 1 × Bool) (x y : Fin 1 → ℝ),
    kernelScaling (scalOf fp t) [k] false = .ok [k'] ∧
    covEntry [k'.1] true ((scalOf fp t).row x) ((scalOf fp t).row y) false ≠ covEntry [k.1] true x y false := by
  refine ⟨[![0], ![4]], [0, 1], (⟨.gaussian [0], none, none, false⟩, false), (⟨.gaussian [0], none, none, false⟩, false),
    ![0], ![2], ?_, ?_⟩
  · simp [kernelScaling, scaleKernel, columns, List.finRange_succ, bind, Except.bind, pure, Except.pure]
  · have : ∀ c : ℝ, -c / 2 - (2 - c) / 2 = -1 := fun c => by ring
    simp [covEntry, entry, colSum, columns, scaleFactor, unlog, pick, Scal.row, std2, List.finRange_succ, this]
    norm_num

/-- C50: kernel types without a scaling function raise NameError. -/
theorem C50_unknown_violated {N : Nat} (s : Scal N) (h : List ℝ) (ks : List (KDict N × Bool)) (b : Bool) :
    kernelScaling s ((⟨.noiseMulti h, none, none, false⟩, false) :: ks) b = .error .name := by
  simp [kernelScaling, scaleKernel, bind, Except.bind]

/-! ### Order of kernels in a file -/

theorem readOrder_perm (n : Nat) : (readOrder n).Perm (List.range n) := sortAsc_perm _ _

/-- C51: no kernel is lost or repeated. -/
theorem C51_nothing_lost {A : Type} (ks : List A) : (readBack ks).Perm ks := by
  unfold readBack
  refine ((readOrder_perm ks.length).filterMap _).trans (List.Perm.of_eq ?_)
  apply List.ext_getElem?
  intro i
  have h : ∀ (l : List A), (List.range l.length).filterMap (fun i => l[i]?) = l := by
    intro l
    induction l using List.reverseRecOn with
    | nil => rfl
    | append_singleton l a ih =>
      rw [List.length_append, List.length_singleton, List.range_succ, List.filterMap_append]
      congr 1
      · conv_rhs => rw [← ih]
        apply List.filterMap_congr
        intro i hi
        rw [List.getElem?_append_left (by simpa using hi)]
      · simp
  rw [h]

/-- The order in the file is the order in the list exactly for at most ten kernels. -/
theorem readOrder_eq (n : Nat) : readOrder n = List.range n ↔ n ≤ 10 := by
  constructor
  · intro h
    by_contra hn
    have hp := sortAsc_pairwise groupName (List.range n)
    change (readOrder n).Pairwise _ at hp
    rw [h] at hp
    have := List.pairwise_iff_getElem.mp hp 2 10 (by simp; omega) (by simp; omega) (by omega)
    simp only [List.getElem_range] at this
    revert this
    decide +kernel
  · intro h
    interval_cases n <;> decide +kernel

/-- C51 (`_partial`: at most ten kernels): kernels are read back in the order in which they were written. -/
theorem C51_order_partial {A : Type} (ks : List A) (h : ks.length ≤ 10) : readBack ks = ks := by
  unfold readBack
  rw [(readOrder_eq ks.length).mpr h]
  apply List.ext_getElem?
  intro i
  have h : ∀ (l : List A), (List.range l.length).filterMap (fun i => l[i]?) = l := by
    intro l
    induction l using List.reverseRecOn with
    | nil => rfl
    | append_singleton l a ih =>
      rw [List.length_append, List.length_singleton, List.range_succ, List.filterMap_append]
      congr 1
      · conv_rhs => rw [← ih]
        apply List.filterMap_congr
        intro i hi
        rw [List.getElem?_append_left (by simpa using hi)]
      · simp
  rw [h]

/-- C51 (`_partial`: at most ten kernels): the kernels of a model written to a file are read from it in the same
order. -/
theorem C51_model_partial {N : Nat} (gp : GP N) (f : H5 N) (h : writeH5 gp = .ok f) (hl : gp.kernels.length ≤ 10) :
    readBack f.kernels = gp.kernels := by
  have hk : f.kernels = gp.kernels := by
    unfold writeH5 at h
    cases hr : gp.reg with
    | none => simp [hr] at h
    | some r => simp [hr] at h; rw [← h]
  rw [hk]
  exact C51_order_partial _ hl

/-- C51 fails for every list of more than ten different kernels. -/
theorem C51_order_violated {A : Type} (ks : List A) (hd : ks.Nodup) (h : 10 < ks.length) : readBack ks ≠ ks := by
  intro heq
  have hlen : ks.length ≤ 10 := by
    rw [← readOrder_eq]
    have hm : (readBack ks).map some = (readOrder ks.length).map fun i => ks[i]? := by
      unfold readBack
      have : ∀ l : List Nat, (∀ i ∈ l, i < ks.length) → (l.filterMap fun i => ks[i]?).map some = l.map fun i => ks[i]? := by
        intro l
        induction l with
        | nil => intro _; rfl
        | cons i l ih =>
          intro hl
          have hi := hl i (by simp)
          rw [List.filterMap_cons, List.getElem?_eq_getElem hi]
          simp only [List.map_cons, List.getElem?_eq_getElem hi]
          rw [ih fun j hj => hl j (by simp [hj])]
      apply this
      intro i hi
      simpa using (readOrder_perm ks.length).mem_iff.mp hi
    rw [heq] at hm
    apply List.ext_getElem
    · rw [(readOrder_perm ks.length).length_eq]
    · intro i h1 h2
      have hi : i < ks.length := by simpa using h2
      have h3 := congrArg (fun l => l[i]?) hm
      simp only [List.getElem?_map, List.getElem?_eq_getElem hi, List.getElem?_eq_getElem h1, Option.map_some,
        Option.some.injEq] at h3
      have hj : (readOrder ks.length)[i] < ks.length := by
        simpa using (readOrder_perm ks.length).mem_iff.mp (List.getElem_mem h1)
      rw [List.getElem?_eq_getElem hj] at h3
      simp only [Option.some.injEq] at h3
      have := (List.Nodup.getElem_inj_iff hd).mp h3
      simp [← this]
  omega

example : readBack (List.range 12) = [0, 1, 10, 11, 2, 3, 4, 5, 6, 7, 8, 9] := by decide +kernel

/-! ### Models read from a file -/

/-- C126 (`_partial`: at most ten kernels, regularised, without `scale_data` and `scale_optimizer`): whatever its history,
a model written to an hdf5 file and read back makes the same predictions with the same uncertainties. -/
theorem C126_file_partial {N : Nat} (gp : GP N) (fp : List (Fin N → ℝ)) (t : List ℝ) (hR : Reach gp fp t)
    (hlen : gp.kernels.length ≤ 10) (hlog : gp.log = false) (hsd : gp.scaleData = false) (r : ℝ) (hr : gp.reg = some r)
    (hr0 : r ≠ 0) (hk : ∀ k ∈ gp.kernels, GoodKernel false k) (hp : PacksList gp.kernels) (hne : gp.kernels ≠ []) :
    ∃ f gp', writeH5 gp = .ok f ∧ readH5 f = .ok gp' ∧ (∀ test u, predict gp' test u = predict gp test u) ∧
      ∀ test, predictUncertainty gp' test = predictUncertainty gp test := by
  obtain ⟨hc, hh⟩ := C43_consistent_partial gp fp t hR
  have hst := hh.1
  have hfp : gp.fp = fp ∧ gp.target = t := by
    simp [store, hsd] at hst
    exact ⟨hst.1.symm, hst.2.1.symm⟩
  obtain ⟨gp', hg⟩ := C113_can_build fp t gp.kernels r false false hh.2.2 hh.2.1 hne hp hk (Or.inr hr0)
  refine ⟨⟨gp.fp, gp.target, r, gp.kernels⟩, gp', by simp [writeH5, hr], ?_, ?_⟩
  · unfold readH5
    simp only [C51_order_partial gp.kernels hlen, hfp.1, hfp.2]
    exact hg
  · have h0 : init fp t gp.kernels gp.reg gp.log gp.scaleData = .ok gp' := by rw [hr, hlog, hsd]; exact hg
    obtain ⟨-, h1, h2⟩ := C43_fresh_partial gp fp t hR gp' h0
    exact ⟨fun test u => (h1 test u).symm, fun test => (h2 test).symm⟩

example : ∃ (gp : GP 1) (fp : List (Fin 1 → ℝ)) (t : List ℝ), Reach gp fp t ∧ gp.kernels.length ≤ 10 ∧ gp.log = false ∧
    gp.scaleData = false ∧ gp.reg = some 1 := by
  obtain ⟨gp, h⟩ := C113_can_build [![(0:ℝ)], ![1]] [1, 2] linK 1 false false (by simp) rfl (by simp [linK]) linK_packs
    linK_good (Or.inr one_ne_zero)
  obtain ⟨-, -, h1, h2, h3, h4⟩ := C43_init_partial _ _ _ linK_packs _ _ _ _ h
  exact ⟨gp, _, _, Reach.init linK_packs h, by rw [h1]; simp [linK], h3, h4, h2⟩

/-- C126 fails for models without regularisation, the default: they cannot be written. -/
theorem C126_no_regularisation_violated {N : Nat} (gp : GP N) (h : gp.reg = none) : writeH5 gp = .error .type := by
  simp [writeH5, h]

/-- C126 fails with `scale_optimizer=True`: the logarithms of the hyperparameters are read as the hyperparameters. -/
theorem C126_log_scale_violated : ∃ (gp gp' : GP 1) (fp : List (Fin 1 → ℝ)) (t : List ℝ) (f : H5 1), Reach gp fp t ∧
    writeH5 gp = .ok f ∧ readH5 f = .ok gp' ∧ predict gp fp false = .ok ⟨[some (1 / (1 + Real.exp 2))], none⟩ ∧
      predict gp' fp false = .ok ⟨[some (1 / 5)], none⟩ ∧ 1 / (1 + Real.exp 2) < 1 / 5 := by
  have hp : PacksList (N := 1) [⟨.constant 1, none, none, false⟩] := by
    intro s d b h; simp at h
  have hk : kOne (N := 1) [⟨.constant 1, none, none, false⟩] true 2 ![0] = Real.exp 2 + Real.exp 4 := by
    simp [kOne, covEntry, scaleFactor, entry, unlog, ← Real.exp_add, ← Real.exp_nat_mul]
    norm_num
  have hk' : kOne (N := 1) [⟨.constant 1, none, none, false⟩] false 2 ![0] = 5 := by
    simp [kOne, covEntry, scaleFactor, entry, unlog]
    norm_num
  obtain ⟨l, h⟩ := init_single [⟨.constant 1, none, none, false⟩] hp (by simp) 2 true ![0] 1 (by rw [hk]; positivity)
  obtain ⟨l', h'⟩ := init_single [⟨.constant 1, none, none, false⟩] hp (by simp) 2 false ![0] 1 (by rw [hk']; norm_num)
  rw [hk] at h
  rw [hk'] at h'
  refine ⟨_, _, _, _, _, Reach.init hp h, rfl, Eq.trans ?_ h', ?_, ?_, ?_⟩
  · unfold readH5
    rw [C51_order_partial _ (by simp [one])]
    rfl
  · rw [predict_one]
    simp [covEntry, scaleFactor, entry, unlog, ← Real.exp_add]
    have : Real.exp 4 = Real.exp 2 * Real.exp 2 := by rw [← Real.exp_add]; norm_num
    norm_num
    rw [this]
    have := Real.exp_pos 2
    field_simp
  · rw [predict_one]
    simp [covEntry, scaleFactor, entry, unlog]
  · have h1 := Real.quadratic_le_exp_of_nonneg (x := 2) (by norm_num)
    apply one_div_lt_one_div_of_lt (by norm_num)
    linarith

theorem constant_zero {N : Nat} (c r : ℝ) (hr : r ≠ 0) (gp : GP N) (h : Consistent gp)
    (hk : gp.kernels = [⟨.constant c, none, none, false⟩]) (hl : gp.log = false) (hr' : gp.reg = some r)
    (hs : gp.target.sum = 0) (x : Fin N → ℝ) : gp.ktb x ⬝ᵥ (gp.cinv.2 *ᵥ gp.y) = 0 := by
  rw [h.mean_eq]
  generalize hy : (fun i : Fin gp.fp.length => gp.target.get (i.cast h.2.2.1.symm)) = y
  have hys : ∑ i, y i = 0 := by
    rw [← hy, ← hs]
    have hso : gp.target.sum = ∑ i, gp.target.get i := by
      conv_lhs => rw [← List.ofFn_get gp.target, List.sum_ofFn]
    rw [hso]
    exact Fintype.sum_equiv (finCongr h.2.2.1.symm) _ _ (fun i => rfl)
  have hu := h.1
  rw [hk, hl, hr'] at hu ⊢
  have hK : gram [⟨.constant c, none, none, false⟩] false (some r) gp.fp *ᵥ y = r ^ 2 • y := by
    funext i
    simp only [mulVec, dotProduct, gram, covSelf_apply]
    simp only [covEntry, scaleFactor, entry, unlog, regSq, List.foldl_cons, List.foldl_nil, Bool.false_eq_true, if_false,
      zero_add, one_mul, add_mul, Finset.sum_add_distrib, ← Finset.mul_sum, hys]
    simp
  unfold postMean
  have hi : (gram [⟨.constant c, none, none, false⟩] false (some r) gp.fp)⁻¹ *ᵥ y = (r ^ 2)⁻¹ • y := by
    have : (gram [⟨.constant c, none, none, false⟩] false (some r) gp.fp)⁻¹ *ᵥ (r ^ 2 • y) = y := by
      rw [← hK, mulVec_mulVec, nonsing_inv_mul _ hu, one_mulVec]
    rw [mulVec_smul] at this
    conv_rhs => rw [← this]
    rw [smul_smul, inv_mul_cancel₀ (by positivity), one_smul]
  rw [hi]
  simp only [dotProduct, kvec, covEntry, scaleFactor, entry, unlog, List.foldl_cons, List.foldl_nil, Pi.smul_apply,
    smul_eq_mul, ← Finset.mul_sum, hys, mul_zero]

/-- C126 fails with `scale_data=True`: the file holds the scaled data only.  For a constant kernel the model predicts
the mean of its targets everywhere, the one read from the file predicts 0. -/
theorem C126_scale_data_violated {N : Nat} (fp : List (Fin N → ℝ)) (t : List ℝ) (hf : fp ≠ []) (hl : fp.length = t.length)
    (ht : tStd t.get ≠ 0) (c r : ℝ) (hc : 0 < c) (hr : r ≠ 0) :
    ∃ (gp gp' : GP N) (f : H5 N), init fp t [⟨.constant c, none, none, false⟩] (some r) false true = .ok gp ∧
      writeH5 gp = .ok f ∧ readH5 f = .ok gp' ∧ ∀ x, predict gp [x] false = .ok ⟨[some (tMean t.get)], none⟩ ∧
        predict gp' [x] false = .ok ⟨[some 0], none⟩ := by
  have hp : PacksList (N := N) [⟨.constant c, none, none, false⟩] := by
    intro s d b h; simp at h
  have hg : ∀ k ∈ [(⟨.constant c, none, none, false⟩ : KDict N)], GoodKernel false k := by
    simp [GoodKernel, hc.le]
  obtain ⟨gp, h⟩ := C113_can_build fp t [⟨.constant c, none, none, false⟩] r false true hf hl (by simp) hp hg (Or.inr hr)
  obtain ⟨h1, h2, h3, h4, h5, h6⟩ := C43_init_partial _ _ _ hp _ _ _ _ h
  have hst := h2.1
  unfold store at hst
  rw [h6] at hst
  simp only [if_true, Except.ok.injEq, Stored.mk.injEq] at hst
  obtain ⟨e1, e2, e3, e4⟩ := hst
  have hsum : gp.target.sum = 0 := by
    rw [← e2]
    have hn : (t.length : ℝ) ≠ 0 := by
      have : t.length ≠ 0 := by rw [← hl]; simpa using hf
      exact_mod_cast this
    have hm : t.sum = tMean t.get * t.length := by
      unfold tMean colMean
      rw [Fintype.card_fin, div_mul_cancel₀ _ hn]
      conv_lhs => rw [← List.ofFn_get t, List.sum_ofFn]
    have hg : ∀ l : List ℝ, ((l.map (scalOf fp t).tgt).sum) = (l.sum - l.length * (scalOf fp t).tmean) / (scalOf fp t).tstd := by
      intro l
      induction l with
      | nil => simp
      | cons a l ih =>
        simp only [List.map_cons, List.sum_cons, ih, Scal.tgt, List.length_cons]
        push_cast
        ring
    rw [hg, hm]
    simp only [scalOf]
    ring
  obtain ⟨gp', h'⟩ := C113_can_build gp.fp gp.target [⟨.constant c, none, none, false⟩] r false false
    (by rw [← e1]; simpa using hf) h1.2.2.1.symm (by simp) hp hg (Or.inr hr)
  obtain ⟨h1', h2', h3', h4', h5', h6'⟩ := C43_init_partial _ _ _ hp _ _ _ _ h'
  have hst' := h2'.1
  simp [store, h6'] at hst'
  refine ⟨gp, gp', ⟨gp.fp, gp.target, r, gp.kernels⟩, h, by simp [writeH5, h4], ?_, ?_⟩
  · unfold readH5
    simp only [C51_order_partial gp.kernels (by rw [h3]; simp), h3]
    exact h'
  · intro x
    rw [h1.predict_eq [x] (by simp), h1'.predict_eq [x] (by simp)]
    have hn : gp.nan = false := by rw [← e3]; exact decide_eq_false ht
    have hn' : gp'.nan = false := hst'.2.2
    constructor
    · simp only [List.map_cons, List.map_nil, GP.mean, hn, Bool.false_eq_true, if_false,
        constant_zero c r hr gp h1 h3 h5 h4 hsum]
      simp [GP.rescale, h6, ← e4, Scal.untgt, scalOf]
    · simp only [List.map_cons, List.map_nil, GP.mean, hn', Bool.false_eq_true, if_false,
        constant_zero c r hr gp' h1' h3' h5' h4' (by rw [← hst'.2.1, hsum])]
      simp [GP.rescale, h6']

end CatLearn.Proc
