import Verif.Props.GPState
import Mathlib.Tactic.NormNum
import Mathlib.Tactic.FieldSimp
import Mathlib.Tactic.Positivity
import Mathlib.Tactic.Linarith

/-!
# Building Gaussian processes (C113), and the updates that leave stale state (C43)
-/

namespace CatLearn.Proc

open CatLearn CatLearn.Kernel CatLearn.Scaling Matrix

theorem mapM_kdict2list {N : Nat} (ks : List (KDict N)) (hp : PacksList ks) : ∃ ls, ks.mapM kdict2list = .ok ls := by
  induction ks with
  | nil => exact ⟨[], rfl⟩
  | cons k ks ih =>
    have hk : ∃ l, kdict2list k = .ok l := by
      have hq : ∀ s d b, k.ktype ≠ .quadratic s d b := by
        cases ks with
        | nil => exact hp
        | cons k2 ks =>
          intro s d b hkt
          have := hp.1
          simp [Packs, hkt] at this
      unfold kdict2list
      cases hkt : k.ktype with
      | quadratic s d b => exact absurd hkt (hq s d b)
      | _ => exact ⟨_, rfl⟩
    have hr : PacksList ks := by
      cases ks with
      | nil => trivial
      | cons k2 ks => exact hp.2
    obtain ⟨l, hl⟩ := hk
    obtain ⟨ls, hls⟩ := ih hr
    exact ⟨l :: ls, by simp [hl, hls, bind, Except.bind, pure, Except.pure]⟩

theorem kdicts2list_packs {N : Nat} (ks : List (KDict N)) (hp : PacksList ks) (hne : ks ≠ []) :
    ∃ θ, kdicts2list ks = .ok θ := by
  obtain ⟨ls, h⟩ := mapM_kdict2list ks hp
  refine ⟨ls.flatten, ?_⟩
  have : ks.isEmpty = false := by simpa using hne
  simp [kdicts2list, this, h, bind, Except.bind, pure, Except.pure]

theorem updateLml_of {N : Nat} (gp : GP N) (hp : PacksList gp.kernels) (hne : gp.kernels ≠ [])
    (hpd : (gram gp.kernels gp.log gp.reg gp.fp).PosDef) (hl : gp.cinv.1 = gp.target.length) :
    updateLml gp = .ok { gp with
      lml := if gp.nan then none else some (lmlValue (gram gp.kernels gp.log gp.reg gp.fp) gp.cinv.2 gp.y) } := by
  obtain ⟨θ, hθ⟩ := kdicts2list_packs gp.kernels hp hne
  have h2 := C45_kernel_round_trip_partial gp.kernels hp θ hθ gp.reg.toList
  unfold updateLml
  simp [hθ, h2, hpd, hl, bind, Except.bind, pure, Except.pure]

theorem updateData_of {N : Nat} (gp : GP N) (fp : List (Fin N → ℝ)) (t : List ℝ) (flag : Bool) (st : Stored N)
    (hf : fp ≠ []) (hl : fp.length = t.length) (hst : store gp fp (some t) = .ok st)
    (hp : PacksList gp.kernels) (hne : gp.kernels ≠ []) (hu : IsUnit (gram gp.kernels flag gp.reg st.fp).det)
    (hpd : (gram gp.kernels gp.log gp.reg st.fp).PosDef) :
    ∃ l : Option ℝ, updateData gp fp (some t) flag =
      .ok { gp with
        fp := st.fp, target := st.target, nan := st.nan, scaling := st.scaling
        cinv := ⟨st.fp.length, (gram gp.kernels flag gp.reg st.fp)⁻¹⟩, lml := l } := by
  obtain ⟨st', hs1, hs2, hs3, -⟩ := store_some (gp := gp) (fp := fp) (t := t)
  rw [hst] at hs1
  simp at hs1
  subst hs1
  have h1 := invGram_of hne hu
  have he : fp.isEmpty = false := by simpa using hf
  have h2 := updateLml_of { gp with
    fp := st.fp, target := st.target, nan := st.nan, scaling := st.scaling
    cinv := ⟨st.fp.length, (gram gp.kernels flag gp.reg st.fp)⁻¹⟩ } hp hne hpd (by simp [hs2, hs3, hl])
  refine ⟨_, Eq.trans ?_ h2⟩
  unfold updateData
  simp only [he, hst, h1, bind, Except.bind, pure, Except.pure]
  rfl

/-- C113: with a regularisation different from zero, a model can be built on any training data – points may coincide –
from kernels with positive hyperparameters. -/
theorem C113_can_build {N : Nat} (fp : List (Fin N → ℝ)) (t : List ℝ) (ks : List (KDict N)) (r : ℝ) (log sd : Bool)
    (hf : fp ≠ []) (hl : fp.length = t.length) (hne : ks ≠ []) (hp : PacksList ks) (hk : ∀ k ∈ ks, GoodKernel log k)
    (hr : log = true ∨ r ≠ 0) : ∃ gp : GP N, init fp t ks (some r) log sd = .ok gp := by
  obtain ⟨st, hs1, -⟩ := store_some (gp := blank ks (some r) log sd) (fp := fp) (t := t)
  obtain ⟨h1, h2⟩ := C41_posDef ks log hk r hr st.fp.get
  obtain ⟨l, h⟩ := updateData_of (blank ks (some r) log sd) fp t log st hf hl hs1 hp hne h2 h1
  refine ⟨_, Eq.trans ?_ h⟩
  unfold init
  simp only [hl, ne_eq, not_true_eq_false, if_false, bind, Except.bind, pure, Except.pure]

/-- Without noise kernels it does not matter whether two points are the same one. -/
theorem covEntry_self {N : Nat} (ks : List (KDict N)) (log : Bool) (hn : ∀ k ∈ ks, ∀ h, k.ktype ≠ .noiseMulti h)
    (x y : Fin N → ℝ) (b : Bool) : covEntry ks log x y b = covEntry ks log x y false := by
  unfold covEntry
  have : ∀ c : ℝ, ∀ l : List (KDict N), (∀ k ∈ l, k ∈ ks) →
      List.foldl (fun cov k => let v := scaleFactor k log * entry k.ktype (columns k) log x y b
        if k.mult then cov * v else cov + v) c l =
      List.foldl (fun cov k => let v := scaleFactor k log * entry k.ktype (columns k) log x y false
        if k.mult then cov * v else cov + v) c l := by
    intro c l
    induction l generalizing c with
    | nil => intro _; rfl
    | cons k l ih =>
      intro hm
      have he : entry k.ktype (columns k) log x y b = entry k.ktype (columns k) log x y false := by
        cases hkt : k.ktype with
        | noiseMulti h => exact absurd hkt (hn k (hm k (by simp)) h)
        | _ => rfl
      simp only [List.foldl_cons, he]
      exact ih _ fun k hk => hm k (by simp [hk])
  exact this 0 ks fun _ h => h

/-- C113: without regularisation (and noise kernels), coinciding training points make it impossible. -/
theorem C113_duplicates {N : Nat} (fp : List (Fin N → ℝ)) (t : List ℝ) (ks : List (KDict N)) (log : Bool)
    (hn : ∀ k ∈ ks, ∀ h, k.ktype ≠ .noiseMulti h) (i j : Fin fp.length) (hij : i ≠ j) (h : fp.get i = fp.get j)
    (gp : GP N) : init fp t ks none log false ≠ .ok gp := by
  intro hc
  unfold init at hc
  by_cases hl : fp.length = t.length
  · simp only [hl, ne_eq, not_true_eq_false, if_false, bind, Except.bind, pure, Except.pure] at hc
    obtain ⟨st, ci, h1, h2, h3, -⟩ := updateData_ok hc
    simp [store, blank] at h2
    subst h2
    obtain ⟨-, hu, -⟩ := invGram_ok h3
    apply hu.ne_zero
    apply Matrix.det_zero_of_row_eq hij
    ext a
    change covEntry ks log (fp.get i) (fp.get a) _ + 0 = covEntry ks log (fp.get j) (fp.get a) _ + 0
    rw [covEntry_self ks log hn, h, ← covEntry_self ks log hn]
  · simp [hl, bind, Except.bind, throw, throwThe, MonadExceptOf.throw] at hc

example : PacksList (N := 1) [⟨.gaussian [1], none, some 1, false⟩] ∧
    (∀ k ∈ ([⟨.gaussian [1], none, some 1, false⟩] : List (KDict 1)), GoodKernel false k) ∧
    ([![0], ![0]] : List (Fin 1 → ℝ)).length = [(1 : ℝ), 2].length := by
  refine ⟨?_, ?_, rfl⟩
  · intro s d b h; simp at h
  · simp [GoodKernel, GoodWidths, columns]

/-! ### Models with one training point -/

/-- The covariance of one training point. -/
noncomputable def kOne {N : Nat} (ks : List (KDict N)) (log : Bool) (r : ℝ) (x : Fin N → ℝ) : ℝ :=
  covEntry ks log x x true + (unlog log r) ^ 2

theorem gram_single {N : Nat} (ks : List (KDict N)) (log : Bool) (r : ℝ) (x : Fin N → ℝ) :
    gram ks log (some r) [x] = Matrix.of fun _ _ => kOne ks log r x := by
  ext i j
  fin_cases i
  fin_cases j
  simp [gram, covSelf, kOne]

theorem single_inv (c : ℝ) (hc : c ≠ 0) : (Matrix.of fun _ _ : Fin 1 => c)⁻¹ = Matrix.of fun _ _ => c⁻¹ := by
  apply Matrix.inv_eq_right_inv
  ext i j
  fin_cases i
  fin_cases j
  simp [Matrix.mul_apply, hc]

theorem single_det (c : ℝ) : (Matrix.of fun _ _ : Fin 1 => c).det = c := by simp

theorem single_posDef (c : ℝ) (hc : 0 < c) : (Matrix.of fun _ _ : Fin 1 => c).PosDef := by
  have : (Matrix.of fun _ _ : Fin 1 => c) = Matrix.diagonal fun _ => c := by
    ext i j
    fin_cases i
    fin_cases j
    simp
  rw [this]
  exact Matrix.PosDef.diagonal fun _ => hc

theorem gram_single_det {N : Nat} (ks : List (KDict N)) (log : Bool) (r : ℝ) (x : Fin N → ℝ) :
    (gram ks log (some r) [x]).det = kOne ks log r x := by
  rw [gram_single]
  exact single_det _

theorem gram_single_inv {N : Nat} (ks : List (KDict N)) (log : Bool) (r : ℝ) (x : Fin N → ℝ)
    (h : kOne ks log r x ≠ 0) :
    (gram ks log (some r) [x])⁻¹ = Matrix.of fun _ _ => (kOne ks log r x)⁻¹ := by
  rw [gram_single]
  exact single_inv _ h

theorem gram_single_posDef {N : Nat} (ks : List (KDict N)) (log : Bool) (r : ℝ) (x : Fin N → ℝ)
    (h : 0 < kOne ks log r x) : (gram ks log (some r) [x]).PosDef := by
  rw [gram_single]
  exact single_posDef _ h

/-- A model with one training point. -/
noncomputable def one {N : Nat} (ks : List (KDict N)) (r : ℝ) (log : Bool) (x : Fin N → ℝ) (t c : ℝ)
    (l : Option ℝ) : GP N :=
  ⟨ks, some r, log, false, [x], [t], false, ⟨1, Matrix.of fun _ _ => c⟩, none, l⟩

theorem update_single {N : Nat} (gp : GP N) (hsd : gp.scaleData = false) (hsc : gp.scaling = none) (r : ℝ)
    (hr : gp.reg = some r) (hp : PacksList gp.kernels) (hne : gp.kernels ≠ []) (x : Fin N → ℝ) (t : ℝ) (flag : Bool)
    (hf : kOne gp.kernels flag r x ≠ 0) (hpos : 0 < kOne gp.kernels gp.log r x) :
    ∃ l, updateData gp [x] (some [t]) flag = .ok (one gp.kernels r gp.log x t (kOne gp.kernels flag r x)⁻¹ l) := by
  obtain ⟨l, h⟩ := updateData_of gp [x] [t] flag ⟨[x], [t], false, none⟩ (by simp) rfl
    (by simp [store, hsd, hsc]) hp hne
    (by rw [hr, gram_single_det]; exact hf.isUnit)
    (by rw [hr]; exact gram_single_posDef _ _ _ _ hpos)
  refine ⟨l, ?_⟩
  rw [h]
  simp only [hr, gram_single_inv _ _ _ _ hf]
  simp [one, hsd, hr]

theorem init_single {N : Nat} (ks : List (KDict N)) (hp : PacksList ks) (hne : ks ≠ []) (r : ℝ) (log : Bool)
    (x : Fin N → ℝ) (t : ℝ) (hpos : 0 < kOne ks log r x) :
    ∃ l, init [x] [t] ks (some r) log false = .ok (one ks r log x t (kOne ks log r x)⁻¹ l) := by
  obtain ⟨l, h⟩ := update_single (blank ks (some r) log false) rfl rfl r rfl hp hne x t log hpos.ne' hpos
  refine ⟨l, ?_⟩
  unfold init
  simp only [List.length_cons, List.length_nil, ne_eq, not_true_eq_false, if_false, bind, Except.bind, pure, Except.pure]
  exact h

theorem predict_one {N : Nat} (ks : List (KDict N)) (r : ℝ) (log : Bool) (x : Fin N → ℝ) (t c : ℝ) (l : Option ℝ)
    (z : Fin N → ℝ) :
    predict (one ks r log x t c l) [z] false = .ok ⟨[some (covEntry ks log z x false * (c * t))], none⟩ := by
  simp [predict, one, GP.mean, GP.rescale, GP.scaleRow, GP.ktb, GP.y, bind, Except.bind, pure, Except.pure,
    Matrix.mulVec, dotProduct]

/-- C43 fails when `update_gp` is given kernels only: the inverse is that of the old covariance.  A model of one point
with target 1 and a constant kernel predicts 3/2 instead of 3/4. -/
theorem C43_new_kernels_violated : ∃ (ks ks' : List (KDict 1)) (gp gp' gp0 : GP 1) (fp : List (Fin 1 → ℝ)) (t : List ℝ),
    init fp t ks (some 1) false false = .ok gp ∧ updateGP gp none none (some ks') false none = .ok gp' ∧
      init fp t ks' (some 1) false false = .ok gp0 ∧ predict gp' fp false = .ok ⟨[some (3 / 2)], none⟩ ∧
      predict gp0 fp false = .ok ⟨[some (3 / 4)], none⟩ := by
  have hp : ∀ c : ℝ, PacksList (N := 1) [⟨.constant c, none, none, false⟩] := by
    intro c s d b h; simp at h
  have hk : ∀ c : ℝ, kOne (N := 1) [⟨.constant c, none, none, false⟩] false 1 ![0] = c + 1 := by
    intro c
    simp [kOne, covEntry, scaleFactor, entry, unlog]
  obtain ⟨l, h1⟩ := init_single [⟨.constant 1, none, none, false⟩] (hp 1) (by simp) 1 false ![0] 1
    (by rw [hk]; norm_num)
  obtain ⟨l', h2⟩ := init_single [⟨.constant 3, none, none, false⟩] (hp 3) (by simp) 1 false ![0] 1
    (by rw [hk]; norm_num)
  rw [hk, show ((1:ℝ) + 1)⁻¹ = 2⁻¹ by norm_num] at h1
  have h3 := updateLml_of (one [⟨.constant 3, none, none, false⟩] 1 false ![0] 1 (2 : ℝ)⁻¹ l) (hp 3)
    (by simp [one]) (by simp only [one]; apply gram_single_posDef; rw [hk]; norm_num) rfl
  refine ⟨[⟨.constant 1, none, none, false⟩], [⟨.constant 3, none, none, false⟩], _,
    one [⟨.constant 3, none, none, false⟩] 1 false ![0] 1 (2 : ℝ)⁻¹ (some (lmlValue
      (gram [⟨.constant 3, none, none, false⟩] false (some 1) [![0]]) (Matrix.of fun _ _ : Fin 1 => (2 : ℝ)⁻¹)
        fun i => [(1:ℝ)].getD i 0)), _, [![0]], [1], h1, ?_, h2, ?_, ?_⟩
  · exact h3
  · rw [predict_one]
    simp [covEntry, scaleFactor, entry, unlog]
    norm_num
  · rw [predict_one, hk]
    simp [covEntry, scaleFactor, entry, unlog]
    norm_num

/-- C43 fails when `update_gp` is given training features only: a linear model with the point 1, which is changed to 2,
predicts 1 instead of 2/5 at 1. -/
theorem C43_new_features_violated : ∃ (ks : List (KDict 1)) (gp gp' gp0 : GP 1) (fp fp' : List (Fin 1 → ℝ)) (t : List ℝ),
    init fp t ks (some 1) false false = .ok gp ∧ updateGP gp (some fp') none none false none = .ok gp' ∧
      init fp' t ks (some 1) false false = .ok gp0 ∧ gp'.fp = gp0.fp ∧
      predict gp' fp false = .ok ⟨[some 1], none⟩ ∧ predict gp0 fp false = .ok ⟨[some (2 / 5)], none⟩ := by
  have hp : PacksList (N := 1) [⟨.linear, none, none, false⟩] := by
    intro s d b h; simp at h
  have hk : ∀ x : ℝ, kOne (N := 1) [⟨.linear, none, none, false⟩] false 1 ![x] = x * x + 1 := by
    intro c
    simp [kOne, covEntry, scaleFactor, entry, unlog, colSum, columns, List.finRange_succ]
  obtain ⟨l, h1⟩ := init_single [⟨.linear, none, none, false⟩] hp (by simp) 1 false ![1] 1
    (by rw [hk]; norm_num)
  obtain ⟨l', h2⟩ := init_single [⟨.linear, none, none, false⟩] hp (by simp) 1 false ![2] 1
    (by rw [hk]; norm_num)
  rw [hk, show ((1:ℝ) * 1 + 1)⁻¹ = 2⁻¹ by norm_num] at h1
  have h3 := updateLml_of (one [⟨.linear, none, none, false⟩] 1 false ![2] 1 (2 : ℝ)⁻¹ l) hp
    (by simp [one]) (by simp only [one]; apply gram_single_posDef; rw [hk]; norm_num) rfl
  refine ⟨[⟨.linear, none, none, false⟩], _,
    one [⟨.linear, none, none, false⟩] 1 false ![2] 1 (2 : ℝ)⁻¹ (some (lmlValue
      (gram [⟨.linear, none, none, false⟩] false (some 1) [![2]]) (Matrix.of fun _ _ : Fin 1 => (2 : ℝ)⁻¹)
        fun i => [(1:ℝ)].getD i 0)), _, [![1]], [![2]], [1], h1, ?_, h2, rfl, ?_, ?_⟩
  · exact h3
  · rw [predict_one]
    simp [covEntry, scaleFactor, entry, unlog, colSum, columns, List.finRange_succ]
  · rw [predict_one, hk]
    simp [covEntry, scaleFactor, entry, unlog, colSum, columns, List.finRange_succ]
    norm_num

/-- C43 fails for models with hyperparameters on a log scale when `update_data` is called without the flag: even an
update with the data the model has already changes the predictions. -/
theorem C43_default_flag_violated : ∃ (ks : List (KDict 1)) (gp gp' : GP 1) (fp : List (Fin 1 → ℝ)) (t : List ℝ),
    init fp t ks (some 1) true false = .ok gp ∧ updateData gp fp (some t) false = .ok gp' ∧
      predict gp fp false = .ok ⟨[some (1 / 2)], none⟩ ∧ predict gp' fp false = .ok ⟨[some (Real.exp 2 / 2)], none⟩ ∧
      Real.exp 2 / 2 ≠ 1 / 2 := by
  have hp : PacksList (N := 1) [⟨.constant 1, none, some 1, false⟩] := by
    intro s d b h; simp at h
  have hk : kOne (N := 1) [⟨.constant 1, none, some 1, false⟩] true 1 ![0] = 2 * Real.exp 2 := by
    simp [kOne, covEntry, scaleFactor, entry, unlog, ← Real.exp_add, ← Real.exp_nat_mul]
    norm_num
    ring
  have hk' : kOne (N := 1) [⟨.constant 1, none, some 1, false⟩] false 1 ![0] = 2 := by
    simp [kOne, covEntry, scaleFactor, entry, unlog]
    norm_num
  have hpos : 0 < kOne (N := 1) [⟨.constant 1, none, some 1, false⟩] true 1 ![0] := by rw [hk]; positivity
  obtain ⟨l, h1⟩ := init_single [⟨.constant 1, none, some 1, false⟩] hp (by simp) 1 true ![0] 1 hpos
  obtain ⟨l', h2⟩ := update_single (one [⟨.constant 1, none, some 1, false⟩] 1 true ![0] 1
    (kOne (N := 1) [⟨.constant 1, none, some 1, false⟩] true 1 ![0])⁻¹ l) rfl rfl 1 rfl hp (by simp [one]) ![0] 1 false
    (by simp only [one]; rw [hk']; norm_num) hpos
  refine ⟨[⟨.constant 1, none, some 1, false⟩], _, _, [![0]], [1], h1, h2, ?_, ?_, ?_⟩
  · rw [predict_one, hk]
    have : Real.exp 2 ≠ 0 := (Real.exp_pos 2).ne'
    simp [covEntry, scaleFactor, entry, unlog, ← Real.exp_add]
    norm_num
  · simp only [one]
    rw [hk']
    have := predict_one (N := 1) [⟨.constant 1, none, some 1, false⟩] 1 true ![0] 1 (2:ℝ)⁻¹ l' ![0]
    simp only [one] at this
    rw [this]
    simp [covEntry, scaleFactor, entry, unlog, ← Real.exp_add]
    norm_num
    ring
  · have : (1:ℝ) < Real.exp 2 := Real.one_lt_exp_iff.mpr (by norm_num)
    intro h
    linarith

end CatLearn.Proc
