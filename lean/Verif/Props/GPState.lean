import Verif.Model.GP
import Verif.Props.Kernel
import Verif.Props.KernelSetup

/-!
# The state of a Gaussian process after updates (C43), and `predict_uncertainty` (C44)
-/

namespace CatLearn.Proc

open CatLearn CatLearn.Kernel CatLearn.Scaling Matrix

/-- The stored inverse is the inverse of the covariance of the stored training data with the stored kernels and
regularisation, and there is one target for each training point. -/
def Consistent {N : Nat} (gp : GP N) : Prop :=
  IsUnit (gram gp.kernels gp.log gp.reg gp.fp).det ∧
  gp.cinv = ⟨gp.fp.length, (gram gp.kernels gp.log gp.reg gp.fp)⁻¹⟩ ∧
  gp.target.length = gp.fp.length ∧ gp.scaling.isSome = gp.scaleData

/-- `gp` stores the training data `fp`, `t` (standardised if that was asked for). -/
def Holds {N : Nat} (gp : GP N) (fp : List (Fin N → ℝ)) (t : List ℝ) : Prop :=
  store gp fp (some t) = .ok ⟨gp.fp, gp.target, gp.nan, gp.scaling⟩ ∧ fp.length = t.length ∧ fp ≠ []

theorem invGram_ok {N : Nat} {ks : List (KDict N)} {log : Bool} {reg : Option ℝ} {fp : List (Fin N → ℝ)}
    {ci : Σ n : Nat, Matrix (Fin n) (Fin n) ℝ} (h : invGram ks log reg fp = .ok ci) :
    ks ≠ [] ∧ IsUnit (gram ks log reg fp).det ∧ ci = ⟨fp.length, (gram ks log reg fp)⁻¹⟩ := by
  unfold invGram at h
  split at h
  · cases reg <;> simp at h
  · next hk =>
    unfold invert at h
    split at h
    · next hu =>
      simp at h
      exact ⟨by simpa using hk, hu, h.symm⟩
    · simp at h

theorem invGram_of {N : Nat} {ks : List (KDict N)} {log : Bool} {reg : Option ℝ} {fp : List (Fin N → ℝ)}
    (hk : ks ≠ []) (hu : IsUnit (gram ks log reg fp).det) :
    invGram ks log reg fp = .ok ⟨fp.length, (gram ks log reg fp)⁻¹⟩ := by
  unfold invGram
  have : ks.isEmpty = false := by simpa using hk
  simp only [this, Bool.false_eq_true, if_false, invert, if_pos hu]

/-- What a successful `_update_lml` does. -/
theorem updateLml_ok {N : Nat} {gp gp' : GP N} (h : updateLml gp = .ok gp') :
    ∃ θ ks, kdicts2list gp.kernels = .ok θ ∧ list2kdict (θ ++ gp.reg.toList) gp.kernels = .ok ks ∧
      (gram ks gp.log gp.reg gp.fp).PosDef ∧ gp.cinv.1 = gp.target.length ∧
      gp' = { gp with
        kernels := ks
        lml := if gp.nan then none else some (lmlValue (gram ks gp.log gp.reg gp.fp) gp.cinv.2 gp.y) } := by
  unfold updateLml at h
  cases h1 : kdicts2list gp.kernels with
  | error e => simp [h1, bind, Except.bind] at h
  | ok θ =>
    cases h2 : list2kdict (θ ++ gp.reg.toList) gp.kernels with
    | error e => simp [h1, h2, bind, Except.bind] at h
    | ok ks =>
      simp only [h1, h2, bind, Except.bind, pure, Except.pure, throw, throwThe, MonadExceptOf.throw] at h
      split at h
      · simp at h
      · split at h
        · simp at h
        · next h3 h4 =>
          refine ⟨θ, ks, rfl, h2, ?_, ?_, ?_⟩
          · simpa using h3
          · simpa using h4
          · simpa using h.symm

theorem updateLml_packs {N : Nat} {gp gp' : GP N} (hp : PacksList gp.kernels) (h : updateLml gp = .ok gp') :
    (gram gp.kernels gp.log gp.reg gp.fp).PosDef ∧ gp.cinv.1 = gp.target.length ∧
      gp' = { gp with
        lml := if gp.nan then none else some (lmlValue (gram gp.kernels gp.log gp.reg gp.fp) gp.cinv.2 gp.y) } := by
  obtain ⟨θ, ks, h1, h2, h3, h4, h5⟩ := updateLml_ok h
  rw [C45_kernel_round_trip_partial gp.kernels hp θ h1] at h2
  simp at h2
  subst h2
  exact ⟨h3, h4, h5⟩

/-- What a successful `update_data` with targets does. -/
theorem updateData_ok {N : Nat} {gp gp' : GP N} {fp : List (Fin N → ℝ)} {t : List ℝ} {flag : Bool}
    (h : updateData gp fp (some t) flag = .ok gp') :
    ∃ st ci, fp ≠ [] ∧ store gp fp (some t) = .ok st ∧ invGram gp.kernels flag gp.reg st.fp = .ok ci ∧
      updateLml { gp with fp := st.fp, target := st.target, nan := st.nan, scaling := st.scaling, cinv := ci } =
        .ok gp' := by
  unfold updateData at h
  by_cases he : fp.isEmpty
  · simp [he, bind, Except.bind, throw, throwThe, MonadExceptOf.throw] at h
  · cases h1 : store gp fp (some t) with
    | error e => simp [he, h1, bind, Except.bind, pure, Except.pure] at h
    | ok st =>
      cases h2 : invGram gp.kernels flag gp.reg st.fp with
      | error e => simp [he, h1, h2, bind, Except.bind, pure, Except.pure] at h
      | ok ci =>
        simp [he, h1, h2, bind, Except.bind, pure, Except.pure] at h
        exact ⟨st, ci, by simpa using he, rfl, h2, h⟩

theorem store_some {N : Nat} {gp : GP N} {fp : List (Fin N → ℝ)} {t : List ℝ} :
    ∃ st, store gp fp (some t) = .ok st ∧ st.fp.length = fp.length ∧ st.target.length = t.length ∧
      (gp.scaleData = true → st.scaling.isSome) ∧ (gp.scaleData = false → st.scaling = gp.scaling) ∧
      (gp.scaleData = false → st.fp = fp ∧ st.target = t ∧ st.nan = false) ∧
      ∀ gp2 : GP N, gp2.scaleData = gp.scaleData → (gp.scaleData = false → gp2.scaling = gp.scaling) →
        store gp2 fp (some t) = .ok st := by
  unfold store
  cases hs : gp.scaleData with
  | true =>
    refine ⟨_, by simp; rfl, by simp, by simp, by simp, by simp, by simp, ?_⟩
    intro gp2 h2
    simp [h2]
  | false =>
    refine ⟨_, by simp; rfl, by simp, by simp, by simp, by simp, by simp, ?_⟩
    intro gp2 h2 h3
    simp [h2, h3]

/-- What a successful `update_data` with targets does when the flag is the one of the model. -/
theorem updateData_spec {N : Nat} {gp gp' : GP N} {fp : List (Fin N → ℝ)} {t : List ℝ}
    (hp : PacksList gp.kernels) (hl : fp.length = t.length) (hsc : gp.scaleData = false → gp.scaling = none)
    (h : updateData gp fp (some t) gp.log = .ok gp') :
    Consistent gp' ∧ Holds gp' fp t ∧ gp'.kernels = gp.kernels ∧ gp'.reg = gp.reg ∧ gp'.log = gp.log ∧
      gp'.scaleData = gp.scaleData := by
  obtain ⟨st, ci, h1, h2, h3, h4⟩ := updateData_ok h
  obtain ⟨-, hu, hci⟩ := invGram_ok h3
  obtain ⟨h5, h6, h7⟩ := updateLml_packs (gp := { gp with
    fp := st.fp, target := st.target, nan := st.nan, scaling := st.scaling, cinv := ci }) hp h4
  obtain ⟨st', hs1, hs2, hs3, hs4, hs5, hs6, hs7⟩ := store_some (gp := gp) (fp := fp) (t := t)
  rw [hs1] at h2
  simp at h2
  subst h2
  subst h7
  refine ⟨⟨hu, hci, ?_, ?_⟩, ⟨?_, hl, h1⟩, rfl, rfl, rfl, rfl⟩
  · rw [hs3, hs2, hl]
  · cases hd : gp.scaleData with
    | true => simpa [hd] using hs4 hd
    | false => simp [hd, hs5 hd, hsc hd]
  · apply hs7
    · rfl
    · intro hd; exact hs5 hd

/-- C43: a new model is consistent and stores the data it was given (kernel lists that pack, see C45). -/
theorem C43_init_partial {N : Nat} (fp : List (Fin N → ℝ)) (t : List ℝ) (ks : List (KDict N)) (hp : PacksList ks)
    (reg : Option ℝ) (log sd : Bool) (gp : GP N) (h : init fp t ks reg log sd = .ok gp) :
    Consistent gp ∧ Holds gp fp t ∧ gp.kernels = ks ∧ gp.reg = reg ∧ gp.log = log ∧ gp.scaleData = sd := by
  unfold init at h
  by_cases hl : fp.length = t.length
  · simp [hl, bind, Except.bind, pure, Except.pure] at h
    exact updateData_spec (gp := blank ks reg log sd) hp hl (fun _ => rfl) h
  · simp [hl, bind, Except.bind, throw, throwThe, MonadExceptOf.throw] at h

/-- The ways to change a model that keep it consistent: new data with the right flag, a new optimisation of the
hyperparameters, or an update with data and targets and perhaps kernels. -/
inductive Reach {N : Nat} : GP N → List (Fin N → ℝ) → List ℝ → Prop
  | init {fp t ks reg log sd gp} (hp : PacksList ks) (h : init fp t ks reg log sd = .ok gp) : Reach gp fp t
  | data {gp fp t fp' t' gp'} (hr : Reach gp fp t) (hl : fp'.length = t'.length)
      (h : updateData gp fp' (some t') gp.log = .ok gp') : Reach gp' fp' t'
  | optimize {gp fp t gp' m} (hr : Reach gp fp t) (h : optimize m gp = .ok gp') : Reach gp' fp t
  | update {gp fp t fp' t' gp' ks m} (hr : Reach gp fp t) (hl : fp'.length = t'.length)
      (hp : ∀ l, ks = some l → PacksList l)
      (h : updateGP gp (some fp') (some t') ks gp.log m = .ok gp') : Reach gp' fp' t'

theorem setKernel_packs {N : Nat} {θ : List ℝ} {ki ki' : Nat} {k k' : KDict N} (h : setKernel θ ki k = .ok (k', ki')) :
    (Packs k ↔ Packs k') ∧ ((∀ s d b, k.ktype ≠ .quadratic s d b) → ∀ s d b, k'.ktype ≠ .quadratic s d b) := by
  obtain ⟨kt, fe, sc, mu⟩ := k
  have key : ∀ (sc' : Option ℝ) (ki : Nat),
      (match kt with
        | .gaussian w => (pure ({ ktype := .gaussian (slice θ ki w.length), features := fe, scaling := sc', mult := mu }, ki + w.length) : Except PyErr (KDict N × Nat))
        | .laplacian w => pure ({ ktype := .laplacian (slice θ ki w.length), features := fe, scaling := sc', mult := mu }, ki + w.length)
        | .sqe w => pure ({ ktype := .sqe (slice θ ki w.length), features := fe, scaling := sc', mult := mu }, ki + w.length)
        | .quadratic s _ _ => do
          let d ← item θ (ki + s.length)
          pure ({ ktype := .quadratic (slice θ ki s.length) d true, features := fe, scaling := sc', mult := mu }, ki + s.length + 1)
        | .linear => pure ({ ktype := kt, features := fe, scaling := sc', mult := mu }, ki)
        | .constant _ => do
          let c ← item θ ki
          pure ({ ktype := .constant c, features := fe, scaling := sc', mult := mu }, ki + 1)
        | .noiseMulti h => pure ({ ktype := .noiseMulti (slice θ ki h.length), features := fe, scaling := sc', mult := mu }, ki)) = .ok (k', ki') →
      (Packs ⟨kt, fe, sc, mu⟩ ↔ Packs k') ∧ ((∀ s d b, kt ≠ .quadratic s d b) → ∀ s d b, k'.ktype ≠ .quadratic s d b) := by
    intro sc' ki h
    cases kt with
    | quadratic s d b =>
      cases hi : item θ (ki + s.length) with
      | error e => simp [hi, bind, Except.bind] at h
      | ok d' =>
        simp [hi, bind, Except.bind, pure, Except.pure] at h
        obtain ⟨rfl, -⟩ := h
        simp [Packs]
    | constant c =>
      cases hi : item θ ki with
      | error e => simp [hi, bind, Except.bind] at h
      | ok d' =>
        simp [hi, bind, Except.bind, pure, Except.pure] at h
        obtain ⟨rfl, -⟩ := h
        simp [Packs]
    | _ =>
      simp [pure, Except.pure] at h
      obtain ⟨rfl, -⟩ := h
      simp [Packs]
  unfold setKernel at h
  cases sc with
  | none =>
    simp only [bind, Except.bind, pure, Except.pure] at h key
    exact key none ki h
  | some s =>
    cases hi : item θ ki with
    | error e => simp [hi, bind, Except.bind] at h
    | ok s' =>
      simp only [hi, bind, Except.bind, pure, Except.pure] at h key
      exact key (some s') (ki + 1) h

theorem list2kdictFrom_packs {N : Nat} {θ : List ℝ} {ki : Nat} {ks ks' : List (KDict N)}
    (h : list2kdictFrom θ ki ks = .ok ks') (hp : PacksList ks) : PacksList ks' ∧ ks'.length = ks.length := by
  induction ks generalizing ki ks' with
  | nil => simp [list2kdictFrom] at h; subst h; exact ⟨trivial, rfl⟩
  | cons k ks ih =>
    rw [list2kdictFrom] at h
    cases h1 : setKernel θ ki k with
    | error e => simp [h1, bind, Except.bind] at h
    | ok p =>
      obtain ⟨k', ki'⟩ := p
      cases h2 : list2kdictFrom θ ki' ks with
      | error e => simp [h1, h2, bind, Except.bind] at h
      | ok ks2 =>
        simp [h1, h2, bind, Except.bind, pure, Except.pure] at h
        subst h
        have hk := setKernel_packs h1
        cases ks with
        | nil =>
          simp [list2kdictFrom] at h2
          subst h2
          exact ⟨hk.2 hp, rfl⟩
        | cons k2 ks =>
          obtain ⟨i1, i2⟩ := ih h2 hp.2
          refine ⟨?_, by simp [i2]⟩
          cases ks2 with
          | nil => simp at i2
          | cons a b => exact ⟨hk.1.mp hp.1, i1⟩

theorem optimize_ok {N : Nat} {m : List ℝ → List ℝ × ℝ} {gp gp' : GP N} (h : optimize m gp = .ok gp') :
    ∃ θ r ks r' ci, kdicts2list gp.kernels = .ok θ ∧ gp.reg = some r ∧
      list2kdict (m (θ ++ [r])).1.dropLast gp.kernels = .ok ks ∧ (m (θ ++ [r])).1.getLast? = some r' ∧
      invGram ks gp.log (some r') gp.fp = .ok ci ∧
      gp' = { gp with kernels := ks, reg := some r', lml := some (-(m (θ ++ [r])).2), cinv := ci } := by
  unfold optimize at h
  cases h1 : kdicts2list gp.kernels with
  | error e => simp [h1, bind, Except.bind] at h
  | ok θ =>
    cases h2 : gp.reg with
    | none => simp [h1, h2, bind, Except.bind, throw, throwThe, MonadExceptOf.throw] at h
    | some r =>
      cases h3 : list2kdict (m (θ ++ [r])).1.dropLast gp.kernels with
      | error e => simp [h1, h2, h3, bind, Except.bind, pure, Except.pure] at h
      | ok ks =>
        cases h4 : (m (θ ++ [r])).1.getLast? with
        | none => simp [h1, h2, h3, h4, bind, Except.bind, pure, Except.pure, throw, throwThe, MonadExceptOf.throw] at h
        | some r' =>
          cases h5 : invGram ks gp.log (some r') gp.fp with
          | error e => simp [h1, h2, h3, h4, h5, bind, Except.bind, pure, Except.pure] at h
          | ok ci =>
            simp [h1, h2, h3, h4, h5, bind, Except.bind, pure, Except.pure] at h
            exact ⟨θ, r, ks, r', ci, rfl, rfl, h3, h4, h5, h.symm⟩

/-- The invariant. -/
private theorem optimize_spec {N : Nat} {m : List ℝ → List ℝ × ℝ} {gp gp' : GP N} {fp : List (Fin N → ℝ)} {t : List ℝ}
    (hp : PacksList gp.kernels) (hc : gp.target.length = gp.fp.length ∧ gp.scaling.isSome = gp.scaleData)
    (hh : Holds gp fp t) (h : optimize m gp = .ok gp') :
    Consistent gp' ∧ Holds gp' fp t ∧ PacksList gp'.kernels := by
  obtain ⟨θ, r, ks, r', ci, h1, h2, h3, h4, h5, rfl⟩ := optimize_ok h
  obtain ⟨-, hu, hci⟩ := invGram_ok h5
  refine ⟨⟨hu, hci, hc.1, hc.2⟩, hh, (list2kdictFrom_packs h3 hp).1⟩

private theorem reach_spec {N : Nat} {gp : GP N} {fp : List (Fin N → ℝ)} {t : List ℝ} (h : Reach gp fp t) :
    Consistent gp ∧ Holds gp fp t ∧ PacksList gp.kernels := by
  induction h with
  | @init fp t ks reg log sd gp hp h =>
    obtain ⟨h1, h2, h3, -⟩ := C43_init_partial fp t ks hp reg log sd gp h
    exact ⟨h1, h2, h3 ▸ hp⟩
  | @data gp fp t fp' t' gp' hr hl h ih =>
    obtain ⟨i1, i2, i3⟩ := ih
    obtain ⟨h1, h2, h3, -⟩ := updateData_spec i3 hl (fun hd => by
      have := i1.2.2.2; rw [hd] at this; simpa using this) h
    exact ⟨h1, h2, h3 ▸ i3⟩
  | @optimize gp fp t gp' m hr h ih =>
    obtain ⟨i1, i2, i3⟩ := ih
    exact optimize_spec i3 i1.2.2 i2 h
  | @update gp fp t fp' t' gp' ks m hr hl hp h ih =>
    obtain ⟨i1, i2, i3⟩ := ih
    unfold updateGP at h
    simp only [bind, Except.bind, pure, Except.pure, Option.getD_some] at h
    cases h1 : updateData { gp with fp := fp', kernels := ks.getD gp.kernels } fp' (some t') gp.log with
    | error e => simp [h1] at h
    | ok gp1 =>
      simp only [h1] at h
      have hpk : PacksList (ks.getD gp.kernels) := by
        cases ks with
        | none => exact i3
        | some l => exact hp l rfl
      obtain ⟨j1, j2, j3, -⟩ := updateData_spec (gp := { gp with fp := fp', kernels := ks.getD gp.kernels }) hpk hl
        (fun hd => by have := i1.2.2.2; simp only at hd; rw [hd] at this; simpa using this) h1
      have j4 : PacksList gp1.kernels := by rw [j3]; exact hpk
      cases m with
      | some m => exact optimize_spec j4 j1.2.2 j2 h
      | none =>
        obtain ⟨k1, k2, k3⟩ := updateLml_packs j4 h
        subst k3
        exact ⟨j1, j2, j4⟩

/-- C43 (`_partial`: kernel lists that pack, see C45, and only the ways of updating in `Reach`): whatever the history,
the stored inverse is that of the covariance of the stored data with the stored kernels and regularisation. -/
theorem C43_consistent_partial {N : Nat} (gp : GP N) (fp : List (Fin N → ℝ)) (t : List ℝ) (h : Reach gp fp t) :
    Consistent gp ∧ Holds gp fp t := ⟨(reach_spec h).1, (reach_spec h).2.1⟩

/-- C43 (`_partial`: as before): a model with any history is the one that would be built from its latest data, kernels
and regularisation, apart from the stored likelihood; so all predictions agree. -/
theorem C43_fresh_partial {N : Nat} (gp : GP N) (fp : List (Fin N → ℝ)) (t : List ℝ) (h : Reach gp fp t) (gp0 : GP N)
    (h0 : init fp t gp.kernels gp.reg gp.log gp.scaleData = .ok gp0) :
    gp = { gp0 with lml := gp.lml } ∧ (∀ test u, predict gp test u = predict gp0 test u) ∧
      (∀ test, predictUncertainty gp test = predictUncertainty gp0 test) := by
  obtain ⟨h1, h2, h3⟩ := reach_spec h
  obtain ⟨k1, k2, k3, k4, k5, k6⟩ := C43_init_partial fp t gp.kernels h3 gp.reg gp.log gp.scaleData gp0 h0
  have hst : store gp fp (some t) = store gp0 fp (some t) := by
    obtain ⟨st, s1, s2, s3, s4, s5, s6, s7⟩ := store_some (gp := gp) (fp := fp) (t := t)
    rw [s1, s7 gp0 k6]
    intro hd
    have e1 := h1.2.2.2
    have e2 := k1.2.2.2
    rw [k6] at e2
    rw [hd] at e1 e2
    simp at e1 e2
    rw [e1, e2]
  rw [h2.1, k2.1] at hst
  simp only [Except.ok.injEq, Stored.mk.injEq] at hst
  obtain ⟨f1, f2, f3, f4⟩ := hst
  have hci : gp.cinv = gp0.cinv := by rw [h1.2.1, k1.2.1, f1, k3, k4, k5]
  have hgp : gp = { gp0 with lml := gp.lml } := by
    obtain ⟨a1, a2, a3, a4, a5, a6, a7, a8, a9, a10⟩ := gp
    obtain ⟨b1, b2, b3, b4, b5, b6, b7, b8, b9, b10⟩ := gp0
    simp only [GP.mk.injEq] at *
    simp [k3, k4, k5, k6, f1, f2, f3, f4, hci]
  refine ⟨hgp, ?_, ?_⟩
  · intro test u
    rw [hgp]
    rfl
  · intro test
    rw [hgp]
    rfl

end CatLearn.Proc
