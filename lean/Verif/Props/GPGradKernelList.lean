import Verif.Props.GPGradFeatures

/-!
# Lists of kernels with the same covariance of values and gradients (C320)
-/

namespace CatLearn.GradProc

open CatLearn CatLearn.Kernel CatLearn.Proc Matrix

/-- Lists of kernels with the same covariances. -/
private structure Alike {N : ℕ} (ks ks' : List (GDict N)) : Prop where
  gram : ∀ (n : ℕ) (reg : Option ℝ) (X : Fin n → Fin N → ℝ), covGrad ks' reg X = covGrad ks reg X
  row : ∀ (n : ℕ) (x : Fin N → ℝ) (X : Fin n → Fin N → ℝ), covRow ks' x X = covRow ks x X
  diag : ∀ x, kxx ks' x = kxx ks x
  empty : ks'.isEmpty = ks.isEmpty

private theorem Alike.finish {N : ℕ} {ks ks' : List (GDict N)} (h : Alike ks ks') (hl : lastOnly ks' = lastOnly ks) (g : GradGP N) (hg : g.kernels = ks)
    (r : GradGP N) (hr : finish g true = .ok r) :
    GradProc.finish { g with kernels := ks' } true = .ok { r with kernels := ks' } ∧ r.kernels = ks := by
  subst hg
  obtain ⟨k1, k2, rfl, k4, k5⟩ := finish_ok hr
  obtain ⟨k4, k6⟩ := k4 rfl
  have hf := finish_eq { g with kernels := ks' } true (IsUnit (covGrad g.kernels g.reg g.fp.get).det) (covGrad g.kernels g.reg g.fp.get).PosDef
    ⟨g.fp.length, (covGrad g.kernels g.reg g.fp.get)⁻¹⟩ (by rw [h.gram]) (by rw [h.gram]) (by rw [h.gram])
  refine ⟨?_, rfl⟩
  rw [hf, if_neg (by simp only [h.empty, k1]; exact Bool.false_ne_true), if_neg (not_not.2 k2), if_neg (by simp),
    if_neg (not_not.2 (hl.trans (k5 rfl))), if_neg (not_not.2 k4), if_neg (not_not.2 k6)]

private theorem Alike.predict {N : ℕ} {ks ks' : List (GDict N)} (h : Alike ks ks') (g : GradGP N) (hg : g.kernels = ks) (x : Fin N → ℝ) :
    GradProc.predict { g with kernels := ks' } x = GradProc.predict g x := by
  subst hg
  unfold GradProc.predict
  simp only [h.empty, h.row]
  rfl

private theorem Alike.uncertainty {N : ℕ} {ks ks' : List (GDict N)} (h : Alike ks ks') (g : GradGP N) (hg : g.kernels = ks) (x : Fin N → ℝ) :
    GradProc.uncertainty { g with kernels := ks' } x = GradProc.uncertainty g x := by
  have hp := h.predict g hg x
  have hv : ∀ z, variance { g with kernels := ks' } z = variance g z := by
    intro z
    subst hg
    unfold variance
    simp only [h.diag, h.row]
  unfold GradProc.uncertainty
  rw [hp]
  simp only [GradGP.scaleRow, GradGP.tstd, hv]

private theorem Alike.model {N : ℕ} {ks ks' : List (GDict N)} (h : Alike ks ks') (hl : lastOnly ks' = lastOnly ks) (fp : List (Fin N → ℝ)) (t : List ℝ)
    (grad : List (Fin N → ℝ)) (reg : Option ℝ) (sd : Bool) (gp : GradGP N) (hi : init fp t grad ks reg sd = .ok gp) :
    ∃ gp', init fp t grad ks' reg sd = .ok gp' ∧
      ∀ x, GradProc.predict gp' x = GradProc.predict gp x ∧ GradProc.uncertainty gp' x = GradProc.uncertainty gp x := by
  unfold init update at hi ⊢
  split at hi
  · cases hi
  rename_i h1
  rw [if_neg h1]
  split at hi
  · cases hi
  rename_i h2
  rw [if_neg h2]
  cases sd with
  | false =>
    rw [if_neg (by simp)] at hi ⊢
    obtain ⟨e1, e2⟩ := h.finish hl ⟨ks, reg, false, fp, t ++ flat grad, false, none, ⟨0, 1⟩⟩ rfl gp hi
    exact ⟨_, e1, fun x => ⟨h.predict gp e2 x, h.uncertainty gp e2 x⟩⟩
  | true =>
    rw [if_pos rfl] at hi ⊢
    obtain ⟨e1, e2⟩ := h.finish hl ⟨ks, reg, true, fp.map (scalOf fp t).row, t.map (scalOf fp t).tgt ++ flat (grad.map (scaleGrad (scalOf fp t))),
      decide ((scalOf fp t).tstd = 0), some (scalOf fp t), ⟨0, 1⟩⟩ rfl gp hi
    exact ⟨_, e1, fun x => ⟨h.predict gp e2 x, h.uncertainty gp e2 x⟩⟩

/-- C320: kernels that are added can be listed in any order in which a kernel with several parameters for noise or constants, if there is one, is the last. -/
theorem C320_order {N : ℕ} (ks ks' : List (GDict N)) (hperm : ks.Perm ks') (hadd : ∀ k ∈ ks, k.mult = false) (hl : lastOnly ks = true)
    (hl' : lastOnly ks' = true) (fp : List (Fin N → ℝ)) (t : List ℝ) (grad : List (Fin N → ℝ)) (reg : Option ℝ) (sd : Bool) (gp : GradGP N)
    (hi : init fp t grad ks reg sd = .ok gp) :
    ∃ gp', init fp t grad ks' reg sd = .ok gp' ∧ ∀ x, predict gp' x = predict gp x ∧ uncertainty gp' x = uncertainty gp x := by
  refine Alike.model ⟨fun n reg X => ?_, fun n x X => ?_, fun x => ?_, ?_⟩ (hl'.trans hl.symm) fp t grad reg sd gp hi
  · unfold covGrad
    refine congrArg (· + _) (hperm.foldl_eq' (fun k hk k' hk' z => ?_) 0).symm
    simp only [hadd k hk, hadd k' hk', Bool.false_eq_true, if_false]
    rw [add_right_comm]
  · unfold covRow
    refine (hperm.foldl_eq' (fun k hk k' hk' z => ?_) 0).symm
    simp only [hadd k hk, hadd k' hk', Bool.false_eq_true, if_false]
    funext p
    ring
  · have herr : ∀ (g : GType N) e, gDiag g x = .error e → e = .assertion := by
      intro g e h
      unfold gDiag at h
      split at h <;> cases h
      rfl
    have key : ∀ (l l' : List (GDict N)), l.Perm l' → (∀ k ∈ l, k.mult = false) → ∀ c : ℝ,
        l'.foldlM (fun cov k => match gDiag k.gtype x with
          | .error e => .error e
          | .ok v => .ok (if k.mult then cov * (k.scaling * v) else cov + k.scaling * v)) c =
        (l.foldlM (fun cov k => match gDiag k.gtype x with
          | .error e => .error e
          | .ok v => .ok (if k.mult then cov * (k.scaling * v) else cov + k.scaling * v)) c : Except PyErr ℝ) := by
      intro l l' hll
      induction hll with
      | nil => exact fun _ _ => rfl
      | cons k _ ih =>
        intro hm c
        simp only [List.foldlM_cons]
        congr 1
        funext d
        exact ih (fun k' hk' => hm k' (by simp [hk'])) d
      | swap k k' l =>
        intro hm c
        have h1 := hm k (by simp)
        have h2 := hm k' (by simp)
        simp only [List.foldlM_cons, h1, h2, Bool.false_eq_true, if_false]
        cases e1 : gDiag k.gtype x with
        | error e =>
          cases e2 : gDiag k'.gtype x with
          | error e' => rw [herr _ _ e1, herr _ _ e2]
          | ok v => rfl
        | ok v =>
          cases e2 : gDiag k'.gtype x with
          | error e' => rfl
          | ok v' =>
            simp only [bind, Except.bind]
            rw [add_right_comm]
      | trans p _ ih1 ih2 =>
        intro hm c
        rw [ih2 (fun k hk => hm k (p.mem_iff.2 hk)), ih1 hm]
    exact key ks ks' hperm hadd 0
  · rw [Bool.eq_iff_iff, List.isEmpty_iff, List.isEmpty_iff, ← List.length_eq_zero_iff, ← List.length_eq_zero_iff, hperm.length_eq]

/-- C320: two added kernels that differ in the scaling only are one kernel with the sum of the scalings. -/
theorem C320_merge {N : ℕ} (pre post : List (GDict N)) (g : GType N) (a b : ℝ) (hl : lastOnly (pre ++ ⟨g, a, false⟩ :: ⟨g, b, false⟩ :: post) = true)
    (hl' : lastOnly (pre ++ ⟨g, a + b, false⟩ :: post) = true) (fp : List (Fin N → ℝ)) (t : List ℝ) (grad : List (Fin N → ℝ)) (reg : Option ℝ)
    (sd : Bool) (gp : GradGP N) (hi : init fp t grad (pre ++ ⟨g, a, false⟩ :: ⟨g, b, false⟩ :: post) reg sd = .ok gp) :
    ∃ gp', init fp t grad (pre ++ ⟨g, a + b, false⟩ :: post) reg sd = .ok gp' ∧
      ∀ x, predict gp' x = predict gp x ∧ uncertainty gp' x = uncertainty gp x := by
  refine Alike.model ⟨fun n reg X => ?_, fun n x X => ?_, fun x => ?_, ?_⟩ (hl'.trans hl.symm) fp t grad reg sd gp hi
  · unfold covGrad
    simp only [List.foldl_append, List.foldl_cons, Bool.false_eq_true, if_false, add_smul, add_assoc]
  · unfold covRow
    simp only [List.foldl_append, List.foldl_cons, Bool.false_eq_true, if_false, add_mul, add_assoc]
  · unfold kxx
    simp only [List.foldlM_append, List.foldlM_cons, Bool.false_eq_true, if_false]
    congr 1
    funext c
    cases gDiag g x with
    | error e => rfl
    | ok v => simp only [bind, Except.bind, add_mul, add_assoc]
  · cases pre <;> rfl

/-- C320: an added kernel of scaling zero can be left out (the kernel with three constants excepted, which does not allow uncertainties). -/
theorem C320_zero {N : ℕ} (pre post : List (GDict N)) (g : GType N) (hg : ∀ c1 c2 c3, g ≠ .constantMulti c1 c2 c3) (hne : pre ++ post ≠ [])
    (hl : lastOnly (pre ++ ⟨g, 0, false⟩ :: post) = true) (hl' : lastOnly (pre ++ post) = true) (fp : List (Fin N → ℝ)) (t : List ℝ)
    (grad : List (Fin N → ℝ)) (reg : Option ℝ) (sd : Bool) (gp : GradGP N) (hi : init fp t grad (pre ++ ⟨g, 0, false⟩ :: post) reg sd = .ok gp) :
    ∃ gp', init fp t grad (pre ++ post) reg sd = .ok gp' ∧ ∀ x, predict gp' x = predict gp x ∧ uncertainty gp' x = uncertainty gp x := by
  refine Alike.model ⟨fun n reg X => ?_, fun n x X => ?_, fun x => ?_, ?_⟩ (hl'.trans hl.symm) fp t grad reg sd gp hi
  · unfold covGrad
    simp only [List.foldl_append, List.foldl_cons, Bool.false_eq_true, if_false, zero_smul, add_zero]
  · unfold covRow
    rw [List.foldl_append, List.foldl_append, List.foldl_cons]
    congr 1
    simp
  · unfold kxx
    simp only [List.foldlM_append, List.foldlM_cons, Bool.false_eq_true, if_false]
    congr 1
    funext c
    cases h : gDiag g x with
    | error e =>
      unfold gDiag at h
      split at h <;> first | (cases h; done) | exact absurd rfl (hg _ _ _)
    | ok v => simp only [bind, Except.bind, zero_mul, add_zero]
  · cases h : pre ++ post with
    | nil => exact absurd h hne
    | cons k l => simp

/-- C320: a kernel marked as a factor has no effect at the head of the list. -/
theorem C320_first {N : ℕ} (ks : List (GDict N)) (g : GType N) (s : ℝ) (hg : ∀ c1 c2 c3, g ≠ .constantMulti c1 c2 c3) (hne : ks ≠ [])
    (hl : lastOnly (⟨g, s, true⟩ :: ks) = true) (hl' : lastOnly ks = true) (fp : List (Fin N → ℝ)) (t : List ℝ) (grad : List (Fin N → ℝ))
    (reg : Option ℝ) (sd : Bool) (gp : GradGP N) (hi : init fp t grad (⟨g, s, true⟩ :: ks) reg sd = .ok gp) :
    ∃ gp', init fp t grad ks reg sd = .ok gp' ∧ ∀ x, predict gp' x = predict gp x ∧ uncertainty gp' x = uncertainty gp x := by
  refine Alike.model ⟨fun n reg X => ?_, fun n x X => ?_, fun x => ?_, ?_⟩ (hl'.trans hl.symm) fp t grad reg sd gp hi
  · unfold covGrad
    simp only [List.foldl_cons, if_true, Matrix.zero_hadamard]
  · unfold covRow
    simp only [List.foldl_cons, if_true, Pi.zero_apply, zero_mul]
    rfl
  · unfold kxx
    simp only [List.foldlM_cons, if_true]
    cases h : gDiag g x with
    | error e =>
      unfold gDiag at h
      split at h <;> first | (cases h; done) | exact absurd rfl (hg _ _ _)
    | ok v => simp only [bind, Except.bind, zero_mul]
  · cases ks with
    | nil => exact absurd rfl hne
    | cons k l => rfl

/-- A gaussian and a constant kernel in either order. -/
example : ∃ gp : GradGP 1, init [![(-1:ℝ)], ![1]] [0, 2] [![1], ![0]] [⟨.gaussian ![1], 1, false⟩, ⟨.constant 1, 2, false⟩] (some 1) true = .ok gp ∧
    ∃ gp' : GradGP 1, init [![(-1:ℝ)], ![1]] [0, 2] [![1], ![0]] [⟨.constant 1, 2, false⟩, ⟨.gaussian ![1], 1, false⟩] (some 1) true = .ok gp' ∧
      ∀ x, predict gp' x = predict gp x := by
  obtain ⟨gp, h⟩ := C123_trains [![(-1:ℝ)], ![1]] [0, 2] [![1], ![0]] [⟨.gaussian ![1], 1, false⟩, ⟨.constant 1, 2, false⟩] (by simp) rfl
    (by simp [GoodGrad]) 1 one_ne_zero true (by simp) rfl rfl
  obtain ⟨gp', h', e⟩ := C320_order _ _ (List.Perm.swap _ _ _) (by simp) rfl rfl _ _ _ _ _ gp h
  exact ⟨gp, h, gp', h', fun x => (e x).1⟩

/-- Lists as in the other theorems: a factor at the head, a kernel of scaling zero, and two kernels to merge. -/
example : lastOnly [(⟨.linear, 1, true⟩ : GDict 1), ⟨.gaussian ![1], 1, false⟩] = true ∧
    lastOnly [(⟨.linear, 0, false⟩ : GDict 1), ⟨.gaussian ![1], 1, false⟩, ⟨.gaussian ![1], 2, false⟩] = true := ⟨rfl, rfl⟩

end CatLearn.GradProc
