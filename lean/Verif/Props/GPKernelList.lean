import Verif.Props.GPRelations

/-!
# Lists of kernels with the same covariance (C319)
-/

namespace CatLearn.Proc

open CatLearn CatLearn.Kernel CatLearn.Scaling CatLearn.PSD Matrix

/-- Models of the same data whose kernels have the same covariance answer alike. -/
private theorem same_model {N : ℕ} (ks ks' : List (KDict N)) (log : Bool) (hcov : ∀ x y s, covEntry ks' log x y s = covEntry ks log x y s)
    (hp : PacksList ks) (hp' : PacksList ks') (hne : ks' ≠ []) (fp : List (Fin N → ℝ)) (t : List ℝ) (reg : Option ℝ) (sd : Bool) (gp : GP N)
    (hi : init fp t ks reg log sd = .ok gp) :
    ∃ gp', init fp t ks' reg log sd = .ok gp' ∧ (∀ test u, predict gp' test u = predict gp test u) ∧
      ∀ test, predictUncertainty gp' test = predictUncertainty gp test := by
  have hfp : fp.map (· ∘ (id : Fin N → Fin N)) = fp := by simp
  obtain ⟨gp', hi', ⟨a1, a2⟩, ⟨b1, b2⟩, r1, r2, hts, hrow, hm, hv⟩ := transport id 1 one_pos ks ks' log reg reg
    (fun x y s => by rw [one_mul]; exact hcov x y s) (one_mul _).symm hp hp' hne fp t sd gp hi
  rw [hfp] at hi'
  simp only [Function.comp_id, one_mul] at hrow hm hv
  have hunc : ∀ r, gp'.unc r = gp.unc r := by
    intro r; funext x; unfold GP.unc; rw [hv, hts]
  refine ⟨gp', hi', ?_, ?_⟩
  · intro test u
    have e1 : test.map gp'.scaleRow = test.map gp.scaleRow := List.map_congr_left fun x _ => hrow x
    have e2 : gp'.mean = gp.mean := funext hm
    unfold predict
    simp only [e1, e2, hunc, ← a1, ← a2, ← b1, ← b2, r1, r2, bind, Except.bind, pure, Except.pure, ne_eq,
      not_true_eq_false, if_false]
  · intro test
    unfold predictUncertainty
    simp only [hunc, ← a1, ← b1, r1, r2, bind, Except.bind, pure, Except.pure, ne_eq, not_true_eq_false, if_false]

private theorem covEntry_append {N : ℕ} (pre post : List (KDict N)) (log : Bool) (x y : Fin N → ℝ) (s : Bool) :
    covEntry (pre ++ post) log x y s = post.foldl (fun cov k =>
      let v := scaleFactor k log * entry k.ktype (columns k) log x y s
      if k.mult then cov * v else cov + v) (covEntry pre log x y s) := by
  unfold covEntry
  rw [List.foldl_append]

/-- C319: kernels that are added can be listed in any order. -/
theorem C319_order {N : ℕ} (ks ks' : List (KDict N)) (hperm : ks'.Perm ks) (hadd : ∀ k ∈ ks, k.mult = false) (hp : PacksList ks)
    (hp' : PacksList ks') (fp : List (Fin N → ℝ)) (t : List ℝ) (reg : Option ℝ) (log sd : Bool) (gp : GP N)
    (hi : init fp t ks reg log sd = .ok gp) :
    ∃ gp', init fp t ks' reg log sd = .ok gp' ∧ (∀ test u, predict gp' test u = predict gp test u) ∧
      ∀ test, predictUncertainty gp' test = predictUncertainty gp test := by
  refine same_model ks ks' log (fun x y s => ?_) hp hp' ?_ fp t reg sd gp hi
  · have hsum : ∀ (l : List (KDict N)), (∀ k ∈ l, k.mult = false) → ∀ c : ℝ, l.foldl (fun cov k =>
        let v := scaleFactor k log * entry k.ktype (columns k) log x y s
        if k.mult then cov * v else cov + v) c =
        c + (l.map fun k => scaleFactor k log * entry k.ktype (columns k) log x y s).sum := by
      intro l hl
      induction l with
      | nil => simp
      | cons k l ih =>
        intro c
        have hk : k.mult = false := hl k (by simp)
        simp only [List.foldl_cons, List.map_cons, List.sum_cons, hk, Bool.false_eq_true, if_false]
        rw [ih (fun k' h' => hl k' (by simp [h']))]
        ring
    unfold covEntry
    rw [hsum ks hadd, hsum ks' fun k hk => hadd k (hperm.mem_iff.1 hk), (hperm.map _).sum_eq]
  · obtain ⟨h0, -⟩ := init_posDef hp hi
    rintro rfl
    exact h0 hperm.nil_eq.symm

/-- C319: two added kernels that differ in the scaling only are one kernel with the sum of the scalings. -/
theorem C319_merge {N : ℕ} (pre post : List (KDict N)) (k : KDict N) (a b : ℝ) (hadd : k.mult = false)
    (hp : PacksList (pre ++ { k with scaling := some a } :: { k with scaling := some b } :: post))
    (hp' : PacksList (pre ++ { k with scaling := some (a + b) } :: post)) (fp : List (Fin N → ℝ)) (t : List ℝ) (reg : Option ℝ)
    (sd : Bool) (gp : GP N)
    (hi : init fp t (pre ++ { k with scaling := some a } :: { k with scaling := some b } :: post) reg false sd = .ok gp) :
    ∃ gp', init fp t (pre ++ { k with scaling := some (a + b) } :: post) reg false sd = .ok gp' ∧
      (∀ test u, predict gp' test u = predict gp test u) ∧ ∀ test, predictUncertainty gp' test = predictUncertainty gp test := by
  refine same_model _ _ false (fun x y s => ?_) hp hp' (by simp) fp t reg sd gp hi
  rw [covEntry_append, covEntry_append]
  simp only [List.foldl_cons, hadd, Bool.false_eq_true, if_false, scaleFactor, unlog, columns, add_mul, add_assoc]

/-- C319: an added kernel of scaling zero can be left out. -/
theorem C319_zero {N : ℕ} (pre post : List (KDict N)) (k : KDict N) (hadd : k.mult = false) (hk : k.scaling = some 0)
    (hne : pre ++ post ≠ []) (hp : PacksList (pre ++ k :: post)) (hp' : PacksList (pre ++ post)) (fp : List (Fin N → ℝ)) (t : List ℝ)
    (reg : Option ℝ) (sd : Bool) (gp : GP N) (hi : init fp t (pre ++ k :: post) reg false sd = .ok gp) :
    ∃ gp', init fp t (pre ++ post) reg false sd = .ok gp' ∧ (∀ test u, predict gp' test u = predict gp test u) ∧
      ∀ test, predictUncertainty gp' test = predictUncertainty gp test := by
  refine same_model _ _ false (fun x y s => ?_) hp hp' hne fp t reg sd gp hi
  rw [covEntry_append, covEntry_append]
  simp only [List.foldl_cons, hadd, hk, Bool.false_eq_true, if_false, scaleFactor, unlog, zero_mul, add_zero]

/-- C319: a kernel marked as a factor multiplies the kernels listed before it; at the head of the list it has no effect at all. -/
theorem C319_first {N : ℕ} (ks : List (KDict N)) (k : KDict N) (hmult : k.mult = true) (hne : ks ≠ []) (hp : PacksList (k :: ks))
    (hp' : PacksList ks) (fp : List (Fin N → ℝ)) (t : List ℝ) (reg : Option ℝ) (log sd : Bool) (gp : GP N)
    (hi : init fp t (k :: ks) reg log sd = .ok gp) :
    ∃ gp', init fp t ks reg log sd = .ok gp' ∧ (∀ test u, predict gp' test u = predict gp test u) ∧
      ∀ test, predictUncertainty gp' test = predictUncertainty gp test := by
  refine same_model _ _ log (fun x y s => ?_) hp hp' hne fp t reg sd gp hi
  simp only [covEntry, List.foldl_cons, hmult, if_true, zero_mul]

/-- C319: a constant factor at the end of the list is the same as scaling all the kernels that are added by it. -/
theorem C319_factor {N : ℕ} (ks : List (KDict N)) (c : ℝ) (hadd : ∀ k ∈ ks, k.mult = false)
    (hp : PacksList (ks ++ [⟨.constant c, none, none, true⟩]))
    (hp' : PacksList (ks.map fun k => { k with scaling := some (c * k.scaling.getD 1) })) (hne : ks ≠ []) (fp : List (Fin N → ℝ)) (t : List ℝ)
    (reg : Option ℝ) (sd : Bool) (gp : GP N) (hi : init fp t (ks ++ [⟨.constant c, none, none, true⟩]) reg false sd = .ok gp) :
    ∃ gp', init fp t (ks.map fun k => { k with scaling := some (c * k.scaling.getD 1) }) reg false sd = .ok gp' ∧
      (∀ test u, predict gp' test u = predict gp test u) ∧ ∀ test, predictUncertainty gp' test = predictUncertainty gp test := by
  refine same_model _ _ false (fun x y s => ?_) hp hp' (by simpa using hne) fp t reg sd gp hi
  rw [covEntry_append]
  simp only [List.foldl_cons, List.foldl_nil, if_true, scaleFactor, unlog, entry, Bool.false_eq_true, if_false, one_mul]
  unfold covEntry
  have key : ∀ (l : List (KDict N)), (∀ k ∈ l, k.mult = false) → ∀ acc : ℝ,
      (l.map fun k : KDict N => ({ k with scaling := some (c * k.scaling.getD 1) } : KDict N)).foldl (fun cov k =>
        let v := scaleFactor k false * entry k.ktype (columns k) false x y s
        if k.mult then cov * v else cov + v) (acc * c) =
      l.foldl (fun cov k =>
        let v := scaleFactor k false * entry k.ktype (columns k) false x y s
        if k.mult then cov * v else cov + v) acc * c := by
    intro l hl
    induction l with
    | nil => intro acc; rfl
    | cons k l ih =>
      intro acc
      have hk : k.mult = false := hl k (by simp)
      simp only [List.map_cons, List.foldl_cons, hk, Bool.false_eq_true, if_false]
      rw [← ih fun k' h' => hl k' (by simp [h'])]
      congr 1
      have : scaleFactor k false = k.scaling.getD 1 := by
        unfold scaleFactor unlog; cases k.scaling <;> simp
      rw [this]
      simp only [scaleFactor, unlog, columns, Bool.false_eq_true, if_false]
      ring
  have := key ks hadd 0
  rw [zero_mul] at this
  exact this

/-- A linear and a constant kernel in either order; both lists can be used. -/
example : ∃ gp : GP 1, init [![1], ![2]] [1, 2] [⟨.constant 2, none, none, false⟩, ⟨.linear, none, some 1, false⟩] (some 1) false true = .ok gp ∧
    ∃ gp' : GP 1, init [![1], ![2]] [1, 2] [⟨.linear, none, some 1, false⟩, ⟨.constant 2, none, none, false⟩] (some 1) false true = .ok gp' ∧
      ∀ test u, predict gp' test u = predict gp test u := by
  have hp : PacksList [(⟨.constant 2, none, none, false⟩ : KDict 1), ⟨.linear, none, some 1, false⟩] := by
    simp [PacksList, Packs]
  have hp' : PacksList [(⟨.linear, none, some 1, false⟩ : KDict 1), ⟨.constant 2, none, none, false⟩] := by
    simp [PacksList, Packs]
  obtain ⟨gp, h⟩ := C113_can_build [![1], ![2]] [1, 2] [(⟨.constant 2, none, none, false⟩ : KDict 1), ⟨.linear, none, some 1, false⟩] 1 false true
    (by simp) rfl (by simp) hp (by simp [GoodKernel, columns]) (Or.inr one_ne_zero)
  obtain ⟨gp', h', e, -⟩ := C319_order _ _ (List.Perm.swap _ _ _) (by simp) hp hp' _ _ _ _ _ gp h
  exact ⟨gp, h, gp', h', e⟩

/-- Lists as in the other theorems. -/
example : PacksList ([(⟨.linear, none, some 1, false⟩ : KDict 1)] ++ [⟨.constant 2, none, none, true⟩]) ∧
    PacksList [(⟨.constant 2, none, none, true⟩ : KDict 1), ⟨.linear, none, some 1, false⟩] ∧
    PacksList ([(⟨.linear, none, some 0, false⟩ : KDict 1)] ++ [⟨.linear, none, some 1, false⟩]) := by
  simp [PacksList, Packs]

end CatLearn.Proc
