import Verif.Props.GPGradRelations

/-!
# A further point for a model of values and gradients (C286)
-/

namespace CatLearn.GradProc

open CatLearn CatLearn.Kernel CatLearn.Scaling CatLearn.Proc Matrix

theorem extend_dot {n m : Type} [Fintype n] [Fintype m] (F : n → m) (hF : F.Injective) (w : n → ℝ) (z : m → ℝ) :
    Function.extend F w 0 ⬝ᵥ z = w ⬝ᵥ (z ∘ F) := by
  simp only [dotProduct, Function.comp_apply]
  symm
  refine Finset.sum_of_injOn F (fun i _ j _ hij => hF hij) (by simp) ?_ ?_
  · intro p _ hp
    rw [Function.extend_apply' _ _ _ (by rintro ⟨q, rfl⟩; exact hp (by simp))]
    simp
  · intro p _
    rw [hF.extend_apply]

/-- Entries of the covariance off the diagonal do not depend on the regularisation. -/
theorem covGrad_off {N : ℕ} {n : Type} [DecidableEq n] (ks : List (GDict N)) (reg : Option ℝ) (X : n → Fin N → ℝ) (p q : n ⊕ n × Fin N)
    (h : p ≠ q) : covGrad ks reg X p q = covGrad ks none X p q := by
  cases reg with
  | none => rfl
  | some r => simp [covGrad, Matrix.add_apply, Matrix.diagonal_apply, h]

theorem SumKernel.no_noise {N : ℕ} {ks : List (GDict N)} (hk : ∀ k ∈ ks, SumKernel k) : ∀ k ∈ ks, ∀ t1 t2, k.gtype ≠ .noiseMulti t1 t2 := by
  intro k h t1 t2 he
  have := (hk k h).2
  rw [he] at this
  exact this

/-- The slopes of a prediction at any point. -/
theorem covRow_slope {N n m : ℕ} (ks : List (GDict N)) (hk : ∀ k ∈ ks, SumKernel k) (X' : Fin m → Fin N → ℝ) (e : Fin n → Fin m) (last : Fin m)
    (α : Ix n N → ℝ) (a : Fin N) : HasDerivAt (fun s => covRow ks (Function.update (X' last) a s) (fun i => X' (e i)) ⬝ᵥ α)
      (∑ q, covGrad ks none X' (.inr (last, a)) (among e q) * α q) (X' last a) := by
  have h7 : HasDerivAt (fun s => ∑ q, covRow ks (Function.update (X' last) a s) X' (among e q) * α q)
      (∑ q, covGrad ks none X' (.inr (last, a)) (among e q) * α q) (X' last a) :=
    HasDerivAt.fun_sum fun q _ => (covRow_deriv ks hk X' last a (among e q)).mul_const (α q)
  refine h7.congr_of_eventuallyEq (Filter.Eventually.of_forall fun s => ?_)
  simp only [covRow_among]
  rfl

/-- C286: a point whose target and gradient are those a model already predicts teaches it nothing: the model with this point besides the others
makes the same predictions everywhere. -/
theorem C286_nothing_new {N : ℕ} (ks : List (GDict N)) (hk : ∀ k ∈ ks, SumKernel k) (reg : Option ℝ) (fp : List (Fin N → ℝ)) (t : List ℝ)
    (grad : List (Fin N → ℝ)) (gp gp' : GradGP N) (h : init fp t grad ks reg false = .ok gp) (x : Fin N → ℝ) (y : ℝ) (g : Fin N → ℝ)
    (hg : grad.length = fp.length) (h' : init (fp ++ [x]) (t ++ [y]) (grad ++ [g]) ks reg false = .ok gp')
    (f : (Fin N → ℝ) → ℝ) (hf : ∀ z, predict gp z = .ok (some (f z))) (hy : y = f x)
    (hd : ∀ a, HasDerivAt (fun s => f (Function.update x a s)) (g a) (x a)) (z : Fin N → ℝ) : predict gp' z = predict gp z := by
  obtain ⟨h0, h1, h2, h3, h4, h5, -⟩ := init_false h
  obtain ⟨-, -, -, -, -, h5', -⟩ := init_false h'
  have hfx : ∀ z, f z = covRow ks z fp.get ⬝ᵥ ((covGrad ks reg fp.get)⁻¹ *ᵥ vec fp.length (t ++ flat grad)) := by
    intro z
    have := hf z
    rw [(init_predict h z).1] at this
    simpa [postMean] using this.symm
  set α := (covGrad ks reg fp.get)⁻¹ *ᵥ vec fp.length (t ++ flat grad) with hα
  have hK1 : covGrad ks reg fp.get *ᵥ α = vec fp.length (t ++ flat grad) := by
    rw [hα, mulVec_mulVec, mul_nonsing_inv _ h5.det_pos.ne'.isUnit, one_mulVec]
  set X' := (fp ++ [x]).get with hX'
  let e : Fin fp.length → Fin (fp ++ [x]).length := fun i => (i.castAdd 1).cast (by simp)
  let last : Fin (fp ++ [x]).length := ⟨fp.length, by simp⟩
  have he : e.Injective := fun i j hij => by simpa [e, Fin.ext_iff] using hij
  have hX : fp.get = fun i => X' (e i) := by
    funext i
    simp [hX', e, List.getElem_append_left]
  have hlast : X' last = x := by simp [hX', last]
  have hne : ∀ i, e i ≠ last := fun i => by
    have := i.2
    simp [e, last, Fin.ext_iff]
    omega
  have hall : ∀ i : Fin (fp ++ [x]).length, (∃ j, e j = i) ∨ i = last := by
    intro i
    by_cases hi : i.1 < fp.length
    · exact Or.inl ⟨⟨i.1, hi⟩, by simp [e]⟩
    · right
      have := i.2
      simp only [List.length_append, List.length_singleton] at this
      simp only [last, Fin.ext_iff]
      omega
  have hF := among_injective (N := N) e he
  have hrow : ∀ z, covRow ks z fp.get = covRow ks z X' ∘ among e := by
    intro z; rw [hX, covRow_among]
  obtain ⟨v1, v2⟩ := vec_append (N := N) t grad h1.symm hg
  obtain ⟨w1, w2⟩ := vec_append (N := N) (n := (fp ++ [x]).length) (t ++ [y]) (grad ++ [g]) (by simp [h1]) (by simp [hg])
  have hsolve : covGrad ks reg X' *ᵥ Function.extend (among e) α 0 = vec (fp ++ [x]).length ((t ++ [y]) ++ flat (grad ++ [g])) := by
    have hrowdot : ∀ p, (covGrad ks reg X' *ᵥ Function.extend (among e) α 0) p = ∑ q, covGrad ks reg X' p (among e q) * α q := by
      intro p
      simp only [mulVec]
      rw [dotProduct_comm, extend_dot _ hF]
      simp only [dotProduct, Function.comp_apply]
      exact Finset.sum_congr rfl fun q _ => mul_comm _ _
    have hold : ∀ p, (covGrad ks reg X' *ᵥ Function.extend (among e) α 0) (among e p) = vec fp.length (t ++ flat grad) p := by
      intro p
      rw [hrowdot, ← hK1, hX, covGrad_among ks reg e he]
      rfl
    funext p
    rcases p with i | ⟨i, a⟩
    · rcases hall i with ⟨j, rfl⟩ | rfl
      · have := hold (.inl j)
        rw [show (Sum.inl (e j) : Ix (fp ++ [x]).length N) = among e (.inl j) from rfl, this, v1]
        change _ = vec _ _ (Sum.inl (e j))
        rw [w1]
        simp [e, List.getElem_append_left, ← h1]
      · rw [hrowdot, w1]
        have : ∀ q, covGrad ks reg X' (.inl last) (among e q) = covRow ks x fp.get q := by
          intro q
          rw [covGrad_off _ _ _ _ _ (by rcases q with j | ⟨j, b⟩ <;> simp [among, Ne.symm (hne j)]), hrow]
          have := congrFun (covRow_self ks (SumKernel.no_noise hk) X' last) (among e q)
          rw [hlast] at this
          exact this.symm
        simp only [this]
        have h6 : (t ++ [y])[fp.length]'(by simp [h1]) = y := by
          simp [List.getElem_append_right, h1]
        change _ = (t ++ [y])[fp.length]'_
        rw [h6, hy, hfx]
        rfl
    · rcases hall i with ⟨j, rfl⟩ | rfl
      · have := hold (.inr (j, a))
        rw [show (Sum.inr (e j, a) : Ix (fp ++ [x]).length N) = among e (.inr (j, a)) from rfl, this, v2]
        change _ = vec _ _ (Sum.inr (e j, a))
        rw [w2]
        have hj := j.2
        simp [e, List.getElem_append_left, hg]
      · rw [hrowdot, w2]
        have h6 : (grad ++ [g])[fp.length]'(by simp [hg]) = g := by
          simp [List.getElem_append_right, hg]
        change _ = ((grad ++ [g])[fp.length]'_) a
        rw [h6]
        have hder : HasDerivAt (fun s => f (Function.update x a s)) (∑ q, covGrad ks none X' (.inr (last, a)) (among e q) * α q) (x a) := by
          have h7 := covRow_slope ks hk X' e last α a
          rw [hlast] at h7
          refine h7.congr_of_eventuallyEq (Filter.Eventually.of_forall fun s => ?_)
          simp only [hfx, hX]
        have h8 := hder.unique (hd a)
        rw [← h8]
        refine Finset.sum_congr rfl fun q _ => ?_
        rw [covGrad_off _ _ _ _ _ (by rcases q with j | ⟨j, b⟩ <;> simp [among, Ne.symm (hne j)])]
  have hα' : (covGrad ks reg X')⁻¹ *ᵥ vec (fp ++ [x]).length ((t ++ [y]) ++ flat (grad ++ [g])) = Function.extend (among e) α 0 := by
    rw [← hsolve, mulVec_mulVec, nonsing_inv_mul _ h5'.det_pos.ne'.isUnit, one_mulVec]
  rw [hf z, (init_predict h' z).1]
  simp only [postMean, ← hX', hα', hfx]
  rw [dotProduct_comm, extend_dot _ hF, ← hrow, dotProduct_comm]

/-- C286: there is such a target and gradient for every point: predictions have slopes everywhere. -/
theorem C286_slopes {N : ℕ} (ks : List (GDict N)) (hk : ∀ k ∈ ks, SumKernel k) (reg : Option ℝ) (fp : List (Fin N → ℝ)) (t : List ℝ)
    (grad : List (Fin N → ℝ)) (gp : GradGP N) (h : init fp t grad ks reg false = .ok gp) (x : Fin N → ℝ) :
    ∃ (f : (Fin N → ℝ) → ℝ) (g : Fin N → ℝ), (∀ z, predict gp z = .ok (some (f z))) ∧
      ∀ a, HasDerivAt (fun s => f (Function.update x a s)) (g a) (x a) := by
  refine ⟨_, fun a => ∑ q, covGrad ks none (Fin.snoc fp.get x : Fin (fp.length + 1) → Fin N → ℝ) (.inr (Fin.last _, a)) (among Fin.castSucc q) *
    ((covGrad ks reg fp.get)⁻¹ *ᵥ vec fp.length (t ++ flat grad)) q, fun z => (init_predict h z).1, fun a => ?_⟩
  have h7 := covRow_slope ks hk (Fin.snoc fp.get x : Fin (fp.length + 1) → Fin N → ℝ) Fin.castSucc (Fin.last _)
    ((covGrad ks reg fp.get)⁻¹ *ᵥ vec fp.length (t ++ flat grad)) a
  simp only [Fin.snoc_last, Fin.snoc_castSucc] at h7
  exact h7

example : ∃ (gp gp' : GradGP 1) (f : (Fin 1 → ℝ) → ℝ) (g : Fin 1 → ℝ),
    init [![(0:ℝ)], ![1]] [1, 2] [![1], ![0]] [⟨.gaussian ![1], 1, false⟩, ⟨.constant 2, 1, false⟩] (some 1) false = .ok gp ∧
    (∀ z, predict gp z = .ok (some (f z))) ∧ (∀ a, HasDerivAt (fun s => f (Function.update ![3] a s)) (g a) ((![3] : Fin 1 → ℝ) a)) ∧
    init ([![(0:ℝ)], ![1]] ++ [![3]]) ([1, 2] ++ [f ![3]]) ([![1], ![0]] ++ [g]) [⟨.gaussian ![1], 1, false⟩, ⟨.constant 2, 1, false⟩] (some 1) false = .ok gp' := by
  have hk : ∀ k ∈ ([⟨.gaussian ![1], 1, false⟩, ⟨.constant 2, 1, false⟩] : List (GDict 1)), GoodGrad k := by simp [GoodGrad]
  obtain ⟨gp, h⟩ := C123_trains [![(0:ℝ)], ![1]] [1, 2] [![1], ![0]] [⟨.gaussian ![1], 1, false⟩, ⟨.constant 2, 1, false⟩] (by simp) rfl hk 1 one_ne_zero
    false (by simp) rfl rfl
  obtain ⟨f, g, hf, hg⟩ := C286_slopes _ (by simp [SumKernel]) _ _ _ _ gp h ![3]
  obtain ⟨gp', h'⟩ := C123_trains ([![(0:ℝ)], ![1]] ++ [![3]]) ([1, 2] ++ [f ![3]]) ([![1], ![0]] ++ [g])
    [⟨.gaussian ![1], 1, false⟩, ⟨.constant 2, 1, false⟩] (by simp) rfl hk 1 one_ne_zero false (by simp) rfl rfl
  exact ⟨gp, gp', f, g, h, hf, hg, h'⟩

end CatLearn.GradProc
