import Verif.Props.GPGradSequential

/-!
# Leaving one training point out of a model of values and gradients (C314)
-/

namespace CatLearn.GradProc

open CatLearn CatLearn.Kernel CatLearn.Scaling CatLearn.Proc Matrix

/-- Of data that differ at one place, what the model makes of the difference there points the same way as what it leaves. -/
private theorem left_core {N m : ℕ} (K : Matrix (Ix m N) (Ix m N) ℝ) (hK : K.PosSemidef) (r : ℝ) (δ γ : Ix m N → ℝ) (hγ : K *ᵥ γ + r ^ 2 • γ = δ)
    (last : Fin m) (h1 : ∀ i, i ≠ last → δ (.inl i) = 0) (h2 : ∀ i a, i ≠ last → δ (.inr (i, a)) = 0) :
    0 ≤ (K *ᵥ γ) (.inl last) * (δ (.inl last) - (K *ᵥ γ) (.inl last)) +
      ∑ a, (K *ᵥ γ) (.inr (last, a)) * (δ (.inr (last, a)) - (K *ᵥ γ) (.inr (last, a))) := by
  have e : ∀ p, (K *ᵥ γ) p = δ p - r ^ 2 * γ p := by
    intro p
    rw [← hγ]
    simp
  simp only [e]
  have q := hK.dotProduct_mulVec_nonneg γ
  rw [star_trivial, show K *ᵥ γ = fun p => δ p - r ^ 2 * γ p from funext e, dotProduct, Fintype.sum_sum_type, Fintype.sum_prod_type] at q
  have q1 : ∑ i, γ (.inl i) * (δ (.inl i) - r ^ 2 * γ (.inl i)) ≤ γ (.inl last) * (δ (.inl last) - r ^ 2 * γ (.inl last)) := by
    rw [← Finset.add_sum_erase _ _ (Finset.mem_univ last)]
    have : ∑ i ∈ Finset.univ.erase last, γ (.inl i) * (δ (.inl i) - r ^ 2 * γ (.inl i)) ≤ 0 := by
      refine Finset.sum_nonpos fun i hi => ?_
      rw [h1 i (Finset.ne_of_mem_erase hi)]
      nlinarith [mul_nonneg (sq_nonneg r) (sq_nonneg (γ (.inl i)))]
    linarith
  have q2 : ∑ i, ∑ a, γ (.inr (i, a)) * (δ (.inr (i, a)) - r ^ 2 * γ (.inr (i, a))) ≤
      ∑ a, γ (.inr (last, a)) * (δ (.inr (last, a)) - r ^ 2 * γ (.inr (last, a))) := by
    rw [← Finset.add_sum_erase _ _ (Finset.mem_univ last)]
    have : ∑ i ∈ Finset.univ.erase last, ∑ a, γ (.inr (i, a)) * (δ (.inr (i, a)) - r ^ 2 * γ (.inr (i, a))) ≤ 0 := by
      refine Finset.sum_nonpos fun i hi => Finset.sum_nonpos fun a _ => ?_
      rw [h2 i a (Finset.ne_of_mem_erase hi)]
      nlinarith [mul_nonneg (sq_nonneg r) (sq_nonneg (γ (.inr (i, a))))]
    linarith
  have q3 := mul_nonneg (sq_nonneg r) (q.trans (add_le_add q1 q2))
  refine q3.trans (le_of_eq ?_)
  rw [mul_add, Finset.mul_sum]
  congr 1
  · ring
  · exact Finset.sum_congr rfl fun a _ => by ring

private theorem left_last {N : ℕ} (ks : List (GDict N)) (hk : ∀ k ∈ ks, SumKernel k) (hs : ∀ k ∈ ks, GoodGrad k) (r : ℝ) (hr : r ≠ 0)
    (fp : List (Fin N → ℝ)) (t : List ℝ) (grad : List (Fin N → ℝ)) (hg : grad.length = fp.length) (x : Fin N → ℝ) (y : ℝ) (g : Fin N → ℝ)
    (rest all : GradGP N) (h : init fp t grad ks (some r) false = .ok rest)
    (h' : init (fp ++ [x]) (t ++ [y]) (grad ++ [g]) ks (some r) false = .ok all) :
    ∃ (f f' : (Fin N → ℝ) → ℝ) (d d' : Fin N → ℝ), (∀ z, predict all z = .ok (some (f z))) ∧ (∀ z, predict rest z = .ok (some (f' z))) ∧
      (∀ a, HasDerivAt (fun s => f (Function.update x a s)) (d a) (x a)) ∧ (∀ a, HasDerivAt (fun s => f' (Function.update x a s)) (d' a) (x a)) ∧
      0 ≤ (f x - f' x) * (y - f x) + ∑ a, (d a - d' a) * (g a - d a) := by
  obtain ⟨h0, h1, -, h3, h4, -, -⟩ := init_false h
  obtain ⟨-, -, -, -, -, hA, -⟩ := init_false h'
  obtain ⟨f', d', hf', hd'⟩ := C286_slopes ks hk (some r) fp t grad rest h x
  obtain ⟨mid, hm⟩ := C123_trains (fp ++ [x]) (t ++ [f' x]) (grad ++ [d']) ks (by intro e; simp [e] at h3) h4 hs r hr false (by simp) (by simp [h1]) (by simp [hg])
  have hmid := C286_nothing_new ks hk (some r) fp t grad rest mid h x (f' x) d' hg hm f' hf' rfl hd'
  set X' := (fp ++ [x]).get with hX'
  let last : Fin (fp ++ [x]).length := ⟨fp.length, by simp⟩
  have hlast : X' last = x := by simp [hX', last]
  set A := covGrad ks (some r) X' with hAdef
  set w := vec (N := N) (fp ++ [x]).length ((t ++ [y]) ++ flat (grad ++ [g])) with hw
  set w' := vec (N := N) (fp ++ [x]).length ((t ++ [f' x]) ++ flat (grad ++ [d'])) with hw'
  have hreg : A = covGrad ks none X' + r ^ 2 • (1 : Matrix _ _ ℝ) := by
    rw [hAdef, Matrix.smul_one_eq_diagonal]
    simp [covGrad]
  have hB := (C106_gradient_covariance_partial ks hs X').1 none
  have hf'z : ∀ z, f' z = covRow ks z X' ⬝ᵥ (A⁻¹ *ᵥ w') := by
    intro z
    have := hmid z
    rw [hf' z, (init_predict hm z).1] at this
    exact (Option.some.inj (Except.ok.inj this)).symm
  have slope : ∀ (v : Ix (fp ++ [x]).length N → ℝ) a, HasDerivAt (fun s => covRow ks (Function.update x a s) X' ⬝ᵥ v) ((covGrad ks none X' *ᵥ v) (.inr (last, a))) (x a) := by
    intro v a
    have q : HasDerivAt (fun s => ∑ p, covRow ks (Function.update (X' last) a s) X' p * v p) (∑ p, covGrad ks none X' (.inr (last, a)) p * v p) (X' last a) :=
      HasDerivAt.fun_sum fun p _ => (covRow_deriv ks hk X' last a p).mul_const (v p)
    rw [hlast] at q
    exact q
  have value : ∀ v : Ix (fp ++ [x]).length N → ℝ, covRow ks x X' ⬝ᵥ v = (covGrad ks none X' *ᵥ v) (.inl last) := by
    intro v
    have q := covRow_self ks (SumKernel.no_noise hk) X' last
    rw [hlast] at q
    rw [q]
    rfl
  have hd'' : ∀ a, d' a = (covGrad ks none X' *ᵥ (A⁻¹ *ᵥ w')) (.inr (last, a)) := fun a =>
    (hd' a).unique (by simp only [hf'z]; exact slope _ a)
  refine ⟨fun z => covRow ks z X' ⬝ᵥ (A⁻¹ *ᵥ w), f', fun a => (covGrad ks none X' *ᵥ (A⁻¹ *ᵥ w)) (.inr (last, a)), d', fun z => (init_predict h' z).1, hf',
    fun a => slope _ a, hd', ?_⟩
  obtain ⟨v1, v2⟩ := vec_append (N := N) (n := (fp ++ [x]).length) (t ++ [y]) (grad ++ [g]) (by simp [h1]) (by simp [hg])
  obtain ⟨v1', v2'⟩ := vec_append (N := N) (n := (fp ++ [x]).length) (t ++ [f' x]) (grad ++ [d']) (by simp [h1]) (by simp [hg])
  have small : ∀ i : Fin (fp ++ [x]).length, i ≠ last → i.1 < fp.length := by
    intro i hi
    have := i.2
    simp only [List.length_append, List.length_singleton] at this
    have : i.1 ≠ fp.length := fun e => hi (Fin.ext e)
    omega
  have hδ : (covGrad ks none X') *ᵥ (A⁻¹ *ᵥ (w - w')) + r ^ 2 • (A⁻¹ *ᵥ (w - w')) = w - w' := by
    have : A *ᵥ (A⁻¹ *ᵥ (w - w')) = w - w' := by
      rw [mulVec_mulVec, mul_nonsing_inv _ hA.det_pos.ne'.isUnit, one_mulVec]
    rw [← this]
    conv_rhs => rw [hreg]
    rw [add_mulVec, smul_mulVec, one_mulVec, ← hreg, this]
  have key := left_core (covGrad ks none X') hB r (w - w') (A⁻¹ *ᵥ (w - w')) hδ last
    (by
      intro i hi
      have := small i hi
      simp only [Pi.sub_apply, hw, hw', v1, v1']
      rw [List.getElem_append_left (by omega), List.getElem_append_left (by omega), sub_self])
    (by
      intro i a hi
      have := small i hi
      simp only [Pi.sub_apply, hw, hw', v2, v2']
      rw [List.getElem_append_left (by omega), List.getElem_append_left (by omega), sub_self])
  have l1 : (w - w') (.inl last) = y - f' x := by
    rw [Pi.sub_apply, hw, hw', v1, v1']
    simp [last, h1]
  have l2 : ∀ a, (w - w') (.inr (last, a)) = g a - d' a := by
    intro a
    rw [Pi.sub_apply, hw, hw', v2, v2']
    have e1 : (grad ++ [g])[fp.length]'(by simp [hg]) = g := by simp [List.getElem_append_right, hg]
    have e2 : (grad ++ [d'])[fp.length]'(by simp [hg]) = d' := by simp [List.getElem_append_right, hg]
    change ((grad ++ [g])[fp.length]'_) a - ((grad ++ [d'])[fp.length]'_) a = _
    rw [e1, e2]
  simp only [l1, l2, mulVec_sub, Pi.sub_apply] at key
  simp only [← hd'', ← value, ← hf'z] at key
  refine key.trans (le_of_eq ?_)
  congr 1
  · ring
  · exact Finset.sum_congr rfl fun a _ => by ring

/-- C314: the model of all data and the model without the training point `(x, y, g)`, wherever it is in the data: at `x`, value and slopes of the first have gone from those of
the second towards `y` and `g`, without going past them, so that they are nearer to them in the sum of squares, and have gone no further than that. -/
theorem C314_left_out {N : ℕ} (ks : List (GDict N)) (hk : ∀ k ∈ ks, SumKernel k) (hs : ∀ k ∈ ks, GoodGrad k) (r : ℝ) (hr : r ≠ 0)
    (before after : List ((Fin N → ℝ) × ℝ × (Fin N → ℝ))) (x : Fin N → ℝ) (y : ℝ) (g : Fin N → ℝ) (rest all : GradGP N)
    (h : init ((before ++ after).map (·.1)) ((before ++ after).map (·.2.1)) ((before ++ after).map (·.2.2)) ks (some r) false = .ok rest)
    (h' : init ((before ++ (x, y, g) :: after).map (·.1)) ((before ++ (x, y, g) :: after).map (·.2.1)) ((before ++ (x, y, g) :: after).map (·.2.2)) ks (some r) false =
      .ok all) :
    ∃ (f f' : (Fin N → ℝ) → ℝ) (d d' : Fin N → ℝ), (∀ z, predict all z = .ok (some (f z))) ∧ (∀ z, predict rest z = .ok (some (f' z))) ∧
      (∀ a, HasDerivAt (fun s => f (Function.update x a s)) (d a) (x a)) ∧ (∀ a, HasDerivAt (fun s => f' (Function.update x a s)) (d' a) (x a)) ∧
      0 ≤ (f x - f' x) * (y - f x) + ∑ a, (d a - d' a) * (g a - d a) ∧
      (y - f x) ^ 2 + ∑ a, (g a - d a) ^ 2 ≤ (y - f' x) ^ 2 + ∑ a, (g a - d' a) ^ 2 ∧
      (f x - f' x) ^ 2 + ∑ a, (d a - d' a) ^ 2 ≤ (y - f' x) ^ 2 + ∑ a, (g a - d' a) ^ 2 := by
  have perm : (before ++ (x, y, g) :: after).Perm ((before ++ after) ++ [(x, y, g)]) := by
    rw [List.append_assoc]
    exact (List.perm_append_singleton (x, y, g) after).symm.append_left before
  obtain ⟨q, hq, hsame⟩ := (C282_order _ _ perm ks (some r) false).2 all h'
  simp only [List.map_append (l₁ := before ++ after), List.map_cons, List.map_nil] at hq
  obtain ⟨f, f', d, d', p1, p2, p3, p4, p5⟩ := left_last ks hk hs r hr _ _ _ (by simp) x y g rest q h hq
  have e : (y - f' x) ^ 2 + ∑ a, (g a - d' a) ^ 2 = (y - f x) ^ 2 + ∑ a, (g a - d a) ^ 2 + ((f x - f' x) ^ 2 + ∑ a, (d a - d' a) ^ 2) +
      2 * ((f x - f' x) * (y - f x) + ∑ a, (d a - d' a) * (g a - d a)) := by
    have : ∑ a, (g a - d' a) ^ 2 = ∑ a, (g a - d a) ^ 2 + ∑ a, (d a - d' a) ^ 2 + 2 * ∑ a, (d a - d' a) * (g a - d a) := by
      rw [Finset.mul_sum, ← Finset.sum_add_distrib, ← Finset.sum_add_distrib]
      exact Finset.sum_congr rfl fun a _ => by ring
    rw [this]
    ring
  have n1 : 0 ≤ (y - f x) ^ 2 + ∑ a, (g a - d a) ^ 2 := by positivity
  have n2 : 0 ≤ (f x - f' x) ^ 2 + ∑ a, (d a - d' a) ^ 2 := by positivity
  exact ⟨f, f', d, d', fun z => by rw [← (hsame z).1]; exact p1 z, p2, p3, p4, p5, by linarith, by linarith⟩

/-- C314: two points, the first left out. -/
example : ∃ (before after : List ((Fin 1 → ℝ) × ℝ × (Fin 1 → ℝ))) (rest all : GradGP 1), before = [] ∧ after = [(![1], 2, ![0])] ∧
    init ((before ++ after).map (·.1)) ((before ++ after).map (·.2.1)) ((before ++ after).map (·.2.2)) [⟨.gaussian ![1], 2, false⟩] (some 1) false = .ok rest ∧
    init ((before ++ (![0], 1, ![1]) :: after).map (·.1)) ((before ++ (![0], 1, ![1]) :: after).map (·.2.1)) ((before ++ (![0], 1, ![1]) :: after).map (·.2.2))
      [⟨.gaussian ![1], 2, false⟩] (some 1) false = .ok all ∧
    (∀ k ∈ [(⟨.gaussian ![1], 2, false⟩ : GDict 1)], GoodGrad k) ∧ ∀ k ∈ [(⟨.gaussian ![1], 2, false⟩ : GDict 1)], SumKernel k := by
  let before : List ((Fin 1 → ℝ) × ℝ × (Fin 1 → ℝ)) := []
  let after : List ((Fin 1 → ℝ) × ℝ × (Fin 1 → ℝ)) := [(![1], 2, ![0])]
  obtain ⟨a, ha⟩ := C123_trains ((before ++ after).map (·.1)) ((before ++ after).map (·.2.1)) ((before ++ after).map (·.2.2)) [⟨.gaussian ![1], 2, false⟩] (by simp) rfl
    (by simp [GoodGrad]) 1 one_ne_zero false (by simp [after]) (by simp) (by simp)
  obtain ⟨b, hb⟩ := C123_trains ((before ++ (![0], 1, ![1]) :: after).map (·.1)) ((before ++ (![0], 1, ![1]) :: after).map (·.2.1)) ((before ++ (![0], 1, ![1]) :: after).map (·.2.2))
    [⟨.gaussian ![1], 2, false⟩] (by simp) rfl (by simp [GoodGrad]) 1 one_ne_zero false (by simp) (by simp) (by simp)
  exact ⟨before, after, a, b, rfl, rfl, ha, hb, by simp [GoodGrad], by simp [SumKernel]⟩

end CatLearn.GradProc
