import Verif.Props.GPRepeat
import Verif.Props.GPGradSequential

/-!
# Models of repeated values and gradients (C297)
-/

namespace CatLearn.GradProc

open CatLearn CatLearn.Kernel CatLearn.Proc Matrix

/-- Without noise kernels the covariance depends on the points only, not on which of them are the same. -/
theorem covGrad_map {N : ℕ} {n m : Type} [DecidableEq n] [DecidableEq m] (ks : List (GDict N)) (hn : ∀ k ∈ ks, ∀ t1 t2, k.gtype ≠ .noiseMulti t1 t2)
    (f : n → m) (Y : m → Fin N → ℝ) : covGrad ks none (fun i => Y (f i)) = (covGrad ks none Y).submatrix (among f) (among f) := by
  unfold covGrad
  ext p q
  simp only [Matrix.add_apply, submatrix_apply]
  congr 1
  induction ks using List.reverseRecOn with
  | nil => rfl
  | append_singleton ks k ih =>
    rw [List.foldl_append, List.foldl_append]
    simp only [List.foldl_cons, List.foldl_nil]
    have hg : gMatrix k.gtype (fun i => Y (f i)) p q = gMatrix k.gtype Y (among f p) (among f q) := by
      have := hn k (by simp)
      cases hk : k.gtype with
      | noiseMulti t1 t2 => exact absurd hk (this t1 t2)
      | _ => rcases p with i | ⟨i, a⟩ <;> rcases q with j | ⟨j, b⟩ <;> rfl
    have ih := ih fun k hk => hn k (by simp [hk])
    cases k.mult <;>
      simp only [Bool.false_eq_true, if_false, if_true, Matrix.add_apply, Matrix.hadamard_apply, Matrix.smul_apply, ih, hg]

/-- C297: repeated values and gradients.  A model that is made with its points `m` times, each time with values and gradients of their own, is the model
of the averaged values and gradients with the regularisation divided by the square root of `m`: it can be made, too, and gives the same predictions and
the same uncertainties. -/
theorem C297_repeat {N m n : ℕ} (hm : 0 < m) (X : Fin n → Fin N → ℝ) (ts : Fin m → Fin n → ℝ) (gs : Fin m → Fin n → Fin N → ℝ) (ks : List (GDict N))
    (hn : ∀ k ∈ ks, ∀ t1 t2, k.gtype ≠ .noiseMulti t1 t2) (r : ℝ) (gp : GradGP N)
    (h : init (List.replicate m (List.ofFn X)).flatten (List.ofFn fun i => List.ofFn (ts i)).flatten (List.ofFn fun i => List.ofFn (gs i)).flatten ks
      (some r) false = .ok gp) :
    ∃ gp', init (List.ofFn X) (List.ofFn fun j => (∑ i, ts i j) / m) (List.ofFn fun j => fun a => (∑ i, gs i j a) / m) ks (some (r / Real.sqrt m)) false =
        .ok gp' ∧ ∀ x, predict gp x = predict gp' x ∧ uncertainty gp x = uncertainty gp' x := by
  have hm' : (0:ℝ) < m := by exact_mod_cast hm
  have hreg : (r / Real.sqrt m) ^ 2 * m = r ^ 2 := by
    rw [div_pow, Real.sq_sqrt hm'.le]
    field_simp
  obtain ⟨h0, h1, h2, h3, h4, hpd, -⟩ := init_false h
  generalize hL : (List.replicate m (List.ofFn X)).flatten = L at *
  generalize hLT : (List.ofFn fun i => List.ofFn (ts i)).flatten = LT at *
  generalize hLG : (List.ofFn fun i => List.ofFn (gs i)).flatten = LG at *
  have d1 : L = (List.ofFn fun _ : Fin m => List.ofFn X).flatten := by
    rw [← hL]; congr 1; exact (List.ofFn_const m _).symm
  obtain ⟨l1, g1⟩ := flatten_positions (fun (_ : Fin m) j => X j) L d1
  obtain ⟨l2, g2⟩ := flatten_positions ts LT hLT.symm
  obtain ⟨l3, g3⟩ := flatten_positions gs LG hLG.symm
  set F : List (Fin N → ℝ) := List.ofFn X with hFd
  set T : List ℝ := List.ofFn fun j => (∑ i, ts i j) / (m:ℝ) with hTd
  set G : List (Fin N → ℝ) := List.ofFn fun j => fun a => (∑ i, gs i j a) / (m:ℝ) with hGd
  have hF : F.length = n := by simp [hFd]
  have hT : T.length = n := by simp [hTd]
  have hG : G.length = n := by simp [hGd]
  set e : Fin L.length → Fin F.length := fun p => finCongr hF.symm (finProdFinEquiv.symm (finCongr l1 p)).2 with he
  have hsum : ∀ (f : Fin m → Fin n → ℝ) (j : Fin F.length),
      (∑ p : Fin L.length, if e p = j then f (finProdFinEquiv.symm (finCongr l1 p)).1 (finProdFinEquiv.symm (finCongr l1 p)).2
        else 0) = ∑ i, f i (finCongr hF j) := by
    intro f j
    refine (Fintype.sum_equiv ((finCongr l1).trans finProdFinEquiv.symm) _
      (fun q : Fin m × Fin n => if finCongr hF.symm q.2 = j then f q.1 q.2 else 0) (fun p => rfl)).trans ?_
    rw [Fintype.sum_prod_type]
    refine Finset.sum_congr rfl fun i _ => ?_
    have : ∀ q : Fin n, (finCongr hF.symm q = j) = (q = finCongr hF j) := by
      intro q; rw [← Equiv.eq_symm_apply]; rfl
    simp only [this, Finset.sum_ite_eq', Finset.mem_univ, if_true]
  -- sums over values and gradients
  have hsum' : ∀ (f : Fin m → Fin n → ℝ) (g : Fin m → Fin n → Fin N → ℝ) (y : Ix L.length N → ℝ),
      (∀ p, y (.inl p) = f (finProdFinEquiv.symm (finCongr l1 p)).1 (finProdFinEquiv.symm (finCongr l1 p)).2) →
      (∀ p a, y (.inr (p, a)) = g (finProdFinEquiv.symm (finCongr l1 p)).1 (finProdFinEquiv.symm (finCongr l1 p)).2 a) →
      (∀ j, (∑ p, if among e p = (.inl j : Ix F.length N) then y p else 0) = ∑ i, f i (finCongr hF j)) ∧
      ∀ j a, (∑ p, if among e p = (.inr (j, a) : Ix F.length N) then y p else 0) = ∑ i, g i (finCongr hF j) a := by
    intro f g y hf hg
    constructor
    · intro j
      rw [Fintype.sum_sum_type]
      simp only [among, Sum.inl.injEq, reduceCtorEq, if_false, Finset.sum_const_zero, add_zero, hf]
      exact hsum f j
    · intro j a
      rw [Fintype.sum_sum_type, Fintype.sum_prod_type]
      simp only [among, Sum.inr.injEq, Prod.mk.injEq, reduceCtorEq, if_false, Finset.sum_const_zero, zero_add, hg]
      rw [← hsum (fun i j => g i j a) j]
      refine Finset.sum_congr rfl fun p _ => ?_
      by_cases hp : e p = j
      · simp [hp]
      · simp [hp]
  have hπ : ∀ j : Ix F.length N, (∑ p, if among e p = j then (1:ℝ) else 0) = (m:ℝ) := by
    have := hsum' (fun _ _ => 1) (fun _ _ _ => 1) (fun _ => 1) (fun _ => rfl) fun _ _ => rfl
    rintro (j | ⟨j, a⟩)
    · simpa using this.1 j
    · simpa using this.2 j a
  have gπ : L.get = fun p => F.get (e p) := by
    funext p
    rw [g1]
    simp [hFd, he]
    rfl
  have hK' : ∀ p q, covGrad ks (some r) L.get p q = covGrad ks none F.get (among e p) (among e q) + if p = q then r ^ 2 else 0 := by
    intro p q
    have hs : covGrad ks (some r) L.get = covGrad ks none L.get + Matrix.diagonal fun _ => r ^ 2 := by simp [covGrad]
    rw [hs, Matrix.add_apply, Matrix.diagonal_apply]
    congr 1
    rw [gπ, covGrad_map ks hn e F.get]
    rfl
  have hA : covGrad ks (some (r / Real.sqrt m)) F.get = covGrad ks none F.get + (r / Real.sqrt m) ^ 2 • (1 : Matrix (Ix F.length N) (Ix F.length N) ℝ) := by
    rw [Matrix.smul_one_eq_diagonal]
    simp [covGrad]
  have hpd' := copies_posDef _ _ (among e) m _ _ hm' hreg hπ hK' hpd
  rw [← hA] at hpd'
  have hF0 : F ≠ [] := by
    intro hF0
    apply h0
    rw [← hL, hF0]
    simp
  have hi' := init_of (fp := F) (t := T) (grad := G) (ks := ks) (reg := some (r / Real.sqrt m)) hF0 (hF.trans hT.symm) (by rw [hG, hF]) h3 h4 hpd'
  refine ⟨_, hi', fun x => ?_⟩
  obtain ⟨v1, v2⟩ := vec_append (N := N) LT LG (l2.trans l1.symm) (l3.trans l1.symm)
  obtain ⟨w1, w2⟩ := vec_append (N := N) T G (hT.trans hF.symm) (hG.trans hF.symm)
  have hrow : covRow ks x L.get = covRow ks x F.get ∘ among e := by
    rw [gπ]
    exact covRow_among ks x e F.get
  have hpost := fun c => copies_post (covGrad ks none F.get) _ (among e) m _ _ hm' hreg hπ hK' hpd (covRow ks x F.get) (vec L.length (LT ++ flat LG)) c
  have hmean : (fun j => (∑ p, if among e p = j then vec (N := N) L.length (LT ++ flat LG) p else 0) / (m:ℝ)) = vec F.length (T ++ flat G) := by
    have hs := hsum' ts gs (vec L.length (LT ++ flat LG)) (fun p => by
      rw [v1]
      exact g2 (finCongr (l1.trans l2.symm) p)) (fun p a => by
      rw [v2]
      exact congrFun (g3 (finCongr (l1.trans l3.symm) p)) a)
    funext j
    rcases j with j | ⟨j, a⟩
    · rw [hs.1, w1]
      simp [hTd]
      rfl
    · rw [hs.2, w2]
      have hg : ∀ (j : ℕ) (hj : j < G.length), G[j] a = (∑ i, gs i ⟨j, hG ▸ hj⟩ a) / (m:ℝ) := by
        intro j hj
        exact congrFun (List.getElem_ofFn hj) a
      rw [hg]
      rfl
  constructor
  · rw [(init_predict h x).1, (init_predict hi' x).1, hrow, (hpost 0).1, hmean, hA]
  · rw [(init_predict h x).2, (init_predict hi' x).2]
    cases kxx ks x with
    | error e => rfl
    | ok v =>
      simp only
      rw [hrow, (hpost v).2, hA]

/-- Two evaluations of each of two points. -/
example : ∃ gp : GradGP 1, init (List.replicate 2 (List.ofFn ![![(0:ℝ)], ![2]])).flatten
      (List.ofFn fun i => List.ofFn ((![![0, 1], ![2, 5]] : Fin 2 → Fin 2 → ℝ) i)).flatten
      (List.ofFn fun i => List.ofFn ((![![![1], ![2]], ![![3], ![4]]] : Fin 2 → Fin 2 → Fin 1 → ℝ) i)).flatten [⟨.gaussian ![1], 2, false⟩] (some 1) false =
        .ok gp :=
  C123_trains _ _ _ _ (by simp) rfl (by simp [GoodGrad]) 1 one_ne_zero false (by simp) (by simp) (by simp)

end CatLearn.GradProc
