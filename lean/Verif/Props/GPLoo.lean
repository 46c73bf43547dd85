import Verif.Props.GPSequential
import Verif.Props.GPOrder

/-!
# Leaving one training point out of a Gaussian process (C313)
-/

namespace CatLearn.Proc

open CatLearn CatLearn.Kernel CatLearn.Scaling CatLearn.PSD Matrix

/-- C313: the model of all data and the model without the training point `(x, y)`, wherever it is in the data. The prediction at `x` of the first lies between
`y` and the prediction of the second, and error and uncertainty of the second follow from those of the first. -/
theorem C313_left_out {N : ℕ} (before after : List ((Fin N → ℝ) × ℝ)) (x : Fin N → ℝ) (y : ℝ) (ks : List (KDict N)) (hp : PacksList ks)
    (log : Bool) (hk : ∀ k ∈ ks, GoodKernel log k) (hn : ∀ k ∈ ks, ∀ h, k.ktype ≠ .noiseMulti h) (r : ℝ) (hr : unlog log r ≠ 0) (all rest : GP N)
    (h : init ((before ++ (x, y) :: after).map Prod.fst) ((before ++ (x, y) :: after).map Prod.snd) ks (some r) log false = .ok all)
    (h' : init ((before ++ after).map Prod.fst) ((before ++ after).map Prod.snd) ks (some r) log false = .ok rest) :
    ∃ m u m' u' : ℝ, predict all [x] true = .ok ⟨[some m], some [(some u, some (u + r))]⟩ ∧
      predict rest [x] true = .ok ⟨[some m'], some [(some u', some (u' + r))]⟩ ∧
      (∃ c, 0 ≤ c ∧ c < 1 ∧ m = (1 - c) * m' + c * y) ∧ |y - m| ≤ |y - m'| ∧ 0 ≤ u ∧ u ≤ u' ∧
      u ^ 2 < unlog log r ^ 2 ∧ y - m' = (y - m) * unlog log r ^ 2 / (unlog log r ^ 2 - u ^ 2) ∧
      u' ^ 2 = u ^ 2 * unlog log r ^ 2 / (unlog log r ^ 2 - u ^ 2) := by
  have perm : (before ++ (x, y) :: after).Perm ((before ++ after) ++ [(x, y)]) := by
    rw [List.append_assoc]
    exact (List.perm_append_singleton (x, y) after).symm.append_left before
  obtain ⟨g, hg, hsame, -⟩ := C116_order _ _ perm ks hp (some r) log false all h
  have hg : init ((before ++ after).map Prod.fst ++ [x]) ((before ++ after).map Prod.snd ++ [y]) ks (some r) log false = .ok g := by
    rw [← hg, List.map_append (l₁ := before ++ after), List.map_append (l₁ := before ++ after)]
    rfl
  obtain ⟨-, hc, k1, k2, k3, sr, ts, -⟩ := init_plain hp h'
  obtain ⟨-, hc', k1', k2', k3', sr', ts', -⟩ := init_plain hp hg
  obtain ⟨μ, μ', hm, hm', hvx, hpos, hu⟩ := update_models (x := x) (y := y) hp hn h' hg
  have g1 : ∀ k ∈ rest.kernels, GoodKernel rest.log k := by rw [k1, k3]; exact hk
  have g2 : ∀ k ∈ g.kernels, GoodKernel g.log k := by rw [k1', k3']; exact hk
  have hv := (C42_variance rest hc g1 x).1
  have hv' := (C42_variance g hc' g2 x).1
  have hs : 0 < unlog log r ^ 2 := by positivity
  obtain ⟨hux, huv⟩ := hu x
  rw [← hvx] at hux huv
  set V := rest.var x with hV
  set s := unlog log r ^ 2 with hs'
  have hV' : g.var x = V * s / (V + s) := by rw [huv]; field_simp; ring
  have hlt : g.var x < s := by
    rw [hV', div_lt_iff₀ hpos]
    nlinarith
  have hle : g.var x ≤ V := by
    rw [huv]
    have : 0 ≤ V ^ 2 / (V + s) := by positivity
    linarith
  have e1 : y - μ' x = s / (V + s) * (y - μ x) := by rw [hux]; field_simp; ring
  have hd : s - g.var x = s ^ 2 / (V + s) := by rw [hV']; field_simp; ring
  refine ⟨μ' x, Real.sqrt (g.var x), μ x, Real.sqrt V, ?_, ?_, ⟨V / (V + s), by positivity, ?_, ?_⟩, ?_, Real.sqrt_nonneg _, Real.sqrt_le_sqrt hle, ?_, ?_, ?_⟩
  · rw [hsame, hc'.predict_unc _ (by simp) r k2']
    simp only [List.map_cons, List.map_nil, sr', unc_plain hc' g2 ts', hm']
  · rw [hc.predict_unc _ (by simp) r k2]
    simp only [List.map_cons, List.map_nil, sr, unc_plain hc g1 ts, hm, hV]
  · rw [div_lt_one hpos]; linarith
  · rw [hux]; ring
  · rw [e1, abs_mul, abs_of_nonneg (by positivity)]
    exact mul_le_of_le_one_left (abs_nonneg _) (by rw [div_le_one hpos]; linarith)
  · rw [Real.sq_sqrt hv']; exact hlt
  · rw [Real.sq_sqrt hv', hd, e1]; field_simp
  · rw [Real.sq_sqrt hv, Real.sq_sqrt hv', hd, hV']; field_simp

/-- C313: three points, the one in the middle left out. -/
example : ∃ (before after : List ((Fin 1 → ℝ) × ℝ)) (all rest : GP 1), before = [(![0], 1)] ∧ after = [(![2], 3)] ∧
    init ((before ++ (![1], 5) :: after).map Prod.fst) ((before ++ (![1], 5) :: after).map Prod.snd) linK (some 1) false false = .ok all ∧
    init ((before ++ after).map Prod.fst) ((before ++ after).map Prod.snd) linK (some 1) false false = .ok rest ∧ unlog false 1 ≠ 0 := by
  let b : List ((Fin 1 → ℝ) × ℝ) := [(![0], 1)]
  let a : List ((Fin 1 → ℝ) × ℝ) := [(![2], 3)]
  obtain ⟨g, hg⟩ := C113_can_build ((b ++ (![1], 5) :: a).map Prod.fst) ((b ++ (![1], 5) :: a).map Prod.snd)
    linK 1 false false (by simp) (by simp) (by simp [linK]) linK_packs linK_good (Or.inr one_ne_zero)
  obtain ⟨g', hg'⟩ := C113_can_build ((b ++ a).map Prod.fst) ((b ++ a).map Prod.snd)
    linK 1 false false (by simp [b]) (by simp) (by simp [linK]) linK_packs linK_good (Or.inr one_ne_zero)
  exact ⟨b, a, g, g', rfl, rfl, hg, hg', by simp [unlog]⟩

end CatLearn.Proc
