import Verif.Props.RidgeRelations
import Verif.Props.GPStationary

/-!
# A linear and a constant kernel: ridge regression with an intercept (C317)
-/

namespace CatLearn.RidgeSearch

open CatLearn CatLearn.Ridge CatLearn.Kernel CatLearn.Proc Matrix

/-- The features times `g`, with a column of `q` in front. -/
def withColumn {N : ℕ} (q g : ℝ) (x : Fin N → ℝ) : Fin (N + 1) → ℝ := Fin.cons q fun a => g * x a

private theorem colSum_all {N : ℕ} (x y : Fin N → ℝ) : colSum (List.finRange N) x y (fun _ a b => a * b) = x ⬝ᵥ y := by
  unfold colSum
  have : ((List.finRange N).zipIdx.map fun c => x c.1 * y c.1) = ((List.finRange N).zipIdx.map Prod.fst).map fun i => x i * y i := by
    simp only [List.map_map]; rfl
  rw [this, List.zipIdx_map_fst]
  simp only [dotProduct]
  rw [← List.sum_ofFn, List.ofFn_eq_map]

private theorem cov_column {N : ℕ} (s c : ℝ) (hs : 0 ≤ s) (hc : 0 ≤ c) (x y : Fin N → ℝ) (b : Bool) :
    covEntry [⟨.linear, none, none, false⟩] false (withColumn (Real.sqrt c) (Real.sqrt s) x) (withColumn (Real.sqrt c) (Real.sqrt s) y) b =
      covEntry [⟨.linear, none, some s, false⟩, ⟨.constant c, none, none, false⟩] false x y b := by
  simp only [covEntry, List.foldl_cons, List.foldl_nil, Bool.false_eq_true, if_false, zero_add, scaleFactor, unlog, one_mul, entry, columns,
    Option.getD_none, colSum_all]
  simp only [dotProduct, Fin.sum_univ_succ, withColumn, Fin.cons_zero, Fin.cons_succ]
  rw [Real.mul_self_sqrt hc, Finset.mul_sum, add_comm]
  congr 1
  refine Finset.sum_congr rfl fun a _ => ?_
  rw [mul_mul_mul_comm, Real.mul_self_sqrt hs]

/-- C317: a Gaussian process with a linear kernel of scaling `s` and a constant kernel `c` is ridge regression with the regularisation `r²` of the features times the root of
`s` and a further column with the root of `c`, whose coefficient gives the intercept. -/
theorem C317_intercept {N : ℕ} (svd : Svd (Fin (N + 1))) (hsvd : SvdOk svd) (fp : List (Fin N → ℝ)) (t : List ℝ) (s c : ℝ) (hs : 0 ≤ s) (hc : 0 ≤ c) (r : ℝ) (hr : r ≠ 0)
    (gp : GP N) (hi : init fp t [⟨.linear, none, some s, false⟩, ⟨.constant c, none, none, false⟩] (some r) false false = .ok gp) :
    ∃ (rows : List (Fin (N + 1) → ℝ)) (hl : t.length = rows.length) (b : ℝ) (w : Fin N → ℝ),
      rows = fp.map (fun x => Fin.cons (Real.sqrt c) fun a => Real.sqrt s * x a) ∧
      (rr svd ⟨none, none⟩ (Matrix.of rows.get) (fun i => t.get (i.cast hl.symm)) (r ^ 2) 0 false).1 = (Fin.cons b w : Fin (N + 1) → ℝ) ∧
      ∀ test, test ≠ [] → Proc.predict gp test false = .ok ⟨test.map fun x => some (Real.sqrt c * b + ∑ a, Real.sqrt s * w a * x a), none⟩ := by
  have hp : PacksList ([⟨.linear, none, some s, false⟩, ⟨.constant c, none, none, false⟩] : List (KDict N)) := by simp [PacksList, Packs]
  obtain ⟨gp', hi', -, hpred, -⟩ := transport_map (withColumn (Real.sqrt c) (Real.sqrt s)) _ [⟨.linear, none, none, false⟩] false (some r)
    (cov_column s c hs hc) hp (by simp [PacksList]) (by simp) fp t gp hi
  have hl : t.length = (fp.map (withColumn (Real.sqrt c) (Real.sqrt s))).length := by
    obtain ⟨-, ⟨-, hlen, -⟩, -⟩ := C43_init_partial _ _ _ hp _ _ _ gp hi
    simp [hlen]
  set coef := (rr svd ⟨none, none⟩ (Matrix.of (fp.map (withColumn (Real.sqrt c) (Real.sqrt s))).get) (fun i => t.get (i.cast hl.symm)) (r ^ 2) 0 false).1 with hcoef
  refine ⟨_, hl, coef 0, Fin.tail coef, rfl, (Fin.cons_self_tail coef).symm, fun test ht => ?_⟩
  rw [← hpred test false, C246_linear svd hsvd _ t r hr gp' hi' hl _ (by simpa using ht), ← hcoef, List.map_map]
  congr 2
  refine List.map_congr_left fun x _ => ?_
  simp only [Function.comp_apply, dotProduct, Fin.sum_univ_succ, withColumn, Fin.cons_zero, Fin.cons_succ, Fin.tail]
  congr 2
  exact Finset.sum_congr rfl fun a _ => by ring

/-- C317: two points. -/
example : ∃ gp : GP 1, init [![(0:ℝ)], ![2]] [1, 2] [⟨.linear, none, some 2, false⟩, ⟨.constant 3, none, none, false⟩] (some 1) false false = .ok gp :=
  C113_can_build [![(0:ℝ)], ![2]] [1, 2] [⟨.linear, none, some 2, false⟩, ⟨.constant 3, none, none, false⟩] 1 false false (by simp) rfl (by simp)
    (by simp [PacksList, Packs]) (by simp [GoodKernel]) (Or.inr one_ne_zero)

end CatLearn.RidgeSearch
