import Verif.Model.KernelSetup
import Verif.Props.Kernel
import Mathlib.Data.List.Perm.Basic

/-!
# Log scale, order of kernels, the quadratic kernel and preparation (C108-C112)
-/

namespace CatLearn.Kernel

open CatLearn

/-! ### Log scale -/

/-- The type of a kernel with all hyperparameters exponentiated. -/
noncomputable def expType : KType → KType
  | .gaussian w => .gaussian (w.map Real.exp)
  | .laplacian w => .laplacian (w.map Real.exp)
  | .sqe w => .sqe (w.map Real.exp)
  | .quadratic s d b => .quadratic (s.map Real.exp) (Real.exp d) b
  | .linear => .linear
  | .constant c => .constant (Real.exp c)
  | .noiseMulti h => .noiseMulti (h.map Real.exp)

/-- The kernel with all hyperparameters exponentiated. -/
noncomputable def expKernel {N : Nat} (k : KDict N) : KDict N :=
  { k with ktype := expType k.ktype, scaling := k.scaling.map Real.exp }

theorem pick_exp {w : List ℝ} {ncols i : Nat} (hw : w.length = 1 ∨ w.length = ncols) (hi : i < ncols) :
    Real.exp (pick w i) = pick (w.map Real.exp) i := by
  unfold pick
  rw [List.length_map]
  split
  · next h =>
    rw [List.getD_eq_getElem _ _ (by omega), List.getD_eq_getElem _ _ (by rw [List.length_map]; omega), List.getElem_map]
  · next h =>
    rw [List.getD_eq_getElem _ _ (by omega), List.getD_eq_getElem _ _ (by rw [List.length_map]; omega), List.getElem_map]

theorem colSum_congr {N : Nat} (cols : List (Fin N)) (x y : Fin N → ℝ) (f g : Nat → ℝ → ℝ → ℝ)
    (h : ∀ i < cols.length, ∀ a b, f i a b = g i a b) : colSum cols x y f = colSum cols x y g := by
  unfold colSum
  congr 1
  refine List.map_congr_left fun c hc => h _ ?_ _ _
  have := List.mem_zipIdx hc
  omega

theorem entry_exp {N : Nat} (k : KDict N) (hk : GoodKernel true k) (x y : Fin N → ℝ) (self : Bool) :
    entry k.ktype (columns k) true x y self = entry (expType k.ktype) (columns k) false x y self := by
  have hk := hk.2
  cases hkt : k.ktype with
  | gaussian w =>
    rw [hkt] at hk
    simp only [entry, expType, unlog, if_true, Bool.false_eq_true, if_false]
    rw [colSum_congr]
    intro i hi a b
    rw [pick_exp hk.1 hi]
  | laplacian w =>
    rw [hkt] at hk
    simp only [entry, expType, unlog, if_true, Bool.false_eq_true, if_false]
    rw [colSum_congr]
    intro i hi a b
    rw [pick_exp hk.1 hi]
  | sqe w =>
    rw [hkt] at hk
    simp only [entry, expType, unlog, if_true, Bool.false_eq_true, if_false]
    rw [colSum_congr]
    intro i hi a b
    rw [pick_exp hk.1 hi]
  | quadratic s d b =>
    rw [hkt] at hk
    simp only [entry, expType, unlog, if_true, Bool.false_eq_true, if_false]
    rcases s with _ | ⟨s1, s⟩
    · have hc : columns k = [] := by
        rcases hk.1.1 with h | h
        · simp at h
        · exact List.length_eq_zero_iff.mp h.symm
      rw [hc]
      simp [colSum]
    · rcases s with _ | ⟨s2, s⟩ <;> simp
  | linear => rfl
  | constant c => simp [entry, expType, unlog]
  | noiseMulti h =>
    rw [hkt] at hk
    have h2 : h.length = 2 := hk
    rcases h with _ | ⟨h1, h⟩
    · simp at h2
    · simp [entry, expType, unlog]

/-- C108 (`_partial`: every kernel has a 'scaling'): the covariance with hyperparameters on a log scale is the
covariance with the exponentiated hyperparameters. -/
theorem C108_log_scale_partial {N : Nat} {n : Type} [DecidableEq n] (ks : List (KDict N))
    (hk : ∀ k ∈ ks, GoodKernel true k) (hs : ∀ k ∈ ks, k.scaling.isSome) (reg : Option ℝ) (X : n → Fin N → ℝ) :
    covSelf ks true reg X = covSelf (ks.map expKernel) false (reg.map Real.exp) X := by
  have h1 : ∀ (x y : Fin N → ℝ) (self : Bool), covEntry ks true x y self =
      covEntry (ks.map expKernel) false x y self := by
    intro x y self
    unfold covEntry
    induction ks using List.reverseRecOn with
    | nil => rfl
    | append_singleton ks k ih =>
      rw [List.map_append, List.foldl_append, List.foldl_append, ih (fun k h => hk k (by simp [h]))
        (fun k h => hs k (by simp [h]))]
      have hsk := hs k (by simp)
      cases hsc : k.scaling with
      | none => rw [hsc] at hsk; simp at hsk
      | some s =>
        have h2 : scaleFactor (expKernel k) false = scaleFactor k true := by
          simp [scaleFactor, expKernel, hsc, unlog]
        have h3 : entry (expKernel k).ktype (columns (expKernel k)) false x y self =
            entry k.ktype (columns k) true x y self := (entry_exp k (hk k (by simp)) x y self).symm
        simp only [List.map_cons, List.map_nil, List.foldl_cons, List.foldl_nil, h2, h3]
        rfl
  unfold covSelf
  congr 1
  · ext i j
    exact h1 _ _ _
  · cases reg with
    | none => rfl
    | some r => simp [unlog]

example : ∀ k ∈ [(⟨.gaussian [0, -2], none, some (-1), false⟩ : KDict 2)], GoodKernel true k ∧ k.scaling.isSome := by
  simp [GoodKernel, GoodWidths, columns]

/-- C108 fails for a kernel without 'scaling': on a log scale the missing scaling of 1 is exponentiated and every
covariance is multiplied by `e`. -/
theorem C108_unscaled_violated {N : Nat} {n : Type} [DecidableEq n] (k : KDict N) (hk : GoodKernel true k)
    (hs : k.scaling = none) (hm : k.mult = false) (X : n → Fin N → ℝ) (i j : n) :
    covSelf [k] true none X i j = Real.exp 1 * covSelf [expKernel k] false none X i j ∧
    (covSelf [expKernel k] false none X i j ≠ 0 → covSelf [k] true none X i j ≠ covSelf [expKernel k] false none X i j) := by
  have h : covSelf [k] true none X i j = Real.exp 1 * covSelf [expKernel k] false none X i j := by
    have h2 := entry_exp k hk (X i) (X j) (decide (i = j))
    simp [covSelf, covEntry, scaleFactor, hs, hm, expKernel, unlog, columns] at h2 ⊢
    rw [h2]
  refine ⟨h, fun h0 he => ?_⟩
  rw [h] at he
  have h1 : (Real.exp 1 - 1) * covSelf [expKernel k] false none X i j = 0 := by linarith
  rcases mul_eq_zero.mp h1 with h2 | h2
  · have := Real.add_one_lt_exp (x := 1) one_ne_zero
    linarith
  · exact h0 h2

example : GoodKernel (N := 1) true ⟨.gaussian [0], none, none, false⟩ ∧
    covSelf (N := 1) [expKernel ⟨.gaussian [0], none, none, false⟩] false none (fun _ : Fin 1 => ![3]) 0 0 ≠ 0 := by
  constructor
  · simp [GoodKernel, GoodWidths, columns]
  · simp [covSelf, covEntry, scaleFactor, expKernel, expType, unlog, entry, colSum, columns]

/-! ### Order of kernels -/

/-- C109 (`_partial`: added kernels): the covariance does not depend on the order of the kernels in the list, and a
single kernel gives its scaled kernel function. -/
theorem C109_order_partial {N : Nat} (ks ks' : List (KDict N)) (hp : ks.Perm ks') (hm : ∀ k ∈ ks, k.mult = false)
    (log : Bool) (x y : Fin N → ℝ) (self : Bool) :
    covEntry ks log x y self = covEntry ks' log x y self ∧
    ∀ k ∈ ks, covEntry [k] log x y self = scaleFactor k log * entry k.ktype (columns k) log x y self := by
  have h1 : ∀ ks : List (KDict N), (∀ k ∈ ks, k.mult = false) → covEntry ks log x y self =
      (ks.map fun k => scaleFactor k log * entry k.ktype (columns k) log x y self).sum := by
    intro ks hm
    unfold covEntry
    induction ks using List.reverseRecOn with
    | nil => rfl
    | append_singleton ks k ih =>
      rw [List.foldl_append, ih fun k h => hm k (by simp [h])]
      simp [hm k (by simp)]
  refine ⟨?_, fun k hk => ?_⟩
  · rw [h1 ks hm, h1 ks' fun k hk => hm k (hp.mem_iff.mpr hk)]
    exact (hp.map _).sum_eq
  · simp [covEntry, hm k hk]

example : [(⟨.linear, none, none, false⟩ : KDict 2), ⟨.constant 1, none, none, false⟩].Perm
    [⟨.constant 1, none, none, false⟩, ⟨.linear, none, none, false⟩] := List.Perm.swap _ _ _

/-- C109 fails for products: with the operation 'multiplication' on every kernel the covariance is zero (the product is
started from a matrix of zeros), and exchanging the two factors of a product changes the covariance. -/
theorem C109_product_violated {N : Nat} (k k' : KDict N) (ks : List (KDict N)) (hm : k.mult = true)
    (hms : ∀ k ∈ ks, k.mult = true) (hm' : k'.mult = false) (log : Bool) (x y : Fin N → ℝ) (self : Bool) :
    covEntry (k :: ks) log x y self = 0 ∧
    covEntry [k, k'] log x y self = covEntry [k'] log x y self ∧
    covEntry [k', k] log x y self = covEntry [k'] log x y self *
      (scaleFactor k log * entry k.ktype (columns k) log x y self) := by
  refine ⟨?_, ?_, ?_⟩
  · unfold covEntry
    rw [List.foldl_cons]
    simp only [hm, if_true, zero_mul]
    induction ks with
    | nil => rfl
    | cons k2 ks ih =>
      rw [List.foldl_cons]
      simp only [hms k2 (by simp), if_true, zero_mul]
      exact ih fun k h => hms k (by simp [h])
  · simp [covEntry, hm, hm']
  · simp [covEntry, hm, hm']

/-! ### The quadratic kernel -/

/-- C110 (`_partial`: a single slope): the quadratic kernel depends on slope and degree as documented. -/
theorem C110_quadratic_single_partial {N : Nat} (cols : List (Fin N)) (s d : ℝ) (b : Bool) (x y : Fin N → ℝ)
    (self : Bool) :
    entry (.quadratic [s] d b) cols false x y self =
      (1 + 0.5 * colSum cols x y fun _ u v => (u / s * d - v / s * d) ^ 2) ^ (-d) := by
  simp [entry, unlog]

/-- The squared distance of two points in the columns of a kernel. -/
noncomputable def sqDist {N : Nat} (cols : List (Fin N)) (x y : Fin N → ℝ) : ℝ := (cols.map fun c => (x c - y c) ^ 2).sum

/-- The rational quadratic kernel as documented. -/
noncomputable def rational {N : Nat} (cols : List (Fin N)) (slope degree : ℝ) (x y : Fin N → ℝ) : ℝ :=
  (1 + sqDist cols x y / (2 * degree * slope ^ 2)) ^ (-degree)

private theorem quadratic_eq {N : Nat} (cols : List (Fin N)) (s d : ℝ) (b : Bool) (x y : Fin N → ℝ) (self : Bool) :
    entry (.quadratic [s] d b) cols false x y self = (1 + d ^ 2 / s ^ 2 * sqDist cols x y / 2) ^ (-d) := by
  rw [C110_quadratic_single_partial]
  congr 1
  have : colSum cols x y (fun _ u v => (u / s * d - v / s * d) ^ 2) = d ^ 2 / s ^ 2 * sqDist cols x y := by
    unfold colSum sqDist
    rw [← List.sum_map_mul_left]
    have h1 : (cols.zipIdx.map fun c => (x c.1 / s * d - y c.1 / s * d) ^ 2) =
        (cols.zipIdx.map Prod.fst).map fun c => d ^ 2 / s ^ 2 * (x c - y c) ^ 2 := by
      rw [List.map_map]
      apply List.map_congr_left
      intro c _
      simp only [Function.comp_apply]
      ring
    rw [h1, List.zipIdx_map_fst]
  rw [this]
  ring

theorem sqDist_nonneg {N : Nat} (cols : List (Fin N)) (x y : Fin N → ℝ) : 0 ≤ sqDist cols x y := by
  apply List.sum_nonneg
  intro v hv
  obtain ⟨c, -, rfl⟩ := List.mem_map.mp hv
  positivity

theorem sqDist_zero {N : Nat} (cols : List (Fin N)) (x y : Fin N → ℝ) : sqDist cols x y = 0 ↔ ∀ c ∈ cols, x c = y c := by
  unfold sqDist
  induction cols with
  | nil => simp
  | cons c cols ih =>
    rw [List.map_cons, List.sum_cons, List.forall_mem_cons, ← ih]
    have h1 : 0 ≤ (x c - y c) ^ 2 := sq_nonneg _
    have h2 := sqDist_nonneg cols x y
    unfold sqDist at h2
    rw [add_eq_zero_iff_of_nonneg h1 h2, sq_eq_zero_iff, sub_eq_zero]

/-- C110 (`_partial`: a single slope): the kernel is the documented one for the slope `s / d^(3/2)`, and for the slope given if the
degree is one. -/
theorem C110_rational_partial {N : Nat} (cols : List (Fin N)) (s d : ℝ) (hs : s ≠ 0) (hd : 0 < d) (b : Bool) (x y : Fin N → ℝ)
    (self : Bool) :
    entry (.quadratic [s] d b) cols false x y self = rational cols (s / (d * Real.sqrt d)) d x y ∧
      (d = 1 → entry (.quadratic [s] d b) cols false x y self = rational cols s d x y) := by
  have key : entry (.quadratic [s] d b) cols false x y self = rational cols (s / (d * Real.sqrt d)) d x y := by
    rw [quadratic_eq]
    unfold rational
    congr 2
    rw [div_pow, mul_pow, Real.sq_sqrt hd.le]
    field_simp
  refine ⟨key, ?_⟩
  rintro rfl
  rw [key]
  simp

/-- C110 (`_partial`: a single slope): the kernel is between zero and one, one exactly for points that agree, and the smaller the
farther the points are apart. -/
theorem C110_shape_partial {N : Nat} (cols : List (Fin N)) (s d : ℝ) (hs : s ≠ 0) (hd : 0 < d) (b : Bool) (x y x' y' : Fin N → ℝ)
    (self : Bool) :
    0 < entry (.quadratic [s] d b) cols false x y self ∧ entry (.quadratic [s] d b) cols false x y self ≤ 1 ∧
      (entry (.quadratic [s] d b) cols false x y self = 1 ↔ ∀ c ∈ cols, x c = y c) ∧
      (entry (.quadratic [s] d b) cols false x y self < entry (.quadratic [s] d b) cols false x' y' self ↔
        sqDist cols x' y' < sqDist cols x y) := by
  have hq : 0 < d ^ 2 / s ^ 2 := by positivity
  have hn := sqDist_nonneg cols x y
  have hn' := sqDist_nonneg cols x' y'
  have h1 : 0 < 1 + d ^ 2 / s ^ 2 * sqDist cols x y / 2 := by positivity
  have h1' : 0 < 1 + d ^ 2 / s ^ 2 * sqDist cols x' y' / 2 := by positivity
  have hge : 1 ≤ 1 + d ^ 2 / s ^ 2 * sqDist cols x y / 2 := by
    have : 0 ≤ d ^ 2 / s ^ 2 * sqDist cols x y / 2 := by positivity
    linarith
  have hlt : ∀ u v : ℝ, 0 < u → 0 < v → (u ^ (-d) < v ^ (-d) ↔ v < u) := by
    intro u v hu hv
    exact Real.rpow_lt_rpow_iff_of_neg hu hv (by linarith)
  rw [quadratic_eq, quadratic_eq]
  have hle := Real.rpow_le_one_of_one_le_of_nonpos hge (show -d ≤ 0 by linarith)
  refine ⟨Real.rpow_pos_of_pos h1 _, hle, ?_, ?_⟩
  · rw [← sqDist_zero]
    constructor
    · intro h
      by_contra hne
      have hpos : 0 < sqDist cols x y := lt_of_le_of_ne hn (Ne.symm hne)
      have : (1 + d ^ 2 / s ^ 2 * sqDist cols x y / 2) ^ (-d) < (1:ℝ) ^ (-d) := by
        rw [hlt _ _ h1 one_pos]
        have : 0 < d ^ 2 / s ^ 2 * sqDist cols x y / 2 := by positivity
        linarith
      rw [h, Real.one_rpow] at this
      exact lt_irrefl _ this
    · intro h
      rw [h]
      simp
  · rw [hlt _ _ h1 h1']
    constructor
    · intro h
      have : d ^ 2 / s ^ 2 * sqDist cols x' y' < d ^ 2 / s ^ 2 * sqDist cols x y := by linarith
      exact (mul_lt_mul_iff_right₀ hq).mp this
    · intro h
      have := (mul_lt_mul_iff_right₀ hq).mpr h
      linarith

/-- C110 fails for every degree other than one: the kernel of different points is not the documented one. -/
theorem C110_degree_violated {N : Nat} (cols : List (Fin N)) (s d : ℝ) (hs : s ≠ 0) (hd : 0 < d) (hd1 : d ≠ 1) (b : Bool)
    (x y : Fin N → ℝ) (c : Fin N) (hc : c ∈ cols) (hxy : x c ≠ y c) (self : Bool) :
    entry (.quadratic [s] d b) cols false x y self ≠ rational cols s d x y := by
  rw [quadratic_eq]
  unfold rational
  have hpos : 0 < sqDist cols x y :=
    lt_of_le_of_ne (sqDist_nonneg cols x y) fun h => hxy ((sqDist_zero cols x y).mp h.symm c hc)
  intro h
  have h1 : 0 < 1 + d ^ 2 / s ^ 2 * sqDist cols x y / 2 := by positivity
  have h2 : 0 < 1 + sqDist cols x y / (2 * d * s ^ 2) := by positivity
  have h3 := (Real.rpow_left_inj h1.le h2.le (show -d ≠ 0 by linarith)).mp h
  have h4 : d ^ 3 = 1 := by
    have : d ^ 2 / s ^ 2 * sqDist cols x y / 2 = sqDist cols x y / (2 * d * s ^ 2) := by linarith
    field_simp at this
    nlinarith
  have : (d - 1) * (d ^ 2 + d + 1) = 0 := by linear_combination h4
  rcases mul_eq_zero.mp this with h5 | h5
  · exact hd1 (by linarith)
  · nlinarith

/-- C110 fails for more than one feature: the degree is not used at all (the second slope takes its place), nor is any
slope from the third on. -/
theorem C110_quadratic_violated {N : Nat} (cols : List (Fin N)) (s1 s2 : ℝ) (s s' : List ℝ) (d d' : ℝ) (b : Bool)
    (log : Bool) (x y : Fin N → ℝ) (self : Bool) :
    entry (.quadratic (s1 :: s2 :: s) d b) cols log x y self =
      entry (.quadratic (s1 :: s2 :: s') d' b) cols log x y self ∧
    entry (.quadratic (s1 :: s2 :: s) d b) cols log x y self = entry (.quadratic [s1] s2 b) cols log x y self := by
  simp [entry]

/-! ### Preparation -/

private theorem formatParam_length {p : Param} {nd : Nat} {l : List ℝ} (h : formatParam p nd = .ok l) :
    l.length = nd := by
  cases p with
  | scalar t => simp [formatParam] at h; subst h; simp
  | list l' =>
    simp only [formatParam] at h
    split at h
    · simp at h; subst h; assumption
    · simp at h

/-- The number of hyperparameters for each feature used. -/
def numDim {N : Nat} (k : RawDict N) : Nat :=
  if k.single = some true then 1 else (k.features.map List.length).getD N

/-- The number of hyperparameters of a kernel besides its scaling, if it has `m` for the features. -/
def slots (m : Nat) : RawType → Nat
  | .gaussian _ => m
  | .laplacian _ => m
  | .quadratic _ _ => m + 1
  | .linear => 0
  | .constant _ => 1
  | .constantMulti h => h.length
  | .noiseMulti h => h.length
  | .other _ => 0

private theorem given {o : Option Nat} {n : Nat} (h : ∀ b, o = some b → b = n) : o = none ∨ o = some n := by
  cases o with
  | none => exact .inl rfl
  | some b => exact .inr (by rw [h b rfl])

/-- What preparation of a kernel guarantees. -/
private theorem prepKernel_spec {N : Nat} (k : RawDict N) (p : PDict N) (nb : Nat) (h : prepKernel k = .ok (p, nb)) :
    p.features = k.features ∧ p.scaling = k.scaling ∧ p.mult = k.mult ∧
    (∀ w, p.ktype = .gaussian w → w.length = numDim k ∧ ∀ t ∈ w, 0 < t) ∧
    (∀ w, p.ktype = .laplacian w → w.length = numDim k) ∧
    (∀ s d, p.ktype = .quadratic s d → s.length = numDim k) ∧
    ((∀ b, k.bounds = some b → b = slots (numDim k) k.ktype) → (∀ b, k.scalingBounds = some b → b = 1) →
      (∀ h, k.bounds = none → k.ktype = .constantMulti h → h.length = 3) →
      (∀ h, k.bounds = none → k.ktype = .noiseMulti h → h.length = 2) → nb = (hyperparameters p).length) := by
  unfold prepKernel at h
  have hnd : ∀ nd : Nat, featureCount k = .ok nd → (if k.single = some true then 1 else nd) = numDim k := by
    intro nd hn
    unfold numDim
    unfold featureCount at hn
    cases hf : k.features with
    | none => simp [hf] at hn; simp [hn]
    | some f =>
      simp only [hf] at hn
      split at hn
      · simp at hn; simp [hn]
      · simp at hn
  cases he : featureCount k with
  | error e => simp [he, bind, Except.bind] at h
  | ok nd =>
    have hnd := hnd nd he
    simp only [he, bind, Except.bind] at h
    rw [hnd] at h
    obtain ⟨kt, fe, si, sc, mu, bo, sb⟩ := k
    simp only at h ⊢
    generalize numDim _ = m at h ⊢
    cases kt with
    | gaussian w =>
      cases w with
      | none => simp [throw, throwThe, MonadExceptOf.throw] at h
      | some q =>
        simp only at h
        cases hf : formatParam q m with
        | error e => simp [hf] at h
        | ok w =>
          have hl := formatParam_length hf
          simp only [hf] at h
          split at h
          · next hpos =>
            simp [pure, Except.pure] at h
            obtain ⟨rfl, rfl⟩ := h
            refine ⟨rfl, rfl, rfl, ?_, by simp, by simp, ?_⟩
            · intro w' hw'
              simp at hw'
              subst hw'
              exact ⟨hl, hpos⟩
            · intro h1 h2 _ _
              rcases given h1 with rfl | rfl <;> rcases given h2 with rfl | rfl <;> cases sc <;> simp_all [hyperparameters, slots, Nat.add_comm]
          · simp [throw, throwThe, MonadExceptOf.throw] at h
    | laplacian w =>
      cases w with
      | none => simp [throw, throwThe, MonadExceptOf.throw] at h
      | some q =>
        simp only at h
        cases hf : formatParam q m with
        | error e => simp [hf] at h
        | ok w =>
          have hl := formatParam_length hf
          simp [hf, pure, Except.pure] at h
          obtain ⟨rfl, rfl⟩ := h
          refine ⟨rfl, rfl, rfl, by simp, ?_, by simp, ?_⟩
          · intro w' hw'
            simp at hw'
            subst hw'
            exact hl
          · intro h1 h2 _ _
            rcases given h1 with rfl | rfl <;> rcases given h2 with rfl | rfl <;> cases sc <;> simp_all [hyperparameters, slots, Nat.add_comm]
    | quadratic s d =>
      cases s with
      | none => cases d <;> simp [throw, throwThe, MonadExceptOf.throw] at h
      | some q =>
        cases d with
        | none => simp [throw, throwThe, MonadExceptOf.throw] at h
        | some d =>
          simp only at h
          cases hf : formatParam q m with
          | error e => simp [hf] at h
          | ok w =>
            have hl := formatParam_length hf
            simp [hf, pure, Except.pure] at h
            obtain ⟨rfl, rfl⟩ := h
            refine ⟨rfl, rfl, rfl, by simp, by simp, ?_, ?_⟩
            · intro s' d' hw'
              simp at hw'
              rw [← hw'.1]
              exact hl
            · intro h1 h2 _ _
              rcases given h1 with rfl | rfl <;> rcases given h2 with rfl | rfl <;> cases sc <;> simp_all [hyperparameters, slots, Nat.add_comm]
    | linear =>
      simp [pure, Except.pure] at h
      obtain ⟨rfl, rfl⟩ := h
      refine ⟨rfl, rfl, rfl, by simp, by simp, by simp, ?_⟩
      intro h1 h2 _ _
      rcases given h2 with rfl | rfl <;> cases sc <;> simp [hyperparameters]
    | constant c =>
      simp only at h
      split at h
      · simp [throw, throwThe, MonadExceptOf.throw] at h
      · next hs =>
        cases c with
        | none => simp [throw, throwThe, MonadExceptOf.throw] at h
        | some c =>
          simp [pure, Except.pure] at h
          obtain ⟨rfl, rfl⟩ := h
          refine ⟨rfl, rfl, rfl, by simp, by simp, by simp, ?_⟩
          intro h1 h2 _ _
          rcases given h1 with rfl | rfl <;> rcases given h2 with rfl | rfl <;> cases sc <;> simp at hs <;> simp [hyperparameters, slots]
    | constantMulti c =>
      simp only at h
      split at h
      · simp [throw, throwThe, MonadExceptOf.throw] at h
      · next hs =>
        simp [pure, Except.pure] at h
        obtain ⟨rfl, rfl⟩ := h
        refine ⟨rfl, rfl, rfl, by simp, by simp, by simp, ?_⟩
        intro h1 h2 h3 _
        rcases given h1 with rfl | rfl <;> rcases given h2 with rfl | rfl <;> cases sc <;> simp_all [hyperparameters, slots, Nat.add_comm]
    | noiseMulti c =>
      simp only at h
      split at h
      · simp [throw, throwThe, MonadExceptOf.throw] at h
      · next hs =>
        simp [pure, Except.pure] at h
        obtain ⟨rfl, rfl⟩ := h
        refine ⟨rfl, rfl, rfl, by simp, by simp, by simp, ?_⟩
        intro h1 h2 _ h3
        rcases given h1 with rfl | rfl <;> rcases given h2 with rfl | rfl <;> cases sc <;> simp_all [hyperparameters, slots, Nat.add_comm]
    | other name => simp [throw, throwThe, MonadExceptOf.throw] at h

private theorem mapM_ok_cons {α β : Type} {f : α → Except PyErr β} {a : α} {l : List α} {r : List β}
    (h : (a :: l).mapM f = .ok r) : ∃ b s, r = b :: s ∧ f a = .ok b ∧ l.mapM f = .ok s := by
  rw [List.mapM_cons] at h
  cases h1 : f a with
  | error e => simp [h1, bind, Except.bind] at h
  | ok b =>
    cases h2 : l.mapM f with
    | error e => simp [h1, h2, bind, Except.bind] at h
    | ok s =>
      simp [h1, h2, bind, Except.bind, pure, Except.pure] at h
      exact ⟨b, s, h.symm, rfl, rfl⟩

private theorem mapM_ok_forall {α β : Type} {f : α → Except PyErr β} {l : List α} {r : List β}
    (h : l.mapM f = .ok r) : List.Forall₂ (fun a b => f a = .ok b) l r := by
  induction l generalizing r with
  | nil => simp [pure, Except.pure] at h; subst h; exact List.Forall₂.nil
  | cons a l ih =>
    obtain ⟨b, s, rfl, h1, h2⟩ := mapM_ok_cons h
    exact List.Forall₂.cons h1 (ih h2)

/-- C111 (`_partial`: bounds the user gives are as many as the kernel has hyperparameters, and without them the multi kernels have three and two
constants): `prepare_kernels` returns one bound for every hyperparameter and one for the regularisation. -/
theorem C111_bounds_partial {N : Nat} (ks : List (RawDict N)) (hb : ∀ k ∈ ks, ∀ b, k.bounds = some b → b = slots (numDim k) k.ktype)
    (hs : ∀ k ∈ ks, ∀ b, k.scalingBounds = some b → b = 1)
    (hc : ∀ k ∈ ks, ∀ h, k.bounds = none → k.ktype = .constantMulti h → h.length = 3)
    (hn : ∀ k ∈ ks, ∀ h, k.bounds = none → k.ktype = .noiseMulti h → h.length = 2)
    (ps : List (PDict N)) (nb : Nat) (h : prepareKernels ks = .ok (ps, nb)) :
    nb = (ps.map fun p => (hyperparameters p).length).sum + 1 := by
  unfold prepareKernels at h
  cases hm : ks.mapM prepKernel with
  | error e => simp [hm, bind, Except.bind] at h
  | ok qs =>
    simp [hm, bind, Except.bind, pure, Except.pure] at h
    obtain ⟨rfl, rfl⟩ := h
    have hf := mapM_ok_forall hm
    clear hm
    congr 1
    induction hf with
    | nil => rfl
    | @cons k q ks qs h1 _ ih =>
      have := (prepKernel_spec k q.1 q.2 h1).2.2.2.2.2.2 (hb k (by simp)) (hs k (by simp))
        (hc k (by simp)) (hn k (by simp))
      simp only [List.map_cons, List.sum_cons]
      rw [this, ih (fun k h => hb k (by simp [h])) (fun k h => hs k (by simp [h])) (fun k h => hc k (by simp [h])) (fun k h => hn k (by simp [h]))]

/-- C111 fails: the number of bounds the user gives is not compared with the number of hyperparameters.  Whatever kernel without scaling is accepted with some
bounds, it is accepted with any other number of bounds as well, with the same hyperparameters, and that number is returned (and one for the regularisation). -/
theorem C111_bounds_violated {N : Nat} (k : RawDict N) (hk : k.ktype ≠ .linear) (hs : k.scaling = none) (ps : List (PDict N)) (nb : Nat)
    (h : prepareKernels [k] = .ok (ps, nb)) (b : Nat) : prepareKernels [{ k with bounds := some b }] = .ok (ps, b + 1) := by
  have h1 : ∀ k : RawDict N, prepareKernels [k] = match prepKernel k with
      | .error e => .error e
      | .ok q => .ok ([q.1], q.2 + 1) := by
    intro k
    simp only [prepareKernels, List.mapM_cons, List.mapM_nil, bind, Except.bind, pure, Except.pure]
    cases prepKernel k <;> simp
  rw [h1] at h ⊢
  have h2 : ∀ q, prepKernel k = .ok q → prepKernel { k with bounds := some b } = .ok (q.1, b) := by
    intro q hq
    unfold prepKernel at hq ⊢
    have he : featureCount { k with bounds := some b } = featureCount k := rfl
    rw [he]
    cases hf : featureCount k with
    | error e => simp [hf, bind, Except.bind] at hq
    | ok nd =>
      obtain ⟨kt, fe, si, sc, mu, bo, sb⟩ := k
      simp only [hf, bind, Except.bind] at hq hs hk ⊢
      subst hs
      generalize (if si = some true then 1 else nd) = m at hq ⊢
      cases kt with
      | gaussian w =>
        cases w with
        | none => simp [throw, throwThe, MonadExceptOf.throw] at hq
        | some p =>
          simp only at hq ⊢
          cases hp : formatParam p m with
          | error e => simp [hp] at hq
          | ok w =>
            simp only [hp] at hq ⊢
            split at hq
            · next hpos => rw [if_pos hpos]; simp [pure, Except.pure] at hq ⊢; simp [← hq]
            · simp [throw, throwThe, MonadExceptOf.throw] at hq
      | laplacian w =>
        cases w with
        | none => simp [throw, throwThe, MonadExceptOf.throw] at hq
        | some p =>
          simp only at hq ⊢
          cases hp : formatParam p m with
          | error e => simp [hp] at hq
          | ok w => simp [hp, pure, Except.pure] at hq ⊢; simp [← hq]
      | quadratic p d =>
        cases p with
        | none => cases d <;> simp [throw, throwThe, MonadExceptOf.throw] at hq
        | some p =>
          cases d with
          | none => simp [throw, throwThe, MonadExceptOf.throw] at hq
          | some d =>
            simp only at hq ⊢
            cases hp : formatParam p m with
            | error e => simp [hp] at hq
            | ok w => simp [hp, pure, Except.pure] at hq ⊢; simp [← hq]
      | linear => exact absurd rfl hk
      | constant c =>
        simp only at hq ⊢
        split at hq
        · simp [throw, throwThe, MonadExceptOf.throw] at hq
        · next hs' =>
          rw [if_neg hs']
          cases c with
          | none => simp [throw, throwThe, MonadExceptOf.throw] at hq
          | some c => simp [pure, Except.pure] at hq ⊢; simp [← hq]
      | constantMulti c =>
        simp only at hq ⊢
        split at hq
        · simp [throw, throwThe, MonadExceptOf.throw] at hq
        · next hs' => rw [if_neg hs']; simp [pure, Except.pure] at hq ⊢; simp [← hq]
      | noiseMulti c =>
        simp only at hq ⊢
        split at hq
        · simp [throw, throwThe, MonadExceptOf.throw] at hq
        · next hs' => rw [if_neg hs']; simp [pure, Except.pure] at hq ⊢; simp [← hq]
      | other name => simp [throw, throwThe, MonadExceptOf.throw] at hq
  cases hq : prepKernel k with
  | error e => simp [hq] at h
  | ok q =>
    simp only [hq] at h
    rw [h2 q hq]
    simp only [Except.ok.injEq, Prod.mk.injEq] at h ⊢
    exact ⟨h.1, trivial⟩

example : prepareKernels (N := 2) [⟨.gaussian (some (.scalar 3)), none, none, none, false, some 7, none⟩] = .ok ([⟨.gaussian [3, 3], none, none, false⟩], 7 + 1) := by
  apply C111_bounds_violated ⟨.gaussian (some (.scalar 3)), none, none, none, false, none, none⟩ (by simp) rfl _ 3
  simp [prepareKernels, prepKernel, featureCount, formatParam, bind, Except.bind, pure, Except.pure, List.replicate]

/-- C111 fails: without bounds of the user a `constant_multi` kernel gets three and a `noise_multi` kernel two, however many hyperparameters it has. -/
theorem C111_multi_violated (N : Nat) (h : List ℝ) :
    prepareKernels (N := N) [⟨.constantMulti h, none, none, none, false, none, none⟩] = .ok ([⟨.constantMulti h, none, none, false⟩], 3 + 1) ∧
    prepareKernels (N := N) [⟨.noiseMulti h, none, none, none, false, none, none⟩] = .ok ([⟨.noiseMulti h, none, none, false⟩], 2 + 1) := by
  constructor <;> simp [prepareKernels, prepKernel, featureCount, bind, Except.bind, pure, Except.pure]

/-- C111: preparation keeps number, order, features, scaling and operation of the kernels, and makes lists of widths and
slopes with one entry for each feature used, or one entry for a single dimension; the widths of Gaussian kernels are
positive. -/
theorem C111_format {N : Nat} (ks : List (RawDict N)) (ps : List (PDict N)) (nb : Nat)
    (h : prepareKernels ks = .ok (ps, nb)) :
    List.Forall₂ (fun k p => p.features = k.features ∧ p.scaling = k.scaling ∧ p.mult = k.mult ∧
      (∀ w, p.ktype = .gaussian w → w.length = numDim k ∧ ∀ t ∈ w, 0 < t) ∧
      (∀ w, p.ktype = .laplacian w → w.length = numDim k) ∧
      (∀ s d, p.ktype = .quadratic s d → s.length = numDim k)) ks ps := by
  unfold prepareKernels at h
  cases hm : ks.mapM prepKernel with
  | error e => simp [hm, bind, Except.bind] at h
  | ok qs =>
    simp [hm, bind, Except.bind, pure, Except.pure] at h
    obtain ⟨rfl, rfl⟩ := h
    have hf := mapM_ok_forall hm
    clear hm
    induction hf with
    | nil => exact List.Forall₂.nil
    | @cons k q ks qs h1 _ ih =>
      have := prepKernel_spec k q.1 q.2 h1
      exact List.Forall₂.cons ⟨this.1, this.2.1, this.2.2.1, this.2.2.2.1, this.2.2.2.2.1, this.2.2.2.2.2.1⟩ ih

example : prepareKernels (N := 2) [⟨.laplacian (some (.scalar 3)), none, none, some 1, false, none, none⟩] =
    .ok ([⟨.laplacian [3, 3], none, some 1, false⟩], 4) := by
  simp [prepareKernels, prepKernel, featureCount, formatParam, bind, Except.bind, pure, Except.pure, List.replicate]

/-- A kernel of one of the types with a `_setup` function, written with one number for all features. -/
inductive PlainKernel {N : Nat} (k : RawDict N) : Prop
  | gaussian (w : ℝ) (hw : 0 < w) (h : k.ktype = .gaussian (some (.scalar w)))
  | laplacian (w : ℝ) (h : k.ktype = .laplacian (some (.scalar w)))
  | quadratic (s d : ℝ) (h : k.ktype = .quadratic (some (.scalar s)) (some d))
  | linear (h : k.ktype = .linear)
  | constant (c : ℝ) (h : k.ktype = .constant (some c)) (hs : k.scaling = none) (hb : k.scalingBounds = none)

/-- C112 (partial).  Any list of Gaussian, Laplacian, quadratic, linear and constant kernels with one number for all features, on
any selection of features without repetition, can be used.  Missing: the types of the violation. -/
theorem C112_usable_types_partial {N : Nat} (ks : List (RawDict N)) (hk : ∀ k ∈ ks, PlainKernel k)
    (hf : ∀ k ∈ ks, ∀ f, k.features = some f → f.Nodup) :
    ∃ ps nb, prepareKernels ks = .ok (ps, nb) ∧ ps.length = ks.length := by
  have h1 : ∀ k ∈ ks, ∃ q, prepKernel k = .ok q := by
    intro k hkm
    have hfc : ∃ c, featureCount k = .ok c := by
      unfold featureCount
      cases hfe : k.features with
      | none => exact ⟨N, rfl⟩
      | some f =>
        have := (hf k hkm f hfe).length_le_card
        simp only [Fintype.card_fin] at this
        exact ⟨f.length, by simp [this]⟩
    obtain ⟨c, hc⟩ := hfc
    unfold prepKernel
    cases hk k hkm with
    | gaussian w hw h =>
      have : ∀ nd, ∀ t ∈ List.replicate nd w, 0 < t := fun nd t ht => by rw [List.eq_of_mem_replicate ht]; exact hw
      simp [hc, h, formatParam, bind, Except.bind, pure, Except.pure, hw]
    | laplacian w h => simp [hc, h, formatParam, bind, Except.bind, pure, Except.pure]
    | quadratic s d h => simp [hc, h, formatParam, bind, Except.bind, pure, Except.pure]
    | linear h => simp [hc, h, bind, Except.bind, pure, Except.pure]
    | constant c' h hs hb => simp [hc, h, hs, hb, bind, Except.bind, pure, Except.pure]
  have h2 : ∀ l : List (RawDict N), (∀ k ∈ l, ∃ q, prepKernel k = .ok q) → ∃ qs, l.mapM prepKernel = .ok qs ∧ qs.length = l.length := by
    intro l
    induction l with
    | nil => intro _; exact ⟨[], rfl, rfl⟩
    | cons k l ih =>
      intro h
      obtain ⟨q, hq⟩ := h k (by simp)
      obtain ⟨qs, hqs, hl⟩ := ih fun k hk => h k (by simp [hk])
      refine ⟨q :: qs, ?_, by simp [hl]⟩
      rw [List.mapM_cons]
      simp only [bind, Except.bind, hq, hqs, pure, Except.pure]
  obtain ⟨qs, hqs, hl⟩ := h2 ks h1
  refine ⟨qs.map Prod.fst, (qs.map Prod.snd).sum + 1, ?_, by simp [hl]⟩
  unfold prepareKernels
  simp only [hqs, bind, Except.bind, pure, Except.pure]

example : ∀ k ∈ ([⟨.gaussian (some (.scalar 1)), none, none, some 1, false, none, none⟩,
    ⟨.linear, some [0, 2], none, none, true, none, none⟩] : List (RawDict 3)),
    PlainKernel k ∧ ∀ f, k.features = some f → f.Nodup := by
  intro k hk
  rcases List.mem_cons.mp hk with rfl | hk
  · exact ⟨.gaussian 1 one_pos rfl, by simp⟩
  · rw [List.mem_singleton.mp hk]
    refine ⟨.linear rfl, fun f hf => ?_⟩
    cases hf
    decide

/-- C112 fails: kernel types without a `_setup` function ('sqe', 'scaled_sqe' and 'AA' are implemented in `kernels.py`
and in the packing of hyperparameters) make every preparation fail. -/
theorem C112_unusable_types_violated {N : Nat} (ks : List (RawDict N)) (k : RawDict N) (hk : k ∈ ks) (name : String)
    (ht : k.ktype = .other name) (r : List (PDict N) × Nat) : prepareKernels ks ≠ .ok r := by
  intro h
  unfold prepareKernels at h
  cases hm : ks.mapM prepKernel with
  | error e => simp [hm, bind, Except.bind] at h
  | ok qs =>
    have hf := mapM_ok_forall hm
    clear hm h
    induction hf with
    | nil => simp at hk
    | @cons k2 q ks qs h1 _ ih =>
      rcases List.mem_cons.mp hk with rfl | hk
      · unfold prepKernel at h1
        rw [ht] at h1
        cases hfe : featureCount k <;>
          simp [hfe, bind, Except.bind, throw, throwThe, MonadExceptOf.throw] at h1
      · exact ih hk

/-- The number of widths a kernel needs. -/
def widthCount {N : Nat} (k : RawDict N) : Nat := if k.single = some true then 1 else (k.features.map List.length).getD N

/-- Kernels that cannot be used, and what is raised for each. -/
inductive Refused {N : Nat} (k : RawDict N) : PyErr → Prop
  | features (f : List (Fin N)) (hf : k.features = some f) (h : N < f.length) : Refused k .assertion
  | gaussianMissing (h : k.ktype = .gaussian none) : Refused k .assertion
  | laplacianMissing (h : k.ktype = .laplacian none) : Refused k .assertion
  | slopeMissing (d : Option ℝ) (h : k.ktype = .quadratic none d) : Refused k .assertion
  | degreeMissing (s : Option Param) (h : k.ktype = .quadratic s none) : Refused k .assertion
  | gaussianLength (w : List ℝ) (h : k.ktype = .gaussian (some (.list w))) (hl : w.length ≠ widthCount k) : Refused k .assertion
  | laplacianLength (w : List ℝ) (h : k.ktype = .laplacian (some (.list w))) (hl : w.length ≠ widthCount k) :
      Refused k .assertion
  | quadraticLength (w : List ℝ) (d : ℝ) (h : k.ktype = .quadratic (some (.list w)) (some d)) (hl : w.length ≠ widthCount k) :
      Refused k .assertion
  | gaussianSign (w : List ℝ) (h : k.ktype = .gaussian (some (.list w))) (hw : ∃ t ∈ w, t ≤ 0) : Refused k .assertion
  | gaussianScalar (w : ℝ) (h : k.ktype = .gaussian (some (.scalar w))) (hw : w ≤ 0) (hc : 0 < widthCount k) :
      Refused k .assertion
  | constantScaling (c : Option ℝ) (h : k.ktype = .constant c) (hs : k.scaling.isSome ∨ k.scalingBounds.isSome) :
      Refused k .assertion
  | constantMissing (h : k.ktype = .constant none) (hf : ∀ f, k.features = some f → f.length ≤ N) (hs : k.scaling = none)
      (hb : k.scalingBounds = none) : Refused k .key
  | multi (c : List ℝ) (h : k.ktype = .constantMulti c ∨ k.ktype = .noiseMulti c)
      (hs : k.scaling.isSome ∨ k.scalingBounds.isSome ∨ k.features.isSome ∨ k.single.isSome) : Refused k .assertion
  | unknown (name : String) (h : k.ktype = .other name) (hf : ∀ f, k.features = some f → f.length ≤ N) : Refused k .notImpl

private theorem refused_prep {N : Nat} (k : RawDict N) (e : PyErr) (h : Refused k e) : prepKernel k = .error e := by
  have hfc : (∃ f, k.features = some f ∧ N < f.length ∧ featureCount k = .error .assertion) ∨
      (∃ c, featureCount k = .ok c ∧ (if k.single = some true then 1 else c) = widthCount k) := by
    unfold featureCount widthCount
    cases hf : k.features with
    | none => exact Or.inr ⟨N, rfl, rfl⟩
    | some f =>
      by_cases hl : f.length ≤ N
      · exact Or.inr ⟨f.length, by simp [hl], rfl⟩
      · exact Or.inl ⟨f, rfl, by omega, by simp [hl]⟩
  unfold prepKernel
  rcases hfc with ⟨f, hf, hl, he⟩ | ⟨c, hc, hw⟩
  · rw [he]
    have : e = .assertion := by
      cases h with
      | constantMissing _ h1 _ _ => exact absurd (h1 f hf) (by omega)
      | unknown _ _ h1 => exact absurd (h1 f hf) (by omega)
      | _ => rfl
    subst this
    rfl
  · rw [hc]
    cases h with
    | features f hf h =>
      have hn : ¬ f.length ≤ N := by omega
      simp [featureCount, hf, hn] at hc
    | gaussianMissing h => simp [h, bind, Except.bind, throw, throwThe, MonadExceptOf.throw]
    | laplacianMissing h => simp [h, bind, Except.bind, throw, throwThe, MonadExceptOf.throw]
    | slopeMissing d h => simp [h, bind, Except.bind, throw, throwThe, MonadExceptOf.throw]
    | degreeMissing s h => cases s <;> simp [h, bind, Except.bind, throw, throwThe, MonadExceptOf.throw]
    | gaussianLength w h hl =>
      simp [h, hw, formatParam, hl, bind, Except.bind, throw, throwThe, MonadExceptOf.throw]
    | laplacianLength w h hl =>
      simp [h, hw, formatParam, hl, bind, Except.bind, throw, throwThe, MonadExceptOf.throw]
    | quadraticLength w d h hl =>
      simp [h, hw, formatParam, hl, bind, Except.bind, throw, throwThe, MonadExceptOf.throw]
    | gaussianSign w h hneg =>
      obtain ⟨t, ht, h0⟩ := hneg
      have : ¬ ∀ t ∈ w, 0 < t := fun hall => absurd (hall t ht) (by linarith)
      by_cases hl : w.length = widthCount k
      · simp only [h, hw, formatParam, hl, bind, Except.bind, throw, throwThe, MonadExceptOf.throw, if_true]
        rw [if_neg this]
      · simp [h, hw, formatParam, hl, bind, Except.bind, throw, throwThe, MonadExceptOf.throw]
    | gaussianScalar w h hneg hpos =>
      have : ¬ ∀ t ∈ List.replicate (widthCount k) w, 0 < t := fun hall =>
        absurd (hall w (List.mem_replicate.mpr ⟨by omega, rfl⟩)) (by linarith)
      simp only [h, hw, formatParam, bind, Except.bind, throw, throwThe, MonadExceptOf.throw]
      rw [if_neg this]
    | constantScaling c h hs => simp [h, hs, bind, Except.bind, throw, throwThe, MonadExceptOf.throw]
    | constantMissing h hf hs hb => simp [h, hs, hb, bind, Except.bind, throw, throwThe, MonadExceptOf.throw]
    | multi c h hs =>
      rcases h with h | h <;>
        simp only [h, bind, Except.bind, throw, throwThe, MonadExceptOf.throw] <;> rw [if_pos hs]
    | unknown name h hf => simp [h, bind, Except.bind, throw, throwThe, MonadExceptOf.throw]

/-- C112: the first kernel of the list that cannot be used decides what is raised: AssertionError for too many features, missing
or wrongly many or negative parameters and for options the kernel does not have, KeyError for a constant without value,
NotImplementedError for an unknown type. -/
theorem C112_refused {N : Nat} (before after : List (RawDict N)) (k : RawDict N) (e : PyErr)
    (hb : ∀ k' ∈ before, ∃ q, prepKernel k' = .ok q) (h : Refused k e) :
    prepareKernels (before ++ k :: after) = .error e := by
  have hm : (before ++ k :: after).mapM prepKernel = .error e := by
    induction before with
    | nil =>
      rw [List.nil_append, List.mapM_cons]
      simp only [bind, Except.bind, refused_prep k e h]
    | cons k' l ih =>
      obtain ⟨q, hq⟩ := hb k' (by simp)
      rw [List.cons_append, List.mapM_cons]
      simp only [bind, Except.bind, hq, ih fun x hx => hb x (by simp [hx])]
  unfold prepareKernels
  simp only [hm, bind, Except.bind]

example : Refused (⟨.linear, some [0, 0, 0], none, none, false, none, none⟩ : RawDict 2) .assertion :=
  .features [0, 0, 0] rfl (by decide)

end CatLearn.Kernel
