import Verif.Props.KernelSetup
import Mathlib.Analysis.Calculus.Deriv.Inv
import Mathlib.Analysis.Calculus.Deriv.Pow
import Mathlib.Analysis.SpecialFunctions.ExpDeriv
import Mathlib.Data.List.GetD
import Mathlib.Algebra.BigOperators.Field

/-!
# Derivatives of the covariance with respect to the hyperparameters (C47)
-/

namespace CatLearn.Kernel

open CatLearn

/-! ### Single kernels -/

theorem colSum_finRange {N : Nat} (x y : Fin N → ℝ) (f : Nat → ℝ → ℝ → ℝ) :
    colSum (List.finRange N) x y f = ∑ a : Fin N, f a (x a) (y a) := by
  unfold colSum
  rw [Fin.sum_univ_def]
  congr 1
  apply List.ext_getElem
  · simp
  · intro i h1 h2
    simp

theorem pick_set {h : List ℝ} {N : Nat} (hl : h.length = 1 ∨ h.length = N) (l : Nat) (hlt : l < h.length) (a : Fin N)
    (t : ℝ) : pick (h.set l t) a = if h.length = 1 ∨ a.1 = l then t else pick h a := by
  unfold pick
  rw [List.length_set]
  by_cases h1 : h.length = 1
  · have : l = 0 := by omega
    subst this
    simp [h1, List.getD_eq_getElem?_getD]
  · have ha : a.1 < h.length := by have := a.2; omega
    by_cases hal : a.1 = l
    · simp [h1, hal, List.getD_eq_getElem?_getD, hlt]
    · simp [h1, hal, List.getD_eq_getElem?_getD, List.getElem?_set_ne (Ne.symm hal)]

theorem pick_self {h : List ℝ} {N : Nat} (l : Nat) (hlt : l < h.length) (a : Fin N)
    (hc : h.length = 1 ∨ a.1 = l) : pick h a = h[l] := by
  unfold pick
  by_cases h1 : h.length = 1
  · have : l = 0 := by omega
    subst this
    rw [if_pos h1, List.getD_eq_getElem _ _ hlt]
  · have : a.1 = l := by tauto
    rw [if_neg h1, this, List.getD_eq_getElem _ _ hlt]

/-- C47: `gaussian_dk_dwidth` gives the partial derivative of the kernel with respect to each width, both for one width
per feature and for a single width. -/
theorem C47_gaussian_width {N : Nat} (w : List ℝ) (hl : w.length = 1 ∨ w.length = N) (hw : ∀ t ∈ w, 0 < t)
    (x y : Fin N → ℝ) (self : Bool) (l : Nat) (hlt : l < w.length) :
    HasDerivAt (fun t => entry (.gaussian (w.set l t)) (List.finRange N) false x y self)
      (gaussDWidth w (entry (.gaussian w) (List.finRange N) false x y self) x y l) w[l] := by
  simp only [entry, colSum_finRange, unlog, Bool.false_eq_true, if_false]
  have hpos : 0 < w[l] := hw _ (List.getElem_mem _)
  have h1 : ∀ a : Fin N, HasDerivAt (fun t => (x a / pick (w.set l t) a - y a / pick (w.set l t) a) ^ 2)
      (if w.length = 1 ∨ a.1 = l then -2 * (x a - y a) ^ 2 / w[l] ^ 3 else 0) w[l] := by
    intro a
    simp only [pick_set hl l hlt a]
    by_cases hc : w.length = 1 ∨ a.1 = l
    · simp only [hc, if_true]
      have h2 := (((hasDerivAt_const w[l] (x a)).fun_div (hasDerivAt_id' w[l]) hpos.ne').fun_sub
        ((hasDerivAt_const w[l] (y a)).fun_div (hasDerivAt_id' w[l]) hpos.ne')).fun_pow 2
      refine h2.congr_deriv ?_
      simp
      field_simp
      ring
    · simp only [hc, if_false]
      exact hasDerivAt_const _ _
  have h2 := ((HasDerivAt.fun_sum (u := Finset.univ) fun a _ => h1 a).const_mul (-0.5 : ℝ)).exp
  refine h2.congr_deriv ?_
  have hset : w.set l w[l] = w := List.set_getElem_self hlt
  rw [hset]
  unfold gaussDWidth
  by_cases h1' : w.length = 1
  · have : l = 0 := by omega
    subst this
    simp only [h1', true_or, if_true]
    rw [List.getD_eq_getElem _ _ hlt, ← Finset.sum_div, ← Finset.mul_sum]
    ring
  · have hN : l < N := by omega
    simp only [h1', false_or, if_false, hN, dif_pos]
    rw [List.getD_eq_getElem _ _ hlt]
    have : ∀ a : Fin N, (a.1 = l) ↔ a = ⟨l, hN⟩ := fun a => ⟨fun h => Fin.ext h, fun h => by rw [h]⟩
    simp only [this, Finset.sum_ite_eq', Finset.mem_univ, if_true]
    ring

example : ([2, 3] : List ℝ).length = 2 ∧ ∀ t ∈ ([2, 3] : List ℝ), 0 < t := by
  refine ⟨rfl, ?_⟩
  intro t ht
  fin_cases ht <;> norm_num

/-- C47: `laplacian_dk_dwidth` gives the partial derivative of the Laplacian kernel. -/
theorem C47_laplacian_width {N : Nat} (w : List ℝ) (hl : w.length = 1 ∨ w.length = N) (hw : ∀ t ∈ w, 0 < t)
    (x y : Fin N → ℝ) (self : Bool) (l : Nat) (hlt : l < w.length) :
    HasDerivAt (fun t => entry (.laplacian (w.set l t)) (List.finRange N) false x y self)
      (laplDWidth w (entry (.laplacian w) (List.finRange N) false x y self) x y l) w[l] := by
  simp only [entry, colSum_finRange, unlog, Bool.false_eq_true, if_false]
  have hpos : 0 < w[l] := hw _ (List.getElem_mem _)
  have h1 : ∀ a : Fin N, HasDerivAt (fun t => |x a / pick (w.set l t) a - y a / pick (w.set l t) a|)
      (if w.length = 1 ∨ a.1 = l then -|x a - y a| / w[l] ^ 2 else 0) w[l] := by
    intro a
    simp only [pick_set hl l hlt a]
    by_cases hc : w.length = 1 ∨ a.1 = l
    · simp only [hc, if_true]
      have h2 := ((hasDerivAt_const w[l] |x a - y a|).fun_div (hasDerivAt_id' w[l]) hpos.ne')
      have h3 : HasDerivAt (fun t => |x a / t - y a / t|) ((0 * w[l] - |x a - y a| * 1) / w[l] ^ 2) w[l] := by
        refine h2.congr_of_eventuallyEq ?_
        filter_upwards [eventually_gt_nhds hpos] with t ht
        rw [← sub_div, abs_div, abs_of_pos ht]
      refine h3.congr_deriv ?_
      ring
    · simp only [hc, if_false]
      exact hasDerivAt_const _ _
  have h2 := (HasDerivAt.fun_sum (u := Finset.univ) fun a _ => h1 a).fun_neg.exp
  refine h2.congr_deriv ?_
  have hset : w.set l w[l] = w := List.set_getElem_self hlt
  rw [hset]
  unfold laplDWidth
  by_cases h1' : w.length = 1
  · have : l = 0 := by omega
    subst this
    simp only [h1', true_or, if_true]
    rw [List.getD_eq_getElem _ _ hlt]
    have : ∀ b, |x b / w[0] ^ 2 - y b / w[0] ^ 2| = |x b - y b| / w[0] ^ 2 := by
      intro b
      have hsq := pow_pos hpos 2
      rw [← sub_div, abs_div, abs_of_pos hsq]
    simp only [this, neg_div, Finset.sum_neg_distrib]
    ring
  · have hN : l < N := by omega
    simp only [h1', false_or, if_false, hN, dif_pos]
    rw [List.getD_eq_getElem _ _ hlt]
    have : ∀ a : Fin N, (a.1 = l) ↔ a = ⟨l, hN⟩ := fun a => ⟨fun h => Fin.ext h, fun h => by rw [h]⟩
    simp only [this, Finset.sum_ite_eq', Finset.mem_univ, if_true]
    ring

/-! ### Lists of kernels -/

/-- Kernels the gradient of the likelihood is right for: added, with all features; Gaussian with or without scaling,
Laplacian with scaling, linear, and constant without scaling (which `prepare_kernels` enforces). -/
def JacOK {N : Nat} (k : KDict N) : Prop :=
  k.mult = false ∧ k.features = none ∧
  match k.ktype with
  | .gaussian w => w.length = 1 ∨ w.length = N
  | .laplacian w => (w.length = 1 ∨ w.length = N) ∧ k.scaling.isSome
  | .linear => True
  | .constant _ => k.scaling = none
  | _ => False

private def withTheta (k : KType) (h : List ℝ) : KType :=
  match k with
  | .gaussian _ => .gaussian h
  | .laplacian _ => .laplacian h
  | .constant _ => .constant (h.headD 0)
  | k => k

private def kWith {N : Nat} (k : KDict N) (h : List ℝ) : KDict N :=
  match k.scaling with
  | none => { k with ktype := withTheta k.ktype h }
  | some _ => { k with ktype := withTheta k.ktype h.tail, scaling := h.head? }

private theorem setKernel_kWith {N : Nat} (k : KDict N) (hk : JacOK k) (h0 : List ℝ) (hh : kdict2list k = .ok h0)
    (pre h post : List ℝ) (hl : h.length = h0.length) :
    setKernel (pre ++ (h ++ post)) pre.length k = .ok (kWith k h, pre.length + h.length) := by
  obtain ⟨kt, fe, sc, mu⟩ := k
  obtain ⟨h1, h2, h3⟩ := hk
  simp only at h1 h2 h3
  subst h1 h2
  cases sc with
  | none =>
    cases kt with
    | gaussian w =>
      simp only [kdict2list, Option.toList_none, List.nil_append, Except.ok.injEq] at hh
      subst hh
      simp [setKernel, ← hl, slice_append, pure, Except.pure, bind, Except.bind, kWith, withTheta]
    | laplacian w => simp at h3
    | sqe w => exact h3.elim
    | quadratic s d b => exact h3.elim
    | linear =>
      simp only [kdict2list, Option.toList_none, Except.ok.injEq] at hh
      subst hh
      obtain rfl := List.length_eq_zero_iff.mp hl
      simp [setKernel, pure, Except.pure, bind, Except.bind, kWith, withTheta]
    | constant c =>
      simp only [kdict2list, Option.toList_none, List.nil_append, Except.ok.injEq] at hh
      subst hh
      obtain ⟨t, rfl⟩ := List.length_eq_one_iff.mp hl
      simp [setKernel, item_append, pure, Except.pure, bind, Except.bind, kWith, withTheta]
    | noiseMulti w => exact h3.elim
  | some s0 =>
    have hcons : ∃ t h', h = t :: h' := by
      cases h with
      | nil =>
        exfalso
        cases kt with
        | quadratic s d b => exact h3
        | _ =>
          simp only [kdict2list, Except.ok.injEq] at hh
          subst hh
          simp at hl
      | cons t h' => exact ⟨t, h', rfl⟩
    obtain ⟨t, h', rfl⟩ := hcons
    have hi : item (pre ++ (t :: h' ++ post)) pre.length = .ok t := item_append _ _ _
    have hsl : slice (pre ++ (t :: h' ++ post)) (pre.length + 1) h'.length = h' := by
      have := slice_append (pre ++ [t]) h' post
      simpa using this
    cases kt with
    | gaussian w =>
      simp only [kdict2list, Option.toList_some, List.singleton_append, Except.ok.injEq] at hh
      subst hh
      simp only [List.length_cons, Nat.add_right_cancel_iff] at hl
      simp only [setKernel, hi, pure, Except.pure, bind, Except.bind, ← hl, hsl]
      simp [kWith, withTheta]
      omega
    | laplacian w =>
      simp only [kdict2list, Option.toList_some, List.singleton_append, Except.ok.injEq] at hh
      subst hh
      simp only [List.length_cons, Nat.add_right_cancel_iff] at hl
      simp only [setKernel, hi, pure, Except.pure, bind, Except.bind, ← hl, hsl]
      simp [kWith, withTheta]
      omega
    | sqe w => exact h3.elim
    | quadratic s d b => exact h3.elim
    | linear =>
      simp only [kdict2list, Option.toList_some, Except.ok.injEq] at hh
      subst hh
      obtain rfl : h' = [] := List.length_eq_zero_iff.mp (by simpa using hl)
      simp only [setKernel, hi, pure, Except.pure, bind, Except.bind]
      simp [kWith, withTheta]
    | constant c => simp at h3
    | noiseMulti w => exact h3.elim

/-- The contribution of one kernel. -/
noncomputable def kval {N : Nat} (k : KDict N) (x y : Fin N → ℝ) (self : Bool) : ℝ :=
  scaleFactor k false * entry k.ktype (columns k) false x y self

private theorem jacStep_kWith {N : Nat} {n : Type} [DecidableEq n] (X : n → Fin N → ℝ) (old : Option (Matrix n n ℝ))
    (k : KDict N) (hk : JacOK k) (h0 : List ℝ) (hh : kdict2list k = .ok h0)
    (pre h post : List ℝ) (hl : h.length = h0.length) (hpos : ∀ t ∈ h, 0 < t) :
    ∃ cur blk, jacStep (pre ++ (h ++ post)) X old pre.length (kWith k h) = .ok (cur, pre.length + h.length, blk) ∧
      blk.length = h.length ∧
      ∀ (l : Nat) (h1 : l < h.length) (h2 : l < blk.length) (i j : n),
        HasDerivAt (fun t => kval (kWith k (h.set l t)) (X i) (X j) (decide (i = j))) (blk[l] i j) h[l] := by
  obtain ⟨kt, fe, sc, mu⟩ := k
  obtain ⟨h1, h2, h3⟩ := hk
  simp only at h1 h2 h3
  subst h1 h2
  cases sc with
  | none =>
    cases kt with
    | gaussian w =>
      simp only [kdict2list, Option.toList_none, List.nil_append, Except.ok.injEq] at hh
      subst hh
      have h3' : h.length = 1 ∨ h.length = N := by rw [hl]; exact h3
      refine ⟨some (Matrix.of fun i j => entry (.gaussian h) (List.finRange N) false (X i) (X j) (decide (i = j))),
        (List.range h.length).map fun a => Matrix.of fun i j => gaussDWidth h
          (entry (.gaussian h) (List.finRange N) false (X i) (X j) (decide (i = j))) (X i) (X j) a * 1, ?_, ?_, ?_⟩
      · simp only [jacStep, kWith, withTheta, jacK, h3', pure, Except.pure, bind, Except.bind, slice_append]
        simp
      · simp
      · intro l hl1 hl2 i j
        have hd := C47_gaussian_width h h3' hpos (X i) (X j) (decide (i = j)) l hl1
        simpa [kval, kWith, withTheta, scaleFactor, unlog, columns] using hd
    | laplacian w => simp at h3
    | sqe w => exact h3.elim
    | quadratic s d b => exact h3.elim
    | linear =>
      simp only [kdict2list, Option.toList_none, Except.ok.injEq] at hh
      subst hh
      obtain rfl := List.length_eq_zero_iff.mp hl
      refine ⟨old, [], ?_, rfl, ?_⟩
      · simp [jacStep, pure, Except.pure, bind, Except.bind, kWith, withTheta]
      · intro l hl1
        simp at hl1
    | constant c =>
      simp only [kdict2list, Option.toList_none, List.nil_append, Except.ok.injEq] at hh
      subst hh
      obtain ⟨t, rfl⟩ := List.length_eq_one_iff.mp hl
      refine ⟨old, [Matrix.of fun _ _ => 1], ?_, rfl, ?_⟩
      · simp [jacStep, pure, Except.pure, bind, Except.bind, kWith, withTheta]
      · intro l hl1 hl2 i j
        have : l = 0 := by simpa using hl1
        subst this
        simpa [kval, kWith, withTheta, scaleFactor, unlog, entry] using hasDerivAt_id' t
    | noiseMulti w => exact h3.elim
  | some s0 =>
    have hcons : ∃ t h', h = t :: h' := by
      cases h with
      | nil =>
        exfalso
        cases kt with
        | quadratic s d b => exact h3
        | _ =>
          simp only [kdict2list, Except.ok.injEq] at hh
          subst hh
          simp at hl
      | cons t h' => exact ⟨t, h', rfl⟩
    obtain ⟨t, h', rfl⟩ := hcons
    have hsl : slice (pre ++ (t :: h' ++ post)) (pre.length + 1) h'.length = h' := by
      have := slice_append (pre ++ [t]) h' post
      simpa using this
    have hpos' : ∀ u ∈ h', 0 < u := fun u hu => hpos u (by simp [hu])
    cases kt with
    | gaussian w =>
      simp only [kdict2list, Option.toList_some, List.singleton_append, Except.ok.injEq] at hh
      subst hh
      simp only [List.length_cons, Nat.add_right_cancel_iff] at hl
      have h3' : h'.length = 1 ∨ h'.length = N := by rw [hl]; exact h3
      refine ⟨some (Matrix.of fun i j => entry (.gaussian h') (List.finRange N) false (X i) (X j) (decide (i = j))),
        (Matrix.of fun i j => entry (.gaussian h') (List.finRange N) false (X i) (X j) (decide (i = j))) ::
        (List.range h'.length).map fun a => Matrix.of fun i j => gaussDWidth h'
          (entry (.gaussian h') (List.finRange N) false (X i) (X j) (decide (i = j))) (X i) (X j) a * t, ?_, ?_, ?_⟩
      · simp only [jacStep, kWith, withTheta, jacK, h3', pure, Except.pure, bind, Except.bind, List.tail_cons,
          List.head?_cons, hsl]
        simp
        omega
      · simp
      · intro l hl1 hl2 i j
        cases l with
        | zero =>
          have := (hasDerivAt_id' t).mul_const (entry (.gaussian h') (List.finRange N) false (X i) (X j)
            (decide (i = j)))
          simpa [kval, kWith, withTheta, scaleFactor, unlog, columns] using this
        | succ l =>
          have hl1' : l < h'.length := by simpa using hl1
          have hd := (C47_gaussian_width h' h3' hpos' (X i) (X j) (decide (i = j)) l hl1').const_mul t
          simpa [kval, kWith, withTheta, scaleFactor, unlog, columns, mul_comm] using hd
    | laplacian w =>
      simp only [kdict2list, Option.toList_some, List.singleton_append, Except.ok.injEq] at hh
      subst hh
      simp only [List.length_cons, Nat.add_right_cancel_iff] at hl
      have h3' : h'.length = 1 ∨ h'.length = N := by rw [hl]; exact h3.1
      refine ⟨some (Matrix.of fun i j => entry (.laplacian h') (List.finRange N) false (X i) (X j) (decide (i = j))),
        (Matrix.of fun i j => entry (.laplacian h') (List.finRange N) false (X i) (X j) (decide (i = j))) ::
        (List.range h'.length).map fun a => Matrix.of fun i j => laplDWidth h'
          (entry (.laplacian h') (List.finRange N) false (X i) (X j) (decide (i = j))) (X i) (X j) a * t, ?_, ?_, ?_⟩
      · simp only [jacStep, kWith, withTheta, jacK, h3', pure, Except.pure, bind, Except.bind, List.tail_cons,
          List.head?_cons, hsl]
        simp
        omega
      · simp
      · intro l hl1 hl2 i j
        cases l with
        | zero =>
          have := (hasDerivAt_id' t).mul_const (entry (.laplacian h') (List.finRange N) false (X i) (X j)
            (decide (i = j)))
          simpa [kval, kWith, withTheta, scaleFactor, unlog, columns] using this
        | succ l =>
          have hl1' : l < h'.length := by simpa using hl1
          have hd := (C47_laplacian_width h' h3' hpos' (X i) (X j) (decide (i = j)) l hl1').const_mul t
          simpa [kval, kWith, withTheta, scaleFactor, unlog, columns, mul_comm] using hd
    | sqe w => exact h3.elim
    | quadratic s d b => exact h3.elim
    | linear =>
      simp only [kdict2list, Option.toList_some, Except.ok.injEq] at hh
      subst hh
      obtain rfl : h' = [] := List.length_eq_zero_iff.mp (by simpa using hl)
      refine ⟨some (Matrix.of fun i j => entry .linear (List.finRange N) false (X i) (X j) (decide (i = j))),
        [Matrix.of fun i j => entry .linear (List.finRange N) false (X i) (X j) (decide (i = j))], ?_, ?_, ?_⟩
      · simp [jacStep, kWith, withTheta, jacK, pure, Except.pure, bind, Except.bind]
      · simp
      · intro l hl1 hl2 i j
        have : l = 0 := by simpa using hl1
        subst this
        have := (hasDerivAt_id' t).mul_const (entry .linear (List.finRange N) false (X i) (X j)
            (decide (i = j)))
        simpa [kval, kWith, withTheta, scaleFactor, unlog, columns] using this
    | constant c => simp at h3
    | noiseMulti w => exact h3.elim

private theorem covEntry_sum {N : Nat} (ks : List (KDict N)) (hk : ∀ k ∈ ks, k.mult = false) (x y : Fin N → ℝ)
    (self : Bool) : covEntry ks false x y self = (ks.map fun k => kval k x y self).sum := by
  unfold covEntry
  induction ks using List.reverseRecOn with
  | nil => simp
  | append_singleton ks k ih =>
    rw [List.foldl_append, List.map_append, List.sum_append, ← ih fun k hk' => hk k (by simp [hk'])]
    simp [hk k (by simp), kval]

private theorem kWith_mult {N : Nat} (k : KDict N) (h : List ℝ) : (kWith k h).mult = k.mult := by
  unfold kWith
  cases k.scaling <;> rfl

private def ksWith {N : Nat} : List (KDict N) → List (List ℝ) → List ℝ → List (KDict N)
  | k :: ks, l :: ls, g => kWith k (g.take l.length) :: ksWith ks ls (g.drop l.length)
  | _, _, _ => []

private theorem mapM_cons_ok {N : Nat} {k : KDict N} {ks : List (KDict N)} {ls : List (List ℝ)}
    (h : (k :: ks).mapM kdict2list = .ok ls) :
    ∃ l lr, ls = l :: lr ∧ kdict2list k = .ok l ∧ ks.mapM kdict2list = .ok lr := by
  rw [List.mapM_cons] at h
  cases hkl : kdict2list k with
  | error e => simp [hkl, bind, Except.bind] at h
  | ok h0 =>
    cases hr : ks.mapM kdict2list with
    | error e => simp [hkl, hr, bind, Except.bind] at h
    | ok lr =>
      simp [hkl, hr, bind, Except.bind, pure, Except.pure] at h
      exact ⟨h0, lr, h.symm, rfl, rfl⟩

private theorem list2kdictFrom_ksWith {N : Nat} (ks : List (KDict N)) (hk : ∀ k ∈ ks, JacOK k) (ls : List (List ℝ))
    (hks : ks.mapM kdict2list = .ok ls) (pre g post : List ℝ) (hl : g.length = ls.flatten.length) :
    list2kdictFrom (pre ++ (g ++ post)) pre.length ks = .ok (ksWith ks ls g) ∧
      ∀ k ∈ ksWith ks ls g, k.mult = false := by
  induction ks generalizing ls pre g with
  | nil => exact ⟨rfl, by simp [ksWith]⟩
  | cons k ks ih =>
    obtain ⟨l, lr, rfl, hkl, hr⟩ := mapM_cons_ok hks
    have hk0 : JacOK k := hk k (by simp)
    simp only [List.flatten_cons, List.length_append] at hl
    have e1 : (g.take l.length).length = l.length := by rw [List.length_take]; omega
    have e2 : (g.drop l.length).length = lr.flatten.length := by rw [List.length_drop]; omega
    have eg : pre ++ (g ++ post) = pre ++ (g.take l.length ++ (g.drop l.length ++ post)) := by
      rw [← List.append_assoc (g.take _), List.take_append_drop]
    obtain ⟨f1, f2⟩ := ih (fun k hk' => hk k (by simp [hk'])) lr hr (pre ++ g.take l.length) _ e2
    rw [List.append_assoc, List.length_append] at f1
    constructor
    · rw [eg, list2kdictFrom, setKernel_kWith k hk0 l hkl pre _ _ e1]
      simp only [bind, Except.bind, f1, pure, Except.pure, ksWith]
    · intro k' hk'
      simp only [ksWith, List.mem_cons] at hk'
      rcases hk' with rfl | hk'
      · rw [kWith_mult]; exact hk0.1
      · exact f2 k' hk'

/-- The whole loop: the kernels are added, and each entry of the result is the derivative of the sum. -/
private theorem jacLoop_ksWith {N : Nat} {n : Type} [DecidableEq n] (X : n → Fin N → ℝ) (ks : List (KDict N))
    (hk : ∀ k ∈ ks, JacOK k) (ls : List (List ℝ)) (hks : ks.mapM kdict2list = .ok ls) (pre h post : List ℝ)
    (hl : h.length = ls.flatten.length) (hpos : ∀ t ∈ h, 0 < t) (old : Option (Matrix n n ℝ)) :
    ∃ jac : List (Matrix n n ℝ),
      jacLoop (pre ++ (h ++ post)) X old pre.length (ksWith ks ls h) = .ok jac ∧ jac.length = h.length ∧
      ∀ (l : Nat) (h1 : l < h.length) (h2 : l < jac.length) (i j : n),
        HasDerivAt (fun t => ((ksWith ks ls (h.set l t)).map fun k => kval k (X i) (X j) (decide (i = j))).sum)
          (jac[l] i j) h[l] := by
  induction ks generalizing ls pre h old with
  | nil =>
    simp [pure, Except.pure] at hks
    subst hks
    simp at hl
    subst hl
    refine ⟨[], rfl, rfl, ?_⟩
    intro l h1
    simp at h1
  | cons k ks ih =>
    obtain ⟨l0, lr, rfl, hkl, hr⟩ := mapM_cons_ok hks
    have hk0 : JacOK k := hk k (by simp)
    simp only [List.flatten_cons, List.length_append] at hl
    obtain ⟨ha, hb, hab, hal, hbl⟩ : ∃ ha hb, h = ha ++ hb ∧ ha.length = l0.length ∧
        hb.length = lr.flatten.length :=
      ⟨h.take l0.length, h.drop l0.length, (List.take_append_drop _ _).symm, by rw [List.length_take]; omega,
        by rw [List.length_drop]; omega⟩
    subst hab
    obtain ⟨cur, blk, s1, s2, s3⟩ := jacStep_kWith X old k hk0 l0 hkl pre ha (hb ++ post) hal
      fun t ht => hpos t (by simp [ht])
    obtain ⟨jac, f2, f3, f4⟩ := ih (fun k hk' => hk k (by simp [hk'])) lr hr (pre ++ ha) hb hbl
      (fun t ht => hpos t (by simp [ht])) cur
    rw [List.append_assoc, List.length_append] at f2
    have ew : ∀ ga gb : List ℝ, ga.length = l0.length →
        ksWith (k :: ks) (l0 :: lr) (ga ++ gb) = kWith k ga :: ksWith ks lr gb := by
      intro ga gb hg
      simp only [ksWith]
      rw [← hg, List.take_left, List.drop_left]
    refine ⟨blk ++ jac, ?_, by simp [s2, f3], ?_⟩
    · rw [ew ha hb hal, jacLoop, List.append_assoc, s1]
      simp only [bind, Except.bind, f2, pure, Except.pure]
    · intro l h1 h2 i j
      by_cases hla : l < ha.length
      · have e : ∀ t, (ha ++ hb).set l t = ha.set l t ++ hb := fun t => List.set_append_left _ _ hla
        have eg : (ha ++ hb)[l] = ha[l] := List.getElem_append_left hla
        have ej : (blk ++ jac)[l] = blk[l]'(by omega) := List.getElem_append_left _
        rw [eg, ej]
        have hs := (s3 l hla (by omega) i j).add_const
          ((ksWith ks lr hb).map fun k => kval k (X i) (X j) (decide (i = j))).sum
        refine hs.congr_of_eventuallyEq (Filter.Eventually.of_forall fun t => ?_)
        simp only [e]
        rw [ew _ _ (by rw [List.length_set, hal])]
        simp
      · have hla' : ha.length ≤ l := by omega
        have hlb : l - ha.length < hb.length := by rw [List.length_append] at h1; omega
        have e : ∀ t, (ha ++ hb).set l t = ha ++ hb.set (l - ha.length) t :=
          fun t => List.set_append_right _ _ hla'
        have eg : (ha ++ hb)[l] = hb[l - ha.length] := List.getElem_append_right hla'
        have ej : (blk ++ jac)[l] = jac[l - ha.length]'(by omega) := by
          rw [List.getElem_append_right (by omega)]
          simp only [s2]
        rw [eg, ej]
        have hs := (f4 (l - ha.length) hlb (by omega) i j).const_add
          (kval (kWith k ha) (X i) (X j) (decide (i = j)))
        refine hs.congr_of_eventuallyEq (Filter.Eventually.of_forall fun t => ?_)
        simp only [e]
        rw [ew _ _ hal]
        simp

/-- C47 (`_partial`: lists of added Gaussian, linear, constant and scaled Laplacian kernels on all features; the last
entry of the result, for the regularisation, is treated below): the gradient contains, in the order of the
hyperparameter list, the partial derivatives of the covariance matrix with respect to each hyperparameter. -/
theorem C47_jacobian_partial {N : Nat} {n : Type} [DecidableEq n] (X : n → Fin N → ℝ) (ks : List (KDict N))
    (hk : ∀ k ∈ ks, JacOK k) (p : List ℝ) (hp : kdicts2list ks = .ok p) (θ : List ℝ) (hl : θ.length = p.length)
    (hpos : ∀ t ∈ θ, 0 < t) (r : ℝ) :
    ∃ (ks' : List (KDict N)) (jac : List (Matrix n n ℝ)),
      list2kdict (θ ++ [r]) ks = .ok ks' ∧ dKdTheta (θ ++ [r]) X ks' = .ok jac ∧ jac.length = θ.length + 1 ∧
      ∀ (l : Nat) (h1 : l < θ.length) (h2 : l < jac.length) (i j : n) (f : ℝ → List (KDict N)),
        (∀ t, list2kdict (θ.set l t ++ [r]) ks = .ok (f t)) →
        HasDerivAt (fun t => covSelf (f t) false (some r) X i j) (jac[l] i j) θ[l] := by
  unfold kdicts2list at hp
  split at hp
  · simp at hp
  · cases hm : ks.mapM kdict2list with
    | error e => simp [hm, bind, Except.bind] at hp
    | ok ls =>
      simp [hm, bind, Except.bind, pure, Except.pure] at hp
      subst hp
      obtain ⟨jac, j1, j2, j3⟩ := jacLoop_ksWith X ks hk ls hm [] θ [r] hl hpos none
      have hF : ∀ g : List ℝ, g.length = θ.length → list2kdict (g ++ [r]) ks = .ok (ksWith ks ls g) ∧
          ∀ k ∈ ksWith ks ls g, k.mult = false :=
        fun g hg => list2kdictFrom_ksWith ks hk ls hm [] g [r] (by rw [hg, hl])
      refine ⟨ksWith ks ls θ, jac ++ [1], (hF θ rfl).1, ?_, by simp [j2], ?_⟩
      · have j1' : jacLoop (θ ++ [r]) X none 0 (ksWith ks ls θ) = .ok jac := j1
        simp only [dKdTheta, j1', bind, Except.bind, pure, Except.pure]
      · intro l h1 h2 i j f hf
        have hfe : ∀ t, f t = ksWith ks ls (θ.set l t) := by
          intro t
          have := (hF (θ.set l t) (by simp)).1
          rw [hf t] at this
          exact Except.ok.inj this
        have ej : (jac ++ [1])[l] = jac[l]'(by omega) := List.getElem_append_left _
        rw [ej]
        have := (j3 l h1 (by omega) i j).add_const ((Matrix.diagonal (fun _ : n => r ^ 2) : Matrix n n ℝ) i j)
        refine this.congr_of_eventuallyEq (Filter.Eventually.of_forall fun t => ?_)
        simp only [hfe, covSelf, unlog, Bool.false_eq_true, if_false, Matrix.add_apply, Matrix.of_apply]
        rw [covEntry_sum _ (hF (θ.set l t) (by simp)).2]

example : (∀ k ∈ [(⟨.gaussian [1, 2], none, some 3, false⟩ : KDict 2), ⟨.constant 1, none, none, false⟩], JacOK k) ∧
    kdicts2list [(⟨.gaussian [1, 2], none, some 3, false⟩ : KDict 2), ⟨.constant 1, none, none, false⟩] =
      .ok [3, 1, 2, 1] := by
  refine ⟨?_, rfl⟩
  intro k hk
  fin_cases hk <;> simp [JacOK]

/-- C47 fails for the regularisation: the covariance contains its square, so that the diagonal of the derivative is
`2 r`; the last entry of the gradient is the identity. -/
theorem C47_noise_violated {N : Nat} {n : Type} [DecidableEq n] (X : n → Fin N → ℝ) (ks : List (KDict N)) (r : ℝ)
    (hr : r ≠ 1 / 2) (θ : List ℝ) (jac : List (Matrix n n ℝ)) (hj : dKdTheta θ X ks = .ok jac) (i : n) :
    HasDerivAt (fun t => covSelf ks false (some t) X i i) (2 * r) r ∧
      ∃ m, jac.getLast? = some m ∧ m i i = 1 ∧ m i i ≠ 2 * r := by
  constructor
  · have h := ((hasDerivAt_id' r).fun_pow 2).const_add (covEntry ks false (X i) (X i) (decide (i = i)))
    refine (h.congr_deriv (by simp)).congr_of_eventuallyEq (Filter.Eventually.of_forall fun t => ?_)
    simp [covSelf, unlog]
  · unfold dKdTheta at hj
    cases h : jacLoop θ X none 0 ks with
    | error e => simp [h, bind, Except.bind] at hj
    | ok j =>
      simp [h, bind, Except.bind, pure, Except.pure] at hj
      subst hj
      refine ⟨1, by simp, by simp, ?_⟩
      simp
      intro h1
      apply hr
      linarith

/-- C47 fails for a Laplacian kernel without 'scaling': on its own it raises (the kernel matrix was never computed),
and after a Gaussian kernel its derivative is computed from the matrix of the Gaussian kernel. -/
theorem C47_laplacian_unscaled_violated {n : Type} [DecidableEq n] (X : n → Fin 1 → ℝ) (w v r : ℝ) :
    dKdTheta [w, r] X [⟨.laplacian [w], none, none, false⟩] = .error .name ∧
    ∃ m1 m2, dKdTheta [v, w, r] X [⟨.gaussian [v], none, none, false⟩, ⟨.laplacian [w], none, none, false⟩] =
        .ok [m1, m2, 1] ∧
      ∀ i j, m2 i j = laplDWidth [w] (Real.exp (-0.5 * ((X i 0 / v - X j 0 / v) ^ 2))) (X i) (X j) 0 := by
  constructor
  · simp [dKdTheta, jacLoop, jacStep, bind, Except.bind, pure, Except.pure, throw, throwThe, MonadExceptOf.throw]
  · refine ⟨Matrix.of fun i j => gaussDWidth [v] (entry (.gaussian [v]) (List.finRange 1) false (X i) (X j)
        (decide (i = j))) (X i) (X j) 0,
      Matrix.of fun i j => laplDWidth [w] (entry (.gaussian [v]) (List.finRange 1) false (X i) (X j)
        (decide (i = j))) (X i) (X j) 0, ?_, ?_⟩
    · simp only [dKdTheta, jacLoop, jacStep, jacK, bind, Except.bind, pure, Except.pure]
      simp [slice, List.range_succ]
    · intro i j
      simp [entry, colSum_finRange, unlog, pick]

/-- C47 fails for kernels on some of the features: the derivative is computed with all of them. -/
theorem C47_features_violated {n : Type} [DecidableEq n] (X : n → Fin 2 → ℝ) (w r : ℝ) (hw : 0 < w) (i j : n)
    (h0 : X i 0 = X j 0) (h1 : X i 1 ≠ X j 1) :
    (∀ v, covSelf [⟨.gaussian [v], some [0], none, false⟩] false none X i j = 1) ∧
    ∃ m, dKdTheta [w, r] X [⟨.gaussian [w], some [0], none, false⟩] = .ok [m, 1] ∧ 0 < m i j := by
  constructor
  · intro v
    simp [covSelf, covEntry, scaleFactor, unlog, entry, colSum, columns, h0]
  · refine ⟨Matrix.of fun i j => gaussDWidth [w] (entry (.gaussian [w]) (List.finRange 2) false (X i) (X j)
        (decide (i = j))) (X i) (X j) 0, ?_, ?_⟩
    · simp only [dKdTheta, jacLoop, jacStep, jacK, bind, Except.bind, pure, Except.pure]
      simp [slice, List.range_succ]
    · simp only [gaussDWidth, Matrix.of_apply, entry]
      simp
      have : 0 < (X i 1 - X j 1) ^ 2 := by
        have := sub_ne_zero.mpr h1
        positivity
      rw [h0]
      simp
      exact mul_pos (by positivity) (Real.exp_pos _)

end CatLearn.Kernel
