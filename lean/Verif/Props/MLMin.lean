import Verif.Model.MLMin
import Verif.Props.Masks

/-!
# C54, C53 (whole runs), C127–C130: the machine-learning minimiser
-/

namespace CatLearn.MLMin

open CatLearn CatLearn.Masks

/-! ## Forces -/

/-- The Euclidean length of the gradient on atom `a`. -/
noncomputable def atomNorm (g : List ℝ) (a : Nat) : ℝ :=
  Real.sqrt (g.getD (3 * a) 0 ^ 2 + g.getD (3 * a + 1) 0 ^ 2 + g.getD (3 * a + 2) 0 ^ 2)

theorem rows3_spec : ∀ (g : List ℝ) (rs : List (ℝ × ℝ × ℝ)), rows3 g = some rs →
    g.length = 3 * rs.length ∧ ∀ a (h : a < rs.length),
      rs[a] = (g.getD (3 * a) 0, g.getD (3 * a + 1) 0, g.getD (3 * a + 2) 0) := by
  intro g
  induction g using rows3.induct with
  | case1 => intro rs h; simp only [rows3, Option.some.injEq] at h; subst h; simp
  | case2 x y z t ih =>
    intro rs h
    simp only [rows3, Option.map_eq_some_iff] at h
    obtain ⟨r, hr, rfl⟩ := h
    obtain ⟨h1, h2⟩ := ih r hr
    refine ⟨by simp [h1]; ring, fun a ha => ?_⟩
    cases a with
    | zero => rfl
    | succ a =>
      have := h2 a (by simpa using ha)
      simp only [List.getElem_cons_succ, this]
      have e1 : 3 * (a + 1) = 3 * a + 1 + 1 + 1 := by ring
      have e2 : 3 * (a + 1) + 1 = 3 * a + 1 + 1 + 1 + 1 := by ring
      have e3 : 3 * (a + 1) + 2 = 3 * a + 2 + 1 + 1 + 1 := by ring
      simp [e1]
  | case3 g h1 h2 => 
    intro rs h
    rw [rows3.eq_def] at h
    split at h
    · exact absurd rfl (h1)
    · rename_i x y z t; exact absurd rfl (h2 x y z t)
    · cases h

theorem foldl_max_spec (l : List ℝ) (b : ℝ) :
    b ≤ l.foldl max b ∧ (∀ x ∈ l, x ≤ l.foldl max b) ∧ (l.foldl max b = b ∨ l.foldl max b ∈ l) := by
  induction l generalizing b with
  | nil => simp
  | cons a l ih =>
    obtain ⟨h1, h2, h3⟩ := ih (max b a)
    refine ⟨(le_max_left _ _).trans h1, ?_, ?_⟩
    · intro x hx
      rcases List.mem_cons.1 hx with rfl | hx
      · exact (le_max_right _ _).trans h1
      · exact h2 x hx
    · simp only [List.foldl_cons]
      rcases h3 with h3 | h3
      · rcases max_choice b a with h | h
        · left; rw [h3, h]
        · right; rw [h3, h]; simp
      · right; simp [h3]

/-- `get_fmax` is the largest atomic force: it succeeds exactly for a positive number of atoms with three
coordinates each, bounds the force on every atom and is attained. -/
theorem C54_fmax (g : List ℝ) (m : ℝ) :
    getFmax g = .ok m ↔ ∃ n, 0 < n ∧ g.length = 3 * n ∧ (∀ a < n, atomNorm g a ≤ m) ∧
      ∃ a < n, atomNorm g a = m := by
  have hneg : ∀ a, (g.map fun x => -x).getD a 0 = -(g.getD a 0) := by
    intro a
    simp only [List.getD_eq_getElem?_getD, List.getElem?_map]
    cases g[a]? <;> simp
  -- one direction as a uniqueness statement
  have fwd : ∀ m, getFmax g = .ok m → ∃ n, 0 < n ∧ g.length = 3 * n ∧ (∀ a < n, atomNorm g a ≤ m) ∧
      ∃ a < n, atomNorm g a = m := by
    intro m h
    unfold getFmax at h
    cases hr : rows3 (g.map fun x => -x) with
    | none => rw [hr] at h; cases h
    | some rs =>
      rw [hr] at h
      cases rs with
      | nil => cases h
      | cons r rs =>
        obtain ⟨h1, h2⟩ := rows3_spec _ _ hr
        simp only [Except.ok.injEq] at h
        set F := fun p : ℝ × ℝ × ℝ => Real.sqrt (p.1 ^ 2 + p.2.1 ^ 2 + p.2.2 ^ 2) with hF
        have hat : ∀ a (ha : a < (r :: rs).length), F (r :: rs)[a] = atomNorm g a := by
          intro a ha
          rw [h2 a ha]
          simp only [hF, hneg, atomNorm, neg_sq]
        obtain ⟨k1, k2, k3⟩ := foldl_max_spec (rs.map F) (F r)
        have hnn : 0 ≤ (rs.map F).foldl max (F r) := (Real.sqrt_nonneg _).trans k1
        have hm : (rs.map F).foldl max (F r) = m := by rw [← h]; exact (abs_of_nonneg hnn).symm
        rw [hm] at k1 k2 k3
        refine ⟨(r :: rs).length, by simp, by simpa using h1, ?_, ?_⟩
        · intro a ha
          rw [← hat a ha]
          cases a with
          | zero => exact k1
          | succ a =>
            refine k2 _ (List.mem_map.2 ⟨rs[a]'(by simpa using ha), List.getElem_mem _, by simp⟩)
        · rcases k3 with k3 | k3
          · exact ⟨0, by simp, by rw [← hat 0 (by simp), k3]; simp⟩
          · obtain ⟨p, hp, hpm⟩ := List.mem_map.1 k3
            obtain ⟨a, ha, rfl⟩ := List.mem_iff_getElem.1 hp
            refine ⟨a + 1, by simpa using ha, ?_⟩
            rw [← hat (a + 1) (by simpa using ha), ← hpm]
            simp
  refine ⟨fwd m, ?_⟩
  rintro ⟨n, hn, hl, hle, a, ha, hm⟩
  have hrows : ∀ (k : Nat) (l : List ℝ), l.length = 3 * k → ∃ rs, rows3 l = some rs ∧ rs.length = k := by
    intro k
    induction k with
    | zero => intro l hl; have : l = [] := List.eq_nil_of_length_eq_zero (by omega); subst this; exact ⟨[], rfl, rfl⟩
    | succ k ih =>
      intro l hl
      match l, hl with
      | x :: y :: z :: t, hl =>
        obtain ⟨rs, h1, h2⟩ := ih t (by simp at hl; omega)
        exact ⟨(x, y, z) :: rs, by simp [rows3, h1], by simp [h2]⟩
      | [], hl => simp at hl
      | [x], hl => simp at hl; omega
      | [x, y], hl => simp at hl; omega
  obtain ⟨rs, h1, h2⟩ := hrows n (g.map fun x => -x) (by simpa using hl)
  have hex : ∃ m', getFmax g = .ok m' := by
    unfold getFmax
    rw [h1]
    cases rs with
    | nil => simp at h2; omega
    | cons r rs => exact ⟨_, rfl⟩
  obtain ⟨m', hm'⟩ := hex
  obtain ⟨n', -, hl', hle', a', ha', hm''⟩ := fwd m' hm'
  have : n' = n := by omega
  subst this
  have : m' = m := le_antisymm (by rw [← hm'']; exact hle a' ha') (by rw [← hm]; exact hle' a ha)
  rw [hm', this]

example : ∃ n, 0 < n ∧ ([3, 4, 0, 1, 0, 0] : List ℝ).length = 3 * n ∧ 
    ∃ a < n, atomNorm [3, 4, 0, 1, 0, 0] a = 5 :=
  ⟨2, by decide, rfl, 0, by decide, by
    have : (3 ^ 2 + 4 ^ 2 + 0 ^ 2 : ℝ) = 5 ^ 2 := by norm_num
    simp only [atomNorm, List.getD_cons_zero, List.getD_cons_succ, mul_zero, zero_add]
    rw [this, Real.sqrt_sq (by norm_num)]⟩

/-! ## The optimisation on the surrogate -/

theorem inner_spec (E : Env) (st : State) (s : Surrogate) :
    ∀ (fuel n : Nat) (r v : List ℝ), n + fuel = 1001 → 0 < fuel → 
      match inner E st s fuel n r v with
      | .error e => e = .index
      | .ok ps => ps ≠ [] ∧ ps.length ≤ fuel := by
  have hpick : ∀ (x : List ℝ) (idx : List Nat) e, pick x idx = .error e → e = .index := by
    intro x idx e
    induction idx with
    | nil => intro h; cases h
    | cons i is ih =>
      intro h
      simp only [pick, List.mapM_cons, bind, Except.bind, pure, Except.pure] at h ih
      cases hx : x[i]? with
      | none => rw [hx] at h; simp at h; exact h.symm
      | some v =>
        rw [hx] at h
        simp only at h
        split at h
        · rename_i e' he'
          cases h
          exact ih he'
        · cases h
  have hwb : ∀ (idx : List Nat) (x m : List ℝ) e, writeBack x idx m = .error e → e = .index := by
    intro idx
    induction idx with
    | nil => intro x m e h; simp [writeBack] at h
    | cons i is ih =>
      intro x m e h
      cases m with
      | nil => simp [writeBack] at h; exact h.symm
      | cons v vs =>
        rw [writeBack] at h
        split at h
        · exact ih _ _ _ h
        · simpa using h.symm
  have hsf : ∀ r e, surForces s E.fs r E.mask = .error e → e = .index := by
    intro r e h
    simp only [surForces, bind, Except.bind, pure, Except.pure] at h
    split at h
    · rename_i e' he'; cases h; exact hpick _ _ _ he'
    · split at h
      · rename_i e' he'; cases h; exact hwb _ _ _ _ he'
      · cases h
  intro fuel
  induction fuel with
  | zero => intro n r v _ h; omega
  | succ fuel ih =>
    intro n r v hn _
    rw [inner]
    simp only [bind, Except.bind, pure, Except.pure]
    cases hf : surForces s E.fs r E.mask with
    | error e => exact hsf _ _ hf
    | ok f =>
      simp only
      cases ht : pick (mdmin (E.coef st n) r v f).1 E.mask with
      | error e => exact hpick _ _ _ ht
      | ok t =>
        simp only
        by_cases hc : n + 1 > 1000 ∨ s.unc t ≥ E.maxStep ∨ E.conv st (n + 1) = true
        · rw [if_pos hc]; simp
        · rw [if_neg hc]
          have hfuel : 0 < fuel := by
            by_contra h0
            apply hc; left; omega
          have := ih (n + 1) (mdmin (E.coef st n) r v f).1 (mdmin (E.coef st n) r v f).2 (by omega) hfuel
          cases hi : inner E st s fuel (n + 1) (mdmin (E.coef st n) r v f).1 (mdmin (E.coef st n) r v f).2 with
          | error e => rw [hi] at this; exact this
          | ok ps => rw [hi] at this; simp only at this ⊢; exact ⟨by simp, by simp; omega⟩

/-- C54, error case: a gradient whose length is no positive multiple of three has no largest force; ValueError. -/
theorem C54_fmax_raises (g : List ℝ) (h : ∀ n, 0 < n → g.length ≠ 3 * n) : getFmax g = .error .value := by
  cases hg : getFmax g with
  | ok m =>
    obtain ⟨n, hn, hl, -⟩ := (C54_fmax g m).1 hg
    exact absurd hl (h n hn)
  | error e =>
    unfold getFmax at hg
    split at hg
    · cases hg; rfl
    · cases hg; rfl
    · cases hg

/-- C54, surrogate optimisation: the inner loop always stops by itself after at least one and at most 1001
steps (the only error is an index error of the mask; it never runs out of the model's fuel). -/
theorem C54_inner (E : Env) (st : State) (s : Surrogate) (r v : List ℝ) :
    (inner E st s 1001 0 r v = .error .index) ∨
      ∃ ps, inner E st s 1001 0 r v = .ok ps ∧ 1 ≤ ps.length ∧ ps.length ≤ 1001 := by
  have := inner_spec E st s 1001 0 r v rfl (by decide)
  cases hi : inner E st s 1001 0 r v with
  | error e => rw [hi] at this; left; rw [show e = .index from this]
  | ok ps =>
    rw [hi] at this
    exact .inr ⟨ps, rfl, List.length_pos_iff.2 this.1, this.2⟩

/-- All points met by the inner loop have the size of the start geometry and its values on the removed
coordinates. -/
theorem inner_fixed (E : Env) (st : State) (s : Surrogate) :
    ∀ (fuel n : Nat) (r v : List ℝ) (ps : List Point), v.length = r.length →
      (∀ i, i ∉ E.mask → i < r.length → v[i]? = some 0) → inner E st s fuel n r v = .ok ps →
      ∀ p ∈ ps, p.pos.length = r.length ∧ ∀ i, i ∉ E.mask → p.pos[i]? = r[i]? := by
  intro fuel
  induction fuel with
  | zero => intro n r v ps _ _ h; cases h
  | succ fuel ih =>
    intro n r v ps hv hvi h p hp
    rw [inner] at h
    simp only [bind, Except.bind, pure, Except.pure] at h
    cases hf : surForces s E.fs r E.mask with
    | error e => rw [hf] at h; cases h
    | ok f =>
      rw [hf] at h
      simp only at h
      obtain ⟨hfl, hfi⟩ := surForces_fixed _ _ _ _ _ hf
      have hlen : (mdmin (E.coef st n) r v f).1.length = r.length ∧
          (mdmin (E.coef st n) r v f).2.length = r.length := by simp [mdmin, hv, hfl]
      have hm := fun i (hi : i ∉ E.mask) => mdmin_fixed (E.coef st n) r v f hv hfl i (hvi i hi) (hfi i hi)
      cases ht : pick (mdmin (E.coef st n) r v f).1 E.mask with
      | error e => rw [ht] at h; cases h
      | ok t =>
        rw [ht] at h
        simp only at h
        split at h
        · cases h
          simp only [List.mem_singleton] at hp
          subst hp
          exact ⟨hlen.1, fun i hi => (hm i hi).2.2.1⟩
        · cases hi : inner E st s fuel (n + 1) (mdmin (E.coef st n) r v f).1 (mdmin (E.coef st n) r v f).2 with
          | error e => rw [hi] at h; cases h
          | ok qs =>
            rw [hi] at h
            cases h
            rcases List.mem_cons.1 hp with rfl | hp
            · exact ⟨hlen.1, fun i hi => (hm i hi).2.2.1⟩
            · obtain ⟨g1, g2⟩ := ih (n + 1) _ _ qs (by rw [hlen.1, hlen.2])
                (fun i hi hlt => (hm i hi).2.2.2 (by omega)) hi p hp
              exact ⟨by rw [g1, hlen.1], fun i hi => by rw [g2 i hi, (hm i hi).2.2.1]⟩

/-! ## The acquisition -/

theorem argmaxPoint_spec (l : List (ℝ × Point)) (p : Point) (h : argmaxPoint l = .ok p) :
    ∃ v, (v, p) ∈ l ∧ ∀ q ∈ l, q.1 ≤ v := by
  cases l with
  | nil => cases h
  | cons a l =>
    simp only [argmaxPoint, Except.ok.injEq] at h
    have key : ∀ (l : List (ℝ × Point)) (a : ℝ × Point),
        let r := l.foldl (fun b c => if b.1 < c.1 then c else b) a
        r ∈ a :: l ∧ ∀ q ∈ a :: l, q.1 ≤ r.1 := by
      intro l
      induction l with
      | nil => intro a; simp
      | cons b l ih =>
        intro a
        simp only [List.foldl_cons]
        obtain ⟨h1, h2⟩ := ih (if a.1 < b.1 then b else a)
        refine ⟨?_, ?_⟩
        · rcases List.mem_cons.1 h1 with h1 | h1
          · rw [h1]; split <;> simp
          · simp [h1]
        · intro q hq
          have hab := h2 _ (List.mem_cons_self)
          rcases List.mem_cons.1 hq with rfl | hq
          · refine le_trans ?_ hab
            split
            · exact le_of_lt ‹_›
            · exact le_refl _
          · rcases List.mem_cons.1 hq with rfl | hq
            · refine le_trans ?_ hab
              split
              · exact le_refl _
              · exact not_lt.1 ‹_›
            · exact h2 q (by simp [hq])
    obtain ⟨h1, h2⟩ := key l a
    rw [← h]
    exact ⟨_, h1, h2⟩

/-- The documented acquisition value of a point: larger is preferred. -/
def Prefers (acq : AcqArg) (p q : Point) : Prop :=
  match acq with
  | .ucb => p.energy + p.unc ≤ q.energy + q.unc
  | .lcb => p.energy - p.unc ≤ q.energy - q.unc
  | .minEnergy => p.energy ≤ q.energy
  | .other => False

theorem choose_spec (acq : AcqArg) (ps : List Point) (p : Point) (h : choose acq ps = .ok p) :
    p ∈ ps ∧ ∀ q ∈ ps, Prefers acq p q := by
  have hmap : ∀ (f : Point → Except PyErr ℝ) (ps : List Point) (l : List (ℝ × Point)),
      (ps.mapM fun p => (do let v ← f p; return (v, p) : Except PyErr (ℝ × Point))) = .ok l →
      (∀ x ∈ l, x.2 ∈ ps ∧ f x.2 = .ok x.1) ∧ ∀ q ∈ ps, ∃ v, f q = .ok v ∧ (v, q) ∈ l := by
    intro f ps
    induction ps with
    | nil => intro l h; cases h; simp
    | cons a ps ih =>
      intro l h
      simp only [List.mapM_cons, bind, Except.bind, pure, Except.pure] at h ih
      cases hf : f a with
      | error e => rw [hf] at h; cases h
      | ok v =>
        rw [hf] at h
        simp only at h
        split at h
        · cases h
        · rename_i l' hl'
          cases h
          obtain ⟨h1, h2⟩ := ih l' hl'
          constructor
          · intro x hx
            rcases List.mem_cons.1 hx with rfl | hx
            · exact ⟨by simp, hf⟩
            · exact ⟨by simp [(h1 x hx).1], (h1 x hx).2⟩
          · intro q hq
            rcases List.mem_cons.1 hq with rfl | hq
            · exact ⟨v, hf, by simp⟩
            · obtain ⟨w, hw1, hw2⟩ := h2 q hq
              exact ⟨w, hw1, by simp [hw2]⟩
  rw [choose] at h
  generalize hl : (ps.mapM fun p => (do let v ← score acq p; return (v, p) : Except PyErr (ℝ × Point))) = l at h
  cases l with
  | error e => cases h
  | ok l =>
    obtain ⟨h1, h2⟩ := hmap _ _ _ hl
    obtain ⟨v, hv, hmax⟩ := argmaxPoint_spec l p h
    obtain ⟨hp, hs⟩ := h1 _ hv
    refine ⟨hp, fun q hq => ?_⟩
    obtain ⟨w, hw, hwl⟩ := h2 q hq
    have hle := hmax _ hwl
    simp only at hle hs
    cases acq with
    | ucb =>
      simp only [score, Acq.ucb, Except.ok.injEq] at hs hw
      simp only [Prefers]; linarith
    | lcb =>
      simp only [score, Except.ok.injEq] at hs hw
      simp only [Prefers]; linarith
    | minEnergy =>
      simp only [score, Except.ok.injEq] at hs hw
      simp only [Prefers]; linarith
    | other => cases hs

/-! ## Whole runs -/

/-- What one evaluation does to the object. -/
structure Evaluated (E : Env) (s s' : State) (pos : List ℝ) : Prop where
  train : s'.train = s.train ++ [pos]
  targets : s'.targets = s.targets ++ [(E.real pos).1]
  gradients : s'.gradients = s.gradients ++ [(E.real pos).2]
  maxAbs : ∃ m, getFmax (E.real pos).2 = .ok m ∧ s'.maxAbs = s.maxAbs ++ [m]
  iter : s'.iter = s.iter + 1
  cur : s'.cur = pos
  atoms : s'.atoms = s.atoms ++ [.ini]

theorem evaluate_spec (E : Env) (s s' : State) (pos : List ℝ) (h : evaluate E s pos = .ok s') :
    Evaluated E s s' pos := by
  simp only [evaluate, bind, Except.bind, pure, Except.pure] at h
  split at h
  · cases h
  · rename_i m hm
    cases h
    exact ⟨rfl, rfl, rfl, ⟨m, hm, rfl⟩, rfl, rfl, rfl⟩

theorem body_spec (E : Env) (kd : Bool) (s s' : State) (h : body E kd s = .ok s') :
    ∃ sur start ps p, E.fit s = .ok sur ∧ s.train.getLast? = some start ∧
      inner E s sur 1001 0 start (List.replicate start.length 0) = .ok ps ∧ p ∈ ps ∧
      (∀ q ∈ ps, Prefers E.acq p q) ∧ Evaluated E s s' p.pos := by
  rw [body] at h
  split at h
  · cases h
  · simp only [bind, Except.bind] at h
    cases hf : E.fit s with
    | error e => rw [hf] at h; cases h
    | ok sur =>
      rw [hf] at h
      simp only at h
      cases hl : s.train.getLast? with
      | none => simp only [lastRow, hl] at h; cases h
      | some start =>
        simp only [lastRow, hl] at h
        cases hi : inner E s sur 1001 0 start (List.replicate start.length 0) with
        | error e => rw [hi] at h; cases h
        | ok ps =>
          rw [hi] at h
          simp only at h
          cases hc : choose E.acq ps with
          | error e => rw [hc] at h; cases h
          | ok p =>
            rw [hc] at h
            obtain ⟨hp, hpref⟩ := choose_spec _ _ _ hc
            exact ⟨sur, start, ps, p, rfl, rfl, hi, hp, hpref, evaluate_spec _ _ _ _ h⟩

/-- The state a call of `run` ends in, if it ends without an exception. -/
def Outcome.final : Outcome → Option State
  | .converged s => some s
  | .budget s => some s
  | _ => none

/-- C54, termination: `run` ends after at most `max 1 (steps - iter)` passes. -/
theorem C54_stops (E : Env) (kd : Bool) (s : State) (fuel : Nat)
    (h : max 1 (E.steps - s.iter) < fuel) : run E fuel kd s ≠ .outOfFuel := by
  induction fuel generalizing kd s with
  | zero => simp at h
  | succ fuel ih =>
    rw [run]
    cases lastRow s.gradients with
    | error e => simp
    | ok g =>
      simp only
      cases getFmax g with
      | error e => simp
      | ok m =>
        simp only
        split
        · simp
        · cases hb : body E kd s with
          | error e => simp
          | ok s' =>
            simp only
            split
            · simp
            · rename_i hlt
              obtain ⟨_, _, _, _, _, _, _, _, _, hev⟩ := body_spec E kd s s' hb
              apply ih
              rw [hev.iter] at hlt ⊢
              omega

/-- Induction principle for successful runs. -/
theorem run_induct (E : Env) (P : State → State → Prop) (hrefl : ∀ s, P s s)
    (hstep : ∀ s s' s'' kd, body E kd s = .ok s' → P s' s'' → P s s'') :
    ∀ (fuel : Nat) (kd : Bool) (s s' : State), (run E fuel kd s).final = some s' → P s s' := by
  intro fuel
  induction fuel with
  | zero => intro kd s s' h; cases h
  | succ fuel ih =>
    intro kd s s' h
    rw [run] at h
    cases hl : lastRow s.gradients with
    | error e => rw [hl] at h; cases h
    | ok g =>
      rw [hl] at h
      simp only at h
      cases hm : getFmax g with
      | error e => rw [hm] at h; cases h
      | ok m =>
        rw [hm] at h
        simp only at h
        split at h
        · cases h; exact hrefl _
        · cases hb : body E kd s with
          | error e => rw [hb] at h; cases h
          | ok s1 =>
            rw [hb] at h
            simp only at h
            split at h
            · cases h; exact hstep _ _ _ _ hb (hrefl _)
            · exact hstep _ _ _ _ hb (ih _ _ _ h)

theorem run_fmax (E : Env) (fuel : Nat) (kd : Bool) (s s' : State) (h : run E fuel kd s = .converged s') :
    ∃ g m, s'.gradients.getLast? = some g ∧ getFmax g = .ok m ∧ m < E.fmax := by
  induction fuel generalizing kd s with
  | zero => cases h
  | succ fuel ih =>
    rw [run] at h
    cases hl : s.gradients.getLast? with
    | none => simp only [lastRow, hl] at h; cases h
    | some g =>
      simp only [lastRow, hl] at h
      cases hm : getFmax g with
      | error e => rw [hm] at h; cases h
      | ok m =>
        rw [hm] at h
        simp only at h
        split at h
        · cases h; exact ⟨g, m, hl, hm, ‹_›⟩
        · cases hb : body E kd s with
          | error e => rw [hb] at h; cases h
          | ok s1 =>
            rw [hb] at h
            simp only at h
            split at h
            · cases h
            · exact ih _ _ h

/-- C54, convergence criterion: when `run` reports convergence, the force on every atom of the last
evaluated structure is below `fmax`. -/
theorem C54_convergence (E : Env) (fuel : Nat) (kd : Bool) (s s' : State)
    (h : run E fuel kd s = .converged s') :
    ∃ g n, s'.gradients.getLast? = some g ∧ 0 < n ∧ g.length = 3 * n ∧ ∀ a < n, atomNorm g a < E.fmax := by
  obtain ⟨g, m, hg, hm, hlt⟩ := run_fmax E fuel kd s s' h
  obtain ⟨n, hn, hl, hle, -⟩ := (C54_fmax g m).1 hm
  exact ⟨g, n, hg, hn, hl, fun a ha => (hle a ha).trans_lt hlt⟩

/-- C54, budget: a call of `run` makes at most `max 1 (steps - iter)` evaluations. -/
theorem C54_budget (E : Env) (fuel : Nat) (kd : Bool) (s s' : State)
    (h : (run E fuel kd s).final = some s') :
    s.iter ≤ s'.iter ∧ ((s'.iter : Int) - s.iter ≤ max 1 (E.steps - s.iter)) ∧
      s'.targets.length = s.targets.length + (s'.iter - s.iter) := by
  induction fuel generalizing kd s with
  | zero => cases h
  | succ fuel ih =>
    rw [run] at h
    cases hl : lastRow s.gradients with
    | error e => rw [hl] at h; cases h
    | ok g =>
      rw [hl] at h
      simp only at h
      cases hm : getFmax g with
      | error e => rw [hm] at h; cases h
      | ok m =>
        rw [hm] at h
        simp only at h
        split at h
        · cases h; refine ⟨le_refl _, by omega, by omega⟩
        · cases hb : body E kd s with
          | error e => rw [hb] at h; cases h
          | ok s1 =>
            rw [hb] at h
            simp only at h
            obtain ⟨_, _, _, _, _, _, _, _, _, hev⟩ := body_spec E kd s s1 hb
            have hi := hev.iter
            have ht : s1.targets.length = s.targets.length + 1 := by rw [hev.targets]; simp
            split at h
            · cases h; refine ⟨by omega, by omega, by omega⟩
            · rename_i hlt
              obtain ⟨h1, h2, h3⟩ := ih _ _ h
              refine ⟨by omega, ?_, by omega⟩
              push Not at hlt
              have : max 1 (E.steps - s1.iter) ≤ max 1 (E.steps - s.iter) - 1 := by omega
              omega

/-- The lists of an `MLMin` object belong together: same length, one entry of each for each geometry. -/
def Aligned (s : State) : Prop :=
  s.targets.length = s.train.length ∧ s.gradients.length = s.train.length ∧
    s.maxAbs.length = s.train.length ∧ s.atoms.length = s.train.length

/-- C54, lists: the lists of geometries, energies, gradients, forces and Atoms stay the same length. -/
theorem C54_lists (E : Env) (fuel : Nat) (kd : Bool) (s s' : State) (hs : Aligned s)
    (h : (run E fuel kd s).final = some s') : Aligned s' := by
  refine run_induct E (fun s s' => Aligned s → Aligned s') (fun _ h => h) ?_ fuel kd s s' h hs
  intro s s' s'' kd hb ih hs
  apply ih
  obtain ⟨_, _, _, _, _, _, _, _, _, hev⟩ := body_spec E kd s s' hb
  obtain ⟨h1, h2, h3, h4⟩ := hs
  obtain ⟨m, -, hm⟩ := hev.maxAbs
  refine ⟨?_, ?_, ?_, ?_⟩
  · rw [hev.targets, hev.train]; simp [h1]
  · rw [hev.gradients, hev.train]; simp [h2]
  · rw [hm, hev.train]; simp [h3]
  · rw [hev.atoms, hev.train]; simp [h4]

/-- C54, data: a run only appends, and what it appends are real evaluations: entry `k` of the new energies
and gradients is the real calculator's answer at entry `k` of the new geometries, and the force entry is the
largest atomic force of that gradient. -/
theorem C54_data (E : Env) (fuel : Nat) (kd : Bool) (s s' : State)
    (h : (run E fuel kd s).final = some s') :
    ∃ new : List (List ℝ), s'.train = s.train ++ new ∧
      s'.targets = s.targets ++ new.map (fun p => (E.real p).1) ∧
      s'.gradients = s.gradients ++ new.map (fun p => (E.real p).2) ∧
      ∃ ms, s'.maxAbs = s.maxAbs ++ ms ∧
        List.Forall₂ (fun p m => getFmax (E.real p).2 = .ok m) new ms := by
  refine run_induct E (fun s s' => ∃ new : List (List ℝ), s'.train = s.train ++ new ∧
      s'.targets = s.targets ++ new.map (fun p => (E.real p).1) ∧
      s'.gradients = s.gradients ++ new.map (fun p => (E.real p).2) ∧
      ∃ ms, s'.maxAbs = s.maxAbs ++ ms ∧
        List.Forall₂ (fun p m => getFmax (E.real p).2 = .ok m) new ms) ?_ ?_ fuel kd s s' h
  · intro s; exact ⟨[], by simp, by simp, by simp, [], by simp, .nil⟩
  · rintro s s1 s' kd hb ⟨new, h1, h2, h3, ms, h4, h5⟩
    obtain ⟨_, _, _, p, _, _, _, _, _, hev⟩ := body_spec E kd s s1 hb
    obtain ⟨m, hm, hma⟩ := hev.maxAbs
    refine ⟨p.pos :: new, ?_, ?_, ?_, m :: ms, ?_, .cons hm h5⟩
    · rw [h1, hev.train]; simp
    · rw [h2, hev.targets]; simp
    · rw [h3, hev.gradients]; simp
    · rw [h4, hma]; simp

/-- C54, acquisition: the geometry evaluated in a pass is one of the at most 1001 geometries met on the
surrogate landscape, and no other of them is strictly better for the acquisition rule the caller named. -/
theorem C54_selection (E : Env) (kd : Bool) (s s' : State) (h : body E kd s = .ok s') :
    ∃ ps : List Point, 1 ≤ ps.length ∧ ps.length ≤ 1001 ∧ ∃ p ∈ ps, (∀ q ∈ ps, Prefers E.acq p q) ∧
      s'.train = s.train ++ [p.pos] ∧ ∃ sur, E.fit s = .ok sur ∧ ∀ q ∈ ps,
        ∃ t, applyMask [q.pos] E.mask = .ok ([q.pos], [t]) ∧ q.energy = sur.energy t ∧ q.unc = sur.unc t := by
  obtain ⟨sur, start, ps, p, hf, _, hi, hp, hpref, hev⟩ := body_spec E kd s s' h
  have hlen : 1 ≤ ps.length ∧ ps.length ≤ 1001 := by
    rcases C54_inner E s sur start (List.replicate start.length 0) with h | ⟨qs, h, h1, h2⟩
    · rw [hi] at h; cases h
    · rw [hi] at h; cases h; exact ⟨h1, h2⟩
  refine ⟨ps, hlen.1, hlen.2, p, hp, hpref, hev.train, sur, hf, ?_⟩
  have key : ∀ (fuel n : Nat) (r v : List ℝ) (ps : List Point), inner E s sur fuel n r v = .ok ps →
      ∀ q ∈ ps, ∃ t, applyMask [q.pos] E.mask = .ok ([q.pos], [t]) ∧ q.energy = sur.energy t ∧
        q.unc = sur.unc t := by
    intro fuel
    induction fuel with
    | zero => intro n r v ps h; cases h
    | succ fuel ih =>
      intro n r v ps h q hq
      rw [inner] at h
      simp only [bind, Except.bind, pure, Except.pure] at h
      cases hf : surForces sur E.fs r E.mask with
      | error e => rw [hf] at h; cases h
      | ok f =>
        rw [hf] at h
        simp only at h
        cases ht : pick (mdmin (E.coef s n) r v f).1 E.mask with
        | error e => rw [ht] at h; cases h
        | ok t =>
          rw [ht] at h
          simp only at h
          have here : ∃ t', applyMask [(mdmin (E.coef s n) r v f).1] E.mask =
              .ok ([(mdmin (E.coef s n) r v f).1], [t']) ∧ sur.energy t = sur.energy t' ∧
              sur.unc t = sur.unc t' :=
            ⟨t, by simp [applyMask, ht, bind, Except.bind, pure, Except.pure], rfl, rfl⟩
          split at h
          · cases h
            simp only [List.mem_singleton] at hq
            subst hq
            exact here
          · cases hi : inner E s sur fuel (n + 1) (mdmin (E.coef s n) r v f).1 (mdmin (E.coef s n) r v f).2 with
            | error e => rw [hi] at h; cases h
            | ok qs =>
              rw [hi] at h
              cases h
              rcases List.mem_cons.1 hq with rfl | hq
              · exact here
              · exact ih _ _ _ _ hi q hq
  exact key _ _ _ _ _ hi

/-- C53, runs: in every geometry that a run evaluates, the coordinates that are not kept by the mask have
the value of the last geometry known before the run. -/
theorem C53_run (E : Env) (fuel : Nat) (kd : Bool) (s s' : State) (start : List ℝ)
    (hs : s.train.getLast? = some start) (h : (run E fuel kd s).final = some s') :
    ∃ new : List (List ℝ), s'.train = s.train ++ new ∧
      ∀ p ∈ new, p.length = start.length ∧ ∀ i, i ∉ E.mask → p[i]? = start[i]? := by
  refine run_induct E (fun s s' => ∀ start : List ℝ, s.train.getLast? = some start →
    ∃ new : List (List ℝ), s'.train = s.train ++ new ∧
      ∀ p ∈ new, p.length = start.length ∧ ∀ i, i ∉ E.mask → p[i]? = start[i]?) ?_ ?_ fuel kd s s' h start hs
  · intro s start _; exact ⟨[], by simp, by simp⟩
  · intro s s1 s' kd hb ih start hs
    obtain ⟨sur, st, ps, p, hf, hst, hi, hp, _, hev⟩ := body_spec E kd s s1 hb
    have : st = start := by rw [hs] at hst; exact (Option.some.inj hst).symm
    subst this
    obtain ⟨hl, hfix⟩ := inner_fixed E s sur 1001 0 st _ ps (by simp)
      (fun i _ hi => by simp [hi]) hi p hp
    obtain ⟨new, h1, h2⟩ := ih p.pos (by rw [hev.train]; simp)
    refine ⟨p.pos :: new, by rw [h1, hev.train]; simp, fun q hq => ?_⟩
    rcases List.mem_cons.1 hq with rfl | hq
    · exact ⟨hl, hfix⟩
    · exact ⟨by rw [(h2 q hq).1, hl], fun i hi => by rw [(h2 q hq).2 i hi, hfix i hi]⟩

/-! ## The constructor -/

theorem mapM_ok_length {α β : Type} (f : α → Except PyErr β) (l : List α) (m : List β)
    (h : l.mapM f = .ok m) : m.length = l.length := by
  induction l generalizing m with
  | nil => cases h; rfl
  | cons a l ih =>
    simp only [List.mapM_cons, bind, Except.bind, pure, Except.pure] at h
    split at h
    · cases h
    · split at h
      · cases h
      · rename_i m' hm'
        cases h
        simp [ih m' hm']

theorem dedupe_spec (known prev : List Calc) :
    ∃ new, dedupe known prev = known ++ new ∧ (∀ c ∈ new, c ∈ prev) ∧
      (∀ p ∈ prev, ∃ k ∈ dedupe known prev, k.pos = p.pos) ∧
      ((known.map (·.pos)).Nodup → ((dedupe known prev).map (·.pos)).Nodup) := by
  induction prev generalizing known with
  | nil => exact ⟨[], by simp [dedupe], by simp, by simp, by simp [dedupe]⟩
  | cons p ps ih =>
    rw [dedupe]
    split
    · rename_i hk
      obtain ⟨new, h1, h2, h3, h4⟩ := ih known
      refine ⟨new, h1, fun c hc => by simp [h2 c hc], ?_, h4⟩
      intro q hq
      rcases List.mem_cons.1 hq with rfl | hq
      · obtain ⟨k, hk, he⟩ := hk
        exact ⟨k, by rw [h1]; simp [hk], he⟩
      · exact h3 q hq
    · rename_i hk
      obtain ⟨new, h1, h2, h3, h4⟩ := ih (known ++ [p])
      refine ⟨p :: new, by rw [h1]; simp, ?_, ?_, ?_⟩
      · intro c hc
        rcases List.mem_cons.1 hc with rfl | hc
        · simp
        · simp [h2 c hc]
      · intro q hq
        rcases List.mem_cons.1 hq with rfl | hq
        · exact ⟨q, by rw [h1]; simp, rfl⟩
        · exact h3 q hq
      · intro hn
        apply h4
        push Not at hk
        rw [List.map_append, List.nodup_append]
        refine ⟨hn, by simp, ?_⟩
        intro a ha b hb
        simp only [List.map_cons, List.map_nil, List.mem_singleton] at hb
        subst hb
        obtain ⟨k, hk', rfl⟩ := List.mem_map.1 ha
        exact hk k hk'

/-- C54, start: a new object holds the initial structure first, every previous calculation once (no two
entries have the same geometry), lists of equal length and the iteration counter zero. -/
theorem C54_init (x0 : Calc) (prev : List Calc) (s : State) (h : init x0 prev = .ok s) :
    Aligned s ∧ s.iter = 0 ∧ s.cur = x0.pos ∧ s.train.head? = some x0.pos ∧ s.train.Nodup ∧
      (∀ p ∈ prev, p.pos ∈ s.train) ∧ ∀ p ∈ s.train, p = x0.pos ∨ ∃ c ∈ prev, c.pos = p := by
  simp only [init, bind, Except.bind, pure, Except.pure] at h
  split at h
  · cases h
  · rename_i m hm
    have hlen := mapM_ok_length _ _ _ hm
    cases h
    obtain ⟨new, h1, h2, h3, h4⟩ := dedupe_spec [x0] prev
    simp only [List.length_map] at hlen
    refine ⟨⟨by simp, by simp, by simp [hlen], ?_⟩, rfl, rfl, ?_, h4 (by simp), ?_, ?_⟩
    · simp [h1]
    · simp [h1]
    · intro p hp
      obtain ⟨k, hk, he⟩ := h3 p hp
      exact List.mem_map.2 ⟨k, hk, he⟩
    · intro p hp
      obtain ⟨k, hk, rfl⟩ := List.mem_map.1 hp
      rw [h1] at hk
      simp only [List.cons_append, List.nil_append, List.mem_cons] at hk
      rcases hk with rfl | hk
      · exact .inl rfl
      · exact .inr ⟨k, h2 k hk, rfl⟩

/-! ## A concrete run -/

theorem getFmax_x (x : ℝ) : getFmax [x, 0, 0] = .ok |x| := by
  simp [getFmax, rows3, Real.sqrt_sq_eq_abs]

/-- One atom, of which only the `x` coordinate is free; the real force is `-x`; the surrogate has slope one
and its optimiser does one unit step. -/
noncomputable def demo (steps : Int) (k : KernelArg) : Env where
  real p := (p.getD 0 0 ^ 2 / 2, [p.getD 0 0, 0, 0])
  fit _ := .ok ⟨fun t => t.getD 0 0, fun _ => 0⟩
  coef _ _ := ⟨0, 1, 1⟩
  conv _ _ := true
  mask := [0]
  fmax := 1 / 2
  steps := steps
  maxStep := 1
  fs := 1
  kernel := k
  acq := .minEnergy

/-- The initial structure of the demonstration. -/
noncomputable def demoStart : Calc := ⟨[1, 2, 3], 1 / 2, [1, 0, 0]⟩

/-- The object made from it. -/
noncomputable def demoState : State :=
  { train := [[1, 2, 3]]
    targets := [1 / 2]
    gradients := [[1, 0, 0]]
    maxAbs := [1]
    iter := 0
    cur := [1, 2, 3]
    atoms := [.ini] }

theorem demo_init : init demoStart [] = .ok demoState := by
  simp [init, demoStart, dedupe, getFmax_x, bind, Except.bind, pure, Except.pure, demoState]

/-- The object after its first evaluation. -/
noncomputable def demoNext : State :=
  { train := [[1, 2, 3], [0, 2, 3]]
    targets := [1 / 2, 0]
    gradients := [[1, 0, 0], [0, 0, 0]]
    maxAbs := [1, 0]
    iter := 1
    cur := [0, 2, 3]
    atoms := [.ini, .ini] }

theorem demo_body (n : Int) (k : KernelArg) (kd : Bool) : body (demo n k) kd demoState = .ok demoNext := by
  have hs : ∀ st, surForces ⟨fun t => t.getD 0 0, fun _ => 0⟩ (demo n k).fs [1, 2, 3] (demo n k).mask =
      .ok [-1, 0, 0] ∧ (demo n k).fit st = .ok ⟨fun t => t.getD 0 0, fun _ => 0⟩ := by
    intro st
    refine ⟨?_, rfl⟩
    simp only [surForces, demo, pick, List.mapM_cons, List.mapM_nil, bind, Except.bind, pure, Except.pure,
      surGrad, writeBack]
    simp [writeBack]
  have hi : inner (demo n k) demoState ⟨fun t => t.getD 0 0, fun _ => 0⟩ 1001 0 [1, 2, 3] [0, 0, 0] =
      .ok [⟨[0, 2, 3], 0, 0⟩] := by
    rw [inner]
    simp only [bind, Except.bind, (hs demoState).1, pure, Except.pure]
    simp [demo, mdmin, pick, List.mapM_cons, bind, Except.bind, pure, Except.pure]
  have hc : choose (demo n k).acq [⟨[0, 2, 3], 0, 0⟩] = .ok ⟨[0, 2, 3], 0, 0⟩ := by
    simp [choose, demo, score, argmaxPoint, bind, Except.bind, pure, Except.pure]
  have he : evaluate (demo n k) demoState [0, 2, 3] = .ok demoNext := by
    simp [evaluate, demo, getFmax_x, bind, Except.bind, pure, Except.pure, demoState, demoNext]
  rw [body, if_neg (by simp [demoState])]
  simp only [bind, Except.bind, (hs demoState).2]
  have hlr : lastRow demoState.train = .ok [1, 2, 3] := rfl
  have hrep : List.replicate ([1, 2, 3] : List ℝ).length (0 : ℝ) = [0, 0, 0] := rfl
  simp only [hlr, hrep, hi, hc, he]

theorem demo_run (n : Int) (k : KernelArg) (fuel : Nat) :
    run (demo n k) (fuel + 2) false demoState = if (1 : Int) ≥ n then .budget demoNext else .converged demoNext := by
  have h1 : lastRow demoState.gradients = .ok [1, 0, 0] := rfl
  have h2 : lastRow demoNext.gradients = .ok [0, 0, 0] := rfl
  have h3 : ¬ ((1 : ℝ) < 1 / 2) := by norm_num
  have h4 : (0 : ℝ) < 1 / 2 := by norm_num
  have hf : (demo n k).fmax = 1 / 2 := rfl
  have hi : (demoNext.iter : Int) = 1 := rfl
  have hn : (demo n k).steps = n := rfl
  rw [run]
  simp only [h1, getFmax_x, abs_one, hf, h3, if_false, demo_body, hi, hn]
  split
  · rfl
  · rw [run]
    simp only [h2, getFmax_x, abs_zero, hf, h4, if_true]

example : max 1 ((demo 5 .sqe).steps - demoState.iter) < 6 := by
  show max 1 ((5 : Int) - 0) < 6
  norm_num

example : run (demo 5 .sqe) 7 false demoState = .converged demoNext := demo_run 5 .sqe 5

example : (run (demo 5 .sqe) 7 false demoState).final = some demoNext ∧ Aligned demoState ∧
    demoState.train.getLast? = some [1, 2, 3] := by
  rw [demo_run 5 .sqe 5]; exact ⟨rfl, ⟨rfl, rfl, rfl, rfl⟩, rfl⟩

example : body (demo 5 .sqe) false demoState = .ok demoNext := demo_body _ _ _

/-! ## C127: the message about missing convergence -/

/-- C127, part: when `run` reports that it did not converge, the counter has reached `steps`, the budget was
not exceeded, and every evaluated structure except the last one had a force of at least `fmax`.  Missing: the
last one may satisfy the criterion (`C127_violated`). -/
theorem C127_partial (E : Env) (fuel : Nat) (kd : Bool) (s s' : State) (h : run E fuel kd s = .budget s') :
    E.steps ≤ s'.iter ∧ ∃ new : List (List ℝ), s'.gradients = s.gradients ++ new ∧ new ≠ [] ∧
      ∀ g ∈ new.dropLast, ∀ n, g.length = 3 * n → ∃ a < n, E.fmax ≤ atomNorm g a := by
  induction fuel generalizing kd s with
  | zero => cases h
  | succ fuel ih =>
    rw [run] at h
    cases hl : lastRow s.gradients with
    | error e => rw [hl] at h; cases h
    | ok g =>
      rw [hl] at h
      simp only at h
      cases hm : getFmax g with
      | error e => rw [hm] at h; cases h
      | ok m =>
        rw [hm] at h
        simp only at h
        split at h
        · cases h
        · cases hb : body E kd s with
          | error e => rw [hb] at h; cases h
          | ok s1 =>
            rw [hb] at h
            simp only at h
            obtain ⟨_, _, _, p, _, _, _, _, _, hev⟩ := body_spec E kd s s1 hb
            split at h
            · rename_i hge
              cases h
              exact ⟨hge, [(E.real p.pos).2], hev.gradients, by simp, by simp⟩
            · have h' := h
              obtain ⟨h1, new, h2, h3, h4⟩ := ih _ _ h
              refine ⟨h1, (E.real p.pos).2 :: new, by rw [h2, hev.gradients]; simp, by simp, ?_⟩
              intro g hg n hn
              rw [List.dropLast_cons_of_ne_nil h3] at hg
              rcases List.mem_cons.1 hg with rfl | hg
              · -- the next pass looked at this gradient and went on
                cases fuel with
                | zero => cases h'
                | succ fuel =>
                  rw [run] at h'
                  have hlast : lastRow s1.gradients = .ok (E.real p.pos).2 := by
                    simp [lastRow, hev.gradients]
                  rw [hlast] at h'
                  simp only at h'
                  cases hm' : getFmax (E.real p.pos).2 with
                  | error e => rw [hm'] at h'; cases h'
                  | ok m' =>
                    rw [hm'] at h'
                    simp only at h'
                    split at h'
                    · cases h'
                    · rename_i hnlt
                      obtain ⟨n', _, hn', _, a, ha, hnorm⟩ := (C54_fmax _ _).1 hm'
                      have : n' = n := by omega
                      subst this
                      exact ⟨a, ha, by rw [hnorm]; exact not_lt.1 hnlt⟩
              · exact h4 g hg n hn

example : run (demo 1 .sqe) 7 false demoState = .budget demoNext := demo_run 1 .sqe 5

/-- C127 fails: the budget is tested before convergence, so a run whose last allowed evaluation has zero
force is reported as not converged. -/
theorem C127_violated :
    ∃ (E : Env) (x0 : Calc) (s s' : State) (g : List ℝ), init x0 [] = .ok s ∧ run E 2 false s = .budget s' ∧
      s'.gradients.getLast? = some g ∧ ∀ a, atomNorm g a < E.fmax := by
  refine ⟨demo 1 .sqe, demoStart, demoState, demoNext, [0, 0, 0], demo_init, demo_run 1 .sqe 0, rfl, ?_⟩
  intro a
  have : atomNorm [0, 0, 0] a = 0 := by
    have hz : ∀ i, ([0, 0, 0] : List ℝ).getD i 0 = 0 := by
      intro i
      match i with
      | 0 => rfl
      | 1 => rfl
      | 2 => rfl
      | i + 3 => rfl
    simp [atomNorm, hz, -List.getD_eq_getElem?_getD]
  rw [this]
  show (0 : ℝ) < 1 / 2
  norm_num

/-! ## C128: the list of Atoms objects -/

/-- The geometries shown by `list_atoms`. -/
def shown (s : State) : List (List ℝ) := s.atoms.map (AtomsRef.pos s.cur)

/-- C128, part: a new object lists Atoms objects with the geometries of `list_train`, and after a run the
last listed object has the geometry of the last entry.  Missing: the entries in between
(`C128_violated`). -/
theorem C128_partial (x0 : Calc) (prev : List Calc) (s : State) (h : init x0 prev = .ok s) :
    shown s = s.train ∧ ∀ (E : Env) (fuel : Nat) (kd : Bool) (s' : State),
      (run E fuel kd s).final = some s' → (shown s').getLast? = s'.train.getLast? := by
  have h0 : shown s = s.train := by
    simp only [init, bind, Except.bind, pure, Except.pure] at h
    split at h
    · cases h
    · cases h
      obtain ⟨new, h1, -⟩ := dedupe_spec [x0] prev
      simp [shown, h1, AtomsRef.pos, List.map_map, Function.comp_def]
  refine ⟨h0, fun E fuel kd s' hr => ?_⟩
  refine run_induct E (fun s s' => (shown s).getLast? = s.train.getLast? →
    (shown s').getLast? = s'.train.getLast?) (fun _ h => h) ?_ fuel kd s s' hr (by rw [h0])
  intro s s1 s' kd hb ih _
  apply ih
  obtain ⟨_, _, _, p, _, _, _, _, _, hev⟩ := body_spec E kd s s1 hb
  simp [shown, hev.atoms, hev.train, hev.cur, AtomsRef.pos]

/-- C128 fails: `list_atoms` holds the same Atoms object again and again, so after one evaluation its first
entry shows the new geometry instead of the initial one. -/
theorem C128_violated :
    ∃ (E : Env) (x0 : Calc) (s s' : State), init x0 [] = .ok s ∧ run E 2 false s = .converged s' ∧
      shown s' ≠ s'.train := by
  refine ⟨demo 5 .sqe, demoStart, demoState, demoNext, demo_init, demo_run 5 .sqe 0, ?_⟩
  simp [shown, demoNext, AtomsRef.pos]

/-! ## C129: kernel names -/

theorem body_no_name (E : Env) (kd : Bool) (s : State) (hacq : E.acq ≠ .other)
    (hfit : ∀ s, E.fit s ≠ .error .name) (hk : kd = true ∨ E.kernel ≠ .other ∨ s.targets.length = 1) :
    body E kd s ≠ .error .name := by
  have hch : ∀ ps, choose E.acq ps ≠ .error .name := by
    intro ps h
    have hsc : ∀ p, ∃ v, score E.acq p = .ok v := by
      intro p
      cases hq : E.acq with
      | ucb => exact ⟨_, rfl⟩
      | lcb => exact ⟨_, rfl⟩
      | minEnergy => exact ⟨_, rfl⟩
      | other => exact absurd hq hacq
    have hm : ∀ ps : List Point, ∃ l : List (ℝ × Point), (ps.mapM fun p => (do
        let v ← score E.acq p
        return (v, p) : Except PyErr (ℝ × Point))) = .ok l := by
      intro ps
      induction ps with
      | nil => exact ⟨[], rfl⟩
      | cons p ps ih =>
        obtain ⟨l, hl⟩ := ih
        obtain ⟨v, hv⟩ := hsc p
        refine ⟨(v, p) :: l, ?_⟩
        simp only [List.mapM_cons, hv, bind, Except.bind, pure, Except.pure] at hl ⊢
        rw [hl]
    rw [choose] at h
    obtain ⟨l, hl⟩ := hm ps
    rw [hl] at h
    cases l with
    | nil => cases h
    | cons a l => cases h
  rw [body]
  split
  · rename_i h
    rcases hk with hk | hk | hk
    · rw [hk] at h; cases h.1
    · exact absurd h.2.1 hk
    · exact absurd hk h.2.2
  · simp only [bind, Except.bind]
    cases hf : E.fit s with
    | error e => intro h; apply hfit s; rw [hf]; simpa using h
    | ok sur =>
      simp only
      cases hl : s.train.getLast? with
      | none => simp [lastRow, hl]
      | some start =>
        simp only [lastRow, hl]
        rcases C54_inner E s sur start (List.replicate start.length 0) with hi | ⟨ps, hi, -⟩
        · rw [hi]; simp
        · rw [hi]
          simp only
          cases hc : choose E.acq ps with
          | error e => intro h; simp only [Except.error.injEq] at h; rw [h] at hc; exact hch ps hc
          | ok p =>
            simp only [evaluate, bind, Except.bind, pure, Except.pure]
            cases hg : getFmax (E.real p.pos).2 with
            | ok m => simp
            | error e =>
              simp only [ne_eq, Except.error.injEq]
              rintro rfl
              unfold getFmax at hg
              split at hg <;> cases hg

/-- C129, part: a run whose kernel is `SQE_fixed`, `SQE` or `ARD_SQE`, or that starts from a single structure
(whatever the kernel name), never fails with an undefined name.  Missing: the documented name `SQE_opt`, which
is not implemented (`C129_violated`). -/
theorem C129_partial (E : Env) (fuel : Nat) (s : State) (hacq : E.acq ≠ .other)
    (hfit : ∀ s, E.fit s ≠ .error .name) (hk : E.kernel ≠ .other ∨ s.targets.length = 1) :
    run E fuel false s ≠ .raised .name := by
  have hgn : ∀ g, getFmax g ≠ .error .name := by
    intro g hg
    unfold getFmax at hg
    split at hg <;> cases hg
  have key : ∀ fuel kd s, (kd = true ∨ E.kernel ≠ .other ∨ s.targets.length = 1) →
      run E fuel kd s ≠ .raised .name := by
    intro fuel
    induction fuel with
    | zero => intro kd s _ h; cases h
    | succ fuel ih =>
      intro kd s hk
      rw [run]
      cases hl : s.gradients.getLast? with
      | none => simp [lastRow, hl]
      | some g =>
        simp only [lastRow, hl]
        cases hm : getFmax g with
        | error e => 
          intro h
          simp only [Outcome.raised.injEq] at h
          rw [h] at hm
          exact hgn g hm
        | ok m =>
          simp only
          split
          · simp
          · cases hb : body E kd s with
            | error e =>
              intro h
              simp only [Outcome.raised.injEq] at h
              rw [h] at hb
              exact body_no_name E kd s hacq hfit hk hb
            | ok s1 =>
              simp only
              split
              · simp
              · exact ih _ _ (.inl rfl)
  exact key fuel false s (hk.elim (fun h => .inr (.inl h)) fun h => .inr (.inr h))

example : (demo 5 .other).acq ≠ .other ∧ (∀ s, (demo 5 .other).fit s ≠ .error .name) ∧
    demoState.targets.length = 1 := ⟨by simp [demo], fun s => by simp [demo], rfl⟩

/-- C129 fails: with a kernel name that is documented but not implemented (`SQE_opt`) and a second known
structure, the run stops with an undefined name. -/
theorem C129_violated :
    ∃ (E : Env) (x0 : Calc) (prev : List Calc) (s : State), init x0 prev = .ok s ∧ E.kernel = .other ∧
      E.acq ≠ .other ∧ (∀ s, ∃ sur, E.fit s = .ok sur) ∧ run E 2 false s = .raised .name := by
  let st : State :=
    { train := [[1, 2, 3], [2, 2, 3]]
      targets := [1 / 2, 2]
      gradients := [[1, 0, 0], [2, 0, 0]]
      maxAbs := [1, 2]
      iter := 0
      cur := [1, 2, 3]
      atoms := [.ini, .own [2, 2, 3]] }
  refine ⟨demo 5 .other, demoStart, [⟨[2, 2, 3], 2, [2, 0, 0]⟩], st, ?_, rfl, by simp [demo], fun s => ⟨_, rfl⟩, ?_⟩
  · simp [init, demoStart, dedupe, getFmax_x, bind, Except.bind, pure, Except.pure, st, List.mapM_cons]
  · have h1 : lastRow st.gradients = .ok [2, 0, 0] := rfl
    have hf : (demo 5 .other).fmax = 1 / 2 := rfl
    have h3 : ¬ (|(2 : ℝ)| < 1 / 2) := by norm_num
    have hb : body (demo 5 .other) false st = .error .name := by
      rw [body, if_pos (by simp [demo, st])]
    rw [run]
    simp only [h1, getFmax_x, hf, h3, if_false, hb]

/-! ## C130: the structure handed back to the caller -/

/-- C130, part: if a run made at least one evaluation, or no previous calculations were given, then when it
ends the caller's Atoms object has the geometry of the last evaluated structure, so after reported convergence
it is the converged one.  Missing: `C130_violated`. -/
theorem C130_partial (E : Env) (fuel : Nat) (x0 : Calc) (prev : List Calc) (s s' : State)
    (hi : init x0 prev = .ok s) (h : (run E fuel false s).final = some s')
    (hcase : prev = [] ∨ 0 < s'.iter) : s'.train.getLast? = some s'.cur := by
  have key := run_induct E (fun s s' => (s.train.getLast? = some s.cur ∨ s.iter < s'.iter) →
    s.iter ≤ s'.iter ∧ s'.train.getLast? = some s'.cur) ?_ ?_ fuel false s s' h
  · obtain ⟨-, hit, hc, -⟩ := C54_init x0 prev s hi
    refine (key ?_).2
    rcases hcase with rfl | hpos
    · left
      simp only [init, bind, Except.bind, pure, Except.pure] at hi
      split at hi
      · cases hi
      · cases hi; simp [dedupe]
    · right; omega
  · intro s hs
    rcases hs with hs | hs
    · exact ⟨le_refl _, hs⟩
    · omega
  · intro s s1 s' kd hb ih _
    obtain ⟨_, _, _, p, _, _, _, _, _, hev⟩ := body_spec E kd s s1 hb
    obtain ⟨h1, h2⟩ := ih (.inl (by rw [hev.train, hev.cur]; simp))
    exact ⟨by have := hev.iter; omega, h2⟩

/-- C130 fails: if the last previous calculation is already converged, `run` reports convergence at once
and leaves the caller's structure at its initial geometry, where the force is above `fmax`. -/
theorem C130_violated :
    ∃ (E : Env) (x0 : Calc) (prev : List Calc) (s : State), init x0 prev = .ok s ∧
      run E 1 false s = .converged s ∧ s.cur = x0.pos ∧ s.train.getLast? ≠ some s.cur ∧
      E.real s.cur = (x0.energy, x0.grad) ∧ ∃ a, E.fmax ≤ atomNorm x0.grad a := by
  let st : State :=
    { train := [[1, 2, 3], [0, 2, 3]]
      targets := [1 / 2, 0]
      gradients := [[1, 0, 0], [0, 0, 0]]
      maxAbs := [1, 0]
      iter := 0
      cur := [1, 2, 3]
      atoms := [.ini, .own [0, 2, 3]] }
  refine ⟨demo 5 .sqe, demoStart, [⟨[0, 2, 3], 0, [0, 0, 0]⟩], st, ?_, ?_, rfl, ?_, ?_, 0, ?_⟩
  · simp [init, demoStart, dedupe, getFmax_x, bind, Except.bind, pure, Except.pure, st, List.mapM_cons]
  · have h1 : lastRow st.gradients = .ok [0, 0, 0] := rfl
    have hf : (demo 5 .sqe).fmax = 1 / 2 := rfl
    have h4 : (0 : ℝ) < 1 / 2 := by norm_num
    rw [run]
    simp only [h1, getFmax_x, abs_zero, hf, h4, if_true]
  · simp [st]
  · simp [demo, st, demoStart]
  · show (1 / 2 : ℝ) ≤ atomNorm [1, 0, 0] 0
    simp [atomNorm]
    norm_num

end CatLearn.MLMin
