import Verif.Model.RidgeSearch
import Verif.Props.Ridge

/-!
C102: search of the regularisation; C208: the bootstrap estimate.
-/

namespace CatLearn.RidgeSearch

open CatLearn CatLearn.Ridge CatLearn.Linalg CatLearn.Props Matrix

/-! ### C102: the search -/

private theorem argminNum_some (key : Fl → Fl) (l : List Fl) (h : l ≠ []) : ∃ w, argminNum key l = some w := by
  cases l with
  | nil => exact absurd rfl h
  | cons x xs =>
    rw [argminNum]
    split
    · exact ⟨_, rfl⟩
    · split <;> exact ⟨_, rfl⟩

private theorem argmin_some (key : Fl → Fl) (l : List Fl) (h : l ≠ []) : ∃ w, argmin key l = some w := by
  rw [argmin]
  split
  · exact ⟨_, rfl⟩
  · exact argminNum_some key l h

/-- Among finite keys the minimum is found. -/
private theorem argminNum_spec (key : Fl → Fl) (e : ℝ → ℝ) (l : List ℝ) (hl : ∀ x ∈ l, key (.fin x) = .fin (e x)) (w : Fl)
    (h : argminNum key (l.map Fl.fin) = some w) : ∃ x ∈ l, w = .fin x ∧ ∀ y ∈ l, e x ≤ e y := by
  induction l generalizing w with
  | nil => simp [argminNum] at h
  | cons x xs ih =>
    rw [List.map_cons, argminNum] at h
    have hxs := fun y hy => hl y (List.mem_cons_of_mem x hy)
    cases hr : argminNum key (xs.map Fl.fin) with
    | none =>
      rw [hr] at h
      cases h
      have : xs = [] := by
        by_contra hne
        obtain ⟨w, hw⟩ := argminNum_some key (xs.map Fl.fin) (by simpa using hne)
        rw [hw] at hr; cases hr
      subst this
      exact ⟨x, by simp, rfl, by simp⟩
    | some v =>
      rw [hr] at h
      obtain ⟨y, hy, rfl, hmin⟩ := ih hxs v hr
      simp only [hl x (by simp), hxs y hy, Fl.le] at h
      split at h
      · rename_i hle
        cases h
        refine ⟨x, by simp, rfl, fun z hz => ?_⟩
        rcases List.mem_cons.1 hz with rfl | hz
        · exact le_refl _
        · exact le_trans hle (hmin z hz)
      · rename_i hle
        cases h
        refine ⟨y, by simp [hy], rfl, fun z hz => ?_⟩
        rcases List.mem_cons.1 hz with rfl | hz
        · exact (not_le.1 hle).le
        · exact hmin z hz

private theorem argmin_spec (key : Fl → Fl) (e : ℝ → ℝ) (l : List ℝ) (hl : ∀ x ∈ l, key (.fin x) = .fin (e x)) (hne : l ≠ []) :
    ∃ x ∈ l, argmin key (l.map Fl.fin) = some (.fin x) ∧ ∀ y ∈ l, e x ≤ e y := by
  obtain ⟨w, hw⟩ := argminNum_some key (l.map Fl.fin) (by simpa using hne)
  obtain ⟨x, hx, rfl, hmin⟩ := argminNum_spec key e l hl w hw
  refine ⟨x, hx, ?_, hmin⟩
  have hf : (l.map Fl.fin).find? (fun x => @decide (key x = .nan) (Classical.propDecidable _)) = none := by
    rw [List.find?_eq_none]
    intro y hy
    obtain ⟨z, hz, rfl⟩ := List.mem_map.1 hy
    simp [hl z hz]
  rw [argmin, hf]
  exact hw

/-- The first NaN wins. -/
private theorem argmin_nan (key : Fl → Fl) (pre : List Fl) (x : Fl) (post : List Fl) (hpre : ∀ y ∈ pre, key y ≠ .nan)
    (hx : key x = .nan) : argmin key (pre ++ x :: post) = some x := by
  have hf : (pre ++ x :: post).find? (fun x => @decide (key x = .nan) (Classical.propDecidable _)) = some x := by
    rw [List.find?_append]
    have : pre.find? (fun x => @decide (key x = .nan) (Classical.propDecidable _)) = none := by
      rw [List.find?_eq_none]
      intro y hy
      simp [hpre y hy]
    rw [this]
    simp [hx]
  rw [argmin, hf]

/-- The grid over finite numbers. -/
private theorem linspace_fin (a b : ℝ) (k : ℕ) : ∃ l : List ℝ, linspace (.fin a) (.fin b) k = l.map Fl.fin ∧ l.length = k ∧
    ∀ i < k, a + i * ((b - a) / (k - 1 : ℕ)) ∈ l := by
  unfold linspace
  by_cases h0 : k = 0
  · subst h0; exact ⟨[], by simp, rfl, by simp⟩
  · by_cases h1 : k = 1
    · subst h1
      refine ⟨[a], by simp [Fl.add, Fl.neg, Fl.scale], rfl, ?_⟩
      intro i hi
      have : i = 0 := by omega
      subst this; simp
    · have hk : ((k : ℝ) - 1) ≠ 0 := by
        intro h
        have : (k : ℝ) = 1 := by linarith
        exact h1 (by exact_mod_cast this)
      have hc : ((k - 1 : ℕ) : ℝ) = (k : ℝ) - 1 := by rw [Nat.cast_sub (by omega)]; simp
      refine ⟨((List.range (k - 1)).map fun i : ℕ => (i : ℝ) * (((k : ℝ) - 1)⁻¹ * (b - a)) + a) ++ [b], ?_, ?_, ?_⟩
      · simp only [h0, h1, if_false, Fl.add, Fl.neg, Fl.divBy, hk, Fl.scale, List.map_append, List.map_map, List.map_cons,
          List.map_nil]
        congr 1
      · simp; omega
      · intro i hi
        rw [List.mem_append]
        by_cases hl : i < k - 1
        · left
          refine List.mem_map.2 ⟨i, List.mem_range.2 hl, ?_⟩
          rw [hc]; ring
        · right
          have : i = k - 1 := by omega
          subst this
          rw [List.mem_singleton, mul_div_cancel₀ _ (by rw [hc]; exact hk)]
          ring

private theorem linspace_length (a b : Fl) (k : ℕ) : (linspace a b k).length = k := by
  unfold linspace
  by_cases h0 : k = 0
  · simp [h0]
  · by_cases h1 : k = 1
    · simp [h1]
    · simp [h0, h1]; omega

private theorem initial_fin (wFirst wLast : ℝ) (hF : 0 < wFirst) (hL : 0 < wLast) (wsteps : ℕ) :
    ∃ l : List ℝ, initialRange (Fl.fin (wLast * 0.5)).log (Fl.fin (wFirst * 2)).log wsteps = l.map Fl.fin ∧
      l.length = wsteps + 2 ∧ (∀ x ∈ l, 0 < x) ∧ 1e-6 * (wLast * 0.5) ∈ l ∧ 1e6 * (wFirst * 2) ∈ l ∧
      ∀ i < wsteps, Real.exp (Real.log (wLast * 0.5) +
        i * ((Real.log (wFirst * 2) - Real.log (wLast * 0.5)) / (wsteps - 1 : ℕ))) ∈ l := by
  have h1 : 0 < wLast * 0.5 := by positivity
  have h2 : 0 < wFirst * 2 := by positivity
  have e1 : (Fl.fin (wLast * 0.5)).log = .fin (Real.log (wLast * 0.5)) := by
    rw [Fl.log, if_neg (not_lt.2 h1.le), if_neg h1.ne']
  have e2 : (Fl.fin (wFirst * 2)).log = .fin (Real.log (wFirst * 2)) := by
    rw [Fl.log, if_neg (not_lt.2 h2.le), if_neg h2.ne']
  obtain ⟨g, hg, hlen, hmem⟩ := linspace_fin (Real.log (wLast * 0.5)) (Real.log (wFirst * 2)) wsteps
  refine ⟨[1e-6 * (wLast * 0.5)] ++ g.map Real.exp ++ [1e6 * (wFirst * 2)], ?_, by simp [hlen], ?_, by simp, by simp, ?_⟩
  · simp only [initialRange, e1, e2, hg, Fl.exp, Fl.scale, Real.exp_log h1, Real.exp_log h2, List.map_append, List.map_cons,
      List.map_nil, List.map_map]
    congr 2
  · intro x hx
    simp only [List.mem_append, List.mem_singleton, List.mem_map] at hx
    rcases hx with (rfl | ⟨y, -, rfl⟩) | rfl
    · positivity
    · exact Real.exp_pos y
    · positivity
  · intro i hi
    rw [List.mem_append, List.mem_append]
    exact Or.inl (Or.inr (List.mem_map.2 ⟨_, hmem i hi, rfl⟩))

private theorem refine_fin (epe : Fl → Fl) (e : ℝ → ℝ) (he : ∀ x, 0 < x → epe (.fin x) = .fin (e x)) (wsteps : ℕ) (r : ℕ) :
    ∀ (tried range : List ℝ) (width : ℝ) (best : Fl), (2 ≤ wsteps ∨ r = 0) → 2 ≤ range.length →
      (∀ x ∈ tried ++ range, 0 < x) →
      ∃ w, refine epe wsteps (r + 1) (tried.map Fl.fin) (range.map Fl.fin) (.fin width) best = .ok (.fin w) ∧ 0 < w ∧
        ∀ x ∈ tried ++ range, e w ≤ e x := by
  induction r with
  | zero =>
    intro tried range width best _ hr hpos
    obtain ⟨w, hw, hmin, hle⟩ := argmin_spec epe e (tried ++ range) (fun x hx => he x (hpos x hx))
      (by intro h; rw [List.append_eq_nil_iff] at h; simp [h.2] at hr)
    refine ⟨w, ?_, hpos w hw, hle⟩
    rw [refine, if_neg (by simp; intro h; simp [h] at hr), if_neg (by simp; omega), ← List.map_append, hmin]
    simp [refine]
  | succ r ih =>
    intro tried range width best hs hr hpos
    have hs2 : 2 ≤ wsteps := by omega
    obtain ⟨w, hw, hmin, hle⟩ := argmin_spec epe e (tried ++ range) (fun x hx => he x (hpos x hx))
      (by intro h; rw [List.append_eq_nil_iff] at h; simp [h.2] at hr)
    have hw0 := hpos w hw
    have hk : ((wsteps : ℝ) - 1) ≠ 0 := by
      have : (2 : ℝ) ≤ wsteps := by exact_mod_cast hs2
      intro h; linarith
    have elog : (Fl.fin w).log = .fin (Real.log w) := by rw [Fl.log, if_neg (not_lt.2 hw0.le), if_neg hw0.ne']
    obtain ⟨g, hg, hlen, -⟩ := linspace_fin (Real.log w + -(0.5 * (((wsteps : ℝ) - 1)⁻¹ * (2 * width))))
      (Real.log w + 0.5 * (((wsteps : ℝ) - 1)⁻¹ * (2 * width))) wsteps
    obtain ⟨w', h1, h2, h3⟩ := ih (tried ++ range) (g.map Real.exp) (((wsteps : ℝ) - 1)⁻¹ * (2 * width)) (.fin w) (Or.inl hs2)
      (by simpa [hlen] using hs2) (by
        intro x hx
        rcases List.mem_append.1 hx with hx | hx
        · exact hpos x hx
        · obtain ⟨y, -, rfl⟩ := List.mem_map.1 hx
          exact Real.exp_pos y)
    refine ⟨w', ?_, h2, fun x hx => h3 x (List.mem_append_left _ hx)⟩
    rw [refine, if_neg (by simp; intro h; simp [h] at hr), if_neg (by simp; omega), ← List.map_append, hmin]
    simp only [elog, Fl.scale, Fl.divBy, hk, if_false, Fl.neg, Fl.add, hg, List.map_map]
    rw [List.map_map] at h1
    exact h1

/-- C102 (`_partial`: not for singular data nor fewer than two steps of the grid, see below): if at least one search step is
made, the regularisation found is positive and finite and, by the error estimate used (leave-one-out or bootstrap), at least
as good as every point of the initial grid: all values spaced evenly in the logarithm from half the smallest to twice the
largest singular value, and the two extreme values beyond.  The refinement never makes the result worse. -/
theorem C102_search_partial (epe : Fl → Fl) (e : ℝ → ℝ) (he : ∀ x, 0 < x → epe (.fin x) = .fin (e x)) (wFirst wLast : ℝ)
    (hF : 0 < wFirst) (hL : 0 < wLast) (wsteps rsteps : ℕ) (hs : 2 ≤ wsteps ∨ rsteps = 0) :
    ∃ w, findOptimal epe wFirst wLast wsteps (rsteps + 1) = .ok (.fin w) ∧ 0 < w ∧
      e w ≤ e (1e-6 * (wLast * 0.5)) ∧ e w ≤ e (1e6 * (wFirst * 2)) ∧
      ∀ i < wsteps, e w ≤ e (Real.exp (Real.log (wLast * 0.5) +
        i * ((Real.log (wFirst * 2) - Real.log (wLast * 0.5)) / (wsteps - 1 : ℕ)))) := by
  obtain ⟨l, hl, hlen, hpos, m1, m2, m3⟩ := initial_fin wFirst wLast hF hL wsteps
  have h1 : 0 < wLast * 0.5 := by positivity
  have h2 : 0 < wFirst * 2 := by positivity
  obtain ⟨w, hw, hw0, hle⟩ := refine_fin epe e he wsteps rsteps [] l
    (Real.log (wFirst * 2) + -Real.log (wLast * 0.5)) .pinf hs (by omega) (by simpa using hpos)
  refine ⟨w, ?_, hw0, hle _ (by simpa using m1), hle _ (by simpa using m2), fun i hi => hle _ (by simpa using m3 i hi)⟩
  unfold findOptimal
  simp only [hl]
  have hwidth : (Fl.fin (wFirst * 2)).log.add (Fl.fin (wLast * 0.5)).log.neg =
      .fin (Real.log (wFirst * 2) + -Real.log (wLast * 0.5)) := by
    rw [Fl.log, if_neg (not_lt.2 h2.le), if_neg h2.ne', Fl.log, if_neg (not_lt.2 h1.le), if_neg h1.ne', Fl.neg, Fl.add]
  rw [hwidth]
  exact hw

example : ∃ (epe : Fl → Fl) (e : ℝ → ℝ), (∀ x, 0 < x → epe (.fin x) = .fin (e x)) ∧ (0 : ℝ) < 4 ∧ 2 ≤ 15 :=
  ⟨fun x => match x with | .fin x => .fin ((x - 1) ^ 2) | _ => .nan, fun x => (x - 1) ^ 2, fun _ _ => rfl, by norm_num, by norm_num⟩

/-- A NaN at the front of the list stays the result. -/
private theorem refine_stuck (epe : Fl → Fl) (wsteps : ℕ) (hs : 2 ≤ wsteps) (pre : List Fl) (x : Fl) (hpre : ∀ y ∈ pre, epe y ≠ .nan)
    (hx : epe x = .nan) (r : ℕ) : ∀ (post range : List Fl) (width : Fl), 2 ≤ range.length →
      refine epe wsteps r (pre ++ x :: post) range width x = .ok x := by
  induction r with
  | zero => intro _ _ _ _; rfl
  | succ r ih =>
    intro post range width hr
    rw [refine, if_neg (by omega), if_neg (by omega), List.append_assoc, List.cons_append, argmin_nan epe pre x _ hpre hx]
    exact ih _ _ _ (by rw [List.length_map, linspace_length]; exact hs)

private theorem refine_first (epe : Fl → Fl) (wsteps : ℕ) (pre : List Fl) (x : Fl) (post : List Fl) (hpre : ∀ y ∈ pre, epe y ≠ .nan)
    (hx : epe x = .nan) (r : ℕ) (hs : 2 ≤ wsteps ∨ r = 0) (width best : Fl) (hlen : 2 ≤ (pre ++ x :: post).length) :
    refine epe wsteps (r + 1) [] (pre ++ x :: post) width best = .ok x := by
  rw [refine, if_neg (by omega), if_neg (by omega), List.nil_append, argmin_nan epe pre x _ hpre hx]
  rcases hs with hs | rfl
  · exact refine_stuck epe wsteps hs pre x hpre hx r _ _ _ (by rw [List.length_map, linspace_length]; exact hs)
  · rfl

/-- C102 is violated for data whose smallest singular value is zero (a feature that is zero for all data, or fewer data than
features): the logarithm of zero makes the grid NaN, `argmin` prefers NaN, and the result is NaN, or zero if the
error estimate without regularisation is itself NaN; the coefficients are then NaN or infinite. -/
theorem C102_singular_violated (epe : Fl → Fl) (hnan : epe .nan = .nan) (wFirst : ℝ) (wsteps rsteps : ℕ) (hs : 2 ≤ wsteps) :
    findOptimal epe wFirst 0 wsteps (rsteps + 1) = .ok .nan ∨
      findOptimal epe wFirst 0 wsteps (rsteps + 1) = .ok (.fin 0) ∧ epe (.fin 0) = .nan := by
  have elog : (Fl.fin (0 * 0.5)).log = .ninf := by simp [Fl.log]
  have hk : (wsteps : ℝ) - 1 ≠ 0 := by
    have : (2 : ℝ) ≤ wsteps := by exact_mod_cast hs
    intro h; linarith
  unfold findOptimal
  simp only [elog]
  generalize hwh : (Fl.fin (wFirst * 2)).log = whigh
  have hrange : ∃ post, initialRange .ninf whigh wsteps = Fl.fin 0 :: .nan :: post := by
    refine ⟨(((List.range (wsteps - 2)).map fun i : ℕ =>
      (((whigh.add .pinf).divBy ((wsteps : ℝ) - 1)).scale (i + 1 : ℕ)).add .ninf) ++ [whigh]).map Fl.exp ++ [whigh.exp.scale 1e6], ?_⟩
    have hr : List.range (wsteps - 1) = 0 :: (List.range (wsteps - 2)).map (· + 1) := by
      rw [show wsteps - 1 = (wsteps - 2) + 1 by omega, List.range_succ_eq_map]
    have hz : (((whigh.add .pinf).divBy ((wsteps : ℝ) - 1)).scale ((0 : ℕ) : ℝ)).add .ninf = .nan ∨
        ∃ x, (whigh.add .pinf).divBy ((wsteps : ℝ) - 1) = .fin x := by
      cases hq : (whigh.add .pinf).divBy ((wsteps : ℝ) - 1) with
      | nan => left; simp [Fl.scale, Fl.add]
      | ninf => left; simp [Fl.scale, Fl.add]
      | pinf => left; simp [Fl.scale, Fl.add]
      | fin x => right; exact ⟨x, rfl⟩
    have hz' : (((whigh.add .pinf).divBy ((wsteps : ℝ) - 1)).scale ((0 : ℕ) : ℝ)).add .ninf = .nan := by
      rcases hz with hz | ⟨x, hx⟩
      · exact hz
      · exfalso
        have hinf : whigh.add .pinf = .nan ∨ whigh.add .pinf = .pinf := by
          cases whigh <;> simp [Fl.add]
        rcases hinf with h | h <;> rw [h] at hx <;> simp only [Fl.divBy, hk, if_false, Fl.scale] at hx
        · cases hx
        · split at hx
          · cases hx
          · split at hx <;> cases hx
    have e0 : Fl.scale 1e-6 (Fl.exp .ninf) = .fin 0 := by simp [Fl.exp, Fl.scale]
    have en : Fl.neg .ninf = .pinf := rfl
    have ex : Fl.exp .nan = .nan := rfl
    simp only [initialRange, linspace, show wsteps ≠ 0 by omega, show wsteps ≠ 1 by omega, if_false, hr, List.map_cons, e0, en,
      hz', ex, List.cons_append, List.nil_append, List.map_map, List.map_append]
    rfl
  obtain ⟨post, hpost⟩ := hrange
  rw [hpost]
  by_cases h0 : epe (.fin 0) = .nan
  · right
    exact ⟨refine_first epe wsteps [] (.fin 0) _ (by simp) h0 rsteps (Or.inl hs) _ _ (by simp), h0⟩
  · left
    exact refine_first epe wsteps [.fin 0] .nan post (by simpa using h0) hnan rsteps (Or.inl hs) _ _ (by simp)

/-- C102 is violated for `wsteps = 1` or `wsteps = 0` with more than one search step: the second step raises TypeError or
UnboundLocalError, whatever the data. -/
theorem C102_few_steps_violated (epe : Fl → Fl) (wFirst wLast : ℝ) (rsteps : ℕ) :
    findOptimal epe wFirst wLast 1 (rsteps + 2) = .error .type ∧ findOptimal epe wFirst wLast 0 (rsteps + 2) = .error .name := by
  constructor
  · unfold findOptimal
    simp only
    generalize (Fl.fin (wFirst * 2)).log = whigh
    generalize (Fl.fin (wLast * 0.5)).log = wlow
    have hl : (initialRange wlow whigh 1).length = 3 := by simp [initialRange, linspace_length]
    obtain ⟨w, hw⟩ := argmin_some epe ([] ++ initialRange wlow whigh 1) (by simp [initialRange])
    rw [refine, if_neg (by omega), if_neg (by omega), hw]
    simp only
    rw [refine, if_neg (by simp [linspace_length]), if_pos (by simp [linspace_length])]
  · unfold findOptimal
    simp only
    generalize (Fl.fin (wFirst * 2)).log = whigh
    generalize (Fl.fin (wLast * 0.5)).log = wlow
    have hl : (initialRange wlow whigh 0).length = 2 := by simp [initialRange, linspace_length]
    obtain ⟨w, hw⟩ := argmin_some epe ([] ++ initialRange wlow whigh 0) (by simp [initialRange])
    rw [refine, if_neg (by omega), if_neg (by omega), hw]
    simp only
    rw [refine, if_pos (by simp [linspace_length])]

/-- C102: without a search step the result is infinite. -/
theorem C102_no_step (epe : Fl → Fl) (wFirst wLast : ℝ) (wsteps : ℕ) : findOptimal epe wFirst wLast wsteps 0 = .ok .pinf := rfl

/-- C102 is violated if the error estimate is NaN for every regularisation (C208: a data point that is in every bootstrap
sample): the smallest value of the grid is returned, whatever the data. -/
theorem C102_nan_violated (epe : Fl → Fl) (hnan : ∀ x, epe x = .nan) (wFirst wLast : ℝ) (hF : 0 < wFirst) (hL : 0 < wLast)
    (wsteps rsteps : ℕ) (hs : 2 ≤ wsteps ∨ rsteps = 0) :
    findOptimal epe wFirst wLast wsteps (rsteps + 1) = .ok (.fin (1e-6 * (wLast * 0.5))) := by
  have h1 : 0 < wLast * 0.5 := by positivity
  have e1 : (Fl.fin (wLast * 0.5)).log = .fin (Real.log (wLast * 0.5)) := by
    rw [Fl.log, if_neg (not_lt.2 h1.le), if_neg h1.ne']
  unfold findOptimal
  simp only
  have hinit : initialRange (Fl.fin (wLast * 0.5)).log (Fl.fin (wFirst * 2)).log wsteps =
      [] ++ Fl.fin (1e-6 * (wLast * 0.5)) :: ((linspace (Fl.fin (wLast * 0.5)).log (Fl.fin (wFirst * 2)).log wsteps).map Fl.exp ++
        [(Fl.fin (wFirst * 2)).log.exp.scale 1e6]) := by
    simp only [initialRange, e1, Fl.exp, Fl.scale, Real.exp_log h1, List.singleton_append, List.cons_append, List.nil_append]
  rw [hinit]
  exact refine_first epe wsteps [] _ _ (by simp) (hnan _) rsteps hs _ _ (by simp)

/-! ### C208: the bootstrap estimate -/

variable {d : Type} [Fintype d] [DecidableEq d] {N : ℕ}

/-- The least-cost coefficients are those computed. -/
private theorem minimiser_unique {n : Type} [Fintype n] [DecidableEq n] (X : Matrix n d ℝ) (Y : n → ℝ) (w p : ℝ) (hw : 0 < w) (V : Matrix d d ℝ) (W : d → ℝ)
    (Vh : Matrix d d ℝ) (h : IsSVD (Xᵀ * X) V W Vh) (a : d → ℝ) (ha : ∀ b, ridgeCost X Y w p a ≤ ridgeCost X Y w p b) :
    solve W Vh X Y w p = a := by
  by_contra hne
  have := min_of_normal X Y w p hw (solve W Vh X Y w p) a (solve_spec X Y w p hw V W Vh h) (Ne.symm hne)
  exact absurd (ha (solve W Vh X Y w p)) (not_le.2 this)

private theorem mapM_some {α β : Type} (f : α → Option β) (g : α → β) (l : List α) (h : ∀ x ∈ l, f x = some (g x)) :
    l.mapM f = some (l.map g) := by
  induction l with
  | nil => rfl
  | cons a l ih =>
    rw [List.mapM_cons, h a (by simp), ih fun x hx => h x (by simp [hx])]
    rfl

private theorem mapM_none {α β : Type} (f : α → Option β) (l : List α) (x : α) (hx : x ∈ l) (h : f x = none) :
    l.mapM f = none := by
  induction l with
  | nil => simp at hx
  | cons a l ih =>
    rw [List.mapM_cons]
    rcases List.mem_cons.1 hx with rfl | hx
    · rw [h]; rfl
    · rw [ih hx]
      cases f a <;> rfl

private theorem two_le {α : Type} (l : List α) (h : 2 ≤ l.length) : ∃ a b t, l = a :: b :: t := by
  match l, h with
  | a :: b :: t, _ => exact ⟨a, b, t, rfl⟩

/-- The samples without point `i`. -/
def without (samples : List (Fin N → Fin N)) (i : Fin N) : List (Fin N → Fin N) :=
  samples.filter fun s => decide (∀ j, s j ≠ i)

private theorem errI (f : (Fin N → Fin N) → ℕ → ℝ) (samples : List (Fin N → Fin N)) (i : Fin N) :
    bootstrapErrI (samples.map f) (samples.map fun s => List.ofFn fun j => (s j).val) i.val =
      if (without samples i).length = 0 then none
      else some (((without samples i).map fun s => f s i.val ^ 2).sum / ((without samples i).length : ℝ)) := by
  have hzip : List.zip (samples.map f) (samples.map fun s => List.ofFn fun j => (s j).val) =
      samples.map fun s => (f s, List.ofFn fun j => (s j).val) := by
    rw [List.zip_map']
  have hfil : (samples.map fun s => (f s, List.ofFn fun j => (s j).val)).filter (fun es => !es.2.contains i.val) =
      (without samples i).map fun s => (f s, List.ofFn fun j => (s j).val) := by
    rw [List.filter_map, without]
    congr 1
    apply List.filter_congr
    intro s _
    have : (List.ofFn fun j => (s j).val).contains i.val = !decide (∀ j, s j ≠ i) := by
      rw [Bool.eq_iff_iff]
      simp [List.mem_ofFn, Fin.ext_iff]
    simp only [Function.comp_apply, this, Bool.not_not]
  unfold bootstrapErrI
  simp only [hzip, hfil, List.length_map, List.map_map]
  rfl

/-- C208 (`_partial`: see the violations below): for at least two samples and data points each of which is missing in some
sample, the bootstrap estimate is the mean over the data points of the mean squared error that ridge regression (the unique
minimiser of the cost, fitted to a sample) makes on the point, over the samples without the point; the training error is the one
of the minimiser on all data; they are combined as 0.368 to 0.632. -/
theorem C208_estimate_partial (svd : Svd d) (hsvd : ∀ A : Matrix d d ℝ, A.PosSemidef → ∃ V, IsSVD A V (svd A).1 (svd A).2)
    (_hN : 0 < N) (X : Matrix (Fin N) d ℝ) (Y : Fin N → ℝ) (p w : ℝ) (hw : 0 < w) (W2 : d → ℝ)
    (Vh : Matrix d d ℝ)
    (hD : (W2, Vh) = svd (Xᵀ * X)) (samples : List (Fin N → Fin N)) (hs : 2 ≤ samples.length)
    (hout : ∀ i, without samples i ≠ []) (a0 : d → ℝ) (ha0 : ∀ b, ridgeCost X Y w p a0 ≤ ridgeCost X Y w p b)
    (a : (Fin N → Fin N) → d → ℝ)
    (ha : ∀ s ∈ samples, ∀ b, ridgeCost (X.submatrix s id) (Y ∘ s) w p (a s) ≤ ridgeCost (X.submatrix s id) (Y ∘ s) w p b) :
    ∃ err out, bootstrapCalc svd W2 Vh X Y p w samples = .ok (err, some out, some (Real.sqrt (0.368 * err + 0.632 * out))) ∧
      err = (∑ i, ((X *ᵥ a0) i - Y i) ^ 2) / (N : ℝ) ∧
      out = (∑ i, ((without samples i).map fun s => ((X *ᵥ a s) i - Y i) ^ 2).sum / ((without samples i).length : ℝ)) / (N : ℝ) := by
  have hpsd : ∀ {n : Type} [Fintype n] [DecidableEq n] (Z : Matrix n d ℝ), (Zᵀ * Z).PosSemidef := fun Z => xtx_psd Z
  have e0 : solve W2 Vh X Y w p = a0 := by
    obtain ⟨V, hV⟩ := hsvd _ (hpsd X)
    have h1 : W2 = (svd (Xᵀ * X)).1 := congrArg Prod.fst hD
    have h2 : Vh = (svd (Xᵀ * X)).2 := congrArg Prod.snd hD
    rw [← h1, ← h2] at hV
    exact minimiser_unique X Y w p hw V W2 Vh hV a0 ha0
  have es : ∀ s ∈ samples, sampleCoefs svd X Y p w s = a s := by
    intro s hs
    obtain ⟨V, hV⟩ := hsvd _ (hpsd (X.submatrix s id))
    exact minimiser_unique _ _ w p hw V _ _ hV (a s) (ha s hs)
  have hb : bootstrapErr N (samples.map (sampleErrors svd X Y p w)) (samples.map fun s => List.ofFn fun j => (s j).val) =
      some ((∑ i, ((without samples i).map fun s => ((X *ᵥ a s) i - Y i) ^ 2).sum / ((without samples i).length : ℝ)) / (N : ℝ)) := by
    unfold bootstrapErr
    rw [mapM_some _ (fun i => if h : i < N then
      ((without samples ⟨i, h⟩).map fun s => ((X *ᵥ a s) ⟨i, h⟩ - Y ⟨i, h⟩) ^ 2).sum / ((without samples ⟨i, h⟩).length : ℝ) else 0)]
    · simp only [Option.map_some]
      congr 2
      rw [← List.sum_ofFn]
      congr 1
      apply List.ext_getElem
      · simp
      · intro k h1 h2
        simp at h2
        simp [h2]
    · intro i hi
      have hi' := List.mem_range.1 hi
      have := errI (sampleErrors svd X Y p w) samples ⟨i, hi'⟩
      simp only at this
      rw [this, if_neg (by simpa using hout ⟨i, hi'⟩), dif_pos hi']
      congr 3
      apply List.map_congr_left
      intro s hsm
      rw [sampleErrors, dif_pos hi', es s (List.mem_of_mem_filter hsm)]
  refine ⟨_, _, ?_, rfl, rfl⟩
  obtain ⟨s1, s2, ss, rfl⟩ := two_le samples hs
  simp only [bootstrapCalc]
  rw [hb, e0, ← Finset.sum_div]
  rfl

/-- C208 is violated for a data point that is in every sample (as happens with few samples or few data): the mean of nothing is
NaN, and with it the estimate for every regularisation and all targets (C102: the smallest regularisation is then chosen). -/
theorem C208_nan_violated (svd : Svd d) (W2 : d → ℝ) (Vh : Matrix d d ℝ) (X : Matrix (Fin N) d ℝ) (samples : List (Fin N → Fin N))
    (hs : 2 ≤ samples.length) (i : Fin N) (hi : ∀ s ∈ samples, ∃ j, s j = i) (Y : Fin N → ℝ) (p w : ℝ) :
    ∃ err, bootstrapCalc svd W2 Vh X Y p w samples = .ok (err, none, none) := by
  have hb : bootstrapErr N (samples.map (sampleErrors svd X Y p w)) (samples.map fun s => List.ofFn fun j => (s j).val) = none := by
    unfold bootstrapErr
    rw [mapM_none _ _ i.val (List.mem_range.2 i.isLt)]
    · rfl
    · rw [errI, if_pos]
      rw [List.length_eq_zero_iff, without, List.filter_eq_nil_iff]
      intro s hsm
      obtain ⟨j, hj⟩ := hi s hsm
      simp only [decide_eq_true_eq, not_forall, not_not]
      exact ⟨j, hj⟩
  obtain ⟨s1, s2, ss, rfl⟩ := two_le samples hs
  simp only [bootstrapCalc]
  rw [hb]
  exact ⟨_, rfl⟩

/-- C208 is violated for a single sample: IndexError. -/
theorem C208_one_sample_violated (svd : Svd d) (W2 : d → ℝ) (Vh : Matrix d d ℝ) (X : Matrix (Fin N) d ℝ) (Y : Fin N → ℝ) (p w : ℝ)
    (s : Fin N → Fin N) : bootstrapCalc svd W2 Vh X Y p w [s] = .error .index := rfl

/-- Two points, two samples, each of which misses one of the points. -/
example : ∀ i : Fin 2, without [fun _ => 0, fun _ => 1] i ≠ [] := by decide

end CatLearn.RidgeSearch
