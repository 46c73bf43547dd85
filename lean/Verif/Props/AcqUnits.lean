import Verif.Props.Acquisition

/-!
# Acquisition functions and the units of the target (C244)
-/

namespace CatLearn.Props

open CatLearn CatLearn.Acq

/-- An objective in other units: a number to approach is converted. -/
def objUnits (c d : ℝ) : Objective → Objective
  | .max => .max
  | .min => .min
  | .value v => .value (c * v + d)
  | .other => .other

theorem max?_units (c d : ℝ) (hc : 0 < c) (l : List ℝ) : (l.map fun y => c * y + d).max? = l.max?.map fun y => c * y + d := by
  cases h : l.max? with
  | none => rw [List.max?_eq_none_iff.1 h]; rfl
  | some m =>
    obtain ⟨h1, h2⟩ := List.max?_eq_some_iff.1 h
    refine List.max?_eq_some_iff.2 ⟨List.mem_map.2 ⟨m, h1, rfl⟩, ?_⟩
    intro b hb
    obtain ⟨y, hy, rfl⟩ := List.mem_map.1 hb
    have := h2 y hy
    simp only
    nlinarith

theorem min?_units (c d : ℝ) (hc : 0 < c) (l : List ℝ) : (l.map fun y => c * y + d).min? = l.min?.map fun y => c * y + d := by
  cases h : l.min? with
  | none => rw [List.min?_eq_none_iff.1 h]; rfl
  | some m =>
    obtain ⟨h1, h2⟩ := List.min?_eq_some_iff.1 h
    refine List.min?_eq_some_iff.2 ⟨List.mem_map.2 ⟨m, h1, rfl⟩, ?_⟩
    intro b hb
    obtain ⟨y, hy, rfl⟩ := List.mem_map.1 hb
    have := h2 y hy
    simp only
    nlinarith

theorem reference_units (c d : ℝ) (hc : 0 < c) (l : List ℝ) (o : Objective) :
    reference (l.map fun y => c * y + d) (objUnits c d o) = (reference l o).map fun y => c * y + d := by
  cases o with
  | max =>
    simp only [reference, objUnits, max?_units c d hc]
    cases l.max? <;> rfl
  | min =>
    simp only [reference, objUnits, min?_units c d hc]
    cases l.min? <;> rfl
  | value v => rfl
  | other => rfl

/-- Scores that change in a known way with the units. -/
theorem rank_units {S : Type} (c d : ℝ) (hc : 0 < c) (acq acq' : ℝ → ℝ → ℝ → S) (g : S → S)
    (targets preds uncs : List ℝ) (o : Objective)
    (h : ∀ y p u, u ∈ uncs → acq' (c * y + d) (c * p + d) (c * u) = g (acq y p u)) :
    rank acq' (targets.map fun y => c * y + d) (preds.map fun y => c * y + d) (uncs.map (c * ·)) (objUnits c d o) =
      (rank acq targets preds uncs o).map (List.map g) := by
  unfold rank
  rw [reference_units c d hc]
  cases reference targets o with
  | error e => rfl
  | ok y =>
    simp only [Except.map, List.zipWith_map, List.map_zipWith, Except.ok.injEq]
    induction preds generalizing uncs with
    | nil => rfl
    | cons p ps ih =>
      cases uncs with
      | nil => rfl
      | cons u us =>
        simp only [List.zipWith_cons_cons]
        rw [h y p u (by simp), ih us fun y p u hu => h y p u (by simp [hu])]

theorem z_units (c d y p u : ℝ) (hc : 0 < c) : (c * p + d - (c * y + d)) / (c * u) = (p - y) / u := by
  rw [show c * p + d - (c * y + d) = c * (p - y) by ring, mul_div_mul_left _ _ hc.ne']

theorem ei_units (c d y p u : ℝ) (hc : 0 < c) (o : Objective) :
    ei (c * y + d) (c * p + d) (c * u) (objUnits c d o) = (ei y p u o).map (c * ·) := by
  have e : (-(c * p + d) + (c * y + d)) / (c * u) = (-p + y) / u := by
    rw [show -(c * p + d) + (c * y + d) = c * (-p + y) by ring, mul_div_mul_left _ _ hc.ne']
  cases o with
  | max =>
    simp only [ei, objUnits, z_units c d y p u hc, Option.map_some, Option.some.injEq]
    ring
  | min =>
    simp only [ei, objUnits, e, Option.map_some, Option.some.injEq]
    ring
  | value v => rfl
  | other => rfl

/-- C244: when targets, predictions, uncertainties and the value aimed at are expressed in other units (and with another zero),
'optimistic' and 'EI' scores of all candidates are multiplied by the same positive factor, 'PI' stays the same, 'UCB' is multiplied
by a positive factor and shifted by the same amount for all candidates and 'pdf' is divided by the factor: the order of the
candidates is the same.  (Uncertainties are not zero.) -/
theorem C244_rank_partial (c d : ℝ) (hc : 0 < c) (targets preds uncs : List ℝ) (_hu : ∀ u ∈ uncs, 0 < u) (o : Objective) (kappa : ℝ) :
    let t' := targets.map fun y => c * y + d
    let p' := preds.map fun y => c * y + d
    let u' := uncs.map (c * ·)
    let o' := objUnits c d o
    rank optimistic t' p' u' o' = (rank optimistic targets preds uncs o).map (List.map (c * ·)) ∧
    rank (fun y p u => ei y p u o') t' p' u' o' =
      (rank (fun y p u => ei y p u o) targets preds uncs o).map (List.map (Option.map (c * ·))) ∧
    rank (fun y p u => pi y p u o') t' p' u' o' = rank (fun y p u => pi y p u o) targets preds uncs o ∧
    rank (fun _ p u => ucb p u o' kappa) t' p' u' o' =
      (rank (fun _ p u => ucb p u o kappa) targets preds uncs o).map (List.map (Option.map fun s => c * s - d)) ∧
    rank probabilityDensity t' p' u' o' = (rank probabilityDensity targets preds uncs o).map (List.map (· / c)) := by
  intro t' p' u' o'
  refine ⟨?_, ?_, ?_, ?_, ?_⟩
  · refine rank_units c d hc optimistic optimistic (c * ·) targets preds uncs o fun y p u _ => ?_
    simp only [optimistic]
    ring
  · exact rank_units c d hc _ _ (Option.map (c * ·)) targets preds uncs o fun y p u _ => ei_units c d y p u hc o
  · have := rank_units c d hc (fun y p u => pi y p u o) (fun y p u => pi y p u o') id targets preds uncs o fun y p u _ => by
      cases o <;> simp only [pi, o', objUnits, z_units c d y p u hc, id]
    rw [this]
    cases rank (fun y p u => pi y p u o) targets preds uncs o <;> simp [Except.map]
  · refine rank_units c d hc _ _ (Option.map fun s => c * s - d) targets preds uncs o fun y p u _ => ?_
    cases o <;> simp only [ucb, o', objUnits, Option.map_some, Option.map_none, Option.some.injEq] <;> ring
  · refine rank_units c d hc _ _ (· / c) targets preds uncs o fun y p u _ => ?_
    simp only [probabilityDensity]
    rw [show c * y + d - (c * p + d) = c * (y - p) by ring, mul_div_mul_left _ _ hc.ne', div_div, mul_comm c u]

/-- C244: distances to a target value are only converted. -/
theorem C244_proximity (c d y p u : ℝ) (hc : 0 < c) : proximity (c * y + d) (c * p + d) = c * proximity y p ∧
    optimisticProximity (c * y + d) (c * p + d) (c * u) = c * optimisticProximity y p u := by
  have : |c * p + d - (c * y + d)| = c * |p - y| := by
    rw [show c * p + d - (c * y + d) = c * (p - y) by ring, abs_mul, abs_of_pos hc]
  simp only [proximity, optimisticProximity, this]
  constructor <;> ring

example : (0 : ℝ) < 96.485 ∧ ∀ u ∈ ([0.1, 2] : List ℝ), 0 < u := by
  constructor
  · norm_num
  · intro u hu; fin_cases hu <;> norm_num

/-- C244 fails for 'cluster', which divides predictions by the number of training points nearby: with another zero of the energy
the order of two candidates is reversed. -/
theorem C244_cluster_violated (p q : ℝ) (hp : 0 < p) (n m : ℕ) (hn : 0 < n) (hm : n < m) (h : cluster p m < cluster q n) (hq : q < p) :
    ∃ d : ℝ, cluster (q + d) n < cluster (p + d) m := by
  have hn' : (0 : ℝ) < n := by exact_mod_cast hn
  have hm' : (0 : ℝ) < m := by exact_mod_cast hn.trans hm
  have hnm : (n : ℝ) < m := by exact_mod_cast hm
  have hq0 : 0 < q := by
    unfold cluster at h
    have : 0 < q / n := lt_trans (div_pos hp hm') h
    by_contra hc
    have := div_nonpos_of_nonpos_of_nonneg (not_lt.1 hc) hn'.le
    linarith
  refine ⟨-q, ?_⟩
  unfold cluster
  rw [add_neg_cancel, zero_div]
  exact div_pos (by linarith) hm'

example : (0 : ℝ) < 2 ∧ 0 < 1 ∧ 1 < 5 ∧ cluster 2 5 < cluster 1 1 ∧ (1 : ℝ) < 2 := by
  unfold cluster; norm_num

end CatLearn.Props
