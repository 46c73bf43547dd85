import Verif.Model.GA
import Verif.Spec.GA
import Verif.Props.GAOperators
import Verif.Lemmas.Py
import Mathlib.Order.WellFounded
import Mathlib.Order.WithBot
import Mathlib.Data.Fintype.EquivFin
import Mathlib.Tactic.Linarith

/-!
# Fitness evaluation, Pareto ranking and convergence (C11, C12, C13, C73–C75, C77)
-/

namespace CatLearn.Props

open CatLearn CatLearn.GA CatLearn.Spec

/-! ### C11 -/

private theorem scatter_notMem {G : Type} (k : Nat) : ∀ (results : List (Nat × G)) (init : List G),
    k ∉ results.map Prod.fst → (scatter init results)[k]? = init[k]? := by
  intro results
  induction results with
  | nil => intro init _; rfl
  | cons r results ih =>
    intro init h
    simp only [List.map_cons, List.mem_cons, not_or] at h
    rw [scatter, List.foldl_cons, ← scatter, ih _ h.2, List.getElem?_set_ne (Ne.symm h.1)]

private theorem scatter_length {G : Type} : ∀ (results : List (Nat × G)) (init : List G),
    (scatter init results).length = init.length := by
  intro results
  induction results with
  | nil => intro init; rfl
  | cons r results ih => intro init; rw [scatter, List.foldl_cons, ← scatter, ih]; simp

private theorem scatter_mem {G : Type} (k : Nat) (v : G) : ∀ (results : List (Nat × G)) (init : List G),
    (results.map Prod.fst).Nodup → (k, v) ∈ results → k < init.length →
      (scatter init results)[k]? = some v := by
  intro results
  induction results with
  | nil => simp
  | cons r results ih =>
    intro init hnd hm hk
    simp only [List.map_cons, List.nodup_cons] at hnd
    rw [scatter, List.foldl_cons, ← scatter]
    rcases List.mem_cons.mp hm with rfl | hm
    · rw [scatter_notMem k results _ hnd.1, List.getElem?_set_self hk]
    · exact ih _ hnd.2 hm (by simpa using hk)

/-- C11.  For every population, every fitness function, every order in which the individuals are
queued and every order in which the answers arrive, the parallel evaluation returns the same list as
the serial one. -/
theorem C11_parallel_fitness {G : Type} (zero : G) (f : Ind → G) (pop : List Ind) (i : List Nat)
    (hi : i.Perm (List.range pop.length)) (arrivals : List (Nat × G))
    (ha : arrivals.Perm (workerResults f pop i)) :
    parallelFitness zero pop.length i arrivals = serialFitness f pop := by
  have hil : i.length = pop.length := by simpa using hi.length_eq
  have hlt : ∀ x (hx : x < i.length), i[x] < pop.length := fun x hx =>
    List.mem_range.mp (hi.mem_iff.mp (List.getElem_mem hx))
  have hw : ∀ x v, (x, v) ∈ workerResults f pop i ↔
      ∃ (hx : x < i.length), v = f (pop[i[x]]'(hlt x hx)) := by
    intro x v
    simp only [workerResults, List.mem_filterMap, List.mem_range]
    constructor
    · rintro ⟨y, hy, h⟩
      rw [List.getElem?_eq_getElem hy, Option.bind_some,
        List.getElem?_eq_getElem (hlt y hy)] at h
      simp only [Option.map_some, Option.some.injEq, Prod.mk.injEq] at h
      obtain ⟨rfl, rfl⟩ := h
      exact ⟨hy, rfl⟩
    · rintro ⟨hx, rfl⟩
      refine ⟨x, hx, ?_⟩
      rw [List.getElem?_eq_getElem hx, Option.bind_some, List.getElem?_eq_getElem (hlt x hx)]
      rfl
  have hkeys : (workerResults f pop i).map Prod.fst = List.range i.length := by
    rw [workerResults, List.map_filterMap]
    have : ∀ l : List Nat, (∀ x ∈ l, x < i.length) → List.filterMap
        (fun x => ((i[x]?).bind fun k => (pop[k]?).map fun p => (x, f p)).map Prod.fst) l = l := by
      intro l
      induction l with
      | nil => intro _; rfl
      | cons x l ih =>
        intro h
        have hx := h x (by simp)
        rw [List.filterMap_cons, List.getElem?_eq_getElem hx, Option.bind_some,
          List.getElem?_eq_getElem (hlt x hx), ih (fun y hy => h y (by simp [hy]))]
        rfl
    exact this _ (by simp)
  have hnd : (arrivals.map Prod.fst).Nodup := by
    rw [(ha.map Prod.fst).nodup_iff, hkeys]; exact List.nodup_range
  apply List.ext_getElem?
  intro k
  simp only [parallelFitness, serialFitness, List.getElem?_map]
  by_cases hk : k < pop.length
  · rw [List.getElem?_eq_getElem (by simpa using hk), List.getElem?_eq_getElem hk]
    simp only [List.getElem_range, Option.map_some, Option.some.injEq]
    have hki : k ∈ i := hi.mem_iff.mpr (List.mem_range.mpr hk)
    have hx := List.idxOf_lt_length_iff.mpr hki
    have hv : (i.idxOf k, f pop[k]) ∈ arrivals := by
      rw [ha.mem_iff, hw]
      refine ⟨hx, ?_⟩
      have : i[i.idxOf k] = k := List.getElem_idxOf hx
      simp only [this]
    rw [scatter_mem _ _ _ _ hnd hv (by simp; omega)]
    rfl
  · rw [List.getElem?_eq_none (by simpa using hk), List.getElem?_eq_none (by simpa using hk)]
    rfl

example : parallelFitness 0 3 [2, 0, 1] [(1, 10), (2, 20), (0, 30)]
    = serialFitness (fun p => p.length * 10) [[0], [0, 0], [0, 0, 0]] ∧
    [2, 0, 1].Perm (List.range 3) := by decide

/-! ### C75: cross validation inside the fitness function -/

/-- C75.  The cross validation used for the fitness tests on every row exactly once, and in every split
the test and training rows together are all the rows. -/
theorem C75_cross_validation {ρ : Type} (folds : List (List ρ)) :
    ((cvSplits folds).map Prod.fst).flatten = folds.flatten ∧
    (∀ s ∈ cvSplits folds, (s.1 ++ s.2).Perm folds.flatten) ∧
    (cvSplits folds).length = folds.length := by
  refine ⟨?_, ?_, by simp [cvSplits]⟩
  · congr 1
    apply List.ext_getElem?
    intro k
    simp only [cvSplits, List.map_map, List.getElem?_map]
    by_cases hk : k < folds.length
    · rw [List.getElem?_eq_getElem (by simpa using hk), List.getElem?_eq_getElem hk]
      simp [List.getElem?_eq_getElem hk]
    · rw [List.getElem?_eq_none (by simpa using hk), List.getElem?_eq_none (by simpa using hk)]
      rfl
  · intro s hs
    obtain ⟨k, hk, rfl⟩ := List.mem_map.mp hs
    have hk := List.mem_range.mp hk
    simp only [List.getElem?_eq_getElem hk, Option.getD_some]
    have hsplit : folds = folds.take k ++ folds[k] :: folds.drop (k + 1) := by simp
    rw [List.eraseIdx_eq_take_drop_succ]
    conv_rhs => rw [hsplit]
    simp only [List.flatten_append, List.flatten_cons, ← List.append_assoc]
    exact List.Perm.append_right _ List.perm_append_comm

example : cvSplits [[1, 2], [3], [4]] = [([1, 2], [3, 4]), ([3], [1, 2, 4]), ([4], [1, 2, 3])] := by
  decide

/-! ### C12: Pareto ranking -/

section Pareto

variable {F : Type} [LinearOrder F]

private theorem keeps_iff (p q : List F) (h : p.length = q.length) :
    keeps p q = true ↔ ¬ StrictlyDominates p q := by
  unfold keeps StrictlyDominates
  rw [List.any_eq_true]
  constructor
  · rintro ⟨c, hc, hle⟩ ⟨_, hall⟩
    obtain ⟨i, hi, rfl⟩ := List.mem_iff_getElem.mp hc
    simp only [List.length_zip] at hi
    have := hall i (by omega) (by omega)
    simp only [List.getElem_zip, decide_eq_true_eq] at hle
    exact absurd hle (not_le.mpr this)
  · intro hn
    have : ∃ i, ∃ (hp : i < p.length) (hq : i < q.length), p[i] ≤ q[i] := by
      by_contra hcon
      apply hn
      refine ⟨h, fun i hp hq => ?_⟩
      by_contra hle
      exact hcon ⟨i, hp, hq, not_lt.mp hle⟩
    obtain ⟨i, hp, hq, hle⟩ := this
    refine ⟨(q[i], p[i]), ?_, by simpa using hle⟩
    rw [List.mem_iff_getElem]
    exact ⟨i, by simp [hp, hq], by simp⟩

private theorem dom_irrefl (p : List F) (hp : 0 < p.length) : ¬ StrictlyDominates p p :=
  fun h => lt_irrefl _ (h.2 0 hp hp)

private theorem dom_trans {p q r : List F} (h1 : StrictlyDominates p q) (h2 : StrictlyDominates q r) :
    StrictlyDominates p r :=
  ⟨h1.1.trans h2.1, fun i hp hr =>
    lt_trans (h2.2 i (by have := h1.1; omega) hr) (h1.2 i hp (by have := h1.1; omega))⟩

/-- A dominated element of a finite set is dominated by an undominated one. -/
private theorem exists_maximal_dom (n : Nat) (D : Nat → Nat → Prop) (P : Nat → Prop)
    (hirr : ∀ p, p < n → ¬ D p p) (htr : ∀ p q r, D p q → D q r → D p r) (q : Nat)
    (hq : ∃ p, p < n ∧ P p ∧ D p q) :
    ∃ p, p < n ∧ P p ∧ D p q ∧ ∀ p', p' < n → P p' → ¬ D p' p := by
  let r : Fin n → Fin n → Prop := fun a b => D a b
  have : IsTrans (Fin n) r := ⟨fun a b c => htr a b c⟩
  have : Std.Irrefl r := ⟨fun a => hirr a a.2⟩
  have hwf : WellFounded r := Finite.wellFounded_of_trans_of_irrefl r
  obtain ⟨p0, hp0, hP0, hD0⟩ := hq
  obtain ⟨m, ⟨hm1, hm2⟩, hmin⟩ := hwf.has_min {x : Fin n | P x ∧ D x q} ⟨⟨p0, hp0⟩, hP0, hD0⟩
  refine ⟨m, m.2, hm1, hm2, ?_⟩
  intro p' hp' hPp' hDp'
  exact hmin ⟨p', hp'⟩ ⟨hPp', htr _ _ _ hDp' hm2⟩ hDp'

private def row (rows : List (List F)) (i : Nat) : List F := (rows[i]?).getD []

private theorem sweep_sub (rows : List (List F)) : ∀ (todo front : List Nat) (j : Nat),
    j ∈ sweep rows todo front → j ∈ front := by
  intro todo
  induction todo with
  | nil => intro front j h; exact h
  | cons i todo ih =>
    intro front j h
    rw [sweep] at h
    split at h
    · exact (List.mem_filter.mp (ih _ _ h)).1
    · exact ih _ _ h

private theorem sweep_keeps_max (rows : List (List F)) (j : Nat) : ∀ (todo front : List Nat),
    (∀ p ∈ todo, keeps (row rows p) (row rows j) = true) → j ∈ front →
      j ∈ sweep rows todo front := by
  intro todo
  induction todo with
  | nil => intro front _ h; exact h
  | cons i todo ih =>
    intro front hall hj
    rw [sweep]
    split
    · refine ih _ (fun p hp => hall p (by simp [hp])) ?_
      rw [List.mem_filter]
      exact ⟨hj, hall i (by simp)⟩
    · exact ih _ (fun p hp => hall p (by simp [hp])) hj

private theorem sweep_removes (rows : List (List F)) (j p : Nat) : ∀ (todo front : List Nat),
    p ∈ todo → p ∈ front → (∀ q ∈ todo, keeps (row rows q) (row rows p) = true) →
      keeps (row rows p) (row rows j) = false → j ∉ sweep rows todo front := by
  intro todo
  induction todo with
  | nil => intro front h; simp at h
  | cons i todo ih =>
    intro front hp hpf hmax hk hj
    rw [sweep] at hj
    rcases List.mem_cons.mp hp with rfl | hp
    · rw [if_pos hpf] at hj
      have := (List.mem_filter.mp (sweep_sub rows _ _ _ hj)).2
      change keeps (row rows p) (row rows j) = true at this
      rw [hk] at this; simp at this
    · split at hj
      · refine ih _ hp ?_ (fun q hq => hmax q (by simp [hq])) hk hj
        rw [List.mem_filter]
        exact ⟨hpf, hmax i (by simp)⟩
      · exact ih _ hp hpf (fun q hq => hmax q (by simp [hq])) hk hj

/-- The front located in a matrix of non-empty rows of equal length: exactly the rows that are not
strictly dominated by any row. -/
theorem C12_locate_pareto (rows : List (List F)) (m : Nat) (hm : 0 < m)
    (hrows : ∀ r ∈ rows, r.length = m) (q : Nat) :
    q ∈ locatePareto rows ↔ ∃ hq : q < rows.length,
      ∀ p (hp : p < rows.length), ¬ StrictlyDominates rows[p] rows[q] := by
  have hrow : ∀ i (hi : i < rows.length), row rows i = rows[i] := by
    intro i hi; simp [row, List.getElem?_eq_getElem hi]
  have hlen : ∀ i (hi : i < rows.length), (row rows i).length = m := by
    intro i hi; rw [hrow i hi]; exact hrows _ (List.getElem_mem _)
  have hk : ∀ p q, p < rows.length → q < rows.length →
      (keeps (row rows p) (row rows q) = true ↔ ¬ StrictlyDominates (row rows p) (row rows q)) :=
    fun p q hp hq => keeps_iff _ _ (by rw [hlen p hp, hlen q hq])
  constructor
  · intro h
    have hq : q < rows.length := List.mem_range.mp (sweep_sub rows _ _ _ h)
    refine ⟨hq, ?_⟩
    by_contra hcon
    push Not at hcon
    obtain ⟨p, hp, hd⟩ := hcon
    rw [← hrow p hp, ← hrow q hq] at hd
    obtain ⟨p', hp', -, hd', hmax⟩ := exists_maximal_dom rows.length
      (fun a b => StrictlyDominates (row rows a) (row rows b)) (fun _ => True)
      (fun a ha => dom_irrefl _ (by rw [hlen a ha]; exact hm)) (fun a b c => dom_trans) q
      ⟨p, hp, trivial, hd⟩
    refine sweep_removes rows q p' _ _ (List.mem_range.mpr hp') (List.mem_range.mpr hp') ?_ ?_ h
    · intro x hx
      exact (hk x p' (List.mem_range.mp hx) hp').mpr (hmax x (List.mem_range.mp hx) trivial)
    · by_contra hc
      exact (hk p' q hp' hq).mp (by simpa using hc) hd'
  · rintro ⟨hq, h⟩
    refine sweep_keeps_max rows q _ _ ?_ (List.mem_range.mpr hq)
    intro p hp
    have hp := List.mem_range.mp hp
    rw [hk p q hp hq, hrow p hp, hrow q hq]
    exact h p hp

example : locatePareto [[1, 5], [2, 2], [1, 1], [3, 0]] = [0, 1, 3] := by decide

variable [OrderBot F]

/-- Every value of the row is above `⊥` (the fitness function did not fail). -/
private def Fin' (r : List F) : Prop := ∀ x ∈ r, ⊥ < x

/-- Invariant of the ranking loop: `done` rows have been blanked. -/
private structure PInv (rows : List (List F)) (m rank : Nat) (cur : List (List F)) (res : List Int)
    (done : Nat → Prop) : Prop where
  curlen : cur.length = rows.length
  reslen : res.length = rows.length
  blank : ∀ i, i < rows.length → done i → row cur i = List.replicate m ⊥
  same : ∀ i, i < rows.length → ¬ done i → row cur i = row rows i ∧ Fin' (row rows i)
  failed : ∀ i, i < rows.length → ¬ Fin' (row rows i) → done i ∧ res[i]? = some 0
  ranked : ∀ i, i < rows.length → Fin' (row rows i) → done i →
    ∃ k : Nat, 1 ≤ k ∧ k < rank ∧ res[i]? = some (-(k : Int)) ∧
      (k = 1 ∨ ∃ p, p < rows.length ∧ Fin' (row rows p) ∧ res[p]? = some (-((k : Int) - 1)) ∧
        StrictlyDominates (row rows p) (row rows i)) ∧
      (∀ p, p < rows.length → StrictlyDominates (row rows p) (row rows i) →
        ∃ l : Nat, 1 ≤ l ∧ l < k ∧ done p ∧ res[p]? = some (-(l : Int)))
  rest : ∀ i, i < rows.length → ¬ done i → rank = 1 ∨
    ∃ p, p < rows.length ∧ Fin' (row rows p) ∧ done p ∧ res[p]? = some (-((rank : Int) - 1)) ∧
      StrictlyDominates (row rows p) (row rows i)

private theorem dom_fin {p q : List F} (h : StrictlyDominates p q) : Fin' p := by
  intro x hx
  obtain ⟨i, hi, rfl⟩ := List.mem_iff_getElem.mp hx
  exact lt_of_le_of_lt bot_le (h.2 i hi (by have := h.1; omega))

open Classical in
private theorem pareto_step (rows : List (List F)) (m : Nat) (hm : 0 < m)
    (hrows : ∀ r ∈ rows, r.length = m) (rank : Nat) (hr : 1 ≤ rank) (cur : List (List F))
    (res : List Int) (done : Nat → Prop) (I : PInv rows m rank cur res done)
    (hex : ∃ i, i < rows.length ∧ ¬ done i) :
    ∃ done', PInv rows m (rank + 1)
        (cur.mapIdx fun i r => if i ∈ locatePareto cur then r.map (fun _ => ⊥) else r)
        (res.mapIdx fun i r => if i ∈ locatePareto cur then -(rank : Int) else r) done' ∧
      (∀ i, done i → done' i) ∧ ∃ i, i < rows.length ∧ ¬ done i ∧ done' i := by
  have hlenr : ∀ i, i < rows.length → (row rows i).length = m := by
    intro i hi
    simp only [row, List.getElem?_eq_getElem hi, Option.getD_some]
    exact hrows _ (List.getElem_mem _)
  have hlenc : ∀ i, i < rows.length → (row cur i).length = m := by
    intro i hi
    by_cases hd : done i
    · rw [I.blank i hi hd]; simp
    · rw [(I.same i hi hd).1]; exact hlenr i hi
  have hcurrows : ∀ r ∈ cur, r.length = m := by
    intro r hr
    obtain ⟨i, hi, rfl⟩ := List.mem_iff_getElem.mp hr
    have := hlenc i (by rw [← I.curlen]; exact hi)
    simpa [row, List.getElem?_eq_getElem hi] using this
  have hcget : ∀ i (hi : i < cur.length), row cur i = cur[i] := by
    intro i hi; simp [row, List.getElem?_eq_getElem hi]
  -- the front of `cur` is the front of the rows that are left
  have hfront : ∀ q, q ∈ locatePareto cur ↔ q < rows.length ∧ ¬ done q ∧
      ∀ p, p < rows.length → ¬ done p → ¬ StrictlyDominates (row rows p) (row rows q) := by
    intro q
    rw [C12_locate_pareto cur m hm hcurrows]
    constructor
    · rintro ⟨hq, h⟩
      have hq' : q < rows.length := by rw [← I.curlen]; exact hq
      have hnd : ¬ done q := by
        intro hd
        obtain ⟨i, hi, hnd⟩ := hex
        have hi' : i < cur.length := by rw [I.curlen]; exact hi
        apply h i hi'
        rw [← hcget i hi', ← hcget q hq, I.blank q hq' hd]
        refine ⟨by rw [hlenc i hi]; simp, fun c hc hc' => ?_⟩
        have hF := (I.same i hi hnd).2
        rw [← (I.same i hi hnd).1] at hF
        have := hF _ (List.getElem_mem hc)
        simpa using this
      refine ⟨hq', hnd, fun p hp hndp hD => ?_⟩
      have hp' : p < cur.length := by rw [I.curlen]; exact hp
      apply h p hp'
      rw [← hcget p hp', ← hcget q hq, (I.same p hp hndp).1, (I.same q hq' hnd).1]
      exact hD
    · rintro ⟨hq, hnd, h⟩
      have hq' : q < cur.length := by rw [I.curlen]; exact hq
      refine ⟨hq', fun p hp hD => ?_⟩
      have hp' : p < rows.length := by rw [← I.curlen]; exact hp
      rw [← hcget p hp, ← hcget q hq'] at hD
      by_cases hdp : done p
      · have := dom_fin hD
        rw [I.blank p hp' hdp] at this
        exact lt_irrefl _ (this ⊥ (List.mem_replicate.mpr ⟨by omega, rfl⟩))
      · rw [(I.same p hp' hdp).1, (I.same q hq hnd).1] at hD
        exact h p hp' hdp hD
  have hrescur : ∀ i, i < rows.length →
      (res.mapIdx fun i r => if i ∈ locatePareto cur then -(rank : Int) else r)[i]? =
        if i ∈ locatePareto cur then some (-(rank : Int)) else res[i]? := by
    intro i hi
    have hi' : i < res.length := by rw [I.reslen]; exact hi
    rw [List.getElem?_mapIdx, List.getElem?_eq_getElem hi']
    split <;> simp
  have hrowcur : ∀ i, i < rows.length →
      row (cur.mapIdx fun i r => if i ∈ locatePareto cur then r.map (fun _ => ⊥) else r) i =
        if i ∈ locatePareto cur then List.replicate m ⊥ else row cur i := by
    intro i hi
    have hi' : i < cur.length := by rw [I.curlen]; exact hi
    have hl := hlenc i hi
    rw [hcget i hi'] at hl
    simp only [row, List.getElem?_mapIdx, List.getElem?_eq_getElem hi', Option.map_some,
      Option.getD_some]
    split
    · rw [List.map_const', hl]
    · rfl
  have hmax : ∀ q, (∃ p, p < rows.length ∧ ¬ done p ∧ StrictlyDominates (row rows p) (row rows q)) →
      ∃ p, p ∈ locatePareto cur ∧ StrictlyDominates (row rows p) (row rows q) := by
    intro q hq
    obtain ⟨p, hp, hnp, hD, hmx⟩ := exists_maximal_dom rows.length
      (fun a b => StrictlyDominates (row rows a) (row rows b)) (fun i => ¬ done i)
      (fun a ha => dom_irrefl _ (by rw [hlenr a ha]; exact hm)) (fun a b c => dom_trans) q hq
    exact ⟨p, (hfront p).mpr ⟨hp, hnp, hmx⟩, hD⟩
  refine ⟨fun i => done i ∨ i ∈ locatePareto cur, ?_, fun i h => .inl h, ?_⟩
  swap
  · obtain ⟨i, hi, hnd⟩ := hex
    by_cases hif : i ∈ locatePareto cur
    · exact ⟨i, hi, hnd, .inr hif⟩
    · have : ∃ p, p < rows.length ∧ ¬ done p ∧ StrictlyDominates (row rows p) (row rows i) := by
        by_contra hcon
        apply hif
        rw [hfront]
        refine ⟨hi, hnd, fun p hp hnp hD => hcon ⟨p, hp, hnp, hD⟩⟩
      obtain ⟨p, hpf, hD⟩ := hmax i this
      exact ⟨p, ((hfront p).mp hpf).1, ((hfront p).mp hpf).2.1, .inr hpf⟩
  constructor
  · simp [I.curlen]
  · simp [I.reslen]
  · intro i hi hd
    rw [hrowcur i hi]
    split
    · rfl
    · rcases hd with hd | hd
      · exact I.blank i hi hd
      · contradiction
  · intro i hi hd
    push Not at hd
    rw [hrowcur i hi, if_neg hd.2]
    exact I.same i hi hd.1
  · intro i hi hnf
    obtain ⟨hd, h0⟩ := I.failed i hi hnf
    refine ⟨.inl hd, ?_⟩
    rw [hrescur i hi, if_neg (fun h => ((hfront i).mp h).2.1 hd)]
    exact h0
  · -- ranked
    have hkeep : ∀ i, i < rows.length → done i →
        (res.mapIdx fun i r => if i ∈ locatePareto cur then -(rank : Int) else r)[i]? = res[i]? := by
      intro i hi hd
      rw [hrescur i hi, if_neg (fun h => ((hfront i).mp h).2.1 hd)]
    have hdom_done : ∀ p, p < rows.length → Fin' (row rows p) → ∀ k : Int,
        res[p]? = some k → done p → (res.mapIdx fun i r => if i ∈ locatePareto cur then -(rank : Int)
          else r)[p]? = some k := fun p hp _ k hk hd => by rw [hkeep p hp hd]; exact hk
    intro i hi hF hd
    by_cases hdi : done i
    · obtain ⟨k, hk1, hk2, hk3, hk4, hk5⟩ := I.ranked i hi hF hdi
      refine ⟨k, hk1, by omega, by rw [hkeep i hi hdi]; exact hk3, ?_, ?_⟩
      · rcases hk4 with h | ⟨p, hp, hpF, hpr, hD⟩
        · exact .inl h
        · right
          obtain ⟨l, hl1, hl2, hl3, hl4⟩ := hk5 p hp hD
          exact ⟨p, hp, hpF, by rw [hkeep p hp hl3]; exact hpr, hD⟩
      · intro p hp hD
        obtain ⟨l, hl1, hl2, hl3, hl4⟩ := hk5 p hp hD
        exact ⟨l, hl1, hl2, .inl hl3, by rw [hkeep p hp hl3]; exact hl4⟩
    · have hif : i ∈ locatePareto cur := by
        rcases hd with h | h
        · exact absurd h hdi
        · exact h
      refine ⟨rank, hr, by omega, by rw [hrescur i hi, if_pos hif], ?_, ?_⟩
      · rcases I.rest i hi hdi with h | ⟨p, hp, hpF, hpd, hpr, hD⟩
        · exact .inl h
        · exact .inr ⟨p, hp, hpF, by rw [hkeep p hp hpd]; exact hpr, hD⟩
      · intro p hp hD
        have hpd : done p := by
          by_contra hnp
          exact ((hfront i).mp hif).2.2 p hp hnp hD
        have hpF : Fin' (row rows p) := dom_fin hD
        obtain ⟨l, hl1, hl2, hl3, -, -⟩ := I.ranked p hp hpF hpd
        exact ⟨l, hl1, hl2, .inl hpd, by rw [hkeep p hp hpd]; exact hl3⟩
  · intro i hi hd
    push Not at hd
    right
    have : ∃ p, p < rows.length ∧ ¬ done p ∧ StrictlyDominates (row rows p) (row rows i) := by
      by_contra hcon
      apply hd.2
      rw [hfront]
      exact ⟨hi, hd.1, fun p hp hnp hD => hcon ⟨p, hp, hnp, hD⟩⟩
    obtain ⟨p, hpf, hD⟩ := hmax i this
    have hp := ((hfront p).mp hpf).1
    refine ⟨p, hp, dom_fin hD, .inr hpf, ?_, hD⟩
    rw [hrescur p hp, if_pos hpf]
    congr 1; push_cast; ring

open Classical in
private theorem pareto_loop (rows : List (List F)) (m : Nat) (hm : 0 < m)
    (hrows : ∀ r ∈ rows, r.length = m) : ∀ (fuel rank : Nat), 1 ≤ rank → ∀ (cur : List (List F))
    (res : List Int) (done : Nat → Prop), PInv rows m rank cur res done →
    ((List.range rows.length).filter fun i => ¬ done i).length ≤ fuel →
    ∃ res' rank' cur' done', paretoLoop fuel rank cur res = some res' ∧
      PInv rows m rank' cur' res' done' ∧ ∀ i, i < rows.length → done' i := by
  have hany : ∀ rank cur res done, PInv rows m rank cur res done →
      ((cur.any (fun r => r.any fun x => decide (⊥ < x))) = true ↔
        ∃ i, i < rows.length ∧ ¬ done i) := by
    intro rank cur res done I
    rw [List.any_eq_true]
    constructor
    · rintro ⟨r, hr, hx⟩
      rw [List.any_eq_true] at hx
      obtain ⟨x, hx, hlt⟩ := hx
      obtain ⟨i, hi, rfl⟩ := List.mem_iff_getElem.mp hr
      have hi' : i < rows.length := by rw [← I.curlen]; exact hi
      refine ⟨i, hi', fun hd => ?_⟩
      have hb := I.blank i hi' hd
      simp only [row, List.getElem?_eq_getElem hi, Option.getD_some] at hb
      rw [hb] at hx
      rw [(List.mem_replicate.mp hx).2] at hlt
      simp at hlt
    · rintro ⟨i, hi, hnd⟩
      have hi' : i < cur.length := by rw [I.curlen]; exact hi
      refine ⟨cur[i], List.getElem_mem _, ?_⟩
      obtain ⟨h1, h2⟩ := I.same i hi hnd
      have h3 : row cur i = cur[i] := by simp [row, List.getElem?_eq_getElem hi']
      rw [← h3, h1, List.any_eq_true]
      have hl : (row rows i).length = m := by
        simp only [row, List.getElem?_eq_getElem hi, Option.getD_some]
        exact hrows _ (List.getElem_mem _)
      exact ⟨(row rows i)[0]'(by omega), List.getElem_mem _, by simpa using h2 _ (List.getElem_mem _)⟩
  intro fuel
  induction fuel with
  | zero =>
    intro rank hr cur res done I hc
    have hall : ∀ i, i < rows.length → done i := by
      intro i hi
      by_contra hnd
      have : i ∈ (List.range rows.length).filter fun i => ¬ done i := by simp [hi, hnd]
      rw [List.length_eq_zero_iff.mp (Nat.le_zero.mp hc)] at this
      simp at this
    refine ⟨res, rank, cur, done, ?_, I, hall⟩
    rw [paretoLoop, if_neg]
    rw [hany rank cur res done I]
    rintro ⟨i, hi, hnd⟩
    exact hnd (hall i hi)
  | succ fuel ih =>
    intro rank hr cur res done I hc
    rw [paretoLoop]
    by_cases hex : ∃ i, i < rows.length ∧ ¬ done i
    · rw [if_pos ((hany rank cur res done I).mpr hex)]
      obtain ⟨done', I', hsub, i, hi, hni, hdi⟩ := pareto_step rows m hm hrows rank hr cur res done I hex
      refine ih (rank + 1) (by omega) _ _ done' I' ?_
      have h1 : ((List.range rows.length).filter fun i => ¬ done' i).length <
          ((List.range rows.length).filter fun i => ¬ done i).length := by
        have hss : ((List.range rows.length).filter fun i => ¬ done' i).Sublist
            (((List.range rows.length).filter fun i => ¬ done i).erase i) := by
          have hnd : ((List.range rows.length).filter fun i => ¬ done i).Nodup :=
            List.nodup_range.filter _
          rw [hnd.erase_eq_filter, List.filter_filter]
          refine List.monotone_filter_right _ ?_
          intro a ha
          simp only [decide_eq_true_eq] at ha
          simp only [decide_eq_true_eq, Bool.and_eq_true, bne_iff_ne]
          exact ⟨fun h => ha (h ▸ hdi), fun h => ha (hsub a h)⟩
        have h2 := hss.length_le
        have hmem : i ∈ (List.range rows.length).filter fun i => ¬ done i := by simp [hi, hni]
        rw [List.length_erase_of_mem hmem] at h2
        have := List.length_pos_of_mem hmem
        omega
      omega
    · rw [if_neg (fun h => hex ((hany rank cur res done I).mp h))]
      push Not at hex
      exact ⟨res, rank, cur, done, rfl, I, hex⟩

/-- C12 (partial: what holds for the individuals whose fitness did not fail).  For every fitness matrix
whose rows are either all above `-inf` or all `-inf` (a failed individual), the ranking ends and gives
one rank per row such that, among the rows that did not fail,
an undominated row and only such a row gets rank -1; a row that strictly dominates another has the
strictly better (larger) rank; and a row of rank `-k`, `k ≥ 2`, is dominated by a row of rank `-(k-1)`
(so the ranks are the Pareto fronts).  Failed rows keep rank 0. -/
theorem C12_pareto_rank_partial (rows : List (List F)) (m : Nat) (hm : 0 < m)
    (hrows : ∀ r ∈ rows, r.length = m)
    (hfail : ∀ r ∈ rows, (∀ x ∈ r, ⊥ < x) ∨ (∀ x ∈ r, x = ⊥)) :
    ∃ ranks, paretoTransform rows = some ranks ∧ ∃ hl : ranks.length = rows.length,
      (∀ i (hi : i < rows.length), (∀ x ∈ rows[i], x = ⊥) → ranks[i] = 0) ∧
      (∀ i (hi : i < rows.length), (∀ x ∈ rows[i], ⊥ < x) →
        ranks[i] ≤ -1 ∧
        (ranks[i] = -1 ↔ ∀ p (hp : p < rows.length), ¬ StrictlyDominates rows[p] rows[i]) ∧
        (∀ p (hp : p < rows.length), StrictlyDominates rows[p] rows[i] → ranks[i] < ranks[p]) ∧
        (ranks[i] < -1 → ∃ p, ∃ hp : p < rows.length, ranks[p] = ranks[i] + 1 ∧
          StrictlyDominates rows[p] rows[i])) := by
  have hrow : ∀ i (hi : i < rows.length), row rows i = rows[i] := by
    intro i hi; simp [row, List.getElem?_eq_getElem hi]
  have hlen : ∀ i (hi : i < rows.length), rows[i].length = m := fun i hi => hrows _ (List.getElem_mem _)
  have I0 : PInv rows m 1 rows (List.replicate rows.length 0) (fun i => ¬ Fin' (row rows i)) := by
    constructor
    · rfl
    · simp
    · intro i hi hd
      rw [hrow i hi] at hd ⊢
      rw [List.eq_replicate_iff]
      refine ⟨hlen i hi, ?_⟩
      rcases hfail _ (List.getElem_mem hi) with h | h
      · exact absurd h hd
      · exact h
    · intro i hi hd; exact ⟨rfl, not_not.mp hd⟩
    · intro i hi hd; exact ⟨hd, by simp [hi]⟩
    · intro i hi hF hd; exact absurd hF hd
    · intro i hi hd; exact .inl rfl
  obtain ⟨res, rank', cur', done', hres, I, hall⟩ := pareto_loop rows m hm hrows rows.length 1 le_rfl
    rows _ _ I0 (by simpa using List.length_filter_le _ (List.range rows.length))
  refine ⟨res, hres, I.reslen, ?_, ?_⟩
  · intro i hi hb
    have hnf : ¬ Fin' (row rows i) := by
      intro hF
      rw [hrow i hi] at hF
      have hl := hlen i hi
      have h0 := List.getElem_mem (l := rows[i]) (n := 0) (by omega)
      have := hF _ h0
      rw [hb _ h0] at this
      exact lt_irrefl _ this
    have := (I.failed i hi hnf).2
    rw [List.getElem?_eq_getElem (by rw [I.reslen]; exact hi)] at this
    simpa using this
  · intro i hi hF
    have hgetr : ∀ p (hp : p < rows.length) (k : Int), res[p]? = some k →
        res[p]'(by rw [I.reslen]; exact hp) = k := by
      intro p hp k h
      rw [List.getElem?_eq_getElem (by rw [I.reslen]; exact hp)] at h
      simpa using h
    obtain ⟨k, hk1, hk2, hk3, hk4, hk5⟩ := I.ranked i hi (by rw [hrow i hi]; exact hF) (hall i hi)
    have hik := hgetr i hi _ hk3
    have hdom : ∀ p (hp : p < rows.length), StrictlyDominates rows[p] rows[i] →
        res[i]'(by rw [I.reslen]; exact hi) < res[p]'(by rw [I.reslen]; exact hp) := by
      intro p hp hD
      obtain ⟨l, hl1, hl2, _, hl4⟩ := hk5 p hp (by rw [hrow p hp, hrow i hi]; exact hD)
      rw [hgetr p hp _ hl4, hik]; omega
    refine ⟨by rw [hik]; omega, ⟨?_, ?_⟩, hdom, ?_⟩
    · intro h p hp hD
      obtain ⟨l, hl1, hl2, _, hl4⟩ := hk5 p hp (by rw [hrow p hp, hrow i hi]; exact hD)
      rw [hik] at h; omega
    · intro h
      rcases hk4 with h1 | ⟨p, hp, _, _, hD⟩
      · rw [hik, h1]; rfl
      · rw [hrow p hp, hrow i hi] at hD
        exact absurd hD (h p hp)
    · intro h
      rcases hk4 with h1 | ⟨p, hp, _, hpr, hD⟩
      · rw [hik] at h; omega
      · rw [hrow p hp, hrow i hi] at hD
        refine ⟨p, hp, ?_, hD⟩
        rw [hgetr p hp _ hpr, hik]; ring

end Pareto

example : paretoTransform ([[1, 5], [2, 2], [1, 1], [3, 1], [0, 0]] : List (List Nat)) =
    some [-1, -1, -2, -1, 0] := by decide

/-- C12 is violated by failed individuals: one whose fitness is `-inf` in every objective is ranked above
(0) an individual that strictly dominates it (-1), so it survives in preference to it. -/
theorem C12_pareto_rank_violated :
    ∃ (rows : List (List Nat)) (ranks : List Int), paretoTransform rows = some ranks ∧
      StrictlyDominates [1, 1] [(⊥ : Nat), ⊥] ∧ rows = [[1, 1], [⊥, ⊥]] ∧
      ranks[0]? = some (-1) ∧ ranks[1]? = some 0 := by
  refine ⟨_, [-1, 0], ?_, ⟨rfl, ?_⟩, rfl, rfl, rfl⟩
  · decide
  · intro i hp hq
    have : i = 0 ∨ i = 1 := by simp at hp; omega
    rcases this with rfl | rfl <;> simp

/-- C74 is violated: ranks are computed within the initial population and within each batch of
offspring only, so natural selection can keep an offspring and drop an older individual that strictly
dominates it. -/
theorem C74_survival_across_generations_violated :
    ∃ (cur off : List (List Nat)) (rc ro : List Int),
      paretoTransform cur = some rc ∧ paretoTransform off = some ro ∧
      (∀ r ∈ cur ++ off, ∀ x ∈ r, ⊥ < x) ∧
      ∃ a ∈ cur, ∃ b ∈ off, StrictlyDominates a b ∧
        (∃ r, (b, r) ∈ generation (none : Option (Int → Int)) true 2 (cur.zip rc) (off.zip ro)) ∧
        ∀ r, (a, r) ∉ generation (none : Option (Int → Int)) true 2 (cur.zip rc) (off.zip ro) := by
  refine ⟨[[3, 3], [2, 2]], [[1, 1], [1, 1]], [-1, -2], [-1, -1], by decide, by decide, by decide,
    [2, 2], by decide, [1, 1], by decide, ⟨rfl, ?_⟩, ⟨-1, by decide⟩, ?_⟩
  · intro i hp hq
    have : i = 0 ∨ i = 1 := by simp at hp; omega
    rcases this with rfl | rfl <;> simp
  · intro r h
    have h' : ([2, 2], r) ∈ [([3, 3], (-1 : Int)), ([1, 1], -1)] := h
    simp at h'

/-- Generations of a search with Pareto ranks (ga/algorithm.py L138-156): every batch of rows of fitness values is ranked by itself and added to the
population, of which natural selection keeps `size` members; the individuals are written as the number of their batch and their
position in it. -/
def survivors {F : Type} [LinearOrder F] [OrderBot F] (natural : Bool) (size : Nat) :
    List ((Nat × Nat) × Int) → Nat → List (List (List F)) → Option (List ((Nat × Nat) × Int))
  | cur, _, [] => some cur
  | cur, m, rows :: rest =>
    match paretoTransform rows with
    | none => none
    | some ranks => survivors natural size
        (generation (none : Option (Int → Int)) natural size cur (ranks.mapIdx fun i r => ((m, i), r))) (m + 1) rest

private theorem generation_keeps {A : Type} (natural : Bool) (size : Nat) (cur new : List (A × Int)) (a b : A × Int)
    (ha : a ∈ cur ++ new) (hb : b ∈ generation (none : Option (Int → Int)) natural size cur new) (h : b.2 < a.2) :
    a ∈ generation (none : Option (Int → Int)) natural size cur new := by
  cases natural with
  | false => exact ha
  | true =>
    have hb' : b ∈ populationReduction (cur ++ new) size := hb
    show a ∈ populationReduction (cur ++ new) size
    obtain ⟨dropped, hp, _, hle⟩ := C07_survivors_fittest (cur ++ new) size
    rcases List.mem_append.mp (hp.mem_iff.mpr ha) with h1 | h1
    · exact h1
    · exact absurd h (not_lt.mpr (hle b hb' a h1))

private theorem generation_sub {A : Type} (natural : Bool) (size : Nat) (cur new : List (A × Int)) (a : A × Int)
    (ha : a ∈ generation (none : Option (Int → Int)) natural size cur new) : a ∈ cur ++ new := by
  cases natural with
  | false => exact ha
  | true =>
    obtain ⟨dropped, hp, _, _⟩ := C07_survivors_fittest (cur ++ new) size
    exact hp.mem_iff.mp (List.mem_append.mpr (.inl ha))

/-- C74 (partial).  Without the removal of duplicates, after any number of generations a member of the population is accompanied
by all members of its own batch that strictly dominate it, the initial population being the first batch: if individual `j` of batch
`m` is still there and individual `i` of that batch strictly dominates it, `i` is still there.  Missing: individuals of different
batches (see the violation). -/
theorem C74_same_batch_partial {F : Type} [LinearOrder F] [OrderBot F] (natural : Bool) (size d : Nat) (hd : 0 < d)
    (first : List (List F)) (rest : List (List (List F)))
    (hrows : ∀ rows ∈ first :: rest, ∀ r ∈ rows, r.length = d ∧ ∀ x ∈ r, ⊥ < x) :
    ∃ ranks out, paretoTransform first = some ranks ∧
      survivors natural size (ranks.mapIdx fun i r => ((0, i), r)) 1 rest = some out ∧
      ∀ (m i j : Nat) (rows : List (List F)) (a b : List F), (first :: rest)[m]? = some rows → rows[i]? = some a →
        rows[j]? = some b → StrictlyDominates a b → (∃ r, ((m, j), r) ∈ out) → ∃ r, ((m, i), r) ∈ out := by
  -- the ranks of one batch
  have hrank : ∀ rows ∈ first :: rest, ∃ ranks, paretoTransform rows = some ranks ∧ ranks.length = rows.length ∧
      ∀ (i j : Nat) (a b : List F), rows[i]? = some a → rows[j]? = some b → StrictlyDominates a b →
        ∃ p q, ranks[i]? = some p ∧ ranks[j]? = some q ∧ q < p := by
    intro rows hr
    obtain ⟨ranks, h1, h2, _, h4⟩ := C12_pareto_rank_partial rows d hd (fun r hx => (hrows rows hr r hx).1)
      (fun r hx => .inl (hrows rows hr r hx).2)
    refine ⟨ranks, h1, h2, fun i j a b hi hj hab => ?_⟩
    obtain ⟨hi', rfl⟩ := List.getElem?_eq_some_iff.mp hi
    obtain ⟨hj', rfl⟩ := List.getElem?_eq_some_iff.mp hj
    refine ⟨ranks[i], ranks[j], List.getElem?_eq_getElem (by omega), List.getElem?_eq_getElem (by omega), ?_⟩
    exact (h4 j hj' (hrows rows hr _ (List.getElem_mem hj')).2).2.2.1 i hi' hab
  -- the invariant: ranks of members are those of their batch, and the claim
  have main : ∀ (more done : List (List (List F))) (cur : List ((Nat × Nat) × Int)), (∀ r ∈ more, r ∈ first :: rest) →
      (∀ r ∈ done, r ∈ first :: rest) →
      (∀ x ∈ cur, ∃ rows ranks, done[x.1.1]? = some rows ∧ paretoTransform rows = some ranks ∧ ranks[x.1.2]? = some x.2) →
      (∀ (m i j : Nat) (rows : List (List F)) (a b : List F), done[m]? = some rows → rows[i]? = some a → rows[j]? = some b →
        StrictlyDominates a b → (∃ r, ((m, j), r) ∈ cur) → ∃ r, ((m, i), r) ∈ cur) →
      ∃ out, survivors natural size cur done.length more = some out ∧
        ∀ (m i j : Nat) (rows : List (List F)) (a b : List F), (done ++ more)[m]? = some rows → rows[i]? = some a →
          rows[j]? = some b → StrictlyDominates a b → (∃ r, ((m, j), r) ∈ out) → ∃ r, ((m, i), r) ∈ out := by
    intro more
    induction more with
    | nil => intro done cur _ _ _ hcl; exact ⟨cur, rfl, by simpa using hcl⟩
    | cons rows more ih =>
      intro done cur hrest hdone hinv hcl
      obtain ⟨ranks, hp, hlen, hdom⟩ := hrank rows (hrest rows (by simp))
      have hnew : ∀ x ∈ ranks.mapIdx (fun i r => ((done.length, i), r)), x.1.1 = done.length ∧ ranks[x.1.2]? = some x.2 := by
        intro x hx
        obtain ⟨k, hk, rfl⟩ := List.mem_mapIdx.mp hx
        exact ⟨rfl, List.getElem?_eq_getElem hk⟩
      have hinv' : ∀ x ∈ cur ++ ranks.mapIdx (fun i r => ((done.length, i), r)), ∃ rs rk,
          (done ++ [rows])[x.1.1]? = some rs ∧ paretoTransform rs = some rk ∧ rk[x.1.2]? = some x.2 := by
        intro x hx
        rcases List.mem_append.mp hx with hx | hx
        · obtain ⟨rs, rk, h1, h2, h3⟩ := hinv x hx
          refine ⟨rs, rk, ?_, h2, h3⟩
          rw [List.getElem?_append_left (List.getElem?_eq_some_iff.mp h1).1]
          exact h1
        · obtain ⟨h1, h2⟩ := hnew x hx
          exact ⟨rows, ranks, by simp [h1], hp, h2⟩
      have hstep := ih (done ++ [rows]) (generation (none : Option (Int → Int)) natural size cur
          (ranks.mapIdx fun i r => ((done.length, i), r))) (fun r hr => hrest r (by simp [hr]))
        (fun r hr => by
          rcases List.mem_append.mp hr with h | h
          · exact hdone r h
          · rw [List.mem_singleton.mp h]; exact hrest rows (by simp))
        (fun x hx => hinv' x (generation_sub natural size _ _ x hx)) ?_
      · obtain ⟨out, ho, hall⟩ := hstep
        refine ⟨out, ?_, by simpa using hall⟩
        unfold survivors
        rw [hp]
        simpa using ho
      · rintro m i j rs a b hm hi hj hab ⟨r, hr⟩
        have hmem := generation_sub natural size _ _ _ hr
        obtain ⟨rs', rk, e1, e2, e3⟩ := hinv' _ hmem
        rw [hm] at e1
        cases e1
        have hrs : rs ∈ first :: rest := by
          have : rs ∈ done ++ [rows] := List.mem_of_getElem? hm
          rcases List.mem_append.mp this with h | h
          · exact hdone rs h
          · rw [List.mem_singleton.mp h]; exact hrest rows (by simp)
        obtain ⟨rk', f1, _, f3⟩ := hrank rs hrs
        rw [e2] at f1
        cases f1
        obtain ⟨p, q, hpi, hqj, hlt⟩ := f3 i j a b hi hj hab
        rw [hqj] at e3
        cases e3
        refine ⟨p, generation_keeps natural size _ _ ((m, i), p) ((m, j), r) ?_ hr hlt⟩
        rcases List.mem_append.mp hmem with hx | hx
        · obtain ⟨rs2, rk2, g1, _, _⟩ := hinv _ hx
          have hmd : m < done.length := (List.getElem?_eq_some_iff.mp g1).1
          rw [List.getElem?_append_left hmd] at hm
          obtain ⟨r', hr'⟩ := hcl m i j rs a b hm hi hj hab ⟨r, hx⟩
          obtain ⟨rs3, rk3, k1, k2, k3⟩ := hinv _ hr'
          rw [hm] at k1
          cases k1
          rw [e2] at k2
          cases k2
          rw [hpi] at k3
          cases k3
          exact List.mem_append.mpr (.inl hr')
        · obtain ⟨h1, _⟩ := hnew _ hx
          simp only at h1
          subst h1
          simp only [List.getElem?_append_right le_rfl, Nat.sub_self, List.getElem?_cons_zero, Option.some.injEq] at hm
          subst hm
          rw [hp] at e2
          cases e2
          obtain ⟨hi', rfl⟩ := List.getElem?_eq_some_iff.mp hpi
          exact List.mem_append.mpr (.inr (List.mem_mapIdx.mpr ⟨i, hi', rfl⟩))
  obtain ⟨ranks, hp, hlen, _⟩ := hrank first (by simp)
  have hin : ∀ (j : Nat) (r : Int), ((0, j), r) ∈ ranks.mapIdx (fun i r => ((0, i), r)) ↔ ranks[j]? = some r := by
    intro j r
    rw [List.mem_mapIdx]
    constructor
    · rintro ⟨k, hk, h⟩
      simp only [Prod.mk.injEq, true_and] at h
      rw [← h.1, ← h.2]
      exact List.getElem?_eq_getElem hk
    · intro h
      obtain ⟨hk, rfl⟩ := List.getElem?_eq_some_iff.mp h
      exact ⟨j, hk, rfl⟩
  obtain ⟨out, h1, h2⟩ := main rest [first] (ranks.mapIdx fun i r => ((0, i), r)) (fun _ h => by simp [h]) (by simp)
    (fun x hx => by
      obtain ⟨k, hk, rfl⟩ := List.mem_mapIdx.mp hx
      exact ⟨first, ranks, rfl, hp, List.getElem?_eq_getElem hk⟩)
    (fun m i j rows a b hm hi hj _ _ => by
      have h0 : m = 0 := by
        have := (List.getElem?_eq_some_iff.mp hm).1
        simp at this
        exact this
      subst h0
      cases hm
      have := (List.getElem?_eq_some_iff.mp hi).1
      exact ⟨ranks[i], (hin i _).mpr (List.getElem?_eq_getElem (by omega))⟩)
  exact ⟨ranks, out, hp, h1, by simpa using h2⟩

/-- Two generations of two individuals, of which two are kept. -/
example : (∀ rows ∈ [[[3, 3], [2, 2]], [[1, 1], [4, 4]]], ∀ r ∈ rows, r.length = 2 ∧ ∀ x ∈ r, (⊥ : Nat) < x) ∧
    paretoTransform ([[3, 3], [2, 2]] : List (List Nat)) = some [-1, -2] ∧
    survivors true 2 [((0, 0), -1), ((0, 1), -2)] 1 ([[[1, 1], [4, 4]]] : List (List (List Nat))) = some [((0, 0), -1), ((1, 1), -1)] ∧
    StrictlyDominates [3, 3] [2, 2] := by
  refine ⟨by decide, by decide, by decide +kernel, rfl, ?_⟩
  intro i hp hq
  have : i = 0 ∨ i = 1 := by simp at hp; omega
  rcases this with rfl | rfl <;> simp

/-! ### C73, C77: the number of features -/

/-- C73 is violated: with `dmax = 1`, mating two individuals of one feature each gives one of two
features, and nothing reduces it. -/
theorem C73_dmax_violated :
    ∃ (pop : List Ind) (c : Choice) (e : Extra) (o : Ind), (∀ p ∈ pop, WellFormed 2 p ∧ p.sum ≤ 1) ∧
      c.Valid pop.length 2 ∧ offspring (some 1) pop e c = some o ∧ 1 < o.sum :=
  ⟨[[1, 0], [0, 1]], .mate 0 1 1, ⟨0, fun _ => 0, 0⟩, [1, 1],
    by intro p hp; simp at hp; rcases hp with rfl | rfl <;> exact ⟨⟨rfl, by decide⟩, by decide⟩,
    by simp [Choice.Valid], by decide, by decide⟩

private theorem foldl_set_sum (l : List Nat) : ∀ (p : Ind), (∀ g ∈ p, g = 0 ∨ g = 1) →
    (l.foldl (fun p i => p.set i 1) p).sum ≤ p.sum + l.length := by
  have hset : ∀ (p : Ind) (i : Nat), (p.set i 1).sum ≤ p.sum + 1 := by
    intro p
    induction p with
    | nil => intro i; simp
    | cons a p ih =>
      intro i
      cases i with
      | zero => simp only [List.set_cons_zero, List.sum_cons]; omega
      | succ i => simp only [List.set_cons_succ, List.sum_cons]; have := ih i; omega
  induction l with
  | nil => intro p _; simp
  | cons i l ih =>
    intro p hp
    rw [List.foldl_cons]
    have h1 := ih (p.set i 1) (by
      intro g hg
      rcases List.mem_or_eq_of_mem_set hg with h | h
      · exact hp g h
      · simp [h])
    have h2 := hset p i
    simp only [List.length_cons]; omega

/-- C73 (partial): individuals of the initial population have between 1 and `dmax` features, and a mutant
within the limit is left alone. -/
theorem C73_dmax_partial (d dmax : Nat) (hd : dmax ≤ d) (chosen : List Nat)
    (hc : InitChoice dmax chosen) :
    1 ≤ (initIndividual d chosen).sum ∧ (initIndividual d chosen).sum ≤ dmax ∧
    ∀ (m : Ind) (e : Extra), m.sum ≤ dmax → limitMutant (some dmax) e m = m := by
  refine ⟨?_, ?_, ?_⟩
  · have hmem : 1 ∈ initIndividual d chosen := by
      obtain ⟨c, hcm⟩ := List.exists_mem_of_length_pos (Nat.lt_of_lt_of_le Nat.zero_lt_one hc.2.2.1)
      have key : ∀ (l : List Nat) (p : Ind), (1 ∈ p ∨ ∃ c ∈ l, c < p.length) →
          1 ∈ l.foldl (fun p i => p.set i 1) p := by
        intro l
        induction l with
        | nil => intro p h; simpa using h
        | cons i l ih =>
          intro p h
          rw [List.foldl_cons]
          apply ih
          rcases h with h | ⟨c, hc, hlt⟩
          · by_cases hi : i < p.length
            · exact .inl (List.mem_set hi 1)
            · left; rwa [List.set_eq_of_length_le (by omega)]
          · rcases List.mem_cons.mp hc with rfl | hc
            · exact .inl (List.mem_set hlt 1)
            · exact .inr ⟨c, hc, by simpa using hlt⟩
      exact key chosen _ (.inr ⟨c, hcm, by have := hc.2.1 c hcm; simp; omega⟩)
    have hle : ∀ l : Ind, 1 ∈ l → 1 ≤ l.sum := by
      intro l
      induction l with
      | nil => simp
      | cons a l ih =>
        intro h
        rw [List.sum_cons]
        rcases List.mem_cons.mp h with rfl | h
        · omega
        · have := ih h; omega
    exact hle _ hmem
  · have := foldl_set_sum chosen (List.replicate d 0) (by
      intro g hg; exact .inl (List.mem_replicate.mp hg).2)
    have h2 := hc.2.2.2
    have h0 : (List.replicate d 0).sum = 0 := by simp
    rw [h0, Nat.zero_add] at this
    exact this.trans h2
  · intro m e h
    simp [limitMutant, not_lt.mpr h]

private theorem removeLoop_cons (u : Nat → Rat) (prob : Rat) (a : Nat) (p : Ind) :
    removeLoop u prob (a :: p) =
      (if a = 1 ∧ u 0 ≥ prob then 0 else a) :: removeLoop (fun i => u (i + 1)) prob p := by
  simp [removeLoop, List.mapIdx_cons]

private theorem removeLoop_sum_le (prob : Rat) : ∀ (p : Ind) (u : Nat → Rat),
    (removeLoop u prob p).sum ≤ p.sum := by
  intro p
  induction p with
  | nil => intro u; simp [removeLoop]
  | cons a p ih =>
    intro u
    have := ih fun i => u (i + 1)
    rw [removeLoop_cons, List.sum_cons, List.sum_cons]
    split <;> omega

private theorem removeLoop_sum_lt (prob : Rat) : ∀ (p : Ind) (u : Nat → Rat),
    (∃ i : Nat, p[i]? = some 1 ∧ prob ≤ u i) → (removeLoop u prob p).sum < p.sum := by
  intro p
  induction p with
  | nil => rintro u ⟨i, h, _⟩; simp at h
  | cons a p ih =>
    rintro u ⟨i, h, hu⟩
    rw [removeLoop_cons, List.sum_cons, List.sum_cons]
    cases i with
    | zero =>
      simp only [List.getElem?_cons_zero, Option.some.injEq] at h
      have := removeLoop_sum_le prob p fun i => u (i + 1)
      rw [if_pos ⟨h, hu⟩]; omega
    | succ i =>
      have := ih (fun i => u (i + 1)) ⟨i, by simpa using h, hu⟩
      split <;> omega

private theorem removeLoop_zero (prob : Rat) : ∀ (p : Ind) (u : Nat → Rat),
    (∀ g ∈ p, g = 0 ∨ g = 1) → (∀ i : Nat, p[i]? = some 1 → prob ≤ u i) →
    ∀ g ∈ removeLoop u prob p, g = 0 := by
  intro p
  induction p with
  | nil => intro u _ _; simp [removeLoop]
  | cons a p ih =>
    intro u hp h g hg
    rw [removeLoop_cons, List.mem_cons] at hg
    rcases hg with rfl | hg
    · split
      · rfl
      · rename_i hn
        rcases hp a (by simp) with h0 | h1
        · exact h0
        · exact absurd ⟨h1, h 0 (by simp [h1])⟩ hn
    · exact ih (fun i => u (i + 1)) (fun g hg => hp g (by simp [hg]))
        (fun i hi => h (i + 1) (by simpa using hi)) g hg

/-- C73 (partial): a mutant above the limit passes once more through the removal step.  It keeps at
least one feature and gains none in number; it loses at least one as soon as one of the draws reaches
the threshold; it ends with a single one if all do.  Nothing brings it below `dmax` when too few draws
reach the threshold (last part). -/
theorem C73_limit_mutant_partial (d dmax : Nat) (hd : 1 ≤ dmax) (m : Ind) (hm : WellFormed d m)
    (e : Extra) (hf : e.fallback < d) (h : dmax < m.sum) :
    1 ≤ (limitMutant (some dmax) e m).sum ∧ (limitMutant (some dmax) e m).sum ≤ m.sum ∧
    ((∃ i : Nat, m[i]? = some 1 ∧ e.prob ≤ e.u i) → (limitMutant (some dmax) e m).sum < m.sum) ∧
    ((∀ i : Nat, m[i]? = some 1 → e.prob ≤ e.u i) → (limitMutant (some dmax) e m).sum = 1) ∧
    ((∀ i : Nat, m[i]? = some 1 → e.u i < e.prob) → limitMutant (some dmax) e m = m) := by
  have hlen : (removeLoop e.u e.prob m).length = d := by simp [removeLoop, hm.1]
  have hle := removeLoop_sum_le e.prob m e.u
  have hset : ∀ (l : Ind) (k : Nat), k < l.length → (∀ g ∈ l, g = 0) → (l.set k 1).sum = 1 := by
    intro l
    induction l with
    | nil => intro k hk; simp at hk
    | cons a l ih =>
      intro k hk hz
      have h0 := hz a (by simp)
      have hs : ∀ q : Ind, (∀ g ∈ q, g = 0) → q.sum = 0 := by
        intro q hq
        rw [List.eq_replicate_of_mem hq]; simp
      cases k with
      | zero => simp [hs l fun g hg => hz g (by simp [hg])]
      | succ k =>
        rw [List.set_cons_succ, List.sum_cons, ih k (by simpa using hk) fun g hg => hz g (by simp [hg]),
          h0]
  have hall : ((removeLoop e.u e.prob m).filter (· = 0)).length = (removeLoop e.u e.prob m).length ↔
      ∀ g ∈ removeLoop e.u e.prob m, g = 0 := by
    rw [List.length_filter_eq_length_iff]; simp
  have hone : (∀ g ∈ removeLoop e.u e.prob m, g = 0) → (limitMutant (some dmax) e m).sum = 1 := by
    intro hz
    simp only [limitMutant, if_pos h, probabilityRemove]
    rw [if_pos (hall.mpr hz)]
    exact hset _ _ (by omega) hz
  have hnot : (¬ ∀ g ∈ removeLoop e.u e.prob m, g = 0) →
      limitMutant (some dmax) e m = removeLoop e.u e.prob m := by
    intro hz
    simp only [limitMutant, if_pos h, probabilityRemove]
    rw [if_neg (fun h => hz (hall.mp h))]
  refine ⟨?_, ?_, ?_, fun ha => hone (removeLoop_zero _ _ _ hm.2 ha), ?_⟩
  · by_cases hz : ∀ g ∈ removeLoop e.u e.prob m, g = 0
    · rw [hone hz]
    · rw [hnot hz]
      by_contra h0
      have h0 : (removeLoop e.u e.prob m).sum = 0 := by omega
      exact hz (List.sum_eq_zero_iff_forall_eq_nat.mp h0)
  · by_cases hz : ∀ g ∈ removeLoop e.u e.prob m, g = 0
    · rw [hone hz]; omega
    · rw [hnot hz]; exact hle
  · intro hi
    by_cases hz : ∀ g ∈ removeLoop e.u e.prob m, g = 0
    · rw [hone hz]; omega
    · rw [hnot hz]; exact removeLoop_sum_lt _ _ _ hi
  · intro hu
    have heq : removeLoop e.u e.prob m = m := by
      apply List.ext_getElem (by simp [removeLoop])
      intro i h1 h2
      simp only [removeLoop, List.getElem_mapIdx]
      rw [if_neg]
      rintro ⟨ha, hb⟩
      exact absurd (hu i (List.getElem?_eq_some_iff.mpr ⟨h2, ha⟩)) (not_lt.mpr hb)
    rw [hnot, heq]
    rw [heq]
    intro hz
    have : m.sum = 0 := by rw [List.eq_replicate_of_mem hz]; simp
    omega

example : WellFormed 3 [1, 0, 1] ∧ 1 < ([1, 0, 1] : Ind).sum :=
  ⟨⟨rfl, by decide⟩, by decide⟩

/-- C77 is violated: the flip mutation can remove the last feature, and the fitness function is then
called with no feature at all. -/
theorem C77_nonempty_individuals_violated :
    ∃ (pop : List Ind) (c : Choice) (e : Extra) (o : Ind),
      (∀ p ∈ pop, WellFormed 2 p ∧ 1 ∈ p) ∧ c.Valid pop.length 2 ∧
      offspring none pop e c = some o ∧ ∀ g ∈ o, g = 0 :=
  ⟨[[1, 0]], .flip 0 0, ⟨0, fun _ => 0, 0⟩, [0, 0],
    by intro p hp; simp at hp; subst hp; exact ⟨⟨rfl, by decide⟩, by decide⟩,
    by simp [Choice.Valid], by decide, by decide⟩

/-! ### C13: convergence -/

/-- The state of a criterion after a history of calls. -/
private def convState {S B : Type} (f : S → B → S × Bool) (s : S) (l : List B) : S :=
  l.foldl (fun s b => (f s b).1) s

private theorem runConv_get {S B : Type} (f : S → B → S × Bool) : ∀ (l : List B) (s : S) (t : Nat),
    (runConv f s l)[t]? = (l[t]?).map fun b => (f (convState f s (l.take t)) b).2 := by
  intro l
  induction l with
  | nil => intro s t; simp [runConv]
  | cons b l ih =>
    intro s t
    cases t with
    | zero => simp [runConv, convState]
    | succ t => simp [runConv, ih, convState]

section Conv

variable {F : Type} [LinearOrder F] [OrderBot F]

private theorem record_append (l : List F) (b : F) (t : Nat) (ht : t < l.length) :
    Record (l ++ [b]) t ↔ Record l t := by
  unfold Record
  constructor
  · rintro ⟨h, h1, h2⟩
    refine ⟨ht, ?_, fun u hu => ?_⟩
    · rwa [List.getElem_append_left ht] at h1
    · have := h2 u hu
      rwa [List.getElem_append_left ht, List.getElem_append_left (by omega)] at this
  · rintro ⟨h, h1, h2⟩
    refine ⟨by simp; omega, ?_, fun u hu => ?_⟩
    · rwa [List.getElem_append_left ht]
    · rw [List.getElem_append_left ht, List.getElem_append_left (by omega)]
      exact h2 u hu

private theorem noProgress_state (rpt : Nat) (l : List F) :
    let s := convState (noProgress rpt) ⟨⊥, 0⟩ l
    (∀ x ∈ l, x ≤ s.previous) ∧ (s.previous ∈ l ∨ s.previous = ⊥) ∧
    ∀ r, r < s.count ↔ r < l.length ∧ ∀ u, l.length ≤ u + r + 1 → u < l.length → ¬ Record l u := by
  induction l using List.reverseRecOn with
  | nil => simp [convState]
  | append_singleton l b ih =>
    simp only at ih ⊢
    obtain ⟨h1, h2, h3⟩ := ih
    have hs : convState (noProgress rpt) ⟨⊥, 0⟩ (l ++ [b]) =
        (noProgress rpt (convState (noProgress rpt) ⟨⊥, 0⟩ l) b).1 := by
      simp [convState, List.foldl_append]
    rw [hs]
    set s := convState (noProgress rpt) ⟨⊥, 0⟩ l
    have hrec : Record (l ++ [b]) l.length ↔ b > s.previous := by
      unfold Record
      constructor
      · rintro ⟨_, hb, hu⟩
        simp only [List.getElem_append_right (le_refl l.length), Nat.sub_self,
          List.getElem_singleton] at hb hu
        rcases h2 with h | h
        · obtain ⟨u, hul, hue⟩ := List.mem_iff_getElem.mp h
          have := hu u hul
          rw [List.getElem_append_left hul, hue] at this
          exact this
        · rw [h]; exact hb
      · intro hb
        refine ⟨by simp, ?_, ?_⟩
        · simp only [List.getElem_append_right (le_refl l.length), Nat.sub_self,
            List.getElem_singleton]
          exact lt_of_le_of_lt bot_le hb
        · intro u hu
          simp only [List.getElem_append_right (le_refl l.length), Nat.sub_self,
            List.getElem_singleton]
          rw [List.getElem_append_left hu]
          exact lt_of_le_of_lt (h1 _ (List.getElem_mem _)) hb
    simp only [noProgress]
    split
    · rename_i hb
      refine ⟨?_, ?_, ?_⟩
      · intro x hx
        rcases List.mem_append.mp hx with h | h
        · exact le_of_lt (lt_of_le_of_lt (h1 x h) hb)
        · simp at h; rw [h]
      · left; simp
      · intro r
        simp only [Nat.not_lt_zero, false_iff, List.length_append, List.length_singleton]
        rintro ⟨_, h⟩
        exact h l.length (by omega) (by omega) (hrec.mpr hb)
    · rename_i hb
      refine ⟨?_, ?_, ?_⟩
      · intro x hx
        rcases List.mem_append.mp hx with h | h
        · exact h1 x h
        · simp at h; rw [h]; exact not_lt.mp hb
      · rcases h2 with h | h
        · left; simp [h]
        · right; exact h
      · intro r
        simp only [List.length_append, List.length_singleton]
        constructor
        · intro hr
          cases r with
          | zero =>
            refine ⟨by omega, fun u hu1 hu2 => ?_⟩
            have : u = l.length := by omega
            rw [this, hrec]; exact hb
          | succ r =>
            obtain ⟨h4, h5⟩ := (h3 r).mp (by omega)
            refine ⟨by omega, fun u hu1 hu2 => ?_⟩
            by_cases hul : u = l.length
            · rw [hul, hrec]; exact hb
            · rw [record_append l b u (by omega)]
              exact h5 u (by omega) (by omega)
        · rintro ⟨h4, h5⟩
          cases r with
          | zero => omega
          | succ r =>
            have := (h3 r).mpr ⟨by omega, fun u hu1 hu2 => by
              rw [← record_append l b u hu2]; exact h5 u (by omega) (by omega)⟩
            omega

/-- C13.  For every history of best fitness values, the `t`-th call of `no_progress` reports convergence
exactly when more than `repeat` generations have been seen and none of the last `repeat + 1` of them
set a new record. -/
theorem C13_no_progress (rpt : Nat) (bests : List F) (t : Nat) (ht : t < bests.length) :
    (runConv (noProgress rpt) ⟨⊥, 0⟩ bests)[t]? = some true ↔
      rpt ≤ t ∧ ∀ u, t ≤ u + rpt → u ≤ t → ¬ Record bests u := by
  rw [runConv_get, List.getElem?_eq_getElem ht]
  simp only [Option.map_some, Option.some.injEq]
  have hs : (noProgress rpt (convState (noProgress rpt) ⟨⊥, 0⟩ (bests.take t)) bests[t]).2 =
      decide ((convState (noProgress rpt) ⟨⊥, 0⟩ (bests.take (t + 1))).count > rpt) := by
    rw [show bests.take (t + 1) = bests.take t ++ [bests[t]] from (List.take_append_getElem ht).symm]
    simp only [convState, List.foldl_append, List.foldl_cons, List.foldl_nil]
    rfl
  rw [hs, decide_eq_true_eq]
  have h3 := (noProgress_state rpt (bests.take (t + 1))).2.2 rpt
  rw [gt_iff_lt, h3]
  have hl : (bests.take (t + 1)).length = t + 1 := by simp; omega
  rw [hl]
  have hrec : ∀ u, u ≤ t → (Record (bests.take (t + 1)) u ↔ Record bests u) := by
    intro u hu
    unfold Record
    constructor
    · rintro ⟨h, h1, h2⟩
      refine ⟨by omega, ?_, fun v hv => ?_⟩
      · simpa using h1
      · simpa using h2 v hv
    · rintro ⟨h, h1, h2⟩
      refine ⟨by omega, ?_, fun v hv => ?_⟩
      · simpa using h1
      · simpa using h2 v hv
  constructor
  · rintro ⟨h1, h2⟩
    exact ⟨by omega, fun u hu1 hu2 hr => h2 u (by omega) (by omega) ((hrec u hu2).mpr hr)⟩
  · rintro ⟨h1, h2⟩
    exact ⟨by omega, fun u hu1 hu2 hr => h2 u (by omega) (by omega) ((hrec u (by omega)).mp hr)⟩

example : runConv (noProgress 1) ⟨⊥, 0⟩ [3, 5, 5, 4, 4, 6] = [false, false, false, true, true, false] := by
  decide

end Conv

private theorem stagnation_state {F : Type} [DecidableEq F] (rpt : Nat) (l : List (F × F)) :
    let s := convState (stagnation rpt) ⟨none, 0⟩ l
    s.previous = l.getLast? ∧
    ∀ r, r < s.count ↔ r + 1 < l.length ∧
      ∀ u, l.length ≤ u + r + 2 → u < l.length → l[u]? = l.getLast? := by
  induction l using List.reverseRecOn with
  | nil => simp [convState]
  | append_singleton l b ih =>
    simp only at ih ⊢
    obtain ⟨h1, h3⟩ := ih
    have hs : convState (stagnation rpt) ⟨none, 0⟩ (l ++ [b]) =
        (stagnation rpt (convState (stagnation rpt) ⟨none, 0⟩ l) b).1 := by
      simp [convState, List.foldl_append]
    rw [hs]
    set s := convState (stagnation rpt) ⟨none, 0⟩ l
    simp only [stagnation, List.getLast?_append, List.getLast?_singleton, Option.some_or]
    split
    · rename_i hb
      refine ⟨rfl, fun r => ?_⟩
      simp only [Nat.not_lt_zero, false_iff, List.length_append, List.length_singleton]
      rintro ⟨h4, h5⟩
      have h6 := h5 (l.length - 1) (by omega) (by omega)
      rw [List.getElem?_append_left (by omega), ← List.getLast?_eq_getElem?, ← h1] at h6
      exact hb h6.symm
    · rename_i hb
      have hb : some b = s.previous := not_not.mp hb
      refine ⟨hb.symm, fun r => ?_⟩
      have hne : 0 < l.length := by
        rw [h1] at hb
        by_contra h
        have : l = [] := List.length_eq_zero_iff.mp (by omega)
        rw [this] at hb; simp at hb
      simp only [List.length_append, List.length_singleton]
      constructor
      · intro hr
        refine ⟨?_, fun u hu1 hu2 => ?_⟩
        · cases r with
          | zero => omega
          | succ r => have := ((h3 r).mp (by omega)).1; omega
        · by_cases hul : u = l.length
          · subst hul; simp
          · rw [List.getElem?_append_left (by omega), hb, h1]
            cases r with
            | zero =>
              have : u = l.length - 1 := by omega
              rw [this, ← List.getLast?_eq_getElem?]
            | succ r => exact ((h3 r).mp (by omega)).2 u (by omega) (by omega)
      · rintro ⟨h4, h5⟩
        cases r with
        | zero => omega
        | succ r =>
          have := (h3 r).mpr ⟨by omega, fun u hu1 hu2 => by
            have := h5 u (by omega) (by omega)
            rw [List.getElem?_append_left hu2] at this
            rw [this, hb, h1]⟩
          omega

/-- C13, `stagnation`: the `t`-th call reports convergence exactly when the last `repeat + 2` calls
(this one and the `repeat + 1` before it) all saw the same smallest and largest fitness. -/
theorem C13_stagnation {F : Type} [DecidableEq F] (rpt : Nat) (pairs : List (F × F)) (t : Nat)
    (ht : t < pairs.length) :
    (runConv (stagnation rpt) ⟨none, 0⟩ pairs)[t]? = some true ↔
      rpt < t ∧ ∀ u, t ≤ u + rpt + 1 → u ≤ t → pairs[u]? = pairs[t]? := by
  rw [runConv_get, List.getElem?_eq_getElem ht]
  simp only [Option.map_some, Option.some.injEq]
  have hs : (stagnation rpt (convState (stagnation rpt) ⟨none, 0⟩ (pairs.take t)) pairs[t]).2 =
      decide ((convState (stagnation rpt) ⟨none, 0⟩ (pairs.take (t + 1))).count > rpt) := by
    rw [show pairs.take (t + 1) = pairs.take t ++ [pairs[t]] from (List.take_append_getElem ht).symm]
    simp only [convState, List.foldl_append, List.foldl_cons, List.foldl_nil]
    rfl
  rw [hs, decide_eq_true_eq]
  have h3 := (stagnation_state rpt (pairs.take (t + 1))).2 rpt
  rw [gt_iff_lt, h3]
  have hl : (pairs.take (t + 1)).length = t + 1 := by simp; omega
  have hlast : (pairs.take (t + 1)).getLast? = some pairs[t] := by
    rw [List.getLast?_eq_getElem?, hl]
    simp [List.getElem?_eq_getElem ht]
  rw [hl, hlast]
  constructor
  · rintro ⟨h1, h2⟩
    refine ⟨by omega, fun u hu1 hu2 => ?_⟩
    have := h2 u (by omega) (by omega)
    rwa [List.getElem?_take_of_lt (by omega)] at this
  · rintro ⟨h1, h2⟩
    refine ⟨by omega, fun u hu1 hu2 => ?_⟩
    rw [List.getElem?_take_of_lt (by omega)]
    exact h2 u (by omega) (by omega)

example : runConv (stagnation 1) ⟨none, 0⟩ [(1, 2), (1, 2), (1, 2), (0, 2)] =
    [false, false, true, false] := by decide

end CatLearn.Props
