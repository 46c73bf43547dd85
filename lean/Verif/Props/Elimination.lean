import Verif.Model.Elimination
import Mathlib.Tactic.Linarith
import Mathlib.Tactic.Ring
import Mathlib.Tactic.NormNum
import Mathlib.Data.List.Nodup
import Mathlib.Data.List.Perm.Basic

/-!
# Properties of backward feature elimination (C24–C26, C29, C86–C89)
-/

namespace CatLearn.Props

open CatLearn CatLearn.Elim

/-! ### The result table -/

private theorem collect_append {M : Type} (row : List ℝ) (acc : List M) (arr : List (Worker M)) :
    arr.foldl (fun s r => (s.1.set r.pos r.error, s.2 ++ r.info.toList)) (row, acc)
      = (arr.foldl (fun s r => s.set r.pos r.error) row, acc ++ arr.flatMap fun r => r.info.toList) := by
  induction arr generalizing row acc with
  | nil => simp
  | cons r arr ih => rw [List.foldl_cons, ih]; simp

private theorem collect_fst {M : Type} (row : List ℝ) (arr : List (Worker M)) :
    (collect row arr).1 = arr.foldl (fun s r => s.set r.pos r.error) row := by
  unfold collect; rw [collect_append]

private theorem scatter_length {M : Type} (row : List ℝ) (arr : List (Worker M)) :
    (arr.foldl (fun s r => s.set r.pos r.error) row).length = row.length := by
  induction arr generalizing row with
  | nil => rfl
  | cons r arr ih => rw [List.foldl_cons, ih]; simp

private theorem scatter_get {M : Type} (e : Nat → ℝ) (row : List ℝ) (arr : List (Worker M))
    (h : ∀ r ∈ arr, r.error = e r.pos) (x : Nat) (hx : x < row.length) :
    (arr.foldl (fun s r => s.set r.pos r.error) row).getD x 0 =
      if x ∈ arr.map Worker.pos then e x else row.getD x 0 := by
  induction arr generalizing row with
  | nil => simp
  | cons r arr ih =>
    rw [List.foldl_cons, ih _ (fun r' hr' => h r' (by simp [hr'])) (by simpa using hx)]
    simp only [List.map_cons, List.mem_cons]
    by_cases h1 : x ∈ arr.map Worker.pos
    · simp [h1]
    · simp only [h1, if_false, or_false]
      by_cases h2 : x = r.pos
      · subst h2
        rw [if_pos rfl, List.getD_eq_getElem?_getD, List.getElem?_set_self hx, Option.getD_some]
        exact h r (by simp)
      · rw [if_neg h2, List.getD_eq_getElem?_getD, List.getElem?_set_ne (fun e => h2 e.symm),
          List.getD_eq_getElem?_getD]

/-- The mean over the folds of an entry. -/
private noncomputable def mean (nsplit : Nat) (g : Nat → ℝ) : ℝ :=
  ((List.range nsplit).map g).sum / nsplit

private theorem scores_eq (entry : Nat → List Nat → Nat → ℝ) (nsplit : Nat) (st : St)
    (hinv : st.total = st.survivors.length) :
    meanRows nsplit st.total ((List.range nsplit).map fun k =>
      (collect (M := Unit) (List.replicate st.total 0)
        ((List.range st.survivors.length).map fun x => ⟨x, entry k st.survivors x, none⟩)).1)
      = (List.range st.survivors.length).map fun x => mean nsplit fun k => entry k st.survivors x := by
  unfold meanRows mean
  rw [hinv]
  apply List.map_congr_left
  intro x hx
  congr 2
  apply List.map_congr_left
  intro k hk
  have hx' : x < st.survivors.length := by simpa using hx
  have hk' : k < nsplit := by simpa using hk
  rw [List.getD_eq_getElem?_getD (l := List.map _ _), List.getElem?_map, List.getElem?_range hk']
  simp only [Option.map_some, Option.getD_some, collect_fst]
  rw [scatter_get (fun x => entry k st.survivors x) _ _ (by simp) x (by simpa using hx')]
  simp [hx']

/-! ### One round -/

private theorem zipIdx_eq (l : List Nat) :
    l.zipIdx = (List.range l.length).map fun i => (l.getD i 0, i) := by
  apply List.ext_getElem
  · simp
  · intro i h1 h2
    have : i < l.length := by simpa using h1
    simp [this]

private theorem keep_eq (l T : List Nat) :
    (l.zipIdx.filter fun p => !T.contains p.2).map Prod.fst
      = ((List.range l.length).filter fun i => !T.contains i).map fun i => l.getD i 0 := by
  rw [zipIdx_eq, List.filter_map, List.map_map]
  rfl

private theorem map_getD_range (l : List Nat) : ((List.range l.length).map fun i => l.getD i 0) = l := by
  apply List.ext_getElem
  · simp
  · intro i h1 h2
    simp [h2]

/-- What a round does, in terms of the mean entries. -/
private theorem round_spec (argsort : List ℝ → List Nat) (ha : IsArgsort argsort)
    (entry : Nat → List Nat → Nat → ℝ) (nsplit step : Nat) (st : St)
    (hinv : st.total = st.survivors.length) (hstep : step ≤ st.survivors.length) :
    ∃ elim keep, round argsort entry nsplit step st = .ok ⟨st.output ++ elim, keep, st.total - step⟩ ∧
      elim.length = step ∧ (elim.map Prod.fst ++ keep).Perm st.survivors ∧ keep.Sublist st.survivors ∧
      elim.Pairwise (fun p q => p.2 ≤ q.2) ∧
      (∀ p ∈ elim, ∃ x, ∃ h : x < st.survivors.length, p.1 = st.survivors[x] ∧
        p.2 = mean nsplit fun k => entry k st.survivors x) ∧
      (∀ f ∈ keep, ∃ x, ∃ h : x < st.survivors.length, f = st.survivors[x] ∧
        ∀ p ∈ elim, p.2 ≤ mean nsplit fun k => entry k st.survivors x) := by
  set e := fun x => mean nsplit fun k => entry k st.survivors x with he
  set n := st.survivors.length with hn
  have hsc := scores_eq entry nsplit st hinv
  rw [← he] at hsc
  set scores := (List.range n).map e with hscdef
  obtain ⟨hperm, hsort⟩ := ha scores
  have hlen : scores.length = n := by simp [hscdef]
  rw [hlen] at hperm
  set s := argsort scores with hs
  have hslen : s.length = n := by simpa using hperm.length_eq
  have hlt : ∀ i ∈ s, i < n := fun i hi => by simpa using hperm.mem_iff.mp hi
  have hnod : s.Nodup := hperm.nodup_iff.mpr List.nodup_range
  have hget : ∀ i < n, scores.getD i 0 = e i := by
    intro i hi
    rw [List.getD_eq_getElem?_getD, hscdef, List.getElem?_map, List.getElem?_range hi]; rfl
  have hgsv : ∀ i (h : i < n), st.survivors.getD i 0 = st.survivors[i] := by
    intro i hi
    rw [List.getD_eq_getElem?_getD, List.getElem?_eq_getElem hi]; rfl
  set T := s.take step with hT
  have hTlt : ∀ i ∈ T, i < n := fun i hi => hlt i (List.mem_of_mem_take hi)
  refine ⟨T.map fun i => (st.survivors.getD i 0, scores.getD i 0),
    ((List.range n).filter fun i => !T.contains i).map fun i => st.survivors.getD i 0, ?_, ?_, ?_, ?_, ?_,
    ?_, ?_⟩
  · unfold round
    simp only [hsc]
    rw [if_pos ⟨hslen ▸ hstep, hlt⟩, keep_eq]
  · simp [hT, hslen, hstep]
  · rw [List.map_map]
    have h1 : (Prod.fst ∘ fun i => (st.survivors.getD i 0, scores.getD i 0))
        = fun i => st.survivors.getD i 0 := rfl
    rw [h1, ← List.map_append]
    conv_rhs => rw [← map_getD_range st.survivors]
    apply List.Perm.map
    have hTn : T.Nodup := hnod.sublist (List.take_sublist _ _)
    rw [List.perm_ext_iff_of_nodup]
    · intro i
      simp only [List.mem_append, List.mem_filter, List.mem_range, List.contains_eq_mem,
        Bool.not_eq_true', decide_eq_false_iff_not]
      constructor
      · rintro (h | h)
        · exact hTlt i h
        · exact h.1
      · intro h
        by_cases hi : i ∈ T
        · exact .inl hi
        · exact .inr ⟨h, hi⟩
    · rw [List.nodup_append']
      refine ⟨hTn, List.nodup_range.filter _, ?_⟩
      intro i hi hi'
      simp at hi'
      exact hi'.2 hi
    · exact List.nodup_range
  · conv_rhs => rw [← map_getD_range st.survivors]
    exact List.Sublist.map _ List.filter_sublist
  · rw [List.pairwise_map]
    exact hsort.sublist (List.take_sublist _ _)
  · intro p hp
    obtain ⟨i, hi, rfl⟩ := List.mem_map.mp hp
    exact ⟨i, hTlt i hi, hgsv i (hTlt i hi), hget i (hTlt i hi)⟩
  · intro f hf
    obtain ⟨j, hj, rfl⟩ := List.mem_map.mp hf
    simp only [List.mem_filter, List.mem_range, List.contains_eq_mem, Bool.not_eq_true',
      decide_eq_false_iff_not] at hj
    refine ⟨j, hj.1, hgsv j hj.1, ?_⟩
    intro p hp
    obtain ⟨i, hi, rfl⟩ := List.mem_map.mp hp
    show scores.getD i 0 ≤ e j
    rw [← hget j hj.1]
    have hjs : j ∈ s.drop step := by
      have : j ∈ s := hperm.mem_iff.mpr (by simpa using hj.1)
      rw [← List.take_append_drop step s, List.mem_append] at this
      exact this.resolve_left hj.2
    have hp2 := hsort
    rw [← List.take_append_drop step s, List.pairwise_append] at hp2
    exact hp2.2.2 i hi j hjs

/-- The invariant of the loop. -/
private structure Inv (d step n : Nat) (st : St) : Prop where
  total : st.total = st.survivors.length
  perm : (st.output.map Prod.fst ++ st.survivors).Perm (List.range d)
  len : st.output.length = n * step

private theorem Inv.surv {d step n : Nat} {st : St} (h : Inv d step n st) :
    st.survivors.length = d - n * step ∧ n * step ≤ d := by
  have := h.perm.length_eq
  simp only [List.length_append, List.length_map, List.length_range, h.len] at this
  omega

private theorem rounds_inv (argsort : List ℝ → List Nat) (ha : IsArgsort argsort)
    (entry : Nat → List Nat → Nat → ℝ) (nsplit step d : Nat) (m n : Nat) (st : St)
    (hi : Inv d step n st) (hle : (n + m) * step ≤ d) :
    ∃ fin, rounds argsort entry nsplit step m st = .ok fin ∧ Inv d step (n + m) fin := by
  induction m generalizing n st with
  | zero => exact ⟨st, rfl, hi⟩
  | succ m ih =>
    have hs := hi.surv
    have hstep : step ≤ st.survivors.length := by
      have : (n + 1) * step ≤ d := le_trans (Nat.mul_le_mul_right _ (by omega)) hle
      rw [Nat.add_mul] at this
      omega
    obtain ⟨elim, keep, hr, hel, hperm, hsub, -⟩ := round_spec argsort ha entry nsplit step st hi.total hstep
    have hk : keep.length = st.survivors.length - step := by
      have := hperm.length_eq
      simp [hel] at this; omega
    have hi' : Inv d step (n + 1) ⟨st.output ++ elim, keep, st.total - step⟩ := by
      refine ⟨?_, ?_, ?_⟩
      · simp only [hk, hi.total]
      · simp only [List.map_append, List.append_assoc]
        exact (hperm.append_left _).trans hi.perm
      · simp only [List.length_append, hel, hi.len]; ring
    obtain ⟨fin, hf, hfi⟩ := ih (n + 1) _ hi' (by rwa [show n + 1 + m = n + (m + 1) by omega])
    refine ⟨fin, ?_, by rwa [show n + 1 + m = n + (m + 1) by omega] at hfi⟩
    rw [rounds, hr]
    exact hf

private theorem inv_init (d step : Nat) : Inv d step 0 (St.init d) :=
  ⟨by simp [St.init], by simp [St.init], by simp [St.init]⟩

private theorem rounds_total (d step : Nat) (hstep : 0 < step) (hd : 0 < d) :
    (d - 1) / step * step < d ∧ d ≤ (d - 1) / step * step + step := by
  have h1 := Nat.div_mul_le_self (d - 1) step
  have h2 := Nat.lt_div_mul_add hstep (a := d - 1)
  omega

private theorem run_spec (argsort : List ℝ → List Nat) (ha : IsArgsort argsort)
    (entry : Nat → List Nat → Nat → ℝ) (nsplit step d : Nat) (hstep : 0 < step) (hd : 0 < d) :
    ∃ fin, runFrom argsort entry nsplit step (St.init d) = .ok fin ∧
      Inv d step ((d - 1) / step) fin := by
  have h := rounds_total d step hstep hd
  obtain ⟨fin, hf, hi⟩ := rounds_inv argsort ha entry nsplit step d ((d - 1) / step) 0 (St.init d)
    (inv_init d step) (by rw [zero_add]; omega)
  refine ⟨fin, ?_, by simpa using hi⟩
  unfold runFrom
  rw [if_neg (by omega)]
  exact hf

/-- C24, greedy elimination: the run ends without error; eliminated and surviving features are together all
features, each once; between 1 and `step` features survive; `step` features are reported per round. -/
theorem C24_greedy_partition (argsort : List ℝ → List Nat) (ha : IsArgsort argsort)
    (err : Nat → List Nat → ℝ) (nsplit step d : Nat) (hstep : 0 < step) (hd : 0 < d) :
    ∃ fin, runFrom argsort (greedyEntry err) nsplit step (St.init d) = .ok fin ∧
      (fin.output.map Prod.fst ++ fin.survivors).Perm (List.range d) ∧
      1 ≤ fin.survivors.length ∧ fin.survivors.length ≤ step ∧
      fin.output.length = (d - 1) / step * step := by
  obtain ⟨fin, hf, hi⟩ := run_spec argsort ha (greedyEntry err) nsplit step d hstep hd
  have h := rounds_total d step hstep hd
  have hs := hi.surv
  exact ⟨fin, hf, hi.perm, by omega, by omega, hi.len⟩

/-- C24, the same for importance elimination. -/
theorem C24_importance_partition (argsort : List ℝ → List Nat) (ha : IsArgsort argsort)
    (err : Nat → List Nat → Nat → ℝ) (nsplit step d : Nat) (hstep : 0 < step) (hd : 0 < d) :
    ∃ fin, runFrom argsort (importanceEntry err) nsplit step (St.init d) = .ok fin ∧
      (fin.output.map Prod.fst ++ fin.survivors).Perm (List.range d) ∧
      1 ≤ fin.survivors.length ∧ fin.survivors.length ≤ step ∧
      fin.output.length = (d - 1) / step * step := by
  obtain ⟨fin, hf, hi⟩ := run_spec argsort ha (importanceEntry err) nsplit step d hstep hd
  have h := rounds_total d step hstep hd
  have hs := hi.surv
  exact ⟨fin, hf, hi.perm, by omega, by omega, hi.len⟩

/-- C24, each round of greedy elimination: in whatever state the search is after `n` rounds, the next round
removes `step` of the surviving features, reports each with the mean over the folds of the error made
without it, and no remaining feature has a lower mean error. -/
theorem C24_greedy_round (argsort : List ℝ → List Nat) (ha : IsArgsort argsort)
    (err : Nat → List Nat → ℝ) (nsplit step d n : Nat) (hn : (n + 1) * step ≤ d) (st : St)
    (hst : rounds argsort (greedyEntry err) nsplit step n (St.init d) = .ok st) :
    ∃ st' elim, round argsort (greedyEntry err) nsplit step st = .ok st' ∧
      st'.output = st.output ++ elim ∧ elim.length = step ∧
      (elim.map Prod.fst ++ st'.survivors).Perm st.survivors ∧ st'.survivors.Sublist st.survivors ∧
      elim.Pairwise (fun p q => p.2 ≤ q.2) ∧
      (∀ p ∈ elim, p.2 = ((List.range nsplit).map fun k => err k (st.survivors.erase p.1)).sum / nsplit) ∧
      (∀ p ∈ elim, ∀ f ∈ st'.survivors,
        p.2 ≤ ((List.range nsplit).map fun k => err k (st.survivors.erase f)).sum / nsplit) := by
  have hle : n * step ≤ d := le_trans (Nat.mul_le_mul_right _ (by omega)) hn
  obtain ⟨st1, h0, hi⟩ := rounds_inv argsort ha (greedyEntry err) nsplit step d n 0 (St.init d)
    (inv_init d step) (by rwa [zero_add])
  rw [h0] at hst
  cases hst
  rw [zero_add] at hi
  have hs := hi.surv
  rw [Nat.add_mul] at hn
  obtain ⟨elim, keep, hr, hel, hperm, hsub, hsort, hsc, hmin⟩ :=
    round_spec argsort ha (greedyEntry err) nsplit step st hi.total (by omega)
  have hnod : st.survivors.Nodup := by
    have := hi.perm.nodup_iff.mpr List.nodup_range
    exact (List.nodup_append'.mp this).2.1
  have her : ∀ x (h : x < st.survivors.length),
      st.survivors.erase st.survivors[x] = st.survivors.eraseIdx x := fun x h =>
    hnod.erase_getElem x h
  refine ⟨_, elim, hr, rfl, hel, hperm, hsub, hsort, ?_, ?_⟩
  · intro p hp
    obtain ⟨x, hx, h1, h2⟩ := hsc p hp
    rw [h2, h1, her x hx]
    rfl
  · intro p hp f hf
    obtain ⟨x, hx, h1, h2⟩ := hmin f hf
    have := h2 p hp
    rw [h1, her x hx]
    exact this

/-- C24, each round of importance elimination: the reported score of a removed feature is the mean over the
folds of the error after perturbing it, and no remaining feature has a lower one. -/
theorem C24_importance_round (argsort : List ℝ → List Nat) (ha : IsArgsort argsort)
    (err : Nat → List Nat → Nat → ℝ) (nsplit step d n : Nat) (hn : (n + 1) * step ≤ d) (st : St)
    (hst : rounds argsort (importanceEntry err) nsplit step n (St.init d) = .ok st) :
    ∃ st' elim, round argsort (importanceEntry err) nsplit step st = .ok st' ∧
      st'.output = st.output ++ elim ∧ elim.length = step ∧
      (elim.map Prod.fst ++ st'.survivors).Perm st.survivors ∧ st'.survivors.Sublist st.survivors ∧
      elim.Pairwise (fun p q => p.2 ≤ q.2) ∧
      (∀ p ∈ elim, p.2 = ((List.range nsplit).map fun k => err k st.survivors p.1).sum / nsplit) ∧
      (∀ p ∈ elim, ∀ f ∈ st'.survivors,
        p.2 ≤ ((List.range nsplit).map fun k => err k st.survivors f).sum / nsplit) := by
  have hle : n * step ≤ d := le_trans (Nat.mul_le_mul_right _ (by omega)) hn
  obtain ⟨st1, h0, hi⟩ := rounds_inv argsort ha (importanceEntry err) nsplit step d n 0 (St.init d)
    (inv_init d step) (by rwa [zero_add])
  rw [h0] at hst
  cases hst
  rw [zero_add] at hi
  have hs := hi.surv
  rw [Nat.add_mul] at hn
  obtain ⟨elim, keep, hr, hel, hperm, hsub, hsort, hsc, hmin⟩ :=
    round_spec argsort ha (importanceEntry err) nsplit step st hi.total (by omega)
  have hg : ∀ x (h : x < st.survivors.length), st.survivors.getD x 0 = st.survivors[x] := by
    intro i hi
    rw [List.getD_eq_getElem?_getD, List.getElem?_eq_getElem hi]; rfl
  refine ⟨_, elim, hr, rfl, hel, hperm, hsub, hsort, ?_, ?_⟩
  · intro p hp
    obtain ⟨x, hx, h1, h2⟩ := hsc p hp
    rw [h2, h1, mean]
    simp only [importanceEntry, hg x hx]
  · intro p hp f hf
    obtain ⟨x, hx, h1, h2⟩ := hmin f hf
    have := h2 p hp
    rw [mean] at this
    simp only [importanceEntry, hg x hx] at this
    rw [h1]
    exact this

/-- An argsort that satisfies the assumption exists (a stable sort of the positions). -/
theorem isArgsort_exists : ∃ argsort, IsArgsort argsort := by
  refine ⟨fun l => (List.range l.length).insertionSort fun i j => l.getD i 0 ≤ l.getD j 0, fun l => ⟨?_, ?_⟩⟩
  · exact List.perm_insertionSort _ _
  · have : Std.Total (α := Nat) fun i j => l.getD i 0 ≤ l.getD j 0 := ⟨fun i j => le_total _ _⟩
    have : IsTrans Nat fun i j => l.getD i 0 ≤ l.getD j 0 := ⟨fun i j k h1 h2 => le_trans h1 h2⟩
    exact List.pairwise_insertionSort _ _

/-- The hypotheses of the C24 theorems are met by 5 features, step 2, two folds, at the second round. -/
example : ∃ argsort, IsArgsort argsort ∧ (0 : Nat) < 2 ∧ (0 : Nat) < 5 ∧ (1 + 1) * 2 ≤ 5 ∧
    ∃ st, rounds argsort (greedyEntry fun k cols => k + cols.sum) 2 2 1 (St.init 5) = .ok st := by
  obtain ⟨a, ha⟩ := isArgsort_exists
  obtain ⟨st, h, -⟩ := rounds_inv a ha (greedyEntry fun k cols => k + cols.sum) 2 2 5 1 0 (St.init 5)
    (inv_init 5 2) (by decide)
  exact ⟨a, ha, by decide, by decide, by decide, st, h⟩

/-! ### C25: crash and resume -/

/-- A file a killed run can leave behind, when it was killed at any moment outside a write: the file it started from or
one written at the end of a round.  `split` is the (random) split of the run that starts without a file; each restart comes
with a split of its own. -/
inductive Reachable {X D : Type} (argsort : List ℝ → List Nat) (err : D → Nat → List Nat → ℝ)
    (split : X → D) (width : X → Nat) (nsplit step : Nat) (data : X) : File D → Prop
  | start : Reachable argsort err split width nsplit step data .absent
  | killed (f f' : File D) (split' : X → D) (out : List (Nat × ℝ)) (tr : List (File D)) :
      Reachable argsort err split width nsplit step data f → (f = .absent → split' = split) →
      greedySaved argsort err split' width nsplit step data f = .ok (out, tr) →
      f' ∈ tr → f' ≠ .torn → Reachable argsort err split width nsplit step data f'

private theorem roundsTrace_eq {D : Type} (argsort : List ℝ → List Nat)
    (entry : Nat → List Nat → Nat → ℝ) (nsplit step : Nat) (folds : D) (m : Nat) (st fin : St)
    (h : rounds argsort entry nsplit step m st = .ok fin) :
    ∃ tr, roundsTrace argsort entry nsplit step folds m st = .ok (fin, tr) ∧
      ∀ f ∈ tr, f = .torn ∨ ∃ k mid, 0 < k ∧ k ≤ m ∧ f = .saved mid folds ∧
        rounds argsort entry nsplit step k st = .ok mid ∧
        rounds argsort entry nsplit step (m - k) mid = .ok fin := by
  induction m generalizing st with
  | zero =>
    cases h
    exact ⟨[], rfl, by simp⟩
  | succ m ih =>
    rw [rounds] at h
    cases hr : round argsort entry nsplit step st with
    | error e => rw [hr] at h; cases h
    | ok st' =>
      rw [hr] at h
      obtain ⟨tr, htr, hall⟩ := ih st' h
      refine ⟨.torn :: .saved st' folds :: tr, ?_, ?_⟩
      · rw [roundsTrace, hr]
        simp only [bind, Except.bind, htr]
      · intro f hf
        rcases List.mem_cons.mp hf with rfl | hf
        · exact .inl rfl
        rcases List.mem_cons.mp hf with rfl | hf
        · right
          refine ⟨1, st', by omega, by omega, rfl, ?_, h⟩
          rw [rounds, hr]; rfl
        · rcases hall f hf with h' | ⟨k, mid, hk0, hkm, rfl, h1, h2⟩
          · exact .inl h'
          · right
            refine ⟨k + 1, mid, by omega, by omega, rfl, ?_, ?_⟩
            · rw [rounds, hr]; exact h1
            · rw [show m + 1 - (k + 1) = m - k by omega]; exact h2

/-- C25.  However often a greedy elimination is killed, at whatever moments outside the writing of the save
file, the restarted search returns the same (feature, score) list as the uninterrupted one, although each restarted run
would draw other folds. -/
theorem C25_resume {X D : Type} (argsort : List ℝ → List Nat) (ha : IsArgsort argsort)
    (err : D → Nat → List Nat → ℝ) (split : X → D) (width : X → Nat) (nsplit step : Nat)
    (hstep : 0 < step) (data : X) (hd : 0 < width data) (f : File D)
    (hf : Reachable argsort err split width nsplit step data f) (split' : X → D) (hsp : f = .absent → split' = split) :
    ∃ out tr tr', greedySaved argsort err split width nsplit step data .absent = .ok (out, tr) ∧
      greedySaved argsort err split' width nsplit step data f = .ok (out, tr') ∧
      (out.map Prod.fst).length = (width data - 1) / step * step := by
  set E := greedyEntry (err (split data)) with hE
  set d := width data with hdd
  set R := (d - 1) / step with hR
  obtain ⟨fin, hrun, hfin⟩ := run_spec argsort ha E nsplit step d hstep hd
  have hrun' : rounds argsort E nsplit step R (St.init d) = .ok fin := by
    unfold runFrom at hrun
    rw [if_neg (by omega)] at hrun
    exact hrun
  have hs0 : step ≠ 0 := by omega
  have hbase : ∀ (n : Nat) (st : St), n ≤ R → Inv d step n st →
      (st.total - 1) / step = R - n := by
    intro n st hn hi
    rw [hi.total, hi.surv.1, hR]
    rw [Nat.sub_right_comm, Nat.mul_comm, Nat.sub_mul_div]
  have key : ∀ f, Reachable argsort err split width nsplit step data f →
      f = .absent ∨ ∃ n st, n ≤ R ∧ f = .saved st (split data) ∧ Inv d step n st ∧
        rounds argsort E nsplit step (R - n) st = .ok fin := by
    intro f hf
    induction hf with
    | start => exact .inl rfl
    | killed g f' sp out tr hg hsp' hrun2 hmem hnt ih =>
      right
      -- the state from which that run started
      have hstart : ∃ n st, n ≤ R ∧ load sp width data g = .ok (split data, st) ∧ Inv d step n st ∧
          rounds argsort E nsplit step (R - n) st = .ok fin := by
        rcases ih with rfl | ⟨n, st, hn, rfl, hi, hr⟩
        · exact ⟨0, St.init d, Nat.zero_le _, by rw [hsp' rfl]; rfl, inv_init d step, hrun'⟩
        · exact ⟨n, st, hn, rfl, hi, hr⟩
      obtain ⟨n, st, hn, hl, hi, hr⟩ := hstart
      have htot := hbase n st hn hi
      obtain ⟨tr', htr', hall⟩ := roundsTrace_eq argsort E nsplit step (split data) (R - n) st fin hr
      have : greedySaved argsort err sp width nsplit step data g = .ok (fin.output, tr') := by
        unfold greedySaved
        rw [hl]
        simp only [bind, Except.bind, hs0, if_false, htot, ← hE, htr']
      rw [this] at hrun2
      cases hrun2
      rcases hall f' hmem with h | ⟨k, mid, hk0, hkm, rfl, h1, h2⟩
      · exact absurd h hnt
      · refine ⟨n + k, mid, by omega, rfl, ?_, by rwa [show R - (n + k) = R - n - k by omega]⟩
        have hRd : R * step < d := (rounds_total d step hstep hd).1
        obtain ⟨mid', hm', hi'⟩ := rounds_inv argsort ha E nsplit step d k n st hi (by
          have : (n + k) * step ≤ R * step := Nat.mul_le_mul_right _ (by omega)
          omega)
        rw [hm'] at h1
        cases h1
        exact hi'
  have hval : ∀ (sp : X → D) f, (f = .absent → sp = split) →
      (f = .absent ∨ ∃ n st, n ≤ R ∧ f = .saved st (split data) ∧ Inv d step n st ∧
        rounds argsort E nsplit step (R - n) st = .ok fin) →
      ∃ tr, greedySaved argsort err sp width nsplit step data f = .ok (fin.output, tr) := by
    intro sp f hsf hf
    have hstart : ∃ n st, n ≤ R ∧ load sp width data f = .ok (split data, st) ∧ Inv d step n st ∧
        rounds argsort E nsplit step (R - n) st = .ok fin := by
      rcases hf with rfl | ⟨n, st, hn, rfl, hi, hr⟩
      · exact ⟨0, St.init d, Nat.zero_le _, by rw [hsf rfl]; rfl, inv_init d step, hrun'⟩
      · exact ⟨n, st, hn, rfl, hi, hr⟩
    obtain ⟨n, st, hn, hl, hi, hr⟩ := hstart
    have htot := hbase n st hn hi
    obtain ⟨tr', htr', -⟩ := roundsTrace_eq argsort E nsplit step (split data) (R - n) st fin hr
    refine ⟨tr', ?_⟩
    unfold greedySaved
    rw [hl]
    simp only [bind, Except.bind, hs0, if_false, htot, ← hE, htr']
  obtain ⟨tr, htr⟩ := hval split .absent (fun _ => rfl) (.inl rfl)
  obtain ⟨tr', htr'⟩ := hval split' f hsp (key f hf)
  exact ⟨fin.output, tr, tr', htr, htr', by rw [List.length_map, hfin.len]⟩

/-- A file saved in the middle of a run is reachable, so the hypotheses of C25 are met non-trivially. -/
example : ∃ (argsort : List ℝ → List Nat) (f : File Unit), IsArgsort argsort ∧ (0 : Nat) < 1 ∧ f ≠ .absent ∧
    Reachable argsort (fun _ k cols => k + cols.sum) (fun _ : Unit => ()) (fun _ => 3) 2 1 () f := by
  obtain ⟨a, ha⟩ := isArgsort_exists
  obtain ⟨st', st, hr1, h2⟩ : ∃ st' st, round a (greedyEntry fun k cols => k + cols.sum) 2 1 (St.init 3) = .ok st' ∧
      round a (greedyEntry fun k cols => k + cols.sum) 2 1 st' = .ok st := by
    obtain ⟨st, hs, -⟩ := rounds_inv a ha (greedyEntry fun k cols => k + cols.sum) 2 1 3 2 0 (St.init 3)
      (inv_init 3 1) (by decide)
    simp only [rounds, bind, Except.bind] at hs
    cases h1 : round a (greedyEntry fun k cols => k + cols.sum) 2 1 (St.init 3) with
    | error e => rw [h1] at hs; cases hs
    | ok st' =>
      rw [h1] at hs
      simp only at hs
      cases h2 : round a (greedyEntry fun k cols => k + cols.sum) 2 1 st' with
      | error e => rw [h2] at hs; cases hs
      | ok st'' => exact ⟨st', st'', rfl, h2⟩
  refine ⟨a, .saved st' (), ha, by decide, by simp, ?_⟩
  refine .killed .absent _ _ st.output [.torn, .saved st' (), .torn, .saved st ()] .start (fun _ => rfl) ?_ (by simp) (by simp)
  simp [greedySaved, load, bind, Except.bind, St.init, roundsTrace] at hr1 h2 ⊢
  simp only [hr1, h2]

private theorem roundsTrace_ne_absent {D : Type} (argsort : List ℝ → List Nat) (entry : Nat → List Nat → Nat → ℝ) (nsplit step : Nat) (folds : D) (m : Nat) (st : St)
    (p : St × List (File D)) (h : roundsTrace argsort entry nsplit step folds m st = .ok p) : ∀ f ∈ p.2, f ≠ .absent := by
  induction m generalizing st p with
  | zero =>
    cases h
    simp
  | succ m ih =>
    rw [roundsTrace] at h
    cases h1 : round argsort entry nsplit step st with
    | error e => rw [h1] at h; cases h
    | ok st' =>
      rw [h1] at h
      simp only [bind, Except.bind] at h
      cases h2 : roundsTrace argsort entry nsplit step folds m st' with
      | error e => rw [h2] at h; cases h
      | ok q =>
        rw [h2] at h
        cases h
        intro f hf
        rcases List.mem_cons.mp hf with rfl | hf
        · exact fun h => by cases h
        · rcases List.mem_cons.mp hf with rfl | hf
          · exact fun h => by cases h
          · exact ih st' q h2 f hf

/-- C88 (partial: kills outside the writing of the save file).  Whatever kills came before, a run that is killed at any moment can be restarted, with the result of the uninterrupted
run, exactly if it was not killed while the file was being written. -/
theorem C88_restart_partial {X D : Type} (argsort : List ℝ → List Nat) (ha : IsArgsort argsort)
    (err : D → Nat → List Nat → ℝ) (split : X → D) (width : X → Nat) (nsplit step : Nat)
    (hstep : 0 < step) (data : X) (hd : 0 < width data) (f : File D)
    (hf : Reachable argsort err split width nsplit step data f) (split' : X → D) (hsp : f = .absent → split' = split) :
    ∃ out tr tr', greedySaved argsort err split width nsplit step data .absent = .ok (out, tr) ∧
      greedySaved argsort err split' width nsplit step data f = .ok (out, tr') ∧
      ∀ f' ∈ tr', ∀ split'' : X → D, (∃ tr'', greedySaved argsort err split'' width nsplit step data f' = .ok (out, tr'')) ↔ f' ≠ .torn := by
  obtain ⟨out, tr, tr', h1, h2, _⟩ := C25_resume argsort ha err split width nsplit step hstep data hd f hf split' hsp
  refine ⟨out, tr, tr', h1, h2, fun f' hf' split'' => ⟨?_, fun hne => ?_⟩⟩
  · rintro ⟨tr'', h⟩ rfl
    cases h
  · have hab : f' ≠ .absent := by
      unfold greedySaved at h2
      cases hl : load split' width data f with
      | error e => rw [hl] at h2; cases h2
      | ok q =>
        rw [hl] at h2
        simp only [bind, Except.bind, if_neg hstep.ne'] at h2
        cases hr : roundsTrace argsort (greedyEntry (err q.1)) nsplit step q.1 ((q.2.total - 1) / step) q.2 with
        | error e => rw [hr] at h2; cases h2
        | ok p =>
          rw [hr] at h2
          cases h2
          exact roundsTrace_ne_absent _ _ _ _ _ _ _ _ hr f' hf'
    obtain ⟨out2, _, tr2, h3, h4, _⟩ := C25_resume argsort ha err split width nsplit step hstep data hd f'
      (.killed f f' split' out tr' hf hsp h2 hf' hne) split'' (fun h => absurd h hab)
    rw [h1] at h3
    cases h3
    exact ⟨tr2, h4⟩

/-- C88 is violated: a run killed while the save file is being written cannot be restarted. -/
theorem C88_kill_any_time_violated {X D : Type} (argsort : List ℝ → List Nat) (ha : IsArgsort argsort)
    (err : D → Nat → List Nat → ℝ) (split : X → D) (width : X → Nat) (nsplit step : Nat)
    (hstep : 0 < step) (data : X) (hd : step < width data) :
    (∃ out tr, greedySaved argsort err split width nsplit step data .absent = .ok (out, tr) ∧ .torn ∈ tr) ∧
    greedySaved argsort err split width nsplit step data .torn = .error .value := by
  refine ⟨?_, rfl⟩
  obtain ⟨fin, hrun, hfin⟩ := run_spec argsort ha (greedyEntry (err (split data))) nsplit step (width data)
    hstep (by omega)
  unfold runFrom at hrun
  rw [if_neg (by omega)] at hrun
  have hs0 : step ≠ 0 := by omega
  have hpos : 0 < (width data - 1) / step := Nat.div_pos (by omega) hstep
  obtain ⟨m, hm⟩ : ∃ m, (width data - 1) / step = m + 1 := ⟨(width data - 1) / step - 1, by omega⟩
  have ht : (St.init (width data)).total = width data := rfl
  rw [ht] at hrun
  obtain ⟨tr, htr, -⟩ := roundsTrace_eq argsort (greedyEntry (err (split data))) nsplit step (split data)
    _ (St.init (width data)) fin hrun
  refine ⟨fin.output, tr, ?_, ?_⟩
  · unfold greedySaved load
    simp only [bind, Except.bind, hs0, if_false, ht, htr]
  · rw [hm, roundsTrace] at htr
    cases h1 : round argsort (greedyEntry (err (split data))) nsplit step (St.init (width data)) with
    | error e => rw [h1] at htr; cases htr
    | ok st' =>
      rw [h1] at htr
      simp only [bind, Except.bind] at htr
      cases h2 : roundsTrace argsort (greedyEntry (err (split data))) nsplit step (split data) m st' with
      | error e => rw [h2] at htr; cases htr
      | ok p =>
        rw [h2] at htr
        simp only [Except.ok.injEq, Prod.mk.injEq] at htr
        rw [← htr.2]; simp

example : ∃ argsort, IsArgsort argsort ∧ (0 : Nat) < 1 ∧ (1 : Nat) < 3 := by
  obtain ⟨a, ha⟩ := isArgsort_exists
  exact ⟨a, ha, by decide, by decide⟩

/-- C89 (partial: a save file that is absent or was left by runs on the same data).  Then the result is the one that features and targets give without a save file; two such files lead to
the same result. -/
theorem C89_own_file_partial {X D : Type} (argsort : List ℝ → List Nat) (ha : IsArgsort argsort)
    (err : D → Nat → List Nat → ℝ) (split : X → D) (width : X → Nat) (nsplit step : Nat)
    (hstep : 0 < step) (data : X) (hd : 0 < width data) :
    ∃ out, ∀ f, Reachable argsort err split width nsplit step data f →
      ∃ tr, greedySaved argsort err split width nsplit step data f = .ok (out, tr) := by
  obtain ⟨out, tr, _, h1, _⟩ := C25_resume argsort ha err split width nsplit step hstep data hd _ .start split (fun _ => rfl)
  refine ⟨out, fun f hf => ?_⟩
  obtain ⟨out2, _, tr2, h2, h3, _⟩ := C25_resume argsort ha err split width nsplit step hstep data hd f hf split (fun _ => rfl)
  rw [h1] at h2
  cases h2
  exact ⟨tr2, h3⟩

/-- C89 is violated: with the save file of an earlier search present, a search on different data does not return
what that data gives, but what the earlier data gives. -/
theorem C89_uses_given_data_violated {X D : Type} (argsort : List ℝ → List Nat) (ha : IsArgsort argsort)
    (err : D → Nat → List Nat → ℝ) (split : X → D) (width : X → Nat) (nsplit step : Nat)
    (hstep : 0 < step) (data data' : X) (hd : 0 < width data) (hd' : 0 < width data')
    (hdiff : (width data - 1) / step ≠ (width data' - 1) / step) (f : File D)
    (hf : Reachable argsort err split width nsplit step data f) (hfa : f ≠ .absent) :
    ∃ old new tr tr' tr'', greedySaved argsort err split width nsplit step data .absent = .ok (old, tr) ∧
      greedySaved argsort err split width nsplit step data' .absent = .ok (new, tr') ∧
      greedySaved argsort err split width nsplit step data' f = .ok (old, tr'') ∧ old ≠ new := by
  obtain ⟨old, tr, tr'', h1, h2, h3⟩ := C25_resume argsort ha err split width nsplit step hstep data hd f hf split
    fun _ => rfl
  obtain ⟨new, tr', _, h4, _, h5⟩ :=
    C25_resume argsort ha err split width nsplit step hstep data' hd' .absent .start split fun _ => rfl
  refine ⟨old, new, tr, tr', tr'', h1, h4, ?_, ?_⟩
  · rw [← h2]
    cases f with
    | absent => exact absurd rfl hfa
    | saved st folds => rfl
    | torn => rfl
  · rintro rfl
    rw [h3] at h5
    exact hdiff (Nat.eq_of_mul_eq_mul_right hstep h5)

/-- Two widths with different numbers of rounds (reachable files: see the example after C25). -/
example : (0 : Nat) < 1 ∧ (0 : Nat) < 3 ∧ (0 : Nat) < 5 ∧ (3 - 1) / 1 ≠ (5 - 1) / 1 := by decide

/-! ### C26: parallel runs -/

/-- C26 (partial): for every order in which the workers finish, the row of scores equals the serial one. -/
theorem C26_scores_schedule_partial {M : Type} (d : Nat) (e : Nat → ℝ) (info : Nat → Option M)
    (arrivals : List (Worker M))
    (hp : arrivals.Perm ((List.range d).map fun x => ⟨x, e x, info x⟩)) :
    (collect (List.replicate d 0) arrivals).1 =
      (collect (List.replicate d 0) ((List.range d).map fun x => (⟨x, e x, info x⟩ : Worker M))).1 ∧
    (collect (List.replicate d 0) arrivals).1 = (List.range d).map e ∧
    (collect (List.replicate d 0) arrivals).2.Perm ((List.range d).flatMap fun x => (info x).toList) := by
  have key : ∀ arr : List (Worker M), arr.Perm ((List.range d).map fun x => ⟨x, e x, info x⟩) →
      (collect (List.replicate d 0) arr).1 = (List.range d).map e := by
    intro arr hp
    have h1 : ∀ r ∈ arr, r.error = e r.pos := by
      intro r hr
      obtain ⟨x, _, rfl⟩ := List.mem_map.mp (hp.mem_iff.mp hr)
      rfl
    have h2 : ∀ x < d, x ∈ arr.map Worker.pos := by
      intro x hx
      rw [(hp.map Worker.pos).mem_iff]
      simpa using hx
    rw [collect_fst]
    apply List.ext_getElem
    · rw [scatter_length]; simp
    · intro x hx hx'
      have hxd : x < d := by simpa using hx'
      have := scatter_get e (List.replicate d 0) arr h1 x (by simpa using hxd)
      rw [if_pos (h2 x hxd), List.getD_eq_getElem?_getD, List.getElem?_eq_getElem hx] at this
      simpa using this
  refine ⟨(key arrivals hp).trans (key _ (List.Perm.refl _)).symm, key arrivals hp, ?_⟩
  unfold collect
  rw [collect_append, List.nil_append]
  have := hp.flatMap_right (fun r : Worker M => r.info.toList)
  refine this.trans (List.Perm.of_eq ?_)
  rw [List.flatMap_map]

example : ([⟨1, 5, some "b"⟩, ⟨0, 3, some "a"⟩] : List (Worker String)).Perm
    ((List.range 2).map fun x => ⟨x, if x = 0 then 3 else 5, some (if x = 0 then "a" else "b")⟩) := by
  simp [List.range_succ]
  exact List.Perm.swap _ _ _

/-- C26 is violated for the metadata: it is collected in the order in which the workers finish. -/
theorem C26_meta_schedule_violated :
    ∃ (e : Nat → ℝ) (info : Nat → Option Nat) (arrivals : List (Worker Nat)),
      arrivals.Perm ((List.range 2).map fun x => ⟨x, e x, info x⟩) ∧
      (collect (List.replicate 2 0) arrivals).2 ≠
        (collect (List.replicate 2 0) ((List.range 2).map fun x => (⟨x, e x, info x⟩ : Worker Nat))).2 := by
  refine ⟨fun _ => 0, some, [⟨1, 0, some 1⟩, ⟨0, 0, some 0⟩], ?_, ?_⟩
  · simp [List.range_succ]
    exact List.Perm.swap _ _ _
  · simp [collect, List.range_succ]

/-! ### C86, C87: metadata -/

/-- C86 is violated: whenever the user's predict function returns additional values, greedy elimination raises
an exception instead of reporting them. -/
theorem C86_greedy_metadata_violated (eliminated : Nat × ℝ) (info : List ℝ) :
    ∃ e, greedyRowMeta eliminated info = .error e := by
  unfold greedyRowMeta
  split
  · exact ⟨_, rfl⟩
  · exact ⟨_, rfl⟩

/-- C87 (partial): if the scores happen to be in ascending order of position already, each reported feature of
importance elimination comes with the fold-averaged metadata of that very feature (serial run). -/
theorem C87_metadata_partial (survivors : List Nat) (scores : List ℝ) (metas : List (List ℝ)) (step : Nat)
    (hs : step ≤ survivors.length) (g : Nat) (hg : g < step) :
    (importanceRows survivors scores (List.range survivors.length) metas step)[g]? =
      some (survivors.getD g 0, scores.getD g 0, (metas.map fun m => m.getD g 0).sum / metas.length) := by
  unfold importanceRows
  have : (List.range survivors.length).getD g 0 = g := by
    rw [List.getD_eq_getElem?_getD, List.getElem?_range (by omega)]; rfl
  rw [List.getElem?_map, List.getElem?_range hg, Option.map_some, this]

example : 1 ≤ [4, 7].length ∧ 0 < 1 := by decide

/-- C87 is violated: in a serial run over features 0 and 1, where feature 1 has the lower score and metadata 20
and feature 0 has metadata 10, feature 1 is eliminated and reported with the metadata of feature 0. -/
theorem C87_metadata_violated :
    importanceRows [0, 1] [2, 1] [1, 0] [[10, 20]] 1 = [(1, 1, 10)] := by
  simp [importanceRows]

/-! ### C29: perturbing a feature -/

private theorem setCol_get {V : Type} (X : List (List V)) (f : Nat) (c : List V) (hc : c.length = X.length)
    (i : Nat) (hi : i < X.length) :
    (setCol X f c)[i]? = some ((X[i]).set f (c[i]'(by omega))) := by
  unfold setCol
  rw [List.getElem?_eq_getElem (by simp; omega), List.getElem_zipWith]

/-- Both matrices agree outside column `f`. -/
def SameExcept {V : Type} (f : Nat) (X Y : List (List V)) : Prop :=
  Y.length = X.length ∧ ∀ (i : Nat) (x y : List V), X[i]? = some x → Y[i]? = some y →
    y.length = x.length ∧ ∀ j ≠ f, y[j]? = x[j]?

private theorem setCol_same {V : Type} (X : List (List V)) (f : Nat) (c : List V)
    (hc : c.length = X.length) : SameExcept f X (setCol X f c) := by
  refine ⟨by simp [setCol, hc], ?_⟩
  intro i x y hx hy
  have hi : i < X.length := (List.getElem?_eq_some_iff.mp hx).1
  rw [setCol_get X f c hc i hi] at hy
  rw [List.getElem?_eq_getElem hi] at hx
  simp only [Option.some.injEq] at hx hy
  subst hx; subst hy
  exact ⟨by simp, fun j hj => by rw [List.getElem?_set_ne (fun e => hj e.symm)]⟩

theorem getCol_length {V : Type} (X : List (List V)) (f d : Nat) (hX : ∀ r ∈ X, r.length = d)
    (hf : f < d) : (getCol X f).length = X.length := by
  induction X with
  | nil => rfl
  | cons r X ih =>
    have hr : f < r.length := by rw [hX r (by simp)]; exact hf
    have := ih fun r hr => hX r (by simp [hr])
    unfold getCol at this ⊢
    rw [List.filterMap_cons, List.getElem?_eq_getElem hr]
    simp [this]

private theorem getCol_setCol {V : Type} (X : List (List V)) (f d : Nat) (hX : ∀ r ∈ X, r.length = d)
    (hf : f < d) (c : List V) (hc : c.length = X.length) : getCol (setCol X f c) f = c := by
  induction X generalizing c with
  | nil => cases c with
    | nil => rfl
    | cons v c => simp at hc
  | cons r X ih =>
    cases c with
    | nil => simp at hc
    | cons v c =>
      have hr : f < r.length := by rw [hX r (by simp)]; exact hf
      have := ih (fun r hr => hX r (by simp [hr])) c (by simpa using hc)
      unfold getCol setCol at this ⊢
      rw [List.zipWith_cons_cons, List.filterMap_cons, List.getElem?_set_self hr]
      simp only [this]

/-- C29: shuffling a feature leaves the other columns alone and keeps the values of the shuffled column. -/
theorem C29_feature_shuffle {V : Type} (shuf1 shuf2 : List V → List V) (h1 : IsShuffle shuf1)
    (h2 : IsShuffle shuf2) (f d : Nat) (hf : f < d) (train test : List (List V))
    (htr : ∀ r ∈ train, r.length = d) (hte : ∀ r ∈ test, r.length = d) :
    SameExcept f train (featureShuffle shuf1 shuf2 f train test).1 ∧
    SameExcept f test (featureShuffle shuf1 shuf2 f train test).2 ∧
    ((featureShuffle shuf1 shuf2 f train test).1.filterMap fun r => r[f]?).Perm
      (train.filterMap fun r => r[f]?) ∧
    ((featureShuffle shuf1 shuf2 f train test).2.filterMap fun r => r[f]?).Perm
      (test.filterMap fun r => r[f]?) := by
  have l1 : (shuf1 (getCol train f)).length = train.length := by
    rw [(h1 _).length_eq, getCol_length train f d htr hf]
  have l2 : (shuf2 (getCol test f)).length = test.length := by
    rw [(h2 _).length_eq, getCol_length test f d hte hf]
  refine ⟨setCol_same _ _ _ l1, setCol_same _ _ _ l2, ?_, ?_⟩
  · have := getCol_setCol train f d htr hf _ l1
    unfold featureShuffle
    rw [show ∀ X : List (List V), (X.filterMap fun r => r[f]?) = getCol X f from fun _ => rfl, this]
    exact h1 _
  · have := getCol_setCol test f d hte hf _ l2
    unfold featureShuffle
    rw [show ∀ X : List (List V), (X.filterMap fun r => r[f]?) = getCol X f from fun _ => rfl, this]
    exact h2 _

/-- C29: making a feature invariant leaves the other columns alone and gives the feature one and the same value
in all training and test rows. -/
theorem C29_feature_invariance (sqrt : ℝ → ℝ) (f d : Nat) (hf : f < d) (train test : List (List ℝ))
    (htr : ∀ r ∈ train, r.length = d) (hte : ∀ r ∈ test, r.length = d) :
    SameExcept f train (featureInvariance sqrt f train test).1 ∧
    SameExcept f test (featureInvariance sqrt f train test).2 ∧
    ∃ v, ∀ r ∈ (featureInvariance sqrt f train test).1 ++ (featureInvariance sqrt f train test).2,
      r[f]? = some v := by
  unfold featureInvariance
  generalize colStats sqrt (getCol (train ++ test) f) = ms
  obtain ⟨m, s⟩ := ms
  simp only
  refine ⟨setCol_same _ _ _ (by simp), setCol_same _ _ _ (by simp), s + m, ?_⟩
  intro r hr
  rcases List.mem_append.mp hr with h | h
  · obtain ⟨i, hi, rfl⟩ := List.mem_iff_getElem.mp h
    have hi' : i < train.length := by simpa [setCol] using hi
    have := setCol_get train f (List.replicate train.length (s + m)) (by simp) i hi'
    rw [List.getElem?_eq_getElem hi] at this
    simp only [Option.some.injEq] at this
    rw [this, List.getElem?_set_self (by rw [htr _ (List.getElem_mem hi')]; exact hf), List.getElem_replicate]
  · obtain ⟨i, hi, rfl⟩ := List.mem_iff_getElem.mp h
    have hi' : i < test.length := by simpa [setCol] using hi
    have := setCol_get test f (List.replicate test.length (s + m)) (by simp) i hi'
    rw [List.getElem?_eq_getElem hi] at this
    simp only [Option.some.injEq] at this
    rw [this, List.getElem?_set_self (by rw [hte _ (List.getElem_mem hi')]; exact hf), List.getElem_replicate]

/-- C29: making a feature random leaves the other columns alone. -/
theorem C29_feature_randomize (sqrt : ℝ → ℝ) (f : Nat) (train test : List (List ℝ)) (r1 r2 : List ℝ)
    (h1 : r1.length = train.length) (h2 : r2.length = test.length) :
    SameExcept f train (featureRandomize sqrt f train test r1 r2).1 ∧
    SameExcept f test (featureRandomize sqrt f train test r1 r2).2 :=
  ⟨setCol_same _ _ _ (by simp [h1]), setCol_same _ _ _ (by simp [h2])⟩

example : IsShuffle (List.reverse (α := Nat)) ∧ (1 : Nat) < 2 ∧ (∀ r ∈ [[1, 2], [3, 4]], r.length = 2) ∧
    (featureShuffle List.reverse id 1 [[1, 2], [3, 4]] [[5, 6]]).1 = [[1, 4], [3, 2]] :=
  ⟨fun l => List.reverse_perm l, by decide, by decide, by decide⟩

end CatLearn.Props
