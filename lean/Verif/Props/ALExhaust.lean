import Verif.Props.ActiveLearning

/-!
# Emulations of active learning that go through all the data (C228)
-/

namespace CatLearn.Props

open CatLearn CatLearn.AL

/-- A surrogate model that ranks all the candidates it is given, each once. -/
def RankingSurrogate {R S : Type} (surrogate : List R → List R → List Nat × S) : Prop :=
  ∀ tr te, (surrogate tr te).1.Perm (List.range te.length)

theorem RankingSurrogate.valid {R S : Type} {surrogate : List R → List R → List Nat × S}
    (h : RankingSurrogate surrogate) : ValidSurrogate surrogate := fun tr te =>
  ⟨(h tr te).nodup_iff.mpr List.nodup_range, fun i hi => by simpa using (h tr te).mem_iff.mp hi⟩

/-- One iteration with a ranking surrogate model. -/
private theorem loop_step {R S : Type} (stop : Bool) (surrogate : List R → List R → List Nat × S)
    (hs : RankingSurrogate surrogate) (rows : List R) (k batch : Nat) (train : List Nat) (hn : train.Nodup)
    (hb : ∀ i ∈ train, i < rows.length) (hbatch : 0 < batch) :
    (train.length = rows.length ∧ loop stop surrogate rows (k + 1) batch train = .ok ([], [], train)) ∨
    (train.length < rows.length ∧ ∃ score acquired,
      acquired.length = min batch (rows.length - train.length) ∧ (train ++ acquired).Nodup ∧
      (∀ i ∈ train ++ acquired, i < rows.length) ∧
      loop stop surrogate rows (k + 1) batch train =
        (loop stop surrogate rows k (min batch (rows.length - train.length)) (train ++ acquired)).map fun r =>
          (score :: r.1, ⟨train, testIndex rows.length train, acquired⟩ :: r.2.1, r.2.2)) := by
  have hperm := al_testIndex_perm rows.length train hn hb
  have htl : (testIndex rows.length train).length = rows.length - train.length := by
    have := hperm.length_eq
    simp only [List.length_append, List.length_range] at this
    omega
  have hle : train.length ≤ rows.length := by
    have := hperm.length_eq
    simp only [List.length_append, List.length_range] at this
    omega
  have hg : gather rows train = .ok (train.filterMap fun i => rows[i]?) := by
    unfold gather; rw [if_pos hb]
  set test := testIndex rows.length train with htest
  have htb : ∀ i ∈ test, i < rows.length := by
    intro i hi
    have := hperm.mem_iff.mp (List.mem_append_right _ hi)
    simpa using this
  have hnd := hperm.nodup_iff.mpr List.nodup_range
  rcases Nat.lt_or_ge train.length rows.length with hlt | hge
  · right
    refine ⟨hlt, ?_⟩
    obtain ⟨sample, score, hsur⟩ : ∃ a b, surrogate (train.filterMap fun i => rows[i]?)
      (test.filterMap fun i => rows[i]?) = (a, b) := ⟨_, _, rfl⟩
    have hsv := hs (train.filterMap fun i => rows[i]?) (test.filterMap fun i => rows[i]?)
    rw [hsur, al_filterMap_len rows test htb] at hsv
    simp only at hsv
    have hsl : sample.length = test.length := by simpa using hsv.length_eq
    set b' := min batch (rows.length - train.length) with hb'
    have hgs : ∀ i ∈ sample.take b', i < test.length := fun i hi => by
      simpa using hsv.mem_iff.mp (List.mem_of_mem_take hi)
    have hga : gather test (sample.take b') = .ok ((sample.take b').filterMap fun i => test[i]?) := by
      unfold gather; rw [if_pos hgs]
    have hal : ((sample.take b').filterMap fun i => test[i]?).length = b' := by
      rw [al_filterMap_len test _ hgs, List.length_take, hsl, htl]
      omega
    have hsub : ∀ i ∈ (sample.take b').filterMap (fun i => test[i]?), i ∈ test := by
      intro i hi
      obtain ⟨j, _, hj⟩ := List.mem_filterMap.mp hi
      exact List.mem_of_getElem? hj
    refine ⟨score, (sample.take b').filterMap fun i => test[i]?, hal, ?_, ?_, ?_⟩
    · rw [List.nodup_append']
      refine ⟨hn, al_filterMap_nodup test _ (List.nodup_append'.mp hnd).2.1
        ((hsv.nodup_iff.mpr List.nodup_range).sublist (List.take_sublist _ _)) hgs, ?_⟩
      intro i h1 h2
      exact (List.nodup_append'.mp hnd).2.2 h1 (hsub i h2)
    · intro i hi
      rcases List.mem_append.mp hi with h | h
      · exact hb i h
      · exact htb i (hsub i h)
    · rw [loop, hg]
      simp only [← htest, hsur]
      rw [if_neg (by omega)]
      have hbb : (if test.length < batch then test.length else batch) = b' := by
        rw [hb', htl]; split <;> omega
      rw [hbb, hga]
      simp only
      rw [if_neg]
      · cases loop stop surrogate rows k b' (train ++ (sample.take b').filterMap fun i => test[i]?) <;> rfl
      · rintro ⟨_, h⟩
        rw [h] at hal
        simp at hal
        omega
  · left
    refine ⟨by omega, ?_⟩
    rw [loop, hg]
    simp only [← htest]
    rw [if_pos (by omega)]

private theorem loop_count {R S : Type} (stop : Bool) (surrogate : List R → List R → List Nat × S)
    (hs : RankingSurrogate surrogate) (rows : List R) (k batch : Nat) (train : List Nat) (hn : train.Nodup)
    (hb : ∀ i ∈ train, i < rows.length) (hbatch : 0 < batch) :
    ∃ scores steps final, loop stop surrogate rows k batch train = .ok (scores, steps, final) ∧
      final.length = min rows.length (train.length + k * batch) ∧ scores.length = steps.length ∧
      steps.length = min k ((rows.length - train.length + (batch - 1)) / batch) := by
  induction k generalizing batch train with
  | zero =>
    refine ⟨[], [], train, rfl, ?_, rfl, by simp⟩
    have := al_nodup_length_le train rows.length hn hb
    simp; omega
  | succ k ih =>
    rcases loop_step stop surrogate hs rows k batch train hn hb hbatch with ⟨hl, h⟩ | ⟨hl, score, acq, ha, hn', hb', h⟩
    · refine ⟨[], [], train, h, by rw [hl]; omega, rfl, ?_⟩
      rw [hl, Nat.sub_self, Nat.zero_add, Nat.div_eq_of_lt (by omega)]
      simp
    · obtain ⟨sc, st, fin, h1, h2, h3, h4⟩ := ih (min batch (rows.length - train.length)) (train ++ acq) hn' hb' (by omega)
      rw [h, h1]
      refine ⟨score :: sc, _ :: st, fin, rfl, ?_, by simp [h3], ?_⟩
      · rw [h2, List.length_append, ha]
        rcases Nat.le_total batch (rows.length - train.length) with hle | hle
        · rw [min_eq_left hle, Nat.succ_mul]
          omega
        · rw [min_eq_right hle, Nat.succ_mul]
          have : train.length + (rows.length - train.length) = rows.length := by omega
          rw [this]
          omega
      · rw [List.length_cons, h4, List.length_append, ha]
        rcases Nat.le_total batch (rows.length - train.length) with hle | hle
        · rw [min_eq_left hle]
          have e1 : rows.length - train.length + (batch - 1) = (rows.length - (train.length + batch) + (batch - 1)) + batch := by
            omega
          rw [e1, Nat.add_div_right _ hbatch]
          omega
        · rw [min_eq_right hle]
          have e1 : rows.length - (train.length + (rows.length - train.length)) = 0 := by omega
          rw [e1, Nat.zero_add, Nat.div_eq_of_lt (by omega)]
          have e2 : rows.length - train.length + (batch - 1) = (rows.length - train.length - 1) + batch := by omega
          rw [e2, Nat.add_div_right _ hbatch, Nat.div_eq_of_lt (by omega)]
          omega

/-- C228, in part.  If the initial subset is at least one batch (or the loop is long enough anyway), an emulation without a limit with a
surrogate model that ranks all candidates acquires every row exactly once, in as many rounds as full batches, and a last smaller one,
require. -/
theorem C228_all_acquired_partial {R S : Type} (stop : Bool) (surrogate : List R → List R → List Nat × S)
    (hs : RankingSurrogate surrogate) (rows : List R) (initial : List Nat) (hn : initial.Nodup)
    (hb : ∀ i ∈ initial, i < rows.length) (batch : Nat) (hbatch : 0 < batch)
    (hi : rows.length ≤ initial.length + rows.length / batch * batch) :
    ∃ scores steps final, run stop surrogate rows (some initial) batch none = .ok (scores, steps, final) ∧
      final.Perm (List.range rows.length) ∧ scores.length = steps.length ∧
      steps.length * batch < rows.length - initial.length + batch ∧ rows.length - initial.length ≤ steps.length * batch := by
  obtain ⟨scores, steps, final, h1, h2, h3, h4⟩ := loop_count stop surrogate hs rows (rows.length / batch) batch initial hn hb hbatch
  obtain ⟨_, _, _, h1', _, _, _, _, h6, h7, _⟩ := al_loop_spec stop surrogate hs.valid rows (rows.length / batch) batch initial hn hb
  rw [h1] at h1'
  cases h1'
  have hr : run stop surrogate rows (some initial) batch none = .ok (scores, steps, final) := by
    unfold run
    rw [if_neg (by omega)]
    exact h1
  refine ⟨scores, steps, final, hr, ?_, h3, ?_⟩
  · have hlen : final.length = rows.length := by omega
    have hsub : final.Subperm (List.range rows.length) := List.subperm_of_subset h6 fun i hi => by simpa using h7 i hi
    exact hsub.perm_of_length_le (by simp [hlen])
  · have hk : (rows.length - initial.length + (batch - 1)) / batch ≤ rows.length / batch := by
      rw [Nat.div_le_iff_le_mul_add_pred hbatch, Nat.mul_comm]
      omega
    rw [h4, min_eq_right hk]
    set m := rows.length - initial.length
    have e1 := Nat.div_add_mod (m + (batch - 1)) batch
    have e2 := Nat.mod_lt (m + (batch - 1)) hbatch
    rw [Nat.mul_comm] at e1
    constructor <;> omega

/-- C228 with the default initial subset: every data set with at least `max(batch, 2)` rows is gone through completely. -/
theorem C228_all_acquired_default {R S : Type} (stop : Bool) (surrogate : List R → List R → List Nat × S)
    (hs : RankingSurrogate surrogate) (rows : List R) (batch : Nat) (hbatch : 0 < batch) (hl : max batch 2 ≤ rows.length) :
    ∃ scores steps final, run stop surrogate rows none batch none = .ok (scores, steps, final) ∧
      final.Perm (List.range rows.length) ∧ scores.length = steps.length ∧
      steps.length * batch < rows.length - max batch 2 + batch ∧ rows.length - max batch 2 ≤ steps.length * batch := by
  have h := C228_all_acquired_partial stop surrogate hs rows (List.range (max batch 2)) List.nodup_range
    (fun i hi => by simp at hi; omega) batch hbatch (by
      have e1 := Nat.div_add_mod rows.length batch
      have e2 := Nat.mod_lt rows.length hbatch
      rw [Nat.mul_comm] at e1
      simp only [List.length_range]
      omega)
  rw [List.length_range] at h
  exact h

/-- C228: smaller data sets cannot be emulated with the default subset. -/
theorem C228_too_few_rows {R S : Type} (stop : Bool) (surrogate : List R → List R → List Nat × S) (rows : List R)
    (batch : Nat) (hbatch : 0 < batch) (hl : rows.length < max batch 2) (hb : batch ≤ rows.length) :
    run stop surrogate rows none batch none = .error .index := by
  unfold run
  rw [if_neg (by omega)]
  obtain ⟨k, hk⟩ : ∃ k, rows.length / batch = k + 1 := by
    have : 1 ≤ rows.length / batch := (Nat.le_div_iff_mul_le hbatch).mpr (by omega)
    exact ⟨rows.length / batch - 1, by omega⟩
  simp only [Option.getD_none, hk, loop]
  have : gather rows (List.range (max batch 2)) = .error .index := by
    unfold gather
    rw [if_neg]
    intro h
    have := h (max batch 2 - 1) (List.mem_range.mpr (by omega))
    omega
  rw [this]

/-- C228: with such a surrogate model `test_acquisition` and the members of `ensemble_test` do the same. -/
theorem C228_same_loop {R S : Type} (surrogate : List R → List R → List Nat × S) (hs : RankingSurrogate surrogate)
    (rows : List R) (initial : List Nat) (hn : initial.Nodup) (hb : ∀ i ∈ initial, i < rows.length) (batch : Nat)
    (nMax : Option Nat) :
    run true surrogate rows (some initial) batch nMax = run false surrogate rows (some initial) batch nMax := by
  unfold run
  by_cases h0 : batch = 0
  · rw [if_pos h0, if_pos h0]
  rw [if_neg h0, if_neg h0]
  simp only [Option.getD_some]
  generalize nMax.getD rows.length / batch = k
  induction k generalizing batch initial with
  | zero => rfl
  | succ k ih =>
    have hg : gather rows initial = .ok (initial.filterMap fun i => rows[i]?) := by
      unfold gather; rw [if_pos hb]
    have hperm := al_testIndex_perm rows.length initial hn hb
    rw [loop, loop, hg]
    simp only
    split
    · rfl
    · rename_i h1
      set b' := if (testIndex rows.length initial).length < batch then (testIndex rows.length initial).length else batch with hb'
      have hpos : b' ≠ 0 := by rw [hb']; split <;> omega
      have htb : ∀ i ∈ testIndex rows.length initial, i < rows.length := by
        intro i hi
        have := hperm.mem_iff.mp (List.mem_append_right _ hi)
        simpa using this
      have hsv := hs (initial.filterMap fun i => rows[i]?) ((testIndex rows.length initial).filterMap fun i => rows[i]?)
      rw [al_filterMap_len rows _ htb] at hsv
      generalize surrogate (initial.filterMap fun i => rows[i]?) ((testIndex rows.length initial).filterMap fun i => rows[i]?) = p at hsv
      obtain ⟨sample, score⟩ := p
      simp only at hsv ⊢
      have hgs : ∀ i ∈ sample.take b', i < (testIndex rows.length initial).length := fun i hi => by
        simpa using hsv.mem_iff.mp (List.mem_of_mem_take hi)
      have hga : gather (testIndex rows.length initial) (sample.take b') =
          .ok ((sample.take b').filterMap fun i => (testIndex rows.length initial)[i]?) := by
        unfold gather; rw [if_pos hgs]
      rw [hga]
      simp only
      have hnd := hperm.nodup_iff.mpr List.nodup_range
      have hsub : ∀ i ∈ (sample.take b').filterMap (fun i => (testIndex rows.length initial)[i]?),
          i ∈ testIndex rows.length initial := by
        intro i hi
        obtain ⟨j, _, hj⟩ := List.mem_filterMap.mp hi
        exact List.mem_of_getElem? hj
      rw [if_neg, if_neg (by simp)]
      · rw [ih (initial ++ _) ?_ ?_ b' hpos]
        · rw [List.nodup_append']
          refine ⟨hn, al_filterMap_nodup _ _ (List.nodup_append'.mp hnd).2.1
            ((hsv.nodup_iff.mpr List.nodup_range).sublist (List.take_sublist _ _)) hgs, ?_⟩
          intro i h1 h2
          exact (List.nodup_append'.mp hnd).2.2 h1 (hsub i h2)
        · intro i hi
          rcases List.mem_append.mp hi with h | h
          · exact hb i h
          · exact htb i (hsub i h)
      · rintro ⟨_, h⟩
        have := al_filterMap_len (testIndex rows.length initial) _ hgs
        rw [h, List.length_take, hsv.length_eq, List.length_range] at this
        simp at this
        omega

/-- The surrogate model that proposes the candidates in order ranks all of them. -/
example : RankingSurrogate (R := Nat) (fun tr te => (List.range te.length, tr.length)) ∧ ([1, 0] : List Nat).Nodup ∧
    (∀ i ∈ [1, 0], i < [5, 6, 7, 8].length) ∧ [5, 6, 7, 8].length ≤ [1, 0].length + [5, 6, 7, 8].length / 2 * 2 :=
  ⟨fun _ _ => List.Perm.refl _, by decide, by decide, by decide⟩

/-- C228 is violated for an initial subset smaller than a batch: the number of rounds is the number of rows divided by the batch size,
rounded down, and rows remain that are never acquired. -/
theorem C228_small_subset_violated :
    ∃ (surrogate : List Nat → List Nat → List Nat × Nat) (scores : List Nat) (steps : List Step) (final : List Nat),
      RankingSurrogate surrogate ∧ run true surrogate [5, 6, 7, 8, 9] (some [0]) 3 none = .ok (scores, steps, final) ∧
      4 ∉ final :=
  ⟨fun tr te => (List.range te.length, tr.length), [1], [⟨[0], [1, 2, 3, 4], [1, 2, 3]⟩], [0, 1, 2, 3],
    fun _ _ => List.Perm.refl _, by decide +kernel, by decide⟩

/-- C228 is violated if the surrogate model may stop proposing candidates: `test_acquisition` then ends, while a member of
`ensemble_test` repeats the same round up to the end, so the two report different lists for the same emulation. -/
theorem C228_empty_proposal_violated :
    ∃ (surrogate : List Nat → List Nat → List Nat × Nat) (scores scores' : List Nat) (steps steps' : List Step) (final : List Nat),
      ValidSurrogate surrogate ∧ run true surrogate [5, 6, 7, 8] none 1 none = .ok (scores, steps, final) ∧
      run false surrogate [5, 6, 7, 8] none 1 none = .ok (scores', steps', final) ∧ scores.length = 0 ∧ scores'.length = 4 :=
  ⟨fun tr _ => ([], tr.length), [], [2, 2, 2, 2], [], List.replicate 4 ⟨[0, 1], [2, 3], []⟩, [0, 1],
    fun _ _ => ⟨List.nodup_nil, by simp⟩, by decide +kernel, by decide +kernel, rfl, rfl⟩

end CatLearn.Props
