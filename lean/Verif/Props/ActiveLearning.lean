import Verif.Model.ActiveLearning
import Mathlib.Data.List.Nodup
import Mathlib.Data.List.Perm.Basic
import Mathlib.Tactic.Linarith

/-!
# Properties of the active-learning emulation (C31–C33, C97)
-/

namespace CatLearn.Props

open CatLearn CatLearn.AL

/-- A surrogate model that proposes distinct, existing candidates, whatever data it is given. -/
def ValidSurrogate {R S : Type} (surrogate : List R → List R → List Nat × S) : Prop :=
  ∀ tr te, (surrogate tr te).1.Nodup ∧ ∀ i ∈ (surrogate tr te).1, i < te.length

theorem al_testIndex_perm (n : Nat) (train : List Nat) (hn : train.Nodup) (hb : ∀ i ∈ train, i < n) :
    (train ++ testIndex n train).Perm (List.range n) := by
  unfold testIndex
  rw [List.perm_ext_iff_of_nodup]
  · intro i
    simp only [List.mem_append, List.mem_filter, List.mem_range, List.contains_eq_mem,
      Bool.not_eq_true', decide_eq_false_iff_not]
    constructor
    · rintro (h | h)
      · exact hb i h
      · exact h.1
    · intro h
      by_cases hi : i ∈ train
      · exact .inl hi
      · exact .inr ⟨h, hi⟩
  · rw [List.nodup_append']
    refine ⟨hn, List.nodup_range.filter _, ?_⟩
    intro i hi hi'
    simp at hi'
    exact hi'.2 hi
  · exact List.nodup_range

theorem al_filterMap_get {V : Type} (l : List V) (idx : List Nat) (hb : ∀ i ∈ idx, i < l.length) :
    (idx.filterMap fun i => l[i]?).map some = idx.map fun i => l[i]? := by
  induction idx with
  | nil => rfl
  | cons i idx ih =>
    rw [List.filterMap_cons, List.getElem?_eq_getElem (hb i (by simp))]
    simp only [List.map_cons, List.getElem?_eq_getElem (hb i (by simp))]
    rw [ih fun j hj => hb j (by simp [hj])]

theorem al_filterMap_len {V : Type} (l : List V) (idx : List Nat) (hb : ∀ i ∈ idx, i < l.length) :
    (idx.filterMap fun i => l[i]?).length = idx.length := by
  have := congrArg List.length (al_filterMap_get l idx hb)
  simpa using this

theorem al_filterMap_nodup (l idx : List Nat) (hl : l.Nodup) (hi : idx.Nodup)
    (hb : ∀ i ∈ idx, i < l.length) : (idx.filterMap fun i => l[i]?).Nodup := by
  have h1 : (idx.map fun i => l[i]?).Nodup := by
    refine List.Nodup.map_on ?_ hi
    intro a ha b hb' he
    rw [List.getElem?_eq_getElem (hb a ha), List.getElem?_eq_getElem (hb b hb')] at he
    exact (List.Nodup.getElem_inj_iff hl).mp (Option.some.inj he)
  rw [← al_filterMap_get l idx hb] at h1
  exact List.Nodup.of_map _ h1

/-- What is true of every iteration. -/
structure StepOk {R S : Type} (surrogate : List R → List R → List Nat × S) (rows : List R) (batch : Nat)
    (s : Step) : Prop where
  perm : (s.train ++ s.test).Perm (List.range rows.length)
  sub : ∀ i ∈ s.acquired, i ∈ s.test
  nodup : s.acquired.Nodup
  acq : s.acquired.map some =
    ((surrogate (s.train.filterMap fun i => rows[i]?) (s.test.filterMap fun i => rows[i]?)).1.take
      (min batch s.test.length)).map fun i => s.test[i]?

private theorem take_min_eq {α : Type} (l : List α) (a b n : Nat) (h : l.length ≤ n) :
    l.take (min (min a n) b) = l.take (min a b) := by
  rcases le_total a n with h' | h'
  · rw [min_eq_left h']
  · rw [min_eq_right h']
    rcases le_total n b with h2 | h2
    · rw [min_eq_left h2, List.take_of_length_le h, List.take_of_length_le]
      exact le_trans h (le_min h' h2)
    · rw [min_eq_right h2, min_eq_right (le_trans h2 h')]

theorem al_nodup_length_le (l : List Nat) (n : Nat) (hn : l.Nodup) (hb : ∀ i ∈ l, i < n) : l.length ≤ n := by
  have : l.Subperm (List.range n) := List.subperm_of_subset hn fun i hi => by simpa using hb i hi
  simpa using this.length_le

theorem al_loop_spec {R S : Type} (stop : Bool) (surrogate : List R → List R → List Nat × S)
    (hs : ValidSurrogate surrogate) (rows : List R) (k batch : Nat) (train : List Nat) (hn : train.Nodup)
    (hb : ∀ i ∈ train, i < rows.length) :
    ∃ scores steps final, loop stop surrogate rows k batch train = .ok (scores, steps, final) ∧
      (∀ s ∈ steps, StepOk surrogate rows batch s) ∧ scores.length = steps.length ∧ steps.length ≤ k ∧
      final = train ++ (steps.flatMap Step.acquired) ∧ final.Nodup ∧ (∀ i ∈ final, i < rows.length) ∧
      (∀ j s, steps[j]? = some s → s.train = train ++ ((steps.take j).flatMap Step.acquired)) := by
  induction k generalizing batch train with
  | zero =>
    refine ⟨[], [], train, rfl, ?_, rfl, le_rfl, by simp, hn, hb, ?_⟩ <;> simp
  | succ k ih =>
    have hperm := al_testIndex_perm rows.length train hn hb
    set test := testIndex rows.length train with htest
    have hg : gather rows train = .ok (train.filterMap fun i => rows[i]?) := by
      unfold gather; rw [if_pos hb]
    rw [loop, hg]
    simp only [← htest]
    by_cases h0 : test.length = 0
    · rw [if_pos h0]
      refine ⟨[], [], train, rfl, ?_, rfl, by simp, by simp, hn, hb, ?_⟩ <;> simp
    rw [if_neg h0]
    set batch' := if test.length < batch then test.length else batch with hb'
    have hbm : batch' = min batch test.length := by
      rw [hb']; split
      · rw [min_eq_right (by omega)]
      · rw [min_eq_left (by omega)]
    have htb : ∀ i ∈ test, i < rows.length := by
      intro i hi
      have := hperm.mem_iff.mp (List.mem_append_right _ hi)
      simpa using this
    have htn : test.Nodup := by
      have := hperm.nodup_iff.mpr List.nodup_range
      exact (List.nodup_append'.mp this).2.1
    have hdis : ∀ i ∈ train, i ∉ test := by
      have := hperm.nodup_iff.mpr List.nodup_range
      exact fun i h1 h2 => (List.nodup_append'.mp this).2.2 h1 h2
    obtain ⟨sample, score, hsur⟩ : ∃ a b, surrogate (train.filterMap fun i => rows[i]?)
      (test.filterMap fun i => rows[i]?) = (a, b) := ⟨_, _, rfl⟩
    have hsv := hs (train.filterMap fun i => rows[i]?) (test.filterMap fun i => rows[i]?)
    rw [hsur, al_filterMap_len rows test htb] at hsv
    simp only at hsv
    simp only [hsur]
    have hgs : ∀ i ∈ sample.take batch', i < test.length := fun i hi => hsv.2 i (List.mem_of_mem_take hi)
    set acquired := (sample.take batch').filterMap fun i => test[i]? with hacq
    have hga : gather test (sample.take batch') = .ok acquired := by
      unfold gather; rw [if_pos hgs]
    rw [hga]
    simp only
    have hsub : ∀ i ∈ acquired, i ∈ test := by
      intro i hi
      obtain ⟨j, _, hj⟩ := List.mem_filterMap.mp hi
      exact List.mem_of_getElem? hj
    have hanod : acquired.Nodup := al_filterMap_nodup test _ htn (hsv.1.sublist (List.take_sublist _ _)) hgs
    by_cases hst : stop = true ∧ acquired = []
    · rw [if_pos hst]
      refine ⟨[], [], train, rfl, ?_, rfl, by simp, by simp, hn, hb, ?_⟩ <;> simp
    rw [if_neg hst]
    have hn' : (train ++ acquired).Nodup := by
      rw [List.nodup_append']
      exact ⟨hn, hanod, fun i h1 h2 => hdis i h1 (hsub i h2)⟩
    have hb'' : ∀ i ∈ train ++ acquired, i < rows.length := by
      intro i hi
      rcases List.mem_append.mp hi with h | h
      · exact hb i h
      · exact htb i (hsub i h)
    obtain ⟨scores, steps, final, h1, h2, h3, h4, h5, h6, h7, h8⟩ := ih batch' (train ++ acquired) hn' hb''
    have hok : StepOk surrogate rows batch ⟨train, test, acquired⟩ := by
      refine ⟨hperm, hsub, hanod, ?_⟩
      simp only [hsur, ← hbm]
      exact al_filterMap_get test _ hgs
    refine ⟨score :: scores, ⟨train, test, acquired⟩ :: steps, final, by rw [h1], ?_, by simp [h3],
      by simp only [List.length_cons]; omega, ?_, h6, h7, ?_⟩
    · intro s hs'
      rcases List.mem_cons.mp hs' with rfl | hs'
      · exact hok
      · obtain ⟨p1, p2, p3, p4⟩ := h2 s hs'
        refine ⟨p1, p2, p3, ?_⟩
        rw [p4, hbm]
        congr 1
        -- every later candidate list is shorter than this one
        obtain ⟨j, hj, rfl⟩ := List.mem_iff_getElem.mp hs'
        have ht := h8 j _ (List.getElem?_eq_getElem hj)
        have hl1 : steps[j].train.length + steps[j].test.length = rows.length := by
          simpa using p1.length_eq
        have hl2 : train.length + test.length = rows.length := by simpa using hperm.length_eq
        have hl3 : train.length ≤ steps[j].train.length := by rw [ht]; simp
        have hv := hs (steps[j].train.filterMap fun i => rows[i]?) (steps[j].test.filterMap fun i => rows[i]?)
        have htb' : ∀ i ∈ steps[j].test, i < rows.length := by
          intro i hi
          have := p1.mem_iff.mp (List.mem_append_right _ hi)
          simpa using this
        rw [al_filterMap_len rows _ htb'] at hv
        have hlen := al_nodup_length_le _ _ hv.1 hv.2
        exact take_min_eq _ _ _ _ (by omega)
    · rw [h5]; simp
    · intro j s hj
      cases j with
      | zero =>
        simp only [List.getElem?_cons_zero, Option.some.injEq] at hj
        subst hj; simp
      | succ j =>
        rw [List.getElem?_cons_succ] at hj
        rw [h8 j s hj]; simp

/-- C31.  For every data set, valid initial subset, batch size and number of iterations, and every surrogate model
proposing existing candidates: the emulation ends without error, and in every iteration training and candidate
indices are disjoint and together all rows; the acquired points are the first `batch` proposals, all of them
candidates, none twice; and the training set of each iteration is the initial subset plus everything acquired
before. -/
theorem C31_partition {R S : Type} (stop : Bool) (surrogate : List R → List R → List Nat × S)
    (hs : ValidSurrogate surrogate) (rows : List R) (initial : List Nat) (hn : initial.Nodup)
    (hb : ∀ i ∈ initial, i < rows.length) (batch : Nat) (hbatch : 0 < batch) (nMax : Option Nat) :
    ∃ scores steps final, run stop surrogate rows (some initial) batch nMax = .ok (scores, steps, final) ∧
      (∀ s ∈ steps, (s.train ++ s.test).Perm (List.range rows.length) ∧ (∀ i ∈ s.acquired, i ∈ s.test) ∧
        s.acquired.Nodup ∧
        s.acquired.map some = ((surrogate (s.train.filterMap fun i => rows[i]?)
          (s.test.filterMap fun i => rows[i]?)).1.take (min batch s.test.length)).map fun i => s.test[i]?) ∧
      (∀ j s, steps[j]? = some s → s.train = initial ++ (steps.take j).flatMap Step.acquired) ∧
      scores.length = steps.length ∧ final = initial ++ steps.flatMap Step.acquired ∧ final.Nodup := by
  obtain ⟨scores, steps, final, h1, h2, h3, h4, h5, h6, h7, h8⟩ := al_loop_spec stop surrogate hs rows
    (nMax.getD rows.length / batch) batch initial hn hb
  refine ⟨scores, steps, final, ?_, ?_, h8, h3, h5, h6⟩
  · unfold run
    rw [if_neg (by omega)]
    exact h1
  · intro s hs'
    obtain ⟨p1, p2, p3, p4⟩ := h2 s hs'
    exact ⟨p1, p2, p3, p4⟩

/-- C31 for the default initial subset, the first `max(batch, 2)` rows, if there are so many. -/
theorem C31_default_subset {R S : Type} (stop : Bool) (surrogate : List R → List R → List Nat × S)
    (hs : ValidSurrogate surrogate) (rows : List R) (batch : Nat) (hbatch : 0 < batch) (hl : max batch 2 ≤ rows.length)
    (nMax : Option Nat) :
    ∃ scores steps final, run stop surrogate rows none batch nMax = .ok (scores, steps, final) ∧
      (∀ s ∈ steps, (s.train ++ s.test).Perm (List.range rows.length) ∧ (∀ i ∈ s.acquired, i ∈ s.test) ∧
        s.acquired.Nodup ∧ s.acquired.length ≤ batch) ∧
      (∀ j s, steps[j]? = some s → s.train = List.range (max batch 2) ++ (steps.take j).flatMap Step.acquired) ∧
      scores.length = steps.length ∧ final = List.range (max batch 2) ++ steps.flatMap Step.acquired ∧ final.Nodup := by
  obtain ⟨scores, steps, final, h1, h2, h3, h4, h5, h6⟩ := C31_partition stop surrogate hs rows (List.range (max batch 2))
    List.nodup_range (fun i hi => by have := List.mem_range.mp hi; omega) batch hbatch nMax
  refine ⟨scores, steps, final, h1, fun s hs' => ?_, h3, h4, h5, h6⟩
  obtain ⟨p1, p2, p3, p4⟩ := h2 s hs'
  refine ⟨p1, p2, p3, ?_⟩
  have := congrArg List.length p4
  simp only [List.length_map, List.length_take] at this
  omega

/-- C31: `acquire` returns distinct rows of the unlabelled data, at most `batch_size` of them: the first the model proposes,
all it proposes if these are fewer, and the score of the model. -/
theorem C31_acquire {R S : Type} (surrogate : List R → List R → List Nat × S) (hs : ValidSurrogate surrogate)
    (train unlabeled : List R) (batch : Nat) :
    ∃ sample, acquire surrogate train unlabeled batch = (sample, (surrogate train unlabeled).2) ∧ sample.Nodup ∧
      (∀ i ∈ sample, i < unlabeled.length) ∧ sample.length = min batch (surrogate train unlabeled).1.length ∧
      sample.IsPrefix (surrogate train unlabeled).1 := by
  obtain ⟨h1, h2⟩ := hs train unlabeled
  exact ⟨(surrogate train unlabeled).1.take batch, rfl, h1.sublist (List.take_sublist _ _),
    fun i hi => h2 i (List.mem_of_mem_take hi), by simp, List.take_prefix _ _⟩

/-- C31: in an emulation, the rows acquired in each iteration are the rows `acquire` proposes for the same training data and
candidates. -/
theorem C31_emulates_acquire {R S : Type} (stop : Bool) (surrogate : List R → List R → List Nat × S)
    (hs : ValidSurrogate surrogate) (rows : List R) (initial : List Nat) (hn : initial.Nodup)
    (hb : ∀ i ∈ initial, i < rows.length) (batch : Nat) (hbatch : 0 < batch) (nMax : Option Nat) :
    ∃ scores steps final, run stop surrogate rows (some initial) batch nMax = .ok (scores, steps, final) ∧
      ∀ s ∈ steps, s.acquired.map some = ((acquire surrogate (s.train.filterMap fun i => rows[i]?)
        (s.test.filterMap fun i => rows[i]?) batch).1).map fun i => s.test[i]? := by
  obtain ⟨scores, steps, final, h1, h2, -⟩ := C31_partition stop surrogate hs rows initial hn hb batch hbatch nMax
  refine ⟨scores, steps, final, h1, fun s hs' => ?_⟩
  obtain ⟨hp, -, -, ha⟩ := h2 s hs'
  rw [ha]
  obtain ⟨h3, h4⟩ := hs (s.train.filterMap fun i => rows[i]?) (s.test.filterMap fun i => rows[i]?)
  have htest : (s.test.filterMap fun i => rows[i]?).length = s.test.length :=
    al_filterMap_len rows s.test fun i hi => by
      have := hp.mem_iff.mp (List.mem_append_right s.train hi)
      simpa using this
  have hle : (surrogate (s.train.filterMap fun i => rows[i]?) (s.test.filterMap fun i => rows[i]?)).1.length ≤
      s.test.length := by
    rw [← htest]
    have := (List.subperm_of_subset h3 (l₂ := List.range (s.test.filterMap fun i => rows[i]?).length)
      fun i hi => by simpa using h4 i hi).length_le
    simpa using this
  show _ = (List.take batch _).map _
  congr 1
  rcases le_total batch s.test.length with hc | hc
  · rw [min_eq_left hc]
  · rw [min_eq_right hc, List.take_of_length_le hle, List.take_of_length_le (hle.trans hc)]

/-- A surrogate model that always proposes all candidates in order is valid. -/
example : ValidSurrogate (R := Nat) (fun tr te => (List.range te.length, tr.length)) ∧
    ([1, 0] : List Nat).Nodup ∧ (∀ i ∈ [1, 0], i < [5, 6, 7, 8].length) :=
  ⟨fun _ _ => ⟨List.nodup_range, by simp⟩, by decide, by decide⟩

/-! ### C32: ensembles -/

/-- C32 (partial): when no initial subset is given, every member of a serial ensemble is the run it would be on
its own. -/
theorem C32_independent_default_partial {R S : Type} (surrogate : List R → List R → List Nat × S) (batch : Nat)
    (nMax : Option Nat) (members : List (List R)) (out : List (List S × List Step))
    (h : ensembleSerial surrogate batch nMax none members = .ok out) :
    out.length = members.length ∧ ∀ (j : Nat) (rows : List R), members[j]? = some rows →
      ∃ final r, run false surrogate rows none batch nMax = .ok (r.1, r.2, final) ∧ out[j]? = some r := by
  induction members generalizing out with
  | nil =>
    cases h
    simp
  | cons rows rest ih =>
    rw [ensembleSerial] at h
    cases hr : run false surrogate rows none batch nMax with
    | error e => rw [hr] at h; cases h
    | ok v =>
      obtain ⟨sc, st, fin⟩ := v
      rw [hr] at h
      simp only [Option.map_none] at h
      cases he : ensembleSerial surrogate batch nMax none rest with
      | error e => rw [he] at h; cases h
      | ok out' =>
        rw [he] at h
        cases h
        obtain ⟨h1, h2⟩ := ih out' he
        refine ⟨by simp [h1], ?_⟩
        intro j rows' hj
        cases j with
        | zero =>
          simp only [List.getElem?_cons_zero, Option.some.injEq] at hj
          subst hj
          exact ⟨fin, (sc, st), hr, rfl⟩
        | succ j =>
          rw [List.getElem?_cons_succ] at hj
          obtain ⟨f, r, h3, h4⟩ := h2 j rows' hj
          exact ⟨f, r, h3, by rw [List.getElem?_cons_succ]; exact h4⟩

example : ∃ out, ensembleSerial (R := Nat) (fun tr te => (List.range te.length, tr.length)) 1 none none
    [[1, 2, 3], [3, 2, 1]] = .ok out := ⟨_, rfl⟩

/-- C32 is violated: given an initial subset, the second member of a serial ensemble does not start from it: with
four rows and initial subset [0, 1] the second member has nothing left to test. -/
theorem C32_shared_subset_violated :
    ∃ (surrogate : List Nat → List Nat → List Nat × Nat) (steps : List Step),
      ValidSurrogate surrogate ∧
      ensembleSerial surrogate 1 none (some [0, 1]) [[5, 6, 7, 8], [5, 6, 7, 8]]
        = .ok [([2, 3], steps), ([], [])] ∧
      run false surrogate [5, 6, 7, 8] (some [0, 1]) 1 none = .ok ([2, 3], steps, [0, 1, 2, 3]) :=
  ⟨fun tr te => (List.range te.length, tr.length), [⟨[0, 1], [2, 3], [2]⟩, ⟨[0, 1, 2], [3], [3]⟩],
    fun _ _ => ⟨List.nodup_range, by simp⟩, by decide +kernel, by decide +kernel⟩

/-- C32 is violated in general: every member after the first starts from the list its predecessor has grown. -/
theorem C32_starts_grown_violated {R S : Type} (surrogate : List R → List R → List Nat × S) (batch : Nat)
    (nMax : Option Nat) (initial : List Nat) (rows rows' : List R) (rest : List (List R))
    (sc : List S) (st : List Step) (fin : List Nat)
    (h : run false surrogate rows (some initial) batch nMax = .ok (sc, st, fin))
    (sc' : List S) (st' : List Step) (fin' : List Nat)
    (h' : run false surrogate rows' (some fin) batch nMax = .ok (sc', st', fin'))
    (out : List (List S × List Step))
    (he : ensembleSerial surrogate batch nMax (some initial) (rows :: rows' :: rest) = .ok out) :
    out[1]? = some (sc', st') := by
  rw [ensembleSerial, h] at he
  simp only [Option.map_some] at he
  rw [ensembleSerial, h'] at he
  simp only [Option.map_some] at he
  cases hr : ensembleSerial surrogate batch nMax (some fin') rest with
  | error e => rw [hr] at he; cases he
  | ok o => rw [hr] at he; cases he; rfl

/-! ### C33: order of the results -/

/-- C33 (partial): for every order of arrival the parallel ensemble returns the results of all members, each
computed independently from the initial subset. -/
theorem C33_all_results_partial {R S : Type} (surrogate : List R → List R → List Nat × S)
    (initial : Option (List Nat)) (batch : Nat) (nMax : Option Nat) (members arrival : List (List R))
    (h : arrival.Perm members) :
    (ensembleParallel surrogate initial batch nMax arrival).Perm
      (members.map fun rows => (run false surrogate rows initial batch nMax).map fun r => r.1) :=
  h.map _

example : ([[2], [1]] : List (List Nat)).Perm [[1], [2]] := by decide

/-- C33 is violated: the order of the results is the order of arrival. -/
theorem C33_order_violated :
    ∃ (surrogate : List Nat → List Nat → List Nat × List Nat) (members arrival : List (List Nat)),
      arrival.Perm members ∧
      ensembleParallel surrogate none 1 none arrival ≠
        members.map fun rows => (run false surrogate rows none 1 none).map fun r => r.1 := by
  refine ⟨fun tr te => (List.range te.length, tr), [[1, 2, 3], [4, 5, 6]], [[4, 5, 6], [1, 2, 3]],
    List.Perm.swap _ _ _, ?_⟩
  intro h
  have := congrArg (fun l => l.map Except.toOption) h
  revert this
  decide +kernel

/-! ### C97: the limit on the training set -/

/-- C97 (partial): if the initial subset is at most one batch, no iteration trains on more than `n_max` points. -/
theorem C97_n_max_partial {R S : Type} (stop : Bool) (surrogate : List R → List R → List Nat × S)
    (hs : ValidSurrogate surrogate) (rows : List R) (initial : List Nat) (hn : initial.Nodup)
    (hb : ∀ i ∈ initial, i < rows.length) (batch nMax : Nat) (hbatch : 0 < batch) (hi : initial.length ≤ batch) :
    ∃ scores steps final, run stop surrogate rows (some initial) batch (some nMax) = .ok (scores, steps, final) ∧
      ∀ s ∈ steps, s.train.length ≤ nMax := by
  obtain ⟨scores, steps, final, h1, h2, h3, h4, h5, h6, h7, h8⟩ := al_loop_spec stop surrogate hs rows
    (nMax / batch) batch initial hn hb
  refine ⟨scores, steps, final, ?_, ?_⟩
  · unfold run
    rw [if_neg (by omega)]
    exact h1
  · intro s hs'
    obtain ⟨j, hj, rfl⟩ := List.mem_iff_getElem.mp hs'
    rw [h8 j _ (List.getElem?_eq_getElem hj)]
    have hacq : ∀ s ∈ steps, s.acquired.length ≤ batch := by
      intro s hs'
      obtain ⟨_, _, _, p4⟩ := h2 s hs'
      have := congrArg List.length p4
      simp at this
      omega
    have hsum : ∀ l : List Step, (∀ s ∈ l, s.acquired.length ≤ batch) →
        (l.flatMap Step.acquired).length ≤ l.length * batch := by
      intro l
      induction l with
      | nil => simp
      | cons a l ih =>
        intro h
        have h1 := ih fun s hs => h s (by simp [hs])
        have h2 := h a (by simp)
        simp only [List.flatMap_cons, List.length_append, List.length_cons, Nat.add_mul]
        omega
    have h9 := hsum (steps.take j) fun s hs => hacq s (List.mem_of_mem_take hs)
    have h10 : (steps.take j).length = j := by simp; omega
    rw [h10] at h9
    have h11 : (j + 1) * batch ≤ nMax / batch * batch := Nat.mul_le_mul_right _ (by omega)
    have h12 := Nat.div_mul_le_self nMax batch
    rw [Nat.add_mul] at h11
    rw [List.length_append]
    omega

example : ([3] : List Nat).length ≤ 1 ∧ (∀ i ∈ [3], i < [5, 6, 7, 8].length) := by decide

/-- C97 is violated with the default initial subset and batches of one: for a limit of 3 training points, the
third iteration trains on 4. -/
theorem C97_n_max_violated :
    ∃ (surrogate : List Nat → List Nat → List Nat × Nat) (scores : List Nat) (steps : List Step) (final : List Nat),
      ValidSurrogate surrogate ∧
      run true surrogate [5, 6, 7, 8, 9, 10] none 1 (some 3) = .ok (scores, steps, final) ∧
      ∃ s ∈ steps, s.train.length = 4 :=
  ⟨fun tr te => (List.range te.length, tr.length), [2, 3, 4],
    [⟨[0, 1], [2, 3, 4, 5], [2]⟩, ⟨[0, 1, 2], [3, 4, 5], [3]⟩, ⟨[0, 1, 2, 3], [4, 5], [4]⟩],
    [0, 1, 2, 3, 4], fun _ _ => ⟨List.nodup_range, by simp⟩, by decide +kernel,
    ⟨[0, 1, 2, 3], [4, 5], [4]⟩, by simp, rfl⟩

end CatLearn.Props
