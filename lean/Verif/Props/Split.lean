import Verif.Model.Split
import Verif.Lemmas.Py
import Mathlib.Data.List.Nodup
import Mathlib.Data.List.Perm.Basic
import Mathlib.Data.List.Range
import Mathlib.Tactic.Linarith

/-!
# Learning curves and data splits: C68, C69, C70
-/

namespace CatLearn.Split

open CatLearn

variable {X Y T R A : Type}

/-! ## C68: learning curves -/

theorem lastSlice_length {α : Type} (k : ℕ) (l : List α) : (lastSlice k l).length = if k = 0 then l.length else min k l.length := by
  unfold lastSlice
  split
  · rfl
  · simp; omega

/-- C68 (partial: all iterations but the first): iteration `x` trains on the last `x * step` rows with their own
targets; there are `(n - min_data) // step` iterations. -/
theorem C68_partial (model : List X → List Y → T → R) (train : List X) (target : List Y) (test : T)
    (step minData : ℕ) (hs : 0 < step) (hlen : target.length = train.length) :
    ∃ out, run model train target test step minData none = .ok out ∧
      out.length = (train.length - minData) / step ∧
      ∀ x, 0 < x → x < out.length → ∃ tr tg, out[x]? = some (model tr tg test) ∧ tr.length = x * step ∧
        tg.length = x * step ∧ tr <:+ train ∧ tg <:+ target ∧
        tr.zip tg = (train.zip target).drop (train.length - x * step) := by
  refine ⟨_, by rw [run, if_neg (by omega), Option.getD_none], by simp [total], fun x hx hx' => ?_⟩
  simp only [List.length_map, List.length_range, total] at hx'
  have hle : x * step ≤ train.length := by
    have h1 : x * step ≤ (train.length - minData) / step * step := Nat.mul_le_mul_right _ hx'.le
    have h2 := Nat.div_mul_le_self (train.length - minData) step
    omega
  have hk : x * step ≠ 0 := by positivity
  refine ⟨lastSlice (x * step) train, lastSlice (x * step) target, ?_, ?_, ?_, ?_, ?_, ?_⟩
  · simp [total, hx', singleTest]
  · rw [lastSlice_length, if_neg hk]; omega
  · rw [lastSlice_length, if_neg hk]; omega
  · rw [lastSlice, if_neg hk]; exact List.drop_suffix _ _
  · rw [lastSlice, if_neg hk]; exact List.drop_suffix _ _
  · rw [lastSlice, if_neg hk, lastSlice, if_neg hk, hlen, List.zip, List.drop_zipWith]

/-- C68 fails for the first iteration, which trains on all rows, and for the second, which trains on `step` rows even if
that is below `min_data`; the size `min_data` itself is used only if it is a multiple of the step, and the reported
sizes do not grow. -/
theorem C68_violated (model : List X → List Y → T → R) (train : List X) (target : List Y) (test : T)
    (step minData : ℕ) (hs : 0 < step) (hn : minData + 2 * step ≤ train.length) (hlen : target.length = train.length) :
    ∃ out, run model train target test step minData none = .ok out ∧ out[0]? = some (model train target test) ∧
      ∃ tr tg, out[1]? = some (model tr tg test) ∧ tr.length = step := by
  obtain ⟨out, h1, h2, h3⟩ := C68_partial model train target test step minData hs hlen
  have hl : 2 ≤ out.length := by
    rw [h2, Nat.le_div_iff_mul_le hs]
    omega
  refine ⟨out, h1, ?_, ?_⟩
  · rw [run, if_neg (by omega), Option.getD_none] at h1
    simp only [Except.ok.injEq] at h1
    have h0 : 0 < total train.length minData step := by
      unfold total
      rw [← h2]; omega
    rw [← h1]
    simp [h0, singleTest, lastSlice]
  · obtain ⟨tr, tg, h4, h5, _⟩ := h3 1 (by omega) (by omega)
    exact ⟨tr, tg, h4, by omega⟩

/-- Ten rows, step 1, `min_data` 2: the sizes are 10, 1, 2, …, 7. -/
example : run (fun tr _ _ => tr.length) (List.replicate 10 ()) (List.replicate 10 ()) () 1 2 none =
    .ok [10, 1, 2, 3, 4, 5, 6, 7] := by decide +kernel

/-- C68 (partial), parallel: the results are those of the serial run in the order in which the tasks finish. -/
theorem C68_parallel_partial (model : List X → List Y → T → R) (train : List X) (target : List Y) (test : T)
    (step minData : ℕ) (order : List ℕ) (ho : order.Perm (List.range ((train.length - minData) / step))) (out : List R)
    (h : run model train target test step minData none = .ok out) :
    ∃ out', run model train target test step minData (some order) = .ok out' ∧ out'.Perm out := by
  unfold run at h ⊢
  split at h
  · cases h
  · rename_i hs
    rw [if_neg hs]
    simp only [Except.ok.injEq, Option.getD_none] at h
    refine ⟨_, rfl, ?_⟩
    rw [← h, Option.getD_some]
    exact ho.map _

/-- C68 fails in parallel: another order of arrival gives another curve. -/
theorem C68_parallel_violated :
    run (fun tr _ _ => tr.length) (List.replicate 6 ()) (List.replicate 6 ()) () 1 2 none = .ok [6, 1, 2, 3] ∧
    run (fun tr _ _ => tr.length) (List.replicate 6 ()) (List.replicate 6 ()) () 1 2 (some [1, 0, 2, 3]) =
      .ok [1, 6, 2, 3] ∧ [1, 0, 2, 3].Perm (List.range 4) := by
  refine ⟨by decide +kernel, by decide +kernel, by decide⟩

/-! ## C69: hold-out set -/

/-- C69 (partial: the matrix only): for every shuffle the training and hold-out rows together are the rows of the
matrix, the hold-out set has `index` rows. -/
theorem C69_partial (matrix shuffled : List X) (hsh : shuffled.Perm matrix) (index : ℕ)
    (hi : index ≤ matrix.length) (target : List Y) :
    ((holdout shuffled index target).1 ++ (holdout shuffled index target).2.2.1).Perm matrix ∧
    (holdout shuffled index target).2.2.1.length = index ∧
    (holdout shuffled index target).1.length = matrix.length - index := by
  have hp := hsh
  refine ⟨?_, ?_, ?_⟩
  · simp only [holdout]
    refine List.perm_append_comm.trans ?_
    rw [List.take_append_drop]
    exact hp
  · simp only [holdout, List.length_take, hp.length_eq]; omega
  · simp only [holdout, List.length_drop, hp.length_eq]

/-- C69 fails for the targets: they have the sizes of the other set. -/
theorem C69_size_violated (shuffled : List X) (target : List Y) (hl : target.length = shuffled.length) (index : ℕ)
    (hi : 2 * index < shuffled.length) :
    (holdout shuffled index target).2.1.length ≠ (holdout shuffled index target).1.length := by
  simp only [holdout, List.length_take, List.length_drop]
  omega

/-- C69 fails even with equal sizes: the target of a row is the one of another row, whether or not the rows moved. -/
theorem C69_target_violated : holdout [10, 20] 1 [1, 2] = ([20], [1], [10], [2]) ∧
    holdout [20, 10] 1 [1, 2] = ([10], [1], [20], [2]) ∧ [20, 10].Perm [10, 20] := by
  refine ⟨rfl, rfl, ?_⟩
  decide

/-! ## C70: unique and training set -/

/-- Entries built from numbered structures. -/
def FromOrder (key : A → Option Y) (order : List (ℕ × A)) (out : List (Entry A Y)) : Prop :=
  List.Forall₂ (fun (p : ℕ × A) (e : Entry A Y) => e.index = p.1 ∧ e.atoms = p.2 ∧ key p.2 = some e.target) order out

theorem uniqueLoop_ok (key : A → Option Y) (size : ℕ) (order : List (ℕ × A)) (acc out : List (Entry A Y))
    (ha : acc.length ≤ size) (h : uniqueLoop key size order acc = .ok out) :
    ∃ new, out = acc ++ new ∧ FromOrder key (order.take (size - acc.length)) new := by
  induction order generalizing acc with
  | nil =>
    simp only [uniqueLoop, Except.ok.injEq] at h
    exact ⟨[], by simp [h], by simp [FromOrder]⟩
  | cons a rest ih =>
    rw [uniqueLoop] at h
    split at h
    · rename_i hlt
      split at h
      · cases h
      · rename_i y hy
        obtain ⟨new, h1, h2⟩ := ih _ (by simp; omega) h
        refine ⟨⟨a.1, a.2, y⟩ :: new, by simp [h1], ?_⟩
        rw [show size - acc.length = (size - (acc ++ [(⟨a.1, a.2, y⟩ : Entry A Y)]).length) + 1 by simp; omega,
          List.take_succ_cons]
        exact List.Forall₂.cons ⟨rfl, rfl, hy⟩ h2
    · rename_i hlt
      simp only [Except.ok.injEq] at h
      refine ⟨[], by simp [h], ?_⟩
      rw [show size - acc.length = 0 by omega]
      exact List.Forall₂.nil

/-- Whether `get_train` may use a structure. -/
def free (taken : Option (List ℕ)) (p : ℕ × A) : Bool :=
  match taken with
  | none => true
  | some t => decide (p.1 ∉ t)

/-- The first `s` elements, or all. -/
def takeOpt {α : Type} (s : Option ℕ) (l : List α) : List α :=
  match s with
  | none => l
  | some s => l.take s

/-- At most `s`, or all. -/
def minOpt (s : Option ℕ) (k : ℕ) : ℕ :=
  match s with
  | none => k
  | some s => min s k

theorem trainLoop_ok (key : A → Option Y) (size : Option ℕ) (taken : Option (List ℕ)) (order : List (ℕ × A))
    (acc out : List (Entry A Y)) (ha : ∀ s ∈ size, acc.length ≤ s) (h : trainLoop key size taken order acc = .ok out) :
    ∃ new, out = acc ++ new ∧ FromOrder key
      (takeOpt (size.map (· - acc.length)) (order.filter (free taken))) new := by
  induction order generalizing acc with
  | nil =>
    simp only [trainLoop, Except.ok.injEq] at h
    exact ⟨[], by simp [h], by cases size <;> simp [FromOrder, takeOpt]⟩
  | cons a rest ih =>
    rw [trainLoop] at h
    split at h
    · rename_i hs
      have hfree : (taken = none ∨ ∃ t ∈ taken, a.1 ∉ t) ↔ free taken a = true := by
        cases taken <;> simp [free]
      split at h
      · rename_i ht
        rw [List.filter_cons, if_pos (hfree.1 ht)]
        split at h
        · cases h
        · rename_i y hy
          obtain ⟨new, h1, h2⟩ := ih _ (by
            intro s hsm
            rcases hs with hs | ⟨s', hs', hlt⟩
            · rw [hs] at hsm; cases hsm
            · rw [hs'] at hsm; cases hsm; simp; omega) h
          refine ⟨⟨a.1, a.2, y⟩ :: new, by simp [h1], ?_⟩
          cases size with
          | none => exact List.Forall₂.cons ⟨rfl, rfl, hy⟩ h2
          | some s =>
            rcases hs with hs | ⟨s', hs', hlt⟩
            · cases hs
            · cases hs'
              simp only [takeOpt, Option.map_some] at h2 ⊢
              rw [show s - acc.length = (s - (acc ++ [(⟨a.1, a.2, y⟩ : Entry A Y)]).length) + 1 by simp; omega,
                List.take_succ_cons]
              exact List.Forall₂.cons ⟨rfl, rfl, hy⟩ h2
      · rename_i ht
        rw [List.filter_cons, if_neg (fun hh => ht (hfree.2 hh))]
        exact ih acc ha h
    · rename_i hs
      push Not at hs
      obtain ⟨hs1, hs2⟩ := hs
      obtain ⟨s, rfl⟩ := Option.ne_none_iff_exists'.1 hs1
      have hle := ha s rfl
      have hge := hs2 s rfl
      have heq : acc.length = s := le_antisymm hle hge
      rw [if_pos ⟨s, rfl, heq⟩] at h
      simp only [Except.ok.injEq] at h
      refine ⟨[], by simp [h], ?_⟩
      simp only [takeOpt, Option.map_some]
      rw [show s - acc.length = 0 by omega]
      exact List.Forall₂.nil

theorem fromOrder_index (key : A → Option Y) (order : List (ℕ × A)) (out : List (Entry A Y))
    (h : FromOrder key order out) : out.map Entry.index = order.map (·.1) := by
  induction h with
  | nil => rfl
  | cons h _ ih => simp [h.1, ih]

theorem fromOrder_mem (key : A → Option Y) (order : List (ℕ × A)) (out : List (Entry A Y))
    (h : FromOrder key order out) (e : Entry A Y) (he : e ∈ out) :
    (e.index, e.atoms) ∈ order ∧ key e.atoms = some e.target := by
  induction h with
  | nil => cases he
  | @cons p e' _ _ h _ ih =>
    rcases List.mem_cons.1 he with rfl | he
    · refine ⟨?_, by rw [h.2.1]; exact h.2.2⟩
      rw [h.1, h.2.1]; simp
    · exact ⟨List.mem_cons_of_mem _ (ih he).1, (ih he).2⟩

theorem enumerate_index (l : List A) : (enumerate l).map (·.1) = List.range l.length := by
  unfold enumerate
  rw [List.map_fst_zip]
  simp

theorem mem_enumerate (l : List A) (i : ℕ) (a : A) (h : (i, a) ∈ enumerate l) : l[i]? = some a := by
  unfold enumerate at h
  obtain ⟨k, hk, he⟩ := List.getElem_of_mem h
  rw [List.getElem_zip, Prod.mk.injEq] at he
  obtain ⟨h1, h2⟩ := he
  rw [List.getElem_range] at h1
  subst h1
  simp only [List.length_zip, List.length_range, min_self] at hk
  rw [List.getElem?_eq_getElem hk, h2]

theorem count_taken (order : List (ℕ × A)) (taken : List ℕ) (hnd : (order.map (·.1)).Nodup) (htn : taken.Nodup)
    (hsub : ∀ i ∈ taken, i ∈ order.map (·.1)) : (order.filter (free (some taken))).length = order.length - taken.length := by
  have h1 : (order.filter (free (some taken))).length = ((order.map (·.1)).filter (· ∉ taken)).length := by
    rw [List.filter_map, List.length_map]
    rfl
  have h2 := List.length_eq_length_filter_add (l := order.map (·.1)) (fun i => decide (i ∈ taken))
  have h3 : ((order.map (·.1)).filter (· ∈ taken)).Perm taken := by
    rw [List.perm_ext_iff_of_nodup (hnd.filter _) htn]
    intro i
    simp only [List.mem_filter, decide_eq_true_eq]
    exact ⟨fun h => h.2, fun h => ⟨hsub i h, h⟩⟩
  have h4 : ((order.map (·.1)).filter (· ∉ taken)) = (order.map (·.1)).filter fun i => !decide (i ∈ taken) :=
    List.filter_congr fun i _ => by simp
  rw [h1, h4]
  rw [List.length_map] at h2
  rw [h3.length_eq] at h2
  omega

/-- C70: for every shuffle in both calls: the test set has `min(size, n)` structures and the training set, told which
are taken, `min(size', n - taken)`, or all the rest for `size = None`; the numbers in both sets are distinct and
disjoint; every number belongs to its structure and every target to its structure. -/
theorem C70_disjoint (key : A → Option Y) (atoms : List A) (o1 o2 : List (ℕ × A)) (p1 : o1.Perm (enumerate atoms))
    (p2 : o2.Perm (enumerate atoms)) (size : ℕ) (size' : Option ℕ) (test train : List (Entry A Y))
    (ht : getUnique key size o1 = .ok test) (hr : getTrain key size' (some (test.map Entry.index)) o2 = .ok train) :
    test.length = min size atoms.length ∧
    train.length = minOpt size' (atoms.length - test.length) ∧
    ((test ++ train).map Entry.index).Nodup ∧
    ∀ e ∈ test ++ train, atoms[e.index]? = some e.atoms ∧ key e.atoms = some e.target := by
  have hlen : (enumerate atoms).length = atoms.length := by simp [enumerate]
  have hn1 : (o1.map (·.1)).Nodup := (p1.map _).nodup_iff.2 (by rw [enumerate_index]; exact List.nodup_range)
  have hn2 : (o2.map (·.1)).Nodup := (p2.map _).nodup_iff.2 (by rw [enumerate_index]; exact List.nodup_range)
  obtain ⟨new, hnew, hf⟩ := uniqueLoop_ok key size o1 [] test (by simp) ht
  simp only [List.nil_append, List.length_nil, Nat.sub_zero] at hnew hf
  subst hnew
  have hidx := fromOrder_index key _ _ hf
  have htl : test.length = min size atoms.length := by
    rw [← hf.length_eq, List.length_take, p1.length_eq, hlen]
  have htn : (test.map Entry.index).Nodup := by
    rw [hidx]
    exact hn1.sublist ((List.take_sublist _ _).map _)
  have hsub : ∀ i ∈ test.map Entry.index, i ∈ o2.map (·.1) := by
    intro i hi
    rw [hidx] at hi
    have : i ∈ o1.map (·.1) := ((List.take_sublist _ _).map _).subset hi
    exact ((p1.trans p2.symm).map _).subset this
  obtain ⟨new, hnew, hg⟩ := trainLoop_ok key size' (some (test.map Entry.index)) o2 [] train (by simp) hr
  simp only [List.nil_append, List.length_nil, Nat.sub_zero] at hnew hg
  subst hnew
  have hcount := count_taken o2 _ hn2 htn hsub
  rw [p2.length_eq, hlen, List.length_map] at hcount
  have hsl : ∃ l : List (ℕ × A), l.Sublist (o2.filter (free (some (test.map Entry.index)))) ∧ FromOrder key l train ∧
      l.length = minOpt size' (atoms.length - test.length) := by
    cases size' with
    | none => exact ⟨_, List.Sublist.refl _, hg, hcount⟩
    | some s => exact ⟨_, List.take_sublist s _, by simpa [takeOpt] using hg, by rw [List.length_take, hcount, minOpt]⟩
  obtain ⟨l, hl1, hl2, hl3⟩ := hsl
  have hidx2 := fromOrder_index key _ _ hl2
  refine ⟨htl, by rw [← hl2.length_eq, hl3], ?_, ?_⟩
  · rw [List.map_append, List.nodup_append]
    refine ⟨htn, ?_, ?_⟩
    · rw [hidx2]
      exact hn2.sublist ((hl1.trans List.filter_sublist).map _)
    · intro i hi j hj hij
      subst hij
      rw [hidx2] at hj
      obtain ⟨p, hp, rfl⟩ := List.mem_map.1 hj
      have := List.mem_filter.1 (hl1.subset hp)
      simp [free] at this
      obtain ⟨e, he, hei⟩ := List.mem_map.1 hi
      exact this.2 e he hei
  · intro e he
    rcases List.mem_append.1 he with he | he
    · obtain ⟨hm, hk⟩ := fromOrder_mem key _ _ hf e he
      exact ⟨mem_enumerate _ _ _ (p1.subset ((List.take_sublist _ _).subset hm)), hk⟩
    · obtain ⟨hm, hk⟩ := fromOrder_mem key _ _ hl2 e he
      exact ⟨mem_enumerate _ _ _ (p2.subset (List.mem_of_mem_filter (hl1.subset hm))), hk⟩

/-- C70: the calls succeed when every structure has the key, and a missing key of a used structure is a KeyError. -/
theorem C70_errors (key : A → Option Y) (size : ℕ) (o1 : List (ℕ × A)) :
    (∃ test, getUnique key size o1 = .ok test) ↔ ∀ p ∈ o1.take size, (key p.2).isSome := by
  have gen : ∀ acc : List (Entry A Y), acc.length ≤ size →
      ((∃ test, uniqueLoop key size o1 acc = .ok test) ↔ ∀ p ∈ o1.take (size - acc.length), (key p.2).isSome) := by
    induction o1 with
    | nil => intro acc _; simp [uniqueLoop]
    | cons a rest ih =>
      intro acc hacc
      rw [uniqueLoop]
      by_cases hlt : acc.length < size
      · rw [if_pos hlt, show size - acc.length = (size - (acc.length + 1)) + 1 by omega, List.take_succ_cons]
        cases hk : key a.2 with
        | none => simp [hk]
        | some y =>
          have := ih (acc ++ [⟨a.1, a.2, y⟩]) (by simp; omega)
          rw [List.length_append, List.length_singleton] at this
          simp [hk, this]
      · rw [if_neg hlt, show size - acc.length = 0 by omega]
        simp
  simpa [getUnique] using gen [] (by simp)

example : (getUnique (fun a : ℕ => some (a + 100)) 1 [(2, 30), (0, 10), (1, 20)]).toOption.map (·.map Entry.target) =
    some [130] ∧
    (getTrain (fun a : ℕ => some (a + 100)) none (some [2]) [(0, 10), (2, 30), (1, 20)]).toOption.map
      (·.map Entry.target) = some [110, 120] := by constructor <;> decide +kernel

end CatLearn.Split
