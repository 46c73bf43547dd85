import Verif.Model.GA
import Verif.Spec.GA
import Verif.Lemmas.Py
import Mathlib.Tactic.Linarith
import Mathlib.Data.List.Basic

/-!
# Properties of the genetic operators (C09, C10) and of the populations (C06, C07)
-/

namespace CatLearn.Props

open CatLearn CatLearn.GA CatLearn.Spec

/-! ### C09: mutation -/

/-- C09.  `random_permutation` flips exactly the gene at the drawn position and nothing else. -/
theorem C09_random_permutation (d : Nat) (p : Ind) (hp : WellFormed d p) (index : Nat)
    (hi : index < d) :
    WellFormed d (randomPermutation p index) ∧
    (∀ i, i ≠ index → (randomPermutation p index)[i]? = p[i]?) ∧
    (∀ g, p[index]? = some g → (randomPermutation p index)[index]? = some (1 - g)) := by
  obtain ⟨hl, hg⟩ := hp
  refine ⟨⟨by simp [randomPermutation, hl], ?_⟩, ?_, ?_⟩
  · intro g hgm
    rcases List.mem_or_eq_of_mem_set hgm with h | h
    · exact hg g h
    · subst h; split <;> simp
  · intro i hne
    simp [randomPermutation, List.getElem?_set_ne (Ne.symm hne)]
  · intro g hgi
    have hlt : index < p.length := by omega
    rw [randomPermutation, List.getElem?_set_self hlt, hgi]
    rcases hg g (List.mem_of_getElem? hgi) with rfl | rfl <;> simp

example : WellFormed 3 [1, 0, 1] ∧ randomPermutation [1, 0, 1] 1 = [1, 1, 1] :=
  ⟨⟨rfl, by decide⟩, by decide⟩

/-- C09.  `probability_include` only switches genes on, whatever is drawn: a gene that was on stays
on, and the length and the 0/1 values are kept. -/
theorem C09_probability_include (d : Nat) (p : Ind) (hp : WellFormed d p) (prob : Rat)
    (u : Nat → Rat) :
    WellFormed d (probabilityInclude p prob u) ∧
    ∀ i : Nat, p[i]? = some 1 → (probabilityInclude p prob u)[i]? = some 1 := by
  obtain ⟨hl, hg⟩ := hp
  refine ⟨⟨by simp [probabilityInclude, hl], ?_⟩, ?_⟩
  · intro g hgm
    obtain ⟨i, hi, rfl⟩ := List.mem_iff_getElem.mp hgm
    simp only [probabilityInclude, List.getElem_mapIdx]
    split
    · simp
    · exact hg _ (List.getElem_mem _)
  · intro i h1
    simp [probabilityInclude, List.getElem?_mapIdx, h1]

example : probabilityInclude [0, 1, 0] (1 / 2) (fun i => if i = 0 then 3 / 4 else 0) = [1, 1, 0] := by
  decide +kernel

private theorem removeLoop_le (u : Nat → Rat) (prob : Rat) (p : Ind) (i : Nat) (g : Nat)
    (h : (removeLoop u prob p)[i]? = some g) (hg : g ≠ 0) : p[i]? = some g := by
  simp only [removeLoop, List.getElem?_mapIdx, Option.map_eq_some_iff] at h
  obtain ⟨a, ha, he⟩ := h
  split at he
  · omega
  · rw [ha, he]

private theorem removeLoop_wf (u : Nat → Rat) (prob : Rat) (d : Nat) (p : Ind)
    (hp : WellFormed d p) : WellFormed d (removeLoop u prob p) := by
  obtain ⟨hl, hg⟩ := hp
  refine ⟨by simp [removeLoop, hl], ?_⟩
  intro g hgm
  obtain ⟨i, hi, rfl⟩ := List.mem_iff_getElem.mp hgm
  simp only [removeLoop, List.getElem_mapIdx]
  split
  · simp
  · exact hg _ (List.getElem_mem _)

private theorem all_zero_of_filter (l : Ind) (h : (l.filter (· = 0)).length = l.length) :
    ∀ g ∈ l, g = 0 := by
  intro g hg
  have := List.length_filter_eq_length_iff.mp h g hg
  simpa using this

private theorem remove_wf (d : Nat) (p : Ind) (hp : WellFormed d p) (prob : Rat) (u : Nat → Rat)
    (fb : Nat) : WellFormed d (probabilityRemove p prob u fb) := by
  have h1 := removeLoop_wf u prob d p hp
  unfold probabilityRemove
  simp only
  split
  · refine ⟨by simp [h1.1], ?_⟩
    intro g hgm
    rcases List.mem_or_eq_of_mem_set hgm with h | h
    · exact h1.2 g h
    · simp [h]
  · exact h1

/-- C09.  `probability_remove` never returns an individual without features. -/
theorem C09_probability_remove_nonempty (d : Nat) (p : Ind) (hp : WellFormed d p) (prob : Rat)
    (u : Nat → Rat) (fallback : Nat) (hf : fallback < d) :
    WellFormed d (probabilityRemove p prob u fallback) ∧
    1 ∈ probabilityRemove p prob u fallback := by
  refine ⟨remove_wf d p hp prob u fallback, ?_⟩
  have h1 := removeLoop_wf u prob d p hp
  unfold probabilityRemove
  simp only
  split
  · exact List.mem_set (by rw [h1.1]; exact hf) _
  · rename_i hne
    by_contra hno
    apply hne
    rw [List.length_filter_eq_length_iff]
    intro g hg
    rcases h1.2 g hg with h | h
    · simp [h]
    · exact absurd (h ▸ hg) hno

/-- C09 (partial).  `probability_remove` only switches genes off, except when the draws removed
every feature: then the child has the single feature `fallback`, which may be one the parent did
not have (see `C09_probability_remove_violated`). -/
theorem C09_probability_remove_partial (d : Nat) (p : Ind) (hp : WellFormed d p) (prob : Rat)
    (u : Nat → Rat) (fallback : Nat) :
    (∀ i : Nat, (probabilityRemove p prob u fallback)[i]? = some 1 → p[i]? = some 1) ∨
    probabilityRemove p prob u fallback = (List.replicate d 0).set fallback 1 := by
  have h1 := removeLoop_wf u prob d p hp
  unfold probabilityRemove
  simp only
  split
  · rename_i h
    right
    congr 1
    rw [List.eq_replicate_iff]
    exact ⟨h1.1, all_zero_of_filter _ h⟩
  · left
    intro i hi
    exact removeLoop_le u prob p i 1 hi (by simp)

/-- C09 is violated by `probability_remove`: with draws in [0,1) it can switch on a feature that the
parent does not have. -/
theorem C09_probability_remove_violated :
    ∃ (p : Ind) (prob : Rat) (u : Nat → Rat) (fallback : Nat), WellFormed 2 p ∧ 0 ≤ prob ∧ prob < 1 ∧
      (∀ i, 0 ≤ u i ∧ u i < 1) ∧ fallback < 2 ∧
      p[1]? = some 0 ∧ (probabilityRemove p prob u fallback)[1]? = some 1 :=
  ⟨[1, 0], 0, fun _ => 1 / 2, 1, ⟨rfl, by decide⟩, le_rfl, by norm_num, fun _ => by norm_num,
    by decide, by decide, by decide +kernel⟩

/-! ### C10: crossover -/

/-- C10.  Every gene of a child is the gene at the same position of one of its parents: of the
first before the cut and of the second from the cut on; the length is that of the parents. -/
theorem C10_cut_and_splice (p1 p2 : Ind) (cut : Nat) (hl : p1.length = p2.length)
    (hc : cut < p1.length) :
    (cutAndSplice p1 p2 cut).length = p1.length ∧
    (∀ i, i < cut → (cutAndSplice p1 p2 cut)[i]? = p1[i]?) ∧
    (∀ i, cut ≤ i → (cutAndSplice p1 p2 cut)[i]? = p2[i]?) := by
  refine ⟨?_, ?_, ?_⟩
  · simp [cutAndSplice]; omega
  · intro i hi
    rw [cutAndSplice, List.getElem?_append_left (by simp; omega), List.getElem?_take_of_lt hi]
  · intro i hi
    rw [cutAndSplice, List.getElem?_append_right (by simp; omega), List.getElem?_drop]
    congr 1; simp; omega

example : cutAndSplice [1, 1, 1] [0, 0, 0] 1 = [1, 0, 0] ∧ 1 < [1, 1, 1].length := by decide

private theorem splice_wf (d : Nat) (p1 p2 : Ind) (h1 : WellFormed d p1) (h2 : WellFormed d p2)
    (cut : Nat) : WellFormed d (cutAndSplice p1 p2 cut) := by
  refine ⟨by simp [cutAndSplice, h1.1, h2.1]; omega, ?_⟩
  intro g hg
  rcases List.mem_append.mp hg with h | h
  · exact h1.2 g (List.mem_of_mem_take h)
  · exact h2.2 g (List.mem_of_mem_drop h)

/-! ### C06: populations stay well formed -/

/-- The initial population is well formed: `initialize_population` makes individuals of length `d`
with at least one and at most `dmax` active features, all among the first `dmax`. -/
theorem C06_initial (d dmax : Nat) (hd : dmax ≤ d) (chosen : List Nat)
    (hc : InitChoice dmax chosen) :
    WellFormed d (initIndividual d chosen) ∧
    ∀ i, (initIndividual d chosen)[i]? = some 1 ↔ i ∈ chosen := by
  have key : ∀ (l : List Nat) (p : Ind), WellFormed d p → (∀ i ∈ l, i < d) →
      WellFormed d (l.foldl (fun p i => p.set i 1) p) ∧
      ∀ i, (l.foldl (fun p i => p.set i 1) p)[i]? = some 1 ↔ (i ∈ l ∨ p[i]? = some 1) := by
    intro l
    induction l with
    | nil => intro p hp _; simp [hp]
    | cons a l ih =>
      intro p hp hl
      have hp' : WellFormed d (p.set a 1) := by
        refine ⟨by simp [hp.1], ?_⟩
        intro g hg
        rcases List.mem_or_eq_of_mem_set hg with h | h
        · exact hp.2 g h
        · simp [h]
      obtain ⟨h1, h2⟩ := ih (p.set a 1) hp' (fun i hi => hl i (by simp [hi]))
      refine ⟨h1, fun i => ?_⟩
      rw [List.foldl_cons, h2 i]
      have ha : a < p.length := by rw [hp.1]; exact hl a (by simp)
      by_cases hia : a = i
      · subst hia; simp [List.getElem?_set_self ha]
      · rw [List.getElem?_set_ne hia]
        simp [Ne.symm hia]
  have h0 : WellFormed d (List.replicate d 0) :=
    ⟨by simp, fun g hg => .inl (List.mem_replicate.mp hg).2⟩
  obtain ⟨h1, h2⟩ := key chosen (List.replicate d 0) h0 (fun i hi => lt_of_lt_of_le (hc.2.1 i hi) hd)
  refine ⟨h1, fun i => ?_⟩
  rw [initIndividual, h2 i]
  simp [List.getElem?_replicate]

example : InitChoice 2 [1, 0] ∧ initIndividual 4 [1, 0] = [1, 1, 0, 0] :=
  ⟨⟨by decide, by decide, by decide, by decide⟩, by decide⟩

private theorem limit_wf (d : Nat) (m : Ind) (h : WellFormed d m) (dmax : Option Nat) (e : Extra) :
    WellFormed d (limitMutant dmax e m) := by
  unfold limitMutant
  split
  · exact h
  · split
    · exact remove_wf d m h _ _ _
    · exact h

private theorem randPerm_wf (d : Nat) (p : Ind) (hp : WellFormed d p) (i : Nat) :
    WellFormed d (randomPermutation p i) := by
  refine ⟨by simp [randomPermutation, hp.1], ?_⟩
  intro g hgm
  rcases List.mem_or_eq_of_mem_set hgm with h | h
  · exact hp.2 g h
  · subst h; split <;> simp

private theorem include_wf (d : Nat) (p : Ind) (hp : WellFormed d p) (prob : Rat) (u : Nat → Rat) :
    WellFormed d (probabilityInclude p prob u) := (C09_probability_include d p hp prob u).1

private theorem offspring_wf (d : Nat) (dmax : Option Nat) (pop : List Ind)
    (hp : ∀ p ∈ pop, WellFormed d p) (e : Extra) (c : Choice) (o : Ind)
    (h : offspring dmax pop e c = some o) : WellFormed d o := by
  have hget : ∀ i p, pop[i]? = some p → WellFormed d p := fun i p h => hp p (List.mem_of_getElem? h)
  cases c with
  | mate a b cut =>
    simp only [offspring, Option.bind_eq_bind, Option.bind_eq_some_iff, Option.some.injEq] at h
    obtain ⟨x, hx, y, hy, rfl⟩ := h
    exact splice_wf d x y (hget _ _ hx) (hget _ _ hy) cut
  | flip a i =>
    simp only [offspring, Option.bind_eq_bind, Option.bind_eq_some_iff, Option.some.injEq] at h
    obtain ⟨x, hx, rfl⟩ := h
    exact limit_wf d _ (randPerm_wf d x (hget _ _ hx) i) _ _
  | remove a prob u fb =>
    simp only [offspring, Option.bind_eq_bind, Option.bind_eq_some_iff, Option.some.injEq] at h
    obtain ⟨x, hx, rfl⟩ := h
    exact limit_wf d _ (remove_wf d x (hget _ _ hx) _ _ _) _ _
  | incl a prob u =>
    simp only [offspring, Option.bind_eq_bind, Option.bind_eq_some_iff, Option.some.injEq] at h
    obtain ⟨x, hx, rfl⟩ := h
    exact limit_wf d _ (include_wf d x (hget _ _ hx) _ _) _ _

private theorem mapM_some_length {α β : Type} (f : α → Option β) :
    ∀ (l : List α) (r : List β), l.mapM f = some r → r.length = l.length ∧
      ∀ b ∈ r, ∃ a ∈ l, f a = some b := by
  intro l
  induction l with
  | nil => intro r h; simp at h; subst h; simp
  | cons a l ih =>
    intro r h
    simp only [List.mapM_cons, Option.bind_eq_bind, Option.bind_eq_some_iff, pure, Option.some.injEq]
      at h
    obtain ⟨b, hb, bs, hbs, rfl⟩ := h
    obtain ⟨hl, hm⟩ := ih bs hbs
    refine ⟨by simp [hl], ?_⟩
    intro x hx
    rcases List.mem_cons.mp hx with rfl | hx
    · exact ⟨a, by simp, hb⟩
    · obtain ⟨a', ha', h'⟩ := hm x hx
      exact ⟨a', by simp [ha'], h'⟩

private theorem mem_reduction {A F : Type} [LinearOrder F] (l : List (A × F)) (n : Nat) (x : A × F)
    (h : x ∈ populationReduction l n) : x ∈ l :=
  (sortDesc_perm _ _).mem_iff.mp (List.mem_of_mem_take h)

private theorem mem_removeDup {A F R : Type} [DecidableEq R] (rnd : F → R) :
    ∀ (l : List (A × F)) (seen : List R) (x : A × F), x ∈ removeDuplicates rnd seen l → x ∈ l := by
  intro l
  induction l with
  | nil => intro seen x h; simp [removeDuplicates] at h
  | cons a l ih =>
    intro seen x h
    rw [removeDuplicates] at h
    split at h
    · exact List.mem_cons_of_mem _ (ih _ _ h)
    · rcases List.mem_cons.mp h with rfl | h
      · simp
      · exact List.mem_cons_of_mem _ (ih _ _ h)

theorem mem_generation {A F R : Type} [LinearOrder F] [DecidableEq R] (rnd : Option (F → R))
    (natural : Bool) (size : Nat) (cur new : List (A × F)) (x : A × F)
    (h : x ∈ generation rnd natural size cur new) : x ∈ cur ++ new := by
  unfold generation at h
  cases rnd with
  | none =>
    cases natural
    · exact h
    · exact mem_reduction _ _ _ h
  | some r =>
    cases natural
    · exact mem_removeDup r _ _ _ h
    · exact mem_removeDup r _ _ _ (mem_reduction _ _ _ h)

/-- C06, genes.  Whatever parents, operators and draws are chosen in however many generations, with
any fitness function, any duplicate removal and with or without natural selection, every individual
of the final population is well formed if those of the initial one are. -/
theorem C06_population_well_formed {F R : Type} [LinearOrder F] [DecidableEq R] (d : Nat)
    (dmax : Option Nat) (eval : List Ind → List F) (rnd : Option (F → R)) (natural : Bool)
    (size : Nat) (gens : List (List (Choice × Extra))) (cur final : List (Ind × F))
    (h0 : ∀ x ∈ cur, WellFormed d x.1)
    (hrun : search dmax eval rnd natural size cur gens = some final) :
    ∀ x ∈ final, WellFormed d x.1 := by
  induction gens generalizing cur with
  | nil => simp only [search, Option.some.injEq] at hrun; subst hrun; exact h0
  | cons cs gens ih =>
    simp only [search, Option.bind_eq_bind, Option.bind_eq_some_iff] at hrun
    obtain ⟨off, hoff, hrun⟩ := hrun
    refine ih _ ?_ hrun
    intro x hx
    rcases List.mem_append.mp (mem_generation _ _ _ _ _ _ hx) with h | h
    · exact h0 x h
    · have hx1 : x.1 ∈ off := (List.of_mem_zip h).1
      obtain ⟨c, _, hc⟩ := (mapM_some_length _ _ _ hoff).2 _ hx1
      refine offspring_wf d dmax (cur.map Prod.fst) ?_ c.2 c.1 _ hc
      intro p hp
      obtain ⟨y, hy, rfl⟩ := List.mem_map.mp hp
      exact h0 y hy

/-- C06, every valid choice is carried out: a generation whose choices are valid for the current
population always produces one offspring per choice. -/
theorem C06_generation_total (d : Nat) (dmax : Option Nat) (pop : List Ind)
    (cs : List (Choice × Extra)) (hv : ∀ c ∈ cs, c.1.Valid pop.length d) :
    ∃ off, newGeneration dmax pop cs = some off ∧ off.length = cs.length := by
  have : ∃ off, newGeneration dmax pop cs = some off := by
    unfold newGeneration
    induction cs with
    | nil => exact ⟨[], rfl⟩
    | cons c cs ih =>
      obtain ⟨off, ho⟩ := ih (fun c hc => hv c (by simp [hc]))
      have hc := hv c (by simp)
      have : ∃ o, offspring dmax pop c.2 c.1 = some o := by
        rcases hcc : c.1 with ⟨a, b, cut⟩ | ⟨a, i⟩ | ⟨a, pr, u, fb⟩ | ⟨a, pr, u⟩ <;>
          rw [hcc] at hc <;> simp only [Choice.Valid] at hc
        · simp [offspring, List.getElem?_eq_getElem hc.1, List.getElem?_eq_getElem hc.2.1]
        · simp [offspring, List.getElem?_eq_getElem hc.1]
        · simp [offspring, List.getElem?_eq_getElem hc.1]
        · simp [offspring, List.getElem?_eq_getElem hc]
      obtain ⟨o, ho'⟩ := this
      exact ⟨o :: off, by simp [List.mapM_cons, ho, ho']⟩
  obtain ⟨off, ho⟩ := this
  exact ⟨off, ho, (mapM_some_length _ _ _ ho).1⟩

/-- C06, size.  Without duplicate removal and with natural selection, the population has exactly
`population_size` members after every generation, whatever the size of the initial population. -/
theorem C06_population_size {F R : Type} [LinearOrder F] [DecidableEq R] (dmax : Option Nat)
    (eval : List Ind → List F) (heval : ∀ l, (eval l).length = l.length) (size : Nat)
    (gens : List (List (Choice × Extra))) (hgens : ∀ cs ∈ gens, cs.length = size)
    (cur final : List (Ind × F)) (hne : gens ≠ [] ∨ cur.length = size)
    (hrun : search dmax eval (none : Option (F → R)) true size cur gens = some final) :
    final.length = size := by
  induction gens generalizing cur with
  | nil =>
    simp only [search, Option.some.injEq] at hrun; subst hrun
    rcases hne with h | h
    · exact absurd rfl h
    · exact h
  | cons cs gens ih =>
    simp only [search, Option.bind_eq_bind, Option.bind_eq_some_iff] at hrun
    obtain ⟨off, hoff, hrun⟩ := hrun
    refine ih (fun c hc => hgens c (by simp [hc])) _ (.inr ?_) hrun
    have h1 := (mapM_some_length _ _ _ hoff).1
    have h2 := hgens cs (by simp)
    simp [generation, populationReduction, (sortDesc_perm _ _).length_eq, heval, h1, h2]

/-- C06, size with duplicate removal: never more than `population_size`, and never empty. -/
theorem C06_population_size_dedup {F R : Type} [LinearOrder F] [DecidableEq R] (r : F → R)
    (size : Nat) (hs : 0 < size) {A : Type} (cur new : List (A × F)) (hne : cur ++ new ≠ []) :
    (generation (some r) true size cur new).length ≤ size ∧
    0 < (generation (some r) true size cur new).length := by
  have hd : removeDuplicates r [] (cur ++ new) ≠ [] := by
    cases h : cur ++ new with
    | nil => exact absurd h hne
    | cons a l => simp [removeDuplicates]
  have : 0 < (removeDuplicates r [] (cur ++ new)).length := List.length_pos_iff.mpr hd
  simp only [generation, populationReduction, if_true, List.length_take, (sortDesc_perm _ _).length_eq]
  omega

/-- C06 is violated when an accuracy is given: individuals with the same rounded fitness are removed and
not replaced, so the population can be smaller than `population_size` (see also C72). -/
theorem C06_population_size_violated :
    ∃ cur new : List (Unit × Nat), cur.length = 2 ∧ new.length = 2 ∧
      (generation (some (fun n : Nat => n / 10)) true 2 cur new).length < 2 :=
  ⟨[((), 1), ((), 2)], [((), 3), ((), 4)], rfl, rfl, by decide +kernel⟩

example : search (F := Nat) (R := Nat) none (fun l => l.map List.sum) none true 2
    [([1, 0, 0], 1), ([0, 1, 1], 2)]
    [[(.mate 0 1 1, ⟨0, fun _ => 0, 0⟩), (.flip 1 0, ⟨0, fun _ => 0, 0⟩)]]
    = some [([1, 1, 1], 3), ([1, 1, 1], 3)] := by decide +kernel

/-! ### C07: elitism -/

/-- C07.  Without duplicate removal no individual is ever replaced by a worse best: for every member
of the old population there is one of the new population that is at least as fit (so the best
fitness never decreases), and every survivor is at least as fit as everything that was dropped. -/
theorem C07_elitism {A F R : Type} [LinearOrder F] [DecidableEq R] (natural : Bool) (size : Nat)
    (hs : 0 < size) (cur new : List (A × F)) :
    ∀ x ∈ cur ++ new, ∃ y ∈ generation (none : Option (F → R)) natural size cur new, x.2 ≤ y.2 := by
  intro x hx
  cases natural with
  | false => exact ⟨x, hx, le_rfl⟩
  | true =>
    simp only [generation, populationReduction, if_true]
    set l := sortDesc Prod.snd (cur ++ new) with hl
    have hxl : x ∈ l := (sortDesc_perm _ _).mem_iff.mpr hx
    cases hcase : l with
    | nil => rw [hcase] at hxl; simp at hxl
    | cons a t =>
      refine ⟨a, ?_, ?_⟩
      · obtain ⟨n, rfl⟩ : ∃ n, size = n + 1 := ⟨size - 1, by omega⟩
        simp
      · have hp := sortDesc_pairwise Prod.snd (cur ++ new)
        rw [← hl] at hp
        rw [hcase] at hp hxl
        rcases List.mem_cons.mp hxl with rfl | h
        · exact le_rfl
        · simpa using (List.pairwise_cons.mp hp).1 x h

/-- C07, truncation keeps the fittest: no dropped individual is fitter than a survivor. -/
theorem C07_survivors_fittest {A F : Type} [LinearOrder F] (l : List (A × F)) (size : Nat) :
    ∃ dropped, (populationReduction l size ++ dropped).Perm l ∧
      (populationReduction l size).length = min size l.length ∧
      ∀ s ∈ populationReduction l size, ∀ x ∈ dropped, x.2 ≤ s.2 := by
  refine ⟨(sortDesc Prod.snd l).drop size, ?_, ?_, ?_⟩
  · unfold populationReduction
    rw [List.take_append_drop]
    exact sortDesc_perm _ _
  · simp [populationReduction, (sortDesc_perm _ _).length_eq]
  · intro s hs x hx
    have hp := sortDesc_pairwise Prod.snd l
    rw [← List.take_append_drop size (sortDesc Prod.snd l)] at hp
    simpa using (List.pairwise_append.mp hp).2.2 s hs x hx

private theorem removeDup_spec {A F R : Type} [DecidableEq R] (rnd : F → R) :
    ∀ (l : List (A × F)) (seen : List R),
      ((removeDuplicates rnd seen l).map fun x => rnd x.2).Nodup ∧
      (∀ x ∈ removeDuplicates rnd seen l, rnd x.2 ∉ seen) ∧
      (∀ x ∈ l, rnd x.2 ∉ seen → ∃ y ∈ removeDuplicates rnd seen l, rnd y.2 = rnd x.2) := by
  intro l
  induction l with
  | nil => intro seen; simp [removeDuplicates]
  | cons a l ih =>
    intro seen
    rw [removeDuplicates]
    split
    · rename_i h
      obtain ⟨h1, h2, h3⟩ := ih seen
      refine ⟨h1, h2, ?_⟩
      intro x hx hns
      rcases List.mem_cons.mp hx with rfl | hx
      · exact absurd h hns
      · exact h3 x hx hns
    · rename_i h
      obtain ⟨h1, h2, h3⟩ := ih (rnd a.2 :: seen)
      refine ⟨?_, ?_, ?_⟩
      · rw [List.map_cons, List.nodup_cons]
        refine ⟨?_, h1⟩
        intro hm
        obtain ⟨y, hy, hye⟩ := List.mem_map.mp hm
        exact h2 y hy (by rw [hye]; simp)
      · intro x hx
        rcases List.mem_cons.mp hx with rfl | hx
        · exact h
        · intro hs
          exact h2 x hx (by simp [hs])
      · intro x hx hns
        by_cases he : rnd x.2 = rnd a.2
        · exact ⟨a, by simp, he.symm⟩
        · rcases List.mem_cons.mp hx with rfl | hx
          · exact absurd rfl he
          · obtain ⟨y, hy, hye⟩ := h3 x hx (by simp [he, hns])
            exact ⟨y, by simp [hy], hye⟩

private theorem removeDup_keeps {A F R : Type} [DecidableEq R] (rnd : F → R) (new : List (A × F)) :
    ∀ (cur : List (A × F)) (seen : List R), (cur.map fun x => rnd x.2).Nodup →
      (∀ x ∈ cur, rnd x.2 ∉ seen) →
      ∃ rest, removeDuplicates rnd seen (cur ++ new) = cur ++ rest := by
  intro cur
  induction cur with
  | nil => intro seen _ _; exact ⟨_, rfl⟩
  | cons a cur ih =>
    intro seen hnd hns
    simp only [List.map_cons, List.nodup_cons] at hnd
    rw [List.cons_append, removeDuplicates, if_neg (hns a (by simp))]
    obtain ⟨rest, hr⟩ := ih (rnd a.2 :: seen) hnd.2 (by
      intro x hx hm
      rcases List.mem_cons.mp hm with h | h
      · exact hnd.1 (h ▸ List.mem_map_of_mem (f := fun x : A × F => rnd x.2) hx)
      · exact hns x (by simp [hx]) h)
    exact ⟨rest, by rw [hr]; rfl⟩

/-- C07 with duplicate removal, after the first generation: every generation leaves a population
whose rounded fitness values are pairwise different … -/
theorem C07_dedup_distinct {A F R : Type} [LinearOrder F] [DecidableEq R] (r : F → R)
    (natural : Bool) (size : Nat) (cur new : List (A × F)) :
    ((generation (some r) natural size cur new).map fun x => r x.2).Nodup := by
  have h := (removeDup_spec r (cur ++ new) []).1
  cases natural with
  | false => exact h
  | true =>
    simp only [generation, populationReduction, if_true]
    have hp := sortDesc_perm Prod.snd (removeDuplicates r [] (cur ++ new))
    exact ((hp.map fun x => r x.2).nodup_iff.mpr h).sublist ((List.take_sublist _ _).map _)

/-- … and on such a population the best fitness does not decrease (so it never decreases from the
first generation on). -/
theorem C07_elitism_dedup_partial {A F R : Type} [LinearOrder F] [DecidableEq R] (r : F → R)
    (natural : Bool) (size : Nat) (hs : 0 < size) (cur new : List (A × F))
    (hnd : (cur.map fun x => r x.2).Nodup) :
    ∀ x ∈ cur, ∃ y ∈ generation (some r) natural size cur new, x.2 ≤ y.2 := by
  intro x hx
  obtain ⟨rest, hr⟩ := removeDup_keeps r new cur [] hnd (by simp)
  have hx' : x ∈ cur ++ rest := List.mem_append_left _ hx
  have := C07_elitism (R := R) natural size hs cur rest x hx'
  simpa only [generation, hr] using this

/-- C07 is violated in the first generation when an accuracy is given: of two individuals of equal
rounded fitness the first is kept even if it is worse, so the best fitness can decrease. -/
theorem C07_elitism_dedup_violated :
    ∃ (cur new : List (Unit × Nat)), ∃ x ∈ cur,
      ∀ y ∈ generation (some (fun n : Nat => n / 10)) true 2 cur new, ¬ x.2 ≤ y.2 :=
  ⟨[((), 11), ((), 14)], [((), 5), ((), 3)], ((), 14), by simp, by decide +kernel⟩

example : ([((), 25), ((), 14)].map fun x : Unit × Nat => x.2 / 10).Nodup := by decide

/-- C77 (partial): the initial individuals, the offspring of the removing mutation and, from a parent
with a feature, the offspring of the including mutation have at least one feature, whatever is drawn and
whether or not the number of features is limited.  (Mating and the flip mutation do not have this
property, see `C77_nonempty_individuals_violated`.) -/
theorem C77_nonempty_individuals_partial (d : Nat) :
    (∀ (dmax : Nat) (chosen : List Nat), dmax ≤ d → InitChoice dmax chosen →
      1 ∈ initIndividual d chosen) ∧
    ∀ (dmax : Option Nat) (pop : List Ind) (e : Extra) (p1 : Nat) (prob : Rat) (u : Nat → Rat)
      (fb : Nat) (o : Ind), (∀ p ∈ pop, WellFormed d p ∧ 1 ∈ p) → e.fallback < d → fb < d →
      (offspring dmax pop e (.remove p1 prob u fb) = some o ∨
        offspring dmax pop e (.incl p1 prob u) = some o) → 1 ∈ o := by
  have hlim : ∀ (dmax : Option Nat) (e : Extra) (m : Ind), e.fallback < d → WellFormed d m → 1 ∈ m →
      1 ∈ limitMutant dmax e m := by
    intro dmax e m hf hm h1
    cases dmax with
    | none => exact h1
    | some k =>
      simp only [limitMutant]
      split
      · exact (C09_probability_remove_nonempty d m hm _ _ _ hf).2
      · exact h1
  refine ⟨?_, ?_⟩
  · intro dmax chosen hd hc
    obtain ⟨c, hcm⟩ := List.exists_mem_of_length_pos (Nat.lt_of_lt_of_le Nat.zero_lt_one hc.2.2.1)
    exact List.mem_of_getElem? (((C06_initial d dmax hd chosen hc).2 c).mpr hcm)
  · intro dmax pop e p1 prob u fb o hp he hfb h
    cases hx : pop[p1]? with
    | none => simp [offspring, hx] at h
    | some x =>
      obtain ⟨hw, h1⟩ := hp x (List.mem_of_getElem? hx)
      simp only [offspring, hx, bind, Option.bind, Option.some.injEq] at h
      rcases h with rfl | rfl
      · have := C09_probability_remove_nonempty d x hw prob u fb hfb
        exact hlim _ _ _ he this.1 this.2
      · have := C09_probability_include d x hw prob u
        obtain ⟨i, hi⟩ := List.mem_iff_getElem?.mp h1
        exact hlim _ _ _ he this.1 (List.mem_of_getElem? (this.2 i hi))

example : ∀ p ∈ ([[1, 0], [0, 1]] : List Ind), WellFormed 2 p ∧ 1 ∈ p := by
  intro p hp; simp at hp; rcases hp with rfl | rfl <;> exact ⟨⟨rfl, by decide⟩, by decide⟩

end CatLearn.Props
