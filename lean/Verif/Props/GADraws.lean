import Verif.Model.GADraws
import Verif.Props.GASearch
import Mathlib.Data.List.Sort
import Mathlib.Order.Monotone.Basic
import Mathlib.Order.WithBot

/-!
# A search of the genetic algorithm depends on the order of the fitness values only (C237)
-/

namespace CatLearn.GADraws

open CatLearn CatLearn.GA CatLearn.GASearch CatLearn.Spec

section
variable {F G : Type} [LinearOrder F] [LinearOrder G] {g : F → G}

private theorem ranking_map (hg : StrictMono g) (fit : List F) : ranking (fit.map g) = ranking fit := by
  unfold ranking
  rw [List.length_map]
  have h1 : (fit.map g).zip (List.range fit.length) = (fit.zip (List.range fit.length)).map (Prod.map g id) := by
    rw [← List.zip_map, List.map_id]
  rw [h1, ← List.map_insertionSort (r := fun a b : F × ℕ => b.1 < a.1 ∨ (b.1 = a.1 ∧ b.2 ≤ a.2)), List.map_map]
  · congr 1
  · intro a _ b _
    simp [hg.lt_iff_lt, hg.injective.eq_iff]

private theorem acceptance_map (hg : StrictMono g) (fit : List F) : acceptance (fit.map g) = acceptance fit := by
  funext i
  simp [acceptance, ranking_map hg]

private theorem selection_map (hg : StrictMono g) (fit : List F) (o : List ℕ) (u : List ℚ) :
    selection (fit.map g) o u = selection fit o u := by
  simp [selection, acceptance_map hg]

private theorem first_map (hg : StrictMono g) (fit : List F) (a : Attempts) :
    firstParent (fit.map g) a = firstParent fit a := by
  induction a with
  | nil => rfl
  | cons a rest ih => simp only [firstParent, selection_map hg, ih]

private theorem mate_map (hg : StrictMono g) (b : Bool) (fit : List F) (p : ℕ) (a : Attempts) :
    pickMate b (fit.map g) p a = pickMate b fit p a := by
  induction a with
  | nil => rfl
  | cons a rest ih => simp only [pickMate, selection_map hg, ih]

private theorem choices_map (hg : StrictMono g) (b : Bool) (fit : List F) (ds : List Draw) :
    choices b (fit.map g) ds = choices b fit ds := by
  unfold choices
  congr 1
  funext d
  simp only [chosen, first_map hg, mate_map hg]

private theorem reduction_map {A : Type} (hg : StrictMono g) (l : List (A × F)) (n : ℕ) :
    populationReduction (l.map (Prod.map id g)) n = (populationReduction l n).map (Prod.map id g) := by
  unfold populationReduction sortDesc
  rw [List.map_take, ← List.map_insertionSort (r := fun a b : A × F => b.2 ≤ a.2)]
  intro a _ b _
  simp [hg.le_iff_le]

end

section
variable {F G R S T : Type} [LinearOrder F] [LinearOrder G] [DecidableEq R] {g : F → G}

/-- The fitness values of an outcome replaced. -/
def mapped (g : F → G) (r : Outcome F) : Outcome G :=
  ⟨r.pop.map (Prod.map id g), r.file.map (List.map (Prod.map id g)), r.steps, r.converged⟩

private theorem generation_map (hg : StrictMono g) (nat : Bool) (n : ℕ) (cur new : List (Ind × F)) :
    generation (none : Option (G → R)) nat n (cur.map (Prod.map id g)) (new.map (Prod.map id g)) =
      (generation (none : Option (F → R)) nat n cur new).map (Prod.map id g) := by
  unfold generation
  cases nat
  · simp
  · simp [← List.map_append, reduction_map hg]

private theorem snd_map (g : F → G) (l : List (Ind × F)) :
    (l.map (Prod.map id g)).map Prod.snd = (l.map Prod.snd).map g := by
  simp [List.map_map, Function.comp_def]

private theorem fst_map (g : F → G) (l : List (Ind × F)) :
    (l.map (Prod.map id g)).map Prod.fst = l.map Prod.fst := by
  simp [List.map_map, Function.comp_def]

private theorem nextPop_map (hg : StrictMono g) (o : Options F R) (o' : Options G R) (h0 : o.rnd = none) (h1 : o'.rnd = none)
    (hd : o'.dmax = o.dmax) (hn : o'.natural = o.natural) (hs : o'.size = o.size)
    (he : ∀ l, o'.eval l = (o.eval l).map g) (cur : List (Ind × F)) (cs : List (Choice × Extra)) :
    nextPop o' (cur.map (Prod.map id g)) cs = (nextPop o cur cs).map (List.map (Prod.map id g)) := by
  unfold nextPop
  rw [fst_map, hd, hn, hs, h0, h1]
  cases newGeneration o.dmax (cur.map Prod.fst) cs with
  | none => rfl
  | some off =>
    have : off.zip (o'.eval off) = (off.zip (o.eval off)).map (Prod.map id g) := by
      rw [he, ← List.zip_map, List.map_id]
    simp only [this, generation_map hg, Option.map_some]

private theorem later_mapped (r : Outcome F) : (mapped g r).later = mapped g r.later := rfl

private theorem loop_map (hg : StrictMono g) (o : Options F R) (o' : Options G R) (h0 : o.rnd = none) (h1 : o'.rnd = none)
    (hd : o'.dmax = o.dmax) (hn : o'.natural = o.natural) (hs : o'.size = o.size) (hw : o'.write = o.write)
    (he : ∀ l, o'.eval l = (o.eval l).map g)
    (conv : S → List F → S × Bool) (conv' : T → List G → T × Bool) (φ : S → T)
    (hc : ∀ s fit, conv' (φ s) (fit.map g) = (φ (conv s fit).1, (conv s fit).2)) :
    ∀ (gens : List (List Draw)) (b : Bool) (s : S) (cur : List (Ind × F)) (file : Option (List (Ind × F))),
      loop o' conv' b (φ s) (cur.map (Prod.map id g)) (file.map (List.map (Prod.map id g))) gens =
        (loop o conv b s cur file gens).map (mapped g) := by
  intro gens
  induction gens with
  | nil => intro b s cur file; rfl
  | cons ds gens ih =>
    intro b s cur file
    simp only [loop, snd_map, choices_map hg]
    cases choices b (cur.map Prod.snd) ds with
    | none => rfl
    | some cs =>
      simp only [nextPop_map hg o o' h0 h1 hd hn hs he, hw, hn]
      cases nextPop o cur cs with
      | none => rfl
      | some nxt =>
        simp only [Option.map_some, snd_map, hc]
        have hf : (if o.write = true then some (nxt.map (Prod.map id g)) else file.map (List.map (Prod.map id g))) =
            (if o.write = true then some nxt else file).map (List.map (Prod.map id g)) := by
          split <;> rfl
        rw [hf]
        split
        · rfl
        · rw [ih]
          cases loop o conv o.natural (conv s (nxt.map Prod.snd)).1 nxt (if o.write = true then some nxt else file) gens with
          | none => rfl
          | some r => rfl

/-- C237 (`_partial`: without `accuracy`).  Take two fitness functions of which one is a strictly increasing function of the other
(errors in other units, squared errors, logarithms), and the same random numbers.  Then both searches select the same parents, go
through the same populations, write the same individuals to the file, stop at the same generation and return the same individuals in
the same order.  The criterion of convergence may be any that answers alike in both scales. -/
theorem C237_order_partial (hg : StrictMono g) (o : Options F R) (o' : Options G R) (h0 : o.rnd = none) (h1 : o'.rnd = none)
    (hd : o'.dmax = o.dmax) (hn : o'.natural = o.natural) (hs : o'.size = o.size) (hw : o'.write = o.write)
    (he : ∀ l, o'.eval l = (o.eval l).map g)
    (conv : S → List F → S × Bool) (conv' : T → List G → T × Bool) (φ : S → T)
    (hc : ∀ s fit, conv' (φ s) (fit.map g) = (φ (conv s fit).1, (conv s fit).2))
    (init : S) (b : Bool) (pop : List Ind) (gens : List (List Draw)) :
    run o' conv' (φ init) b pop none gens =
      (run o conv init b pop none gens).map fun r =>
        ⟨r.pop.map (fun x => (x.1, g x.2)), r.file.map (List.map fun x => (x.1, g x.2)), r.steps, r.converged⟩ := by
  have hz : pop.zip (o'.eval pop) = (pop.zip (o.eval pop)).map (Prod.map id g) := by
    rw [he, ← List.zip_map, List.map_id]
  unfold run
  simp only [hz, snd_map, hc]
  exact loop_map hg o o' h0 h1 hd hn hs hw he conv conv' φ hc gens b _ _ none

private theorem maxFit_map [OrderBot F] [OrderBot G] (hg : StrictMono g) (hb : g ⊥ = ⊥) (l : List F) :
    maxFit (l.map g) = g (maxFit l) := by
  induction l with
  | nil => exact hb.symm
  | cons a l ih =>
    show max (g a) (maxFit (l.map g)) = g (max a (maxFit l))
    rw [ih, hg.monotone.map_max]

/-- C237 for the default criterion (`_partial`: without `accuracy`): minus infinity is minus infinity in both scales. -/
theorem C237_default_partial [OrderBot F] [OrderBot G] (hg : StrictMono g) (hb : g ⊥ = ⊥) (o : Options F R)
    (h0 : o.rnd = none) (rpt : ℕ) (b : Bool) (pop : List Ind) (gens : List (List Draw)) :
    runDefault (⟨o.dmax, fun l => (o.eval l).map g, none, o.natural, o.size, o.write⟩ : Options G R) rpt b pop none gens =
      (runDefault o rpt b pop none gens).map fun r =>
        ⟨r.pop.map (fun x => (x.1, g x.2)), r.file.map (List.map fun x => (x.1, g x.2)), r.steps, r.converged⟩ := by
  have := C237_order_partial (S := Conv F) (T := Conv G) hg o
    (⟨o.dmax, fun l => (o.eval l).map g, none, o.natural, o.size, o.write⟩ : Options G R)
    h0 rfl rfl rfl rfl rfl (fun _ => rfl) (progress rpt) (progress rpt) (fun s => ⟨g s.previous, s.count⟩)
    (by
      intro s fit
      simp only [progress, noProgress, maxFit_map hg hb, gt_iff_lt, hg.lt_iff_lt]
      split <;> rfl) ⟨⊥, 0⟩ b pop gens
  simpa only [runDefault, hb] using this

end

/-! ### Several objectives -/

section
variable {F G : Type} [LinearOrder F] [OrderBot F] [LinearOrder G] [OrderBot G]

private theorem sweep_congr {rows : List (List F)} {rows' : List (List G)}
    (h : ∀ i j : ℕ, keeps ((rows'[i]?).getD []) ((rows'[j]?).getD []) = keeps ((rows[i]?).getD []) ((rows[j]?).getD [])) :
    ∀ todo front, sweep rows' todo front = sweep rows todo front := by
  intro todo
  induction todo with
  | nil => intro front; rfl
  | cons i todo ih =>
    intro front
    simp only [sweep, h, ih]

private theorem keeps_map (g : ℕ → F → G) (hg : ∀ k, StrictMono (g k)) (p q : List F) :
    keeps (p.mapIdx g) (q.mapIdx g) = keeps p q := by
  induction q generalizing p g with
  | nil => simp [keeps]
  | cons y q ih =>
    cases p with
    | nil => simp [keeps]
    | cons x p =>
      have := ih (fun k => g (k + 1)) (fun k => hg (k + 1)) p
      simp only [keeps] at this
      simp only [keeps, List.mapIdx_cons, List.zip_cons_cons, List.any_cons, (hg 0).le_iff_le]
      rw [← this]

private theorem any_map (g : ℕ → F → G) (hg : ∀ k, StrictMono (g k)) (hb : ∀ k, g k ⊥ = ⊥) (r : List F) :
    (r.mapIdx g).any (fun x => decide (⊥ < x)) = r.any fun x => decide (⊥ < x) := by
  induction r generalizing g with
  | nil => rfl
  | cons x r ih =>
    have h1 : (⊥ : G) < g 0 x ↔ ⊥ < x := by rw [← hb 0, (hg 0).lt_iff_lt]
    simp only [List.mapIdx_cons, List.any_cons, h1]
    rw [ih (fun k => g (k + 1)) (fun k => hg (k + 1)) (fun k => hb (k + 1))]

private theorem mapIdx_bot (g : ℕ → F → G) (hb : ∀ k, g k ⊥ = ⊥) (r : List F) :
    (r.map fun _ => (⊥ : F)).mapIdx g = (r.mapIdx g).map fun _ => (⊥ : G) := by
  induction r generalizing g with
  | nil => rfl
  | cons x r ih =>
    simp only [List.map_cons, List.mapIdx_cons, hb]
    rw [ih (fun k => g (k + 1)) (fun k => hb (k + 1))]

private theorem paretoLoop_map (g : ℕ → F → G) (hg : ∀ k, StrictMono (g k)) (hb : ∀ k, g k ⊥ = ⊥) :
    ∀ (fuel rank : ℕ) (rows : List (List F)) (result : List ℤ),
      paretoLoop fuel rank (rows.map fun r => r.mapIdx g) result = paretoLoop fuel rank rows result := by
  intro fuel
  induction fuel with
  | zero =>
    intro rank rows result
    simp only [paretoLoop, List.any_map, Function.comp_def, any_map g hg hb]
  | succ fuel ih =>
    intro rank rows result
    have hk : ∀ i j : ℕ, keeps (((rows.map fun r => r.mapIdx g)[i]?).getD []) (((rows.map fun r => r.mapIdx g)[j]?).getD []) =
        keeps ((rows[i]?).getD []) ((rows[j]?).getD []) := by
      intro i j
      rw [List.getElem?_map, List.getElem?_map]
      cases h1 : rows[i]? with
      | none => cases h2 : rows[j]? with
        | none => simp [keeps]
        | some q => simp [keeps]
      | some p => cases h2 : rows[j]? with
        | none => simp [keeps]
        | some q => simpa using keeps_map g hg p q
    have hl : locatePareto (rows.map fun r => r.mapIdx g) = locatePareto rows := by
      unfold locatePareto
      rw [List.length_map, sweep_congr hk]
    simp only [paretoLoop, List.any_map, Function.comp_def, any_map g hg hb, hl]
    split
    · rw [← ih]
      congr 1
      apply List.ext_getElem?
      intro i
      simp only [List.getElem?_mapIdx, List.getElem?_map, Option.map_map]
      cases rows[i]? with
      | none => rfl
      | some r =>
        simp only [Option.map_some, Function.comp_apply]
        split
        · rw [mapIdx_bot g hb]
        · rfl
    · rfl

/-- C237 for several objectives: if every objective is replaced by a strictly increasing function of it (each by its own), a whole search
is the same, fitness values (ranks) included, also with `accuracy`, and with any criterion of convergence. -/
theorem C237_objectives {R S : Type} [DecidableEq R] (g : ℕ → F → G) (hg : ∀ k, StrictMono (g k)) (hb : ∀ k, g k ⊥ = ⊥)
    (f : Ind → List F) (o : Options ℤ R) (conv : S → List ℤ → S × Bool) (init : S) (b : Bool) (pop : List Ind)
    (file : Option (List (Ind × ℤ))) (gens : List (List Draw)) :
    run ⟨o.dmax, paretoEval fun p => (f p).mapIdx g, o.rnd, o.natural, o.size, o.write⟩ conv init b pop file gens =
      run ⟨o.dmax, paretoEval f, o.rnd, o.natural, o.size, o.write⟩ conv init b pop file gens := by
  have : (paretoEval fun p => (f p).mapIdx g) = paretoEval f := by
    funext l
    unfold paretoEval paretoTransform
    have h1 : (l.map fun p => (f p).mapIdx g) = (l.map f).map fun r => r.mapIdx g := by simp
    rw [h1, List.length_map, paretoLoop_map g hg hb]
  rw [this]

end

/-! ### Every such search is one of `GASearch`, with choices the code can make -/

section
variable {F R S : Type} [LinearOrder F] [DecidableEq R]

/-- The draws of a generation for a population of `n` individuals of `d` features: shuffles of the positions, and numbers in range. -/
def OpDraw.Valid (n d : ℕ) : OpDraw → Prop
  | .mate attempts cut => (∀ a ∈ attempts, a.1.Perm (List.range n)) ∧ 1 ≤ cut ∧ cut < d
  | .flip index => index < d
  | .remove _ _ fallback => fallback < d
  | .incl _ _ => True

/-- See `OpDraw.Valid`. -/
def Draw.Valid (n d : ℕ) (w : Draw) : Prop := (∀ a ∈ w.first, a.1.Perm (List.range n)) ∧ w.op.Valid n d

private theorem select_mem (acc : ℕ → ℚ) : ∀ (o : List ℕ) (u : List ℚ) (p : ℕ), selectLoop acc o u = some p → p ∈ o
  | [], _, p, h => by simp [selectLoop] at h
  | i :: o, [], p, h => by simp [selectLoop] at h
  | i :: o, u :: us, p, h => by
    simp only [selectLoop] at h
    split at h
    · cases h; simp
    · exact List.mem_cons_of_mem _ (select_mem acc o us p h)

private theorem first_lt (fit : List F) (n : ℕ) : ∀ (a : Attempts) (p : ℕ), (∀ x ∈ a, x.1.Perm (List.range n)) →
    firstParent fit a = some p → p < n
  | [], p, _, h => by simp [firstParent] at h
  | a :: rest, p, hv, h => by
    simp only [firstParent] at h
    split at h
    · rename_i q hq
      cases h
      exact List.mem_range.mp ((hv a (by simp)).mem_iff.mp (select_mem _ _ _ _ hq))
    · exact first_lt fit n rest p (fun x hx => hv x (by simp [hx])) h

private theorem mate_lt (b : Bool) (fit : List F) (n p1 : ℕ) : ∀ (a : Attempts) (p : ℕ), (∀ x ∈ a, x.1.Perm (List.range n)) →
    pickMate b fit p1 a = some p → p < n
  | [], p, _, h => by simp [pickMate] at h
  | a :: rest, p, hv, h => by
    simp only [pickMate] at h
    split at h
    · exact mate_lt b fit n p1 rest p (fun x hx => hv x (by simp [hx])) h
    · rename_i q hq
      split at h
      · exact mate_lt b fit n p1 rest p (fun x hx => hv x (by simp [hx])) h
      · cases h
        exact List.mem_range.mp ((hv a (by simp)).mem_iff.mp (select_mem _ _ _ _ hq))

private theorem chosen_valid (b : Bool) (fit : List F) (n d : ℕ) (w : Draw) (hw : w.Valid n d) (c : Choice × Extra)
    (h : chosen b fit w = some c) : c.1.Valid n d := by
  obtain ⟨h1, h2⟩ := hw
  unfold chosen at h
  split at h
  · cases h
  · rename_i p1 hp
    have hp1 := first_lt fit n _ _ h1 hp
    revert h h2
    cases w.op with
    | mate attempts cut =>
      intro h2 h
      obtain ⟨q, hq, rfl⟩ := Option.map_eq_some_iff.mp h
      exact ⟨hp1, mate_lt b fit n p1 _ _ h2.1 hq, h2.2.1, h2.2.2⟩
    | flip index => intro h2 h; cases h; exact ⟨hp1, h2⟩
    | remove prob u fb => intro h2 h; cases h; exact ⟨hp1, h2⟩
    | incl prob u => intro h2 h; cases h; exact hp1

/-- C237, the random numbers.  The choices of a generation made from shuffles and numbers in range are choices the theorems about
`_new_generation` speak of, one for every offspring. -/
theorem C237_draws (b : Bool) (fit : List F) (d : ℕ) (ds : List Draw) (cs : List (Choice × Extra))
    (hv : ∀ w ∈ ds, w.Valid fit.length d) (h : choices b fit ds = some cs) :
    cs.length = ds.length ∧ ∀ c ∈ cs, c.1.Valid fit.length d := by
  unfold choices at h
  induction ds generalizing cs with
  | nil => simp at h; subst h; simp
  | cons w ds ih =>
    rw [List.mapM_cons] at h
    simp only [bind, Option.bind, pure] at h
    split at h
    · cases h
    · rename_i c hc
      dsimp only at h
      split at h
      · cases h
      · rename_i cs' hcs
        cases h
        obtain ⟨h1, h2⟩ := ih cs' (fun w hw => hv w (by simp [hw])) hcs
        refine ⟨by simp [h1], ?_⟩
        intro x hx
        rcases List.mem_cons.mp hx with rfl | hx
        · exact chosen_valid b fit _ d w (hv w (by simp)) _ hc
        · exact h2 x hx

private theorem loop_search (o : Options F R) (conv : S → List F → S × Bool) :
    ∀ (gens : List (List Draw)) (b : Bool) (s : S) (cur : List (Ind × F)) (file : Option (List (Ind × F))) (r : Outcome F),
      loop o conv b s cur file gens = some r →
      ∃ cs, cs.length = r.steps ∧ searchLoop o conv s cur file cs = some r := by
  intro gens
  induction gens with
  | nil =>
    intro b s cur file r h
    simp only [loop, Option.some.injEq] at h
    subst h
    exact ⟨[], rfl, rfl⟩
  | cons ds gens ih =>
    intro b s cur file r h
    simp only [loop] at h
    split at h
    · cases h
    · rename_i cs hcs
      split at h
      · cases h
      · rename_i nxt hn
        split at h
        · rename_i hc
          cases h
          refine ⟨[cs], rfl, ?_⟩
          simp only [searchLoop, hn, hc, if_true]
        · rename_i hc
          obtain ⟨r', hr', rfl⟩ := Option.map_eq_some_iff.mp h
          obtain ⟨rest, h1, h2⟩ := ih _ _ _ _ _ hr'
          refine ⟨cs :: rest, by simp [h1, Outcome.later], ?_⟩
          simp only [searchLoop, hn, hc, h2, Option.map_some]
          simp

/-- C237: every search made from random numbers is a search of C226 and C227, with as many generations. -/
theorem C237_search (o : Options F R) (conv : S → List F → S × Bool) (init : S) (b : Bool) (pop : List Ind)
    (file : Option (List (Ind × F))) (gens : List (List Draw)) (r : Outcome F) (h : run o conv init b pop file gens = some r) :
    ∃ cs, cs.length = r.steps ∧ search o conv init pop file cs = some r :=
  loop_search o conv gens b _ _ file r h

end

/-! ### Examples and the violation -/

/-- The attempts of the example: the shuffle is given, the first draw is low. -/
def att (o : List ℕ) : Attempts := [(o, [1, 1]), (o, [0, 0])]

/-- A mating of the examples. -/
def mating (o o' : List ℕ) (cut : ℕ) : Draw := ⟨att o, .mate (att o') cut, ⟨0, fun _ => 0, 0⟩⟩

/-- The fitness of the examples, in the given unit: minus one more than the number whose binary digits are the genes. -/
def demoFit (c : ℚ) (p : Ind) : ℚ := -c * (1 + p.foldl (fun (a : ℚ) (x : ℕ) => 2 * a + (x : ℚ)) 0)

/-- The options of the examples. -/
def demo (c : ℚ) (accuracy : Option ℕ) : Options ℚ ℤ :=
  ⟨none, fun l => l.map (demoFit c), accuracy.map roundTo, true, 2, false⟩

example : run (demo 1 none) (fun (s : Unit) _ => (s, false)) () false [[1, 0], [0, 1]] none [[mating [0, 1] [1, 0] 1, mating [1, 0] [0, 1] 1]] =
    some ⟨[([0, 0], -1), ([0, 1], -2)], none, 1, false⟩ := by decide +kernel

example (o : Options ℚ ℤ) (c : ℚ) (hc : 0 < c) (h0 : o.rnd = none) (pop : List Ind) (gens : List (List Draw)) :
    run (⟨o.dmax, fun l => (o.eval l).map (c * ·), none, o.natural, o.size, o.write⟩ : Options ℚ ℤ)
      (fun (s : Unit) _ => (s, false)) () false pop none gens =
      (run o (fun (s : Unit) _ => (s, false)) () false pop none gens).map fun r =>
        ⟨r.pop.map (fun x => (x.1, c * x.2)), r.file.map (List.map fun x => (x.1, c * x.2)), r.steps, r.converged⟩ :=
  C237_order_partial (fun _ _ h => mul_lt_mul_of_pos_left h hc) o
    (⟨o.dmax, fun l => (o.eval l).map (c * ·), none, o.natural, o.size, o.write⟩ : Options ℚ ℤ) h0 rfl rfl rfl rfl rfl (fun _ => rfl)
    (fun (s : Unit) _ => (s, false)) (fun (s : Unit) _ => (s, false)) id (fun _ _ => rfl) () false pop gens

example (o : Options (WithBot ℚ) ℤ) (h0 : o.rnd = none) (rpt : ℕ) (pop : List Ind) (gens : List (List Draw)) :
    runDefault (⟨o.dmax, fun l => (o.eval l).map (WithBot.map (2 * ·)), none, o.natural, o.size, o.write⟩ : Options (WithBot ℚ) ℤ) rpt
      true pop none gens = (runDefault o rpt true pop none gens).map fun r =>
        ⟨r.pop.map (fun x => (x.1, WithBot.map (2 * ·) x.2)), r.file.map (List.map fun x => (x.1, WithBot.map (2 * ·) x.2)), r.steps,
          r.converged⟩ :=
  C237_default_partial (WithBot.strictMono_map_iff.mpr fun _ _ h => by linarith) rfl o h0 rpt true pop gens

/-- C237 is violated with `accuracy`: the decimals are those of the unit at hand.  With errors a thousand times smaller (kJ instead of J)
and two decimals, the same search with the same random numbers ends with a single individual, the first of the initial population, and not
with the best two. -/
theorem C237_accuracy_violated :
    ∃ (pop : List Ind) (gens : List (List Draw)) (r r' : Outcome ℚ),
      (∀ ds ∈ gens, ∀ w ∈ ds, w.Valid pop.length 2) ∧
      run (demo 1 (some 2)) (fun (s : Unit) _ => (s, false)) () false pop none gens = some r ∧
      run (demo (1 / 1000) (some 2)) (fun (s : Unit) _ => (s, false)) () false pop none gens = some r' ∧
      r.pop.map Prod.fst = [[0, 0], [0, 1]] ∧ r'.pop.map Prod.fst = [[1, 0]] := by
  refine ⟨[[1, 0], [0, 1]], [[mating [0, 1] [1, 0] 1, mating [1, 0] [0, 1] 1]], ⟨[([0, 0], -1), ([0, 1], -2)], none, 1, false⟩,
    ⟨[([1, 0], -3 / 1000)], none, 1, false⟩, ?_, by decide +kernel, by decide +kernel, rfl, rfl⟩
  intro ds hds w hw
  simp only [List.mem_singleton] at hds
  subst hds
  have h2 : List.Perm [1, 0] (List.range 2) := by decide
  have h1 : List.Perm [0, 1] (List.range 2) := by decide
  rcases List.mem_pair.mp hw with rfl | rfl <;>
    simp [Draw.Valid, OpDraw.Valid, mating, att, h1, h2]

end CatLearn.GADraws
