import Verif.Model.GASearch
import Verif.Props.GAOperators
import Verif.Props.GAFitness
import Mathlib.Tactic.Linarith
import Mathlib.Data.List.GetD

/-!
# Whole searches of the genetic algorithm (C226, C227)
-/

namespace CatLearn.GASearch

open CatLearn CatLearn.GA CatLearn.Spec CatLearn.Props

section
variable {F R S : Type} [LinearOrder F] [DecidableEq R]

/-! ### The pairs of individuals and fitness values -/

private theorem nextPop_paired (o : Options F R) (f : Ind → F) (he : ∀ l, o.eval l = l.map f) (cur nxt : List (Ind × F))
    (cs : List (Choice × Extra)) (h0 : ∀ x ∈ cur, x.2 = f x.1) (h : nextPop o cur cs = some nxt) :
    ∀ x ∈ nxt, x.2 = f x.1 := by
  unfold nextPop at h
  split at h
  · cases h
  · rename_i off _
    cases h
    intro x hx
    rcases List.mem_append.mp (mem_generation _ _ _ _ _ _ hx) with h | h
    · exact h0 x h
    · rw [he, List.zip_map_right] at h
      obtain ⟨y, hy, rfl⟩ := List.mem_map.mp h
      have hyy : ∀ l : List Ind, ∀ y ∈ l.zip l, y.1 = y.2 := by
        intro l
        induction l with
        | nil => simp
        | cons a l ih =>
          intro y hy
          rcases List.mem_cons.mp hy with rfl | hy
          · rfl
          · exact ih y hy
      simp [Prod.map, hyy _ _ hy]

private theorem zip_map_self (f : Ind → F) (l : List Ind) : ∀ x ∈ l.zip (l.map f), x.2 = f x.1 := by
  induction l with
  | nil => simp
  | cons a l ih =>
    intro x hx
    rcases List.mem_cons.mp hx with rfl | hx
    · rfl
    · exact ih x hx

private theorem loop_paired (o : Options F R) (conv : S → List F → S × Bool) (f : Ind → F)
    (he : ∀ l, o.eval l = l.map f) : ∀ (gens : List (List (Choice × Extra))) (s : S) (cur : List (Ind × F))
      (file : Option (List (Ind × F))) (r : Outcome F), (∀ x ∈ cur, x.2 = f x.1) →
      searchLoop o conv s cur file gens = some r → ∀ x ∈ r.pop, x.2 = f x.1 := by
  intro gens
  induction gens with
  | nil => intro s cur file r h0 h; simp only [searchLoop, Option.some.injEq] at h; subst h; exact h0
  | cons cs gens ih =>
    intro s cur file r h0 h
    simp only [searchLoop] at h
    split at h
    · cases h
    · rename_i nxt hn
      have hp := nextPop_paired o f he cur nxt cs h0 hn
      split at h
      · cases h; exact hp
      · rw [Option.map_eq_some_iff] at h
        obtain ⟨r', hr', rfl⟩ := h
        exact ih _ _ _ r' hp hr'

/-- C226, fitness.  In a search for one objective, whatever the choices, the criterion and the options, every individual of the final
population is listed with its own fitness. -/
theorem C226_fitness (o : Options F R) (conv : S → List F → S × Bool) (init : S) (f : Ind → F)
    (he : ∀ l, o.eval l = l.map f) (pop : List Ind) (file : Option (List (Ind × F)))
    (gens : List (List (Choice × Extra))) (r : Outcome F) (h : search o conv init pop file gens = some r) :
    ∀ x ∈ r.pop, x.2 = f x.1 :=
  loop_paired o conv f he gens _ _ file r (by rw [he]; exact zip_map_self f pop) h

/-- The data in the file -/
private theorem loop_file (o : Options F R) (conv : S → List F → S × Bool) :
    ∀ (gens : List (List (Choice × Extra))) (s : S) (cur : List (Ind × F))
      (file : Option (List (Ind × F))) (r : Outcome F), searchLoop o conv s cur file gens = some r →
      (o.write = true → (gens = [] ∧ r.file = file ∨ r.file = some r.pop)) ∧ (o.write = false → r.file = file) := by
  intro gens
  induction gens with
  | nil => intro s cur file r h; simp only [searchLoop, Option.some.injEq] at h; subst h; simp
  | cons cs gens ih =>
    intro s cur file r h
    simp only [searchLoop] at h
    split at h
    · cases h
    · rename_i nxt hn
      split at h
      · cases h
        constructor
        · intro hw; right; simp [hw]
        · intro hw; simp [hw]
      · rw [Option.map_eq_some_iff] at h
        obtain ⟨r', hr', rfl⟩ := h
        obtain ⟨h1, h2⟩ := ih _ _ _ _ hr'
        constructor
        · intro hw
          right
          rcases h1 hw with ⟨hg, hf⟩ | hf
          · subst hg
            simp only [searchLoop, Option.some.injEq] at hr'
            subst hr'
            simp [Outcome.later, hw]
          · exact hf
        · intro hw
          have := h2 hw
          simpa [Outcome.later, hw] using this

/-- C226, file.  A search with a `writefile` that makes at least one generation leaves the final population and its fitness, in order,
in the file; without `writefile` no file changes. -/
theorem C226_file (o : Options F R) (conv : S → List F → S × Bool) (init : S) (pop : List Ind)
    (file : Option (List (Ind × F))) (gens : List (List (Choice × Extra))) (r : Outcome F)
    (h : search o conv init pop file gens = some r) :
    (o.write = true → gens ≠ [] → readData r.file = some (r.pop.map Prod.fst, r.pop.map Prod.snd)) ∧
    (o.write = false → r.file = file) := by
  obtain ⟨h1, h2⟩ := loop_file o conv gens _ _ file r h
  refine ⟨fun hw hg => ?_, h2⟩
  rcases h1 hw with ⟨hg', _⟩ | hf
  · exact absurd hg' hg
  · rw [hf]; rfl

/-! ### Stopping -/

/-- The populations of a search: each comes from the one before by one generation. -/
def History (o : Options F R) (gens : List (List (Choice × Extra))) (hist : List (List (Ind × F))) : Prop :=
  ∀ t a b, hist[t]? = some a → hist[t + 1]? = some b → ∃ cs, gens[t]? = some cs ∧ nextPop o a cs = some b

private theorem loop_history (o : Options F R) (conv : S → List F → S × Bool) :
    ∀ (gens : List (List (Choice × Extra))) (s : S) (cur : List (Ind × F))
      (file : Option (List (Ind × F))) (r : Outcome F), searchLoop o conv s cur file gens = some r →
      ∃ hist : List (List (Ind × F)), hist.length = r.steps ∧ History o gens (cur :: hist) ∧
        (cur :: hist).getLast? = some r.pop ∧ (r.converged = true → 1 ≤ r.steps) ∧
        (r.converged = false → r.steps = gens.length) ∧
        ∀ t, t < r.steps → (runConv conv s (hist.map fun p => p.map Prod.snd))[t]? =
          some (decide (t + 1 = r.steps) && r.converged) := by
  intro gens
  induction gens with
  | nil =>
    intro s cur file r h
    simp only [searchLoop, Option.some.injEq] at h
    subst h
    exact ⟨[], rfl, by intro t a b _ hb; simp at hb, rfl, by simp, by simp, by simp⟩
  | cons cs gens ih =>
    intro s cur file r h
    simp only [searchLoop] at h
    split at h
    · cases h
    · rename_i nxt hn
      split at h
      · rename_i hc
        cases h
        refine ⟨[nxt], rfl, ?_, rfl, by simp, by simp, ?_⟩
        · intro t a b ha hb
          cases t with
          | zero => simp at ha hb; subst ha hb; exact ⟨cs, rfl, hn⟩
          | succ t => simp at hb
        · intro t ht
          have : t = 0 := by simp at ht; omega
          subst this
          simp [runConv, hc]
      · rename_i hc
        rw [Option.map_eq_some_iff] at h
        obtain ⟨r', hr', rfl⟩ := h
        obtain ⟨hist, h1, h2, h3, h4, h5, h6⟩ := ih _ _ _ _ hr'
        refine ⟨nxt :: hist, by simp [Outcome.later, h1], ?_, ?_, by simp [Outcome.later], ?_, ?_⟩
        · intro t a b ha hb
          cases t with
          | zero => simp at ha hb; subst ha hb; exact ⟨cs, rfl, hn⟩
          | succ t =>
            obtain ⟨cs', hcs, hnx⟩ := h2 t a b (by simpa using ha) (by simpa using hb)
            exact ⟨cs', by simpa using hcs, hnx⟩
        · simpa [Outcome.later, List.getLast?_cons_cons] using h3
        · intro hcv; simp [Outcome.later, h5 hcv]
        · intro t ht
          cases t with
          | zero =>
            simp only [List.map_cons, runConv, List.getElem?_cons_zero, Option.some.injEq]
            have : (conv s (nxt.map Prod.snd)).2 = false := by simpa using hc
            rw [this]
            by_cases hs : r'.steps = 0
            · have : r'.converged = false := by
                cases hcv : r'.converged with
                | false => rfl
                | true => have := h4 hcv; omega
              simp [Outcome.later, this]
            · have : ¬ (0 + 1 = r'.steps + 1) := by omega
              simp [Outcome.later, hs]
          | succ t =>
            have := h6 t (by simp [Outcome.later] at ht; omega)
            simp only [List.map_cons, runConv, List.getElem?_cons_succ, this, Outcome.later]
            simp

private theorem runConv_progress [OrderBot F] (rpt : ℕ) : ∀ (l : List (List F)) (s : Conv F),
    runConv (progress rpt) s l = runConv (noProgress rpt) s (l.map maxFit) := by
  intro l
  induction l with
  | nil => intro s; rfl
  | cons a l ih => intro s; simp [runConv, progress, ih]

/-- The best fitness of each population of a history. -/
def bests [OrderBot F] (hist : List (List (Ind × F))) : List F := hist.map fun p => maxFit (p.map Prod.snd)

/-- `maxFit` is the largest value. -/
theorem maxFit_spec [OrderBot F] (l : List F) : (∀ x ∈ l, x ≤ maxFit l) ∧ (l ≠ [] → maxFit l ∈ l) := by
  induction l with
  | nil => simp
  | cons a l ih =>
    refine ⟨?_, fun _ => ?_⟩
    · intro x hx
      rcases List.mem_cons.mp hx with rfl | hx
      · simp [maxFit]
      · exact le_trans (ih.1 x hx) (by simp [maxFit])
    · rcases eq_or_ne l [] with rfl | hl
      · simp [maxFit]
      · rcases le_total a (maxFit l) with h | h
        · have : maxFit (a :: l) = maxFit l := by simpa [maxFit] using h
          rw [this]; exact List.mem_cons_of_mem _ (ih.2 hl)
        · have : maxFit (a :: l) = a := by simpa [maxFit] using h
          rw [this]; simp

/-- C226, stopping.  A search with the default criterion goes through populations of which each comes from the one before by one
generation, from the given to the final one.  It ends before the last step exactly at the first generation at which the best fitness
has not improved for more than `repeat` populations. -/
theorem C226_stops [OrderBot F] (o : Options F R) (rpt : ℕ) (pop : List Ind) (file : Option (List (Ind × F)))
    (gens : List (List (Choice × Extra))) (r : Outcome F) (h : searchDefault o rpt pop file gens = some r) :
    ∃ hist : List (List (Ind × F)), hist.length = r.steps + 1 ∧ History o gens hist ∧
      hist.head? = some (pop.zip (o.eval pop)) ∧ hist.getLast? = some r.pop ∧
      (r.converged = false → r.steps = gens.length) ∧
      ∀ t, 1 ≤ t → t ≤ r.steps →
        ((t = r.steps ∧ r.converged = true) ↔
          rpt ≤ t ∧ ∀ u, t ≤ u + rpt → u ≤ t → ¬ Record (bests hist) u) := by
  obtain ⟨hist, h1, h2, h3, h4, h5, h6⟩ := loop_history o (progress rpt) gens _ _ file r h
  refine ⟨pop.zip (o.eval pop) :: hist, by simp [h1], h2, rfl, h3, h5, ?_⟩
  intro t ht1 ht2
  obtain ⟨t, rfl⟩ : ∃ k, t = k + 1 := ⟨t - 1, by omega⟩
  have hb : bests (pop.zip (o.eval pop) :: hist) =
      maxFit ((pop.zip (o.eval pop)).map Prod.snd) :: (hist.map fun p => p.map Prod.snd).map maxFit := by
    simp [bests, Function.comp_def]
  rw [← C13_no_progress rpt (bests (pop.zip (o.eval pop) :: hist)) (t + 1) (by simp [bests, h1]; omega), hb]
  have h7 := h6 t (by omega)
  rw [runConv_progress] at h7
  simp only [runConv, List.getElem?_cons_succ]
  simp only [progress] at h7
  rw [h7]
  simp

end

/-- Examples of choices -/
def flipAt (i : ℕ) : List (Choice × Extra) := [(.flip 0 i, ⟨0, fun _ => 0, 0⟩)]

/-- The fitness of the examples: the number of features. -/
def countOpts (write : Bool) : Options ℕ ℕ := ⟨none, fun l => l.map List.sum, none, true, 1, write⟩

example : searchDefault (countOpts true) 1 [[1, 0]] none [flipAt 1, flipAt 0, flipAt 0, flipAt 0] =
    some ⟨[([1, 1], 2)], some [([1, 1], 2)], 3, true⟩ := by decide +kernel

/-- C226 is violated with several objectives: ranks are computed within the population and within each set of offspring, so the
fitness listed with the final population is not that of its members (here a dominated individual is listed with the rank of the
first front). -/
theorem C226_pareto_violated :
    ∃ (f : Ind → List ℕ) (o : Options ℤ ℤ) (pop : List Ind) (gens : List (List (Choice × Extra))) (r : Outcome ℤ),
      o.eval = paretoEval f ∧ search o (fun (s : Unit) _ => (s, false)) () pop none gens = some r ∧
      r.pop = [([1, 1], -1), ([0, 1], -1)] ∧ paretoEval f (r.pop.map Prod.fst) = [-1, -2] :=
  ⟨fun p => [p.sum + 1, p.sum + 1], ⟨none, paretoEval fun p => [p.sum + 1, p.sum + 1], none, true, 2, false⟩, [[1, 1]], [flipAt 0],
    ⟨[([1, 1], -1), ([0, 1], -1)], none, 1, false⟩, rfl, by decide +kernel, rfl, by decide +kernel⟩

/-- `r` is the rank of `p` in the batch of individuals evaluated together: -1 exactly if no member of the batch is better in every
objective, and otherwise one less than that of some such member. -/
def RankIn {G : Type} [LinearOrder G] (f : Ind → List G) (batch : List Ind) (p : Ind) (r : ℤ) : Prop :=
  p ∈ batch ∧ r ≤ -1 ∧ (r = -1 ↔ ∀ q ∈ batch, ¬ StrictlyDominates (f q) (f p)) ∧
    (r < -1 → ∃ q ∈ batch, StrictlyDominates (f q) (f p))

private theorem paretoEval_rank {G : Type} [LinearOrder G] [OrderBot G] (f : Ind → List G) (m : ℕ) (hm : 0 < m)
    (hf : ∀ p, (f p).length = m ∧ ∀ x ∈ f p, ⊥ < x) (l : List Ind) : ∀ x ∈ l.zip (paretoEval f l), RankIn f l x.1 x.2 := by
  obtain ⟨ranks, h1, hl, _, h2⟩ := C12_pareto_rank_partial (l.map f) m hm
    (by intro r hr; obtain ⟨p, _, rfl⟩ := List.mem_map.mp hr; exact (hf p).1)
    (by intro r hr; obtain ⟨p, _, rfl⟩ := List.mem_map.mp hr; exact .inl (hf p).2)
  intro x hx
  unfold paretoEval at hx
  rw [h1] at hx
  simp only [Option.getD_some] at hx
  obtain ⟨i, hi, rfl⟩ := List.getElem_of_mem hx
  simp only [List.length_zip] at hi
  have hil : i < l.length := by omega
  have him : i < (l.map f).length := by simpa using hil
  have hget : ∀ p (hp : p < l.length), (l.map f)[p]'(by simpa using hp) = f l[p] := by intro p hp; simp
  obtain ⟨h3, h4, _, h6⟩ := h2 i him (by rw [hget i hil]; exact (hf _).2)
  simp only [List.getElem_zip]
  refine ⟨List.getElem_mem hil, h3, h4.trans ?_, fun h => ?_⟩
  · constructor
    · intro h q hq
      obtain ⟨p, hp, rfl⟩ := List.getElem_of_mem hq
      have := h p (by simpa using hp)
      rwa [hget p hp, hget i hil] at this
    · intro h p hp
      have hp' : p < l.length := by simpa using hp
      rw [hget p hp', hget i hil]
      exact h _ (List.getElem_mem hp')
  · obtain ⟨p, hp, _, hD⟩ := h6 h
    have hp' : p < l.length := by simpa using hp
    rw [hget p hp', hget i hil] at hD
    exact ⟨_, List.getElem_mem hp', hD⟩

/-- C226, several objectives (partial).  In a search for several objectives every individual of the final population is listed with its
rank in the batch it was evaluated with, which is the given population or the offspring of one generation.  Missing: its rank in the
final population (see the violation). -/
theorem C226_pareto_partial {G R S : Type} [LinearOrder G] [OrderBot G] [DecidableEq R] (f : Ind → List G) (m : ℕ) (hm : 0 < m)
    (hf : ∀ p, (f p).length = m ∧ ∀ x ∈ f p, ⊥ < x) (o : Options ℤ R) (he : o.eval = paretoEval f)
    (conv : S → List ℤ → S × Bool) (init : S) (pop : List Ind) (file : Option (List (Ind × ℤ)))
    (gens : List (List (Choice × Extra))) (r : Outcome ℤ) (h : search o conv init pop file gens = some r) :
    ∀ x ∈ r.pop, ∃ batch, (batch = pop ∨ ∃ cs ∈ gens, ∃ parents, newGeneration o.dmax parents cs = some batch) ∧
      RankIn f batch x.1 x.2 := by
  have main : ∀ (todo : List (List (Choice × Extra))) (s : S) (cur : List (Ind × ℤ)) (file : Option (List (Ind × ℤ)))
      (r : Outcome ℤ), (∀ cs ∈ todo, cs ∈ gens) →
      (∀ x ∈ cur, ∃ batch, (batch = pop ∨ ∃ cs ∈ gens, ∃ parents, newGeneration o.dmax parents cs = some batch) ∧
        RankIn f batch x.1 x.2) →
      searchLoop o conv s cur file todo = some r →
      ∀ x ∈ r.pop, ∃ batch, (batch = pop ∨ ∃ cs ∈ gens, ∃ parents, newGeneration o.dmax parents cs = some batch) ∧
        RankIn f batch x.1 x.2 := by
    intro todo
    induction todo with
    | nil => intro s cur file r _ h0 h; simp only [searchLoop, Option.some.injEq] at h; subst h; exact h0
    | cons cs todo ih =>
      intro s cur file r hsub h0 h
      simp only [searchLoop] at h
      split at h
      · cases h
      · rename_i nxt hn
        have hp : ∀ x ∈ nxt, ∃ batch, (batch = pop ∨ ∃ cs ∈ gens, ∃ parents, newGeneration o.dmax parents cs = some batch) ∧
            RankIn f batch x.1 x.2 := by
          unfold nextPop at hn
          split at hn
          · cases hn
          · rename_i off hoff
            cases hn
            intro x hx
            rcases List.mem_append.mp (mem_generation _ _ _ _ _ _ hx) with h | h
            · exact h0 x h
            · rw [he] at h
              exact ⟨off, .inr ⟨cs, hsub cs (by simp), _, hoff⟩, paretoEval_rank f m hm hf off x h⟩
        split at h
        · cases h; exact hp
        · rw [Option.map_eq_some_iff] at h
          obtain ⟨r', hr', rfl⟩ := h
          exact ih _ _ _ r' (fun c hc => hsub c (by simp [hc])) hp hr'
  refine main gens _ _ file r (fun _ h => h) (fun x hx => ⟨pop, .inl rfl, ?_⟩) h
  rw [he] at hx
  exact paretoEval_rank f m hm hf pop x hx

example : ∃ (f : Ind → List ℕ) (r : Outcome ℤ), (∀ p, (f p).length = 2 ∧ ∀ x ∈ f p, ⊥ < x) ∧
    search (⟨none, paretoEval f, none, true, 2, false⟩ : Options ℤ ℤ) (fun (s : Unit) _ => (s, false)) () [[1, 1]] none [flipAt 0] =
      some r ∧ r.pop.length = 2 :=
  ⟨fun p => [p.sum + 1, p.sum + 1], ⟨[([1, 1], -1), ([0, 1], -1)], none, 1, false⟩, fun p => ⟨rfl, by simp⟩, by decide +kernel, rfl⟩

/-! ### Continued searches -/

section
variable {F R : Type} [LinearOrder F] [OrderBot F] [DecidableEq R]

private theorem loop_append (o : Options F R) (rpt : ℕ) (g2 : List (List (Choice × Extra))) :
    ∀ (g1 : List (List (Choice × Extra))) (s0 : Conv F) (cur : List (Ind × F)) (file : Option (List (Ind × F)))
      (r1 : Outcome F),
      searchLoop o (progress rpt) (progress rpt s0 (cur.map Prod.snd)).1 cur file g1 = some r1 → r1.converged = false →
      r1.steps = g1.length ∧
      ∃ s1 : Conv F, searchLoop o (progress rpt) (progress rpt s0 (cur.map Prod.snd)).1 cur file (g1 ++ g2) =
        (searchLoop o (progress rpt) (progress rpt s1 (r1.pop.map Prod.snd)).1 r1.pop r1.file g2).map
          fun r => ⟨r.pop, r.file, r.steps + g1.length, r.converged⟩ := by
  intro g1
  induction g1 with
  | nil =>
    intro s0 cur file r1 h hc
    simp only [searchLoop, Option.some.injEq] at h
    subst h
    refine ⟨rfl, s0, ?_⟩
    simp
  | cons cs g1 ih =>
    intro s0 cur file r1 h hc
    simp only [searchLoop] at h
    simp only [List.cons_append, searchLoop]
    split at h
    · cases h
    · rename_i nxt hn
      try rw [hn]
      try simp only
      split at h
      · cases h; cases hc
      · rename_i hcv
        rw [if_neg hcv]
        rw [Option.map_eq_some_iff] at h
        obtain ⟨r', hr', rfl⟩ := h
        obtain ⟨h1, s1, h2⟩ := ih _ nxt _ r' hr' hc
        refine ⟨by simp [Outcome.later, h1], s1, ?_⟩
        rw [h2, Option.map_map]
        congr 1

private theorem progress_mono (rpt : ℕ) (s s' : Conv F) (fit : List F) (hp : s.previous ≤ s'.previous)
    (hc : s.count ≤ s'.count) :
    (progress rpt s fit).1.previous ≤ (progress rpt s' fit).1.previous ∧
    (progress rpt s fit).1.count ≤ (progress rpt s' fit).1.count ∧
    ((progress rpt s fit).2 = true → (progress rpt s' fit).2 = true) := by
  simp only [progress, noProgress]
  split <;> split
  · simp
  · rename_i h1 h2; simp at h2 ⊢; exact h2
  · rename_i h1 h2; exact absurd (lt_of_le_of_lt hp h2) h1
  · simp; exact ⟨hp, hc, by omega⟩

private theorem loop_mono (o : Options F R) (rpt : ℕ) :
    ∀ (gens : List (List (Choice × Extra))) (s s' : Conv F) (cur : List (Ind × F)) (file : Option (List (Ind × F)))
      (r : Outcome F), s.previous ≤ s'.previous → s.count ≤ s'.count →
      searchLoop o (progress rpt) s cur file gens = some r →
      ∃ r', searchLoop o (progress rpt) s' cur file gens = some r' ∧ r'.steps ≤ r.steps ∧
        (r'.converged = false → r = r') := by
  intro gens
  induction gens with
  | nil =>
    intro s s' cur file r _ _ h
    refine ⟨r, h, le_rfl, fun _ => rfl⟩
  | cons cs gens ih =>
    intro s s' cur file r hp hc h
    simp only [searchLoop] at h ⊢
    split at h
    · cases h
    · rename_i nxt hn
      try rw [hn]
      try simp only
      obtain ⟨m1, m2, m3⟩ := progress_mono rpt s s' (nxt.map Prod.snd) hp hc
      split at h
      · rename_i hcv
        cases h
        rw [if_pos (m3 hcv)]
        exact ⟨_, rfl, le_rfl, fun _ => rfl⟩
      · rw [Option.map_eq_some_iff] at h
        obtain ⟨r0, hr0, rfl⟩ := h
        split
        · exact ⟨_, rfl, by simp [Outcome.later], fun h => by cases h⟩
        · obtain ⟨r', h1, h2, h3⟩ := ih _ _ _ _ _ m1 m2 hr0
          refine ⟨r'.later, by rw [h1]; rfl, by simp [Outcome.later, h2], fun hcv => ?_⟩
          rw [h3 hcv]

/-- C227, in part.  For one objective, a search that did not converge can be continued by a second one from the population it left: if
the search made in one go does not converge, the population, its fitness and the file are the same, and if it does, the two searches
together make at least as many generations. -/
theorem C227_continued_partial (o : Options F R) (f : Ind → F) (he : ∀ l, o.eval l = l.map f) (rpt : ℕ) (pop : List Ind)
    (file : Option (List (Ind × F))) (g1 g2 : List (List (Choice × Extra))) (r1 r2 : Outcome F)
    (h1 : searchDefault o rpt pop file g1 = some r1) (hc : r1.converged = false)
    (h2 : searchDefault o rpt (r1.pop.map Prod.fst) r1.file g2 = some r2) :
    ∃ r, searchDefault o rpt pop file (g1 ++ g2) = some r ∧ r.steps ≤ r1.steps + r2.steps ∧
      (r.converged = false → r2.pop = r.pop ∧ r2.file = r.file ∧ r2.converged = false) := by
  have hpair := C226_fitness o (progress rpt) ⟨⊥, 0⟩ f he pop file g1 r1 h1
  have hz : (r1.pop.map Prod.fst).zip (o.eval (r1.pop.map Prod.fst)) = r1.pop := by
    rw [he]
    generalize r1.pop = l at hpair
    induction l with
    | nil => rfl
    | cons a l ih =>
      simp only [List.map_cons, List.zip_cons_cons]
      rw [ih fun x hx => hpair x (List.mem_cons_of_mem _ hx), ← hpair a (by simp)]
  unfold searchDefault search at h1 h2 ⊢
  simp only at h1 h2 ⊢
  rw [hz] at h2
  obtain ⟨hst, s1, happ⟩ := loop_append o rpt g2 g1 _ _ file r1 h1 hc
  obtain ⟨m1, m2, -⟩ := progress_mono rpt (⟨⊥, 0⟩ : Conv F) s1 (r1.pop.map Prod.snd) bot_le (Nat.zero_le _)
  obtain ⟨r', hr', hs, hcv⟩ := loop_mono o rpt g2 _ _ r1.pop r1.file r2 m1 m2 h2
  rw [happ, hr']
  refine ⟨_, rfl, by simp; omega, fun h => ?_⟩
  have := hcv h
  rw [this]
  exact ⟨rfl, rfl, h⟩

end

example : searchDefault (countOpts false) 1 [[1, 0]] none [flipAt 0] = some ⟨[([1, 0], 1)], none, 1, false⟩ ∧
    searchDefault (countOpts false) 1 [[1, 0]] none [flipAt 1] = some ⟨[([1, 1], 2)], none, 1, false⟩ := by decide +kernel

/-- C227 is violated: the second search starts to count afresh, so a search that would have stopped goes on when it is interrupted, and
ends with another population. -/
theorem C227_counts_afresh_violated :
    ∃ (o : Options ℕ ℕ) (f : Ind → ℕ) (rpt : ℕ) (pop : List Ind) (g1 g2 : List (List (Choice × Extra))) (r1 r2 r : Outcome ℕ),
      (∀ l, o.eval l = l.map f) ∧ searchDefault o rpt pop none g1 = some r1 ∧ r1.converged = false ∧
      searchDefault o rpt (r1.pop.map Prod.fst) none g2 = some r2 ∧ searchDefault o rpt pop none (g1 ++ g2) = some r ∧
      r.converged = true ∧ r2.converged = false ∧ r.pop ≠ r2.pop :=
  ⟨countOpts false, List.sum, 1, [[1, 0]], [flipAt 0], [flipAt 0, flipAt 1], ⟨[([1, 0], 1)], none, 1, false⟩,
    ⟨[([1, 1], 2)], none, 2, false⟩, ⟨[([1, 0], 1)], none, 2, true⟩, fun _ => rfl, by decide +kernel, rfl, by decide +kernel,
    by decide +kernel, rfl, rfl, by decide⟩

/-- C227 is violated with several objectives whatever the criterion: the second search computes other ranks for the same population,
and natural selection then keeps other individuals. -/
theorem C227_pareto_violated :
    ∃ (f : Ind → List ℕ) (o : Options ℤ ℤ) (pop : List Ind) (g1 g2 : List (List (Choice × Extra))) (r1 r2 r : Outcome ℤ),
      o.eval = paretoEval f ∧ search o (fun (s : Unit) _ => (s, false)) () pop none g1 = some r1 ∧
      search o (fun (s : Unit) _ => (s, false)) () (r1.pop.map Prod.fst) none g2 = some r2 ∧
      search o (fun (s : Unit) _ => (s, false)) () pop none (g1 ++ g2) = some r ∧ r.pop.map Prod.fst ≠ r2.pop.map Prod.fst :=
  ⟨fun p => [p.sum + 1, p.sum + 1], ⟨none, paretoEval fun p => [p.sum + 1, p.sum + 1], none, true, 2, false⟩, [[1, 1]], [flipAt 0],
    [flipAt 1], ⟨[([1, 1], -1), ([0, 1], -1)], none, 1, false⟩, ⟨[([1, 1], -1), ([1, 0], -1)], none, 1, false⟩,
    ⟨[([1, 1], -1), ([0, 1], -1)], none, 2, false⟩, rfl, by decide +kernel, by decide +kernel, by decide +kernel, by decide⟩

end CatLearn.GASearch
