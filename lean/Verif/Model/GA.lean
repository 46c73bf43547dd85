import Verif.Model.Py
import Mathlib.Order.Basic
import Mathlib.Order.BoundedOrder.Basic
import Mathlib.Data.Rat.Defs
import Mathlib.Algebra.Order.Field.Rat
import Mathlib.Data.List.Permutation

/-!
# Model of the genetic algorithm, `catlearn/ga/*.py`

An individual is the list of its genes; the code stores the floats `0.` and `1.`, here natural
numbers.  Fitness values live in a linear order `F`; `⊥` plays `-inf` where it matters.  NaN is not
modelled.
-/

namespace CatLearn.GA

open CatLearn

/-- An individual (`ga/initialize.py` L15: a row of an array of zeros and ones). -/
abbrev Ind := List Nat

/-! ### `ga/mutate.py`, `ga/mating.py`, `ga/initialize.py` -/

/-- `random_permutation(parent_one)`, `ga/mutate.py` L6-26; `index` is the draw of
`np.random.randint(len(parent_one))` (L20), which raises ValueError for an empty parent. -/
def randomPermutation (p : Ind) (index : Nat) : Ind :=
  p.set index (if p[index]? = some 1 then 0 else 1)

/-- The loop of `probability_remove`, `ga/mutate.py` L44-46.  `u i` is the draw made at position `i`
(the code draws only where the gene is 1; unused values of `u` do not matter). -/
def removeLoop (u : Nat → Rat) (prob : Rat) (p : Ind) : Ind :=
  p.mapIdx fun i g => if g = 1 ∧ u i ≥ prob then 0 else g

/-- `probability_remove(parent_one)`, `ga/mutate.py` L29-53.  `prob` is the draw on L43, `fallback`
the draw of `randint` on L50. -/
def probabilityRemove (p : Ind) (prob : Rat) (u : Nat → Rat) (fallback : Nat) : Ind :=
  let p1 := removeLoop u prob p
  if (p1.filter (· = 0)).length = p1.length then p1.set fallback 1 else p1   -- L49-51

/-- `probability_include(parent_one)`, `ga/mutate.py` L56-75. -/
def probabilityInclude (p : Ind) (prob : Rat) (u : Nat → Rat) : Ind :=
  p.mapIdx fun i g => if g = 0 ∧ u i ≥ prob then 1 else g

/-- `cut_and_splice(parent_one, parent_two)`, `ga/mating.py` L5-32; `cut` is the draw of
`np.random.randint(1, len(parent_one))` (L24): `1 ≤ cut < len`. -/
def cutAndSplice (p1 p2 : Ind) (cut : Nat) : Ind := p1.take cut ++ p2.drop cut

/-- One row of `initialize_population`, `ga/initialize.py` L24-27: the positions chosen by
`np.random.choice(n_active, k, replace=False)` are set to 1. -/
def initIndividual (dimension : Nat) (chosen : List Nat) : Ind :=
  chosen.foldl (fun p i => p.set i 1) (List.replicate dimension 0)

/-- The admissible random choices on L24-25: between 1 and `dmax` distinct positions below `dmax`
(`dmax` defaults to `dimension`, L18-22). -/
def InitChoice (dmax : Nat) (chosen : List Nat) : Prop :=
  chosen.Nodup ∧ (∀ i ∈ chosen, i < dmax) ∧ 1 ≤ chosen.length ∧ chosen.length ≤ dmax

/-! ### `_new_generation` -/

/-- The random choices that produce one offspring (`ga/algorithm.py` L177-199): the selected parents
(as positions in the population), the operator and its draws. -/
inductive Choice where
  | mate (p1 p2 : Nat) (cut : Nat)                                     -- L187-191
  | flip (p1 : Nat) (index : Nat)                                      -- L194-195
  | remove (p1 : Nat) (prob : Rat) (u : Nat → Rat) (fallback : Nat)
  | incl (p1 : Nat) (prob : Rat) (u : Nat → Rat)

/-- The draws of the extra `probability_remove` on L196-198. -/
structure Extra where
  prob : Rat
  u : Nat → Rat
  fallback : Nat

/-- A choice the code can make for a population of individuals of length `d`: parents are members,
draws are in range.  The two mates may be the same member: `p2 is p1` (L189) compares objects, and a
numpy population (the initial one, or every one without natural selection) hands out a new view at
each access. -/
def Choice.Valid (n d : Nat) : Choice → Prop
  | .mate p1 p2 cut => p1 < n ∧ p2 < n ∧ 1 ≤ cut ∧ cut < d
  | .flip p1 index => p1 < n ∧ index < d
  | .remove p1 _ _ fallback => p1 < n ∧ fallback < d
  | .incl p1 _ _ => p1 < n

/-- A mutant with more than `dmax` features is passed once through `probability_remove`
(`ga/algorithm.py` L196-198). -/
def limitMutant (dmax : Option Nat) (e : Extra) (m : Ind) : Ind :=
  match dmax with
  | none => m
  | some k => if m.sum > k then probabilityRemove m e.prob e.u e.fallback else m

/-- The offspring made by one choice, `ga/algorithm.py` L187-199.  Only mutants are limited, children
of a mating are not. -/
def offspring (dmax : Option Nat) (pop : List Ind) (e : Extra) : Choice → Option Ind
  | .mate p1 p2 cut => do some (cutAndSplice (← pop[p1]?) (← pop[p2]?) cut)
  | .flip p1 index => do some (limitMutant dmax e (randomPermutation (← pop[p1]?) index))
  | .remove p1 prob u fb => do some (limitMutant dmax e (probabilityRemove (← pop[p1]?) prob u fb))
  | .incl p1 prob u => do some (limitMutant dmax e (probabilityInclude (← pop[p1]?) prob u))

/-- `_new_generation`, `ga/algorithm.py` L168-201: one offspring per choice. -/
def newGeneration (dmax : Option Nat) (pop : List Ind) (cs : List (Choice × Extra)) :
    Option (List Ind) :=
  cs.mapM fun c => offspring dmax pop c.2 c.1

/-! ### `ga/natural_selection.py` -/

/-- `population_reduction(pop, fit, population_size)`, `ga/natural_selection.py` L5-34: stable sort by
descending fitness (`list.sort(reverse=True)` is stable), then the first `population_size`. -/
def populationReduction {A F : Type} [LinearOrder F] (pop : List (A × F)) (size : Nat) :
    List (A × F) :=
  (sortDesc Prod.snd pop).take size

/-- `remove_duplicates(population, fitness, accuracy)`, `ga/natural_selection.py` L49-83: walks over
the population with the set `seen` of rounded fitness values already met (the code deletes them from
the list of unique values) and keeps the first individual of each.  `rnd` is `np.round(·, accuracy)`. -/
def removeDuplicates {A F R : Type} [DecidableEq R] (rnd : F → R) :
    List R → List (A × F) → List (A × F)
  | _, [] => []
  | seen, x :: xs =>
    if rnd x.2 ∈ seen then removeDuplicates rnd seen xs
    else x :: removeDuplicates rnd (rnd x.2 :: seen) xs

/-- One generation of `search`, `ga/algorithm.py` L139-156, on the list of (individual, fitness):
offspring are evaluated and appended (L142-148), duplicates are removed when an accuracy is given
(L151-153), and natural selection keeps the best `size` (L154-156). -/
def generation {A F R : Type} [LinearOrder F] [DecidableEq R] (rnd : Option (F → R))
    (natural : Bool) (size : Nat) (cur new : List (A × F)) : List (A × F) :=
  let all := cur ++ new
  let all := match rnd with
    | none => all
    | some r => removeDuplicates r [] all
  if natural then populationReduction all size else all

/-- The loop of `search`, `ga/algorithm.py` L138-156, over the choices made in successive generations.
`eval` evaluates a list of individuals (L142): per individual in single-objective mode, with ranks
within the list in Pareto mode.  Stopping by convergence (L164) just ends the list of generations
earlier.  `none` when a choice refers to a missing parent. -/
def search {F R : Type} [LinearOrder F] [DecidableEq R] (dmax : Option Nat)
    (eval : List Ind → List F) (rnd : Option (F → R)) (natural : Bool) (size : Nat) :
    List (Ind × F) → List (List (Choice × Extra)) → Option (List (Ind × F))
  | cur, [] => some cur
  | cur, cs :: gens => do
    let off ← newGeneration dmax (cur.map Prod.fst) cs
    search dmax eval rnd natural size
      (generation rnd natural size cur (off.zip (eval off))) gens

/-! ### `_selection` -/

/-- The ranking of `_selection`, `ga/algorithm.py` L224: positions sorted by (fitness, position)
descending. -/
def ranking {F : Type} [LinearOrder F] (fit : List F) : List Nat :=
  ((fit.zip (List.range fit.length)).insertionSort
    fun a b => b.1 < a.1 ∨ (b.1 = a.1 ∧ b.2 ≤ a.2)).map Prod.snd

/-- The acceptance probability given to position `i`, `ga/algorithm.py` L227-232: the `k`-th of the
ranking (from 0) gets `(k+1)/(length+2)`. -/
def acceptance {F : Type} [LinearOrder F] (fit : List F) (i : Nat) : Rat :=
  (((ranking fit).idxOf i : Rat) + 1) / ((fit.length : Rat) + 2)

/-- The loop of `_selection`, `ga/algorithm.py` L235-245: `order` is the shuffled list of positions
(L220-221), `draws` the uniform draws (L242).  Returns the selected position, or `none`. -/
def selectLoop (acc : Nat → Rat) : List Nat → List Rat → Option Nat
  | i :: order, u :: draws => if acc i > u then some i else selectLoop acc order draws
  | _, _ => none

/-- `_selection`, `ga/algorithm.py` L203-245: the selected position in the population. -/
def selection {F : Type} [LinearOrder F] (fit : List F) (order : List Nat) (draws : List Rat) :
    Option Nat :=
  selectLoop (acceptance fit) order draws

/-- The search for a mate, `ga/algorithm.py` L188-190: selections are repeated while the result is
`None` or is (the same object as) the first parent.  `isList`: the population is a list of arrays, as
`population_reduction` returns it, and `is` compares positions; otherwise it is a numpy array, each
access makes a new view and `is` is never true.  `attempts` are the shuffles and draws of the
successive calls; `none` means that all of them were rejected, so the loop is still running. -/
def pickMate {F : Type} [LinearOrder F] (isList : Bool) (fit : List F) (p1 : Nat) :
    List (List Nat × List Rat) → Option Nat
  | [] => none
  | a :: attempts =>
    match selection fit a.1 a.2 with
    | none => pickMate isList fit p1 attempts
    | some p2 => if isList && p2 == p1 then pickMate isList fit p1 attempts else some p2

/-! ### Fitness evaluation, serial and parallel -/

/-- `_serial_iterator` with one process, `ga/algorithm.py` L261-274: `fit[index]` is the fitness of
individual `index`. -/
def serialFitness {G : Type} (f : Ind → G) (pop : List Ind) : List G := pop.map f

/-- Writing the results `(x, value)` in arrival order into an array (`fit[r[0]] = r[1]`, L301-302). -/
def scatter {G : Type} (init : List G) (results : List (Nat × G)) : List G :=
  results.foldl (fun fit r => fit.set r.1 r.2) init

/-- `_parallel_iterator`, `ga/algorithm.py` L283-306.  `i` is the reordering of L288 (`argsort` of the
number of active features, reversed; any order of ties), `arrivals` the results of the workers in
the order they arrive (L301), `zero` the initial zeros (L284).  `fit[np.argsort(i)]` (L305) puts at
place `k` the result of position `x` with `i[x] = k`. -/
def parallelFitness {G : Type} (zero : G) (n : Nat) (i : List Nat) (arrivals : List (Nat × G)) :
    List G :=
  let fit := scatter (List.replicate n zero) arrivals
  (List.range n).map fun k => (fit[i.idxOf k]?).getD zero

/-- The results the workers compute: worker `x` evaluates individual `i[x]` (L289-299). -/
def workerResults {G : Type} (f : Ind → G) (pop : List Ind) (i : List Nat) : List (Nat × G) :=
  (List.range i.length).filterMap fun x =>
    (i[x]?).bind fun k => (pop[k]?).map fun p => (x, f p)

/-! ### `_cross_validate` -/

/-- The (test, train) row lists of the folds used by `_cross_validate`, `ga/algorithm.py` L396-405:
fold `k` is popped for testing, the others are concatenated for training. -/
def cvSplits {ρ : Type} (folds : List (List ρ)) : List (List ρ × List ρ) :=
  (List.range folds.length).map fun k => ((folds[k]?).getD [], (folds.eraseIdx k).flatten)

/-! ### Pareto ranking -/

/-- Does the front keep row `q` when row `p` is visited?  `np.any(fitness[front] >= fit, axis=1)`,
`ga/algorithm.py` L348-349. -/
def keeps {F : Type} [LinearOrder F] (p q : List F) : Bool :=
  (q.zip p).any fun c => decide (c.2 ≤ c.1)

/-- The sweep of `_locate_pareto`, `ga/algorithm.py` L345-351, over the row numbers `todo`;
`front` are the rows still marked True. -/
def sweep {F : Type} [LinearOrder F] (rows : List (List F)) : List Nat → List Nat → List Nat
  | [], front => front
  | i :: todo, front =>
    if i ∈ front then
      sweep rows todo (front.filter fun j => keeps ((rows[i]?).getD []) ((rows[j]?).getD []))
    else sweep rows todo front

/-- `_locate_pareto(fitness)`: the row numbers of the current front. -/
def locatePareto {F : Type} [LinearOrder F] (rows : List (List F)) : List Nat :=
  sweep rows (List.range rows.length) (List.range rows.length)

/-- The `while` loop of `_pareto_transform`, `ga/algorithm.py` L324-328, with fuel; the rank assigned
next is `-rank`.  Runs out of fuel: `none`. -/
def paretoLoop {F : Type} [LinearOrder F] [OrderBot F] :
    Nat → Nat → List (List F) → List Int → Option (List Int)
  | 0, _, rows, result =>
    if rows.any (fun r => r.any fun x => decide (⊥ < x)) then none else some result
  | fuel + 1, rank, rows, result =>
    if rows.any (fun r => r.any fun x => decide (⊥ < x)) then        -- L324
      let front := locatePareto rows                                  -- L325
      let result := result.mapIdx fun i r => if i ∈ front then -(rank : Int) else r   -- L326
      let rows := rows.mapIdx fun i r => if i ∈ front then r.map (fun _ => ⊥) else r  -- L327
      paretoLoop fuel (rank + 1) rows result                          -- L328
    else some result

/-- `_pareto_transform(fitness)`, `ga/algorithm.py` L308-330: initial result 0 for every row, ranks
-1, -2, …  The fuel `number of rows` is proved sufficient where the theorem says so. -/
def paretoTransform {F : Type} [LinearOrder F] [OrderBot F] (rows : List (List F)) :
    Option (List Int) :=
  paretoLoop rows.length 1 rows (List.replicate rows.length 0)

/-! ### `ga/convergence.py` -/

/-- State of the `no_progress` criterion, `ga/convergence.py` L8-12 (`previous = -inf`). -/
structure Conv (F : Type) where
  previous : F
  count : Nat

/-- `Convergence.no_progress(fitness, repeat)`, L14-40, on `best = np.max(fitness)`. -/
def noProgress {F : Type} [LinearOrder F] (rpt : Nat) (s : Conv F) (best : F) : Conv F × Bool :=
  let s := if best > s.previous then ⟨best, 0⟩ else ⟨s.previous, s.count + 1⟩
  (s, decide (s.count > rpt))

/-- The answers of successive calls of a criterion. -/
def runConv {S B : Type} (f : S → B → S × Bool) : S → List B → List Bool
  | _, [] => []
  | s, b :: bs => (f s b).2 :: runConv f (f s b).1 bs

/-- `Convergence.stagnation(fitness, repeat)`, L42-68, on `pair = (min, max)`; `previous` is `none`
before the first call (the code compares the tuple with the float `-inf`, which is never equal). -/
def stagnation {F : Type} [DecidableEq F] (rpt : Nat) (s : Conv (Option (F × F)))
    (pair : F × F) : Conv (Option (F × F)) × Bool :=
  let s := if some pair ≠ s.previous then ⟨some pair, 0⟩ else ⟨s.previous, s.count + 1⟩
  (s, decide (s.count > rpt))

end CatLearn.GA
