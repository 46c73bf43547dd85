import Verif.Model.GASearch
import Mathlib.Data.Rat.Floor

/-!
# Searches of the genetic algorithm driven by their random numbers

catlearn/ga/algorithm.py L98-245.  In `Model/GASearch` the parents of a generation are given; here they are computed from the
fitness of the population and the numbers drawn by `random` and `numpy.random`, which are given.
-/

namespace CatLearn.GADraws

open CatLearn CatLearn.GA CatLearn.GASearch

/-- The shuffles (L221) and uniform draws (L242) of successive calls of `_selection`. -/
abbrev Attempts := List (List ℕ × List ℚ)

/-- The operator chosen on L183 with its own draws; for a mating also the calls of `_selection` on L190. -/
inductive OpDraw where
  | mate (attempts : Attempts) (cut : ℕ)
  | flip (index : ℕ)
  | remove (prob : ℚ) (u : ℕ → ℚ) (fallback : ℕ)
  | incl (prob : ℚ) (u : ℕ → ℚ)

/-- Everything drawn for one offspring, L177-199. -/
structure Draw where
  first : Attempts
  op : OpDraw
  extra : Extra

/-- The first parent, L178-180: `_selection` is repeated until it returns an individual.  `none` means that all attempts given
were rejected: the loop is still running. -/
def firstParent {F : Type} [LinearOrder F] (fit : List F) : Attempts → Option ℕ
  | [] => none
  | a :: rest =>
    match selection fit a.1 a.2 with
    | some p => some p
    | none => firstParent fit rest

/-- The choice made for one offspring, L177-199.  For `isList` see `pickMate`. -/
def chosen {F : Type} [LinearOrder F] (isList : Bool) (fit : List F) (d : Draw) : Option (Choice × Extra) :=
  match firstParent fit d.first with
  | none => none
  | some p1 =>
    match d.op with
    | .mate attempts cut => (pickMate isList fit p1 attempts).map fun p2 => (.mate p1 p2 cut, d.extra)
    | .flip index => some (.flip p1 index, d.extra)
    | .remove prob u fallback => some (.remove p1 prob u fallback, d.extra)
    | .incl prob u => some (.incl p1 prob u, d.extra)

/-- The choices of a generation, L176-199. -/
def choices {F : Type} [LinearOrder F] (isList : Bool) (fit : List F) (ds : List Draw) : Option (List (Choice × Extra)) :=
  ds.mapM (chosen isList fit)

/-- The loop of `search`, L138-166, as `GASearch.searchLoop`.  After a natural selection the population is a list
(natural_selection.py L29-34), otherwise the array of L147-148. -/
def loop {F R S : Type} [LinearOrder F] [DecidableEq R] (o : Options F R) (conv : S → List F → S × Bool) :
    Bool → S → List (Ind × F) → Option (List (Ind × F)) → List (List Draw) → Option (Outcome F)
  | _, _, cur, file, [] => some ⟨cur, file, 0, false⟩
  | isList, s, cur, file, ds :: gens =>
    match choices isList (cur.map Prod.snd) ds with
    | none => none
    | some cs =>
      match nextPop o cur cs with
      | none => none
      | some nxt =>
        let file := if o.write then some nxt else file
        let r := conv s (nxt.map Prod.snd)
        if r.2 then some ⟨nxt, file, 1, true⟩
        else (loop o conv o.natural r.1 nxt file gens).map Outcome.later

/-- `search(steps, …)`, L98-166; `isList` says whether `self.population` was given as a list. -/
def run {F R S : Type} [LinearOrder F] [DecidableEq R] (o : Options F R) (conv : S → List F → S × Bool) (init : S)
    (isList : Bool) (pop : List Ind) (file : Option (List (Ind × F))) (gens : List (List Draw)) : Option (Outcome F) :=
  let cur := pop.zip (o.eval pop)
  loop o conv isList (conv init (cur.map Prod.snd)).1 cur file gens

/-- `search` with the default criterion, L131-135. -/
def runDefault {F R : Type} [LinearOrder F] [OrderBot F] [DecidableEq R] (o : Options F R) (rpt : ℕ) (isList : Bool)
    (pop : List Ind) (file : Option (List (Ind × F))) (gens : List (List Draw)) : Option (Outcome F) :=
  run o (progress rpt) ⟨⊥, 0⟩ isList pop file gens

/-- `np.round(fitness, accuracy)`, natural_selection.py L70, as a whole number of units of the last decimal.  (numpy rounds
halves to even; here they are rounded up, which only matters for such values.) -/
def roundTo (accuracy : ℕ) (x : ℚ) : ℤ := ⌊x * 10 ^ accuracy + 1 / 2⌋

end CatLearn.GADraws
