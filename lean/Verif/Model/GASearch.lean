import Verif.Model.GA

/-!
# The whole of `GeneticAlgorithm.search`: convergence, the data file and repeated searches

catlearn/ga/algorithm.py L98-166 and catlearn/ga/io.py.  The random choices of the generations are given; the fitness values
are those of the evaluation `eval` (L142, L246-281).
-/

namespace CatLearn.GASearch

open CatLearn CatLearn.GA

/-- `np.max(fitness)` (ga/convergence.py L32-33); `-inf` stands for the value of an empty list, for which numpy raises
(`search` never checks an empty population: see `C06_population_size`, `C06_population_size_dedup`). -/
def maxFit {F : Type} [LinearOrder F] [OrderBot F] (l : List F) : F := l.foldr max ⊥

/-- What a search leaves behind: the population with its fitness (`self.population`, `self.fitness`), the data in the file, the
number of generations made and whether it stopped because the criterion said so. -/
structure Outcome (F : Type) where
  pop : List (Ind × F)
  file : Option (List (Ind × F))
  steps : ℕ
  converged : Bool
  deriving DecidableEq

/-- The generations made so far counted in (`self.step`, L138). -/
def Outcome.later {F : Type} (r : Outcome F) : Outcome F := ⟨r.pop, r.file, r.steps + 1, r.converged⟩

/-- The options of the object and of the search: `dmax`, the evaluation, the rounding by `accuracy`, `natural_selection`,
`population_size` and whether there is a `writefile`. -/
structure Options (F R : Type) where
  dmax : Option ℕ
  eval : List Ind → List F
  rnd : Option (F → R)
  natural : Bool
  size : ℕ
  write : Bool

/-- One generation, L139-156: the offspring of the choices are evaluated, appended and reduced. -/
def nextPop {F R : Type} [LinearOrder F] [DecidableEq R] (o : Options F R) (cur : List (Ind × F))
    (cs : List (Choice × Extra)) : Option (List (Ind × F)) :=
  match newGeneration o.dmax (cur.map Prod.fst) cs with
  | none => none
  | some off => some (generation o.rnd o.natural o.size cur (off.zip (o.eval off)))

/-- The loop of `search`, L138-166.  `conv` is the criterion with its state; `file` the contents of the file before. -/
def searchLoop {F R S : Type} [LinearOrder F] [DecidableEq R] (o : Options F R) (conv : S → List F → S × Bool) :
    S → List (Ind × F) → Option (List (Ind × F)) → List (List (Choice × Extra)) → Option (Outcome F)
  | _, cur, file, [] => some ⟨cur, file, 0, false⟩
  | s, cur, file, cs :: gens =>
    match nextPop o cur cs with
    | none => none
    | some nxt =>
      let file := if o.write then some nxt else file                     -- L161-162
      let r := conv s (nxt.map Prod.snd)                                  -- L164
      if r.2 then some ⟨nxt, file, 1, true⟩
      else (searchLoop o conv r.1 nxt file gens).map Outcome.later

/-- `search(steps, …)`, L98-166: the population is evaluated (L127), the criterion is called once on it and its answer is ignored
(L135), then one generation for every element of `gens`. -/
def search {F R S : Type} [LinearOrder F] [DecidableEq R] (o : Options F R) (conv : S → List F → S × Bool) (init : S)
    (pop : List Ind) (file : Option (List (Ind × F))) (gens : List (List (Choice × Extra))) : Option (Outcome F) :=
  let cur := pop.zip (o.eval pop)
  searchLoop o conv (conv init (cur.map Prod.snd)).1 cur file gens

/-- The default criterion (L131-134): `no_progress` of a new `Convergence` object. -/
def progress {F : Type} [LinearOrder F] [OrderBot F] (rpt : ℕ) (s : Conv F) (fit : List F) : Conv F × Bool :=
  noProgress rpt s (maxFit fit)

/-- `search` without a criterion of the caller. -/
def searchDefault {F R : Type} [LinearOrder F] [OrderBot F] [DecidableEq R] (o : Options F R) (rpt : ℕ)
    (pop : List Ind) (file : Option (List (Ind × F))) (gens : List (List (Choice × Extra))) : Option (Outcome F) :=
  search o (progress rpt) ⟨⊥, 0⟩ pop file gens

/-- `read_data(writefile)`, ga/io.py L22-43: the two arrays of the file, `none` if there is no file. -/
def readData {F : Type} (file : Option (List (Ind × F))) : Option (List Ind × List F) :=
  file.map fun d => (d.map Prod.fst, d.map Prod.snd)

/-- The fitness of several objectives: ranks within the evaluated list (L277-278). -/
def paretoEval {G : Type} [LinearOrder G] [OrderBot G] (f : Ind → List G) (l : List Ind) : List ℤ :=
  (paretoTransform (l.map f)).getD []

end CatLearn.GASearch
