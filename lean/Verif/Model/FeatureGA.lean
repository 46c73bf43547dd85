import Verif.Model.Py
import Mathlib.Data.List.Dedup
import Mathlib.Data.List.Sublists
import Mathlib.Data.Rat.Floor
import Mathlib.Algebra.Order.Field.Rat

/-!
`GAFeatureSelection`, catlearn/featurize/site_stability.py L837-1095: selection of feature combinations with a genetic
algorithm.  A chromosome is the list of the indices of its features.  The cross validation score of a list of features is
a parameter (the seeds are set before each evaluation, so it is a function); scores are rational, no rounding.
-/

namespace CatLearn.FeatureGA

open CatLearn

/-- An entry `[chromosome, fitness, score]` of `self.population` (site_stability.py L980): `tup[0]`, `tup[1]`, `tup[2]`.
`self.genes` are the chromosomes of the population, the same list objects (L900, L1011). -/
structure Ind where
  genes : List ℕ
  fit : ℚ
  score : ℚ
deriving DecidableEq, Repr

/-- The random draws of one generation. -/
structure Rng where
  /-- `random.shuffle(parent1)`, `random.shuffle(parent2)` in round `i` (L991, L993). -/
  shuffle : ℕ → Bool → List ℕ → List ℕ
  /-- `list(set(chromosome))`, the order of a set is not specified (L1026). -/
  setOrder : List ℕ → List ℕ
  /-- `np.random.choice(new_candidates, size, replace=False)` for chromosome `i` (L1027). -/
  choice : ℕ → List ℕ → ℕ → List ℕ
  /-- `random.randint(1, 20)` (L1039). -/
  percent : ℕ
  /-- `random.sample(range(self.population_size), 1)[0]` in round `i` (L1043). -/
  genePos : ℕ → ℕ
  /-- `random.sample(range(self.n_features), 1)[0]` (L1045). -/
  chromPos : ℕ → ℕ
  /-- `random.sample(new_chromosome_candidates, 1)[0]` (L1048). -/
  newGene : ℕ → List ℕ → ℕ

/-- What the random functions promise, for population size `N` and `n` features per chromosome. -/
structure Rng.Ok (r : Rng) (N n : ℕ) : Prop where
  shuffle : ∀ i b l, (r.shuffle i b l).Perm l
  setOrder : ∀ l, (r.setOrder l).Perm l.dedup
  choice : ∀ i l k, l.Nodup → k ≤ l.length → (r.choice i l k).Nodup ∧ (r.choice i l k).length = k ∧
    ∀ g ∈ r.choice i l k, g ∈ l
  percent : 1 ≤ r.percent ∧ r.percent ≤ 20
  genePos : ∀ i, 0 < N → r.genePos i < N
  chromPos : ∀ i, 0 < n → r.chromPos i < n
  newGene : ∀ i l, l ≠ [] → r.newGene i l ∈ l

/-- The chromosomes of `random_genes(n)` (L925-940): all combinations of `n` features (`unique_set`, L149-159), shuffled
twice (`sh` is the result of both shuffles), the first `N`. -/
def randomGenes (T n N : ℕ) (sh : List (List ℕ) → List (List ℕ)) : List (List ℕ) :=
  (sh ((List.range T).sublistsLen n)).take N

/-- `get_fitness(chromosomes)`, L961-981. -/
def getFitness (score : List ℕ → ℚ) (cs : List (List ℕ)) : List Ind :=
  sortDesc Ind.fit (cs.map fun c => ⟨c, score c, score c⟩)

/-- One round of the loop in `crossover`, L989-994: the parents are shuffled in place; for `i = 0` both parents are the
same list. -/
def mateStep (r : Rng) (c i : ℕ) (s : List (List ℕ) × List (List ℕ)) :
    Except PyErr (List (List ℕ) × List (List ℕ)) :=
  match s.1[i]? with
  | none => .error .index
  | some p1 =>
    let ps := s.1.set i (r.shuffle i false p1)
    match ps[i + i]? with
    | none => .error .index
    | some p2 =>
      let ps' := ps.set (i + i) (r.shuffle i true p2)
      .ok (ps', s.2 ++ [(ps'.getD i []).take c ++ (ps'.getD (i + i) []).drop c])

/-- The rounds `i, i + 1, …` of that loop. -/
def mateLoop (r : Rng) (c : ℕ) : ℕ → ℕ → List (List ℕ) × List (List ℕ) →
    Except PyErr (List (List ℕ) × List (List ℕ))
  | 0, _, s => .ok s
  | k + 1, i, s =>
    match mateStep r c i s with
    | .error e => .error e
    | .ok s' => mateLoop r c k (i + 1) s'

/-- One chromosome in `mutate_duplicate_chromosomes`, L1021-1028. -/
def fixDuplicate (r : Rng) (T i : ℕ) (c : List ℕ) : Except PyErr (List ℕ) :=
  if c.length = c.dedup.length then .ok c
  else
    let k := c.length - c.dedup.length
    let cands := (List.range T).filter (· ∉ c)
    if cands.length < k then .error .value else .ok (r.setOrder c ++ r.choice i cands k)

/-- `mutate_duplicate_chromosomes`, L1014-1029, from chromosome `i` on. -/
def fixDuplicates (r : Rng) (T : ℕ) : ℕ → List (List ℕ) → Except PyErr (List (List ℕ))
  | _, [] => .ok []
  | i, c :: cs =>
    match fixDuplicate r T i c with
    | .error e => .error e
    | .ok c' =>
      match fixDuplicates r T (i + 1) cs with
      | .error e => .error e
      | .ok cs' => .ok (c' :: cs')

/-- `np.percentile(l, p)` (L916) with the default linear interpolation. -/
def percentile (p : ℚ) (l : List ℚ) : ℚ :=
  let a := sortAsc id l
  let pos := p / 100 * ((l.length : ℚ) - 1)
  let lo := ⌊pos⌋.toNat
  a.getD lo 0 + (pos - lo) * (a.getD (lo + 1) (a.getD lo 0) - a.getD lo 0)

/-- The loop on L1004-1005. -/
def lower (k : ℕ) (adj : ℚ) (pop : List Ind) : List Ind :=
  pop.mapIdx fun i x => if i < k then { x with fit := x.fit * adj } else x

/-- `crossover()`, L983-1012: `m` is the offspring size, `T` the number of features. -/
def crossover (score : List ℕ → ℚ) (m T : ℕ) (r : Rng) (pop : List Ind) : Except PyErr (List Ind) :=
  match pop with
  | [] => .error .index
  | p0 :: _ =>
    match mateLoop r (p0.genes.length / 2) m 0 (pop.map Ind.genes, []) with
    | .error e => .error e
    | .ok (ps, off) =>
      let pop1 := List.zipWith (fun (x : Ind) g => { x with genes := g }) pop ps
      match fixDuplicates r T 0 off with
      | .error e => .error e
      | .ok off' =>
        let offspring := getFitness score off'
        if pop1.length < off'.length + 1 then .error .index
        else
          let pop2 := lower (off'.length + 1) (percentile 75 (pop1.map Ind.score)) pop1
          .ok (sortDesc Ind.fit (pop2.take (pop2.length - offspring.length) ++ offspring))

/-- One round of `mutate`, L1042-1049.  The chromosome is changed in place, so the entry of the population changes
with it; its fitness and score stay. -/
def mutateStep (N n T : ℕ) (r : Rng) (j : ℕ) (pop : List Ind) : Except PyErr (List Ind) :=
  if N = 0 then .error .value
  else
    match pop[r.genePos j]? with
    | none => .error .index
    | some x =>
      if n = 0 then .error .value
      else
        let cands := (List.range T).filter (· ∉ x.genes)
        if cands = [] then .error .value
        else if x.genes.length ≤ r.chromPos j then .error .index
        else .ok (pop.set (r.genePos j) { x with genes := x.genes.set (r.chromPos j) (r.newGene j cands) })

/-- `k` rounds of `mutate` from round `j` on. -/
def mutateLoop (N n T : ℕ) (r : Rng) : ℕ → ℕ → List Ind → Except PyErr (List Ind)
  | 0, _, pop => .ok pop
  | k + 1, j, pop =>
    match mutateStep N n T r j pop with
    | .error e => .error e
    | .ok pop' => mutateLoop N n T r k (j + 1) pop'

/-- `mutate()`, L1037-1051 (the number of mutations without the rounding of the floating point product). -/
def mutate (N n T : ℕ) (r : Rng) (pop : List Ind) : Except PyErr (List Ind) :=
  mutateLoop N n T r (pop.length * r.percent / 100) 0 pop

/-- One generation of `evolve`, L1069-1070. -/
def generation (score : List ℕ → ℚ) (m N n T : ℕ) (r : Rng) (pop : List Ind) : Except PyErr (List Ind) :=
  match crossover score m T r pop with
  | .error e => .error e
  | .ok pop' => mutate N n T r pop'

/-- The population after the generations of `evolve`, L1053-1084, with the draws `r i` in generation `i`. -/
def evolve (score : List ℕ → ℚ) (m N n T : ℕ) (r : ℕ → Rng) : ℕ → List Ind → Except PyErr (List Ind)
  | 0, pop => .ok pop
  | k + 1, pop =>
    match evolve score m N n T r k pop with
    | .error e => .error e
    | .ok pop' => generation score m N n T (r k) pop'

/-- `max_population_fitness`, L920-923 (`none`: `np.max` of nothing raises). -/
def maxFitness (pop : List Ind) : Option ℚ := (pop.map Ind.score).max?

/-- `homogeneity`, L1032-1035. -/
def homogeneity (T : ℕ) (pop : List Ind) : ℚ := 1 - (((pop.map Ind.genes).flatten.dedup.length : ℕ) : ℚ) / T

/-- `np.bincount(l)` (L1090). -/
def bincount (l : List ℕ) : List ℕ := (List.range (l.foldr max 0 + 1)).map fun i => l.count i

/-- `feature_frequencies`, L1087-1095: the items of the dictionary (the names of the columns are distinct). -/
def featureFrequencies {α : Type} (names : List α) (pop : List Ind) : List (α × ℚ) :=
  let all := (pop.map Ind.genes).flatten
  let occ := sortDesc Prod.snd (names.zip (bincount all))
  let total := (occ.map Prod.snd).sum
  occ.map fun p => (p.1, (p.2 : ℚ) / total * 100)

end CatLearn.FeatureGA
