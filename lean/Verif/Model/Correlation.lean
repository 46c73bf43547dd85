import Verif.Model.Py
import Verif.Model.Scaling
import Mathlib.Data.Real.Sqrt
import Mathlib.Data.Sign.Basic

/-!
# `target_correlation`, `catlearn/utilities/utilities.py` L77-110

The three coefficients are those of `scipy.stats` (documented formulas); nan is `none`.
-/

namespace CatLearn.Correlation

open CatLearn CatLearn.Scaling Finset

/-- The mean of a column. -/
noncomputable def mean {n : ℕ} (x : Fin n → ℝ) : ℝ := (∑ i, x i) / n

open Classical in
/-- `scipy.stats.pearsonr(x, y)[0]`: nan if one of them is constant. -/
noncomputable def pearson {n : ℕ} (x y : Fin n → ℝ) : Option ℝ :=
  let sx := ∑ i, (x i - mean x) ^ 2
  let sy := ∑ i, (y i - mean y) ^ 2
  if sx = 0 ∨ sy = 0 then none
  else some ((∑ i, (x i - mean x) * (y i - mean y)) / (Real.sqrt sx * Real.sqrt sy))

open Classical in
/-- `scipy.stats.rankdata`: equal values share the mean of their ranks. -/
noncomputable def rank {n : ℕ} (x : Fin n → ℝ) (i : Fin n) : ℝ :=
  (univ.filter fun j => x j < x i).card + ((univ.filter fun j => x j = x i).card + 1) / 2

/-- `scipy.stats.spearmanr(x, y)[0]`. -/
noncomputable def spearman {n : ℕ} (x y : Fin n → ℝ) : Option ℝ := pearson (rank x) (rank y)

/-- The pairs of observations. -/
def pairs (n : ℕ) : Finset (Fin n × Fin n) := univ.filter fun p => p.1 < p.2

open Classical in
/-- `scipy.stats.kendalltau(x, y)[0]`: concordant minus discordant pairs, divided by the root of the numbers of pairs that are not tied
(tau-b); nan if all pairs are tied. -/
noncomputable def kendall {n : ℕ} (x y : Fin n → ℝ) : Option ℝ :=
  let con := ((pairs n).filter fun p => 0 < (x p.1 - x p.2) * (y p.1 - y p.2)).card
  let dis := ((pairs n).filter fun p => (x p.1 - x p.2) * (y p.1 - y p.2) < 0).card
  let nx := ((pairs n).filter fun p => x p.1 ≠ x p.2).card
  let ny := ((pairs n).filter fun p => y p.1 ≠ y p.2).card
  if nx = 0 ∨ ny = 0 then none
  else some (((con : ℝ) - dis) / Real.sqrt nx / Real.sqrt ny)

/-- The name of a coefficient; `literal` says that it is the object the interpreter keeps for this name in source code.  Names are compared
with `is` (L102-107). -/
structure Name where
  text : String
  literal : Bool

/-- The default, L78. -/
def defaults : List Name := [⟨"pearson", true⟩, ⟨"spearman", true⟩, ⟨"kendall", true⟩]

/-- L102-107 for one column: nothing is appended for any other name.  `pearsonr` does not accept fewer than two observations. -/
noncomputable def entry {n m : ℕ} (c : Name) (d : Fin n → ℝ) (target : Fin m → ℝ) : Except PyErr (List (Option ℝ)) :=
  if c.text = "pearson" ∧ c.literal = true then
    if h : n = m then
      if n < 2 then .error .value else .ok [pearson d (h ▸ target)]
    else .error .value
  else if c.text = "spearman" ∧ c.literal = true then
    if h : n = m then .ok [spearman d (h ▸ target)] else .error .value
  else if c.text = "kendall" ∧ c.literal = true then
    if h : n = m then .ok [kendall d (h ▸ target)] else .error .value
  else .ok []

/-- `train_data.T`, L93: the columns after `standardize`. -/
noncomputable def columns {n k : ℕ} (train : Fin n → Fin k → ℝ) : List (Fin n → ℝ) :=
  List.ofFn fun j i => (standardize (κ := Empty) train none none none true).train i j

/-- The row for one coefficient, L100-107. -/
noncomputable def row {n m : ℕ} (c : Name) (cols : List (Fin n → ℝ)) (target : Fin m → ℝ) : Except PyErr (List (Option ℝ)) :=
  match cols with
  | [] => .ok []
  | d :: cols =>
    match entry c d target with
    | .error e => .error e
    | .ok a =>
      match row c cols target with
      | .error e => .error e
      | .ok l => .ok (a ++ l)

/-- `target_correlation(train, target, correlation)`, L77-110. -/
noncomputable def targetCorrelation {n k m : ℕ} (train : Fin n → Fin k → ℝ) (target : Fin m → ℝ) (correlation : List Name) :
    Except PyErr (List (List (Option ℝ))) :=
  match correlation with
  | [] => .ok []
  | c :: cs =>
    match row c (columns train) target with
    | .error e => .error e
    | .ok r =>
      match targetCorrelation train target cs with
      | .error e => .error e
      | .ok l => .ok (r :: l)

end CatLearn.Correlation
