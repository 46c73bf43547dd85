import Verif.Model.Py
import Mathlib.Probability.Distributions.Gaussian.Real

/-!
# Model of `catlearn/active_learning/acquisition_functions.py`

The functions act element by element on the arrays of predictions and uncertainties, so they are modelled
on single numbers.  `norm.pdf` and `norm.cdf` are the density of the standard normal distribution and its
integral.
-/

namespace CatLearn.Acq

open CatLearn MeasureTheory

/-- `scipy.stats.norm.pdf`. -/
noncomputable def pdf (z : ℝ) : ℝ := ProbabilityTheory.gaussianPDFReal 0 1 z

/-- `scipy.stats.norm.cdf`. -/
noncomputable def cdf (z : ℝ) : ℝ := ∫ t in Set.Iic z, pdf t

/-- The objective: 'max', 'min', a number to approach, or any other value. -/
inductive Objective where
  | max
  | min
  | value (v : ℝ)
  | other

/-- `optimistic`, L26-39. -/
def optimistic (yBest p u : ℝ) : ℝ := p + u - yBest

/-- `UCB`, L42-58; any other objective makes the function return None. -/
def ucb (p u : ℝ) (o : Objective) (kappa : ℝ) : Option ℝ :=
  match o with
  | .max => some (-(p - kappa * u))
  | .min => some (-p + kappa * u)
  | _ => none

/-- `EI`, L61-82. -/
noncomputable def ei (yBest p u : ℝ) (o : Objective) : Option ℝ :=
  match o with
  | .max => some ((p - yBest) * cdf ((p - yBest) / u) + u * pdf ((p - yBest) / u))
  | .min => some (-((p - yBest) * cdf ((-p + yBest) / u) - u * pdf ((-p + yBest) / u)))
  | _ => none

/-- `PI`, L85-103. -/
noncomputable def pi (yBest p u : ℝ) (o : Objective) : Option ℝ :=
  match o with
  | .max => some (cdf ((p - yBest) / u))
  | .min => some (cdf (-((p - yBest) / u)))
  | _ => none

/-! ### Arrays with entries of uncertainty zero

numpy divides by zero: the quotient is an infinity, or NaN for 0/0, and scipy evaluates `norm.pdf` and `norm.cdf` there. -/

/-- The quotient of two numbers in numpy. -/
inductive Quot where
  | num (z : ℝ)
  | posInf
  | negInf
  | nan

/-- `a / u` in numpy. -/
noncomputable def quot (a u : ℝ) : Quot :=
  open Classical in
  if u ≠ 0 then .num (a / u) else if 0 < a then .posInf else if a < 0 then .negInf else .nan

/-- `-q`, `PI` L102. -/
noncomputable def Quot.neg : Quot → Quot
  | .num z => .num (-z)
  | .posInf => .negInf
  | .negInf => .posInf
  | .nan => .nan

/-- `norm.cdf`; NaN is `none`. -/
noncomputable def cdfQ : Quot → Option ℝ
  | .num z => some (cdf z)
  | .posInf => some 1
  | .negInf => some 0
  | .nan => none

/-- `norm.pdf`; NaN is `none`. -/
noncomputable def pdfQ : Quot → Option ℝ
  | .num z => some (pdf z)
  | .posInf => some 0
  | .negInf => some 0
  | .nan => none

/-- `EI`, L61-82, for an entry of arrays; the outer `none` is the result None, the inner one NaN. -/
noncomputable def eiArray (yBest p u : ℝ) (o : Objective) : Option (Option ℝ) :=
  match o with
  | .max => some ((cdfQ (quot (p - yBest) u)).bind fun c => (pdfQ (quot (p - yBest) u)).map fun d =>
      (p - yBest) * c + u * d)
  | .min => some ((cdfQ (quot (-p + yBest) u)).bind fun c => (pdfQ (quot (-p + yBest) u)).map fun d =>
      -((p - yBest) * c - u * d))
  | _ => none

/-- `PI`, L85-103, for an entry of arrays. -/
noncomputable def piArray (yBest p u : ℝ) (o : Objective) : Option (Option ℝ) :=
  match o with
  | .max => some (cdfQ (quot (p - yBest) u))
  | .min => some (cdfQ (quot (p - yBest) u).neg)
  | _ => none

/-- `proximity`, L106-119. -/
def proximity (yBest p : ℝ) : ℝ := -|p - yBest|

/-- `optimistic_proximity`, L122-135. -/
def optimisticProximity (yBest p u : ℝ) : ℝ := u - |p - yBest|

/-- `probability_density`, L138-150: `norm.pdf(y_best, p, u)` is `norm.pdf((y_best - p) / u) / u`
(scipy's loc and scale). -/
noncomputable def probabilityDensity (yBest p u : ℝ) : ℝ := pdf ((yBest - p) / u) / u

/-- `cluster`, L153-182, for one candidate: its prediction divided by the number of training points in its
cluster. -/
noncomputable def cluster (p : ℝ) (trainCount : Nat) : ℝ := p / trainCount

/-- The reference value, `rank` L215-221 and `classify` L293-304: `max`/`min` of an empty list raises ValueError,
another objective leaves the name unbound. -/
noncomputable def reference (targets : List ℝ) : Objective → Except PyErr ℝ
  | .max => match targets.max? with
    | some y => .ok y
    | none => .error .value
  | .min => match targets.min? with
    | some y => .ok y
    | none => .error .value
  | .value v => .ok v
  | .other => .error .name

/-- `rank`, L185-244, for one metric `acq yBest p u` (the result dictionary has one such entry per requested
metric). -/
noncomputable def rank {S : Type} (acq : ℝ → ℝ → ℝ → S) (targets preds uncs : List ℝ) (o : Objective) :
    Except PyErr (List S) :=
  match reference targets o with
  | .error e => .error e
  | .ok y => .ok (List.zipWith (acq y) preds uncs)

/-- Add a candidate to the class dictionary of `classify` (L310-322): classes in order of first occurrence. -/
def addToClass {C V : Type} [DecidableEq C] (c : C) (v : V) : List (C × List V) → List (C × List V)
  | [] => [(c, [v])]
  | (c', vs) :: rest => if c = c' then (c', vs ++ [v]) :: rest else (c', vs) :: addToClass c v rest

/-- The scatter loop L356-369: store the scores of every class at the indices of its members. -/
def scatter {C S : Type} (size : Nat) (zero : S) (groups : List (C × List (Nat × S))) : List S :=
  groups.foldl (fun res g => g.2.foldl (fun res p => res.set p.1 p.2) res) (List.replicate size zero)

/-- `classify`, L247-371, for one metric.  `nTrainFeatures` is the length of `train_features` (`none` if it was
left out).  The best target per class is computed (L288-304) and not used afterwards; only `y_best`, the best
of all targets, is.  With no training structure `y_best` stays unbound.  For candidate `i` the code reads
`train_features[i]` (L321): TypeError if there are none, IndexError if there are too few. -/
noncomputable def classify {A C S : Type} [DecidableEq C] (zero : S) (classifier : A → C)
    (acq : ℝ → ℝ → ℝ → S) (trainAtoms testAtoms : List A) (targets preds uncs : List ℝ)
    (nTrainFeatures : Option Nat) (o : Objective) : Except PyErr (List S) :=
  if testAtoms = [] then .ok []
  else match nTrainFeatures with
    | none => .error .type
    | some m =>
      if m < testAtoms.length then .error .index
      else if trainAtoms = [] then .error .name
      else match reference targets o with
        | .error e => .error e
        | .ok y =>
          let members := List.zip testAtoms ((List.zip preds uncs).zipIdx)
          let groups := members.foldl
            (fun g m => addToClass (classifier m.1) (m.2.2, acq y m.2.1.1 m.2.1.2) g) []
          .ok (scatter testAtoms.length zero groups)

end CatLearn.Acq
