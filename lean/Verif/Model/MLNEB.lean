import Verif.Model.Masks

/-!
# Machine-learning nudged elastic band: `catlearn/optimize/mlneb.py`

The real calculator and the optimised surrogate path of each pass (images, predicted energies,
uncertainties) are parameters.  Printing and files are not modelled.
-/

namespace CatLearn.MLNEB

open CatLearn CatLearn.Masks

/-- Number of images in the constructor, L178-182, for a path made by interpolation: a `float` argument is
a spacing (`int(distance / spacing)`, at least three images), an `int` is taken as it is. -/
inductive ImagesArg where
  | spacing (x : ℝ)
  | count (n : Nat)

/-- L178-182. -/
noncomputable def numImages (d : ℝ) : ImagesArg → Nat
  | .spacing x => if ⌊d / x⌋₊ ≤ 3 then 3 else ⌊d / x⌋₊
  | .count n => n

/-- Geometries of `create_ml_neb`, L629-665: the initial endpoint, images `1 … n-2` of the interpolation
(`none`: copies of the initial endpoint), the final endpoint.  ASE's `set_positions` leaves atoms that the constraints of the
initial endpoint fix where they are there; the images of the interpolation are taken to agree with it on these atoms. -/
def createPath {α : Type} (start final : α) (interp : Option (List α)) (n : Nat) : Except PyErr (List α) :=
  match (List.range (n - 2)).mapM (fun i => match interp with
      | none => (.ok start : Except PyErr α)
      | some l => match l[i + 1]? with
        | some x => .ok x
        | none => .error .index) with
  | .error e => .error e
  | .ok mid => .ok (start :: mid ++ [final])

/-- The attributes that `run` changes. -/
structure State where
  nImages : Nat
  train : List (List ℝ)
  targets : List ℝ
  gradients : List (List ℝ)
  maxForces : List ℝ
  iter : Nat
  feval : Nat

/-- Results of the optimisation on the surrogate: `self.images`, `self.e_path`, `self.uncertainty_path`. -/
structure Path where
  images : List (List ℝ)
  e : List ℝ
  unc : List ℝ

/-- The `acquisition` argument. -/
inductive AcqArg where
  | acq1 | acq2 | acq3 | acq4 | acq5 | other
  deriving DecidableEq

/-- Parameters of a call of `run`. -/
structure Env where
  real : List ℝ → ℝ × List ℝ
  path : State → Path
  fmax : ℝ
  uncConv : ℝ
  steps : Int
  acq : AcqArg
  sequential : Bool
  energyIs : ℝ
  energyFs : ℝ
  images : List (List ℝ)

/-- `l[1:-1]`. -/
def interior {α : Type} (l : List α) : List α := (l.drop 1).dropLast

/-- Scan of `np.argmax`: `i` is the position of the head, `b` the best position so far with value `v`. -/
noncomputable def argmaxFrom : List ℝ → Nat → Nat → ℝ → Nat
  | [], _, b, _ => b
  | x :: t, i, b, v => if v < x then argmaxFrom t (i + 1) i x else argmaxFrom t (i + 1) b v

/-- `np.argmax`: position of the first largest entry; the empty array raises ValueError. -/
noncomputable def argmax : List ℝ → Except PyErr Nat
  | [] => .error .value
  | x :: t => .ok (argmaxFrom t 1 0 x)

/-- `np.max`; the empty array raises ValueError. -/
noncomputable def maxOf : List ℝ → Except PyErr ℝ
  | [] => .error .value
  | x :: t => .ok (t.foldl max x)

/-- The acquisition step, L443-564: position in `images[1:-1]` of the image to evaluate.  `u` are the
uncertainties and `pu` predictions plus uncertainties of the interior images.  An unknown name leaves
`interesting_point = []`, which `eval_and_append` cannot append (ValueError). -/
noncomputable def select (acq : AcqArg) (iter : Nat) (stationary : Bool) (thr : ℝ) (u pu : List ℝ) :
    Except PyErr Nat := do
  let iu ← argmax u
  let ip ← argmax pu
  let mu ← maxOf u
  match acq with
  | .acq1 => return if iter % 2 = 0 then iu else ip
  | .acq2 => return if mu < thr then ip else iu
  | .acq3 => return if mu < thr then (if iter % 2 = 0 then iu else ip) else iu
  | .acq4 =>
    if stationary = true then return if mu < thr then ip else iu
    else return if iter % 2 = 0 then iu else ip
  | .acq5 =>
    -- L530-533
    let p0 := iu
    if mu < thr then
      -- L538-548: acq. 1
      let p1 := if iter % 2 = 0 then iu else ip
      -- L550-555: uncertainty when a stationary point was found
      let p2 := if stationary = true then iu else p1
      -- L558-564: the same condition as above, so always true here
      return if mu < thr then ip else p2
    else return p0
  | .other => .error .value

/-- `eval_and_append`, L897-933. -/
noncomputable def evalAppend (real : List ℝ → ℝ × List ℝ) (st : State) (pos : List ℝ) : State :=
  { st with
    train := st.train ++ [pos]
    targets := st.targets ++ [(real pos).1]
    gradients := st.gradients ++ [(real pos).2]
    feval := st.feval + 1 }

/-- The position of the third point, L289-291 (`int(n * (2./3.))`, `int(n * (1./3.))`; the products are
correctly rounded, so the floats give the exact quotients). -/
noncomputable def middle (n : Nat) (eIs eFs : ℝ) : Nat := if eIs ≥ eFs then n / 3 else 2 * n / 3

/-- The third point, L287-303. -/
noncomputable def thirdPoint (E : Env) (st : State) : Except PyErr State :=
  if st.targets.length = 2 then
    match E.images[middle st.nImages E.energyIs E.energyFs]? with
    | none => .error .index
    | some pos =>
      let st' := evalAppend E.real st pos
      match getFmax (E.real pos).2 with
      | .error e => .error e
      | .ok m => .ok { st' with
          iter := st'.iter + 1
          maxForces := st'.maxForces ++ [m] }
  else .ok st

/-- What a pass of the main loop determined. -/
structure Pass where
  st : State
  stationary : Bool
  done : Bool      -- converged
  point : List ℝ   -- evaluated geometry
  index : Nat      -- its position in `images`

/-- L327-328: once a stationary point was found the full number of images is used. -/
def entry (org : Nat) (stationary : Bool) (st : State) : State :=
  if stationary = true then { st with nImages := org } else st

/-- `self.images[1:-1][k]`. -/
def imageAt (p : Path) (k : Nat) : Except PyErr (List ℝ) :=
  match (interior p.images)[k]? with
  | some x => .ok x
  | none => .error .index

/-- One pass of the loop L312-622 after L327-328. -/
noncomputable def passBody (E : Env) (org : Nat) (stationary : Bool) (st : State) : Except PyErr Pass := do
  let u := interior (E.path st).unc
  let pu := List.zipWith (· + ·) (interior (E.path st).e) (interior (E.path st).unc)
  let k ← select E.acq st.iter stationary E.uncConv u pu
  let pos ← imageAt (E.path st) k
  let m ← getFmax (E.real pos).2
  let mu ← maxOf u
  return {
    st := { evalAppend E.real st pos with iter := st.iter + 1 }
    stationary := stationary || decide (m ≤ E.fmax)
    done := decide (m ≤ E.fmax) && decide (st.nImages = org) && decide (mu < E.uncConv)
    point := pos
    index := k + 1 }

/-- One pass of the loop L312-622. -/
noncomputable def pass (E : Env) (org : Nat) (stationary : Bool) (st : State) : Except PyErr Pass :=
  passBody E org stationary (entry org stationary st)

/-- How a call of `run` ends. -/
inductive Outcome where
  | converged (s : State)
  | budget (s : State)
  | raised (e : PyErr)
  | outOfFuel

/-- The loop L312-622. -/
noncomputable def loop (E : Env) (org : Nat) : Nat → Bool → State → Outcome
  | 0, _, _ => .outOfFuel
  | fuel + 1, stationary, st =>
    match pass E org stationary st with
    | .error e => .raised e
    | .ok p =>
      if p.done = true then .converged p.st
      else if E.steps ≤ p.st.iter then .budget p.st
      else loop E org fuel p.stationary p.st

/-- `MLNEB.run`, L244-626. -/
noncomputable def run (E : Env) (fuel : Nat) (st : State) : Outcome :=
  match thirdPoint E st with
  | .error e => .raised e
  | .ok st1 =>
    let st2 := if E.sequential = true then { st1 with nImages := 3 } else st1
    loop E st1.nImages fuel false st2

/-- What one step on the surrogate reports: one of the stop conditions L384-402, and L404-409 a NaN
energy. -/
structure StepFlags where
  stop : Bool
  nan : Bool

/-- The loop L371-414 over the steps on the surrogate: `k` steps were made, the counter is `n`; the result is
the number of steps made and the final counter. -/
def mlLoop (mlSteps : Int) (flag : Nat → StepFlags) : Nat → Nat → Int → Option (Nat × Int)
  | 0, _, _ => none
  | fuel + 1, k, n =>
    let n' := if (flag k).nan = true then 10000 else n + 1
    if (flag k).stop = true ∨ n' > mlSteps - 1 then some (k + 1, n')
    else mlLoop mlSteps flag fuel (k + 1) n'

/-- The loop L325-436 over the cycles: number of cycles and total steps made. `early` is the stop before
optimisation, L358-362. -/
def cycles (mlSteps : Int) (early : Nat → Bool) (flag : Nat → Nat → StepFlags) (fuel : Nat) :
    Nat → Nat → Nat → Option (Nat × Nat)
  | 0, _, _ => none
  | cf + 1, c, total =>
    if early c = true then some (c, total)
    else match mlLoop mlSteps (flag c) fuel 0 0 with
      | none => none
      | some (k, n) =>
        if n ≤ mlSteps - 1 then some (c, total + k)
        else if c + 1 = 2 then some (c + 1, total + k)
        else cycles mlSteps early flag fuel cf (c + 1) (total + k)

end CatLearn.MLNEB
