import Verif.Model.Masks
import Verif.Model.Acquisition

/-!
# Machine-learning minimiser: `catlearn/optimize/mlmin.py`

The real calculator, the Gaussian process fit, the convergence test of ASE's `MDMin` and the numbers of its
steps are parameters.  Printing and the trajectory file are not modelled.
-/

namespace CatLearn.MLMin

open CatLearn CatLearn.Masks

/-- An entry of `self.list_atoms`: the user's object `self.ase_ini` (one shared object, L79-80, L266,
L334, L356) or another Atoms object with its own positions. -/
inductive AtomsRef where
  | ini
  | own (pos : List ℝ)

/-- The attributes of an `MLMin` object that `run` reads and writes; `cur` are the positions of
`self.ase_ini`. -/
structure State where
  train : List (List ℝ)
  targets : List ℝ
  gradients : List (List ℝ)
  maxAbs : List ℝ
  iter : Nat
  cur : List ℝ
  atoms : List AtomsRef

/-- A structure with stored results: positions, energy, gradient (minus the forces). -/
structure Calc where
  pos : List ℝ
  energy : ℝ
  grad : List ℝ

open Classical in
/-- Duplicate check L88-97: a previous calculation is appended unless its distance to a listed
structure is zero. -/
noncomputable def dedupe (known : List Calc) : List Calc → List Calc
  | [] => known
  | p :: ps => dedupe (if ∃ k ∈ known, k.pos = p.pos then known else known ++ [p]) ps

/-- `MLMin.__init__`, L79-115, from the initial structure and the previous calculations. -/
noncomputable def init (x0 : Calc) (prev : List Calc) : Except PyErr State := do
  let l := dedupe [x0] prev
  let m ← (l.map (·.grad)).mapM getFmax
  return {
    train := l.map (·.pos)
    targets := l.map (·.energy)
    gradients := l.map (·.grad)
    maxAbs := m
    iter := 0
    cur := x0.pos
    atoms := .ini :: (l.drop 1).map fun c => .own c.pos }

/-- The `kernel` argument, L169-206. -/
inductive KernelArg where
  | sqeFixed
  | sqe
  | ardSqe
  | other
  deriving DecidableEq

/-- The `acq` argument, L316-324. -/
inductive AcqArg where
  | ucb
  | lcb
  | minEnergy
  | other
  deriving DecidableEq

/-- What `run` depends on besides the object: the real calculator (energy and gradient at a geometry), the
Gaussian process fit, and the optimiser on the surrogate. -/
structure Env where
  real : List ℝ → ℝ × List ℝ
  fit : State → Except PyErr Surrogate
  coef : State → Nat → Coef
  conv : State → Nat → Bool
  mask : List Nat
  fmax : ℝ
  steps : Int
  maxStep : ℝ
  fs : ℝ
  kernel : KernelArg
  acq : AcqArg

/-- An entry of the three `list_interesting_…` lists. -/
structure Point where
  pos : List ℝ
  energy : ℝ
  unc : ℝ

open Classical in
/-- The loop L284-310 on the predicted landscape; `n` steps have been performed.  `fuel` bounds the number
of passes; 1001 is enough (`inner_length`). -/
noncomputable def inner (E : Env) (st : State) (s : Surrogate) :
    Nat → Nat → List ℝ → List ℝ → Except PyErr (List Point)
  | 0, _, _, _ => .error .other
  | fuel + 1, n, r, v => do
    let f ← surForces s E.fs r E.mask
    let rv := mdmin (E.coef st n) r v f
    let t ← pick rv.1 E.mask
    let p : Point := ⟨rv.1, s.energy t, s.unc t⟩
    if n + 1 > 1000 ∨ p.unc ≥ E.maxStep ∨ E.conv st (n + 1) = true then
      return [p]
    else do
      let rest ← inner E st s fuel (n + 1) rv.1 rv.2
      return p :: rest

/-- Acquisition values L312-324; another name leaves `acq_values` unbound. -/
def score : AcqArg → Point → Except PyErr ℝ
  | .ucb, p => match Acq.ucb p.energy p.unc .min (-1) with
    | some v => .ok v
    | none => .error .type
  | .lcb, p => .ok (-(p.energy - p.unc))
  | .minEnergy, p => .ok (-p.energy)
  | .other, _ => .error .name

open Classical in
/-- `np.argmax`: the first entry with the largest score; an empty array raises ValueError. -/
noncomputable def argmaxPoint : List (ℝ × Point) → Except PyErr Point
  | [] => .error .value
  | a :: l => .ok (l.foldl (fun b c => if b.1 < c.1 then c else b) a).2

/-- The choice L312-328. -/
noncomputable def choose (acq : AcqArg) (ps : List Point) : Except PyErr Point := do
  let sc ← ps.mapM fun p => do
    let v ← score acq p
    return (v, p)
  argmaxPoint sc

/-- Evaluation and bookkeeping, L334-356: the shared object gets the new positions and is appended to
`list_atoms`. -/
noncomputable def evaluate (E : Env) (st : State) (pos : List ℝ) : Except PyErr State := do
  let r := E.real pos
  let m ← getFmax r.2
  return {
    train := st.train ++ [pos]
    targets := st.targets ++ [r.1]
    gradients := st.gradients ++ [r.2]
    maxAbs := st.maxAbs ++ [m]
    iter := st.iter + 1
    cur := pos
    atoms := st.atoms ++ [.ini] }

/-- The last row of an array, `a[-1]`. -/
def lastRow {α : Type} (l : List α) : Except PyErr α :=
  match l.getLast? with
  | some a => .ok a
  | none => .error .index

/-- One pass of the loop body L160-359.  `kdict` tells whether the local variable is bound: it is bound by
a known kernel name, by the single-structure case L208-219, or in an earlier pass. -/
noncomputable def body (E : Env) (kdict : Bool) (st : State) : Except PyErr State :=
  if kdict = false ∧ E.kernel = .other ∧ st.targets.length ≠ 1 then .error .name
  else do
    let s ← E.fit st
    let start ← lastRow st.train
    let ps ← inner E st s 1001 0 start (List.replicate start.length 0)
    let p ← choose E.acq ps
    evaluate E st p.pos

/-- How a call of `run` ends. -/
inductive Outcome where
  | converged (s : State)   -- the message of `converged`, L382-394
  | budget (s : State)      -- the message L362-363
  | raised (e : PyErr)
  | outOfFuel

open Classical in
/-- `MLMin.run`, L124-364: `while not converged(self): …; if self.iter >= steps: break`. -/
noncomputable def run (E : Env) : Nat → Bool → State → Outcome
  | 0, _, _ => .outOfFuel
  | fuel + 1, kdict, st =>
    match lastRow st.gradients with
    | .error e => .raised e
    | .ok g =>
      match getFmax g with
      | .error e => .raised e
      | .ok m =>
        if m < E.fmax then .converged st
        else match body E kdict st with
          | .error e => .raised e
          | .ok st' => if (st'.iter : Int) ≥ E.steps then .budget st' else run E fuel true st'

/-- Positions that an entry of `list_atoms` shows. -/
def AtomsRef.pos (cur : List ℝ) : AtomsRef → List ℝ
  | .ini => cur
  | .own p => p

end CatLearn.MLMin
