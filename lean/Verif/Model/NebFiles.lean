import Verif.Model.MLNEB

/-!
# The files of the machine-learning nudged elastic band

`evaluated_structures.traj`, `all_predicted_paths.traj` and the table `results_neb.csv`: catlearn/optimize/mlneb.py
and catlearn/optimize/io.py.  A trajectory file is the list of its structures, `none` if it does not exist; ASE is
assumed to read back what it wrote.
-/

namespace CatLearn.NebFiles

open CatLearn CatLearn.MLNEB

/-! ### Evaluated structures -/

/-- A structure with its results: flat positions, the energy extrapolated to 0 K, the free energy (the
force-consistent one) if the calculator has it, and the flat gradient (minus the forces). -/
structure Calc where
  pos : List ℝ
  energy : ℝ
  free : Option ℝ
  grad : List ℝ

/-- `Atoms.get_potential_energy(force_consistent)` of ASE: without the argument it is `False`; `None` takes the
free energy if there is one; `True` without a free energy raises. -/
def potential : Option Bool → Calc → Except PyErr ℝ
  | some false, c => .ok c.energy
  | none, c => .ok (c.free.getD c.energy)
  | some true, c => match c.free with
    | some f => .ok f
    | none => .error .notImpl

/-- `list_train`, `list_targets`, `list_gradients`. -/
structure Data where
  train : List (List ℝ)
  targets : List ℝ
  gradients : List (List ℝ)

/-- The rows of `np.reshape` to `n` rows of `k`. -/
def chunks : ℕ → ℕ → List ℝ → List (List ℝ)
  | 0, _, _ => []
  | n + 1, k, l => l.take k :: chunks n k (l.drop k)

/-- `np.reshape(l, (n, k))`: ValueError for another size. -/
def reshape (n k : ℕ) (l : List ℝ) : Except PyErr (List (List ℝ)) :=
  if l.length = n * k then .ok (chunks n k l) else .error .value

/-- `ase_to_catlearn`, optimize/io.py L8-55: the energies are read without `force_consistent` (L40); the number of atoms is
that of the first structure. -/
def aseToCatlearn : List Calc → Except PyErr Data
  | [] => .error .index
  | c :: l =>
    let n := (c :: l).length
    let k := c.pos.length / 3 * 3
    match reshape n k ((c :: l).map Calc.pos).flatten with
    | .error e => .error e
    | .ok train =>
      match reshape n k ((c :: l).map Calc.grad).flatten with
      | .error e => .error e
      | .ok gradients => .ok ⟨train, (c :: l).map Calc.energy, gradients⟩

/-- The argument `prev_calculations`: nothing, a list or another existing file, the name of a file that does not
exist, or `evaluated_structures.traj` itself. -/
inductive Prev where
  | none | given (l : List Calc) | missing | own

/-- The part of the constructor that reads previous calculations, mlneb.py L129-145: the contents of
`evaluated_structures.traj` afterwards and the data. -/
def construct (file : Option (List Calc)) (is fs : Calc) (restart : Bool) (prev : Prev) :
    Option (List Calc) × Except PyErr Data :=
  -- L129-132
  let file1 := if restart then file else some [is, fs]
  match prev with
  | .none =>
    if restart then
      match file1 with                                                   -- L134-141
      | some l => (file1, aseToCatlearn l)
      | none => (some [is, fs], aseToCatlearn [is, fs])                  -- L142-145
    else (file1, aseToCatlearn [is, fs])
  | .given l => (file1, aseToCatlearn l)                                 -- L137-141
  | .missing => (some [is, fs], aseToCatlearn [is, fs])                  -- L142-145
  | .own => match file1 with
    | some l => (file1, aseToCatlearn l)
    | none => (some [is, fs], aseToCatlearn [is, fs])

/-- `eval_and_append`, mlneb.py L897-933, with `get_energy_catlearn` (the energy is read with `force_consistent`,
L866), and the first part of `store_trajectory_neb`, io.py L183-187. -/
def evaluate (fc : Option Bool) (real : List ℝ → Calc) (s : Option (List Calc) × Data) (x : List ℝ) :
    Except PyErr (Option (List Calc) × Data) :=
  match potential fc (real x) with
  | .error e => .error e
  | .ok e => .ok (some (s.1.getD [] ++ [real x]),
      ⟨s.2.train ++ [x], s.2.targets ++ [e], s.2.gradients ++ [(real x).grad]⟩)

/-- The evaluations of a run, in order. -/
def evaluations (fc : Option Bool) (real : List ℝ → Calc) :
    List (List ℝ) → Option (List Calc) × Data → Except PyErr (Option (List Calc) × Data)
  | [], s => .ok s
  | x :: xs, s => match evaluate fc real s x with
    | .error e => .error e
    | .ok s' => evaluations fc real xs s'

/-! ### Predicted paths -/

/-- `read('./all_predicted_paths.traj', …)` for the two cycles, mlneb.py L330-342: the first `n` structures, or the last
`n`; later cycles keep `self.images`.  FileNotFoundError without the file. -/
def startingPath {α : Type} (file : Option (List α)) (images : List α) (n cycle : ℕ) : Except PyErr (List α) :=
  if cycle = 0 then
    match file with
    | none => .error .other
    | some l => .ok (l.take n)
  else if cycle = 1 then
    match file with
    | none => .error .other
    | some l => .ok (l.drop (l.length - n))
  else .ok images

/-- The path of a cycle before it is optimised, L327-352. -/
def cyclePath {α : Type} (s f : α) (file : Option (List α)) (images : List α) (n cycle : ℕ) : Except PyErr (List α) :=
  match startingPath file images n cycle with
  | .error e => .error e
  | .ok l => createPath s f (some l) n

/-- `store_trajectory_neb`, io.py L188-195: the path is appended to the file, which is created if needed. -/
def storePath {α : Type} (file : Option (List α)) (images : List α) : Option (List α) := some (file.getD [] ++ images)

/-- What a pass did with its paths: the path before the first cycle, the one before the second cycle if there was one,
and the path kept and stored. -/
structure Trace (α : Type) where
  first : List α
  second : Option (List α)
  kept : List α

/-- What the optimisation on the surrogate does in one pass: it moves the inner images; `two` says whether there is a second
cycle (L421-436).  A path replaced by the stored one because its energy is nan (L411-415) counts as not moved. -/
structure Moves (α : Type) where
  move : List α → List α
  two : Option (List α → List α)

/-- The inner images moved. -/
def moved {α : Type} (m : List α → List α) (p : List α) : List α :=
  p.take 1 ++ m (interior p) ++ p.drop (p.length - 1)

/-- One pass as far as the paths are concerned, L323-436 and L583. -/
def pathPass {α : Type} (s f : α) (n : ℕ) (m : Moves α) (st : Option (List α) × List α) :
    Except PyErr ((Option (List α) × List α) × Trace α) :=
  match cyclePath s f st.1 st.2 n 0 with
  | .error e => .error e
  | .ok p0 =>
    match m.two with
    | none => .ok ((storePath st.1 (moved m.move p0), moved m.move p0), ⟨p0, none, moved m.move p0⟩)
    | some m2 =>
      match cyclePath s f st.1 (moved m.move p0) n 1 with
      | .error e => .error e
      | .ok p1 => .ok ((storePath st.1 (moved m2 p1), moved m2 p1), ⟨p0, some p1, moved m2 p1⟩)

/-- The passes of a run; each comes with its number of images (L309-310, L327-328). -/
def pathPasses {α : Type} (s f : α) : List (ℕ × Moves α) → Option (List α) × List α →
    Except PyErr ((Option (List α) × List α) × List (Trace α))
  | [], st => .ok (st, [])
  | (n, m) :: ms, st =>
    match pathPass s f n m st with
    | .error e => .error e
    | .ok (st', t) =>
      match pathPasses s f ms st' with
      | .error e => .error e
      | .ok (st'', ts) => .ok (st'', t :: ts)

/-- The file after the constructor (L224) and, if there are only the two endpoints, the third point (L287-303). -/
def startFile {α : Type} (initial : List α) (third : Bool) : Option (List α) × List α :=
  (if third then storePath (some initial) initial else some initial, initial)

/-- The end of a converged run: the file is deleted, L614-616. -/
def cleanUp {α : Type} (st : Option (List α) × List α) : Option (List α) × List α := (none, st.2)

/-! ### Results -/

/-- An image: an endpoint with its computed energy, or an inner image with the process of its calculator (`ASECalc`,
L650-652, L750-767) and the maximum of the targets when it was made. -/
inductive Image (G P : Type) where
  | endpoint (pos : P) (energy : ℝ)
  | inner (pos : P) (gp : G) (scaling : ℝ)

/-- Positions. -/
def Image.pos {G P : Type} : Image G P → P
  | .endpoint p _ => p
  | .inner p _ _ => p

/-- `i.get_total_energy()`: the calculator of the image answers, L769-792. -/
def Image.energy {G P : Type} (predict : G → P → ℝ) : Image G P → ℝ
  | .endpoint _ e => e
  | .inner p g m => predict g p + m

/-- `get_results_predicted_path`, L726-747: energies of the images and twice the uncertainties of `self.gp`. -/
noncomputable def results {G P : Type} (predict unc : G → P → ℝ) (gp : G) (images : List (Image G P)) : List (ℝ × ℝ) :=
  images.map fun i => (i.energy predict, 2 * unc gp i.pos)

/-- The table of a pass (L444, L582) and of the end of a converged run (L598-603): the process is trained again, the
images are not made again.  `train` is `train_gp_model`. -/
noncomputable def finalResults {G P D : Type} (predict unc : G → P → ℝ) (train : D → G × ℝ) (data : D)
    (images : List (Image G P)) : List (ℝ × ℝ) :=
  results predict unc (train data).1 images

end CatLearn.NebFiles
