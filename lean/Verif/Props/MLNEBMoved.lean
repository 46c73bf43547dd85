import Verif.Props.MLNEB

/-!
# A search for a saddle point does not depend on place and orientation of the structures nor on the zero of the energy (C269)
-/

namespace CatLearn.MLNEB

open CatLearn CatLearn.Masks

/-- A rigid motion of a structure: what it does to positions and to gradients. -/
structure Motion where
  pos : List ℝ → List ℝ
  grad : List ℝ → List ℝ

/-- The object after all its structures were moved and `c` was added to all energies: numbers of images, iterations and evaluations and largest forces are the same. -/
def State.move (μ : Motion) (c : ℝ) (st : State) : State :=
  { st with
    train := st.train.map μ.pos
    targets := st.targets.map (· + c)
    gradients := st.gradients.map μ.grad }

/-- A path on the surrogate, moved: uncertainties are the same. -/
def Path.move (μ : Motion) (c : ℝ) (p : Path) : Path := ⟨p.images.map μ.pos, p.e.map (· + c), p.unc⟩

/-- The end of a run, moved. -/
def Outcome.move (μ : Motion) (c : ℝ) : Outcome → Outcome
  | .converged s => .converged (s.move μ c)
  | .budget s => .budget (s.move μ c)
  | .raised e => .raised e
  | .outOfFuel => .outOfFuel

/-- What two runs have in common if the second is about the same structures and landscape, moved by `μ`, with energies larger by `c`: the calculator gives the moved gradients, the
largest force is the same, and from moved data the surrogate gives the moved path.  `P` are the structures that have the right number of coordinates. -/
structure Moved (E E' : Env) (P : List ℝ → Prop) (μ : Motion) (c : ℝ) : Prop where
  real : ∀ x, P x → E'.real (μ.pos x) = ((E.real x).1 + c, μ.grad (E.real x).2)
  force : ∀ x, P x → getFmax (μ.grad (E.real x).2) = getFmax (E.real x).2
  path : ∀ st : State, (∀ x ∈ st.train, P x) → (∀ x ∈ (E.path st).images, P x) ∧ E'.path (st.move μ c) = (E.path st).move μ c
  images : (∀ x ∈ E.images, P x) ∧ E'.images = E.images.map μ.pos
  energyIs : E'.energyIs = E.energyIs + c
  energyFs : E'.energyFs = E.energyFs + c
  fmax : E'.fmax = E.fmax
  uncConv : E'.uncConv = E.uncConv
  steps : E'.steps = E.steps
  acq : E'.acq = E.acq
  sequential : E'.sequential = E.sequential

private theorem interior_map {α β : Type} (f : α → β) (l : List α) : interior (l.map f) = (interior l).map f := by
  simp [interior, List.map_dropLast]

private theorem argmaxFrom_add (c : ℝ) (l : List ℝ) : ∀ (i b : ℕ) (v : ℝ), argmaxFrom (l.map (· + c)) i b (v + c) = argmaxFrom l i b v := by
  induction l with
  | nil => intros; rfl
  | cons x l ih =>
    intro i b v
    simp only [List.map_cons, argmaxFrom, add_lt_add_iff_right, ih]

private theorem argmax_add (c : ℝ) (l : List ℝ) : argmax (l.map (· + c)) = argmax l := by
  cases l with
  | nil => rfl
  | cons x l => simp only [List.map_cons, argmax, argmaxFrom_add]

private theorem zip_add (c : ℝ) (e u : List ℝ) : List.zipWith (· + ·) (e.map (· + c)) u = (List.zipWith (· + ·) e u).map (· + c) := by
  induction e generalizing u with
  | nil => simp
  | cons a e ih =>
    cases u with
    | nil => rfl
    | cons b u =>
      simp only [List.map_cons, List.zipWith_cons_cons, ih, List.cons.injEq, and_true]
      ring

private theorem select_add (acq : AcqArg) (iter : ℕ) (b : Bool) (thr c : ℝ) (u pu : List ℝ) :
    select acq iter b thr u (pu.map (· + c)) = select acq iter b thr u pu := by
  unfold select
  rw [argmax_add]

private theorem evalAppend_move (E E' : Env) (P : List ℝ → Prop) (μ : Motion) (c : ℝ) (h : Moved E E' P μ c) (st : State) (pos : List ℝ) (hp : P pos) :
    evalAppend E'.real (st.move μ c) (μ.pos pos) = (evalAppend E.real st pos).move μ c := by
  simp [evalAppend, State.move, h.real pos hp]

private theorem third_move (E E' : Env) (P : List ℝ → Prop) (μ : Motion) (c : ℝ) (h : Moved E E' P μ c) (st : State) :
    thirdPoint E' (st.move μ c) = (thirdPoint E st).map (State.move μ c) := by
  unfold thirdPoint
  have hlen : (st.move μ c).targets.length = st.targets.length := by simp [State.move]
  have hm : middle (st.move μ c).nImages E'.energyIs E'.energyFs = middle st.nImages E.energyIs E.energyFs := by
    simp [middle, State.move, h.energyIs, h.energyFs]
  rw [hlen, hm, h.images.2, List.getElem?_map]
  by_cases h2 : st.targets.length = 2
  · rw [if_pos h2, if_pos h2]
    cases hx : E.images[middle st.nImages E.energyIs E.energyFs]? with
    | none => rfl
    | some pos =>
      have hp : P pos := h.images.1 pos (List.mem_of_getElem? hx)
      simp only [Option.map_some, evalAppend_move E E' P μ c h st pos hp, h.real pos hp, h.force pos hp]
      cases getFmax (E.real pos).2 <;> rfl
  · rw [if_neg h2, if_neg h2]; rfl

private theorem third_train (E : Env) (P : List ℝ → Prop) (hi : ∀ x ∈ E.images, P x) (st st' : State) (hw : ∀ x ∈ st.train, P x) (h : thirdPoint E st = .ok st') :
    ∀ x ∈ st'.train, P x := by
  unfold thirdPoint at h
  split at h
  · split at h
    · cases h
    · rename_i pos hpos
      simp only at h
      split at h
      · cases h
      · cases h
        intro x hx
        simp only [evalAppend, List.mem_append, List.mem_singleton] at hx
        rcases hx with hx | rfl
        · exact hw x hx
        · exact hi _ (List.mem_of_getElem? hpos)
  · cases h; exact hw

/-- A pass, moved. -/
private def Pass.move (μ : Motion) (c : ℝ) (p : Pass) : Pass := ⟨p.st.move μ c, p.stationary, p.done, μ.pos p.point, p.index⟩

private theorem pass_move (E E' : Env) (P : List ℝ → Prop) (μ : Motion) (c : ℝ) (h : Moved E E' P μ c) (org : ℕ) (b : Bool) (st : State) (hw : ∀ x ∈ st.train, P x) :
    pass E' org b (st.move μ c) = (pass E org b st).map (Pass.move μ c) := by
  have he : entry org b (st.move μ c) = (entry org b st).move μ c := by unfold entry; split <;> rfl
  have hw' : ∀ x ∈ (entry org b st).train, P x := by unfold entry; split <;> exact hw
  unfold pass
  rw [he]
  generalize entry org b st = s at hw'
  obtain ⟨hP, hpath⟩ := h.path s hw'
  unfold passBody
  simp only [bind, Except.bind, pure, Except.pure, hpath, Path.move, interior_map, zip_add, select_add, h.acq, h.uncConv, h.fmax]
  have hit : (s.move μ c).iter = s.iter := rfl
  have hn : (s.move μ c).nImages = s.nImages := rfl
  rw [hit, hn]
  cases select E.acq s.iter b E.uncConv (interior (E.path s).unc)
      (List.zipWith (· + ·) (interior (E.path s).e) (interior (E.path s).unc)) with
  | error e => rfl
  | ok k =>
    simp only [imageAt, interior_map, List.getElem?_map]
    cases hx : (interior (E.path s).images)[k]? with
    | none => rfl
    | some pos =>
      have hp : P pos := hP pos (List.mem_of_getElem? (getElem?_interior _ _ _ hx).1)
      simp only [Option.map_some, h.real pos hp, h.force pos hp, evalAppend_move E E' P μ c h s pos hp]
      cases getFmax (E.real pos).2 with
      | error e => rfl
      | ok m =>
        simp only
        cases maxOf (interior (E.path s).unc) <;> rfl

private theorem pass_train (E : Env) (P : List ℝ → Prop) (hpath : ∀ st : State, (∀ x ∈ st.train, P x) → ∀ x ∈ (E.path st).images, P x) (org : ℕ) (b : Bool)
    (st : State) (hw : ∀ x ∈ st.train, P x) (p : Pass) (h : pass E org b st = .ok p) : ∀ x ∈ p.st.train, P x := by
  have hw' : ∀ x ∈ (entry org b st).train, P x := by unfold entry; split <;> exact hw
  obtain ⟨k, m, mu, -, -, hk, -, -, -, -, hst⟩ := pass_spec E org b st p h
  rw [hst]
  intro x hx
  simp only [evalAppend, List.mem_append, List.mem_singleton] at hx
  rcases hx with hx | rfl
  · exact hw' x hx
  · exact hpath _ hw' _ (List.mem_of_getElem? (getElem?_interior _ _ _ hk).1)

private theorem loop_move (E E' : Env) (P : List ℝ → Prop) (μ : Motion) (c : ℝ) (h : Moved E E' P μ c) (org : ℕ) (fuel : ℕ) :
    ∀ (b : Bool) (st : State), (∀ x ∈ st.train, P x) → loop E' org fuel b (st.move μ c) = (loop E org fuel b st).move μ c := by
  induction fuel with
  | zero => intros; rfl
  | succ fuel ih =>
    intro b st hw
    unfold loop
    rw [pass_move E E' P μ c h org b st hw]
    cases hp : pass E org b st with
    | error e => rfl
    | ok p =>
      have hw' := pass_train E P (fun st hst => (h.path st hst).1) org b st hw p hp
      simp only [Except.map, Pass.move, h.steps]
      have hi : (p.st.move μ c).iter = p.st.iter := rfl
      rw [hi]
      split
      · rfl
      · split
        · rfl
        · exact ih p.stationary p.st hw'

/-- C269: a search for a saddle point does not depend on the place and orientation of the structures nor on the zero of the energy: if the second search is about the same
structures, moved, with all energies larger by `c`, then it makes the same evaluations in the same order at the moved structures, ends or raises in the same way, and its
tables are the moved ones, with energies larger by `c` and the same forces, numbers of images, iterations and evaluations. -/
theorem C269_run (E E' : Env) (P : List ℝ → Prop) (μ : Motion) (c : ℝ) (h : Moved E E' P μ c) (fuel : ℕ) (st : State) (hw : ∀ x ∈ st.train, P x) :
    run E' fuel (st.move μ c) = (run E fuel st).move μ c := by
  unfold run
  rw [third_move E E' P μ c h]
  cases ht : thirdPoint E st with
  | error e => rfl
  | ok st1 =>
    have hw1 := third_train E P h.images.1 st st1 hw ht
    simp only [Except.map, h.sequential]
    have hn : (st1.move μ c).nImages = st1.nImages := rfl
    rw [hn]
    by_cases hs : E.sequential = true
    · rw [if_pos hs, if_pos hs]
      exact loop_move E E' P μ c h st1.nImages fuel false { st1 with nImages := 3 } hw1
    · rw [if_neg hs, if_neg hs]
      exact loop_move E E' P μ c h st1.nImages fuel false st1 hw1

/-- An atom on a line, moved along it by `d`. -/
def along (d : ℝ) : Motion where
  pos x := x.map (· + d)
  grad := id

/-- The search of `demo` moved: one that meets the hypotheses. -/
noncomputable def demoAt (images : List (List ℝ)) (u : ℝ) (steps : Int) (seq : Bool) (acq : AcqArg) (d c : ℝ) : Env where
  real _ := (c, [0, 0, 0])
  path st := (demo images u steps seq acq).path { st with train := st.train.map fun x => x.map (· - d) } |>.move (along d) c
  fmax := 1
  uncConv := 1
  steps := steps
  acq := acq
  sequential := seq
  energyIs := c
  energyFs := 1 + c
  images := images.map fun x => x.map (· + d)

example (u : ℝ) (steps : Int) (seq : Bool) (acq : AcqArg) (d c : ℝ) (fuel : ℕ) (n : ℕ) :
    run (demoAt [[0, 0, 0], [1, 0, 0], [1, 0, 0], [2, 0, 0]] u steps seq acq d c) fuel ((demoState n).move (along d) c) =
      (run (demo [[0, 0, 0], [1, 0, 0], [1, 0, 0], [2, 0, 0]] u steps seq acq) fuel (demoState n)).move (along d) c := by
  refine C269_run _ _ (fun _ => True) (along d) c ?_ fuel _ (fun _ _ => trivial)
  constructor <;> simp [demo, demoAt, along, State.move]

/-- The coordinates of atoms, one after the other, turned by a matrix and then moved by a vector; numbers that are left over stay. -/
def turn3 (R : Matrix (Fin 3) (Fin 3) ℝ) (d : Fin 3 → ℝ) : List ℝ → List ℝ
  | x :: y :: z :: t => (R.mulVec ![x, y, z] 0 + d 0) :: (R.mulVec ![x, y, z] 1 + d 1) :: (R.mulVec ![x, y, z] 2 + d 2) :: turn3 R d t
  | l => l

/-- A turn about an axis, or a reflection, and a move in space. -/
def rigid (R : Matrix (Fin 3) (Fin 3) ℝ) (d : Fin 3 → ℝ) : Motion where
  pos := turn3 R d
  grad := turn3 R 0

private theorem length3 (R : Matrix (Fin 3) (Fin 3) ℝ) (hR : R.transpose * R = 1) (x y z : ℝ) :
    (R.mulVec ![x, y, z] 0) ^ 2 + (R.mulVec ![x, y, z] 1) ^ 2 + (R.mulVec ![x, y, z] 2) ^ 2 = x ^ 2 + y ^ 2 + z ^ 2 := by
  have h : (R.mulVec ![x, y, z]) ⬝ᵥ (R.mulVec ![x, y, z]) = ![x, y, z] ⬝ᵥ ![x, y, z] := by
    rw [Matrix.dotProduct_mulVec, Matrix.vecMul_mulVec, hR, Matrix.vecMul_one]
  simp only [dotProduct, Fin.sum_univ_three] at h
  simp only [Matrix.cons_val_zero, Matrix.cons_val_one, Matrix.cons_val] at h
  simp only [pow_two]
  exact h

private theorem rows_turn (R : Matrix (Fin 3) (Fin 3) ℝ) (hR : R.transpose * R = 1) : ∀ g : List ℝ,
    (rows3 ((turn3 R 0 g).map fun x => -x)).map (fun l => l.map fun p => Real.sqrt (p.1 ^ 2 + p.2.1 ^ 2 + p.2.2 ^ 2)) =
      (rows3 (g.map fun x => -x)).map (fun l => l.map fun p => Real.sqrt (p.1 ^ 2 + p.2.1 ^ 2 + p.2.2 ^ 2))
  | [] => rfl
  | [_] => rfl
  | [_, _] => rfl
  | x :: y :: z :: t => by
    have ih := rows_turn R hR t
    simp only [turn3, List.map_cons, rows3, Pi.zero_apply, add_zero]
    cases h1 : rows3 ((turn3 R 0 t).map fun x => -x) <;> cases h2 : rows3 (t.map fun x => -x) <;> rw [h1, h2] at ih <;> simp at ih ⊢
    rw [length3 R hR]
    exact ⟨rfl, ih⟩

/-- C269: turning all atoms about an axis, or reflecting them, leaves the largest force as it is, so that a landscape that is turned meets the hypothesis about forces. -/
theorem C269_force (R : Matrix (Fin 3) (Fin 3) ℝ) (hR : R.transpose * R = 1) (d : Fin 3 → ℝ) (g : List ℝ) : getFmax ((rigid R d).grad g) = getFmax g := by
  have h := rows_turn R hR g
  unfold getFmax rigid
  simp only
  generalize rows3 ((turn3 R 0 g).map fun x => -x) = a at h
  generalize rows3 (g.map fun x => -x) = b at h
  cases a with
  | none => cases b with
    | none => rfl
    | some b => cases h
  | some a => cases b with
    | none => cases h
    | some b =>
      simp only [Option.map_some, Option.some.injEq] at h
      cases a with
      | nil => cases b with
        | nil => rfl
        | cons r rs => cases h
      | cons q qs => cases b with
        | nil => cases h
        | cons r rs =>
          simp only [List.map_cons, List.cons.injEq] at h
          simp only [h.1, h.2]

example : getFmax ((rigid !![0, -1, 0; 1, 0, 0; 0, 0, 1] 0).grad [3, 4, 0]) = getFmax [3, 4, 0] := by
  refine C269_force _ ?_ 0 _
  ext i j
  fin_cases i <;> fin_cases j <;> simp [Matrix.mul_apply, Fin.sum_univ_three]

end CatLearn.MLNEB
