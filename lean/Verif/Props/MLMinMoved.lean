import Verif.Model.MLMinGP
import Verif.Props.MLMin
import Verif.Props.GPStationary

/-!
# A minimisation does not depend on the place of the structure nor on the zero of the energy (C268)
-/

namespace CatLearn.MLMin

open CatLearn CatLearn.Masks CatLearn.GradProc

/-- Positions moved by `t`. -/
def move (t x : List ℝ) : List ℝ := List.zipWith (· + ·) x t

/-- An evaluated structure that is moved by `t`, with `c` added to its energy. -/
def Calc.move (t : List ℝ) (c : ℝ) (x : Calc) : Calc := ⟨MLMin.move t x.pos, x.energy + c, x.grad⟩

/-- An entry of `list_atoms`, moved. -/
def AtomsRef.move (t : List ℝ) : AtomsRef → AtomsRef
  | .ini => .ini
  | .own p => .own (MLMin.move t p)

/-- The object after all its structures were moved by `t` and `c` was added to all energies: gradients, largest forces and the number of iterations are the same. -/
def State.move (t : List ℝ) (c : ℝ) (st : State) : State :=
  { st with
    train := st.train.map (MLMin.move t)
    targets := st.targets.map (· + c)
    cur := MLMin.move t st.cur
    atoms := st.atoms.map (AtomsRef.move t) }

/-- The end of a run, moved. -/
def Outcome.move (t : List ℝ) (c : ℝ) : Outcome → Outcome
  | .converged s => .converged (s.move t c)
  | .budget s => .budget (s.move t c)
  | .raised e => .raised e
  | .outOfFuel => .outOfFuel

private theorem move_length (t x : List ℝ) (h : x.length = t.length) : (move t x).length = t.length := by
  simp [move, h]

private theorem move_getElem? (t x : List ℝ) (h : x.length = t.length) (i : ℕ) : (move t x)[i]? = (x[i]?).map (· + t.getD i 0) := by
  rw [move, List.getElem?_zipWith]
  cases hx : x[i]? with
  | none => simp
  | some v =>
    have hi : i < t.length := by rw [← h]; exact (List.getElem?_eq_some_iff.1 hx).1
    simp [List.getD, List.getElem?_eq_getElem hi]

private theorem move_inj (t x y : List ℝ) (hx : x.length = t.length) (hy : y.length = t.length) (h : move t x = move t y) : x = y := by
  apply List.ext_getElem?
  intro i
  have := congrArg (fun l => l[i]?) h
  simp only [move_getElem? t x hx, move_getElem? t y hy] at this
  cases h1 : x[i]? <;> cases h2 : y[i]? <;> rw [h1, h2] at this <;> simp_all

private theorem pick_move (t x : List ℝ) (h : x.length = t.length) (idx : List ℕ) :
    pick (move t x) idx = match pick x idx with
      | .error e => .error e
      | .ok u => (match pick t idx with
        | .error e => .error e
        | .ok w => .ok (move w u)) := by
  induction idx with
  | nil => rfl
  | cons i is ih =>
    have hc : ∀ l : List ℝ, pick l (i :: is) = match l[i]? with
        | none => .error .index
        | some v => (match pick l is with
          | .error e => .error e
          | .ok u => .ok (v :: u)) := by
      intro l
      simp only [pick, List.mapM_cons, bind, Except.bind, pure, Except.pure]
      cases l[i]? with
      | none => rfl
      | some v =>
        simp only
        generalize List.mapM (m := Except PyErr) _ is = q
        cases q <;> rfl
    rw [hc, hc x, hc t, move_getElem? t x h, ih]
    cases hx : x[i]? with
    | none => rfl
    | some v =>
      have hi : i < t.length := by rw [← h]; exact (List.getElem?_eq_some_iff.1 hx).1
      rw [List.getElem?_eq_getElem hi]
      simp only [Option.map_some]
      cases hpx : pick x is with
      | error e => rfl
      | ok u =>
        simp only
        cases hpt : pick t is with
        | error e => rfl
        | ok w => simp [move, List.getD, List.getElem?_eq_getElem hi]

private theorem pick_length (x : List ℝ) (idx : List ℕ) (u : List ℝ) (h : pick x idx = .ok u) : u.length = idx.length := by
  obtain ⟨m, hm, hl, _⟩ := pick_ok x idx (pick_error x idx u h)
  rw [h] at hm
  cases hm
  exact hl

private theorem pick_same (x t : List ℝ) (h : x.length = t.length) (idx : List ℕ) (u : List ℝ) (hu : pick x idx = .ok u) : ∃ w, pick t idx = .ok w ∧ w.length = u.length := by
  obtain ⟨w, hw, hl, _⟩ := pick_ok t idx (fun i hi => by rw [← h]; exact pick_error x idx u hu i hi)
  exact ⟨w, hw, by rw [hl, pick_length x idx u hu]⟩

/-- The two surrogates describe the same landscape, moved. -/
def MovedSurrogate (mask : List ℕ) (t : List ℝ) (s s' : Surrogate) : Prop :=
  ∀ u w, pick t mask = .ok w → u.length = mask.length → s'.energy (move w u) = s.energy u ∧ s'.unc (move w u) = s.unc u

private theorem surForces_move (mask : List ℕ) (t : List ℝ) (s s' : Surrogate) (hs : MovedSurrogate mask t s s') (fs : ℝ) (r : List ℝ) (hr : r.length = t.length) :
    surForces s' fs (move t r) mask = surForces s fs r mask := by
  simp only [surForces, bind, Except.bind, pure, Except.pure]
  rw [pick_move t r hr]
  cases hu : pick r mask with
  | error e => rfl
  | ok u =>
    obtain ⟨w, hw, hl⟩ := pick_same r t hr mask u hu
    have hul := pick_length r mask u hu
    simp only [hw]
    have hset : ∀ (i : ℕ) (d : ℝ), i < mask.length → (move w u).set i ((move w u).getD i 0 + d) = move w (u.set i (u.getD i 0 + d)) := by
      intro i d hi
      apply List.ext_getElem?
      intro k
      have hiu : i < u.length := by omega
      have hiw : i < w.length := by omega
      by_cases hk : i = k
      · subst hk
        rw [List.getElem?_set_self (by rw [move_length w u hl.symm]; exact hiw), move_getElem? _ _ (by simp [hl]), List.getElem?_set_self hiu]
        simp only [List.getD, move_getElem? w u hl.symm, List.getElem?_eq_getElem hiu, Option.map_some, Option.getD_some]
        congr 1
        ring
      · rw [List.getElem?_set_ne hk, move_getElem? w u hl.symm, move_getElem? w _ (by simp [hl]), List.getElem?_set_ne hk]
    have hg : (List.range mask.length).map (fun (i : ℕ) => surGrad s' fs (move w u) i) = (List.range mask.length).map fun (i : ℕ) => surGrad s fs u i := by
      apply List.map_congr_left
      intro i hi
      rw [List.mem_range] at hi
      unfold surGrad
      rw [sub_eq_add_neg, sub_eq_add_neg, hset i _ hi, hset i _ hi, (hs _ w hw (by simp [hul])).1, (hs _ w hw (by simp [hul])).1]
    rw [hg, move_length t r hr, hr]

private theorem mdmin_move (c : Coef) (t r v f : List ℝ) (hr : r.length = t.length) (hv : v.length = t.length) (hf : f.length = t.length) :
    mdmin c (move t r) v f = (move t (mdmin c r v f).1, (mdmin c r v f).2) := by
  simp only [mdmin, Prod.mk.injEq, and_true]
  apply List.ext_getElem
  · simp [move, hr, hv, hf]
  · intro i h1 h2
    simp only [move, List.getElem_zipWith]
    ring

/-- What two runs have in common if the second one is about the same structure and landscape, moved by `t`, with energies larger by `c`: the calculator gives the same
gradients, the fits agree, and the optimiser takes the same steps for the same forces. -/
structure Moved (E E' : Env) (t : List ℝ) (c : ℝ) : Prop where
  real : ∀ x, x.length = t.length → E'.real (move t x) = ((E.real x).1 + c, (E.real x).2)
  fit : ∀ st : State, (∀ x ∈ st.train, x.length = t.length) →
    (∀ e, E.fit st = .error e → E'.fit (st.move t c) = .error e) ∧
    ∀ s, E.fit st = .ok s → ∃ s', E'.fit (st.move t c) = .ok s' ∧ MovedSurrogate E.mask t s s'
  coef : ∀ st n, E'.coef (State.move t c st) n = E.coef st n
  conv : ∀ st n, E'.conv (State.move t c st) n = E.conv st n
  mask : E'.mask = E.mask
  fmax : E'.fmax = E.fmax
  steps : E'.steps = E.steps
  maxStep : E'.maxStep = E.maxStep
  fs : E'.fs = E.fs
  kernel : E'.kernel = E.kernel
  acq : E'.acq = E.acq

/-- A point of the surrogate optimisation, moved. -/
private def Point.move (t : List ℝ) (p : Point) : Point := ⟨MLMin.move t p.pos, p.energy, p.unc⟩

private theorem inner_move (E E' : Env) (t : List ℝ) (c : ℝ) (h : Moved E E' t c) (st : State) (s s' : Surrogate) (hs : MovedSurrogate E.mask t s s') :
    ∀ (fuel n : ℕ) (r v : List ℝ), r.length = t.length → v.length = t.length →
      inner E' (st.move t c) s' fuel n (move t r) v = (inner E st s fuel n r v).map fun ps => ps.map (Point.move t) := by
  intro fuel
  induction fuel with
  | zero => intro n r v _ _; rfl
  | succ fuel ih =>
    intro n r v hr hv
    rw [inner, inner]
    simp only [bind, Except.bind, pure, Except.pure]
    rw [h.mask, h.fs, h.coef, h.maxStep, h.conv, surForces_move E.mask t s s' hs E.fs r hr]
    cases hf : surForces s E.fs r E.mask with
    | error e => rfl
    | ok f =>
      have hfl : f.length = t.length := by rw [(surForces_fixed _ _ _ _ _ hf).1, hr]
      simp only
      rw [mdmin_move _ t r v f hr hv hfl]
      have hl1 : (mdmin (E.coef st n) r v f).1.length = t.length := by simp [mdmin, hr, hv, hfl]
      have hl2 : (mdmin (E.coef st n) r v f).2.length = t.length := by simp [mdmin, hv, hfl]
      simp only
      rw [pick_move t _ hl1]
      cases hu : pick (mdmin (E.coef st n) r v f).1 E.mask with
      | error e => rfl
      | ok u =>
        obtain ⟨w, hw, _⟩ := pick_same _ t hl1 E.mask u hu
        obtain ⟨he, hun⟩ := hs u w hw (pick_length _ _ _ hu)
        simp only [hw, he, hun]
        by_cases hc : n + 1 > 1000 ∨ s.unc u ≥ E.maxStep ∨ E.conv st (n + 1) = true
        · rw [if_pos hc, if_pos hc]
          rfl
        · rw [if_neg hc, if_neg hc, ih (n + 1) _ _ hl1 hl2]
          cases inner E st s fuel (n + 1) (mdmin (E.coef st n) r v f).1 (mdmin (E.coef st n) r v f).2 <;> rfl

private theorem score_move (acq : AcqArg) (t : List ℝ) (p : Point) : score acq (p.move t) = score acq p := by
  cases acq <;> rfl

/-- The scores of the points, with the points. -/
private noncomputable def scored (acq : AcqArg) (p : Point) : Except PyErr (ℝ × Point) := do
  let v ← score acq p
  return (v, p)

private theorem scored_move (acq : AcqArg) (t : List ℝ) (l : List Point) :
    (l.map (Point.move t)).mapM (scored acq) = (l.mapM (scored acq)).map fun (q : List (ℝ × Point)) => q.map fun (a : ℝ × Point) => (a.1, Point.move t a.2) := by
  induction l with
  | nil => rfl
  | cons p l ih =>
    rw [List.map_cons, List.mapM_cons, List.mapM_cons, ih]
    simp only [scored, score_move, bind, Except.bind, pure, Except.pure]
    cases score acq p with
    | error e => rfl
    | ok v =>
      simp only
      generalize List.mapM (m := Except PyErr) _ l = q
      cases q <;> rfl

private theorem argmaxPoint_move (t : List ℝ) (l : List (ℝ × Point)) :
    argmaxPoint (l.map fun (a : ℝ × Point) => (a.1, Point.move t a.2)) = (argmaxPoint l).map (Point.move t) := by
  cases l with
  | nil => rfl
  | cons a l =>
    simp only [argmaxPoint, List.map_cons, Except.map, Except.ok.injEq]
    induction l generalizing a with
    | nil => rfl
    | cons b l ih =>
      simp only [List.map_cons, List.foldl_cons]
      by_cases hab : a.1 < b.1
      · rw [if_pos hab, if_pos hab]; exact ih b
      · rw [if_neg hab, if_neg hab]; exact ih a

private theorem choose_move (acq : AcqArg) (t : List ℝ) (ps : List Point) :
    choose acq (ps.map (Point.move t)) = (choose acq ps).map (Point.move t) := by
  have h : ∀ l, choose acq l = match l.mapM (scored acq) with
      | .error e => .error e
      | .ok q => argmaxPoint q := by
    intro l
    show Except.bind (l.mapM (scored acq)) argmaxPoint = _
    cases l.mapM (scored acq) <;> rfl
  rw [h, h, scored_move]
  cases ps.mapM (scored acq) with
  | error e => rfl
  | ok l => exact argmaxPoint_move t l

private theorem lastRow_map {α β : Type} (f : α → β) (l : List α) : lastRow (l.map f) = (lastRow l).map f := by
  unfold lastRow
  rw [List.getLast?_map]
  cases l.getLast? <;> rfl

private theorem evaluate_move (E E' : Env) (t : List ℝ) (c : ℝ) (h : Moved E E' t c) (st : State) (pos : List ℝ) (hp : pos.length = t.length) :
    evaluate E' (st.move t c) (move t pos) = (evaluate E st pos).map (State.move t c) := by
  unfold evaluate
  simp only [bind, Except.bind, pure, Except.pure]
  rw [h.real pos hp]
  simp only
  cases getFmax (E.real pos).2 with
  | error e => rfl
  | ok m =>
    simp [Except.map, State.move, AtomsRef.move]

private theorem body_move (E E' : Env) (t : List ℝ) (c : ℝ) (h : Moved E E' t c) (kd : Bool) (st : State) (hw : ∀ x ∈ st.train, x.length = t.length) :
    body E' kd (st.move t c) = (body E kd st).map (State.move t c) := by
  unfold body
  rw [h.kernel]
  have hlen : (st.move t c).targets.length = st.targets.length := by simp [State.move]
  rw [hlen]
  by_cases hk : kd = false ∧ E.kernel = .other ∧ st.targets.length ≠ 1
  · rw [if_pos hk, if_pos hk]; rfl
  · rw [if_neg hk, if_neg hk]
    simp only [bind, Except.bind]
    obtain ⟨he, ho⟩ := h.fit st hw
    cases hf : E.fit st with
    | error e => rw [he e hf]; rfl
    | ok s =>
      obtain ⟨s', hs', hms⟩ := ho s hf
      rw [hs']
      simp only
      have hlr : lastRow (st.move t c).train = (lastRow st.train).map (move t) := lastRow_map (move t) st.train
      rw [hlr]
      cases hl : lastRow st.train with
      | error e => rfl
      | ok start =>
        have hstart : start.length = t.length := by
          apply hw
          unfold lastRow at hl
          split at hl
          · rename_i a ha
            cases hl
            exact List.mem_of_getLast? ha
          · cases hl
        simp only [Except.map]
        rw [move_length t start hstart, ← hstart, hstart]
        rw [inner_move E E' t c h st s s' hms 1001 0 start _ hstart (by simp)]
        cases hi : inner E st s 1001 0 start (List.replicate t.length 0) with
        | error e => rfl
        | ok ps =>
          simp only [Except.map]
          rw [h.acq, choose_move]
          cases hc : choose E.acq ps with
          | error e => rfl
          | ok p =>
            have hp : p.pos.length = t.length := by
              have hmem := (choose_spec E.acq ps p hc).1
              have := (inner_fixed E st s 1001 0 start (List.replicate t.length 0) ps (by simp [hstart])
                (fun i _ hlt => by simp [List.getElem?_replicate, ← hstart, hlt]) hi p hmem).1
              rw [this, hstart]
            simp only [Except.map]
            exact evaluate_move E E' t c h st p.pos hp

/-- C268: two runs about the same structure and landscape, one of them moved in space and with another zero of the energy, end in the same way after the same number of
iterations; all evaluated structures are those of the other run, moved, with the same forces. -/
theorem C268_run (E E' : Env) (t : List ℝ) (c : ℝ) (h : Moved E E' t c) (fuel : ℕ) (kd : Bool) (st : State) (hw : ∀ x ∈ st.train, x.length = t.length) :
    run E' fuel kd (st.move t c) = (run E fuel kd st).move t c := by
  induction fuel generalizing kd st with
  | zero => rfl
  | succ fuel ih =>
    rw [run, run]
    have hg : (st.move t c).gradients = st.gradients := rfl
    rw [hg]
    cases hl : lastRow st.gradients with
    | error e => rfl
    | ok g =>
      simp only
      cases hm : getFmax g with
      | error e => rfl
      | ok m =>
        simp only
        rw [h.fmax]
        by_cases hmf : m < E.fmax
        · rw [if_pos hmf, if_pos hmf]; rfl
        · rw [if_neg hmf, if_neg hmf, body_move E E' t c h kd st hw]
          cases hb : body E kd st with
          | error e => rfl
          | ok st' =>
            simp only [Except.map]
            rw [h.steps]
            have hi : (st'.move t c).iter = st'.iter := rfl
            rw [hi]
            by_cases hs : (st'.iter : Int) ≥ E.steps
            · rw [if_pos hs, if_pos hs]; rfl
            · rw [if_neg hs, if_neg hs]
              apply ih
              obtain ⟨sur, start, ps, p, -, hl', hi', hp, -, hev⟩ := body_spec E kd st st' hb
              intro x hx
              rw [hev.train, List.mem_append, List.mem_singleton] at hx
              rcases hx with hx | rfl
              · exact hw x hx
              · rw [(inner_fixed E st sur 1001 0 start _ ps (by simp) (fun i _ hi => by simp [hi]) hi' p hp).1]
                exact hw start (List.mem_of_getLast? hl')

private theorem dedupe_move (t : List ℝ) (c : ℝ) (prev : List Calc) : ∀ (known : List Calc), (∀ k ∈ known, k.pos.length = t.length) → (∀ k ∈ prev, k.pos.length = t.length) →
    dedupe (known.map (Calc.move t c)) (prev.map (Calc.move t c)) = (dedupe known prev).map (Calc.move t c) := by
  induction prev with
  | nil => intro known _ _; rfl
  | cons p ps ih =>
    intro known hk hp
    rw [List.map_cons, dedupe, dedupe]
    have hiff : (∃ k ∈ known.map (Calc.move t c), k.pos = (Calc.move t c p).pos) ↔ ∃ k ∈ known, k.pos = p.pos := by
      constructor
      · rintro ⟨k, hk', he⟩
        obtain ⟨k, hm, rfl⟩ := List.mem_map.1 hk'
        exact ⟨k, hm, move_inj t _ _ (hk k hm) (hp p (by simp)) he⟩
      · rintro ⟨k, hm, he⟩
        exact ⟨_, List.mem_map_of_mem hm, by simp [Calc.move, he]⟩
    have hp' : ∀ k ∈ ps, k.pos.length = t.length := fun k hk' => hp k (by simp [hk'])
    by_cases h : ∃ k ∈ known, k.pos = p.pos
    · rw [if_pos (hiff.2 h), if_pos h]
      exact ih known hk hp'
    · rw [if_neg (fun h' => h (hiff.1 h')), if_neg h, ← ih (known ++ [p]) ?_ hp']
      · simp
      · intro k hk'
        rcases List.mem_append.1 hk' with hk' | hk'
        · exact hk k hk'
        · rw [List.mem_singleton.1 hk']; exact hp p (by simp)

private theorem dedupe_mem (prev : List Calc) : ∀ (known : List Calc) (k : Calc), k ∈ dedupe known prev → k ∈ known ∨ k ∈ prev := by
  induction prev with
  | nil => intro known k h; exact .inl h
  | cons p ps ih =>
    intro known k h
    rw [dedupe] at h
    rcases ih _ k h with h | h
    · split at h
      · exact .inl h
      · rcases List.mem_append.1 h with h | h
        · exact .inl h
        · exact .inr (by rw [List.mem_singleton.1 h]; simp)
    · exact .inr (by simp [h])

/-- C268, the constructor: moved structures with shifted energies give the object moved, or the same error; also the same previous calculations are kept. -/
theorem C268_init (t : List ℝ) (c : ℝ) (x0 : Calc) (prev : List Calc) (h0 : x0.pos.length = t.length) (hp : ∀ p ∈ prev, p.pos.length = t.length) :
    init (x0.move t c) (prev.map (Calc.move t c)) = (init x0 prev).map (State.move t c) ∧
    ∀ st, init x0 prev = .ok st → ∀ x ∈ st.train, x.length = t.length := by
  have hd := dedupe_move t c prev [x0] (by simpa using h0) hp
  rw [List.map_cons, List.map_nil] at hd
  constructor
  · unfold init
    simp only [bind, Except.bind, pure, Except.pure, hd]
    have hg : ((dedupe [x0] prev).map (Calc.move t c)).map (·.grad) = (dedupe [x0] prev).map (·.grad) := by
      rw [List.map_map]
      rfl
    rw [hg]
    generalize List.mapM (m := Except PyErr) getFmax _ = q
    cases q with
    | error e => rfl
    | ok m =>
      simp only [Except.map, State.move, List.map_map, List.map_cons, ← List.map_drop]
      rfl
  · intro st hs x hx
    unfold init at hs
    simp only [bind, Except.bind, pure, Except.pure] at hs
    split at hs
    · cases hs
    · cases hs
      obtain ⟨k, hk, rfl⟩ := List.mem_map.1 hx
      rcases dedupe_mem prev [x0] k hk with h | h
      · rw [List.mem_singleton.1 h]; exact h0
      · exact hp k h

private theorem npMax_add (c : ℝ) (l : List ℝ) : CatLearn.Surrogate.npMax (l.map (· + c)) = (CatLearn.Surrogate.npMax l).map (· + c) := by
  cases l with
  | nil => rfl
  | cons a l =>
    simp only [CatLearn.Surrogate.npMax, List.map_cons, Except.map, Except.ok.injEq]
    induction l generalizing a with
    | nil => rfl
    | cons b l ih => rw [List.map_cons, List.foldl_cons, List.foldl_cons, max_add_add_right, ih]

private theorem rows_move (t w : List ℝ) (mask : List ℕ) (hw : pick t mask = .ok w) (rows : List (List ℝ)) (h : ∀ x ∈ rows, x.length = t.length) :
    (rows.map (move t)).mapM (fun x => pick x mask) = (rows.mapM fun x => pick x mask).map fun (l : List (List ℝ)) => l.map (move w) := by
  induction rows with
  | nil => rfl
  | cons r rows ih =>
    rw [List.map_cons, List.mapM_cons, List.mapM_cons, ih (fun x hx => h x (by simp [hx])), pick_move t r (h r (by simp)), hw]
    simp only [bind, Except.bind, pure, Except.pure]
    cases pick r mask with
    | error e => rfl
    | ok u =>
      simp only
      generalize List.mapM (m := Except PyErr) _ rows = q
      cases q <;> rfl

private theorem rows_length (mask : List ℕ) (rows : List (List ℝ)) : ∀ (l : List (List ℝ)), rows.mapM (fun x => pick x mask) = .ok l → ∀ u ∈ l, u.length = mask.length := by
  induction rows with
  | nil => intro l h; cases h; simp
  | cons r rows ih =>
    intro l h
    simp only [List.mapM_cons, bind, Except.bind, pure, Except.pure] at h
    split at h
    · cases h
    · rename_i u hu
      split at h
      · cases h
      · rename_i l' hl'
        cases h
        intro v hv
        rcases List.mem_cons.1 hv with rfl | hv
        · exact pick_length r mask _ hu
        · exact ih l' hl' v hv

private theorem toVec_move (N : ℕ) (w u : List ℝ) (h : u.length = w.length) : toVec N (move w u) = toVec N u + toVec N w := by
  funext a
  simp only [toVec, List.getD, move_getElem? w u h, Pi.add_apply]
  cases hx : u[(a : ℕ)]? with
  | some v => rfl
  | none =>
    have : w[(a : ℕ)]? = none := by
      rw [List.getElem?_eq_none_iff] at hx ⊢
      omega
    simp [this]

/-- C268, the Gaussian process: trained on the moved structures with shifted energies and with the same hyperparameters, it fails with the same error or predicts the same
energies (relative to the largest one seen) and uncertainties at the moved places. -/
theorem C268_fit {N : ℕ} (mask : List ℕ) (kern kern' : State → List (Kernel.GDict N)) (hk : ∀ st, ∀ k ∈ kern st, Differences k) (t : List ℝ) (c : ℝ)
    (hkern : ∀ st, kern' (State.move t c st) = kern st) (st : State) (h : ∀ x ∈ st.train, x.length = t.length) :
    (∀ e, gpFit mask kern st = .error e → gpFit mask kern' (st.move t c) = .error e) ∧
    ∀ s, gpFit mask kern st = .ok s → ∃ s', gpFit mask kern' (st.move t c) = .ok s' ∧ MovedSurrogate mask t s s' := by
  have hmax : CatLearn.Surrogate.npMax (st.move t c).targets = (CatLearn.Surrogate.npMax st.targets).map (· + c) := npMax_add c st.targets
  unfold gpFit
  rw [hmax, hkern]
  cases hm : CatLearn.Surrogate.npMax st.targets with
  | error e => exact ⟨fun e' h => h, fun s h => (by cases h)⟩
  | ok m =>
    simp only [Except.map]
    have htar : (st.move t c).targets.map (· - (m + c)) = st.targets.map (· - m) := by
      simp only [State.move, List.map_map]
      apply List.map_congr_left
      intro y _
      simp
    have hgr : (st.move t c).gradients = st.gradients := rfl
    have htr : (st.move t c).train = st.train.map (move t) := rfl
    rw [htar, hgr, htr]
    simp only [applyMask, bind, Except.bind, pure, Except.pure]
    cases hw : pick t mask with
    | ok w =>
      rw [rows_move t w mask hw st.train h]
      cases hx : st.train.mapM fun x => pick x mask with
      | error e => exact ⟨fun e' h => h, fun s h => (by cases h)⟩
      | ok x =>
        simp only [Except.map]
        generalize List.mapM (m := Except PyErr) _ st.gradients = g
        cases g with
        | error e => exact ⟨fun e' h => h, fun s h => (by cases h)⟩
        | ok g =>
          simp only
          have hv : (x.map (move w)).map (toVec N) = (x.map (toVec N)).map (· + toVec N w) := by
            rw [List.map_map, List.map_map]
            apply List.map_congr_left
            intro u hu
            exact toVec_move N w u (by rw [rows_length mask st.train x hx u hu, pick_length t mask w hw])
          rw [hv]
          obtain ⟨h1, h2⟩ := C247_gradients (toVec N w) (kern st) (hk st) (some 0) (x.map (toVec N)) (st.targets.map (· - m)) (g.map (toVec N))
          cases hi : GradProc.init (x.map (toVec N)) (st.targets.map (· - m)) (g.map (toVec N)) (kern st) (some 0) false with
          | error e =>
            rw [h1 e hi]
            exact ⟨fun e' h => h, fun s h => (by cases h)⟩
          | ok gp =>
            obtain ⟨gp', hi', hpu⟩ := h2 gp hi
            rw [hi']
            refine ⟨fun e h => (by cases h), fun s h => ⟨_, rfl, ?_⟩⟩
            cases h
            intro u w' hw' hu
            cases hw.symm.trans hw'
            have := toVec_move N w u (by rw [hu, pick_length t mask w hw])
            simp only [this, (hpu (toVec N u)).1, (hpu (toVec N u)).2, and_self]
    | error e =>
      cases htrain : st.train with
      | nil =>
        refine ⟨fun e h => h, fun s h => ⟨s, h, fun u w hw' _ => ?_⟩⟩
        rw [hw] at hw'
        cases hw'
      | cons r rows =>
        have hr : r.length = t.length := h r (by simp [htrain])
        have hbad : ∀ q : List ℝ, q.length = t.length → ∃ e', pick q mask = .error e' := by
          intro q hq
          cases hp : pick q mask with
          | error e' => exact ⟨e', rfl⟩
          | ok u =>
            obtain ⟨w, hw', _⟩ := pick_same q t hq mask u hp
            rw [hw] at hw'
            cases hw'
        obtain ⟨e', he'⟩ := hbad r hr
        have hmv := pick_move t r hr mask
        rw [he'] at hmv
        simp only at hmv
        simp only [List.map_cons, List.mapM_cons, bind, Except.bind, he', hmv]
        exact ⟨fun e h => h, fun s h => (by cases h)⟩

/-- C268: a minimisation from the moved structure, with moved previous calculations and energies larger by `c`, with the Gaussian process, ends like the one from the original structure:
everything evaluated is moved by `t`. -/
theorem C268_moved {N : ℕ} (E E' : Env) (kern kern' : State → List (Kernel.GDict N)) (t : List ℝ) (c : ℝ) (hE : E.fit = gpFit E.mask kern) (hE' : E' = { E with
      real := E'.real, fit := gpFit E.mask kern', coef := E'.coef, conv := E'.conv })
    (hreal : ∀ x, x.length = t.length → E'.real (move t x) = ((E.real x).1 + c, (E.real x).2))
    (hk : ∀ st, ∀ k ∈ kern st, Differences k) (hkern : ∀ st, kern' (State.move t c st) = kern st)
    (hcoef : ∀ st n, E'.coef (State.move t c st) n = E.coef st n) (hconv : ∀ st n, E'.conv (State.move t c st) n = E.conv st n)
    (x0 : Calc) (prev : List Calc) (h0 : x0.pos.length = t.length) (hp : ∀ p ∈ prev, p.pos.length = t.length) (fuel : ℕ) :
    (∀ e, init x0 prev = .error e → init (x0.move t c) (prev.map (Calc.move t c)) = .error e) ∧
    ∀ st, init x0 prev = .ok st → ∃ st', init (x0.move t c) (prev.map (Calc.move t c)) = .ok st' ∧ run E' fuel false st' = (run E fuel false st).move t c := by
  obtain ⟨hi, hl⟩ := C268_init t c x0 prev h0 hp
  have hmask : E'.mask = E.mask := by rw [hE']
  have hM : Moved E E' t c := by
    refine ⟨hreal, ?_, hcoef, hconv, hmask, by rw [hE'], by rw [hE'], by rw [hE'], by rw [hE'], by rw [hE'], by rw [hE']⟩
    intro st hst
    have hf : E'.fit = gpFit E.mask kern' := by rw [hE']
    rw [hE, hf]
    exact C268_fit E.mask kern kern' hk t c hkern st hst
  rw [hi]
  refine ⟨fun e he => by rw [he]; rfl, fun st hs => ⟨st.move t c, by rw [hs]; rfl, C268_run E E' t c hM fuel false st (hl st hs)⟩⟩

/-- The landscape moved by `t`, with energies larger by `c`. -/
noncomputable def Env.moved (E : Env) (t : List ℝ) (c : ℝ) : Env :=
  let back := State.move (t.map (- ·)) (-c)
  { E with
    real := fun x => ((E.real (move (t.map (- ·)) x)).1 + c, (E.real (move (t.map (- ·)) x)).2)
    coef := fun st n => E.coef (back st) n
    conv := fun st n => E.conv (back st) n }

/-- C268 is not vacuous: every landscape can be moved. -/
example (E : Env) (t : List ℝ) (c : ℝ) (x : List ℝ) (h : x.length = t.length) : (E.moved t c).real (move t x) = ((E.real x).1 + c, (E.real x).2) := by
  have hb : move (t.map (- ·)) (move t x) = x := by
    apply List.ext_getElem?
    intro i
    rw [move_getElem? _ _ (by rw [move_length t x h, List.length_map]), move_getElem? t x h]
    cases hx : x[i]? with
    | none => rfl
    | some v =>
      have hi : i < t.length := by rw [← h]; exact (List.getElem?_eq_some_iff.1 hx).1
      simp [List.getD, List.getElem?_eq_getElem hi]
  simp [Env.moved, hb]

/-- A concrete landscape, its steps, and the same ones moved. -/
example : ∃ (E E' : Env) (kern kern' : State → List (Kernel.GDict 1)), E.fit = gpFit E.mask kern ∧ E' = { E with
      real := E'.real, fit := gpFit E.mask kern', coef := E'.coef, conv := E'.conv } ∧
    (∀ x, x.length = 3 → E'.real (move [1, 1, 1] x) = ((E.real x).1 + 5, (E.real x).2)) ∧ (∀ st, ∀ k ∈ kern st, Differences k) ∧
    (∀ st, kern' (State.move [1, 1, 1] 5 st) = kern st) ∧ (∀ st n, E'.coef (State.move [1, 1, 1] 5 st) n = E.coef st n) ∧
    (∀ st n, E'.conv (State.move [1, 1, 1] 5 st) n = E.conv st n) ∧ ∀ st, kern st ≠ [] := by
  refine ⟨{ demo 10 .sqeFixed with real := fun x => (x.getD 0 0 ^ 2, [2 * x.getD 0 0, 0, 0]), fit := gpFit (demo 10 .sqeFixed).mask fun _ => [⟨.gaussian (fun _ => 1), 1, false⟩] },
    { demo 10 .sqeFixed with real := fun x => ((x.getD 0 0 - 1) ^ 2 + 5, [2 * (x.getD 0 0 - 1), 0, 0]), fit := gpFit (demo 10 .sqeFixed).mask fun _ => [⟨.gaussian (fun _ => 1), 1, false⟩] },
    _, _, rfl, rfl, ?_, ?_, fun _ => rfl, fun _ _ => rfl, fun _ _ => rfl, ?_⟩
  · intro x hx
    match x, hx with
    | [a, b, d], _ => simp [move]
  · simp [Differences]
  · simp

end CatLearn.MLMin
