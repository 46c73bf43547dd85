import Verif.Model.MLMinFiles
import Verif.Props.MLMin
import Mathlib.Tactic.Linarith

/-!
# C234: continuing an `MLMin` calculation from its trajectory file
-/

namespace CatLearn.MLMin

open CatLearn CatLearn.Masks

theorem dedupe_fresh (known l : List Calc) (h : ((known ++ l).map (·.pos)).Nodup) : dedupe known l = known ++ l := by
  induction l generalizing known with
  | nil => simp [dedupe]
  | cons p ps ih =>
    have hp : ¬ ∃ k ∈ known, k.pos = p.pos := by
      rintro ⟨k, hk, he⟩
      rw [List.map_append, List.nodup_append] at h
      exact h.2.2 k.pos (List.mem_map.2 ⟨k, hk, rfl⟩) p.pos (by simp) he
    rw [dedupe, if_neg hp, ih _ (by simpa using h)]
    simp

/-- A known structure at the head of the file is skipped. -/
theorem dedupe_head (x0 : Calc) (l : List Calc) : dedupe [x0] (x0 :: l) = dedupe [x0] l := by
  rw [dedupe, if_pos ⟨x0, by simp, rfl⟩]

theorem init_ok (x0 : Calc) (prev l : List Calc) (hl : dedupe [x0] prev = l) (m : List ℝ)
    (hm : (l.map (·.grad)).mapM getFmax = .ok m) :
    init x0 prev = .ok ⟨l.map (·.pos), l.map (·.energy), l.map (·.grad), m, 0, x0.pos, .ini :: (l.drop 1).map fun c => .own c.pos⟩ := by
  simp only [init, hl, bind, Except.bind, pure, Except.pure, hm]

theorem init_inv (x0 : Calc) (prev : List Calc) (s : State) (h : init x0 prev = .ok s) :
    s.train = (dedupe [x0] prev).map (·.pos) ∧ s.targets = (dedupe [x0] prev).map (·.energy) ∧
      s.gradients = (dedupe [x0] prev).map (·.grad) ∧ ((dedupe [x0] prev).map (·.grad)).mapM getFmax = .ok s.maxAbs := by
  simp only [init, bind, Except.bind, pure, Except.pure] at h
  split at h
  · cases h
  · rename_i m hm
    cases h
    exact ⟨rfl, rfl, rfl, hm⟩

theorem mapM_append_ok {α β : Type} (f : α → Except PyErr β) (l l' : List α) (m m' : List β) (h : l.mapM f = .ok m)
    (h' : List.Forall₂ (fun a b => f a = .ok b) l' m') : (l ++ l').mapM f = .ok (m ++ m') := by
  rw [List.mapM_append, h]
  have : l'.mapM f = .ok m' := by
    induction h' with
    | nil => rfl
    | cons hab _ ih =>
      rw [List.mapM_cons, hab, ih]
      rfl
  simp only [bind, Except.bind, this, pure, Except.pure]

/-- C234, the part that holds: if a run (converged or out of budget) never evaluated a geometry twice, a new object with the same
initial structure that reads the file of the run has the same geometries, energies, gradients and forces, in the same order; its
iteration counter is zero. -/
theorem C234_restart_partial (E : Env) (fuel : ℕ) (kd : Bool) (x0 : Calc) (prev : List Calc) (s0 s : State) (h0 : init x0 prev = .ok s0)
    (h : (run E fuel kd s0).final = some s) (hn : s.train.Nodup) :
    ∃ s1, init x0 (trajectoryFile x0 prev E.real (s.train.drop s0.train.length)) = .ok s1 ∧ s1.train = s.train ∧
      s1.targets = s.targets ∧ s1.gradients = s.gradients ∧ s1.maxAbs = s.maxAbs ∧ s1.iter = 0 := by
  obtain ⟨new, h1, h2, h3, ms, h4, h5⟩ := C54_data E fuel kd s0 s h
  obtain ⟨i1, i2, i3, i4⟩ := init_inv x0 prev s0 h0
  have hd : s.train.drop s0.train.length = new := by rw [h1, List.drop_left]
  set l := dedupe [x0] prev ++ new.map fun p => (⟨p, (E.real p).1, (E.real p).2⟩ : Calc) with hl
  have hpos : l.map (·.pos) = s.train := by
    rw [hl, List.map_append, List.map_map, h1, i1]
    congr 1
    conv_rhs => rw [← List.map_id new]
    exact List.map_congr_left fun _ _ => rfl
  obtain ⟨rest, hr, -, -, -⟩ := dedupe_spec [x0] prev
  have hx : l = x0 :: (rest ++ new.map fun p => (⟨p, (E.real p).1, (E.real p).2⟩ : Calc)) := by
    rw [hl, hr]
    simp
  have hde : dedupe [x0] l = l := by
    rw [hx, dedupe_head, dedupe_fresh]
    · simp
    · rw [List.singleton_append, ← hx, hpos]
      exact hn
  have hg : l.map (·.grad) = s.gradients := by
    rw [hl, List.map_append, List.map_map, h3, i3]
    rfl
  have hm : (l.map (·.grad)).mapM getFmax = .ok s.maxAbs := by
    rw [hl, List.map_append, h4]
    apply mapM_append_ok _ _ _ _ _ i4
    rw [List.map_map, List.forall₂_map_left_iff]
    exact h5
  refine ⟨⟨l.map (·.pos), l.map (·.energy), l.map (·.grad), s.maxAbs, 0, x0.pos, .ini :: (l.drop 1).map fun c => .own c.pos⟩,
    ?_, hpos, ?_, hg, rfl, rfl⟩
  · rw [hd]
    exact init_ok x0 l l hde _ hm
  · show l.map (·.energy) = s.targets
    rw [hl, List.map_append, List.map_map, h2, i2]
    rfl

example : ∃ s1, init demoStart (trajectoryFile demoStart [] (demo 5 .sqe).real (demoNext.train.drop demoState.train.length)) = .ok s1 ∧
    s1.train = demoNext.train ∧ s1.targets = demoNext.targets ∧ s1.gradients = demoNext.gradients ∧ s1.maxAbs = demoNext.maxAbs ∧
    s1.iter = 0 :=
  C234_restart_partial (demo 5 .sqe) 7 false demoStart [] demoState demoNext demo_init (by rw [demo_run 5 .sqe 5]; rfl)
    (by simp [demoNext])

/-- C234 is violated if a geometry was evaluated twice: the second evaluation is not read back. -/
theorem C234_repeated_violated (x0 : Calc) (file : List Calc) (s s1 : State) (hn : ¬ s.train.Nodup) (h : init x0 file = .ok s1) :
    s1.train ≠ s.train := by
  intro he
  exact hn (he ▸ (C54_init x0 file s1 h).2.2.2.2.1)

example : ∃ s1 : State, init demoStart [demoStart] = .ok s1 ∧ s1.train ≠ ({ demoState with train := [[1, 2, 3], [1, 2, 3]] } : State).train := by
  obtain ⟨s1, h1⟩ : ∃ s1 : State, init demoStart [demoStart] = .ok s1 := by
    simp [init, demoStart, dedupe, getFmax_x, bind, Except.bind, pure, Except.pure]
  exact ⟨s1, h1, C234_repeated_violated _ _ _ s1 (by simp) h1⟩

/-- C234 is violated if the calculation is continued from its last structure: that structure moves to the head of the lists, the next
step starts from the one evaluated before it, and convergence is judged by that one.  A converged calculation is then not found
converged. -/
theorem C234_from_last_violated (E : Env) (fuel : ℕ) (kd : Bool) (l : List Calc) (b c : Calc)
    (hn : ((l ++ [b, c]).map (·.pos)).Nodup) (s1 : State) (h : init c (l ++ [b, c]) = .ok s1)
    (mb : ℝ) (hb : getFmax b.grad = .ok mb) (hbad : E.fmax ≤ mb) :
    s1.train = c.pos :: l.map (·.pos) ++ [b.pos] ∧ s1.gradients.getLast? = some b.grad ∧ run E fuel kd s1 ≠ .converged s1 := by
  have hdd : ∀ (known : List Calc) (k : List Calc), c ∈ known → ((known ++ k).map (·.pos)).Nodup →
      dedupe known (k ++ [c]) = known ++ k := by
    intro known k
    induction k generalizing known with
    | nil =>
      intro hk _
      rw [List.nil_append, dedupe, if_pos ⟨c, hk, rfl⟩]
      simp [dedupe]
    | cons p ps ih =>
      intro hk hnd
      have hp : ¬ ∃ k ∈ known, k.pos = p.pos := by
        rintro ⟨k, hk, he⟩
        rw [List.map_append, List.nodup_append] at hnd
        exact hnd.2.2 k.pos (List.mem_map.2 ⟨k, hk, rfl⟩) p.pos (by simp) he
      rw [List.cons_append, dedupe, if_neg hp, ih _ (by simp [hk]) (by simpa using hnd)]
      simp
  have hperm : (([c] ++ (l ++ [b])).map (·.pos)).Nodup := by
    have : ([c] ++ (l ++ [b])).Perm (l ++ [b, c]) := by
      rw [show l ++ [b, c] = (l ++ [b]) ++ [c] by simp]
      exact List.perm_append_comm
    exact (this.map _).nodup_iff.2 hn
  have hd : dedupe [c] (l ++ [b, c]) = c :: (l ++ [b]) := by
    rw [show l ++ [b, c] = (l ++ [b]) ++ [c] by simp, hdd [c] (l ++ [b]) (by simp) hperm]
    rfl
  obtain ⟨i1, -, i3, -⟩ := init_inv c _ s1 h
  rw [hd] at i1 i3
  have hlast : s1.gradients.getLast? = some b.grad := by
    rw [i3, show (c :: (l ++ [b])).map (·.grad) = (c.grad :: l.map (·.grad)) ++ [b.grad] by simp, List.getLast?_concat]
  refine ⟨by rw [i1]; simp, hlast, ?_⟩
  intro hr
  obtain ⟨g, m, g1, g2, g3⟩ := run_fmax E fuel kd s1 s1 hr
  rw [hlast] at g1
  obtain rfl := Option.some.inj g1
  rw [hb] at g2
  simp only [Except.ok.injEq] at g2
  linarith

example : ∃ s1, init ⟨[0, 2, 3], 0, [0, 0, 0]⟩ [demoStart, ⟨[0, 2, 3], 0, [0, 0, 0]⟩] = .ok s1 ∧
    s1.train = [[0, 2, 3], [1, 2, 3]] ∧ run (demo 5 .sqe) 7 false s1 ≠ .converged s1 := by
  have hi : dedupe [⟨[0, 2, 3], 0, [0, 0, 0]⟩] [demoStart, ⟨[0, 2, 3], 0, [0, 0, 0]⟩] = [⟨[0, 2, 3], 0, [0, 0, 0]⟩, demoStart] := by
    simp [dedupe, demoStart]
  have h := init_ok ⟨[0, 2, 3], 0, [0, 0, 0]⟩ _ _ hi [|0|, |1|]
    (by simp [demoStart, getFmax_x, bind, Except.bind, pure, Except.pure])
  obtain ⟨h1, -, h3⟩ := C234_from_last_violated (demo 5 .sqe) 7 false [] demoStart ⟨[0, 2, 3], 0, [0, 0, 0]⟩
    (by simp [demoStart]) _ h 1 (by rw [demoStart, getFmax_x, abs_one]) (by norm_num [demo])
  exact ⟨_, h, h1, h3⟩

end CatLearn.MLMin
