import Verif.Model.NebFiles
import Verif.Lemmas.MapM
import Mathlib.Tactic.Linarith
import Mathlib.Tactic.FieldSimp
import Mathlib.Tactic.Ring

/-!
# C231–C233: the files of an ML-NEB calculation
-/

namespace CatLearn.NebFiles

open CatLearn CatLearn.MLNEB

/-! ### C231: continuing from the evaluated structures -/

theorem chunks_flatten (k : ℕ) (l : List (List ℝ)) (h : ∀ r ∈ l, r.length = k) : chunks l.length k l.flatten = l := by
  induction l with
  | nil => rfl
  | cons r l ih =>
    have hr : r.length = k := h r (by simp)
    simp only [List.length_cons, chunks, List.flatten_cons]
    rw [← hr, List.take_left, List.drop_left, hr, ih fun r' h' => h r' (by simp [h'])]

theorem flatten_length (k : ℕ) (l : List (List ℝ)) (h : ∀ r ∈ l, r.length = k) : l.flatten.length = l.length * k := by
  induction l with
  | nil => simp
  | cons r l ih =>
    rw [List.flatten_cons, List.length_append, ih fun r' h' => h r' (by simp [h']), h r (by simp), List.length_cons]
    ring

/-- Structures of `n` atoms each, with gradients of that size. -/
def SameAtoms (n : ℕ) (l : List Calc) : Prop := ∀ c ∈ l, c.pos.length = 3 * n ∧ c.grad.length = 3 * n

/-- `ase_to_catlearn` reads one row for each structure. -/
theorem aseToCatlearn_ok (n : ℕ) (l : List Calc) (hne : l ≠ []) (h : SameAtoms n l) :
    aseToCatlearn l = .ok ⟨l.map Calc.pos, l.map Calc.energy, l.map Calc.grad⟩ := by
  cases l with
  | nil => exact absurd rfl hne
  | cons c l =>
    have hk : c.pos.length / 3 * 3 = 3 * n := by
      have := (h c (by simp)).1
      omega
    have hp : ∀ r ∈ (c :: l).map Calc.pos, r.length = 3 * n := by
      intro r hr
      obtain ⟨d, hd, rfl⟩ := List.mem_map.1 hr
      exact (h d hd).1
    have hg : ∀ r ∈ (c :: l).map Calc.grad, r.length = 3 * n := by
      intro r hr
      obtain ⟨d, hd, rfl⟩ := List.mem_map.1 hr
      exact (h d hd).2
    have lp := flatten_length _ _ hp
    have lg := flatten_length _ _ hg
    have cp := chunks_flatten _ _ hp
    have cg := chunks_flatten _ _ hg
    rw [List.length_map] at lp lg cp cg
    simp only [aseToCatlearn, reshape]
    rw [hk, if_pos lp, if_pos lg, cp, cg]

theorem evaluations_spec (fc : Option Bool) (real : List ℝ → Calc) (xs : List (List ℝ)) (file : Option (List Calc)) (d : Data)
    (h : ∀ x ∈ xs, ∃ e, potential fc (real x) = .ok e) :
    ∃ es : List ℝ, List.Forall₂ (fun x e => potential fc (real x) = .ok e) xs es ∧
      evaluations fc real xs (file, d) =
        .ok (if xs = [] then file else some (file.getD [] ++ xs.map real),
          ⟨d.train ++ xs, d.targets ++ es, d.gradients ++ xs.map fun x => (real x).grad⟩) := by
  induction xs generalizing file d with
  | nil => exact ⟨[], .nil, by simp [evaluations]⟩
  | cons x xs ih =>
    obtain ⟨e, he⟩ := h x (by simp)
    obtain ⟨es, h1, h2⟩ := ih (some (file.getD [] ++ [real x])) ⟨d.train ++ [x], d.targets ++ [e], d.gradients ++ [(real x).grad]⟩
      fun y hy => h y (by simp [hy])
    refine ⟨e :: es, .cons he h1, ?_⟩
    simp only [evaluations, evaluate, he]
    rw [h2]
    by_cases hx : xs = [] <;> simp [hx]

/-- C231, the part that holds: a calculation started without previous calculations (in an empty directory, or with
`restart=False`) is continued by a new object in that directory with exactly its training data, whatever structures it had
evaluated and whatever endpoint objects are passed — provided the energy asked for by `force_consistent` is the one that is
read back, and the structures all have the same number of atoms.  The first two rows are the endpoints. -/
theorem C231_restart_partial (fc : Option Bool) (real : List ℝ → Calc) (hreal : ∀ x, (real x).pos = x) (n : ℕ) (is fs is' fs' : Calc)
    (old : Option (List Calc)) (restart : Bool) (hnew : restart = false ∨ old = none) (xs : List (List ℝ))
    (hn : SameAtoms n ([is, fs] ++ xs.map real)) (hfc : ∀ x ∈ xs, potential fc (real x) = .ok (real x).energy) :
    ∃ d0 d file, construct old is fs restart .none = (some [is, fs], .ok d0) ∧
      evaluations fc real xs (some [is, fs], d0) = .ok (file, d) ∧
      construct file is' fs' true .none = (file, .ok d) ∧
      d.train = [is.pos, fs.pos] ++ xs ∧ d.targets = [is.energy, fs.energy] ++ xs.map fun x => (real x).energy := by
  have h0 : aseToCatlearn [is, fs] = .ok ⟨[is.pos, fs.pos], [is.energy, fs.energy], [is.grad, fs.grad]⟩ :=
    aseToCatlearn_ok n _ (by simp) fun c hc => hn c (by simp at hc ⊢; tauto)
  obtain ⟨es, h1, h2⟩ := evaluations_spec fc real xs (some [is, fs]) ⟨[is.pos, fs.pos], [is.energy, fs.energy], [is.grad, fs.grad]⟩
    fun x hx => ⟨_, hfc x hx⟩
  have hes : es = xs.map fun x => (real x).energy := by
    clear h2 hn
    induction h1 with
    | nil => rfl
    | cons hxe h ih =>
      rw [List.map_cons, ← ih fun x hx => hfc x (by simp [hx])]
      rw [hfc _ (by simp)] at hxe
      simp only [Except.ok.injEq] at hxe
      rw [hxe]
  have hfile : (if xs = [] then some [is, fs] else some ((some [is, fs]).getD [] ++ xs.map real)) = some ([is, fs] ++ xs.map real) := by
    by_cases hx : xs = [] <;> simp [hx]
  rw [hfile] at h2
  refine ⟨_, _, _, ?_, h2, ?_, rfl, by simp [hes]⟩
  · rcases hnew with rfl | rfl
    · simp [construct, h0]
    · cases restart <;> simp [construct, h0]
  · have h3 := aseToCatlearn_ok n ([is, fs] ++ xs.map real) (by simp) hn
    have hpos : (xs.map real).map Calc.pos = xs := by
      rw [List.map_map]
      conv_rhs => rw [← List.map_id xs]
      exact List.map_congr_left fun x _ => by simp [hreal]
    simp only [construct, if_true]
    rw [h3, List.map_append, List.map_append, List.map_append, hpos, hes]
    simp [List.map_map, Function.comp_def]

/-- A calculator with one atom whose free energy is another one. -/
noncomputable def twoEnergies (δ : ℝ) (x : List ℝ) : Calc := ⟨x, x.sum, some (x.sum + δ), [0, 0, 0]⟩

example : ∃ d0 d file, construct none (twoEnergies 1 [0, 0, 0]) (twoEnergies 1 [1, 0, 0]) true .none =
      (some [twoEnergies 1 [0, 0, 0], twoEnergies 1 [1, 0, 0]], .ok d0) ∧
    evaluations (some false) (twoEnergies 1) [[0, 1, 0], [0, 0, 1]] (some [twoEnergies 1 [0, 0, 0], twoEnergies 1 [1, 0, 0]], d0) = .ok (file, d) ∧
      construct file (twoEnergies 1 [0, 0, 0]) (twoEnergies 1 [1, 0, 0]) true .none = (file, .ok d) ∧
      d.train = [[0, 0, 0], [1, 0, 0]] ++ [[0, 1, 0], [0, 0, 1]] ∧
      d.targets = [([0, 0, 0] : List ℝ).sum, ([1, 0, 0] : List ℝ).sum] ++ ([[0, 1, 0], [0, 0, 1]] : List (List ℝ)).map List.sum :=
  C231_restart_partial (some false) (twoEnergies 1) (fun _ => rfl) 1 _ _ _ _ none true (Or.inr rfl) [[0, 1, 0], [0, 0, 1]]
    (by intro c hc; simp at hc; rcases hc with rfl | rfl | rfl | rfl <;> simp [twoEnergies]) (fun _ _ => rfl)

/-- C231 is violated by the default `force_consistent=None` with a calculator that has a free energy: the evaluated structures
enter the training data with their free energy, the endpoints and everything read from the file with the extrapolated one.
After a restart every evaluated structure has another target than before. -/
theorem C231_energies_violated (real : List ℝ → Calc) (hreal : ∀ x, (real x).pos = x) (n : ℕ) (a b x : List ℝ)
    (hn : SameAtoms n [real a, real b, real x]) (f : ℝ) (hf : (real x).free = some f) (hne : f ≠ (real x).energy) :
    ∃ d0 d d' file, construct none (real a) (real b) true .none = (some [real a, real b], .ok d0) ∧
      evaluations none real [x] (some [real a, real b], d0) = .ok (file, d) ∧
      construct file (real a) (real b) true .none = (file, .ok d') ∧
      d.targets = [(real a).energy, (real b).energy, f] ∧ d'.targets = [(real a).energy, (real b).energy, (real x).energy] ∧
      d'.train = d.train ∧ d'.targets ≠ d.targets := by
  have h0 : aseToCatlearn [real a, real b] = .ok ⟨[a, b], [(real a).energy, (real b).energy], [(real a).grad, (real b).grad]⟩ := by
    rw [aseToCatlearn_ok n _ (by simp) fun c hc => hn c (by simp at hc ⊢; tauto)]
    simp [hreal]
  have h3 := aseToCatlearn_ok n [real a, real b, real x] (by simp) hn
  refine ⟨⟨[a, b], [(real a).energy, (real b).energy], [(real a).grad, (real b).grad]⟩,
    ⟨[a, b, x], [(real a).energy, (real b).energy, f], [(real a).grad, (real b).grad, (real x).grad]⟩,
    ⟨[a, b, x], [(real a).energy, (real b).energy, (real x).energy], [(real a).grad, (real b).grad, (real x).grad]⟩,
    some [real a, real b, real x], ?_, ?_, ?_, rfl, rfl, ?_, ?_⟩
  · simp [construct, h0]
  · simp [evaluations, evaluate, potential, hf]
  · simp only [construct, if_true]
    rw [h3]
    simp [hreal]
  · rfl
  · simp [Ne.symm hne]

example : ∃ d0 d d' file, construct none (twoEnergies 1 [0, 0, 0]) (twoEnergies 1 [1, 0, 0]) true .none =
      (some [twoEnergies 1 [0, 0, 0], twoEnergies 1 [1, 0, 0]], .ok d0) ∧
    evaluations none (twoEnergies 1) [[0, 1, 0]] (some [twoEnergies 1 [0, 0, 0], twoEnergies 1 [1, 0, 0]], d0) = .ok (file, d) ∧
      construct file (twoEnergies 1 [0, 0, 0]) (twoEnergies 1 [1, 0, 0]) true .none = (file, .ok d') ∧
      d.targets = [([0, 0, 0] : List ℝ).sum, ([1, 0, 0] : List ℝ).sum, ([0, 1, 0] : List ℝ).sum + 1] ∧
      d'.targets = [([0, 0, 0] : List ℝ).sum, ([1, 0, 0] : List ℝ).sum, ([0, 1, 0] : List ℝ).sum] ∧
      d'.train = d.train ∧ d'.targets ≠ d.targets :=
  C231_energies_violated (twoEnergies 1) (fun _ => rfl) 1 [0, 0, 0] [1, 0, 0] [0, 1, 0]
    (by intro c hc; simp at hc; rcases hc with rfl | rfl | rfl <;> simp [twoEnergies]) _ rfl (by simp [twoEnergies])

/-- C231 is violated for a calculation given previous calculations in a fresh directory: they and the endpoints are never
written to `evaluated_structures.traj`; a restart trains on the newly evaluated structures alone. -/
theorem C231_previous_lost_violated (fc : Option Bool) (real : List ℝ → Calc) (hreal : ∀ x, (real x).pos = x) (n : ℕ) (is fs : Calc)
    (prev : List Calc) (hp : prev ≠ []) (hpn : SameAtoms n prev) (xs : List (List ℝ)) (hx : xs ≠ []) (hn : SameAtoms n (xs.map real))
    (hfc : ∀ x ∈ xs, ∃ e, potential fc (real x) = .ok e) :
    ∃ d0 d d' file, construct none is fs true (.given prev) = (none, .ok d0) ∧ evaluations fc real xs (none, d0) = .ok (file, d) ∧
      construct file is fs true .none = (file, .ok d') ∧ d.train = prev.map Calc.pos ++ xs ∧ d'.train = xs := by
  have h0 := aseToCatlearn_ok n prev hp hpn
  obtain ⟨es, _, h2⟩ := evaluations_spec fc real xs none ⟨prev.map Calc.pos, prev.map Calc.energy, prev.map Calc.grad⟩ hfc
  rw [if_neg hx] at h2
  have h3 := aseToCatlearn_ok n (xs.map real) (by simpa using hx) hn
  have hpos : (xs.map real).map Calc.pos = xs := by
    rw [List.map_map]
    conv_rhs => rw [← List.map_id xs]
    exact List.map_congr_left fun x _ => by simp [hreal]
  refine ⟨⟨prev.map Calc.pos, prev.map Calc.energy, prev.map Calc.grad⟩, _,
    ⟨(xs.map real).map Calc.pos, (xs.map real).map Calc.energy, (xs.map real).map Calc.grad⟩, _, by simp [construct, h0], h2, ?_, rfl, hpos⟩
  simp [construct, h3]

example : ∃ d0 d d' file, construct none (twoEnergies 1 [0, 0, 0]) (twoEnergies 1 [1, 0, 0]) true
      (.given [twoEnergies 1 [0, 0, 0], twoEnergies 1 [1, 0, 0], twoEnergies 1 [2, 0, 0]]) = (none, .ok d0) ∧
    evaluations none (twoEnergies 1) [[0, 1, 0]] (none, d0) = .ok (file, d) ∧
      construct file (twoEnergies 1 [0, 0, 0]) (twoEnergies 1 [1, 0, 0]) true .none = (file, .ok d') ∧
      d.train = [twoEnergies 1 [0, 0, 0], twoEnergies 1 [1, 0, 0], twoEnergies 1 [2, 0, 0]].map Calc.pos ++ [[0, 1, 0]] ∧
      d'.train = [[0, 1, 0]] :=
  C231_previous_lost_violated none (twoEnergies 1) (fun _ => rfl) 1 _ _ _ (by simp)
    (by intro c hc; simp at hc; rcases hc with rfl | rfl | rfl <;> simp [twoEnergies]) [[0, 1, 0]] (by simp)
    (by intro c hc; simp at hc; subst hc; simp [twoEnergies]) (fun x _ => ⟨_, rfl⟩)

/-- C231 is violated for `restart=False` with `prev_calculations='evaluated_structures.traj'`: the file is overwritten with the
endpoints before it is read, so that the calculations in it are lost. -/
theorem C231_overwritten_violated (n : ℕ) (is fs : Calc) (hn : SameAtoms n [is, fs]) (old : List Calc) :
    ∃ d, construct (some old) is fs false .own = (some [is, fs], .ok d) ∧ d.train = [is.pos, fs.pos] := by
  refine ⟨⟨[is.pos, fs.pos], [is.energy, fs.energy], [is.grad, fs.grad]⟩, ?_, rfl⟩
  have h0 := aseToCatlearn_ok n [is, fs] (by simp) hn
  simp [construct, h0]

example : ∃ d, construct (some [twoEnergies 1 [5, 0, 0]]) (twoEnergies 1 [0, 0, 0]) (twoEnergies 1 [1, 0, 0]) false .own =
    (some [twoEnergies 1 [0, 0, 0], twoEnergies 1 [1, 0, 0]], .ok d) ∧ d.train = [[0, 0, 0], [1, 0, 0]] :=
  C231_overwritten_violated 1 _ _ (by intro c hc; simp at hc; rcases hc with rfl | rfl <;> simp [twoEnergies]) _

/-- C231: the training data contain the endpoints of the call unless a file or previous calculations are read; then they are
the data of that file, whatever endpoints are passed.  With the default `restart=True` a file left behind by another calculation
is taken for the own one. -/
theorem C231_stale_file_violated (n : ℕ) (old : List Calc) (hne : old ≠ []) (hn : SameAtoms n old) (is fs : Calc)
    (his : ∀ c ∈ old, c.pos ≠ is.pos) :
    ∃ d, construct (some old) is fs true .none = (some old, .ok d) ∧ d.train = old.map Calc.pos ∧ is.pos ∉ d.train := by
  refine ⟨⟨old.map Calc.pos, old.map Calc.energy, old.map Calc.grad⟩, ?_, rfl, ?_⟩
  · have h0 := aseToCatlearn_ok n old hne hn
    simp only [construct, if_true]
    rw [h0]
  · simp only [List.mem_map, not_exists, not_and]
    exact fun c hc h => his c hc h

example : ∃ d, construct (some [twoEnergies 1 [5, 0, 0]]) (twoEnergies 1 [0, 0, 0]) (twoEnergies 1 [1, 0, 0]) true .none =
    (some [twoEnergies 1 [5, 0, 0]], .ok d) ∧ d.train = [twoEnergies 1 [5, 0, 0]].map Calc.pos ∧ (twoEnergies 1 [0, 0, 0]).pos ∉ d.train :=
  C231_stale_file_violated 1 _ (by simp) (by intro c hc; simp at hc; subst hc; simp [twoEnergies]) _ _
    (by intro c hc; simp at hc; subst hc; simp [twoEnergies])

/-! ### C232: the paths a pass starts from -/

/-- One image of the interpolation. -/
def pickAt {α : Type} (l : List α) (i : ℕ) : Except PyErr α :=
  match l[i + 1]? with
  | some x => .ok x
  | none => .error .index

theorem createPath_some {α : Type} (s f : α) (l : List α) (n : ℕ) (hn : 2 ≤ n) (hl : n ≤ l.length + 1) :
    createPath s f (some l) n = .ok (s :: (l.drop 1).take (n - 2) ++ [f]) := by
  have key : ∀ i ∈ List.range (n - 2), pickAt l i = .ok ((fun i => l.getD (i + 1) s) i) := by
    intro i hi
    rw [List.mem_range] at hi
    have : i + 1 < l.length := by omega
    simp [pickAt, this, List.getD_eq_getElem?_getD]
  have hm : (List.range (n - 2)).map (fun i => l.getD (i + 1) s) = (l.drop 1).take (n - 2) := by
    apply List.ext_getElem
    · simp
      omega
    · intro i h1 h2
      simp at h1 h2
      have : i + 1 < l.length := by omega
      simp [List.getD_eq_getElem?_getD, this, Nat.add_comm]
  have e : createPath s f (some l) n = match (List.range (n - 2)).mapM (pickAt l) with
      | .error e => .error e
      | .ok mid => .ok (s :: mid ++ [f]) := rfl
  rw [e, MapM.mapM_ok_map _ _ _ key, hm]

/-- A path of `N` images from `s` to `f`. -/
def IsPath {α : Type} (s f : α) (N : ℕ) (p : List α) : Prop := p.length = N ∧ ∃ mid, p = s :: mid ++ [f]

theorem cyclePath_first {α : Type} (s f : α) (N : ℕ) (p : List α) (hp : IsPath s f N p) (rest images : List α) :
    cyclePath s f (some (p ++ rest)) images N 0 = .ok p := by
  obtain ⟨hl, mid, rfl⟩ := hp
  simp only [List.cons_append, List.length_cons, List.length_append, List.length_nil] at hl
  have ht : (s :: mid ++ [f] ++ rest).take N = s :: mid ++ [f] := List.take_left' (by simp; omega)
  simp only [cyclePath, startingPath, if_true]
  rw [ht, createPath_some _ _ _ _ (by omega) (by simp; omega)]
  have : N - 2 = mid.length := by omega
  simp [this]

theorem cyclePath_last {α : Type} (s f : α) (N : ℕ) (p : List α) (hp : IsPath s f N p) (before images : List α) :
    cyclePath s f (some (before ++ p)) images N 1 = .ok p := by
  obtain ⟨hl, mid, rfl⟩ := hp
  have hd : (before ++ (s :: mid ++ [f])).drop ((before ++ (s :: mid ++ [f])).length - N) = s :: mid ++ [f] :=
    List.drop_left' (by rw [List.length_append, hl]; omega)
  simp only [List.cons_append, List.length_cons, List.length_append, List.length_nil] at hl
  simp only [cyclePath, startingPath, one_ne_zero, if_false, if_true]
  rw [hd, createPath_some _ _ _ _ (by omega) (by simp; omega)]
  have : N - 2 = mid.length := by omega
  simp [this]

theorem moved_isPath {α : Type} (s f : α) (N : ℕ) (p : List α) (hp : IsPath s f N p) (m : List α → List α)
    (hm : ∀ l, (m l).length = l.length) : IsPath s f N (moved m p) := by
  obtain ⟨hl, mid, rfl⟩ := hp
  simp only [List.cons_append, List.length_cons, List.length_append, List.length_nil] at hl
  have h1 : MLNEB.interior (s :: mid ++ [f]) = mid := by simp [MLNEB.interior]
  have h2 : (s :: mid ++ [f]).drop ((s :: mid ++ [f]).length - 1) = [f] := by
    rw [show (s :: mid ++ [f]).length - 1 = (s :: mid).length by simp]
    exact List.drop_left
  have h3 : moved m (s :: mid ++ [f]) = s :: m mid ++ [f] := by
    unfold moved
    rw [h1, h2]
    simp
  rw [h3]
  refine ⟨?_, m mid, rfl⟩
  simp [hm]
  omega

/-- What C232 asks of the paths of the passes: the first cycle of each pass starts from the initial path, the second from the
path stored last, and the path kept has the two endpoints at its ends. -/
def Paths {α : Type} (s f : α) (N : ℕ) (initial : List α) : List α → List (Trace α) → Prop
  | _, [] => True
  | last, t :: ts => t.first = initial ∧ (t.second = none ∨ t.second = some last) ∧ IsPath s f N t.kept ∧ Paths s f N initial t.kept ts

theorem passes_spec {α : Type} (s f : α) (N : ℕ) (initial : List α) (hi : IsPath s f N initial) (ms : List (Moves α))
    (hm : ∀ m ∈ ms, (∀ l, (m.move l).length = l.length) ∧ ∀ m2, m.two = some m2 → ∀ l, (m2 l).length = l.length)
    (last : List α) (hl : IsPath s f N last) (rest images : List α) (hfile : ∃ before, initial ++ rest = before ++ last) :
    ∃ st ts, pathPasses s f (ms.map fun m => (N, m)) (some (initial ++ rest), images) = .ok (st, ts) ∧ ts.length = ms.length ∧
      Paths s f N initial last ts := by
  induction ms generalizing last rest images with
  | nil => exact ⟨_, _, rfl, rfl, trivial⟩
  | cons m ms ih =>
    obtain ⟨h1, h2⟩ := hm m (by simp)
    obtain ⟨before, hb⟩ := hfile
    have c0 := cyclePath_first s f N initial hi rest images
    rcases hq : m.two with _ | m2
    · have hk := moved_isPath s f N initial hi m.move h1
      obtain ⟨st, ts, h3, h4, h5⟩ := ih (fun m' h' => hm m' (by simp [h'])) (moved m.move initial) hk (rest ++ moved m.move initial)
        (moved m.move initial) ⟨initial ++ rest, by simp⟩
      refine ⟨st, ⟨initial, none, moved m.move initial⟩ :: ts, ?_, by simp [h4], ?_⟩
      · simp only [List.map_cons, pathPasses, pathPass, c0, hq, storePath, Option.getD_some, List.append_assoc]
        rw [h3]
      · exact ⟨rfl, Or.inl rfl, hk, h5⟩
    · have hk := moved_isPath s f N last hl m2 (h2 m2 hq)
      have c1 := cyclePath_last s f N last hl before (moved m.move initial)
      rw [← hb] at c1
      obtain ⟨st, ts, h3, h4, h5⟩ := ih (fun m' h' => hm m' (by simp [h'])) (moved m2 last) hk (rest ++ moved m2 last)
        (moved m2 last) ⟨initial ++ rest, by simp⟩
      refine ⟨st, ⟨initial, some last, moved m2 last⟩ :: ts, ?_, by simp [h4], ?_⟩
      · simp only [List.map_cons, pathPasses, pathPass, c0, hq, c1, storePath, Option.getD_some, List.append_assoc]
        rw [h3]
      · exact ⟨rfl, Or.inr rfl, hk, h5⟩

/-- C232, the part that holds: with a constant number of images, for every sequence of passes and whatever the optimisation on the
surrogate does to the inner images, no pass fails, each starts its first cycle from the initial path and its second one (if
there is one) from the path stored by the previous pass, and every path kept runs from the initial to the final state. -/
theorem C232_starts_partial {α : Type} (s f : α) (N : ℕ) (initial : List α) (hi : IsPath s f N initial) (third : Bool)
    (ms : List (Moves α))
    (hm : ∀ m ∈ ms, (∀ l, (m.move l).length = l.length) ∧ ∀ m2, m.two = some m2 → ∀ l, (m2 l).length = l.length) :
    ∃ st ts, pathPasses s f (ms.map fun m => (N, m)) (startFile initial third) = .ok (st, ts) ∧ ts.length = ms.length ∧
      Paths s f N initial initial ts := by
  cases third
  · have := passes_spec s f N initial hi ms hm initial hi [] initial ⟨[], by simp⟩
    simpa [startFile] using this
  · have := passes_spec s f N initial hi ms hm initial hi initial initial ⟨initial, rfl⟩
    simpa [startFile, storePath] using this

example : ∃ st ts, pathPasses (0 : ℕ) 9 ([⟨fun l => l.map (· + 1), none⟩, ⟨id, some fun l => l.map (· + 1)⟩].map fun m => (4, m))
      (startFile [0, 3, 6, 9] true) = .ok (st, ts) ∧ ts.length = 2 ∧ Paths 0 9 4 [0, 3, 6, 9] [0, 3, 6, 9] ts :=
  C232_starts_partial 0 9 4 [0, 3, 6, 9] ⟨rfl, [3, 6], rfl⟩ true _
    (by intro m hm; simp at hm; rcases hm with rfl | rfl <;> simp)

/-- C232 is violated in sequential mode: when the number of images has been raised again, the second cycle of a pass reads the last
`N` structures across the stored paths of three images.  Its inner images then contain the final and the initial state next to
each other: the path goes to the end, jumps back to the start and goes to the end again. -/
theorem C232_sequential_violated {α : Type} (s f x : α) (N : ℕ) (hN : 5 ≤ N) (before images : List α) (hb : N ≤ before.length + 4) :
    ∃ p, cyclePath s f (some (before ++ [f] ++ [s, x, f])) images N 1 = .ok p ∧ p.length = N ∧
      p[N - 4]? = some f ∧ p[N - 3]? = some s ∧ p[N - 2]? = some x ∧ p[N - 1]? = some f := by
  have hlen : (before ++ [f] ++ [s, x, f]).length = before.length + 4 := by simp
  have hd : (before ++ [f] ++ [s, x, f]).drop ((before ++ [f] ++ [s, x, f]).length - N) =
      before.drop (before.length + 4 - N) ++ [f, s, x, f] := by
    rw [hlen, List.append_assoc, List.drop_append_of_le_length (by omega)]
    rfl
  generalize hq : before.drop (before.length + 4 - N) = q at hd
  have hql : q.length = N - 4 := by
    rw [← hq, List.length_drop]
    omega
  obtain ⟨y, t, rfl⟩ : ∃ y t, q = y :: t := by
    cases q with
    | nil => simp at hql; omega
    | cons y t => exact ⟨y, t, rfl⟩
  simp only [List.length_cons] at hql
  refine ⟨s :: t ++ [f, s, x, f], ?_, ?_, ?_, ?_, ?_, ?_⟩
  · simp only [cyclePath, startingPath, one_ne_zero, if_false, if_true]
    rw [hd, createPath_some _ _ _ _ (by omega) (by simp; omega)]
    have h3 : N - 2 = (t ++ [f, s, x]).length := by simp; omega
    have h4 : (y :: t ++ [f, s, x, f]).drop 1 = (t ++ [f, s, x]) ++ [f] := by simp
    rw [h4, h3, List.take_left]
    simp
  · simp; omega
  · rw [show N - 4 = (s :: t).length + 0 by simp; omega, List.getElem?_append_right (by omega)]; simp
  · rw [show N - 3 = (s :: t).length + 1 by simp; omega, List.getElem?_append_right (by omega)]; simp
  · rw [show N - 2 = (s :: t).length + 2 by simp; omega, List.getElem?_append_right (by omega)]; simp
  · rw [show N - 1 = (s :: t).length + 3 by simp; omega, List.getElem?_append_right (by omega)]; simp

/-- Such a file is reached: after the constructor, one pass with the single moving image leaves the path of three images behind the
initial one. -/
theorem C232_sequential_reached {α : Type} (s f : α) (N : ℕ) (hN : 5 ≤ N) (mid : List α) (hmid : mid.length = N - 2) (m : List α → List α)
    (hm : ∀ l, (m l).length = l.length) (m2 : List α → List α) :
    ∃ x file images ts p, pathPasses s f [(3, ⟨m, none⟩)] (startFile (s :: mid ++ [f]) false) = .ok ((some file, images), ts) ∧
      file = (s :: mid) ++ [f] ++ [s, x, f] ∧ cyclePath s f (some file) (moved m2 images) N 1 = .ok p ∧
      p[N - 4]? = some f ∧ p[N - 3]? = some s := by
  obtain ⟨y, t, rfl⟩ : ∃ y t, mid = y :: t := by
    cases mid with
    | nil => simp at hmid; omega
    | cons y t => exact ⟨y, t, rfl⟩
  have ht : t ++ [f] ≠ [] := by simp
  obtain ⟨z, hz⟩ : ∃ z, (s :: (y :: t) ++ [f]).take 3 = [s, y, z] := by
    rcases t with _ | ⟨z, t⟩
    · exact ⟨f, by simp⟩
    · exact ⟨z, by simp⟩
  have hc : cyclePath s f (some (s :: (y :: t) ++ [f])) (s :: (y :: t) ++ [f]) 3 0 = .ok [s, y, f] := by
    simp only [cyclePath, startingPath, if_true]
    rw [hz, createPath_some _ _ _ _ (by omega) (by simp)]
    simp
  obtain ⟨x, hx⟩ : ∃ x, m [y] = [x] := List.length_eq_one_iff.1 (by rw [hm]; rfl)
  have hmv : moved m [s, y, f] = [s, x, f] := by
    have : MLNEB.interior [s, y, f] = [y] := by simp [MLNEB.interior]
    unfold moved
    rw [this, hx]
    simp
  obtain ⟨p, h1, _, h3, h4, _⟩ := C232_sequential_violated s f x N hN (s :: (y :: t)) (moved m2 [s, x, f]) (by simp at hmid ⊢; omega)
  refine ⟨x, _, [s, x, f], [⟨[s, y, f], none, [s, x, f]⟩], p, ?_, rfl, h1, h3, h4⟩
  · simp only [pathPasses, pathPass, startFile, Bool.false_eq_true, if_false, hc, hmv, storePath, Option.getD_some]

example : ∃ x file images ts p, pathPasses (0 : ℕ) 9 [(3, ⟨id, none⟩)] (startFile [0, 2, 4, 6, 9] false) = .ok ((some file, images), ts) ∧
      file = [0, 2, 4, 6] ++ [9] ++ [0, x, 9] ∧ cyclePath 0 9 (some file) (moved id images) 5 1 = .ok p ∧
      p[1]? = some 9 ∧ p[2]? = some 0 :=
  C232_sequential_reached 0 9 5 (by decide) [2, 4, 6] rfl id (fun _ => rfl) id

/-- C232 in sequential mode: the one moving image does not start half way but at the first inner image of the path of `N` images,
on a straight path at `1/(N-1)` of the way. -/
theorem C232_one_image_violated (N : ℕ) (hN : 4 ≤ N) (s f : ℝ) (hsf : s ≠ f) (images : List ℝ) :
    ∃ x, cyclePath s f (some ((List.range N).map fun i => s + i / ((N : ℝ) - 1) * (f - s))) images 3 0 = .ok [s, x, f] ∧
      x - s = (f - s) / ((N : ℝ) - 1) ∧ x ≠ (s + f) / 2 := by
  have h4 : (4 : ℝ) ≤ N := by exact_mod_cast hN
  refine ⟨s + 1 / ((N : ℝ) - 1) * (f - s), ?_, by field_simp; ring, ?_⟩
  · simp only [cyclePath, startingPath, if_true]
    rw [createPath_some _ _ _ _ (by omega) (by simp; omega)]
    obtain ⟨k, rfl⟩ : ∃ k, N = k + 3 := ⟨N - 3, by omega⟩
    have : List.range (k + 3) = 0 :: 1 :: 2 :: (List.range k).map (· + 3) := by
      rw [List.range_succ_eq_map, List.range_succ_eq_map, List.range_succ_eq_map]
      simp [Function.comp_def]
    rw [this]
    simp
  · intro h
    have h1 : 1 / ((N : ℝ) - 1) * (f - s) = 1 / 2 * (f - s) := by linarith
    have h2 := mul_right_cancel₀ (sub_ne_zero.2 (Ne.symm hsf)) h1
    rw [one_div, one_div, inv_inj] at h2
    linarith

example : ∃ x, cyclePath (0 : ℝ) 1 (some ((List.range 5).map fun i => 0 + i / (((5 : ℕ) : ℝ) - 1) * (1 - 0))) [] 3 0 = .ok [0, x, 1] ∧
    x - 0 = (1 - 0) / (((5 : ℕ) : ℝ) - 1) ∧ x ≠ (0 + 1) / 2 := C232_one_image_violated 5 (by decide) 0 1 (by simp) []

/-- C232 is violated for a second call of `run` on a converged object: the first one deleted the file the passes start from, and the
first pass fails. -/
theorem C232_second_run_violated {α : Type} (s f : α) (n : ℕ) (m : Moves α) (ms : List (ℕ × Moves α)) (st : Option (List α) × List α) :
    pathPasses s f ((n, m) :: ms) (cleanUp st) = .error .other := by
  simp [pathPasses, pathPass, cleanUp, cyclePath, startingPath]

/-! ### C233: the results of a converged run -/

/-- C233, the part that holds: in each row the uncertainty is twice that of the process given, at the image; the energies of the
endpoints are the computed ones, and those of the inner images the predictions of the process they were optimised with. -/
theorem C233_rows_partial {G P : Type} (predict unc : G → P → ℝ) (gp g : G) (m : ℝ) (a b : P) (ea eb : ℝ) (ps : List P) :
    results predict unc gp (.endpoint a ea :: ps.map (fun p => .inner p g m) ++ [.endpoint b eb]) =
      (ea, 2 * unc gp a) :: ps.map (fun p => (predict g p + m, 2 * unc gp p)) ++ [(eb, 2 * unc gp b)] := by
  simp [results, Image.energy, Image.pos, Function.comp_def]

/-- C233 is violated: the table written when the run has converged is made after a last training of the process, but the images keep
their calculators.  If the new process reproduces the energy of the structure evaluated last, and the old one had predicted
another value, the table shows the old prediction for that image — with the uncertainty of the new process, zero if that is
certain of the training points. -/
theorem C233_stale_energies_violated {G P D : Type} (predict unc : G → P → ℝ) (train : D → G × ℝ) (data : D) (old : G) (mOld : ℝ)
    (x : P) (e : ℝ) (hfit : predict (train data).1 x + (train data).2 = e) (hunc : unc (train data).1 x = 0)
    (hold : predict old x + mOld ≠ e) (images : List (Image G P)) (k : ℕ) (hk : images[k]? = some (.inner x old mOld)) :
    ∃ v, (finalResults predict unc train data images)[k]? = some (v, 0) ∧ v = predict old x + mOld ∧
      v ≠ predict (train data).1 x + (train data).2 := by
  refine ⟨_, ?_, rfl, by rw [hfit]; exact hold⟩
  simp [finalResults, results, hk, Image.energy, Image.pos, hunc]

example : ∃ v, (finalResults (fun (g : ℝ) (_ : ℝ) => g) (fun g _ => g - 3) (fun d => (d, 1)) 3
      [.endpoint 0 0, .inner 1 2 1, .endpoint 2 0])[1]? = some (v, 0) ∧ v = 2 + 1 ∧ v ≠ 3 + 1 :=
  C233_stale_energies_violated (fun (g : ℝ) (_ : ℝ) => g) (fun g _ => g - 3) (fun d => (d, 1)) 3 2 1 1 4 (by norm_num) (by norm_num)
    (by norm_num) [.endpoint 0 0, .inner 1 2 1, .endpoint 2 0] 1 rfl

end CatLearn.NebFiles
