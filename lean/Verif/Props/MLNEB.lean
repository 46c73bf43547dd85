import Verif.Model.MLNEB
import Verif.Props.MLMin

/-!
# C55, C56, C131, C132: the machine-learning nudged elastic band
-/

namespace CatLearn.MLNEB

open CatLearn CatLearn.Masks
open CatLearn.MLMin (atomNorm C54_fmax foldl_max_spec getFmax_x)

/-! ## Number of images and the path -/

/-- C55, images: a path interpolated with a spacing has at least three images, so it has an interior. -/
theorem C55_num_images (d x : ℝ) : 3 ≤ numImages d (.spacing x) := by
  simp only [numImages]
  split
  · exact le_refl _
  · omega

/-- C55, path: the path handed to the optimiser starts at the initial and ends at the final endpoint, and has
the requested number of images (two if fewer are requested). -/
theorem C55_endpoints {α : Type} (start final : α) (interp : Option (List α)) (n : Nat) (l : List α)
    (h : createPath start final interp n = .ok l) :
    l.length = max n 2 ∧ l.head? = some start ∧ l.getLast? = some final ∧
      ∀ p, interp = some p → ∀ i, 0 < i → i + 1 < n → l[i]? = p[i]? := by
  unfold createPath at h
  split at h
  · cases h
  · rename_i mid hmid
    cases h
    have hlen := MLMin.mapM_ok_length _ _ _ hmid
    simp only [List.length_range] at hlen
    refine ⟨by simp [hlen]; omega, by simp, by rw [List.getLast?_append]; simp, ?_⟩
    rintro p rfl i hi hin
    simp only at hmid
    have key : ∀ (k : Nat) (mid : List α), (List.range k).mapM (fun i => (match p[i + 1]? with
        | some x => .ok x
        | none => .error .index : Except PyErr α)) = .ok mid → ∀ j < k, mid[j]? = p[j + 1]? := by
      intro k
      induction k with
      | zero => intro mid _ j hj; omega
      | succ k ih =>
        intro mid hm j hj
        rw [List.range_succ, List.mapM_append] at hm
        simp only [List.mapM_cons, List.mapM_nil, bind, Except.bind, pure, Except.pure] at hm
        split at hm
        · cases hm
        · rename_i m1 hm1
          have hl1 := MLMin.mapM_ok_length _ _ _ hm1
          simp only [List.length_range] at hl1
          cases hp : p[k + 1]? with
          | none => rw [hp] at hm; cases hm
          | some x =>
            rw [hp] at hm
            cases hm
            by_cases hjk : j < k
            · rw [List.getElem?_append_left (by omega)]; exact ih m1 hm1 j hjk
            · have : j = k := by omega
              subst this
              rw [List.getElem?_append_right (by omega), hl1, hp]; simp
    have := key _ mid hmid (i - 1) (by omega)
    obtain ⟨j, rfl⟩ : ∃ j, i = j + 1 := ⟨i - 1, by omega⟩
    simp only [List.cons_append, List.getElem?_cons_succ]
    rw [List.getElem?_append_left (by omega)]
    simpa using this

example : createPath 0 9 (some [0, 1, 2, 3]) 4 = .ok ([0, 1, 2, 9] : List Nat) := rfl

/-! ## Selection -/

theorem argmaxFrom_spec (pre : List ℝ) (l : List ℝ) (b : Nat) (v : ℝ) (hb : pre[b]? = some v)
    (hv : ∀ x ∈ pre, x ≤ v) :
    ∃ w, (pre ++ l)[argmaxFrom l pre.length b v]? = some w ∧ ∀ x ∈ pre ++ l, x ≤ w := by
  induction l generalizing pre b v with
  | nil => exact ⟨v, by simpa [argmaxFrom] using hb, by simpa using hv⟩
  | cons x t ih =>
    rw [argmaxFrom]
    have e : pre ++ x :: t = (pre ++ [x]) ++ t := by simp
    have hl : pre.length + 1 = (pre ++ [x]).length := by simp
    have hblt : b < pre.length := (List.getElem?_eq_some_iff.1 hb).1
    rw [e]
    split
    · rename_i h
      rw [hl]
      apply ih (pre ++ [x]) pre.length x (by simp)
      intro y hy
      rcases List.mem_append.1 hy with hy | hy
      · exact (hv y hy).trans h.le
      · simp only [List.mem_singleton] at hy; exact hy.le
    · rename_i h
      rw [hl]
      apply ih (pre ++ [x]) b v (by rw [List.getElem?_append_left hblt]; exact hb)
      intro y hy
      rcases List.mem_append.1 hy with hy | hy
      · exact hv y hy
      · simp only [List.mem_singleton] at hy; rw [hy]; exact not_lt.1 h

theorem argmax_spec (l : List ℝ) (i : Nat) (h : argmax l = .ok i) :
    ∃ w, l[i]? = some w ∧ ∀ x ∈ l, x ≤ w := by
  cases l with
  | nil => cases h
  | cons x t =>
    simp only [argmax, Except.ok.injEq] at h
    subst h
    simpa using argmaxFrom_spec [x] t 0 x rfl (by simp)

theorem argmax_ok (l : List ℝ) (h : l ≠ []) : ∃ i, argmax l = .ok i := by
  cases l with
  | nil => exact absurd rfl h
  | cons x t => exact ⟨_, rfl⟩

theorem maxOf_spec (l : List ℝ) (m : ℝ) (h : maxOf l = .ok m) : (∀ x ∈ l, x ≤ m) ∧ m ∈ l := by
  cases l with
  | nil => cases h
  | cons x t =>
    simp only [maxOf, Except.ok.injEq] at h
    obtain ⟨h1, h2, h3⟩ := foldl_max_spec t x
    rw [h] at h1 h2 h3
    refine ⟨?_, ?_⟩
    · intro y hy
      rcases List.mem_cons.1 hy with rfl | hy
      · exact h1
      · exact h2 y hy
    · rcases h3 with h3 | h3
      · simp [h3]
      · simp [h3]

/-- The image at position `k` has the largest entry of the list. -/
def IsTop (l : List ℝ) (k : Nat) : Prop := ∃ w, l[k]? = some w ∧ ∀ x ∈ l, x ≤ w

/-- All uncertainties are below the threshold. -/
def AllBelow (u : List ℝ) (thr : ℝ) : Prop := ∀ x ∈ u, x < thr

/-- The selection rules as the comments of the code describe them, as relations: which image may be chosen. -/
def Rule (acq : AcqArg) (iter : Nat) (stationary : Bool) (thr : ℝ) (u pu : List ℝ) (k : Nat) : Prop :=
  match acq with
  | .acq1 => (iter % 2 = 0 → IsTop u k) ∧ (iter % 2 = 1 → IsTop pu k)
  | .acq2 => (AllBelow u thr → IsTop pu k) ∧ (¬ AllBelow u thr → IsTop u k)
  | .acq3 => (¬ AllBelow u thr ∨ iter % 2 = 0 → IsTop u k) ∧ (AllBelow u thr ∧ iter % 2 = 1 → IsTop pu k)
  | .acq4 =>
    (stationary = true → (AllBelow u thr → IsTop pu k) ∧ (¬ AllBelow u thr → IsTop u k)) ∧
    (stationary = false → (iter % 2 = 0 → IsTop u k) ∧ (iter % 2 = 1 → IsTop pu k))
  | .acq5 =>
    (¬ AllBelow u thr → IsTop u k) ∧
    (AllBelow u thr → stationary = true → IsTop pu k) ∧
    (AllBelow u thr → stationary = false → (iter % 2 = 0 → IsTop u k) ∧ (iter % 2 = 1 → IsTop pu k))
  | .other => False

theorem select_parts (acq : AcqArg) (iter : Nat) (st : Bool) (thr : ℝ) (u pu : List ℝ) (k : Nat)
    (h : select acq iter st thr u pu = .ok k) :
    ∃ iu ip mu, IsTop u iu ∧ IsTop pu ip ∧ (mu < thr ↔ AllBelow u thr) ∧
      argmax u = .ok iu ∧ argmax pu = .ok ip ∧ maxOf u = .ok mu := by
  simp only [select, bind, Except.bind] at h
  cases hu : argmax u with
  | error e => rw [hu] at h; cases h
  | ok iu =>
    rw [hu] at h
    simp only at h
    cases hp : argmax pu with
    | error e => rw [hp] at h; cases h
    | ok ip =>
      rw [hp] at h
      simp only at h
      cases hm : maxOf u with
      | error e => rw [hm] at h; cases h
      | ok mu =>
        obtain ⟨h1, h2⟩ := maxOf_spec u mu hm
        exact ⟨iu, ip, mu, argmax_spec u iu hu, argmax_spec pu ip hp,
          ⟨fun h x hx => (h1 x hx).trans_lt h, fun h => h mu h2⟩, rfl, rfl, rfl⟩

/-- C56, rules 1 to 4, part: the image selected under `acq_1` … `acq_4` is the one the description of the rule
names.  Missing: `acq_5` (`C56_acq5_violated`). -/
theorem C56_rules_partial (acq : AcqArg) (hacq : acq ≠ .acq5) (iter : Nat) (st : Bool) (thr : ℝ)
    (u pu : List ℝ) (k : Nat) (h : select acq iter st thr u pu = .ok k) :
    Rule acq iter st thr u pu k := by
  obtain ⟨iu, ip, mu, t1, t2, hiff, e1, e2, e3⟩ := select_parts _ _ _ _ _ _ _ h
  have hpar : iter % 2 = 0 ∨ iter % 2 = 1 := by omega
  simp only [select, bind, Except.bind, e1, e2, e3, pure, Except.pure] at h
  cases acq with
  | acq1 =>
    simp only [Except.ok.injEq] at h
    rcases hpar with hp | hp <;> simp only [hp, if_true, Nat.one_ne_zero, if_false] at h <;> subst h <;>
      simp [Rule, hp, t1, t2]
  | acq2 =>
    simp only [Except.ok.injEq] at h
    by_cases hb : mu < thr
    · simp only [hb, if_true] at h; subst h
      exact ⟨fun _ => t2, fun hn => absurd (hiff.1 hb) hn⟩
    · simp only [hb, if_false] at h; subst h
      exact ⟨fun hn => absurd (hiff.2 hn) hb, fun _ => t1⟩
  | acq3 =>
    simp only [Except.ok.injEq] at h
    by_cases hb : mu < thr
    · simp only [hb, if_true] at h
      rcases hpar with hp | hp <;> simp only [hp, if_true, Nat.one_ne_zero, if_false] at h <;> subst h <;>
        simp [Rule, hp, t1, t2, hiff.1 hb]
    · simp only [hb, if_false] at h; subst h
      exact ⟨fun _ => t1, fun hn => absurd (hiff.2 hn.1) hb⟩
  | acq4 =>
    cases st with
    | true =>
      simp only [if_true, Except.ok.injEq] at h
      by_cases hb : mu < thr
      · simp only [hb, if_true] at h; subst h
        simp [Rule, t2, hiff.1 hb]
      · simp only [hb, if_false] at h; subst h
        simp [Rule, t1, mt hiff.2 hb]
    | false =>
      simp only [Bool.false_eq_true, if_false, Except.ok.injEq] at h
      rcases hpar with hp | hp <;> simp only [hp, if_true, Nat.one_ne_zero, if_false] at h <;> subst h <;>
        simp [Rule, hp, t1, t2]
  | acq5 => exact absurd rfl hacq
  | other => cases h

example : select .acq3 0 false 1 [3, 2] [4, 7] = .ok 0 := by
  simp [select, argmax, argmaxFrom, maxOf, bind, Except.bind, pure, Except.pure]
  norm_num

/-- C56 fails for `acq_5`: it never alternates.  Its last condition repeats the outer one, so it is `acq_2`
for every profile, iteration and flag. -/
theorem C56_acq5_violated :
    (∀ iter st thr u pu, select .acq5 iter st thr u pu = select .acq2 iter st thr u pu) ∧
    ∃ iter thr u pu k, select .acq5 iter false thr u pu = .ok k ∧ ¬ Rule .acq5 iter false thr u pu k := by
  constructor
  · intro iter st thr u pu
    simp only [select, bind, Except.bind, pure, Except.pure]
    cases argmax u with
    | error e => rfl
    | ok iu =>
      cases argmax pu with
      | error e => rfl
      | ok ip =>
        cases maxOf u with
        | error e => rfl
        | ok mu =>
          simp only
          by_cases hb : mu < thr
          · simp [hb]
          · simp [hb]
  · refine ⟨0, 10, [3, 2], [4, 7], 1, ?_, ?_⟩
    · simp [select, argmax, argmaxFrom, maxOf, bind, Except.bind, pure, Except.pure]
      norm_num
    · intro h
      have hb : AllBelow [3, 2] 10 := by
        intro x hx
        simp only [List.mem_cons, List.not_mem_nil, or_false] at hx
        rcases hx with rfl | rfl <;> norm_num
      obtain ⟨w, hw, hall⟩ := (h.2.2 hb rfl).1 rfl
      simp only [List.getElem?_cons_succ, List.getElem?_cons_zero, Option.some.injEq] at hw
      have := hall 3 (by simp)
      rw [← hw] at this
      norm_num at this

/-- C56 fails for `acq_1` and `acq_4` as well: until a stationary point is found they are the same rule. -/
theorem C56_acq1_violated (iter : Nat) (thr : ℝ) (u pu : List ℝ) :
    select .acq1 iter false thr u pu = select .acq4 iter false thr u pu := by
  simp [select]

/-- C56, part: `acq_1`, `acq_2`, `acq_3` and `acq_4` are four different rules: for each two of them there is a
profile on which they choose different images.  Missing: `acq_5`, see above. -/
theorem C56_distinct_partial (a b : AcqArg) (ha : a ∈ [AcqArg.acq1, .acq2, .acq3, .acq4])
    (hb : b ∈ [AcqArg.acq1, .acq2, .acq3, .acq4]) (hab : a ≠ b) :
    ∃ iter st thr u pu i j, select a iter st thr u pu = .ok i ∧ select b iter st thr u pu = .ok j ∧ i ≠ j := by
  have e1 : ∀ acq iter st thr, select acq iter st thr [3, 2] [4, 7] = (match acq with
      | .acq1 => .ok (if iter % 2 = 0 then 0 else 1)
      | .acq2 => .ok (if (3 : ℝ) < thr then 1 else 0)
      | .acq3 => .ok (if (3 : ℝ) < thr then (if iter % 2 = 0 then 0 else 1) else 0)
      | .acq4 => .ok (if st = true then (if (3 : ℝ) < thr then 1 else 0) else (if iter % 2 = 0 then 0 else 1))
      | .acq5 => .ok (if (3 : ℝ) < thr then 1 else 0)
      | .other => .error .value) := by
    intro acq iter st thr
    have h1 : ¬ ((3 : ℝ) < 2) := by norm_num
    have h2 : (4 : ℝ) < 7 := by norm_num
    have h3 : max (3 : ℝ) 2 = 3 := by norm_num
    cases acq <;> simp [select, argmax, argmaxFrom, maxOf, bind, Except.bind, pure, Except.pure, h1, h2, h3]
    · cases st <;> simp
    · split <;> simp [*]
  have t : (3 : ℝ) < 10 := by norm_num
  have f : ¬ ((3 : ℝ) < 1) := by norm_num
  simp only [List.mem_cons, List.not_mem_nil, or_false] at ha hb
  rcases ha with rfl | rfl | rfl | rfl <;> rcases hb with rfl | rfl | rfl | rfl <;>
    first
    | exact absurd rfl hab
    | refine ⟨0, false, 10, [3, 2], [4, 7], _, _, e1 _ _ _ _, e1 _ _ _ _, ?_⟩; simp [t]; done
    | refine ⟨1, false, 1, [3, 2], [4, 7], _, _, e1 _ _ _ _, e1 _ _ _ _, ?_⟩; simp [f]; done
    | refine ⟨0, true, 10, [3, 2], [4, 7], _, _, e1 _ _ _ _, e1 _ _ _ _, ?_⟩; simp [t]; done

/-! ## One pass -/

theorem getElem?_interior {α : Type} (l : List α) (k : Nat) (x : α) (h : (interior l)[k]? = some x) :
    l[k + 1]? = some x ∧ k + 2 < l.length := by
  have hk : k < (interior l).length := (List.getElem?_eq_some_iff.1 h).1
  simp only [interior, List.length_dropLast, List.length_drop] at hk
  refine ⟨?_, by omega⟩
  rw [interior, List.getElem?_dropLast, if_pos (by simp; omega), List.getElem?_drop] at h
  rw [← h, add_comm]

/-- The three lists of a surrogate path belong to the same images. -/
def GoodPath (p : Path) : Prop := p.e.length = p.images.length ∧ p.unc.length = p.images.length

theorem pass_spec (E : Env) (org : Nat) (stationary : Bool) (st : State) (p : Pass)
    (h : pass E org stationary st = .ok p) :
    let st0 := entry org stationary st
    let P := E.path st0
    ∃ k m mu, select E.acq st.iter stationary E.uncConv (interior P.unc)
        (List.zipWith (· + ·) (interior P.e) (interior P.unc)) = .ok k ∧
      p.index = k + 1 ∧ (interior P.images)[k]? = some p.point ∧
      getFmax (E.real p.point).2 = .ok m ∧ maxOf (interior P.unc) = .ok mu ∧
      p.stationary = (stationary || decide (m ≤ E.fmax)) ∧
      (p.done = true ↔ m ≤ E.fmax ∧ st0.nImages = org ∧ mu < E.uncConv) ∧
      p.st = { evalAppend E.real st0 p.point with iter := st.iter + 1 } := by
  intro st0 P
  have hit : st0.iter = st.iter := by simp only [st0, entry]; split <;> rfl
  rw [pass] at h
  simp only [passBody, bind, Except.bind, pure, Except.pure] at h
  rw [show (entry org stationary st).iter = st.iter from hit] at h
  split at h
  · cases h
  · rename_i k hk
    cases hx : (interior P.images)[k]? with
    | none =>
      have : imageAt (E.path (entry org stationary st)) k = .error .index := by
        unfold imageAt; rw [hx]
      rw [this] at h
      cases h
    | some x =>
      have : imageAt (E.path (entry org stationary st)) k = .ok x := by
        unfold imageAt; rw [hx]
      rw [this] at h
      simp only at h
      split at h
      · cases h
      · rename_i m hm
        split at h
        · cases h
        · rename_i mu hmu
          cases h
          refine ⟨k, m, mu, hk, rfl, hx, hm, hmu, rfl, ?_, ?_⟩
          · simp [and_assoc, st0]
          · simp only [hit, st0]

/-- C55, interior: the main loop only evaluates images strictly between the endpoints of the path. -/
theorem C55_interior (E : Env) (org : Nat) (stationary : Bool) (st : State) (p : Pass)
    (h : pass E org stationary st = .ok p) :
    let images := (E.path (if stationary = true then { st with nImages := org } else st)).images
    1 ≤ p.index ∧ p.index + 1 < images.length ∧ images[p.index]? = some p.point ∧
      p.st.train = st.train ++ [p.point] := by
  intro images
  obtain ⟨k, m, mu, h1, h2, h3, h4, h5, h6, h7, h8⟩ := pass_spec E org stationary st p h
  obtain ⟨h9, h10⟩ := getElem?_interior _ _ _ h3
  refine ⟨by omega, by rw [h2]; exact h10, by rw [h2]; exact h9, ?_⟩
  rw [h8]
  simp only [evalAppend, entry]
  split <;> rfl

/-! ## The third point -/

/-- C55, third point, part: with at least four images, or three images and an initial state that is not
lower than the final one, the first evaluation is at an interior image.  Missing: three images with a lower
initial state (`C55_third_violated`). -/
theorem C55_third_partial (n : Nat) (eIs eFs : ℝ) (h : 4 ≤ n ∨ (n = 3 ∧ eFs ≤ eIs)) :
    1 ≤ middle n eIs eFs ∧ middle n eIs eFs + 1 < n := by
  unfold middle
  split
  · rcases h with h | ⟨h, -⟩ <;> omega
  · rename_i hn
    rcases h with h | ⟨-, h⟩
    · omega
    · exact absurd h hn

example : 1 ≤ middle 7 (-1) 0 ∧ middle 7 (-1) 0 + 1 < 7 := C55_third_partial 7 _ _ (.inl (by decide))

/-- One atom, whose real force is zero; the surrogate path has the given uncertainty everywhere. -/
noncomputable def demo (images : List (List ℝ)) (u : ℝ) (steps : Int) (seq : Bool) (acq : AcqArg) : Env where
  real _ := (0, [0, 0, 0])
  path st := ⟨(List.range st.nImages).map fun (i : ℕ) => [(i : ℝ), 0, 0], List.replicate st.nImages 0,
    List.replicate st.nImages u⟩
  fmax := 1
  uncConv := 1
  steps := steps
  acq := acq
  sequential := seq
  energyIs := 0
  energyFs := 1
  images := images

/-- An object that knows only its two endpoints. -/
noncomputable def demoState (n : Nat) : State :=
  ⟨n, [[0, 0, 0], [2, 0, 0]], [0, 1], [[0, 0, 0], [0, 0, 0]], [0, 0], 0, 0⟩

/-- C55 fails with three images (the smallest number the constructor makes): when the initial state is lower
than the final one, the first evaluation is at the final endpoint, which is known already. -/
theorem C55_third_violated :
    ∃ (E : Env) (s s' : State), E.images.length = 3 ∧ s.nImages = 3 ∧ s.train = [E.images[0]!, E.images[2]!] ∧
      thirdPoint E s = .ok s' ∧ s'.train = s.train ++ [E.images[2]!] ∧ s'.iter = s.iter + 1 := by
  refine ⟨demo [[0, 0, 0], [1, 0, 0], [2, 0, 0]] 0 9 false .acq5, demoState 3,
    { evalAppend (fun _ => (0, [0, 0, 0])) (demoState 3) [2, 0, 0] with
      iter := 1
      maxForces := [0, 0, 0] }, rfl, rfl, ?_, ?_, ?_, ?_⟩
  · simp [demo, demoState]
  · have hmid : middle 3 0 1 = 2 := by simp [middle]
    have hl : (demoState 3).targets.length = 2 := rfl
    rw [thirdPoint, if_pos hl]
    simp only [demo, demoState, hmid]
    simp [getFmax_x, evalAppend, demoState]
  · simp [evalAppend, demo]
  · rfl

/-! ## Whole runs -/

theorem loop_stops (E : Env) (org : Nat) (fuel : Nat) (b : Bool) (s : State)
    (h : max 1 (E.steps - s.iter) ≤ fuel) : loop E org fuel b s ≠ .outOfFuel := by
  induction fuel generalizing b s with
  | zero => simp at h
  | succ fuel ih =>
    rw [loop]
    cases hp : pass E org b s with
    | error e => simp
    | ok p =>
      simp only
      split
      · simp
      · split
        · simp
        · rename_i hlt
          obtain ⟨_, _, _, _, _, _, _, _, _, _, h8⟩ := pass_spec E org b s p hp
          have hi : p.st.iter = s.iter + 1 := by rw [h8]
          apply ih
          rw [hi] at hlt ⊢
          omega

theorem third_spec (E : Env) (s s1 : State) (h : thirdPoint E s = .ok s1) :
    s1.nImages = s.nImages ∧
    ((s.targets.length ≠ 2 ∧ s1 = s) ∨
     (s.targets.length = 2 ∧ ∃ pos m, E.images[middle s.nImages E.energyIs E.energyFs]? = some pos ∧
      getFmax (E.real pos).2 = .ok m ∧ s1.iter = s.iter + 1 ∧ s1.train = s.train ++ [pos] ∧
      s1.targets = s.targets ++ [(E.real pos).1] ∧ s1.gradients = s.gradients ++ [(E.real pos).2] ∧
      s1.maxForces = s.maxForces ++ [m] ∧ s1.feval = s.feval + 1)) := by
  unfold thirdPoint at h
  split at h
  · rename_i h2
    split at h
    · cases h
    · rename_i pos hpos
      simp only at h
      split at h
      · cases h
      · rename_i m hm
        cases h
        exact ⟨rfl, .inr ⟨h2, pos, m, hpos, hm, rfl, rfl, rfl, rfl, rfl, rfl⟩⟩
  · rename_i h2
    cases h
    exact ⟨rfl, .inl ⟨h2, rfl⟩⟩

/-- C55, termination: `run` ends after at most `max 1 (steps - iter)` passes of the main loop. -/
theorem C55_stops (E : Env) (fuel : Nat) (s : State) (h : max 1 (E.steps - s.iter) ≤ fuel) :
    run E fuel s ≠ .outOfFuel := by
  unfold run
  cases ht : thirdPoint E s with
  | error e => simp
  | ok s1 =>
    simp only
    have hi : s.iter ≤ s1.iter := by
      obtain ⟨-, ⟨-, rfl⟩ | ⟨-, pos, m, -, -, hi, -⟩⟩ := third_spec E s s1 ht
      · exact le_refl _
      · omega
    apply loop_stops
    have e1 : (if E.sequential = true then { s1 with nImages := 3 } else s1).iter = s1.iter := by
      split <;> rfl
    rw [e1]
    omega

/-- The final object of a call that raised nothing. -/
def Outcome.final : Outcome → Option State
  | .converged s => some s
  | .budget s => some s
  | _ => none

theorem loop_induct (E : Env) (org : Nat) (P : Bool → State → State → Prop)
    (hlast : ∀ b s p, pass E org b s = .ok p → P b s p.st)
    (hstep : ∀ b s p s', pass E org b s = .ok p → ¬ E.steps ≤ p.st.iter → P p.stationary p.st s' → P b s s') :
    ∀ fuel b s s', (loop E org fuel b s).final = some s' → P b s s' := by
  intro fuel
  induction fuel with
  | zero => intro b s s' h; cases h
  | succ fuel ih =>
    intro b s s' h
    rw [loop] at h
    cases hp : pass E org b s with
    | error e => rw [hp] at h; cases h
    | ok p =>
      rw [hp] at h
      simp only at h
      split at h
      · cases h; exact hlast b s p hp
      · split at h
        · cases h; exact hlast b s p hp
        · exact hstep b s p s' hp ‹_› (ih _ _ _ h)

/-- C55, budget, part: a call makes at most `steps - iter` evaluations, except that it always makes one in
the main loop and, when only the endpoints are known, the third point before it.  Missing: with `steps ≤ 1` and
two known structures two evaluations are made (`C55_budget_violated`). -/
theorem C55_budget_partial (E : Env) (fuel : Nat) (s s' : State) (h : (run E fuel s).final = some s') :
    ((s'.targets.length : Int) - s.targets.length) ≤
      max (E.steps - s.iter) (if s.targets.length = 2 then 2 else 1) ∧
    s'.targets.length - s.targets.length = s'.iter - s.iter ∧ s.iter < s'.iter ∧
    s'.feval - s.feval = s'.iter - s.iter := by
  unfold run at h
  cases ht : thirdPoint E s with
  | error e => rw [ht] at h; cases h
  | ok s1 =>
    rw [ht] at h
    simp only at h
    have key := loop_induct E s1.nImages (fun _ s s' => s.iter < s'.iter ∧
      (s'.iter : Int) - s.iter ≤ max (E.steps - s.iter) 1 ∧ 
      s'.targets.length + s.iter = s.targets.length + s'.iter ∧ s'.feval + s.iter = s.feval + s'.iter) ?_ ?_ fuel false _ s' h
    · have e1 : (if E.sequential = true then { s1 with nImages := 3 } else s1).iter = s1.iter := by
        split <;> rfl
      have e2 : (if E.sequential = true then { s1 with nImages := 3 } else s1).targets = s1.targets := by
        split <;> rfl
      have e3 : (if E.sequential = true then { s1 with nImages := 3 } else s1).feval = s1.feval := by
        split <;> rfl
      obtain ⟨-, ⟨h2, rfl⟩ | ⟨h2, pos, m, -, -, hi, -, htg, -, -, hfe⟩⟩ := third_spec E s s1 ht
      · rw [if_neg h2]
        obtain ⟨k1, k2, k3, k4⟩ := key
        rw [e1] at k1 k2 k3 k4
        rw [e2] at k3
        rw [e3] at k4
        omega
      · rw [if_pos h2]
        have hl : s1.targets.length = s.targets.length + 1 := by rw [htg]; simp
        obtain ⟨k1, k2, k3, k4⟩ := key
        rw [e1] at k1 k2 k3 k4
        rw [e2] at k3
        rw [e3] at k4
        omega
    · intro b s p hp
      obtain ⟨_, _, _, _, _, _, _, _, _, _, h8⟩ := pass_spec E s1.nImages b s p hp
      have hi : p.st.iter = s.iter + 1 := by rw [h8]
      have ht : p.st.targets.length = s.targets.length + 1 := by
        rw [h8]; simp only [evalAppend, entry]; split <;> simp
      have hf : p.st.feval = s.feval + 1 := by
        rw [h8]; simp only [evalAppend, entry]; split <;> simp
      omega
    · intro b s p s' hp hlt ih
      obtain ⟨_, _, _, _, _, _, _, _, _, _, h8⟩ := pass_spec E s1.nImages b s p hp
      have hi : p.st.iter = s.iter + 1 := by rw [h8]
      have ht : p.st.targets.length = s.targets.length + 1 := by
        rw [h8]; simp only [evalAppend, entry]; split <;> simp
      have hf : p.st.feval = s.feval + 1 := by
        rw [h8]; simp only [evalAppend, entry]; split <;> simp
      omega

theorem demo_pass (images : List (List ℝ)) (u : ℝ) (steps : Int) (seq : Bool) (acq : AcqArg) (hacq : acq ≠ .other)
    (org : Nat) (b : Bool) (s : State) (hn : 3 ≤ (entry org b s).nImages) :
    ∃ p, pass (demo images u steps seq acq) org b s = .ok p ∧ p.stationary = true ∧
      (p.done = true ↔ (entry org b s).nImages = org ∧ u < 1) ∧ p.st.iter = s.iter + 1 ∧
      p.st.nImages = (entry org b s).nImages ∧ p.st.targets.length = s.targets.length + 1 := by
  set E := demo images u steps seq acq with hE
  set st0 := entry org b s with hst0
  obtain ⟨n, hn'⟩ : ∃ n, st0.nImages = n + 3 := ⟨st0.nImages - 3, by omega⟩
  have hint : ∀ x : ℝ, interior (List.replicate st0.nImages x) = List.replicate (n + 1) x := by
    intro x
    rw [hn', interior, List.drop_replicate, List.dropLast_replicate]
    rfl
  have hsel : ∃ k, select acq s.iter b 1 (List.replicate (n + 1) u)
      (List.zipWith (· + ·) (List.replicate (n + 1) 0) (List.replicate (n + 1) u)) = .ok k := by
    obtain ⟨iu, hu⟩ := argmax_ok (List.replicate (n + 1) u) (by simp)
    obtain ⟨ip, hp⟩ := argmax_ok (List.zipWith (· + ·) (List.replicate (n + 1) (0:ℝ)) (List.replicate (n + 1) u))
      (by rw [ne_eq, ← List.length_eq_zero_iff]; simp)
    have hm : ∃ mu, maxOf (List.replicate (n + 1) u) = .ok mu := ⟨_, rfl⟩
    obtain ⟨mu, hm⟩ := hm
    simp only [select, bind, Except.bind, hu, hp, hm, pure, Except.pure]
    cases acq with
    | other => exact absurd rfl hacq
    | acq4 => cases b <;> exact ⟨_, rfl⟩
    | acq5 => 
      by_cases hmu : mu < 1
      · simp [hmu]
      · simp [hmu]
    | _ => exact ⟨_, rfl⟩
  obtain ⟨k, hk⟩ := hsel
  have hklt : k < n + 1 := by
    obtain ⟨iu, ip, mu, ⟨w, hw, -⟩, ⟨w', hw', -⟩, -, e1, e2, e3⟩ := select_parts _ _ _ _ _ _ _ hk
    have h1 : iu < n + 1 := by simpa using (List.getElem?_eq_some_iff.1 hw).1
    have h2 : ip < n + 1 := by simpa using (List.getElem?_eq_some_iff.1 hw').1
    simp only [select, bind, Except.bind, e1, e2, e3, pure, Except.pure] at hk
    cases acq with
    | other => exact absurd rfl hacq
    | acq1 => simp only [Except.ok.injEq] at hk; subst hk; split <;> assumption
    | acq2 => simp only [Except.ok.injEq] at hk; subst hk; split <;> assumption
    | acq3 => simp only [Except.ok.injEq] at hk; subst hk; split <;> [split <;> assumption; assumption]
    | acq4 => cases b <;> simp at hk <;> subst hk <;> split <;> assumption
    | acq5 =>
      by_cases hmu : mu < 1
      · simp [hmu] at hk; subst hk; assumption
      · simp [hmu] at hk; subst hk; assumption
  have hmu : maxOf (List.replicate (n + 1) u) = .ok u := by
    have : ∀ j, (List.replicate j u).foldl max u = u := by
      intro j
      induction j with
      | zero => rfl
      | succ j ih => rw [List.replicate_succ, List.foldl_cons, max_self, ih]
    rw [List.replicate_succ, maxOf, this]
  have himg : ∃ x, (interior ((List.range st0.nImages).map fun (i : ℕ) => [(i : ℝ), 0, 0]))[k]? = some x := by
    have hl : k < (interior ((List.range st0.nImages).map fun (i : ℕ) => [(i : ℝ), 0, 0])).length := by
      simp [interior, hn']; omega
    exact ⟨_, List.getElem?_eq_getElem hl⟩
  obtain ⟨x, hx⟩ := himg
  have hpath : E.path st0 = ⟨(List.range st0.nImages).map fun (i : ℕ) => [(i : ℝ), 0, 0],
    List.replicate st0.nImages 0, List.replicate st0.nImages u⟩ := rfl
  have hst : st0.iter = s.iter := by rw [hst0, entry]; split <;> rfl
  have htl : st0.targets = s.targets := by rw [hst0, entry]; split <;> rfl
  refine ⟨⟨{ evalAppend E.real st0 x with iter := st0.iter + 1 }, true,
    decide (st0.nImages = org) && decide (u < 1), x, k + 1⟩, ?_, rfl, ?_, by rw [hst], rfl, ?_⟩
  · rw [pass]
    simp only [passBody, bind, Except.bind, pure, Except.pure]
    have hE1 : E.acq = acq := rfl
    have hE2 : E.uncConv = 1 := rfl
    have hE3 : (E.real x).2 = [0, 0, 0] := rfl
    have hat : imageAt ⟨(List.range st0.nImages).map fun (i : ℕ) => [(i : ℝ), 0, 0],
        List.replicate st0.nImages 0, List.replicate st0.nImages u⟩ k = .ok x := by
      unfold imageAt; simp only [hx]
    have h01 : |(0 : ℝ)| ≤ E.fmax := by simp [hE, demo]
    rw [← hst0]
    simp only [hpath, hE1, hE2, hst, hint, hk, hat, hE3, getFmax_x, hmu, h01, decide_true, Bool.or_true,
      Bool.true_and]
  · simp
  · simp [evalAppend, htl]

/-- C55 fails with `steps = 1`: a calculation that knows only its endpoints makes two evaluations. -/
theorem C55_budget_violated :
    ∃ (E : Env) (s s' : State), E.steps = 1 ∧ s.iter = 0 ∧ run E 1 s = .budget s' ∧
      s'.targets.length = s.targets.length + 2 := by
  let E := demo [[0, 0, 0], [1, 0, 0], [1, 0, 0], [2, 0, 0]] 5 1 false .acq5
  have hmid : middle 4 0 1 = 2 := by simp [middle]
  have ht : thirdPoint E (demoState 4) = .ok { evalAppend E.real (demoState 4) [1, 0, 0] with
      iter := 1
      maxForces := [0, 0, 0] } := by
    have hl : (demoState 4).targets.length = 2 := rfl
    rw [thirdPoint, if_pos hl]
    simp only [E, demo, demoState, hmid]
    simp [getFmax_x, evalAppend]
  obtain ⟨p, hp, h1, h2, h3, h4, h5⟩ := demo_pass [[0, 0, 0], [1, 0, 0], [1, 0, 0], [2, 0, 0]] 5 1 false .acq5
    (by simp) 4 false { evalAppend E.real (demoState 4) [1, 0, 0] with
      iter := 1
      maxForces := [0, 0, 0] } (by simp [entry, evalAppend, demoState])
  refine ⟨E, demoState 4, p.st, rfl, rfl, ?_, ?_⟩
  · have hd : p.done = false := by
      rw [← Bool.not_eq_true, h2]
      norm_num
    have hs : E.steps ≤ p.st.iter := by
      rw [h3]; simp [E, demo]
    rw [run, ht]
    have hseq : E.sequential = false := rfl
    simp only [hseq, Bool.false_eq_true, if_false]
    rw [loop]
    change (match pass E 4 false _ with | .error e => _ | .ok p => _) = _
    rw [hp]
    simp only [hd, Bool.false_eq_true, if_false]
    rw [if_pos hs]
  · rw [h5]; simp [evalAppend]

theorem loop_converged (E : Env) (org : Nat) : ∀ fuel b s s', loop E org fuel b s = .converged s' →
    ∃ b0 s0 p, pass E org b0 s0 = .ok p ∧ p.done = true ∧ s' = p.st := by
  intro fuel
  induction fuel with
  | zero => intro b s s' h; cases h
  | succ fuel ih =>
    intro b s s' h
    rw [loop] at h
    cases hp : pass E org b s with
    | error e => rw [hp] at h; cases h
    | ok p =>
      rw [hp] at h
      simp only at h
      split at h
      · cases h; exact ⟨b, s, p, hp, ‹_›, rfl⟩
      · split at h
        · cases h
        · exact ih _ _ _ h

/-- C55, convergence criterion: when a call reports convergence, the structure evaluated last is an interior
image of a surrogate path with the number of images the object had when the call began, all atomic forces on it
are at most `fmax`, and all interior images of that path have an uncertainty below the threshold. -/
theorem C55_convergence (E : Env) (fuel : Nat) (s s' : State) (h : run E fuel s = .converged s') :
    s'.nImages = s.nImages ∧ ∃ (s0 : State) (point : List ℝ) (i : Nat), s0.nImages = s.nImages ∧
      s'.train.getLast? = some point ∧ s'.gradients.getLast? = some (E.real point).2 ∧
      (E.path s0).images[i]? = some point ∧ 1 ≤ i ∧ i + 1 < (E.path s0).images.length ∧
      (∃ n, 0 < n ∧ (E.real point).2.length = 3 * n ∧ ∀ a < n, atomNorm (E.real point).2 a ≤ E.fmax) ∧
      ∀ j x, 1 ≤ j → j + 1 < (E.path s0).unc.length → (E.path s0).unc[j]? = some x → x < E.uncConv := by
  unfold run at h
  cases ht : thirdPoint E s with
  | error e => rw [ht] at h; cases h
  | ok s1 =>
    rw [ht] at h
    simp only at h
    have hn := (third_spec E s s1 ht).1
    rw [hn] at h
    obtain ⟨b0, s0, p, hp, hd, rfl⟩ := loop_converged E _ _ _ _ _ h
    obtain ⟨k, m, mu, h1, h2, h3, h4, h5, h6, h7, h8⟩ := pass_spec E _ b0 s0 p hp
    obtain ⟨hm, hno, hmu⟩ := h7.1 hd
    obtain ⟨g1, g2⟩ := getElem?_interior _ _ _ h3
    obtain ⟨n, n1, n2, n3, -⟩ := (C54_fmax _ _).1 h4
    refine ⟨by rw [h8]; exact hno, entry s.nImages b0 s0, p.point, k + 1, hno, by rw [h8]; simp [evalAppend],
      by rw [h8]; simp [evalAppend], g1, by omega, g2, ⟨n, n1, n2, fun a ha => (n3 a ha).trans hm⟩, ?_⟩
    intro j x hj hjl hx
    have hmem : x ∈ interior (E.path (entry s.nImages b0 s0)).unc := by
      obtain ⟨i, rfl⟩ : ∃ i, j = i + 1 := ⟨j - 1, by omega⟩
      apply List.mem_of_getElem? (i := i)
      rw [interior, List.getElem?_dropLast, if_pos (by simp; omega), List.getElem?_drop, add_comm]
      exact hx
    exact ((maxOf_spec _ _ h5).1 x hmem).trans_lt hmu

/-- An instance of the criterion: a run that converges. -/
theorem demo_converges : ∃ s', run (demo [] 0 5 false .acq2) 5 ⟨4, [], [], [], [], 0, 0⟩ = .converged s' := by
  obtain ⟨p, hp, h1, h2, h3, h4, h5⟩ := demo_pass [] 0 5 false .acq2 (by simp) 4 false
    ⟨4, [], [], [], [], 0, 0⟩ (by simp [entry])
  refine ⟨p.st, ?_⟩
  have hd : p.done = true := h2.2 ⟨by simp [entry], by norm_num⟩
  rw [run, thirdPoint, if_neg (by simp)]
  have hseq : (demo [] 0 5 false .acq2).sequential = false := rfl
  simp only [hseq, Bool.false_eq_true, if_false]
  rw [loop, hp]
  simp only [hd, if_true]

/-- C55 fails across calls in sequential mode: if the first call ends by its budget before a stationary point
is found, the object keeps three images, and the next call reports convergence with three images although the
object was made with more. -/
theorem C55_sequential_violated :
    ∃ (E1 E2 : Env) (s s1 s2 : State), E1.sequential = true ∧ s.nImages = 7 ∧ run E1 1 s = .budget s1 ∧
      run E2 1 s1 = .converged s2 ∧ s2.nImages = 3 := by
  let s : State := ⟨7, [], [], [], [], 0, 0⟩
  -- first call: high uncertainty, one step
  obtain ⟨p, hp, h1, h2, h3, h4, h5⟩ := demo_pass [] 5 1 true .acq5 (by simp) 7 false
    { s with nImages := 3 } (by simp [entry])
  have hn1 : p.st.nImages = 3 := by rw [h4]; simp [entry]
  obtain ⟨q, hq, k1, k2, k3, k4, k5⟩ := demo_pass [] 0 1 false .acq5 (by simp) 3 false p.st
    (by simp [entry, hn1])
  have hlen : p.st.targets.length = 1 := by rw [h5]; rfl
  refine ⟨demo [] 5 1 true .acq5, demo [] 0 1 false .acq5, s, p.st, q.st, rfl, rfl, ?_, ?_, ?_⟩
  · rw [run, thirdPoint, if_neg (by simp [s])]
    have hseq : (demo [] 5 1 true .acq5).sequential = true := rfl
    simp only [hseq, if_true]
    rw [loop]
    change (match pass (demo [] 5 1 true .acq5) 7 false { s with nImages := 3 } with | .error e => _ | .ok p => _) = _
    rw [hp]
    have hd : p.done = false := by rw [← Bool.not_eq_true, h2]; norm_num
    have hst : (demo [] 5 1 true .acq5).steps ≤ p.st.iter := by rw [h3]; simp [demo, s]
    simp only [hd, Bool.false_eq_true, if_false]
    rw [if_pos hst]
  · rw [run, thirdPoint, if_neg (by rw [hlen]; decide)]
    have hseq : (demo [] 0 1 false .acq5).sequential = false := rfl
    simp only [hseq, Bool.false_eq_true, if_false]
    rw [loop, hn1, hq]
    have hd : q.done = true := k2.2 ⟨by simp [entry, hn1], by norm_num⟩
    simp only [hd, if_true]
  · rw [k4]; simp [entry, hn1]

/-! ## Loops on the surrogate -/

theorem mlLoop_spec (m : Int) (flag : Nat → StepFlags) (hm : m ≤ 10000) :
    ∀ (fuel k : Nat) (n : Int), n = k → (n < m ∨ k = 0) → (max 1 m).toNat ≤ fuel + k → 0 < fuel → 
      ∃ k' n', mlLoop m flag fuel k n = some (k', n') ∧ (k' : Int) ≤ max 1 m ∧ k < k' := by
  intro fuel
  induction fuel with
  | zero => intro k n _ _ _ h; omega
  | succ fuel ih =>
    intro k n hn hlt hf _
    rw [mlLoop]
    by_cases hc : (flag k).stop = true ∨ (if (flag k).nan = true then 10000 else n + 1) > m - 1
    · simp only [hc, if_true]
      exact ⟨k + 1, _, rfl, by push_cast; omega, by omega⟩
    · simp only [hc, if_false]
      push Not at hc
      have hnan : (flag k).nan ≠ true := by
        intro h
        rw [if_pos h] at hc
        omega
      rw [if_neg hnan] at hc ⊢
      obtain ⟨k', n', h1, h2, h3⟩ := ih (k + 1) (n + 1) (by push_cast; omega) (by omega) (by omega) (by omega)
      exact ⟨k', n', h1, h2, by omega⟩

/-- C55, surrogate loops, part: for `ml_steps ≤ 10000` the optimisation on the surrogate ends within two
cycles of at most `max 1 ml_steps` steps, whatever the optimiser reports.  Missing: larger values
(`C55_surrogate_violated`). -/
theorem C55_surrogate_partial (m : Int) (hm : m ≤ 10000) (early : Nat → Bool) (flag : Nat → Nat → StepFlags)
    (fuel : Nat) (hf : (max 1 m).toNat ≤ fuel) :
    ∃ c t, cycles m early flag fuel 2 0 0 = some (c, t) ∧ c ≤ 2 ∧ (t : Int) ≤ 2 * max 1 m := by
  have hpos : 0 < fuel := by omega
  have H := fun c => mlLoop_spec m (flag c) hm fuel 0 0 rfl (.inr rfl) (by omega) hpos
  rw [cycles]
  by_cases h0 : early 0 = true
  · simp only [h0, if_true]; exact ⟨0, 0, rfl, by omega, by push_cast; omega⟩
  · obtain ⟨k, n, hk, hk2, -⟩ := H 0
    rw [if_neg h0, hk]
    dsimp only
    rw [Nat.zero_add, Nat.zero_add]
    by_cases hn : n ≤ m - 1
    · rw [if_pos hn]; exact ⟨0, k, rfl, by omega, by omega⟩
    · rw [if_neg hn, if_neg (by decide), cycles]
      by_cases h1 : early 1 = true
      · simp only [h1, if_true]; exact ⟨1, k, rfl, by omega, by omega⟩
      · obtain ⟨k', n', hk', hk2', -⟩ := H 1
        rw [if_neg h1, hk']
        dsimp only
        by_cases hn' : n' ≤ m - 1
        · rw [if_pos hn']; exact ⟨1, k + k', rfl, by omega, by push_cast; omega⟩
        · rw [if_neg hn', if_pos rfl]; exact ⟨2, k + k', rfl, by omega, by push_cast; omega⟩

example : (750 : Int) ≤ 10000 := by decide

/-- C55 fails for more than 10000 steps on the surrogate: a NaN energy sets the step counter to 10000, so as
long as the energy stays NaN the loop never reaches its limit. -/
theorem C55_surrogate_violated (m : Int) (hm : 10000 < m) :
    ∃ flag : Nat → StepFlags, (∀ k, (flag k).stop = false) ∧ ∀ fuel, mlLoop m flag fuel 0 0 = none := by
  refine ⟨fun _ => ⟨false, true⟩, fun _ => rfl, fun fuel => ?_⟩
  have : ∀ fuel k n, mlLoop m (fun _ => ⟨false, true⟩) fuel k n = none := by
    intro fuel
    induction fuel with
    | zero => intro k n; rfl
    | succ fuel ih =>
      intro k n
      rw [mlLoop]
      have : ¬ ((10000 : Int) > m - 1) := by omega
      simp only [Bool.false_eq_true, if_true, false_or, this, if_false, ih]
  exact this fuel 0 0

/-! ## C131: the converged structure is the top of the path -/

/-- C131, part: under `acq_2` and `acq_5`, when a call reports convergence, the structure whose forces passed
the test is the interior image with the largest predicted energy plus uncertainty.  Missing: the other rules
(`C131_violated`). -/
theorem C131_partial (E : Env) (hacq : E.acq = .acq2 ∨ E.acq = .acq5) (fuel : Nat) (s s' : State)
    (hgood : ∀ st, GoodPath (E.path st)) (h : run E fuel s = .converged s') :
    ∃ (s0 : State) (point : List ℝ) (i : Nat) (e u : ℝ), s'.train.getLast? = some point ∧
      (E.path s0).images[i]? = some point ∧ (E.path s0).e[i]? = some e ∧ (E.path s0).unc[i]? = some u ∧
      ∀ j e' u', 1 ≤ j → j + 1 < (E.path s0).images.length → (E.path s0).e[j]? = some e' →
        (E.path s0).unc[j]? = some u' → e' + u' ≤ e + u := by
  unfold run at h
  cases ht : thirdPoint E s with
  | error e => rw [ht] at h; cases h
  | ok s1 =>
    rw [ht] at h
    simp only at h
    obtain ⟨b0, s0, p, hp, hd, rfl⟩ := loop_converged E _ _ _ _ _ h
    obtain ⟨k, m, mu, h1, h2, h3, h4, h5, h6, h7, h8⟩ := pass_spec E _ b0 s0 p hp
    set P := E.path (entry s1.nImages b0 s0) with hP
    obtain ⟨hm, hno, hmu⟩ := h7.1 hd
    obtain ⟨g1, g2⟩ := getElem?_interior _ _ _ h3
    have h1' : select .acq2 s0.iter b0 E.uncConv (interior P.unc)
        (List.zipWith (· + ·) (interior P.e) (interior P.unc)) = .ok k := by
      rcases hacq with ha | ha
      · rw [← h1, ha]
      · rw [← h1, ha, C56_acq5_violated.1]
    have hr := C56_rules_partial .acq2 (by simp) _ _ _ _ _ _ h1'
    have hb : AllBelow (interior P.unc) E.uncConv := fun x hx => ((maxOf_spec _ _ h5).1 x hx).trans_lt hmu
    obtain ⟨w, hw, htop⟩ := hr.1 hb
    rw [List.getElem?_zipWith] at hw
    obtain ⟨he, hu⟩ := hgood (entry s1.nImages b0 s0)
    have get : ∀ (l : List ℝ), l.length = P.images.length → ∀ j, 1 ≤ j → j + 1 < P.images.length →
        (interior l)[j - 1]? = l[j]? := by
      intro l hl j hj hjl
      rw [interior, List.getElem?_dropLast, if_pos (by simp; omega), List.getElem?_drop]
      congr 1
      omega
    have hke : (interior P.e)[k]? = P.e[k + 1]? := get P.e he (k + 1) (by omega) g2
    have hku : (interior P.unc)[k]? = P.unc[k + 1]? := get P.unc hu (k + 1) (by omega) g2
    rw [hke, hku] at hw
    cases hek : P.e[k + 1]? with
    | none => rw [hek] at hw; simp at hw
    | some e =>
      cases huk : P.unc[k + 1]? with
      | none => rw [hek, huk] at hw; simp at hw
      | some u =>
        rw [hek, huk] at hw
        simp only [Option.some.injEq] at hw
        refine ⟨entry s1.nImages b0 s0, p.point, k + 1, e, u, by rw [h8]; simp [evalAppend], g1, hek, huk, ?_⟩
        intro j e' u' hj hjl he' hu'
        rw [hw]
        apply htop
        apply List.mem_of_getElem? (i := j - 1)
        rw [List.getElem?_zipWith, get P.e he j hj hjl, get P.unc hu j hj hjl, he', hu']

example (st : State) : GoodPath ((demo [] 0 5 false .acq2).path st) := by
  simp [GoodPath, demo]

/-- A path of four images whose interior images have energies 0 and 5 and uncertainties 1/2 and 1/4. -/
noncomputable def slope (acq : AcqArg) : Env where
  real _ := (0, [0, 0, 0])
  path _ := ⟨[[0, 0, 0], [1, 0, 0], [2, 0, 0], [3, 0, 0]], [0, 0, 5, 0], [0, 1 / 2, 1 / 4, 0]⟩
  fmax := 1
  uncConv := 1
  steps := 9
  acq := acq
  sequential := false
  energyIs := 0
  energyFs := 0
  images := []

/-- C131 fails for `acq_1`, `acq_3` and `acq_4`: in an even iteration the most uncertain image is evaluated,
and if its forces are small the calculation is reported converged although another image is higher. -/
theorem C131_violated (acq : AcqArg) (hacq : acq = .acq1 ∨ acq = .acq3 ∨ acq = .acq4) :
    ∃ (E : Env) (s s' : State), E.acq = acq ∧ (∀ st, GoodPath (E.path st)) ∧ run E 1 s = .converged s' ∧
      s'.train = s.train ++ [[1, 0, 0]] ∧ ∀ st, (E.path st).images[1]? = some [1, 0, 0] ∧
        (E.path st).e[1]? = some 0 ∧ (E.path st).e[2]? = some 5 := by
  let s : State := ⟨4, [], [], [], [], 0, 0⟩
  have hi1 : interior ([0, 1 / 2, 1 / 4, 0] : List ℝ) = [1 / 2, 1 / 4] := rfl
  have hi2 : interior ([0, 0, 5, 0] : List ℝ) = [0, 5] := rfl
  have hsel : select acq 0 false 1 [1 / 2, 1 / 4] (List.zipWith (· + ·) [0, 5] [1 / 2, 1 / 4]) = .ok 0 := by
    have h1 : ¬ ((1 / 2 : ℝ) < 1 / 4) := by norm_num
    have h2 : argmax [1 / 2, 1 / 4] = .ok 0 := by simp only [argmax, argmaxFrom, h1, if_false]
    have h3 : maxOf [1 / 2, 1 / 4] = .ok (1 / 2) := by simp only [maxOf, List.foldl]; norm_num
    obtain ⟨ip, h4⟩ := argmax_ok (List.zipWith (· + ·) [(0:ℝ), 5] [1 / 2, 1 / 4]) (by simp)
    rcases hacq with rfl | rfl | rfl <;>
      simp [select, bind, Except.bind, pure, Except.pure, h2, h3, h4, -List.zipWith_cons_cons, - one_div]
  have hmu : maxOf [1 / 2, 1 / 4] = .ok (1 / 2 : ℝ) := by simp only [maxOf, List.foldl]; norm_num
  have hp : pass (slope acq) 4 false s = .ok ⟨{ evalAppend (slope acq).real s [1, 0, 0] with iter := 1 }, true, true,
      [1, 0, 0], 1⟩ := by
    rw [pass]
    simp only [passBody, entry, bind, Except.bind, pure, Except.pure, Bool.false_eq_true, if_false]
    have e1 : (slope acq).acq = acq := rfl
    have e2 : (slope acq).uncConv = 1 := rfl
    have e3 : ((slope acq).path s).unc = [0, 1 / 2, 1 / 4, 0] := rfl
    have e4 : ((slope acq).path s).e = [0, 0, 5, 0] := rfl
    have e5 : imageAt ((slope acq).path s) 0 = .ok [1, 0, 0] := rfl
    have e6 : ((slope acq).real [1, 0, 0]).2 = [0, 0, 0] := rfl
    have e7 : s.iter = 0 := rfl
    have e8 : (slope acq).fmax = 1 := rfl
    have h2 : (1 / 2 : ℝ) < 1 := by norm_num
    simp only [e1, e2, e3, e4, e7, hi1, hi2, hsel, e5, e6, getFmax_x, hmu, e8, abs_zero, zero_le_one, decide_true,
      Bool.or_true, h2, Bool.true_and, Bool.and_true]
    rfl
  refine ⟨slope acq, s, { evalAppend (slope acq).real s [1, 0, 0] with iter := 1 }, rfl, fun st => ⟨rfl, rfl⟩,
    ?_, ?_, fun st => ⟨rfl, rfl, rfl⟩⟩
  · rw [run, thirdPoint, if_neg (by simp [s])]
    have hseq : (slope acq).sequential = false := rfl
    simp only [hseq, Bool.false_eq_true, if_false]
    rw [loop]
    change (match pass (slope acq) 4 false s with | .error e => _ | .ok p => _) = _
    rw [hp]
    simp only [if_true]
  · rfl

/-! ## C132: the recorded data -/

/-- The lists of geometries, energies and gradients belong together. -/
def Aligned (s : State) : Prop :=
  s.targets.length = s.train.length ∧ s.gradients.length = s.train.length

/-- C132, part: a run appends to the geometries, energies and gradients together, and each new energy and
gradient is the real calculator's answer at the new geometry.  Missing: `list_max_abs_forces`
(`C132_violated`). -/
theorem C132_partial (E : Env) (fuel : Nat) (s s' : State) (h : (run E fuel s).final = some s') :
    (∃ new : List (List ℝ), s'.train = s.train ++ new ∧
      s'.targets = s.targets ++ new.map (fun p => (E.real p).1) ∧
      s'.gradients = s.gradients ++ new.map (fun p => (E.real p).2)) ∧ (Aligned s → Aligned s') := by
  have main : ∃ new : List (List ℝ), s'.train = s.train ++ new ∧
      s'.targets = s.targets ++ new.map (fun p => (E.real p).1) ∧
      s'.gradients = s.gradients ++ new.map (fun p => (E.real p).2) := by
    unfold run at h
    cases ht : thirdPoint E s with
    | error e => rw [ht] at h; cases h
    | ok s1 =>
      rw [ht] at h
      simp only at h
      have key := loop_induct E s1.nImages (fun _ s s' => ∃ new : List (List ℝ), s'.train = s.train ++ new ∧
        s'.targets = s.targets ++ new.map (fun p => (E.real p).1) ∧
        s'.gradients = s.gradients ++ new.map (fun p => (E.real p).2)) ?_ ?_ fuel false _ s' h
      · obtain ⟨new, k1, k2, k3⟩ := key
        have e1 : (if E.sequential = true then { s1 with nImages := 3 } else s1).train = s1.train := by
          split <;> rfl
        have e2 : (if E.sequential = true then { s1 with nImages := 3 } else s1).targets = s1.targets := by
          split <;> rfl
        have e3 : (if E.sequential = true then { s1 with nImages := 3 } else s1).gradients = s1.gradients := by
          split <;> rfl
        rw [e1] at k1
        rw [e2] at k2
        rw [e3] at k3
        obtain ⟨-, ⟨-, rfl⟩ | ⟨-, pos, m, -, -, -, t1, t2, t3, -⟩⟩ := third_spec E s s1 ht
        · exact ⟨new, k1, k2, k3⟩
        · exact ⟨pos :: new, by rw [k1, t1]; simp, by rw [k2, t2]; simp, by rw [k3, t3]; simp⟩
      · intro b s p hp
        obtain ⟨_, _, _, _, _, _, _, _, _, _, h8⟩ := pass_spec E s1.nImages b s p hp
        refine ⟨[p.point], ?_, ?_, ?_⟩ <;> rw [h8] <;> simp only [evalAppend, entry] <;> split <;> simp
      · rintro b s p s' hp - ⟨new, k1, k2, k3⟩
        obtain ⟨_, _, _, _, _, _, _, _, _, _, h8⟩ := pass_spec E s1.nImages b s p hp
        refine ⟨p.point :: new, ?_, ?_, ?_⟩
        · rw [k1, h8]; simp only [evalAppend, entry]; split <;> simp
        · rw [k2, h8]; simp only [evalAppend, entry]; split <;> simp
        · rw [k3, h8]; simp only [evalAppend, entry]; split <;> simp
  refine ⟨main, fun ⟨a1, a2⟩ => ?_⟩
  obtain ⟨new, k1, k2, k3⟩ := main
  exact ⟨by rw [k1, k2]; simp [a1], by rw [k1, k3]; simp [a2]⟩

/-- C132 fails for the forces: the main loop never appends to `list_max_abs_forces`, so after any call that
raised nothing it has fewer entries than there are evaluated structures, if it had one each before. -/
theorem C132_violated (E : Env) (fuel : Nat) (s s' : State) (h : (run E fuel s).final = some s')
    (hs : s.maxForces.length = s.train.length) : s'.maxForces.length < s'.train.length := by
  unfold run at h
  cases ht : thirdPoint E s with
  | error e => rw [ht] at h; cases h
  | ok s1 =>
    rw [ht] at h
    simp only at h
    have key := loop_induct E s1.nImages (fun _ s s' => s'.maxForces = s.maxForces ∧
      s.train.length < s'.train.length) ?_ ?_ fuel false _ s' h
    · obtain ⟨k1, k2⟩ := key
      have e1 : (if E.sequential = true then { s1 with nImages := 3 } else s1).train = s1.train := by
        split <;> rfl
      have e2 : (if E.sequential = true then { s1 with nImages := 3 } else s1).maxForces = s1.maxForces := by
        split <;> rfl
      rw [e2] at k1
      rw [e1] at k2
      have : s1.maxForces.length = s1.train.length := by
        obtain ⟨-, ⟨-, rfl⟩ | ⟨-, pos, m, -, -, -, t1, t2, t3, t4, -⟩⟩ := third_spec E s s1 ht
        · exact hs
        · rw [t1, t4]; simp [hs]
      rw [k1]; omega
    · intro b s p hp
      obtain ⟨_, _, _, _, _, _, _, _, _, _, h8⟩ := pass_spec E s1.nImages b s p hp
      refine ⟨?_, ?_⟩ <;> rw [h8] <;> simp only [evalAppend, entry] <;> split <;> simp
    · rintro b s p s' hp - ⟨k1, k2⟩
      obtain ⟨_, _, _, _, _, _, _, _, _, _, h8⟩ := pass_spec E s1.nImages b s p hp
      have e1 : p.st.maxForces = s.maxForces := by
        rw [h8]; simp only [evalAppend, entry]; split <;> simp
      have e2 : p.st.train.length = s.train.length + 1 := by
        rw [h8]; simp only [evalAppend, entry]; split <;> simp
      exact ⟨by rw [k1, e1], by omega⟩

example : ∃ s', (run (demo [] 0 5 false .acq2) 5 ⟨4, [], [], [], [], 0, 0⟩).final = some s' := by
  obtain ⟨s', h⟩ := demo_converges
  exact ⟨s', by rw [h]; rfl⟩

end CatLearn.MLNEB
