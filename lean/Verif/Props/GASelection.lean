import Verif.Model.GA
import Verif.Spec.GA
import Verif.Lemmas.Py
import Mathlib.Algebra.Order.BigOperators.Group.List
import Mathlib.Logic.Equiv.Basic
import Mathlib.Tactic.Linarith
import Mathlib.Tactic.FieldSimp
import Mathlib.Tactic.Positivity
import Mathlib.Algebra.Order.Floor.Semiring
import Mathlib.Data.Rat.Floor

/-!
# Selection of parents (C08, C72, C76)
-/

namespace CatLearn.Props

open CatLearn CatLearn.GA CatLearn.Spec

private theorem ranking_perm {F : Type} [LinearOrder F] (fit : List F) :
    (ranking fit).Perm (List.range fit.length) := by
  have h := (List.perm_insertionSort
    (fun a b : F × Nat => b.1 < a.1 ∨ (b.1 = a.1 ∧ b.2 ≤ a.2)) (fit.zip (List.range fit.length))).map
    Prod.snd
  rw [List.map_snd_zip (by simp)] at h
  exact h

private theorem ranking_lt {F : Type} [LinearOrder F] (fit : List F) (i j : Nat)
    (hi : i < fit.length) (hj : j < fit.length) (h : fit[j] < fit[i]) :
    (ranking fit).idxOf i < (ranking fit).idxOf j := by
  set L := (fit.zip (List.range fit.length)).insertionSort
    (fun a b : F × Nat => b.1 < a.1 ∨ (b.1 = a.1 ∧ b.2 ≤ a.2)) with hL
  have hperm : L.Perm (fit.zip (List.range fit.length)) := List.perm_insertionSort _ _
  have : Std.Total fun a b : F × Nat => b.1 < a.1 ∨ (b.1 = a.1 ∧ b.2 ≤ a.2) := ⟨fun a b => by
    rcases lt_trichotomy a.1 b.1 with h | h | h
    · right; left; exact h
    · rcases le_total a.2 b.2 with h' | h'
      · right; right; exact ⟨h, h'⟩
      · left; right; exact ⟨h.symm, h'⟩
    · left; left; exact h⟩
  have : IsTrans (F × Nat) fun a b : F × Nat => b.1 < a.1 ∨ (b.1 = a.1 ∧ b.2 ≤ a.2) :=
    ⟨fun a b c h1 h2 => by
      rcases h1 with h1 | ⟨h1, h1'⟩ <;> rcases h2 with h2 | ⟨h2, h2'⟩
      · left; exact lt_trans h2 h1
      · left; rw [h2]; exact h1
      · left; rw [← h1]; exact h2
      · right; exact ⟨h2.trans h1, h2'.trans h1'⟩⟩
  have hpw : L.Pairwise fun a b : F × Nat => b.1 < a.1 ∨ (b.1 = a.1 ∧ b.2 ≤ a.2) :=
    List.pairwise_insertionSort _ _
  have hr : ranking fit = L.map Prod.snd := rfl
  have hrp := ranking_perm fit
  have hmem : ∀ k, k < fit.length → (ranking fit).idxOf k < L.length := by
    intro k hk
    have : k ∈ ranking fit := hrp.mem_iff.mpr (List.mem_range.mpr hk)
    have := List.idxOf_lt_length_iff.mpr this
    rwa [hr, List.length_map] at this
  have hget : ∀ k (hk : k < fit.length), L[(ranking fit).idxOf k]'(hmem k hk) = (fit[k], k) := by
    intro k hk
    have h1 : (L[(ranking fit).idxOf k]'(hmem k hk)).2 = k := by
      have h0 : (ranking fit)[(ranking fit).idxOf k]'(List.idxOf_lt_length_iff.mpr
        (hrp.mem_iff.mpr (List.mem_range.mpr hk))) = k := List.getElem_idxOf _
      have h0' : (ranking fit)[(ranking fit).idxOf k]? = some k :=
        List.getElem?_eq_some_iff.mpr ⟨_, h0⟩
      rw [show (ranking fit)[(ranking fit).idxOf k]? = (L.map Prod.snd)[(ranking fit).idxOf k]? from
        rfl, List.getElem?_map, List.getElem?_eq_getElem (hmem k hk)] at h0'
      simpa using h0'
    have h2 : L[(ranking fit).idxOf k]'(hmem k hk) ∈ fit.zip (List.range fit.length) :=
      hperm.mem_iff.mp (List.getElem_mem _)
    obtain ⟨a, ha, hae⟩ := List.mem_iff_getElem.mp h2
    rw [List.getElem_zip] at hae
    have h3 : a = k := by
      have := congrArg Prod.snd hae
      simp at this
      rw [this, h1]
    subst h3
    rw [← hae]; simp
  by_contra hle
  have hle : (ranking fit).idxOf j ≤ (ranking fit).idxOf i := not_lt.mp hle
  rcases Nat.lt_or_eq_of_le hle with hlt | heq
  · have := List.pairwise_iff_getElem.mp hpw _ _ (hmem j hj) (hmem i hi) hlt
    rw [hget j hj, hget i hi] at this
    rcases this with h' | ⟨h', _⟩
    · exact lt_asymm h h'
    · exact absurd h' (ne_of_gt h)
  · have h1 := hget j hj
    have h2 := hget i hi
    simp only [heq] at h1
    rw [h1] at h2
    exact absurd (congrArg Prod.fst h2) (ne_of_lt h)

private theorem acceptance_bounds {F : Type} [LinearOrder F] (fit : List F) (i : Nat) :
    0 < acceptance fit i ∧ acceptance fit i < 1 := by
  have h : (ranking fit).idxOf i ≤ fit.length := by
    have := List.idxOf_le_length (a := i) (l := ranking fit)
    rwa [(ranking_perm fit).length_eq, List.length_range] at this
  have h' : ((ranking fit).idxOf i : Rat) ≤ fit.length := by exact_mod_cast h
  unfold acceptance
  constructor
  · positivity
  · rw [div_lt_one (by positivity)]; linarith

/-- C08, membership: `_selection` returns a member of the population or nothing at all (in which case
the caller asks again), for every shuffle and every draw. -/
theorem C08_selection_member {F : Type} [LinearOrder F] (fit : List F) (order : List Nat)
    (ho : order.Perm (List.range fit.length)) (draws : List Rat) (i : Nat)
    (h : selection fit order draws = some i) : i < fit.length := by
  have key : ∀ (order : List Nat) (draws : List Rat), selectLoop (acceptance fit) order draws = some i →
      i ∈ order := by
    intro order
    induction order with
    | nil => intro draws h; cases draws <;> simp [selectLoop] at h
    | cons k order ih =>
      intro draws h
      cases draws with
      | nil => simp [selectLoop] at h
      | cons u draws =>
        rw [selectLoop] at h
        split at h
        · simp at h; simp [h]
        · exact List.mem_cons_of_mem _ (ih draws h)
  exact List.mem_range.mp (ho.mem_iff.mp (key order draws h))

/-- The probability that the loop returns position `i` when position `k` is accepted with
probability `acc k`. -/
private def loopProb (acc : Nat → Rat) (i : Nat) : List Nat → Rat
  | [] => 0
  | k :: order => (if k = i then acc k else 0) + (1 - acc k) * loopProb acc i order

private theorem loopProb_nonneg (acc : Nat → Rat) (h0 : ∀ k, 0 < acc k ∧ acc k < 1) (i : Nat) :
    ∀ l, 0 ≤ loopProb acc i l := by
  intro l
  induction l with
  | nil => simp [loopProb]
  | cons k l ih =>
    rw [loopProb]
    have := h0 k
    have h1 : 0 ≤ (1 - acc k) * loopProb acc i l := mul_nonneg (by linarith) ih
    split <;> linarith

private theorem loopProb_notMem (acc : Nat → Rat) (i : Nat) : ∀ l, i ∉ l → loopProb acc i l = 0 := by
  intro l
  induction l with
  | nil => simp [loopProb]
  | cons k l ih =>
    intro h
    simp only [List.mem_cons, not_or] at h
    rw [loopProb, ih h.2, if_neg (Ne.symm h.1)]; simp

private theorem loopProb_swap (acc : Nat → Rat) (h0 : ∀ k, 0 < acc k ∧ acc k < 1) (i j : Nat)
    (hij : acc i < acc j) : ∀ l : List Nat, l.Nodup → i ∈ l →
      loopProb acc i l < loopProb acc j (l.map (Equiv.swap i j)) := by
  have hne : i ≠ j := by rintro rfl; exact lt_irrefl _ hij
  intro l
  induction l with
  | nil => simp
  | cons k l ih =>
    intro hnd hi
    simp only [List.nodup_cons] at hnd
    rw [List.map_cons, loopProb, loopProb]
    by_cases hk : k = i
    · subst hk
      rw [loopProb_notMem acc k l hnd.1]
      simp only [if_true, Equiv.swap_apply_left, mul_zero, add_zero]
      have := mul_nonneg (show 0 ≤ 1 - acc j by linarith [(h0 j).2])
        (loopProb_nonneg acc h0 j (l.map (Equiv.swap k j)))
      linarith
    · have hil : i ∈ l := by
        rcases List.mem_cons.mp hi with h | h
        · exact absurd h.symm hk
        · exact h
      have IH := ih hnd.2 hil
      have hn := loopProb_nonneg acc h0 i l
      by_cases hkj : k = j
      · subst hkj
        simp only [Equiv.swap_apply_right, if_neg hk, if_neg hne, zero_add]
        have := (h0 k).2
        nlinarith [(h0 i).2]
      · rw [Equiv.swap_apply_of_ne_of_ne hk hkj, if_neg hk, if_neg hkj]
        have := (h0 k).2
        nlinarith

/-- The number of draws on the grid that accept position `k`. -/
private def accepted (M : Nat) (acc : Nat → Rat) (k : Nat) : Nat :=
  (List.range M).countP fun d : Nat => decide (acc k > (d : Rat) / M)

private theorem gridDraws_length (M : Nat) : ∀ n, (gridDraws M n).length = M ^ n := by
  intro n
  induction n with
  | zero => rfl
  | succ n ih =>
    have : ∀ L : List Nat, (L.flatMap fun k : Nat => (gridDraws M n).map fun l => ((k : Rat) / M) :: l).length
        = L.length * M ^ n := by
      intro L
      induction L with
      | nil => simp
      | cons a L ihL => simp only [List.flatMap_cons, List.length_append, List.length_map, ih, ihL,
          List.length_cons]; ring
    rw [gridDraws, this, List.length_range, pow_succ, mul_comm]

private theorem count_loop (M : Nat) (hM : 0 < M) (acc : Nat → Rat) (i : Nat) : ∀ order : List Nat,
    (((gridDraws M order.length).countP fun u => decide (selectLoop acc order u = some i) : Nat) : Rat)
      = M ^ order.length * loopProb (fun k => (accepted M acc k : Rat) / M) i order := by
  intro order
  induction order with
  | nil => simp [gridDraws, selectLoop, loopProb]
  | cons k order ih =>
    have hM' : (M : Rat) ≠ 0 := by exact_mod_cast hM.ne'
    have step : ∀ L : List Nat,
        ((((L.flatMap fun d : Nat => (gridDraws M order.length).map fun l => ((d : Rat) / M) :: l).countP
          fun u => decide (selectLoop acc (k :: order) u = some i) : Nat)) : Rat)
        = (L.countP (fun d : Nat => decide (acc k > (d : Rat) / M)) : Rat)
            * (if k = i then (M : Rat) ^ order.length else 0)
          + ((L.length : Rat) - L.countP (fun d : Nat => decide (acc k > (d : Rat) / M)))
            * ((gridDraws M order.length).countP fun u => decide (selectLoop acc order u = some i) : Nat) := by
      intro L
      induction L with
      | nil => simp
      | cons d L ihL =>
        rw [List.flatMap_cons, List.countP_append, Nat.cast_add, ihL, List.countP_map]
        by_cases hd : acc k > (d : Rat) / M
        · by_cases hk : k = i
          · have e : ((fun u => decide (selectLoop acc (k :: order) u = some i)) ∘
                fun l => ((d : Rat) / M) :: l) = fun _ => true := by
              funext l; simp [selectLoop, hd, hk]
              rw [hk] at hd; simp [hd]
            rw [e, List.countP_true, gridDraws_length, List.countP_cons_of_pos (by simpa using hd)]
            simp only [hk, if_true, List.length_cons]; push_cast; ring
          · have e : ((fun u => decide (selectLoop acc (k :: order) u = some i)) ∘
                fun l => ((d : Rat) / M) :: l) = fun _ => false := by
              funext l; simp [selectLoop, hd, hk]
            rw [e, List.countP_false, List.countP_cons_of_pos (by simpa using hd)]
            simp only [hk, if_false, List.length_cons, Function.const_apply]; push_cast; ring
        · have e : ((fun u => decide (selectLoop acc (k :: order) u = some i)) ∘
              fun l => ((d : Rat) / M) :: l) = fun u => decide (selectLoop acc order u = some i) := by
            funext l; simp [selectLoop, hd]
          rw [e, List.countP_cons_of_neg (by simpa using hd)]
          simp only [List.length_cons]; push_cast; ring
    rw [List.length_cons, gridDraws, step, ih, loopProb, List.length_range]
    change (accepted M acc k : Rat) * _ + (_ - (accepted M acc k : Rat)) * _ = _
    generalize loopProb _ i order = x
    generalize (accepted M acc k : Rat) = y
    rw [pow_succ]
    split
    · field_simp
    · field_simp; ring

private theorem accepted_bounds {F : Type} [LinearOrder F] (fit : List F) (M : Nat)
    (hM : fit.length + 2 ≤ M) (k : Nat) :
    0 < accepted M (acceptance fit) k ∧ accepted M (acceptance fit) k < M := by
  have hM0 : (0 : Rat) < M := by exact_mod_cast (by omega : 0 < M)
  constructor
  · apply List.countP_pos_iff.mpr
    exact ⟨0, List.mem_range.mpr (by omega), by simpa using (acceptance_bounds fit k).1⟩
  · have hle : (ranking fit).idxOf k ≤ fit.length := by
      have := List.idxOf_le_length (a := k) (l := ranking fit)
      rwa [(ranking_perm fit).length_eq, List.length_range] at this
    have hnot : ¬ ((List.range M).countP fun d : Nat => decide (acceptance fit k > (d : Rat) / M)) = M := by
      intro h
      have h' := (List.countP_eq_length (l := List.range M)).mp (by rw [h, List.length_range])
        (M - 1) (List.mem_range.mpr (by omega))
      have h' : acceptance fit k > ((M - 1 : Nat) : Rat) / M := by simpa using h'
      rw [Nat.cast_sub (by omega), acceptance] at h'
      have hle' : ((ranking fit).idxOf k : Rat) ≤ fit.length := by exact_mod_cast hle
      have hMr : ((fit.length : Rat) + 2) ≤ M := by exact_mod_cast hM
      rw [gt_iff_lt, div_lt_div_iff₀ hM0 (by positivity)] at h'
      push_cast at h'
      nlinarith
    have := List.countP_le_length (p := fun d : Nat => decide (acceptance fit k > (d : Rat) / M))
      (l := List.range M)
    rw [List.length_range] at this
    exact lt_of_le_of_ne this hnot

private theorem countP_lt {p q : Nat → Bool} (l : List Nat) (h : ∀ a ∈ l, p a = true → q a = true)
    (d : Nat) (hd : d ∈ l) (h1 : p d = false) (h2 : q d = true) : l.countP p < l.countP q := by
  induction l with
  | nil => simp at hd
  | cons a l ih =>
    have hmono : l.countP p ≤ l.countP q :=
      List.countP_mono_left fun b hb => h b (List.mem_cons_of_mem _ hb)
    rw [List.countP_cons, List.countP_cons]
    rcases List.mem_cons.mp hd with rfl | hd
    · simp only [h1, h2]; simp; omega
    · have := ih (fun b hb => h b (List.mem_cons_of_mem _ hb)) hd
      have h3 := h a (by simp)
      by_cases hp : p a = true
      · simp only [hp, h3 hp]; omega
      · simp only [hp]; simp only [Bool.false_eq_true, if_false]; omega

private theorem accepted_lt {F : Type} [LinearOrder F] (fit : List F) (M : Nat)
    (hM : fit.length + 2 ≤ M) (i j : Nat)
    (hij : (ranking fit).idxOf i < (ranking fit).idxOf j) :
    accepted M (acceptance fit) i < accepted M (acceptance fit) j := by
  have hM0 : (0 : Rat) < M := by exact_mod_cast (by omega : 0 < M)
  have hn : (0 : Rat) < (fit.length : Rat) + 2 := by positivity
  have hMr : ((fit.length : Rat) + 2) ≤ M := by exact_mod_cast hM
  have hij' : ((ranking fit).idxOf i : Rat) + 1 ≤ (ranking fit).idxOf j := by exact_mod_cast hij
  have hgap : acceptance fit i + 1 / M ≤ acceptance fit j := by
    have h1 : (1 : Rat) / M ≤ 1 / ((fit.length : Rat) + 2) := one_div_le_one_div_of_le hn hMr
    have h2 : acceptance fit i + 1 / ((fit.length : Rat) + 2) ≤ acceptance fit j := by
      unfold acceptance
      rw [← add_div]
      exact (div_le_div_iff_of_pos_right hn).mpr (by linarith)
    linarith
  have hlt : acceptance fit i ≤ acceptance fit j := by
    have : (0 : Rat) < 1 / M := by positivity
    linarith
  set d := ⌈acceptance fit i * M⌉₊ with hd
  have hd1 : acceptance fit i * M ≤ d := Nat.le_ceil _
  have hd2 : (d : Rat) < acceptance fit i * M + 1 :=
    Nat.ceil_lt_add_one (mul_nonneg (acceptance_bounds fit i).1.le hM0.le)
  have hd3 : (d : Rat) / M < acceptance fit j := by
    rw [div_lt_iff₀ hM0]
    have : (acceptance fit i + 1 / M) * M ≤ acceptance fit j * M :=
      mul_le_mul_of_nonneg_right hgap hM0.le
    rw [add_mul, one_div_mul_cancel hM0.ne'] at this
    linarith
  have hdM : d < M := by
    have h1 := (acceptance_bounds fit j).2
    have : (d : Rat) / M < 1 := lt_trans hd3 h1
    rw [div_lt_one hM0] at this
    exact_mod_cast this
  refine countP_lt _ ?_ d (List.mem_range.mpr hdM) ?_ ?_
  · intro a _ ha
    simp only [decide_eq_true_eq, gt_iff_lt] at ha ⊢
    linarith
  · simp only [decide_eq_false_iff_not, gt_iff_lt, not_lt]
    rw [le_div_iff₀ hM0]; exact hd1
  · simpa using hd3

/-- C08 is violated, for every population: of two individuals the *less* fit one is always the more
likely to be selected by a call of `_selection`.  All the shuffles and all the draws on a grid of `M`
values in [0, 1) are equally likely outcomes (`M = 2 ^ 53` for `random.random`), and strictly fewer of
them select the fitter individual. -/
theorem C08_selection_favours_fitter_violated {F : Type} [LinearOrder F] (fit : List F) (M i j : Nat)
    (hM : fit.length + 2 ≤ M) (hi : i < fit.length) (hj : j < fit.length) (h : fit[j] < fit[i]) :
    countOutcomes fit.length M (fun order draws => decide (selection fit order draws = some i)) <
      countOutcomes fit.length M (fun order draws => decide (selection fit order draws = some j)) := by
  set n := fit.length with hn
  set s := Equiv.swap i j
  have hM0 : 0 < M := by omega
  have hM0' : (0 : Rat) < M := by exact_mod_cast hM0
  set a : Nat → Rat := fun k => (accepted M (acceptance fit) k : Rat) / M
  have hbd : ∀ k, 0 < a k ∧ a k < 1 := by
    intro k
    have := accepted_bounds fit M (by omega) k
    refine ⟨div_pos (by exact_mod_cast this.1) hM0', ?_⟩
    rw [div_lt_one hM0']; exact_mod_cast this.2
  have hacc : a i < a j := by
    refine (div_lt_div_iff_of_pos_right hM0').mpr ?_
    exact_mod_cast accepted_lt fit M (by omega) i j (ranking_lt fit i j hi hj h)
  have hrange : ((List.range n).map s).Perm (List.range n) := by
    rw [List.perm_ext_iff_of_nodup (List.nodup_range.map s.injective) List.nodup_range]
    intro b
    simp only [List.mem_map, List.mem_range]
    have hs : ∀ c, c < n → s c < n := by
      intro c hc
      simp only [s, Equiv.swap_apply_def]
      split
      · exact hj
      · split
        · exact hi
        · exact hc
    constructor
    · rintro ⟨c, hc, rfl⟩; exact hs c hc
    · intro hb; exact ⟨s b, hs b hb, by simp [s]⟩
  have hperm : ((List.range n).permutations.map (List.map s)).Perm (List.range n).permutations := by
    rw [List.map_permutations]; exact hrange.permutations
  have hne : (List.range n).permutations ≠ [] := by
    intro h
    have := List.mem_permutations.mpr (List.Perm.refl (List.range n))
    rw [h] at this; simp at this
  simp only [countOutcomes]
  rw [← (hperm.map fun order => (gridDraws M n).countP
    (fun draws => decide (selection fit order draws = some j))).sum_eq, List.map_map]
  apply List.sum_lt_sum_of_ne_nil hne
  intro l hl
  have hlp := List.mem_permutations.mp hl
  have hlen : l.length = n := by rw [hlp.length_eq, List.length_range]
  have h1 := count_loop M hM0 (acceptance fit) i l
  have h2 := count_loop M hM0 (acceptance fit) j (l.map s)
  rw [List.length_map] at h2
  rw [hlen] at h1 h2
  have hsw := loopProb_swap a hbd i j hacc l (hlp.nodup_iff.mpr List.nodup_range)
      (hlp.mem_iff.mpr (List.mem_range.mpr hi))
  have : (((gridDraws M n).countP fun u => decide (selection fit l u = some i) : Nat) : Rat) <
      ((gridDraws M n).countP fun u => decide (selection fit (l.map s) u = some j) : Nat) := by
    refine lt_of_eq_of_lt h1 (lt_of_lt_of_eq ?_ h2.symm)
    exact mul_lt_mul_of_pos_left hsw (by positivity)
  exact_mod_cast this

example : countOutcomes 3 (2 ^ 53) (fun o d => decide (selection [10, 20, 30] o d = some 2)) <
    countOutcomes 3 (2 ^ 53) (fun o d => decide (selection [10, 20, 30] o d = some 0)) :=
  C08_selection_favours_fitter_violated [10, 20, 30] (2 ^ 53) 2 0 (by decide) (by decide) (by decide)
    (by decide)

/-! ### C72, C76: the search for a mate -/

/-- C72 is violated: with an accuracy, natural selection can leave a single individual, and from then
on the search for a second parent never ends, whatever is drawn. -/
theorem C72_generation_completes_violated :
    (∃ cur new : List (Unit × Nat), cur.length = 2 ∧ new.length = 2 ∧
      (generation (some (fun n : Nat => n / 10)) true 2 cur new).length = 1) ∧
    (∀ {F : Type} [LinearOrder F] (f : F) (attempts : List (List Nat × List Rat)),
      (∀ a ∈ attempts, a.1.Perm (List.range 1)) → pickMate true [f] 0 attempts = none) := by
  refine ⟨⟨[((), 1), ((), 2)], [((), 3), ((), 4)], rfl, rfl, by decide +kernel⟩, ?_⟩
  intro F _ f attempts h
  induction attempts with
  | nil => rfl
  | cons a attempts ih =>
    have ih := ih (fun b hb => h b (by simp [hb]))
    rw [pickMate]
    split
    · exact ih
    · rename_i p2 hp2
      have h0 : p2 < 1 := C08_selection_member [f] a.1 (h a (by simp)) a.2 p2 hp2
      have : p2 = 0 := by omega
      subst this
      simpa using ih

/-- C72 (partial): with at least two individuals the search for a mate can always end: whatever
happened in earlier attempts, some outcome of the next shuffle and draws ends it. -/
theorem C72_generation_completes_partial {F : Type} [LinearOrder F] (isList : Bool) (fit : List F)
    (p1 : Nat) (h2 : 2 ≤ fit.length) (before : List (List Nat × List Rat)) :
    ∃ a : List Nat × List Rat, a.1.Perm (List.range fit.length) ∧ a.2.length = fit.length ∧
      (∀ u ∈ a.2, 0 ≤ u ∧ u < 1) ∧ (pickMate isList fit p1 (before ++ [a])).isSome := by
  obtain ⟨n, hn⟩ : ∃ n, fit.length = n + 2 := ⟨fit.length - 2, by omega⟩
  -- a member other than the first parent, moved to the front
  obtain ⟨k, hk, hkp⟩ : ∃ k, k < fit.length ∧ k ≠ p1 := by
    by_cases h : p1 = 0
    · exact ⟨1, by omega, by omega⟩
    · exact ⟨0, by omega, by omega⟩
  refine ⟨(k :: (List.range fit.length).erase k, List.replicate fit.length 0), ?_, by simp, ?_, ?_⟩
  · exact (List.perm_cons_erase (List.mem_range.mpr hk)).symm
  · intro u hu; rw [(List.mem_replicate.mp hu).2]; norm_num
  · induction before with
    | nil =>
      have hs : selection fit (k :: (List.range fit.length).erase k) (List.replicate fit.length 0)
          = some k := by
        rw [selection, hn, List.replicate_succ, selectLoop, if_pos (acceptance_bounds fit k).1]
      rw [List.nil_append, pickMate]
      simp [hs, hkp]
    | cons b before ih =>
      rw [List.cons_append, pickMate]
      split
      · exact ih
      · split
        · exact ih
        · rfl

example : (2 : Nat) ≤ ([3, 5] : List Nat).length := by decide

/-- C76 (partial): when the population is a list (after natural selection) the two parents of a mating
are different members of it. -/
theorem C76_different_mates_partial {F : Type} [LinearOrder F] (fit : List F) (p1 p2 : Nat)
    (attempts : List (List Nat × List Rat)) (ha : ∀ a ∈ attempts, a.1.Perm (List.range fit.length))
    (h : pickMate true fit p1 attempts = some p2) : p2 < fit.length ∧ p2 ≠ p1 := by
  induction attempts with
  | nil => simp [pickMate] at h
  | cons a attempts ih =>
    rw [pickMate] at h
    split at h
    · exact ih (fun b hb => ha b (by simp [hb])) h
    · rename_i q hq
      split at h
      · exact ih (fun b hb => ha b (by simp [hb])) h
      · rename_i hne
        simp only [Option.some.injEq] at h
        subst h
        exact ⟨C08_selection_member fit a.1 (ha a (by simp)) a.2 q hq, by simpa using hne⟩

/-- C76 is violated: on the initial population, a numpy array, an individual can be mated with itself,
and the child is a copy of it. -/
theorem C76_different_mates_violated :
    ∃ (fit : List Nat) (attempts : List (List Nat × List Rat)),
      (∀ a ∈ attempts, a.1.Perm (List.range fit.length)) ∧ 2 ≤ fit.length ∧
      pickMate false fit 0 attempts = some 0 ∧ ∀ (x : Ind) (cut : Nat), cutAndSplice x x cut = x :=
  ⟨[3, 5], [([0, 1], [0, 0])], by simp [List.range_succ], by decide, by decide +kernel,
    fun x cut => List.take_append_drop cut x⟩

end CatLearn.Props
