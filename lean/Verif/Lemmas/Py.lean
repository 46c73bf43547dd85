import Verif.Model.Py
import Mathlib.Data.List.Perm.Basic
import Mathlib.Tactic.Linarith
import Mathlib.Tactic.Ring
import Mathlib.Algebra.BigOperators.Group.List.Basic

namespace CatLearn

theorem splitBySizes_length {α : Type _} (ss : List Nat) (l : List α) :
    (splitBySizes ss l).length = ss.length := by
  induction ss generalizing l with
  | nil => rfl
  | cons s ss ih => simp [splitBySizes, ih]

theorem splitBySizes_flatten {α : Type _} (ss : List Nat) (l : List α) :
    (splitBySizes ss l).flatten = l.take ss.sum := by
  induction ss generalizing l with
  | nil => simp [splitBySizes]
  | cons s ss ih =>
    simp [splitBySizes, ih, List.take_add]

theorem splitBySizes_map_length {α : Type _} (ss : List Nat) (l : List α) (h : ss.sum ≤ l.length) :
    (splitBySizes ss l).map List.length = ss := by
  induction ss generalizing l with
  | nil => simp [splitBySizes]
  | cons s ss ih =>
    simp only [List.sum_cons] at h
    simp only [splitBySizes, List.map_cons, List.length_take, List.cons.injEq]
    refine ⟨by omega, ih _ ?_⟩
    simp; omega

theorem splitBySizes_map {α β : Type _} (f : α → β) (ss : List Nat) (l : List α) :
    (splitBySizes ss l).map (List.map f) = splitBySizes ss (l.map f) := by
  induction ss generalizing l with
  | nil => rfl
  | cons s ss ih => simp [splitBySizes, ih, List.map_take, List.map_drop]

theorem splitSizes_length (n k : Nat) : (splitSizes n k).length = k := by simp [splitSizes]

private theorem sum_ite_lt (m r q : Nat) (h : r ≤ m) :
    ((List.range m).map fun i => q + (if i < r then 1 else 0)).sum = m * q + r := by
  induction m generalizing r with
  | zero => simp; omega
  | succ m ih =>
    rw [List.range_succ, List.map_append, List.sum_append]
    by_cases hr : r ≤ m
    · rw [ih r hr]
      simp [Nat.not_lt.mpr hr]; ring
    · have hrm : r = m + 1 := by omega
      have heq : ((List.range m).map fun i => q + (if i < r then 1 else 0))
          = ((List.range m).map fun i => q + (if i < m then 1 else 0)) := by
        apply List.map_congr_left
        intro i hi
        have := List.mem_range.mp hi
        simp [this, hrm]; omega
      rw [heq, ih m le_rfl]
      simp [hrm]; ring

theorem splitSizes_sum (n k : Nat) (hk : 0 < k) : (splitSizes n k).sum = n := by
  unfold splitSizes
  rw [sum_ite_lt k (n % k) (n / k) (Nat.mod_lt _ hk).le]
  exact Nat.div_add_mod n k

theorem splitSizes_mem (n k s : Nat) (h : s ∈ splitSizes n k) : s = n / k ∨ s = n / k + 1 := by
  unfold splitSizes at h
  obtain ⟨i, _, rfl⟩ := List.mem_map.mp h
  split <;> simp

theorem splitSizes_exact (s k : Nat) (hk : 0 < k) : splitSizes (k * s) k = List.replicate k s := by
  unfold splitSizes
  rw [Nat.mul_mod_right, Nat.mul_div_cancel_left _ hk]
  simp [List.map_const']

theorem sortAsc_perm {A F : Type _} [LinearOrder F] (key : A → F) (l : List A) :
    (sortAsc key l).Perm l := List.perm_insertionSort _ _

theorem sortDesc_perm {A F : Type _} [LinearOrder F] (key : A → F) (l : List A) :
    (sortDesc key l).Perm l := List.perm_insertionSort _ _

theorem sortAsc_pairwise {A F : Type _} [LinearOrder F] (key : A → F) (l : List A) :
    (sortAsc key l).Pairwise fun a b => key a ≤ key b :=
  haveI : Std.Total fun a b : A => key a ≤ key b := ⟨fun _ _ => le_total _ _⟩
  haveI : IsTrans A fun a b : A => key a ≤ key b := ⟨fun _ _ _ h1 h2 => le_trans h1 h2⟩
  List.pairwise_insertionSort _ _

theorem sortDesc_pairwise {A F : Type _} [LinearOrder F] (key : A → F) (l : List A) :
    (sortDesc key l).Pairwise fun a b => key b ≤ key a :=
  haveI : Std.Total fun a b : A => key b ≤ key a := ⟨fun _ _ => le_total _ _⟩
  haveI : IsTrans A fun a b : A => key b ≤ key a := ⟨fun _ _ _ h1 h2 => le_trans h2 h1⟩
  List.pairwise_insertionSort _ _

end CatLearn
