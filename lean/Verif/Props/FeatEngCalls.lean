import Verif.Model.FeatEngCalls
import Verif.Props.FeatEng
import Mathlib.Data.List.Forall2

/-!
# Features engineered one after the other from one matrix (C83)
-/

namespace CatLearn.Props

open CatLearn CatLearn.FeatEng

private theorem mapM_forall₂ (A : List (List ℝ)) (hA : ∀ c ∈ A, c ≠ []) :
    ∃ A', A.mapM shiftCol = .ok A' ∧ List.Forall₂ (fun c c' => ∃ m, IsMin c m ∧ c' = c.map fun x => x + |m| + 1) A A' := by
  induction A with
  | nil => exact ⟨[], rfl, .nil⟩
  | cons c A ih =>
    obtain ⟨A', h1, h2⟩ := ih fun c hc => hA c (List.mem_cons_of_mem _ hc)
    obtain ⟨m, hm, hs⟩ := shiftCol_ok c (hA c List.mem_cons_self)
    refine ⟨_ :: A', ?_, .cons ⟨m, hm, rfl⟩ h2⟩
    rw [List.mapM_cons, hs, h1]
    rfl

/-- The columns after `k` calls of `get_ablog`. -/
private def Grown (k : ℕ) (c c' : List ℝ) : Prop :=
  ∃ s : ℝ, c' = c.map (· + s) ∧ 2 ^ k - 1 ≤ s ∧ (k = 0 → s = 0) ∧ (0 < k → ∀ y ∈ c', (2 : ℝ) ^ k - 1 ≤ y)

private theorem grown_refl (A : List (List ℝ)) : List.Forall₂ (Grown 0) A A := by
  induction A with
  | nil => exact .nil
  | cons c A ih => exact .cons ⟨0, by simp, by simp, fun _ => rfl, fun h => absurd h (lt_irrefl _)⟩ ih

private theorem grown_step (k : ℕ) (c c' c'' : List ℝ) (h : Grown k c c') (m : ℝ) (hm : IsMin c' m) (he : c'' = c'.map fun x => x + |m| + 1) :
    Grown (k + 1) c c'' := by
  obtain ⟨s, h1, h2, h3, h4⟩ := h
  have hp : (1 : ℝ) ≤ 2 ^ k := one_le_pow₀ (by norm_num)
  have habs : (2 : ℝ) ^ k - 1 ≤ |m| := by
    rcases Nat.eq_zero_or_pos k with rfl | hk
    · simp
    · exact (h4 hk m hm.1).trans (le_abs_self m)
  refine ⟨s + |m| + 1, ?_, ?_, fun h => absurd h (Nat.succ_ne_zero k), fun _ y hy => ?_⟩
  · rw [he, h1, List.map_map]
    refine List.map_congr_left fun x _ => ?_
    simp only [Function.comp]
    ring
  · rw [pow_succ]
    linarith
  · rw [he] at hy
    obtain ⟨x, hx, rfl⟩ := List.mem_map.mp hy
    have hmx := hm.2 x hx
    rw [pow_succ]
    rcases Nat.eq_zero_or_pos k with rfl | hk
    · have := neg_abs_le m
      simp only [pow_zero]
      linarith
    · have := h4 hk m hm.1
      linarith

private theorem forall₂_step (k : ℕ) (A A' A'' : List (List ℝ)) (h : List.Forall₂ (Grown k) A A')
    (h' : List.Forall₂ (fun c c' => ∃ m, IsMin c m ∧ c' = c.map fun x => x + |m| + 1) A' A'') : List.Forall₂ (Grown (k + 1)) A A'' := by
  induction h generalizing A'' with
  | nil => cases h'; exact .nil
  | cons h1 _ ih =>
    cases h' with
    | cons h2 h3 =>
      obtain ⟨m, hm, he⟩ := h2
      exact .cons (grown_step k _ _ _ h1 m hm he) (ih _ h3)

private theorem grown_ne (k : ℕ) (A A' : List (List ℝ)) (h : List.Forall₂ (Grown k) A A') (hA : ∀ c ∈ A, c ≠ []) : ∀ c ∈ A', c ≠ [] := by
  induction h with
  | nil => simp
  | cons h1 _ ih =>
    intro c hc
    rcases List.mem_cons.mp hc with rfl | hc
    · obtain ⟨s, rfl, _⟩ := h1
      simpa using hA _ List.mem_cons_self
    · exact ih (fun c hc => hA c (List.mem_cons_of_mem _ hc)) c hc

private theorem run_other (quot pw : ℝ → ℝ → ℝ) (n : Nat) (A : List (List ℝ)) (c : Call) (hc : c.isAblog = false) : (c.run quot pw n A).2 = A := by
  cases c <;> first | rfl | cases hc

private theorem grown_after (quot pw : ℝ → ℝ → ℝ) (n : Nat) (A : List (List ℝ)) (hA : ∀ c ∈ A, c ≠ []) (l : List Call) (k : ℕ) (A' : List (List ℝ))
    (h : List.Forall₂ (Grown k) A A') : List.Forall₂ (Grown (k + l.countP Call.isAblog)) A (afterCalls quot pw n A' l) := by
  induction l generalizing k A' with
  | nil => exact h
  | cons c l ih =>
    cases hc : c.isAblog with
    | false =>
      rw [List.countP_cons_of_neg (by simp [hc])]
      show List.Forall₂ _ A (afterCalls quot pw n (c.run quot pw n A').2 l)
      rw [run_other _ _ _ _ _ hc]
      exact ih k A' h
    | true =>
      rw [List.countP_cons_of_pos hc]
      obtain ⟨A'', h1, h2⟩ := mapM_forall₂ A' (grown_ne k A A' h hA)
      have hrun : (c.run quot pw n A').2 = A'' := by
        cases c with
        | ablog a b =>
          show (match getAblog n A' a b with
            | .ok (r, A') => ((.ok r, A') : Except PyErr (List (List ℝ)) × List (List ℝ))
            | .error e => (.error e, A')).2 = A''
          rw [getAblog, h1]
          simp only [bind, Except.bind, order2With_eq]
          rfl
        | _ => cases hc
      show List.Forall₂ _ A (afterCalls quot pw n (c.run quot pw n A').2 l)
      rw [hrun]
      have := ih (k + 1) A'' (forall₂_step k A A' A'' h h2)
      rwa [show k + 1 + l.countP Call.isAblog = k + (l.countP Call.isAblog + 1) by ring] at this

/-- C83 (partial: scripts that do not call `get_ablog` first).  However many of the other functions were called on the array, it is the one it was, and the next
call returns what it would have returned as the first. -/
theorem C83_history_partial (quot pw : ℝ → ℝ → ℝ) (n : Nat) (A : List (List ℝ)) (l : List Call) (hl : ∀ c ∈ l, c.isAblog = false) :
    afterCalls quot pw n A l = A ∧ ∀ c : Call, (c.run quot pw n (afterCalls quot pw n A l)).1 = (c.run quot pw n A).1 := by
  have h : afterCalls quot pw n A l = A := by
    induction l with
    | nil => rfl
    | cons c l ih =>
      show afterCalls quot pw n (c.run quot pw n A).2 l = A
      rw [run_other _ _ _ _ _ (hl c List.mem_cons_self)]
      exact ih fun c hc => hl c (List.mem_cons_of_mem _ hc)
  exact ⟨h, fun c => by rw [h]⟩

/-- C83 is violated more with every call: after any calls, `k` of them of `get_ablog`, every entry of the caller's array is larger by at least `2 ^ k - 1`, and the entries
of a column by the same number. -/
theorem C83_history_violated (quot pw : ℝ → ℝ → ℝ) (n : Nat) (A : List (List ℝ)) (hA : ∀ c ∈ A, c ≠ []) (l : List Call) :
    List.Forall₂ (fun c c' => ∃ s : ℝ, c' = c.map (· + s) ∧ 2 ^ l.countP Call.isAblog - 1 ≤ s) A (afterCalls quot pw n A l) := by
  have := grown_after quot pw n A hA l 0 A (grown_refl A)
  rw [Nat.zero_add] at this
  exact this.imp fun c c' h => by
    obtain ⟨s, h1, h2, _⟩ := h
    exact ⟨s, h1, h2⟩

/-- Products of the features 1 and 2, before and after the logarithms were asked for: 2, and then (1 + 2) · (2 + 3). -/
example : ((Call.order2.run (· / ·) (fun x _ => x) 1 [[1], [2]]).1 = .ok [[1], [2], [4]]) ∧
    (Call.order2.run (· / ·) (fun x _ => x) 1 (afterCalls (· / ·) (fun x _ => x) 1 [[1], [2]] [.single, .ablog 1 1, .div])).1 =
      .ok [[9], [15], [25]] := by
  have hs : ∀ x : ℝ, shiftCol [x] = .ok [x + (|x| + 1)] := fun x => rfl
  have ha : afterCalls (· / ·) (fun x _ => x) 1 [[1], [2]] [.single, .ablog 1 1, .div] = [[3], [5]] := by
    simp only [afterCalls, List.foldl_cons, List.foldl_nil, Call.run, getAblog, List.mapM_cons, List.mapM_nil, hs, bind, Except.bind, pure, Except.pure, order2With_eq]
    norm_num
  rw [ha]
  constructor <;>
  · simp only [Call.run, getOrder2, order2With_eq, loopTri, col, List.length_cons, List.length_nil]
    norm_num [List.range_succ, List.range']

end CatLearn.Props
