import Verif.Model.Neighbors
import Mathlib.Tactic.Linarith
import Mathlib.Tactic.Ring
import Mathlib.Tactic.FieldSimp
import Mathlib.Tactic.NormNum
import Mathlib.Tactic.Positivity
import Mathlib.Tactic.FinCases
import Mathlib.Algebra.Order.Archimedean.Basic
import Mathlib.Algebra.Order.Archimedean.Real.Basic

/-!
# Neighbour lists: C59, C60, C136-C141
-/

namespace CatLearn.Nb

open CatLearn

variable {K : Type} [Field K] [LinearOrder K] [IsStrictOrderedRing K] {n : ℕ}

theorem resEntry_eq (d s : K) (k : ℕ) : resEntry d s k = if d < s * (k + 1) then (k : K) + 1 else 0 := by
  simp only [resEntry]
  by_cases h : d < s * (k + 1)
  · have h0 : ¬ 0 < d - s * (k + 1) := by linarith
    rw [if_pos h, if_neg h0, if_pos (by linarith)]
  · rw [if_neg h]
    by_cases h0 : 0 < d - s * (k + 1)
    · rw [if_pos h0]; simp
    · rw [if_neg h0, if_neg (by linarith)]
      linarith

/-- Two entries with the same data evolve alike. -/
theorem shells_entry (rb : Mat n K) (N : ℕ) (s : Mat n K × Mat n K) (i j i' j' : Fin n)
    (hd : s.1 i j = s.1 i' j') (hc : s.2 i j = s.2 i' j') (hr : rb i j = rb i' j') :
    (shells rb N s).1 i j = (shells rb N s).1 i' j' ∧ (shells rb N s).2 i j = (shells rb N s).2 i' j' := by
  induction N with
  | zero => exact ⟨hd, hc⟩
  | succ N ih =>
    obtain ⟨h1, h2⟩ := ih
    simp only [shells, iter, h1, h2, hr, and_self]

theorem buffers_ok {dx : ℕ → Option K} {z : Fin n → ℕ} {b : Fin n → K} (h : buffers dx z = .ok b) (i : Fin n) :
    dx (z i) = some (b i) := by
  simp only [buffers] at h
  split at h
  · rename_i hs
    simp only [Except.ok.injEq] at h
    subst h
    obtain ⟨x, hx⟩ := Option.isSome_iff_exists.1 (hs i)
    simp [hx]
  · cases h

theorem neighborlist_ok {radius : ℕ → K} {dx : Option (ℕ → Option K)} {z : Fin n → ℕ} {dist : Mat n K} {N : ℕ}
    {c : Mat n K} (h : neighborlist radius dx z dist N = .ok c) :
    ∃ b, buffers (dx.getD (defaultDx radius)) z = .ok b ∧
      c = zeroDiag (shells (reachMatrix radius z b) N (dist, fun _ _ => 0)).2 := by
  simp only [neighborlist] at h
  cases hb : buffers (dx.getD (defaultDx radius)) z with
  | error e => rw [hb] at h; cases h
  | ok b =>
    rw [hb] at h
    simp only [Except.ok.injEq] at h
    exact ⟨b, rfl, h.symm⟩

/-- C59 (partial: the two atoms have the same buffer, for instance atoms of the same element): atom `j` is in the
`k`-th neighbour shell of `i` iff `i` is in the `k`-th shell of `j`, for any number of shells. -/
theorem C59_partial (radius : ℕ → K) (dx : Option (ℕ → Option K)) (z : Fin n → ℕ) (dist : Mat n K) (N : ℕ)
    (c : Mat n K) (h : neighborlist radius dx z dist N = .ok c) (hsym : ∀ i j, dist i j = dist j i) (i j : Fin n)
    (hb : (dx.getD (defaultDx radius)) (z i) = (dx.getD (defaultDx radius)) (z j)) : c i j = c j i := by
  obtain ⟨b, hbuf, rfl⟩ := neighborlist_ok h
  have hbi := buffers_ok hbuf i
  have hbj := buffers_ok hbuf j
  have hbe : b i = b j := by
    rw [hbi, hbj] at hb
    exact Option.some.inj hb
  simp only [zeroDiag, eq_comm (a := j) (b := i)]
  split
  · rfl
  · refine (shells_entry _ N _ i j j i (hsym i j) rfl ?_).2
    simp only [reachMatrix, radiusMatrix, bufferMatrix, hbe]
    ring

/-- Three atoms of two elements with the default buffers. -/
example : ∃ c, neighborlist (fun z => (z : ℚ)) none ![1, 1, 2] (fun i j => if i = j then 0 else 2) 1 = .ok c ∧
    c 0 1 = 1 := by
  refine ⟨_, rfl, ?_⟩
  decide +kernel

/-- C59 fails: two atoms with radii 1 and 2 at distance 3.45, with the default buffers: the second is a neighbour of
the first, but not the first of the second. -/
theorem C59_violated : ∃ c, neighborlist (fun z => (z : ℚ)) none ![1, 2] (fun i j => if i = j then 0 else 69 / 20) 1 = .ok c ∧
    c 0 1 = 1 ∧ c 1 0 = 0 := by
  refine ⟨_, rfl, ?_, ?_⟩ <;> decide +kernel

/-- C59: the diagonal is zero, and a missing buffer is a KeyError: the call succeeds iff every element of the
structure has a buffer. -/
theorem C59_domain (radius : ℕ → K) (dx : Option (ℕ → Option K)) (z : Fin n → ℕ) (dist : Mat n K) (N : ℕ) :
    ((∃ c, neighborlist radius dx z dist N = .ok c) ↔ ∀ d, dx = some d → ∀ i, ∃ b, d (z i) = some b) ∧
    (∀ c, neighborlist radius dx z dist N = .ok c → ∀ i, c i i = 0) ∧
    (∀ e, neighborlist radius dx z dist N = .error e → e = .key) := by
  refine ⟨?_, ?_, ?_⟩
  · constructor
    · rintro ⟨c, h⟩ d rfl i
      obtain ⟨b, hb, _⟩ := neighborlist_ok h
      exact ⟨_, buffers_ok hb i⟩
    · intro h
      have : ∀ i, ((dx.getD (defaultDx radius)) (z i)).isSome := by
        intro i
        cases dx with
        | none => simp [defaultDx]
        | some d =>
          obtain ⟨b, hb⟩ := h d rfl i
          simp [hb]
      simp [neighborlist, buffers, this]
  · intro c h i
    obtain ⟨b, _, rfl⟩ := neighborlist_ok h
    simp [zeroDiag]
  · intro e h
    simp only [neighborlist, buffers] at h
    split at h
    · rename_i hb
      split at hb
      · cases hb
      · simp only [Except.error.injEq] at hb h
        rw [← h, ← hb]
    · cases h

/-! ## C136: shell numbers -/

/-- State of one entry after some shells. -/
theorem shells_number (rb dist : Mat n K) (N : ℕ) (i j : Fin n) (hd : 0 ≤ dist i j) (hN : rb i j * N ≤ 10000)
    (M : ℕ) (hM : M ≤ N) :
    ((shells rb M (dist, fun _ _ => 0)).1 i j = dist i j ∧ (shells rb M (dist, fun _ _ => 0)).2 i j = 0 ∧
      ∀ m < M, rb i j * (m + 1) ≤ dist i j) ∨
    ∃ k < M, dist i j < rb i j * (k + 1) ∧ (∀ m < k, rb i j * (m + 1) ≤ dist i j) ∧
      (shells rb M (dist, fun _ _ => 0)).2 i j = (k : K) + 1 ∧
      (shells rb M (dist, fun _ _ => 0)).1 i j = dist i j + ((k : K) + 1) * 10000 := by
  induction M with
  | zero => exact Or.inl ⟨rfl, rfl, by simp⟩
  | succ M ih =>
    have hM' : M ≤ N := by omega
    simp only [shells, iter, resEntry_eq]
    rcases ih hM' with ⟨h1, h2, h3⟩ | ⟨k, hk, h1, h2, h3, h4⟩
    · rw [h1, h2]
      by_cases hlt : dist i j < rb i j * (M + 1)
      · refine Or.inr ⟨M, by omega, hlt, h3, ?_, ?_⟩ <;> simp [hlt]
      · refine Or.inl ⟨by simp [hlt], by simp [hlt], ?_⟩
        intro m hm
        rcases Nat.lt_succ_iff_lt_or_eq.1 hm with h | rfl
        · exact h3 m h
        · exact not_lt.1 hlt
    · refine Or.inr ⟨k, by omega, h1, h2, ?_⟩
      have hk0 : (0 : K) ≤ k := Nat.cast_nonneg k
      have hbig : ¬ (shells rb M (dist, fun _ _ => 0)).1 i j < rb i j * (M + 1) := by
        rw [h4, not_lt]
        have hb : rb i j * ((M : K) + 1) ≤ 10000 := by
          rcases le_total 0 (rb i j) with hp | hp
          · refine le_trans (mul_le_mul_of_nonneg_left ?_ hp) hN
            exact_mod_cast hM
          · have : rb i j * ((M : K) + 1) ≤ 0 := mul_nonpos_of_nonpos_of_nonneg hp (by positivity)
            linarith
        nlinarith
      rw [if_neg hbig]
      simp only [add_zero, zero_mul]
      exact ⟨h3, h4⟩

/-- C136 (partial: the shells reach no further than 10000, the constant by which used distances are moved away): the
entry for two different atoms is the number of the first of the requested shells that contains their distance, where
shell `k` ends at `k` times the sum of radii and buffer; it is 0 iff no requested shell does. -/
theorem C136_partial (radius : ℕ → K) (dx : Option (ℕ → Option K)) (z : Fin n → ℕ) (dist : Mat n K) (N : ℕ)
    (c : Mat n K) (h : neighborlist radius dx z dist N = .ok c) (i j : Fin n) (hij : i ≠ j) (hd : 0 ≤ dist i j)
    (bi bj S : K) (hbi : (dx.getD (defaultDx radius)) (z i) = some bi)
    (hbj : (dx.getD (defaultDx radius)) (z j) = some bj) (hS : S = radius (z i) + radius (z j) + (bj + bi / 2))
    (hN : S * N ≤ 10000) :
    (∀ k : ℕ, c i j = k + 1 ↔ k < N ∧ dist i j < S * (k + 1) ∧ ∀ m < k, S * ((m : K) + 1) ≤ dist i j) ∧
    (c i j = 0 ↔ ∀ m < N, S * ((m : K) + 1) ≤ dist i j) := by
  obtain ⟨b, hbuf, rfl⟩ := neighborlist_ok h
  have hSe : reachMatrix radius z b i j = S := by
    have h1 := buffers_ok hbuf i
    have h2 := buffers_ok hbuf j
    rw [hbi] at h1; rw [hbj] at h2
    simp only [Option.some.injEq] at h1 h2
    simp only [reachMatrix, radiusMatrix, bufferMatrix, hS, h1, h2]
    ring
  simp only [zeroDiag, if_neg hij]
  have hcast : ∀ k : ℕ, (k : K) + 1 ≠ 0 := fun k => by positivity
  rcases shells_number (reachMatrix radius z b) dist N i j hd (by rw [hSe]; exact hN) N le_rfl with
    ⟨_, h2, h3⟩ | ⟨k, hk, h1, h2, h3, _⟩
  · rw [hSe] at h3
    rw [h2]
    refine ⟨fun k => ⟨fun he => absurd he.symm (hcast k), ?_⟩, by simpa using h3⟩
    rintro ⟨hk, hlt, _⟩
    exact absurd hlt (not_lt.2 (h3 k hk))
  · rw [hSe] at h1 h2
    rw [h3]
    refine ⟨fun k' => ⟨?_, ?_⟩, fun he => absurd he (hcast k), fun hm => absurd h1 (not_lt.2 (hm k hk))⟩
    · intro he
      have : k = k' := by exact_mod_cast add_right_cancel he
      subst this
      exact ⟨hk, h1, h2⟩
    · rintro ⟨hk', hlt', hm'⟩
      rcases lt_trichotomy k k' with hl | rfl | hl
      · exact absurd h1 (not_lt.2 (hm' k hl))
      · rfl
      · exact absurd hlt' (not_lt.2 (h2 k' hl))

/-- Two atoms with radius 1 and default buffer at distance 3 are in the second shell. -/
example : ∃ c, neighborlist (fun z => (z : ℚ)) none ![1, 1] (fun i j => if i = j then 0 else 3) 3 = .ok c ∧
    c 0 1 = 2 := by
  refine ⟨_, rfl, ?_⟩
  decide +kernel

/-- C136 fails beyond that bound: with a user given buffer of 20000 two atoms at distance 1 are entered in the first
and again in the second shell, and get the sum 3. -/
theorem C136_violated : ∃ c, neighborlist (fun _ => (1 : ℚ)) (some fun _ => some 20000) ![1, 1]
    (fun i j => if i = j then 0 else 1) 2 = .ok c ∧ c 0 1 = 3 := by
  refine ⟨_, rfl, ?_⟩
  decide +kernel

/-! ## C137: `max_neighbor='full'` -/

theorem unconnected_eq_zero (c : Mat n K) : unconnected c = 0 ↔ ∀ i j, c i j ≠ 0 := by
  rw [unconnected, List.length_eq_zero_iff]
  simp [List.flatMap_eq_nil_iff, List.filter_eq_nil_iff]

theorem shells_pos (rb dist : Mat n K) (M : ℕ) (i j : Fin n) :
    0 ≤ (shells rb M (dist, fun _ _ => 0)).2 i j ∧
    ((shells rb M (dist, fun _ _ => 0)).2 i j = 0 → (shells rb M (dist, fun _ _ => 0)).1 i j = dist i j ∧
      ∀ m < M, rb i j * (m + 1) ≤ dist i j) := by
  induction M with
  | zero => simp [shells]
  | succ M ih =>
    obtain ⟨h0, h1⟩ := ih
    simp only [shells, iter, resEntry_eq]
    have hp : (0 : K) < (M : K) + 1 := by positivity
    by_cases hlt : (shells rb M (dist, fun _ _ => 0)).1 i j < rb i j * (M + 1)
    · simp only [if_pos hlt]
      exact ⟨by linarith, fun he => by linarith⟩
    · simp only [if_neg hlt, add_zero, zero_mul]
      refine ⟨h0, fun he => ?_⟩
      obtain ⟨h2, h3⟩ := h1 he
      refine ⟨h2, ?_⟩
      intro m hm
      rcases Nat.lt_succ_iff_lt_or_eq.1 hm with h | rfl
      · exact h3 m h
      · rw [h2] at hlt; exact not_lt.1 hlt

theorem full_spec (rb : Mat n K) (s : Mat n K × Mat n K) (fuel k M : ℕ) (hM : k < M) (hfuel : M ≤ k + fuel)
    (hconn : unconnected (shells rb M s).2 = 0) :
    ∃ N, k < N ∧ N ≤ M ∧ full rb fuel k (shells rb k s) = some (shells rb N s) ∧
      unconnected (shells rb N s).2 = 0 ∧ ∀ m, k < m → m < N → unconnected (shells rb m s).2 ≠ 0 := by
  induction fuel generalizing k with
  | zero => omega
  | succ fuel ih =>
    have hstep : iter rb k (shells rb k s) = shells rb (k + 1) s := rfl
    simp only [full, hstep]
    by_cases h0 : 0 < unconnected (shells rb (k + 1) s).2
    · rw [if_pos h0]
      have hne : k + 1 ≠ M := by
        rintro rfl
        omega
      obtain ⟨N, h1, h2, h3, h4, h5⟩ := ih (k + 1) (by omega) (by omega)
      refine ⟨N, by omega, h2, h3, h4, ?_⟩
      intro m hm hmN
      rcases Nat.lt_or_ge (k + 1) m with h | h
      · exact h5 m h hmN
      · have : m = k + 1 := by omega
        subst this
        omega
    · rw [if_neg h0]
      refine ⟨k + 1, by omega, by omega, rfl, by omega, ?_⟩
      intro m hm hmN
      omega

/-- C137: with `max_neighbor='full'` the loop ends, for every geometry and every element mixture with positive sums of
radii and buffers; the result is that of the call with the integer `N`, the smallest for which every pair of atoms
(and every atom with itself) has a shell; so every pair of different atoms gets a shell. -/
theorem C137_full (radius : ℕ → ℝ) (dx : Option (ℕ → Option ℝ)) (z : Fin n → ℕ) (dist : Mat n ℝ) (b : Fin n → ℝ)
    (hb : ∀ i, (dx.getD (defaultDx radius)) (z i) = some (b i))
    (hS : ∀ i j, 0 < radius (z i) + radius (z j) + (b j + b i / 2)) :
    ∃ fuel c, neighborlistFull radius dx z dist fuel = .ok (some c) ∧ (∀ i j, i ≠ j → 0 < c i j) ∧
      ∃ N, 1 ≤ N ∧ neighborlist radius dx z dist N = .ok c := by
  have hbuf : buffers (dx.getD (defaultDx radius)) z = .ok b := by
    simp [buffers, hb]
  set rb := reachMatrix radius z b with hrb
  have hpos : ∀ i j, 0 < rb i j := by
    intro i j
    have := hS i j
    simp only [hrb, reachMatrix, radiusMatrix, bufferMatrix]
    linarith
  obtain ⟨M, hM⟩ : ∃ M : ℕ, ∀ i j, dist i j < rb i j * ((M : ℝ) + 1) := by
    have h1 : ∀ p : Fin n × Fin n, ∃ M : ℕ, dist p.1 p.2 < rb p.1 p.2 * M := by
      intro p
      obtain ⟨M, hM⟩ := exists_nat_gt (dist p.1 p.2 / rb p.1 p.2)
      refine ⟨M, ?_⟩
      rw [div_lt_iff₀ (hpos _ _)] at hM
      linarith
    choose f hf using h1
    refine ⟨∑ p, f p, fun i j => lt_of_lt_of_le (hf (i, j)) ?_⟩
    refine mul_le_mul_of_nonneg_left ?_ (hpos i j).le
    have : f (i, j) ≤ ∑ p, f p := Finset.single_le_sum (f := f) (fun _ _ => Nat.zero_le _) (Finset.mem_univ _)
    have h2 : (f (i, j) : ℝ) ≤ ((∑ p, f p : ℕ) : ℝ) := by exact_mod_cast this
    linarith
  have hconn : unconnected (shells rb (M + 1) (dist, fun _ _ => 0)).2 = 0 := by
    rw [unconnected_eq_zero]
    intro i j h0
    have := ((shells_pos rb dist (M + 1) i j).2 h0).2 M (by omega)
    exact absurd (hM i j) (not_lt.2 this)
  obtain ⟨N, hN1, _, hfull, hc, _⟩ := full_spec rb (dist, fun _ _ => 0) (M + 1) 0 (M + 1) (by omega) (by omega) hconn
  have hfull' : full rb (M + 1) 0 (dist, fun _ _ => 0) = some (shells rb N (dist, fun _ _ => 0)) := hfull
  refine ⟨M + 1, zeroDiag (shells rb N (dist, fun _ _ => 0)).2, ?_, ?_, N, hN1, ?_⟩
  · simp only [neighborlistFull, hbuf, ← hrb, hfull', Option.map_some]
  · intro i j hij
    simp only [zeroDiag, if_neg hij]
    rw [unconnected_eq_zero] at hc
    exact lt_of_le_of_ne (shells_pos rb dist N i j).1 (Ne.symm (hc i j))
  · simp only [neighborlist, hbuf, ← hrb]

/-- Two atoms with default buffers. -/
example : ∀ i, ((none : Option (ℕ → Option ℝ)).getD (defaultDx fun _ => 1)) (![1, 2] i) = some ((fun _ => 1 / 5) i) := by
  intro i; simp [defaultDx]

/-! ## C60: `connection_matrix` -/

theorem inShell_symm (d r1 r2 dx : K) (num : ℕ) : inShell d r1 r2 dx num ↔ inShell d r2 r1 dx num := by
  simp only [inShell, add_comm r1 r2]

theorem mem_neighborlist (radius : ℕ → K) (z : Fin n → ℕ) (d : Mat n K) (dx : K) (num : ℕ) (i j : Fin n) :
    j ∈ getNeighborlist radius z d dx num i ↔ i ≠ j ∧ inShell (d i j) (radius (z i)) (radius (z j)) dx num := by
  simp [getNeighborlist]

theorem distance_symm (p q : Fin 3 → ℝ) : distance p q = distance q p := by
  simp only [distance]
  congr 1
  exact Finset.sum_congr rfl fun k _ => by ring

/-- C60: `connection_matrix` is symmetric with zero diagonal and entries 0 and 1, for every distance function that
is symmetric (as ASE's minimum image distance) and every buffer and shell. -/
theorem C60_symmetric (radius : ℕ → K) (z : Fin n → ℕ) (d : Mat n K) (hd : ∀ i j, d i j = d j i) (dx : K) (num : ℕ) :
    let c : Mat n K := connectionMatrix (getNeighborlist radius z d dx num)
    (∀ i j, c i j = c j i) ∧ (∀ i, c i i = 0) ∧ ∀ i j, c i j = 0 ∨ c i j = 1 := by
  refine ⟨?_, ?_, ?_⟩
  · intro i j
    simp only [connectionMatrix]
    refine if_congr ?_ rfl rfl
    rw [mem_neighborlist, mem_neighborlist, hd j i, inShell_symm, ne_comm]
  · intro i
    simp [connectionMatrix, mem_neighborlist]
  · intro i j
    simp only [connectionMatrix]
    split
    · exact Or.inr rfl
    · exact Or.inl rfl

/-- C60, non-periodic: for every geometry. -/
theorem C60_geometry (radius : ℕ → ℝ) (z : Fin n → ℕ) (p : Fin n → Fin 3 → ℝ) (dx : ℝ) (num : ℕ) :
    let c : Mat n ℝ := connectionMatrix (getNeighborlist radius z (fun i j => distance (p i) (p j)) dx num)
    (∀ i j, c i j = c j i) ∧ (∀ i, c i i = 0) ∧
    ∀ i j, i ≠ j → (c i j = 1 ↔
      (if num = 1 then 0 else ((num : ℝ) - 1) * (radius (z i) + radius (z j)) + dx) < distance (p i) (p j) ∧
      distance (p i) (p j) < num * (radius (z i) + radius (z j)) + dx) := by
  obtain ⟨h1, h2, _⟩ := C60_symmetric radius z (fun i j => distance (p i) (p j))
    (fun i j => distance_symm _ _) dx num
  refine ⟨h1, h2, ?_⟩
  intro i j hij
  simp only [connectionMatrix, mem_neighborlist, inShell, add_comm (radius (z j)), Int.cast_sub, Int.cast_one,
    Int.cast_natCast]
  split <;> simp_all

/-- C60: a pair of atoms is in at most one neighbour shell: for radii that are not negative, a pair that is connected
in shell `num` is not connected in any other shell, whatever the distances and the buffer. -/
theorem C60_shells (radius : ℕ → K) (hr : ∀ k, 0 ≤ radius k) (z : Fin n → ℕ) (d : Mat n K) (dx : K) (num num' : ℕ)
    (h1 : 1 ≤ num) (h1' : 1 ≤ num') (hne : num ≠ num') (i j : Fin n)
    (hc : (connectionMatrix (getNeighborlist radius z d dx num) i j : K) = 1) :
    (connectionMatrix (getNeighborlist radius z d dx num') i j : K) = 0 := by
  have key : ∀ a b : ℕ, 1 ≤ a → a < b → inShell (d i j) (radius (z i)) (radius (z j)) dx a →
      ¬ inShell (d i j) (radius (z i)) (radius (z j)) dx b := by
    intro a b ha hab h h'
    simp only [inShell] at h h'
    rw [if_neg (by omega : b ≠ 1)] at h'
    have hR : 0 ≤ radius (z j) + radius (z i) := add_nonneg (hr _) (hr _)
    have hle : (a : K) * (radius (z j) + radius (z i)) ≤ (((b : ℤ) - 1 : ℤ) : K) * (radius (z j) + radius (z i)) := by
      refine mul_le_mul_of_nonneg_right ?_ hR
      have : (a : ℤ) ≤ (b : ℤ) - 1 := by omega
      exact_mod_cast this
    linarith [h.2, h'.1]
  simp only [connectionMatrix, mem_neighborlist] at hc ⊢
  split at hc
  · rename_i hm
    rw [if_neg]
    rintro ⟨_, hm'⟩
    rcases Nat.lt_or_gt_of_ne hne with h | h
    · exact key num num' h1 h hm.2 hm'
    · exact key num' num h1' h hm' hm.2
  · simp at hc

/-- Two atoms in the second shell, not in the first. -/
example : (connectionMatrix (getNeighborlist (fun _ => (1 : ℚ)) ![1, 1] (fun i j => if i = j then 0 else 3) (1 / 5) 2)
    0 1 : ℚ) = 1 := by decide +kernel

/-! ## C138: `connection_dict` -/

theorem foldl_max_ge (l : List ℕ) (a : ℕ) : a ≤ l.foldl max a ∧ ∀ x ∈ l, x ≤ l.foldl max a := by
  induction l generalizing a with
  | nil => simp
  | cons y l ih =>
    obtain ⟨h1, h2⟩ := ih (max a y)
    refine ⟨le_trans (le_max_left _ _) h1, ?_⟩
    intro x hx
    rcases List.mem_cons.1 hx with rfl | hx
    · exact le_trans (le_max_right _ _) h1
    · exact h2 x hx

/-- C138 (partial: the first shell; every atom has a neighbour): `connection_dict` has one entry per atom, in order;
all entries have the same length, and each consists of the neighbours of the atom followed by -1s. -/
theorem C138_partial (radius : ℕ → K) (z : Fin n → ℕ) (d : Mat n K) (dx : K) (hn : 0 < n)
    (hall : ∀ i, ∃ j, i ≠ j ∧ inShell (d i j) (radius (z i)) (radius (z j)) dx 1) :
    ∃ (m : ℕ) (l : Fin n → List ℤ), connectionDict radius z d dx 1 = .ok ((List.finRange n).map fun i => (i, l i)) ∧
      ∀ i, (l i).length = m ∧ ∃ nb : List (Fin n), nb.Nodup ∧
        (∀ j, j ∈ nb ↔ i ≠ j ∧ inShell (d i j) (radius (z i)) (radius (z j)) dx 1) ∧
        ∃ r, l i = asInts nb ++ List.replicate r (-1) := by
  have hne : ∀ i, getNeighborlist radius z d dx 1 i ≠ [] := by
    intro i h0
    obtain ⟨j, hj⟩ := hall i
    have := (mem_neighborlist radius z d dx 1 i j).2 hj
    rw [h0] at this
    cases this
  have hkeys : (List.finRange n).filter (fun i => getNeighborlist radius z d dx 1 i ≠ []) = List.finRange n := by
    rw [List.filter_eq_self]
    intro i _
    simpa using hne i
  have hnil : List.finRange n ≠ [] := by
    intro h0
    have := List.length_finRange (n := n)
    rw [h0] at this
    simp at this
    omega
  set m := ((List.finRange n).map fun i => (getNeighborlist radius z d dx 1 i).length).foldl max 0 with hm
  refine ⟨m, fun i => asInts (getNeighborlist radius z d dx 1 i) ++
    List.replicate (m - (getNeighborlist radius z d dx 1 i).length) (-1), ?_, ?_⟩
  · simp only [connectionDict, hkeys, if_neg hnil, ← hm]
  · intro i
    refine ⟨?_, getNeighborlist radius z d dx 1 i, (List.nodup_finRange n).filter _, fun j => mem_neighborlist _ _ _ _ _ _ _,
      _, rfl⟩
    have := (foldl_max_ge ((List.finRange n).map fun i => (getNeighborlist radius z d dx 1 i).length) 0).2
      (getNeighborlist radius z d dx 1 i).length (List.mem_map.2 ⟨i, List.mem_finRange i, rfl⟩)
    simp only [asInts, List.length_append, List.length_map, List.length_replicate]
    omega

example : ∀ i : Fin 2, ∃ j, i ≠ j ∧
    inShell ((fun i j => if i = j then 0 else (2 : ℚ)) i j) 1 1 (1 / 5) 1 := by
  intro i
  fin_cases i
  · exact ⟨1, by decide, by decide +kernel⟩
  · exact ⟨0, by decide, by decide +kernel⟩

/-- C138 fails: an atom without neighbours is missing in the dictionary, and if no atom has a neighbour the call
raises. -/
theorem C138_isolated_violated :
    connectionDict (fun _ => (1 : ℚ)) ![1, 1, 1] (fun i j => if i = j then 0 else if i = 2 ∨ j = 2 then 9 else 2) (1 / 5) 1
      = .ok [(0, [1]), (1, [0])] ∧
    connectionDict (fun _ => (1 : ℚ)) ![1, 1] (fun i j => if i = j then 0 else 9) (1 / 5) 1 = .error .value := by
  constructor <;> decide +kernel

/-- C138 fails: the shell number is ignored.  For every structure the result for any shell is that of the first, for
instance where no pair is in the second shell. -/
theorem C138_shell_violated :
    (∀ (n : ℕ) (radius : ℕ → ℚ) (z : Fin n → ℕ) (d : Mat n ℚ) (dx : ℚ) (num : ℕ),
      connectionDict radius z d dx num = connectionDict radius z d dx 1) ∧
    (connectionDict (fun _ => (1 : ℚ)) ![1, 1] (fun i j => if i = j then 0 else 2) (1 / 5) 2 = .ok [(0, [1]), (1, [0])] ∧
     ∀ i j : Fin 2, (connectionMatrix (getNeighborlist (fun _ => (1 : ℚ)) ![1, 1] (fun i j => if i = j then 0 else 2)
      (1 / 5) 2) i j : ℚ) = 0) := by
  refine ⟨fun _ _ _ _ _ _ => rfl, ?_, ?_⟩ <;> decide +kernel

/-! ## C139: level two of `neighbor_features` -/

/-- Number of bonds between atoms of two elements, as ordered pairs (first atom of element `e`, second of `f`). -/
def bonds (z : Fin n → ℕ) (c : Mat n K) (e f : ℕ) : K :=
  ∑ i, ∑ j, if z i = e ∧ z j = f then c i j else 0

/-- C139 (partial: for two different elements of a structure made of these two only): the pair entry of level two is
the number of bonds between them. -/
theorem C139_partial (z : Fin n → ℕ) (c : Mat n K) (e f : ℕ) (hef : e ≠ f) (hz : ∀ i, z i = e ∨ z i = f) :
    levelTwoPair z c e f = bonds z c e f := by
  simp only [levelTwoPair, bonds, heteroMatrix]
  refine Finset.sum_congr rfl fun i _ => Finset.sum_congr rfl fun j _ => ?_
  rcases hz i with hi | hi <;> rcases hz j with hj | hj <;> simp [hi, hj, hef, hef.symm]

example : ∀ i : Fin 3, (![1, 8, 1] : Fin 3 → ℕ) i = 8 ∨ (![1, 8, 1] : Fin 3 → ℕ) i = 1 := by decide

/-- C139 fails: with three elements the pair entry counts the bonds to all other elements. -/
theorem C139_pair_violated : ∃ (z : Fin 3 → ℕ) (c : Mat 3 ℚ), (∀ i j, c i j = c j i) ∧
    levelTwoPair z c 6 1 = 2 ∧ bonds z c 6 1 = 1 := by
  refine ⟨![1, 6, 8], ![![0, 1, 0], ![1, 0, 1], ![0, 1, 0]], ?_, ?_, ?_⟩ <;> decide +kernel

/-- C139 fails: the entry for bonds within an element is, for every structure, the sum of the coordination numbers of
its atoms, which is the entry of level one once more. -/
theorem C139_same_violated (z : Fin n → ℕ) (c : Mat n K) (hc : ∀ i j, c i j = c j i) (e : ℕ) :
    levelTwo z c e = levelOne z c e := by
  simp only [levelTwo, levelOne]
  rw [Finset.sum_comm]
  refine Finset.sum_congr rfl fun i _ => ?_
  rw [Finset.sum_mul]
  refine Finset.sum_congr rfl fun j _ => ?_
  rw [hc i j, mul_comm]

/-- ... so that carbon monoxide has a C-C bond. -/
theorem C139_monoxide_violated :
    levelTwo ![6, 8] (![![0, 1], ![1, 0]] : Mat 2 ℚ) 6 = 1 ∧ bonds ![6, 8] (![![0, 1], ![1, 0]] : Mat 2 ℚ) 6 6 = 0 := by
  constructor <;> decide +kernel

/-! ## C140: generalised coordination numbers -/

/-- Coordination number. -/
def coordination (c : Mat n K) (i : Fin n) : K := ∑ j, c i j

/-- C140 (partial: all neighbours of the atom have the same coordination number as the atom): the value is the sum of
the coordination numbers of the neighbours over 12. -/
theorem C140_partial (c : Mat n K) (i : Fin n) (h : ∀ j, c i j ≠ 0 → coordination c j = coordination c i) :
    generalized c i = (∑ j, if c i j ≠ 0 then coordination c j else 0) / 12 := by
  simp only [generalized]
  congr 1
  refine Finset.sum_congr rfl fun j _ => ?_
  by_cases h0 : c i j ≠ 0
  · rw [if_pos h0, if_pos h0, h j h0]; rfl
  · rw [if_neg h0, if_neg h0]

example : ∀ j, (![![0, 1], ![1, 0]] : Mat 2 ℚ) 0 j ≠ 0 →
    coordination (![![0, 1], ![1, 0]] : Mat 2 ℚ) j = coordination (![![0, 1], ![1, 0]] : Mat 2 ℚ) 0 := by
  decide +kernel

/-- C140 fails in general: for every binary matrix the value is the square of the coordination number of the atom
itself over 12, independent of the coordination of its neighbours. -/
theorem C140_square_violated (c : Mat n K) (hc : ∀ i j, c i j = 0 ∨ c i j = 1) (i : Fin n) :
    generalized c i = coordination c i ^ 2 / 12 := by
  simp only [generalized, coordination]
  congr 1
  rw [sq, Finset.sum_mul]
  refine Finset.sum_congr rfl fun j _ => ?_
  rcases hc i j with h | h <;> simp [h]

/-- The outer atom of a chain of three has the neighbour with coordination 2, but gets 1/12. -/
theorem C140_violated : ∃ c : Mat 3 ℚ, (∀ i j, c i j = c j i) ∧ (∀ i j, c i j = 0 ∨ c i j = 1) ∧
    generalized c 0 = 1 / 12 ∧ (∑ j, if c 0 j ≠ 0 then coordination c j else 0) / 12 = 2 / 12 := by
  refine ⟨![![0, 1, 0], ![1, 0, 1], ![0, 1, 0]], ?_, ?_, ?_, ?_⟩ <;> decide +kernel

/-- C140, level three of the fingerprint (`_partial`: if every atom of the element only has neighbours with its own coordination
number): the sum of the generalised coordination numbers of the atoms of the element. -/
theorem C140_level_partial (z : Fin n → ℕ) (c : Mat n K) (e : ℕ)
    (h : ∀ i j, z i = e → c i j ≠ 0 → coordination c j = coordination c i) :
    levelThree z c e = ∑ i, if z i = e then (∑ j, if c i j ≠ 0 then coordination c j else 0) / 12 else 0 := by
  unfold levelThree
  refine Finset.sum_congr rfl fun i _ => ?_
  by_cases hz : z i = e
  · rw [if_pos hz, C140_partial c i fun j hj => h i j hz hj]
    simp [elementList, hz]
  · rw [if_neg hz]
    simp [elementList, hz]

/-- C140, level three: for 0-1 matrices it is the sum of the squares of the coordination numbers over 12. -/
theorem C140_level_violated (z : Fin n → ℕ) (c : Mat n K) (hc : ∀ i j, c i j = 0 ∨ c i j = 1) (e : ℕ) :
    levelThree z c e = ∑ i, if z i = e then coordination c i ^ 2 / 12 else 0 := by
  unfold levelThree
  refine Finset.sum_congr rfl fun i _ => ?_
  rw [C140_square_violated c hc i]
  by_cases hz : z i = e <;> simp [elementList, hz]

/-! ## C141: `ase_connectivity` -/

theorem distance_shift (p q v : Fin 3 → ℝ) : distance (fun k => p k + v k) (fun k => q k + v k) = distance p q := by
  simp only [distance]
  congr 1
  exact Finset.sum_congr rfl fun k _ => by ring

theorem distance_comm (p q : Fin 3 → ℝ) : distance p q = distance q p := by
  simp only [distance]
  congr 1
  exact Finset.sum_congr rfl fun k _ => by ring

theorem listed_symm (s : Crystal n) (c : Fin n → ℝ) (i j : Fin n) (o : Fin 3 → ℤ) (h : listed s c i j o) :
    listed s c j i (-o) := by
  obtain ⟨h1, h2, h3⟩ := h
  refine ⟨fun l hl => by simp [h1 l hl], ?_, ?_⟩
  · rintro ⟨rfl, ho⟩
    exact h2 ⟨rfl, neg_eq_zero.mp ho⟩
  · rw [add_comm (c j), distance_comm]
    rw [← distance_shift _ _ fun k => ∑ l, (o l : ℝ) * s.cell l k]
    have e1 : (fun k => s.pos j k + ∑ l, (o l : ℝ) * s.cell l k) = s.image j o := rfl
    have e2 : (fun k => s.image i (-o) k + ∑ l, (o l : ℝ) * s.cell l k) = s.pos i := by
      funext k
      simp [Crystal.image]
    rw [e1, e2]
    exact h3

theorem listedMatrix_congr (s s' : Crystal n) (c c' : Fin n → ℝ) (i j i' j' : Fin n)
    (h : (∃ o, listed s c i j o) ↔ ∃ o, listed s' c' i' j' o) : listedMatrix s c i j = listedMatrix s' c' i' j' := by
  simp only [listedMatrix]
  by_cases hx : ∃ o, listed s c i j o
  · rw [if_pos hx, if_pos (h.mp hx)]
  · rw [if_neg hx, if_neg fun hy => hx (h.mpr hy)]

theorem getD_at (c : List ℝ) (i : ℕ) (h : i < c.length) : c.getD i 0 = c[i] := by
  simp [List.getD, h]

theorem listedMatrix_one (s : Crystal n) (c : Fin n → ℝ) (i j : Fin n) :
    listedMatrix s c i j = 1 ↔ ∃ o, listed s c i j o := by
  simp only [listedMatrix]
  split <;> simp_all

theorem listedMatrix_zero (s : Crystal n) (c : Fin n → ℝ) (i j : Fin n) :
    listedMatrix s c i j = 0 ↔ ¬ ∃ o, listed s c i j o := by
  simp only [listedMatrix]
  split <;> simp_all

/-- C141 (partial: the atoms carry no neighbour list, cutoffs are given): `ase_connectivity` marks the pairs of atoms one of
which has a periodic image nearer to the other than the sum of their cutoffs; the matrix is symmetric. -/
theorem C141_partial (s : Crystal n) (c : List ℝ) (hc : c.length = n) :
    ∃ m, aseConnectivity false (some c) s = .ok m ∧ (∀ i j, m i j = m j i) ∧ (∀ i j, m i j = 0 ∨ m i j = 1) ∧
      ∀ (i j : Fin n) (hi : i.val < c.length) (hj : j.val < c.length),
        m i j = 1 ↔ ∃ o : Fin 3 → ℤ, (∀ l, s.pbc l = false → o l = 0) ∧ (i = j → o ≠ 0) ∧
          Real.sqrt (∑ k, (s.pos i k - (s.pos j k + ∑ l, (o l : ℝ) * s.cell l k)) ^ 2) < c[i.val] + c[j.val] := by
  refine ⟨listedMatrix s fun i => c.getD i 0, ?_, ?_, ?_, ?_⟩
  · simp [aseConnectivity, hc]
  · intro i j
    have : (∃ o, listed s (fun i => c.getD i 0) i j o) ↔ ∃ o, listed s (fun i => c.getD i 0) j i o :=
      ⟨fun ⟨o, h⟩ => ⟨-o, listed_symm s _ i j o h⟩, fun ⟨o, h⟩ => ⟨-o, listed_symm s _ j i o h⟩⟩
    exact listedMatrix_congr _ _ _ _ _ _ _ _ this
  · intro i j
    by_cases h : ∃ o, listed s (fun i => c.getD i 0) i j o
    · exact Or.inr ((listedMatrix_one _ _ _ _).mpr h)
    · exact Or.inl ((listedMatrix_zero _ _ _ _).mpr h)
  · intro i j hi hj
    rw [listedMatrix_one]
    simp only [listed, distance, Crystal.image, not_and, getD_at c _ hi, getD_at c _ hj, ne_eq]

/-- C141: a list of cutoffs of another length than the number of atoms is refused. -/
theorem C141_refused (s : Crystal n) (c : List ℝ) :
    (∃ m, aseConnectivity false (some c) s = .ok m) ↔ c.length = n := by
  by_cases h : c.length = n <;> simp [aseConnectivity, h]

/-- C141, the cell: shifting all atoms by one vector and any atom by whole periodic cells (wrapping the atoms into the cell)
changes nothing. -/
theorem C141_wrap (has : Bool) (c : Option (List ℝ)) (s : Crystal n) (v : Fin 3 → ℝ) (w : Fin n → Fin 3 → ℤ)
    (hw : ∀ i l, s.pbc l = false → w i l = 0) :
    aseConnectivity has c { s with pos := fun i k => s.pos i k + v k + ∑ l, (w i l : ℝ) * s.cell l k } =
      aseConnectivity has c s := by
  have key : ∀ c : Fin n → ℝ, listedMatrix { s with pos := fun i k => s.pos i k + v k + ∑ l, (w i l : ℝ) * s.cell l k } c =
      listedMatrix s c := by
    intro c
    have one : ∀ i j o, listed s c i j o ↔
        listed { s with pos := fun i k => s.pos i k + v k + ∑ l, (w i l : ℝ) * s.cell l k } c i j (o + w i - w j) := by
      intro i j o
      have hd : distance (fun k => s.pos i k + v k + ∑ l, (w i l : ℝ) * s.cell l k)
          (Crystal.image { s with pos := fun i k => s.pos i k + v k + ∑ l, (w i l : ℝ) * s.cell l k } j (o + w i - w j)) =
          distance (s.pos i) (s.image j o) := by
        rw [← distance_shift (s.pos i) (s.image j o) fun k => v k + ∑ l, (w i l : ℝ) * s.cell l k]
        congr 1
        · funext k; ring
        · funext k
          simp only [Crystal.image, Fin.sum_univ_three, Pi.add_apply, Pi.sub_apply]
          push_cast
          ring
      simp only [listed, hd]
      constructor
      · rintro ⟨h1, h2, h3⟩
        refine ⟨fun l hl => by simp [h1 l hl, hw i l hl, hw j l hl], ?_, h3⟩
        rintro ⟨rfl, ho⟩
        exact h2 ⟨rfl, by simpa using ho⟩
      · rintro ⟨h1, h2, h3⟩
        refine ⟨fun l hl => ?_, ?_, h3⟩
        · have := h1 l hl
          simpa [hw i l hl, hw j l hl] using this
        · rintro ⟨rfl, rfl⟩
          exact h2 ⟨rfl, by simp⟩
    funext i j
    have : (∃ o, listed { s with pos := fun i k => s.pos i k + v k + ∑ l, (w i l : ℝ) * s.cell l k } c i j o) ↔
        ∃ o, listed s c i j o :=
      ⟨fun ⟨o, h⟩ => ⟨o - w i + w j, (one i j _).mpr (by convert h using 1; abel)⟩, fun ⟨o, h⟩ => ⟨_, (one i j o).mp h⟩⟩
    exact listedMatrix_congr _ _ _ _ _ _ _ _ this
  cases c with
  | none => rfl
  | some c => simp only [aseConnectivity, key]

/-- C141, the cutoffs: larger cutoffs never remove a connection. -/
theorem C141_cutoffs (s : Crystal n) (c c' : List ℝ) (m m' : Mat n ℤ) (hle : List.Forall₂ (· ≤ ·) c c')
    (h : aseConnectivity false (some c) s = .ok m) (h' : aseConnectivity false (some c') s = .ok m') (i j : Fin n) :
    m i j ≤ m' i j := by
  have hl : c.length = c'.length := hle.length_eq
  by_cases hc : c.length = n
  swap
  · simp [aseConnectivity, hc] at h
  have hc' : c'.length = n := hl ▸ hc
  simp only [aseConnectivity, hc, hc', ne_eq, not_true_eq_false, if_false, Except.ok.injEq, Bool.false_eq_true] at h h'
  subst h h'
  have hge : ∀ i : Fin n, c.getD i 0 ≤ c'.getD i 0 := by
    intro i
    have h1 : i.val < c.length := by omega
    have h2 : i.val < c'.length := by omega
    rw [getD_at c _ h1, getD_at c' _ h2]
    exact (List.forall₂_iff_get.mp hle).2 i.val h1 h2
  by_cases hx : ∃ o, listed s (fun i => c.getD i 0) i j o
  · obtain ⟨o, ho1, ho2, ho3⟩ := hx
    have h1 : listedMatrix s (fun i => c'.getD i 0) i j = 1 :=
      (listedMatrix_one _ _ _ _).mpr ⟨o, ho1, ho2, by have := hge i; have := hge j; linarith⟩
    rw [h1]
    simp only [listedMatrix]
    split <;> simp
  · rw [(listedMatrix_zero _ _ _ _).mpr hx]
    simp only [listedMatrix]
    split <;> simp

/-- C141 fails: for atoms with a stored neighbour list, which the documentation says is used, the call raises
UnboundLocalError. -/
theorem C141_violated (c : Option (List ℝ)) (s : Crystal n) : aseConnectivity true c s = .error .name := rfl

/-- C141 fails: the documented default of no cutoffs is a TypeError, whatever the structure. -/
theorem C141_no_cutoffs_violated (s : Crystal n) : aseConnectivity false none s = .error .type := rfl

/-- C141 fails: "multiple connections are counted" is not true: two atoms connected through several images have the entry 1,
less than the number of their connections. -/
theorem C141_multiple_violated (s : Crystal n) (c : Fin n → ℝ) (i j : Fin n) (conn : Finset (Fin 3 → ℤ)) (h2 : 2 ≤ conn.card)
    (hc : ∀ o ∈ conn, (∀ l, s.pbc l = false → o l = 0) ∧ (i = j → o ≠ 0) ∧
      distance (s.pos i) (s.image j o) < c i + c j) :
    ∃ m, aseConnectivity false (some (List.ofFn c)) s = .ok m ∧ m i j = 1 ∧ m i j < conn.card := by
  have hne : conn.Nonempty := Finset.card_pos.mp (by omega)
  obtain ⟨o, ho⟩ := hne
  have hl : listedMatrix s (fun i => (List.ofFn c).getD i 0) i j = 1 := by
    rw [listedMatrix_one]
    refine ⟨o, (hc o ho).1, fun h => (hc o ho).2.1 h.1 h.2, ?_⟩
    simpa using (hc o ho).2.2
  refine ⟨_, by simp [aseConnectivity], hl, ?_⟩
  rw [hl]
  exact_mod_cast h2

/-- One atom in a periodic chain touches its two images; the hypotheses of C141_multiple_violated can be met. -/
example : ∃ (s : Crystal 1) (c : Fin 1 → ℝ) (conn : Finset (Fin 3 → ℤ)), 2 ≤ conn.card ∧
    ∀ o ∈ conn, (∀ l, s.pbc l = false → o l = 0) ∧ ((0 : Fin 1) = 0 → o ≠ 0) ∧
      distance (s.pos 0) (s.image 0 o) < c 0 + c 0 := by
  refine ⟨⟨fun _ _ => 0, fun l k => if l = 0 ∧ k = 0 then 1 else 0, fun l => decide (l = 0)⟩, fun _ => 1,
    {![1, 0, 0], ![-1, 0, 0]}, ?_, ?_⟩
  · rw [Finset.card_pair]
    intro h
    have := congrFun h 0
    simp at this
  · intro o ho
    have h2 : Real.sqrt 1 < 1 + 1 := by rw [Real.sqrt_one]; norm_num
    rcases Finset.mem_insert.mp ho with rfl | ho
    · refine ⟨?_, ?_, ?_⟩
      · intro l hl; fin_cases l <;> simp_all
      · intro _ h; have := congrFun h 0; simp at this
      · simp [distance, Crystal.image, Fin.sum_univ_three]
    · rw [Finset.mem_singleton] at ho
      subst ho
      refine ⟨?_, ?_, ?_⟩
      · intro l hl; fin_cases l <;> simp_all
      · intro _ h; have := congrFun h 0; simp at this
      · simp [distance, Crystal.image, Fin.sum_univ_three]

end CatLearn.Nb
