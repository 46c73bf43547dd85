import Verif.Model.FeatureGARun
import Verif.Props.FeatureGA

/-!
C251: the recorded history of `GAFeatureSelection` describes the populations it went through, over any number of calls of `evolve`.
-/

namespace CatLearn.FeatureGA

open CatLearn

/-- The populations of a run, without recording anything. -/
private theorem evolve_shift {score : List ℕ → ℚ} {m N n T : ℕ} {r : ℕ → Rng} (k : ℕ) {pop pop' : List Ind}
    (h : generation score m N n T (r 0) pop = .ok pop') :
    evolve score m N n T r (k + 1) pop = evolve score m N n T (fun i => r (i + 1)) k pop' := by
  induction k with
  | zero => simp only [evolve, h]
  | succ k ih =>
    rw [evolve, ih]
    conv_rhs => rw [evolve]

/-- The loop started at generation `i` records what the loop started at zero records, with the numbers shifted. -/
private theorem loop_spec {α : Type} (names : List α) (score : List ℕ → ℚ) (m N n : ℕ) (k : ℕ) :
    ∀ (r : ℕ → Rng) (i : ℕ) (pop : List Ind) (rows : List Row) (freqs : List (List (α × ℚ))) (p : List Ind) (rs : List Row)
      (fs : List (List (α × ℚ))), evolveLoop names score m N n r k i pop rows freqs = .ok (p, rs, fs) →
      evolve score m N n names.length (fun j => r (i + j)) k pop = .ok p ∧
      ∃ rs' fs', rs = rows ++ rs' ∧ fs = freqs ++ fs' ∧ rs'.length = k ∧ fs'.length = k ∧
        ∀ j, j < k → ∃ q row f, evolve score m N n names.length (fun j => r (i + j)) j pop = .ok q ∧
          record names (i + j) q = .ok (row, f) ∧ rs'[j]? = some row ∧ fs'[j]? = some f := by
  induction k with
  | zero =>
    intro r i pop rows freqs p rs fs h
    simp only [evolveLoop, Except.ok.injEq, Prod.mk.injEq] at h
    obtain ⟨rfl, rfl, rfl⟩ := h
    exact ⟨rfl, [], [], by simp, by simp, rfl, rfl, by simp⟩
  | succ k ih =>
    intro r i pop rows freqs p rs fs h
    rw [evolveLoop] at h
    split at h
    · cases h
    · rename_i row f hrec
      split at h
      · cases h
      · rename_i pop' hgen
        obtain ⟨h1, rs', fs', rfl, rfl, hl, hl', h2⟩ := ih r (i + 1) pop' _ _ p rs fs h
        have hsh : (fun j => r (i + 1 + j)) = fun j => (fun j => r (i + j)) (j + 1) := by
          funext j
          simp only
          congr 1
          omega
        refine ⟨?_, row :: rs', f :: fs', by simp, by simp, by simp [hl], by simp [hl'], ?_⟩
        · rw [evolve_shift (r := fun j => r (i + j)) k (by simpa using hgen), ← hsh]
          exact h1
        · intro j hj
          cases j with
          | zero => exact ⟨pop, row, f, rfl, by simpa using hrec, rfl, rfl⟩
          | succ j =>
            obtain ⟨q, row', f', e1, e2, e3, e4⟩ := h2 j (by omega)
            refine ⟨q, row', f', ?_, ?_, by simpa using e3, by simpa using e4⟩
            · rw [evolve_shift (r := fun j => r (i + j)) j (by simpa using hgen), ← hsh]
              exact e1
            · rw [← e2]
              congr 1
              omega

private theorem record_inv {α : Type} {names : List α} {i : ℕ} {q : List Ind} {row : Row} {f : List (α × ℚ)}
    (h : record names i q = .ok (row, f)) :
    row.generation = i ∧ maxFitness q = some row.max ∧ row.mean = (q.map Ind.score).sum / (q.length : ℕ) ∧ row.mean ≤ row.max ∧
      row.homogeneity = 1 - (((q.map Ind.genes).flatten.dedup.length : ℕ) : ℚ) / names.length ∧ f = featureFrequencies names q := by
  unfold record at h
  split at h
  · cases h
  · split at h
    · rename_i a b ha hb
      simp only [Except.ok.injEq, Prod.mk.injEq] at h
      obtain ⟨rfl, rfl⟩ := h
      unfold meanFitness at hb
      split at hb
      · cases hb
      · rename_i hne
        injection hb with hb
        refine ⟨rfl, ha, hb.symm, ?_, rfl, rfl⟩
        show b ≤ a
        have hlen : (0 : ℚ) < (q.length : ℕ) := by
          exact_mod_cast List.length_pos_iff.mpr hne
        rw [← hb, div_le_iff₀ hlen]
        have hmax : ∀ x ∈ q.map Ind.score, x ≤ a := by
          unfold maxFitness at ha
          exact (List.max?_eq_some_iff.mp ha).2
        have := List.sum_le_card_nsmul _ _ hmax
        rw [nsmul_eq_mul, List.length_map] at this
        rw [mul_comm]
        exact this
    · cases h

/-- C251, rows.  The table that `evolve` returns has one row per generation; row `j` is numbered `j` and holds maximum, mean (never above
the maximum) and homogeneity of the population before generation `j`, and the recorded frequencies are those of the same population.  The
population left behind is that of the last generation. -/
theorem C251_rows {α : Type} (names : List α) (score : List ℕ → ℚ) (m N n : ℕ) (r : ℕ → Rng) (k : ℕ) (s s' : Run α)
    (rows : List Row) (h : evolveCall names score m N n r k s = .ok (s', rows)) :
    rows.length = k ∧ evolve score m N n names.length r k s.pop = .ok s'.pop ∧ s'.freqs.length = s.freqs.length + k ∧
      (∀ (j : ℕ) f, s.freqs[j]? = some f → s'.freqs[j]? = some f) ∧
      ∀ (j : ℕ) (row : Row), rows[j]? = some row → ∃ q, evolve score m N n names.length r j s.pop = .ok q ∧ row.generation = j ∧
        maxFitness q = some row.max ∧ row.mean = (q.map Ind.score).sum / (q.length : ℕ) ∧ row.mean ≤ row.max ∧
        row.homogeneity = 1 - (((q.map Ind.genes).flatten.dedup.length : ℕ) : ℚ) / names.length ∧
        s'.freqs[s.freqs.length + j]? = some (featureFrequencies names q) := by
  unfold evolveCall at h
  split at h
  · cases h
  · rename_i pop evolution freqs hl
    simp only [Except.ok.injEq, Prod.mk.injEq] at h
    obtain ⟨rfl, rfl⟩ := h
    obtain ⟨h1, rs', fs', e1, e2, l1, l2, h2⟩ := loop_spec names score m N n k r 0 s.pop [] s.freqs pop _ _ hl
    simp only [Nat.zero_add, List.nil_append] at h1 e1 h2
    subst e1 e2
    refine ⟨l1, h1, by simp [l2], ?_, ?_⟩
    · intro j f hj
      have hlt := (List.getElem?_eq_some_iff.mp hj).1
      simp only
      rw [List.getElem?_append_left hlt, hj]
    · intro j row hj
      have hlt : j < k := by
        rw [← l1]
        exact (List.getElem?_eq_some_iff.mp hj).1
      obtain ⟨q, row', f, g1, g2, g3, g4⟩ := h2 j hlt
      rw [hj] at g3
      injection g3 with g3
      subst g3
      obtain ⟨a1, a2, a3, a4, a5, a6⟩ := record_inv g2
      refine ⟨q, g1, a1, a2, a3, a4, a5, ?_⟩
      simp only
      rw [List.getElem?_append_right (by omega), Nat.add_sub_cancel_left, g4, a6]

/-- The numbers in a history are the positions of its rows. -/
def Numbered (rows : List Row) : Prop := renumber rows = rows

private theorem renumber_append (a b : List Row) :
    renumber (a ++ b) = renumber a ++ b.mapIdx fun i x => { x with generation := a.length + i } := by
  unfold renumber
  rw [List.mapIdx_append]
  congr 1
  apply List.ext_getElem
  · simp
  · intro i h1 h2
    simp [Nat.add_comm]

private theorem rows_numbered {rows : List Row} (h : ∀ (j : ℕ) (row : Row), rows[j]? = some row → row.generation = j) : Numbered rows := by
  unfold Numbered renumber
  apply List.ext_getElem
  · simp
  · intro i h1 h2
    simp only [List.getElem_mapIdx]
    have := h i rows[i] (List.getElem?_eq_getElem h2)
    cases hr : rows[i]
    rw [hr] at this
    simp_all

/-- C251, history.  Over any number of calls the history is numbered from zero without gaps, keeps the earlier rows and gains the rows of
the last call. -/
theorem C251_history {α : Type} (names : List α) (score : List ℕ → ℚ) (m N n : ℕ) (r : ℕ → Rng) (k : ℕ) (s s' : Run α)
    (rows : List Row) (hs : ∀ h, s.history = some h → ∀ (j : ℕ) (row : Row), h[j]? = some row → row.generation = j)
    (h : evolveCall names score m N n r k s = .ok (s', rows)) :
    ∃ hist, s'.history = some hist ∧ hist.length = (s.history.getD []).length + k ∧
      (∀ (j : ℕ) (row : Row), hist[j]? = some row → row.generation = j) ∧
      (∀ (j : ℕ) (row : Row), (s.history.getD [])[j]? = some row → hist[j]? = some row) ∧
      ∀ (j : ℕ) (row : Row), rows[j]? = some row → hist[(s.history.getD []).length + j]? =
        some { row with generation := (s.history.getD []).length + j } := by
  obtain ⟨hlen, -, -, -, hrows⟩ := C251_rows names score m N n r k s s' rows h
  have hnum : ∀ (j : ℕ) (row : Row), rows[j]? = some row → row.generation = j := fun j row hj => (hrows j row hj).choose_spec.2.1
  unfold evolveCall at h
  split at h
  · cases h
  · simp only [Except.ok.injEq, Prod.mk.injEq] at h
    obtain ⟨rfl, rfl⟩ := h
    cases hh : s.history with
    | none =>
      refine ⟨_, by simp only [hh], by simp [hlen], hnum, by simp, ?_⟩
      intro j row hj
      have := hnum j row hj
      simp only [Option.getD_none, List.length_nil, Nat.zero_add, hj]
      cases row
      simp_all
    | some old =>
      have hold : renumber old = old := rows_numbered (hs old hh)
      refine ⟨_, by simp only [hh]; rfl, ?_, ?_, ?_, ?_⟩
      · simp [renumber, hlen]
      · intro j row hj
        unfold renumber at hj
        rw [List.getElem?_mapIdx] at hj
        obtain ⟨x, -, rfl⟩ := Option.map_eq_some_iff.mp hj
        rfl
      · intro j row hj
        simp only [Option.getD_some] at hj
        rw [renumber_append, hold, List.getElem?_append_left (List.getElem?_eq_some_iff.mp hj).1, hj]
      · intro j row hj
        simp only [Option.getD_some]
        rw [renumber_append, hold, List.getElem?_append_right (by omega), Nat.add_sub_cancel_left, List.getElem?_mapIdx, hj]
        rfl

private theorem loop_append {α : Type} (names : List α) (score : List ℕ → ℚ) (m N n : ℕ) (r : ℕ → Rng) (k k' : ℕ) :
    ∀ (i : ℕ) (pop : List Ind) (rows : List Row) (freqs : List (List (α × ℚ))),
      evolveLoop names score m N n r (k + k') i pop rows freqs =
        (evolveLoop names score m N n r k i pop rows freqs).bind
          fun p => evolveLoop names score m N n r k' (i + k) p.1 p.2.1 p.2.2 := by
  induction k with
  | zero =>
    intro i pop rows freqs
    simp [evolveLoop, Except.bind]
  | succ k ih =>
    intro i pop rows freqs
    rw [show k + 1 + k' = (k + k') + 1 by omega, evolveLoop, evolveLoop]
    cases record names i pop with
    | error e => rfl
    | ok x =>
      obtain ⟨row, f⟩ := x
      simp only
      cases generation score m N n names.length (r i) pop with
      | error e => rfl
      | ok pop' =>
        simp only
        rw [ih, show i + 1 + k = i + (k + 1) by omega]

/-- The rows are only moved by the number of the first generation. -/
private theorem loop_shift {α : Type} (names : List α) (score : List ℕ → ℚ) (m N n : ℕ) (k : ℕ) :
    ∀ (r : ℕ → Rng) (i a : ℕ) (pop : List Ind) (rows : List Row) (freqs : List (List (α × ℚ))),
      evolveLoop names score m N n r k (a + i) pop (rows.map fun x => { x with generation := a + x.generation }) freqs =
        (evolveLoop names score m N n (fun j => r (a + j)) k i pop rows freqs).map
          fun p => (p.1, p.2.1.map fun x => { x with generation := a + x.generation }, p.2.2) := by
  induction k with
  | zero =>
    intro r i a pop rows freqs
    simp [evolveLoop, Except.map]
  | succ k ih =>
    intro r i a pop rows freqs
    rw [evolveLoop, evolveLoop]
    have hrec : record names (a + i) pop
        = (record names i pop).map fun p => ({ p.1 with generation := a + p.1.generation }, p.2) := by
      unfold record
      split
      · rfl
      · cases maxFitness pop with
        | none => rfl
        | some x =>
          cases meanFitness pop with
          | none => rfl
          | some y =>
            rfl
    rw [hrec]
    cases record names i pop with
    | error e => rfl
    | ok x =>
      obtain ⟨row, f⟩ := x
      simp only [Except.map]
      cases generation score m N n names.length (r (a + i)) pop with
      | error e => rfl
      | ok pop' =>
        simp only
        have := ih r (i + 1) a pop' (rows ++ [row]) (freqs ++ [f])
        rw [List.map_append] at this
        exact this

private theorem renumber_congr {a b : List Row}
    (h : a.map (fun x : Row => { x with generation := 0 }) = b.map fun x : Row => { x with generation := 0 }) : renumber a = renumber b := by
  have key : ∀ l : List Row, renumber l = (l.map fun x : Row => { x with generation := 0 }).mapIdx
      fun i x => { x with generation := i } := by
    intro l
    unfold renumber
    apply List.ext_getElem
    · simp
    · intro i h1 h2
      simp
  rw [key a, key b, h]

private theorem renumber_erase (l : List Row) :
    (renumber l).map (fun x : Row => { x with generation := 0 }) = l.map fun x : Row => { x with generation := 0 } := by
  unfold renumber
  apply List.ext_getElem
  · simp
  · intro i h1 h2
    simp

/-- C251, continued.  Two calls of `evolve` leave the same population, history and frequencies as one call with all generations (the
random numbers going on where they were). -/
theorem C251_continued {α : Type} (names : List α) (score : List ℕ → ℚ) (m N n : ℕ) (r : ℕ → Rng) (k k' : ℕ) (s : Run α) :
    (evolveCall names score m N n r (k + k') s).map Prod.fst =
      (evolveCall names score m N n r k s).bind
        fun p => (evolveCall names score m N n (fun j => r (k + j)) k' p.1).map Prod.fst := by
  have hnum : ∀ (k : ℕ) p rows fs, evolveLoop names score m N n r k 0 s.pop [] s.freqs = .ok (p, rows, fs) → renumber rows = rows := by
    intro k p rows fs h
    obtain ⟨-, -, -, -, hrows⟩ := C251_rows names score m N n r k s ⟨p, some (match s.history with
      | none => rows
      | some h => renumber (h ++ rows)), fs⟩ rows (by unfold evolveCall; rw [h]; rfl)
    exact rows_numbered fun j row hj => (hrows j row hj).choose_spec.2.1
  have hall := loop_append names score m N n r k k' 0 s.pop [] s.freqs
  have hfull := hnum (k + k')
  rw [hall] at hfull
  unfold evolveCall
  rw [hall]
  cases h1 : evolveLoop names score m N n r k 0 s.pop [] s.freqs with
  | error e => rfl
  | ok x =>
    obtain ⟨pop, rows, freqs⟩ := x
    simp only [Except.bind, Nat.zero_add]
    rw [h1] at hfull
    simp only [Except.bind, Nat.zero_add] at hfull
    have hn1 := hnum k pop rows freqs h1
    -- the second part of the loop
    obtain ⟨rows', hrows', hsecond⟩ : ∃ f : List Row → List Row,
        (∀ l, (f l).map (fun x : Row => { x with generation := 0 }) = (rows ++ l).map fun x : Row => { x with generation := 0 }) ∧
        evolveLoop names score m N n r k' k pop rows freqs =
          (evolveLoop names score m N n (fun j => r (k + j)) k' 0 pop [] freqs).map fun p => (p.1, f p.2.1, p.2.2) := by
      refine ⟨fun l => rows ++ l.map fun x => { x with generation := k + x.generation }, ?_, ?_⟩
      · intro l
        simp [Function.comp_def]
      · have hpre : ∀ (k' i : ℕ) (pop : List Ind) (rows rows' : List Row) (freqs : List (List (α × ℚ))),
            evolveLoop names score m N n r k' i pop (rows ++ rows') freqs
              = (evolveLoop names score m N n r k' i pop rows' freqs).map fun p => (p.1, rows ++ p.2.1, p.2.2) := by
          intro k'
          induction k' with
          | zero => intros; rfl
          | succ k' ih =>
            intro i pop rows rows' freqs
            rw [evolveLoop, evolveLoop]
            cases record names i pop with
            | error e => rfl
            | ok x =>
              obtain ⟨row, f⟩ := x
              simp only
              cases generation score m N n names.length (r i) pop with
              | error e => rfl
              | ok pop' =>
                simp only
                rw [List.append_assoc, ih]
        have h2 := hpre k' k pop rows [] freqs
        rw [List.append_nil] at h2
        rw [h2]
        have h3 := loop_shift names score m N n k' r 0 k pop [] freqs
        simp only [Nat.add_zero, List.map_nil] at h3
        rw [h3]
        cases evolveLoop names score m N n (fun j => r (k + j)) k' 0 pop [] freqs <;> rfl
    rw [hsecond] at hfull ⊢
    cases h2 : evolveLoop names score m N n (fun j => r (k + j)) k' 0 pop [] freqs with
    | error e => rfl
    | ok y =>
      obtain ⟨pop2, rows2, freqs2⟩ := y
      rw [h2] at hfull
      simp only [Except.map] at hfull ⊢
      have hf := hfull pop2 (rows' rows2) freqs2 rfl
      cases hh : s.history with
      | none =>
        simp only
        rw [← hf]
        congr 3
        exact renumber_congr (hrows' rows2)
      | some old =>
        simp only
        congr 3
        apply renumber_congr
        rw [List.map_append, List.map_append, hrows', renumber_erase]
        simp

/-- A population, as at the beginning. -/
def demoRun : Run String := ⟨getFitness demoScore [[0], [1], [2], [3], [4]], none, []⟩

/-- Two generations are recorded. -/
example : ((evolveCall ["a", "b", "c", "d", "e"] demoScore 1 5 1 (fun _ => demoRng 0) 2 demoRun).toOption.map fun p =>
    (p.2.length, p.2.map Row.max)) = some (2, [6 / 10, 6 / 10]) := by decide +kernel

end CatLearn.FeatureGA
