import Verif.Props.Database

/-!
C133: the names of the columns.  C58: the keys of the parameters.
-/

namespace CatLearn.DB

open CatLearn

/-- The names an operation adds to an existing table. -/
def added {V : Type} : Op V → List String
  | .addColumns cs => cs
  | _ => []

private theorem exec_cols {V : Type} (t : Table V) (op : Op V) (s : Store V) (h : exec (some t) op = (s, none)) :
    ∃ t', s = some t' ∧ t'.cols = t.cols ++ added op := by
  cases op with
  | create names =>
    simp only [exec, create, Prod.mk.injEq, and_true] at h
    exact ⟨t, h.symm, by simp [added]⟩
  | addColumns cs =>
    have h2 : (addColumns cs (some t)).2 = none := by
      have := congrArg Prod.snd h
      simpa [exec] using this
    have h1 := (C133_partial t cs).2 h2
    have h3 := congrArg Prod.fst h
    simp only [exec] at h3
    rw [h1] at h3
    exact ⟨_, h3.symm, rfl⟩
  | fill names data =>
    simp only [exec, fill] at h
    split at h
    · simp only [Prod.mk.injEq] at h
      exact ⟨_, h.1.symm, by simp [added]⟩
    · simp at h
  | update d v id =>
    simp only [exec, update] at h
    split at h
    · simp only [Prod.mk.injEq, and_true] at h
      exact ⟨_, h.symm, by simp [added]⟩
    · simp at h

/-- C133: after any history of operations that succeed, beginning with `create_db`, `get_column_names` returns `uuid`, the
names given to the first `create_db` and the names given to `create_column`, in this order, and no name twice. -/
theorem C133_names {V : Type} (names : List String) (ops : List (Op V)) (s : Store V)
    (h : Runs none (.create names :: ops) s) :
    columnNames s = .ok ("uuid" :: (names ++ ops.flatMap added)) ∧ ("uuid" :: (names ++ ops.flatMap added)).Nodup := by
  have key : ∀ (ops : List (Op V)) (t : Table V) (s : Store V), ("uuid" :: t.cols).Nodup → Runs (some t) ops s →
      columnNames s = .ok ("uuid" :: (t.cols ++ ops.flatMap added)) ∧ ("uuid" :: (t.cols ++ ops.flatMap added)).Nodup := by
    intro ops
    induction ops with
    | nil =>
      intro t s hnd hr
      cases hr
      simpa [columnNames] using hnd
    | cons op ops ih =>
      intro t s hnd hr
      cases hr with
      | cons he hr =>
        obtain ⟨t', rfl, hc⟩ := exec_cols t op _ he
        have hnd' : ("uuid" :: t'.cols).Nodup := by
          rw [hc]
          cases op with
          | addColumns cs =>
            have h2 : (addColumns cs (some t)).2 = none := by
              have := congrArg Prod.snd he
              simpa [exec] using this
            obtain ⟨h3, h4⟩ := (C133_partial t cs).1.mp h2
            rw [show "uuid" :: (t.cols ++ added (Op.addColumns cs : Op V)) = ("uuid" :: t.cols) ++ cs from rfl,
              List.nodup_append]
            exact ⟨hnd, h3, fun a ha b hb e => h4 b hb (e ▸ ha)⟩
          | create _ => simpa [added] using hnd
          | fill _ _ => simpa [added] using hnd
          | update _ _ _ => simpa [added] using hnd
        obtain ⟨h1, h2⟩ := ih t' s hnd' hr
        rw [hc] at h1 h2
        simpa [List.append_assoc] using And.intro h1 h2
  cases h with
  | cons he hr =>
    simp only [exec, create] at he
    split at he
    · next hnd =>
      simp only [Prod.mk.injEq, and_true] at he
      subst he
      exact key ops ⟨names, []⟩ s hnd hr
    · simp at he

/-- C133: without a table the call raises. -/
theorem C133_names_missing {V : Type} : columnNames (none : Store V) = .error .other := rfl

example : ∃ s : Store ℤ, Runs none [.create ["a", "b"], .fill ["a", "b"] [("x", [1, 2])], .addColumns ["c"]] s :=
  ⟨_, .cons rfl (.cons rfl (.cons rfl (.nil _)))⟩

/-- C58: `get_parameters` succeeds exactly if every symbol is known, and then returns the keys under which
`fingerprint_entry` stores the values of these symbols, in the order of the call; different symbols have different keys,
and every key is that of a parameter in the table. -/
theorem C58_parameters {I V : Type} (db : FDB I V) (selection : List String) (hne : selection ≠ []) :
    ((∃ l, getParameters db selection = .ok l) ↔ ∀ s ∈ selection, s ∈ db.params) ∧
    ∀ l, getParameters db selection = .ok l →
      selection.map (fun s => resolve db (.symbol s)) = l.map .ok ∧ (selection.Nodup → l.Nodup) ∧
      ∀ p ∈ l, 1 ≤ p ∧ p ≤ db.params.length := by
  have hiff : selection.all (· ∈ db.params) = true ↔ ∀ s ∈ selection, s ∈ db.params := by simp
  unfold getParameters
  rw [if_neg hne]
  by_cases h : ∀ s ∈ selection, s ∈ db.params
  · rw [if_pos (hiff.mpr h)]
    refine ⟨⟨fun _ => h, fun _ => ⟨_, rfl⟩⟩, ?_⟩
    rintro l ⟨rfl⟩
    refine ⟨?_, ?_, ?_⟩
    · rw [List.map_map]
      apply List.map_congr_left
      intro s hs
      simp [resolve, h s hs]
    · intro hnd
      refine List.Nodup.map_on ?_ hnd
      intro a ha b hb e
      have e' : db.params.idxOf a = db.params.idxOf b := by omega
      exact (List.idxOf_inj (h a ha)).mp e'
    · intro p hp
      obtain ⟨s, hs, rfl⟩ := List.mem_map.mp hp
      have := List.idxOf_lt_length_iff.mpr (h s hs)
      omega
  · rw [if_neg (fun e => h (hiff.mp e))]
    exact ⟨⟨fun ⟨_, e⟩ => by simp at e, fun e => absurd e h⟩, fun l e => by simp at e⟩

/-- C58: an unknown symbol raises. -/
theorem C58_parameters_unknown {I V : Type} (db : FDB I V) (selection : List String) (s : String) (hs : s ∈ selection)
    (hn : s ∉ db.params) : getParameters db selection = .error .attribute := by
  unfold getParameters
  rw [if_neg (List.ne_nil_of_mem hs), if_neg]
  intro h
  rw [List.all_eq_true] at h
  exact hn (by simpa using h s hs)

/-- C58: without a selection, `get_parameters` returns the key of every parameter once, those of the symbols in the order in
which they were entered. -/
theorem C58_parameters_all {I V : Type} [DecidableEq I] (db : FDB I V) (hr : Reach db) (hne : db.params ≠ []) :
    ∃ l, getParameters db [] = .ok l ∧ db.params.map (fun s => resolve db (.symbol s)) = l.map .ok := by
  refine ⟨_, by rw [getParameters, if_pos rfl, if_neg hne], ?_⟩
  apply List.ext_getElem
  · simp
  · intro i h1 h2
    simp only [List.length_map] at h1
    simp only [List.getElem_map, List.getElem_range, resolve, List.getElem_mem, if_true]
    rw [(wf_of_reach hr).params.idxOf_getElem]

/-- C58: an empty table of parameters raises. -/
theorem C58_parameters_empty {I V : Type} (db : FDB I V) (he : db.params = []) : getParameters db [] = .error .index := by
  rw [getParameters, if_pos rfl, if_pos he]

example : getParameters (⟨[], ["f", "g"], []⟩ : FDB ℕ ℤ) ["g", "f"] = .ok [2, 1] := by rfl

end CatLearn.DB
