import Verif.Model.Database
import Verif.Lemmas.Py
import Mathlib.Data.List.Nodup
import Mathlib.Data.List.Pairwise
import Mathlib.Data.List.Dedup
import Mathlib.Tactic.Common
import Mathlib.Tactic.Linarith

/-!
# Feature databases: C57, C58, C133, C134
-/

namespace CatLearn.DB

open CatLearn

/-! ## What the user expects of `DescriptorDatabase` -/

/-- The keyed table the user has in mind: for every identifier, nothing or a value per descriptor. -/
abbrev Spec (V : Type) := String → Option (String → Option V)

/-- The value at the position of a name. -/
def byName {V : Type} : List String → List V → String → Option V
  | n :: ns, v :: vs, c => if c = n then some v else byName ns vs c
  | _, _, _ => none

/-- Writing rows: each row replaces what is known of its identifier. -/
def specRows {V : Type} (names : List String) : List (String × List V) → Spec V → Spec V
  | [], m => m
  | d :: ds, m => specRows names ds (fun i => if i = d.1 then some (byName names d.2) else m i)

/-- The effect of an operation on the keyed table. -/
def specStep {V : Type} (m : Spec V) : Op V → Spec V
  | .create _ => m
  | .addColumns _ => m
  | .fill names data => specRows names data m
  | .update d v id => fun i =>
      if i = id then (m i).map fun f => fun c => if c = d then some v else f c else m i

/-- A history of operations none of which raises. -/
inductive Runs {V : Type} : Store V → List (Op V) → Store V → Prop where
  | nil (s : Store V) : Runs s [] s
  | cons {s s' s'' : Store V} {op : Op V} {ops : List (Op V)} :
      exec s op = (s', none) → Runs s' ops s'' → Runs s (op :: ops) s''

/-- The columns of the table in a store. -/
def colsOf {V : Type} : Store V → List String
  | none => []
  | some t => t.cols

/-- Histories in which every `fill_db` names the columns in the order of the table, and no identifier is filled
twice. -/
def Careful {V : Type} : Store V → List String → List (Op V) → Prop
  | _, _, [] => True
  | s, used, op :: ops =>
    (match op with
      | .fill names data => names = colsOf s ∧ (data.map (·.1)).Nodup ∧ ∀ d ∈ data, d.1 ∉ used
      | _ => True) ∧
    Careful (exec s op).1 (match op with
      | .fill _ data => used ++ data.map (·.1)
      | _ => used) ops

/-- The table holds the keyed table. -/
structure Holds {V : Type} (s : Store V) (used : List String) (m : Spec V) : Prop where
  empty : s = none → ∀ i, m i = none
  ids : ∀ t, s = some t → ∀ r ∈ t.rows, r.1 ∈ used
  nodup : ∀ t, s = some t → t.cols.Nodup ∧ (t.rows.map (·.1)).Nodup
  len : ∀ t, s = some t → ∀ r ∈ t.rows, r.2.length = t.cols.length
  known : ∀ t, s = some t → ∀ i f, m i = some f → (∃ r ∈ t.rows, r.1 = i) ∧ ∀ c, c ∉ t.cols → f c = none
  stored : ∀ t, s = some t → ∀ r ∈ t.rows, ∃ f, m r.1 = some f ∧
    ∀ c ∈ t.cols, (r.2[t.cols.idxOf c]?).join = f c

theorem byName_map {V : Type} (names : List String) (vs : List V) (c : String)
    (h : vs.length = names.length) (hc : c ∈ names) :
    (((vs.map some)[names.idxOf c]?).join : Option V) = byName names vs c := by
  induction names generalizing vs with
  | nil => cases hc
  | cons n ns ih =>
    cases vs with
    | nil => simp at h
    | cons v vs =>
      simp only [byName]
      by_cases hn : c = n
      · subst hn; simp
      · rw [if_neg hn, List.idxOf_cons_ne _ (Ne.symm hn)]
        simp only [List.map_cons, List.getElem?_cons_succ]
        exact ih vs (by simpa using h) (by simpa [hn] using hc)

theorem byName_none {V : Type} (names : List String) (vs : List V) (c : String) (hc : c ∉ names) :
    byName names vs c = none := by
  induction names generalizing vs with
  | nil => rfl
  | cons n ns ih =>
    cases vs with
    | nil => rfl
    | cons v vs =>
      simp only [List.mem_cons, not_or] at hc
      simp only [byName, if_neg hc.1]
      exact ih vs hc.2

theorem holds_create {V : Type} {s s' : Store V} {used : List String} {m : Spec V} {names : List String}
    (H : Holds s used m) (h : create names s = (s', none)) : Holds s' used m := by
  cases s with
  | some t => simp only [create, Prod.mk.injEq, and_true] at h; subst h; exact H
  | none =>
    simp only [create] at h
    split at h
    · rename_i hn
      simp only [Prod.mk.injEq, and_true] at h
      subst h
      have h0 := H.empty rfl
      refine ⟨by simp, ?_, ?_, ?_, ?_, ?_⟩
      · rintro t ⟨⟩ r hr; cases hr
      · rintro t ⟨⟩; exact ⟨(List.nodup_cons.1 hn).2, List.nodup_nil⟩
      · rintro t ⟨⟩ r hr; cases hr
      · intro t _ i f hf; rw [h0] at hf; cases hf
      · rintro t ⟨⟩ r hr; cases hr
    · simp at h

theorem holds_addColumns {V : Type} (cs : List String) {s s' : Store V} {used : List String} {m : Spec V}
    (H : Holds s used m) (h : addColumns cs s = (s', none)) : Holds s' used m := by
  induction cs generalizing s with
  | nil => simp only [addColumns, Prod.mk.injEq, and_true] at h; subst h; exact H
  | cons c cs ih =>
    cases s with
    | none => simp [addColumns] at h
    | some t =>
      simp only [addColumns] at h
      split at h
      · simp at h
      · rename_i hc
        simp only [List.mem_cons, not_or] at hc
        refine ih ?_ h
        obtain ⟨hn, hr⟩ := H.nodup t rfl
        refine ⟨by simp, ?_, ?_, ?_, ?_, ?_⟩
        · rintro t' ⟨⟩ r hr
          simp only [List.mem_map] at hr
          obtain ⟨r0, hr0, rfl⟩ := hr
          exact H.ids t rfl r0 hr0
        · rintro t' ⟨⟩
          refine ⟨?_, ?_⟩
          · simp only [List.nodup_append, List.mem_singleton]
            refine ⟨hn, by simp, ?_⟩
            rintro a ha b rfl rfl
            exact hc.2 ha
          · simpa [List.map_map, Function.comp_def] using hr
        · rintro t' ⟨⟩ r hr
          simp only [List.mem_map] at hr
          obtain ⟨r0, hr0, rfl⟩ := hr
          simp [H.len t rfl r0 hr0]
        · rintro t' ⟨⟩ i f hf
          obtain ⟨⟨r, hr, hi⟩, hk⟩ := H.known t rfl i f hf
          refine ⟨⟨(r.1, r.2 ++ [none]), List.mem_map.2 ⟨r, hr, rfl⟩, hi⟩, ?_⟩
          intro c' hc'
          simp only [List.mem_append, not_or] at hc'
          exact hk c' hc'.1
        · rintro t' ⟨⟩ r hr
          simp only [List.mem_map] at hr
          obtain ⟨r0, hr0, rfl⟩ := hr
          obtain ⟨f, hf, hs⟩ := H.stored t rfl r0 hr0
          refine ⟨f, hf, ?_⟩
          intro c' hc'
          simp only [List.mem_append, List.mem_singleton] at hc'
          have hl := H.len t rfl r0 hr0
          by_cases hin : c' ∈ t.cols
          · rw [List.idxOf_append_of_mem hin, List.getElem?_append_left]
            · exact hs c' hin
            · rw [hl]; exact List.idxOf_lt_length_iff.2 hin
          · have : c' = c := by tauto
            subst this
            rw [List.idxOf_append_of_notMem hin]
            rw [(H.known t rfl r0.1 f hf).2 c' hin]
            simp [hl]

theorem holds_insertRows {V : Type} (cols : List String) (data : List (String × List V))
    {rows rows' : List (String × List (Option V))} {used : List String} {m : Spec V}
    (H : Holds (some ⟨cols, rows⟩) used m) (hn : (data.map (·.1)).Nodup) (hd : ∀ d ∈ data, d.1 ∉ used)
    (h : insertRows cols.length data rows = (rows', none)) :
    Holds (some ⟨cols, rows'⟩) (used ++ data.map (·.1)) (specRows cols data m) := by
  induction data generalizing rows used m with
  | nil => simp only [insertRows, Prod.mk.injEq, and_true] at h; subst h; simpa [specRows] using H
  | cons d ds ih =>
    simp only [insertRows] at h
    split at h
    · rename_i hlen
      simp only [List.map_cons, List.nodup_cons] at hn
      have hdu := hd d (by simp)
      have := ih (rows := rows ++ [(d.1, d.2.map some)]) (used := used ++ [d.1])
        (m := fun i => if i = d.1 then some (byName cols d.2) else m i) ?_ hn.2 ?_ h
      · simpa [specRows] using this
      · have hnr : ∀ r ∈ rows, r.1 ≠ d.1 := fun r hr he => hdu (he ▸ H.ids _ rfl r hr)
        refine ⟨by simp, ?_, ?_, ?_, ?_, ?_⟩
        · rintro t ⟨⟩ r hr
          simp only [List.mem_append, List.mem_singleton] at hr ⊢
          rcases hr with hr | rfl
          · exact Or.inl (H.ids _ rfl r hr)
          · exact Or.inr rfl
        · rintro t ⟨⟩
          obtain ⟨h1, h2⟩ := H.nodup _ rfl
          refine ⟨h1, ?_⟩
          simp only [List.map_append, List.map_cons, List.map_nil, List.nodup_append, List.mem_singleton]
          refine ⟨h2, by simp, ?_⟩
          rintro a ha b rfl rfl
          obtain ⟨r, hr, he⟩ := List.mem_map.1 ha
          exact hnr r hr he
        · rintro t ⟨⟩ r hr
          simp only [List.mem_append, List.mem_singleton] at hr
          rcases hr with hr | rfl
          · exact H.len _ rfl r hr
          · simpa using hlen
        · rintro t ⟨⟩ i f hf
          split at hf
          · rename_i hi
            simp only [Option.some.injEq] at hf
            subst hf
            exact ⟨⟨(d.1, d.2.map some), by simp, hi.symm⟩, fun c hc => byName_none cols d.2 c hc⟩
          · obtain ⟨⟨r, hr, hi⟩, hk⟩ := H.known _ rfl i f hf
            exact ⟨⟨r, by simp [hr], hi⟩, hk⟩
        · rintro t ⟨⟩ r hr
          simp only [List.mem_append, List.mem_singleton] at hr
          rcases hr with hr | rfl
          · obtain ⟨f, hf, hs⟩ := H.stored _ rfl r hr
            exact ⟨f, by simp only [if_neg (hnr r hr)]; exact hf, hs⟩
          · refine ⟨byName cols d.2, by simp, ?_⟩
            intro c hc
            exact byName_map cols d.2 c hlen hc
      · intro d' hd'
        simp only [List.mem_append, List.mem_singleton, not_or]
        refine ⟨hd d' (by simp [hd']), ?_⟩
        intro he
        exact hn.1 (he ▸ List.mem_map.2 ⟨d', hd', rfl⟩)
    · simp at h

theorem holds_update {V : Type} {s s' : Store V} {used : List String} {m : Spec V} {d id : String} {v : V}
    (H : Holds s used m) (h : update d v id s = (s', none)) :
    Holds s' used (specStep m (.update d v id)) := by
  cases s with
  | none => simp [update] at h
  | some t =>
    simp only [update] at h
    split at h
    · rename_i hd
      simp only [Prod.mk.injEq, and_true] at h
      subst h
      have hid : ∀ r : String × List (Option V),
          (if r.1 = id then (r.1, setCol t.cols d v r.2) else r).1 = r.1 := by
        intro r; split <;> rfl
      refine ⟨by simp, ?_, ?_, ?_, ?_, ?_⟩
      · rintro t' ⟨⟩ r hr
        obtain ⟨r0, hr0, rfl⟩ := List.mem_map.1 hr
        rw [hid]; exact H.ids t rfl r0 hr0
      · rintro t' ⟨⟩
        obtain ⟨h1, h2⟩ := H.nodup t rfl
        refine ⟨h1, ?_⟩
        have : (t.rows.map fun r => if r.1 = id then (r.1, setCol t.cols d v r.2) else r).map (·.1)
            = t.rows.map (·.1) := by
          rw [List.map_map]; exact List.map_congr_left fun r _ => hid r
        simpa [this] using h2
      · rintro t' ⟨⟩ r hr
        obtain ⟨r0, hr0, rfl⟩ := List.mem_map.1 hr
        have := H.len t rfl r0 hr0
        split
        · simpa [setCol] using this
        · exact this
      · rintro t' ⟨⟩ i f hf
        simp only [specStep] at hf
        have key : ∀ g, m i = some g → ∃ r ∈ (t.rows.map fun r =>
            if r.1 = id then (r.1, setCol t.cols d v r.2) else r), r.1 = i := by
          intro g hg
          obtain ⟨r, hr, hi⟩ := (H.known t rfl i g hg).1
          exact ⟨_, List.mem_map.2 ⟨r, hr, rfl⟩, by rw [hid]; exact hi⟩
        split at hf
        · cases hm : m i with
          | none => rw [hm] at hf; simp at hf
          | some g =>
            rw [hm] at hf
            simp only [Option.map_some, Option.some.injEq] at hf
            subst hf
            refine ⟨key g hm, ?_⟩
            intro c hc
            have hcd : c ≠ d := fun he => hc (he ▸ hd)
            simp only [if_neg hcd]
            exact (H.known t rfl i g hm).2 c hc
        · exact ⟨key f hf, (H.known t rfl i f hf).2⟩
      · rintro t' ⟨⟩ r hr
        obtain ⟨r0, hr0, rfl⟩ := List.mem_map.1 hr
        obtain ⟨f, hf, hs⟩ := H.stored t rfl r0 hr0
        simp only [specStep]
        by_cases hi : r0.1 = id
        · simp only [if_pos hi]
          refine ⟨fun c => if c = d then some v else f c, by rw [hf]; rfl, ?_⟩
          intro c hc
          have hlen := H.len t rfl r0 hr0
          by_cases hcd : c = d
          · subst hcd
            have : t.cols.idxOf c < r0.2.length := by rw [hlen]; exact List.idxOf_lt_length_iff.2 hc
            simp [setCol, this]
          · have hne : t.cols.idxOf d ≠ t.cols.idxOf c := by
              intro he
              exact hcd ((List.idxOf_inj hc).1 he.symm)
            simp only [setCol, List.getElem?_set_ne hne, if_neg hcd]
            exact hs c hc
        · simp only [if_neg hi]
          exact ⟨f, hf, hs⟩
    · simp at h

theorem holds_run {V : Type} {ops : List (Op V)} {s s' : Store V} {used : List String} {m : Spec V}
    (H : Holds s used m) (hc : Careful s used ops) (hr : Runs s ops s') :
    ∃ used', Holds s' used' (ops.foldl specStep m) := by
  induction ops generalizing s used m with
  | nil => cases hr; exact ⟨used, H⟩
  | cons op ops ih =>
    cases hr with
    | cons hx hr =>
      simp only [Careful, hx] at hc
      cases op with
      | create names => exact ih (holds_create H hx) hc.2 hr
      | addColumns cs => exact ih (holds_addColumns cs H hx) hc.2 hr
      | update d v id => exact ih (holds_update H hx) hc.2 hr
      | fill names data =>
        refine ih (m := specRows names data m) ?_ hc.2 hr
        obtain ⟨⟨hnames, hnd, hfresh⟩, _⟩ := hc
        cases s with
        | none => simp [exec, fill] at hx
        | some t =>
          simp only [exec, fill] at hx
          split at hx
          · simp only [Prod.mk.injEq] at hx
            obtain ⟨h1, h2⟩ := hx
            subst h1
            simp only [colsOf] at hnames
            subst hnames
            exact holds_insertRows t.cols data H hnd hfresh (Prod.ext rfl h2)
          · simp at hx

/-- C57 (partial: the fills name the columns in the order of the table and fill no identifier twice): after any
history of operations that succeed, on an empty file, a query for any columns of any identifier returns, for a
stored identifier, the last value written for each of the names, NULL if none was; for other identifiers it raises
IndexError, as it does without names. -/
theorem C57_partial {V : Type} (ops : List (Op V)) (s : Store V) (hr : Runs none ops s)
    (hc : Careful none [] ops) (id : String) (names : List String) (hs : s ≠ none)
    (hn : ∀ c ∈ names, c ∈ colsOf s) :
    query s id names = if names = [] then .error .index else match ops.foldl specStep (fun _ => none) id with
      | some f => .ok (names.map f)
      | none => .error .index := by
  have H0 : Holds (none : Store V) [] (fun _ => none) :=
    ⟨fun _ _ => rfl, by simp, by simp, by simp, by simp, by simp⟩
  obtain ⟨used, H⟩ := holds_run H0 hc hr
  cases s with
  | none => exact absurd rfl hs
  | some t =>
    simp only [colsOf] at hn
    have hall : (names.all (· ∈ t.cols)) = true := by simpa using hn
    by_cases hnil : names = []
    · simp [query, hnil]
    simp only [query, hall, if_true, if_neg hnil]
    cases hf : t.rows.find? (fun r => r.1 == id) with
    | none =>
      simp only
      cases hm : ops.foldl specStep (fun _ => none) id with
      | none => rfl
      | some f =>
        obtain ⟨⟨r, hr1, hr2⟩, _⟩ := H.known t rfl id f hm
        have := List.find?_eq_none.1 hf r hr1
        simp [hr2] at this
    | some r =>
      have hmem := List.mem_of_find?_eq_some hf
      have hid : r.1 = id := by simpa using List.find?_some hf
      obtain ⟨f, hm, hst⟩ := H.stored t rfl r hmem
      rw [hid] at hm
      simp only [hm]
      congr 1
      exact List.map_congr_left fun c hc => hst c (hn c hc)

/-- A history: two columns, two rows, a third column, an update. -/
example : ∃ s : Store ℤ,
    Runs none [.create ["a", "b"], .fill ["a", "b"] [("x", [1, 2]), ("y", [3, 4])], .addColumns ["c"],
      .update "c" 7 "y"] s ∧
    Careful none [] [.create ["a", "b"], .fill ["a", "b"] [("x", [1, 2]), ("y", [3, 4])], .addColumns ["c"],
      .update "c" (7 : ℤ) "y"] ∧ s ≠ none ∧ query s "y" ["c", "a"] = .ok [some 7, some 3] := by
  refine ⟨_, .cons rfl (.cons rfl (.cons rfl (.cons rfl (.nil _)))), ?_, by simp, by decide⟩
  simp [Careful, colsOf, exec, create]

/-- The identifiers in the order in which they are filled. -/
def filled {V : Type} (ops : List (Op V)) : List String :=
  ops.flatMap fun
    | .fill _ data => data.map (·.1)
    | _ => []

theorem addColumns_ids {V : Type} (cs : List String) (t : Table V) (s' : Store V) (h : addColumns cs (some t) = (s', none)) :
    ∃ t', s' = some t' ∧ t'.rows.map (·.1) = t.rows.map (·.1) := by
  induction cs generalizing t with
  | nil =>
    simp only [addColumns, Prod.mk.injEq, and_true] at h
    exact ⟨t, h.symm, rfl⟩
  | cons c cs ih =>
    simp only [addColumns] at h
    split at h
    · simp at h
    · obtain ⟨t', h1, h2⟩ := ih _ h
      exact ⟨t', h1, by simpa [List.map_map, Function.comp_def] using h2⟩

theorem insertRows_ids {V : Type} (n : ℕ) (data : List (String × List V)) (rows rows' : List (String × List (Option V)))
    (h : insertRows n data rows = (rows', none)) : rows'.map (·.1) = rows.map (·.1) ++ data.map (·.1) := by
  induction data generalizing rows with
  | nil =>
    simp only [insertRows, Prod.mk.injEq, and_true] at h
    subst h
    simp
  | cons d ds ih =>
    simp only [insertRows] at h
    split at h
    · simpa using ih _ h
    · simp at h

/-- The identifiers of the rows. -/
def idsOf {V : Type} : Store V → List String
  | none => []
  | some t => t.rows.map (·.1)

theorem exec_ids {V : Type} (s s' : Store V) (op : Op V) (h : exec s op = (s', none)) : idsOf s' = idsOf s ++ filled [op] := by
  cases op with
  | create names =>
    cases s with
    | none =>
      simp only [exec, create] at h
      split at h
      · simp only [Prod.mk.injEq, and_true] at h
        subst h
        rfl
      · simp at h
    | some t =>
      simp only [exec, create, Prod.mk.injEq, and_true] at h
      subst h
      simp [filled]
  | addColumns cs =>
    cases s with
    | none =>
      cases cs with
      | nil =>
        simp only [exec, addColumns, Prod.mk.injEq, and_true] at h
        subst h
        rfl
      | cons c cs => simp [exec, addColumns] at h
    | some t =>
      obtain ⟨t', rfl, h2⟩ := addColumns_ids cs t s' h
      simp [idsOf, filled, h2]
  | fill names data =>
    cases s with
    | none => simp [exec, fill] at h
    | some t =>
      simp only [exec, fill] at h
      split at h
      · simp only [Prod.mk.injEq] at h
        obtain ⟨h1, h2⟩ := h
        subst h1
        simp only [idsOf, filled, List.flatMap_cons, List.flatMap_nil, List.append_nil]
        exact insertRows_ids _ _ _ _ (Prod.ext rfl h2)
      · simp at h
  | update d v id =>
    cases s with
    | none => simp [exec, update] at h
    | some t =>
      simp only [exec, update] at h
      split at h
      · simp only [Prod.mk.injEq, and_true] at h
        subst h
        simp only [idsOf, filled, List.flatMap_cons, List.flatMap_nil, List.append_nil, List.map_map]
        refine List.map_congr_left fun r _ => ?_
        simp only [Function.comp]
        split <;> rfl
      · simp at h

theorem runs_ids {V : Type} (ops : List (Op V)) (s s' : Store V) (hr : Runs s ops s') : idsOf s' = idsOf s ++ filled ops := by
  induction ops generalizing s with
  | nil =>
    cases hr
    simp [filled]
  | cons op ops ih =>
    cases hr with
    | cons hx hr =>
      rw [ih _ hr, exec_ids _ _ _ hx]
      simp [filled]

/-- C57 (partial: the fills name the columns in the order of the table and fill no identifier twice): a query without
an identifier returns one row for every identifier, in the order in which they were filled, with the last values written;
without names the rows hold all columns, and the row of an identifier is the same whether it is asked for alone or with
the others. -/
theorem C57_all_partial {V : Type} (ops : List (Op V)) (s : Store V) (hr : Runs none ops s)
    (hc : Careful none [] ops) (hs : s ≠ none) :
    ∃ f : String → String → Option V,
      (∀ id ∈ filled ops, ops.foldl specStep (fun _ => none) id = some (f id)) ∧
      (∀ names, names ≠ [] → (∀ c ∈ names, c ∈ colsOf s) →
        queryAll s names = .ok ((filled ops).map fun id => names.map (f id))) ∧
      queryTable s = .ok ((filled ops).map fun id => (id, (colsOf s).map (f id))) ∧
      (∀ id ∈ filled ops, queryRow s id = .ok (id, (colsOf s).map (f id))) ∧
      ∀ id ∉ filled ops, queryRow s id = .error .index := by
  have H0 : Holds (none : Store V) [] (fun _ => none) :=
    ⟨fun _ _ => rfl, by simp, by simp, by simp, by simp, by simp⟩
  obtain ⟨used, H⟩ := holds_run H0 hc hr
  have hids := runs_ids ops none s hr
  cases s with
  | none => exact absurd rfl hs
  | some t =>
    simp only [idsOf, List.nil_append] at hids
    have hrow : ∀ r ∈ t.rows, ∃ g, ops.foldl specStep (fun _ => none) r.1 = some g ∧
        ∀ c ∈ t.cols, (r.2[t.cols.idxOf c]?).join = g c := H.stored t rfl
    refine ⟨fun id => (ops.foldl specStep (fun _ => none) id).getD fun _ => none, ?_, ?_, ?_, ?_, ?_⟩
    · intro id hid
      rw [← hids] at hid
      obtain ⟨r, hr, rfl⟩ := List.mem_map.1 hid
      obtain ⟨g, hg, _⟩ := hrow r hr
      simp only [hg, Option.getD_some]
    · intro names hne hn
      have hall : (names.all (· ∈ t.cols)) = true := by simpa [colsOf] using hn
      simp only [queryAll, if_neg hne, hall, if_true, ← hids, List.map_map]
      congr 1
      refine List.map_congr_left fun r hr => List.map_congr_left fun c hc => ?_
      obtain ⟨g, hg, h⟩ := hrow r hr
      simp only [hg, Option.getD_some]
      exact h c (hn c hc)
    all_goals
      have hfull : ∀ r ∈ t.rows, r.2 = t.cols.map ((ops.foldl specStep (fun _ => none) r.1).getD fun _ => none) := by
        intro r hr
        obtain ⟨g, hg, h⟩ := hrow r hr
        rw [hg, Option.getD_some]
        apply List.ext_getElem
        · rw [List.length_map, H.len t rfl r hr]
        · intro i h1 h2
          rw [List.getElem_map]
          have h2' : i < t.cols.length := by simpa using h2
          rw [← h _ (List.getElem_mem h2'), (H.nodup t rfl).1.idxOf_getElem i h2', List.getElem?_eq_getElem h1,
            Option.join_some]
    · simp only [queryTable, ← hids, List.map_map, colsOf]
      congr 1
      have h : t.rows.map id = t.rows.map ((fun i => (i, t.cols.map ((ops.foldl specStep (fun _ => none) i).getD fun _ => none))) ∘
          fun x => x.1) := List.map_congr_left fun r hr => Prod.ext rfl (hfull r hr)
      simpa using h
    · intro id hid
      rw [← hids] at hid
      obtain ⟨r, hr, rfl⟩ := List.mem_map.1 hid
      simp only [queryRow, colsOf]
      cases hf : t.rows.find? (fun q => q.1 == r.1) with
      | none =>
        have := List.find?_eq_none.1 hf r hr
        simp at this
      | some q =>
        have hq : q.1 = r.1 := by simpa using List.find?_some hf
        have hq2 := hfull q (List.mem_of_find?_eq_some hf)
        simp only
        rw [← hq, ← hq2]
    · intro id hid
      rw [← hids] at hid
      have : t.rows.find? (fun q => q.1 == id) = none := by
        rw [List.find?_eq_none]
        intro q hq h
        exact hid (List.mem_map.2 ⟨q, hq, by simpa using h⟩)
      simp only [queryRow, this]

/-- The same history: both rows, the third column of the first one is NULL. -/
example : ∃ s : Store ℤ,
    Runs none [.create ["a", "b"], .fill ["a", "b"] [("x", [1, 2]), ("y", [3, 4])], .addColumns ["c"],
      .update "c" 7 "y"] s ∧ queryAll s ["c", "a"] = .ok [[none, some 1], [some 7, some 3]] ∧
      queryTable s = .ok [("x", [some 1, some 2, none]), ("y", [some 3, some 4, some 7])] := by
  refine ⟨_, .cons rfl (.cons rfl (.cons rfl (.cons rfl (.nil _)))), by decide, by decide⟩

/-- C57 fails: `fill_db` adds a second row for an identifier that is present, and the query keeps returning the
first row, that is the old value. -/
theorem C57_refill_violated : ∃ (ops : List (Op ℤ)) (s : Store ℤ), Runs none ops s ∧
    (ops.foldl specStep (fun _ => none) "x").map (fun f => f "a") = some (some 2) ∧
    query s "x" ["a"] = .ok [some 1] := by
  refine ⟨[.create ["a"], .fill ["a"] [("x", [1])], .fill ["a"] [("x", [2])]], _,
    .cons rfl (.cons rfl (.cons rfl (.nil _))), by decide, by decide⟩

/-- C57 fails: `fill_db` ignores the names it is given, so that names in another order than the columns put the
values under the wrong descriptors, without an error. -/
theorem C57_names_violated : ∃ (ops : List (Op ℤ)) (s : Store ℤ), Runs none ops s ∧
    (ops.foldl specStep (fun _ => none) "x").map (fun f => f "a") = some (some 2) ∧
    query s "x" ["a"] = .ok [some 1] := by
  refine ⟨[.create ["a", "b"], .fill ["b", "a"] [("x", [1, 2])]], _,
    .cons rfl (.cons rfl (.nil _)), by decide, by decide⟩

/-- C57: a `fill_db` with another number of names than the table has columns, or into a missing table, raises and changes nothing;
a row of the wrong length raises after the rows before it were entered, and queries through the same object find them. -/
theorem C57_wrong_number {V : Type} (names : List String) (data : List (String × List V)) :
    fill names data (none : Store V) = (none, some .other) ∧
    ∀ t : Table V, (names.length ≠ t.cols.length → fill names data (some t) = (some t, some .other)) ∧
      ∀ (pre post : List (String × List V)) (d : String × List V), data = pre ++ d :: post → names.length = t.cols.length →
        (∀ e ∈ pre, e.2.length = t.cols.length) → d.2.length ≠ t.cols.length →
        fill names data (some t) = (some ⟨t.cols, t.rows ++ pre.map fun e => (e.1, e.2.map some)⟩, some .other) := by
  refine ⟨rfl, fun t => ⟨fun h => by simp [fill, h], ?_⟩⟩
  rintro pre post d rfl hn hpre hd
  have key : ∀ (pre : List (String × List V)) rows, (∀ e ∈ pre, e.2.length = t.cols.length) →
      insertRows t.cols.length (pre ++ d :: post) rows = (rows ++ pre.map fun e => (e.1, e.2.map some), some .other) := by
    intro pre
    induction pre with
    | nil => intro rows _; simp [insertRows, hd]
    | cons e pre ih =>
      intro rows h
      simp only [List.cons_append, insertRows, h e (by simp), if_true]
      rw [ih _ fun e he => h e (by simp [he])]
      simp
  simp [fill, hn, key pre t.rows hpre]

example : fill ["a"] [("x", [1]), ("y", [1, 2])] (some ⟨["a"], []⟩ : Store ℤ) = (some ⟨["a"], [("x", [some 1])]⟩, some .other) := rfl

/-- C57: an update reaches every row of the identifier, so it is seen by later queries also after repeated fills.
(No condition on the history.) -/
theorem C57_update {V : Type} (s s' : Store V) (d id : String) (v : V) (h : update d v id s = (s', none))
    (hw : ∀ t, s = some t → ∀ r ∈ t.rows, r.2.length = t.cols.length) :
    (∃ t, s = some t ∧ ∃ r ∈ t.rows, r.1 = id) → query s' id [d] = .ok [some v] := by
  rintro ⟨t, rfl, r, hr, hid⟩
  simp only [update] at h
  split at h
  · rename_i hd
    simp only [Prod.mk.injEq, and_true] at h
    subst h
    simp only [query, List.cons_ne_nil, if_false, List.all_cons, List.all_nil, Bool.and_true, decide_eq_true hd, if_true]
    cases hf : (t.rows.map fun r => if r.1 = id then (r.1, setCol t.cols d v r.2) else r).find?
        (fun r => r.1 == id) with
    | none =>
      have := List.find?_eq_none.1 hf _ (List.mem_map.2 ⟨r, hr, rfl⟩)
      simp [hid] at this
    | some q =>
      have hm := List.mem_of_find?_eq_some hf
      have hq : q.1 = id := by simpa using List.find?_some hf
      obtain ⟨r0, hr0, rfl⟩ := List.mem_map.1 hm
      by_cases h0 : r0.1 = id
      · have hlt : t.cols.idxOf d < r0.2.length := by
          rw [hw t rfl r0 hr0]; exact List.idxOf_lt_length_iff.2 hd
        simp [h0, setCol, hlt]
      · rw [if_neg h0] at hq; exact absurd hq h0
  · simp at h

/-! ## C133: `create_column` -/

/-- The names over which `for c in new_column` runs when the argument is a string, as the documentation asks:
its characters. -/
def characters (name : String) : List String := name.toList.map fun c => String.ofList [c]

/-- C133 (partial: the argument is a list of names, unlike the documentation, which asks for one string):
`create_column` adds exactly the given columns, after the existing ones, filled with NULL, and keeps all other
values; it succeeds iff the names are new and distinct. -/
theorem C133_partial {V : Type} (t : Table V) (cs : List String) :
    ((addColumns cs (some t)).2 = none ↔ cs.Nodup ∧ ∀ c ∈ cs, c ∉ "uuid" :: t.cols) ∧
    ((addColumns cs (some t)).2 = none → (addColumns cs (some t)).1 =
      some ⟨t.cols ++ cs, t.rows.map fun r => (r.1, r.2 ++ List.replicate cs.length none)⟩) := by
  induction cs generalizing t with
  | nil => simp [addColumns]
  | cons c cs ih =>
    simp only [addColumns]
    split
    · rename_i hc
      refine ⟨⟨by simp, ?_⟩, by simp⟩
      rintro ⟨_, h⟩
      exact absurd hc (h c (by simp))
    · rename_i hc
      obtain ⟨h1, h2⟩ := ih ⟨t.cols ++ [c], t.rows.map fun r => (r.1, r.2 ++ [none])⟩
      constructor
      · rw [h1]
        simp only [List.nodup_cons, List.mem_cons, List.mem_append, not_or, forall_eq_or_imp, List.not_mem_nil,
          or_false] at hc ⊢
        constructor
        · rintro ⟨a, b⟩
          refine ⟨⟨fun hm => (b c hm).2.2 rfl, a⟩, hc, fun x hx => ⟨(b x hx).1, (b x hx).2.1⟩⟩
        · rintro ⟨⟨a, b⟩, _, d⟩
          exact ⟨b, fun x hx => ⟨(d x hx).1, (d x hx).2, fun he => a (he ▸ hx)⟩⟩
      · intro h
        rw [h2 h]
        simp [List.map_map, Function.comp_def, List.replicate_succ]

/-- C133 fails: with the documented string argument the table gets one column per character instead of the named
column (and for a name with a repeated letter the call raises half way). -/
theorem C133_violated :
    (addColumns (characters "ab") (some (⟨["x"], []⟩ : Table ℤ))).1.map (·.cols) = some ["x", "a", "b"] ∧
    (addColumns (characters "aa") (some (⟨["x"], []⟩ : Table ℤ))).2 = some .other := by decide

/-! ## C134, C58: `FingerprintDB` -/

/-- Stored value of an image and a parameter key. -/
def stored {I V : Type} [DecidableEq I] (db : FDB I V) (a : I) (p : Nat) : Option V :=
  (db.fps.find? fun f => imageOf db f.1 == some a && f.2.1 == p).map (·.2.2)

/-- The databases the class can produce: any history of entries (calls that raise change nothing). -/
inductive Reach {I V : Type} [DecidableEq I] : FDB I V → Prop where
  | empty : Reach ⟨[], [], []⟩
  | image {db : FDB I V} (d : AseRow I) : Reach db → Reach (imageEntry db d).1
  | param {db db' : FDB I V} (s : Option String) : Reach db → parameterEntry db s = .ok db' → Reach db'
  | fp {db db' : FDB I V} (a : I) (p : ParamRef) (v : V) : Reach db → fingerprintEntry db a p v = .ok db' →
      Reach db'

/-- Keys are unique and refer to images. -/
structure WF {I V : Type} (db : FDB I V) : Prop where
  images : db.images.Nodup
  params : db.params.Nodup
  range : ∀ f ∈ db.fps, 1 ≤ f.1 ∧ f.1 ≤ db.images.length
  keys : db.fps.Pairwise fun f g => ¬ (f.1 = g.1 ∧ f.2.1 = g.2.1)

theorem parameterEntry_cases {I V : Type} {db db' : FDB I V} {s : Option String}
    (h : parameterEntry db s = .ok db') :
    db' = db ∨ ∃ x, x ∉ db.params ∧ db' = { db with params := db.params ++ [x] } := by
  have key : ∀ x, insertParam db x = db ∨ ∃ y, y ∉ db.params ∧ insertParam db x = { db with params := db.params ++ [y] } := by
    intro x
    unfold insertParam
    split
    · exact Or.inl rfl
    · exact Or.inr ⟨x, by assumption, rfl⟩
  unfold parameterEntry at h
  split at h
  · split at h
    · cases h
    · cases h
      exact key _
  · cases h
    exact key _

theorem fingerprintEntry_cases {I V : Type} [DecidableEq I] {db db' : FDB I V} {a : I} {p : ParamRef} {v : V}
    (h : fingerprintEntry db a p v = .ok db') :
    ∃ pid, resolve db p = .ok pid ∧ a ∈ db.images ∧
      ((db' = db ∧ ∃ f ∈ db.fps, f.1 = db.images.idxOf a + 1 ∧ f.2.1 = pid) ∨
       (db' = { db with fps := db.fps ++ [(db.images.idxOf a + 1, pid, v)] } ∧
         ∀ f ∈ db.fps, ¬ (f.1 = db.images.idxOf a + 1 ∧ f.2.1 = pid))) := by
  simp only [fingerprintEntry] at h
  cases hp : resolve db p with
  | error e => rw [hp] at h; cases h
  | ok pid =>
    rw [hp] at h
    simp only at h
    split at h
    · rename_i ha
      refine ⟨pid, rfl, ha, ?_⟩
      simp only [Except.ok.injEq] at h
      split at h
      · rename_i hany
        refine Or.inl ⟨h.symm, ?_⟩
        simpa using hany
      · rename_i hany
        refine Or.inr ⟨h.symm, ?_⟩
        intro f hf hk
        exact hany (List.any_eq_true.2 ⟨f, hf, by simp [hk.1, hk.2]⟩)
    · cases h

theorem wf_of_reach {I V : Type} [DecidableEq I] {db : FDB I V} (h : Reach db) : WF db := by
  induction h with
  | empty => exact ⟨by simp, by simp, by simp, by simp⟩
  | image d _ ih =>
    simp only [imageEntry]
    split
    · exact ih
    · rename_i hd
      refine ⟨?_, ih.params, ?_, ih.keys⟩
      · simp only [List.nodup_append, List.mem_singleton]
        refine ⟨ih.images, by simp, ?_⟩
        rintro a ha b rfl rfl
        exact hd ha
      · intro f hf
        have := ih.range f hf
        simp only [List.length_append, List.length_singleton]
        omega
  | param s _ hp ih =>
    rcases parameterEntry_cases hp with rfl | ⟨x, hx, rfl⟩
    · exact ih
    · refine ⟨ih.images, ?_, ih.range, ih.keys⟩
      simp only [List.nodup_append, List.mem_singleton]
      refine ⟨ih.params, by simp, ?_⟩
      rintro a ha b rfl rfl
      exact hx ha
  | fp a p v _ hp ih =>
    obtain ⟨pid, _, ha, ⟨rfl, _⟩ | ⟨rfl, hf⟩⟩ := fingerprintEntry_cases hp
    · exact ih
    · refine ⟨ih.images, ih.params, ?_, ?_⟩
      · intro f hm
        simp only [List.mem_append, List.mem_singleton] at hm
        rcases hm with hm | rfl
        · exact ih.range f hm
        · have := List.idxOf_lt_length_iff.2 ha
          simp only
          omega
      · simp only [List.pairwise_append, List.mem_singleton]
        refine ⟨ih.keys, by simp, ?_⟩
        rintro f hm g rfl
        exact hf f hm

theorem imageOf_idx {I V : Type} [DecidableEq I] {db : FDB I V} {a : I} (h : a ∈ db.images) :
    imageOf db (db.images.idxOf a + 1) = some a := by
  simp [imageOf, List.idxOf_lt_length_iff.2 h]

theorem imageOf_eq {I V : Type} [DecidableEq I] {db : FDB I V} (hw : db.images.Nodup) {a : I} {k : Nat}
    (h : imageOf db k = some a) : a ∈ db.images ∧ k = db.images.idxOf a + 1 := by
  simp only [imageOf] at h
  split at h
  · cases h
  · obtain ⟨hlt, he⟩ := List.getElem?_eq_some_iff.1 h
    refine ⟨he ▸ List.getElem_mem hlt, ?_⟩
    have := hw.idxOf_getElem (k - 1) hlt
    rw [he] at this
    omega

/-- The stored value in terms of the rows. -/
theorem stored_iff {I V : Type} [DecidableEq I] {db : FDB I V} (hw : WF db) (a : I) (p : Nat) (v : V) :
    stored db a p = some v ↔ a ∈ db.images ∧ (db.images.idxOf a + 1, p, v) ∈ db.fps := by
  unfold stored
  constructor
  · intro h
    simp only [Option.map_eq_some_iff] at h
    obtain ⟨f, hf, rfl⟩ := h
    have hm := List.mem_of_find?_eq_some hf
    have hk := List.find?_some hf
    simp only [Bool.and_eq_true, beq_iff_eq] at hk
    obtain ⟨h1, h2⟩ := imageOf_eq hw.images hk.1
    refine ⟨h1, ?_⟩
    rw [← h2, ← hk.2]
    exact hm
  · rintro ⟨ha, hm⟩
    have hi := imageOf_idx (db := db) ha
    cases hf : db.fps.find? (fun f => imageOf db f.1 == some a && f.2.1 == p) with
    | none =>
      have := List.find?_eq_none.1 hf _ hm
      simp [hi] at this
    | some g =>
      have hgm := List.mem_of_find?_eq_some hf
      have hk := List.find?_some hf
      simp only [Bool.and_eq_true, beq_iff_eq] at hk
      obtain ⟨_, h2⟩ := imageOf_eq hw.images hk.1
      by_cases heq : g = (db.images.idxOf a + 1, p, v)
      · simp [heq]
      · exfalso
        haveI : Std.Symm fun f g : Nat × Nat × V => ¬ (f.1 = g.1 ∧ f.2.1 = g.2.1) :=
          ⟨fun x y hxy hyx => hxy ⟨hyx.1.symm, hyx.2.symm⟩⟩
        have hpw := hw.keys.forall hgm hm heq
        exact hpw ⟨h2, hk.2⟩

/-- C134: entries never change what is stored.  After any history, a further call of any of the three entry
functions keeps every stored value; and a successful `fingerprint_entry` leaves the value that was stored for its
pair, or else stores the value it was given, and changes no other pair. -/
theorem C134_keep {I V : Type} [DecidableEq I] (db : FDB I V) (hr : Reach db) (a : I) (p : Nat) (v : V)
    (hs : stored db a p = some v) :
    (∀ d, stored (imageEntry db d).1 a p = some v) ∧
    (∀ s db', parameterEntry db s = .ok db' → stored db' a p = some v) ∧
    (∀ b q w db', fingerprintEntry db b q w = .ok db' → stored db' a p = some v) := by
  have hw := wf_of_reach hr
  obtain ⟨ha, hm⟩ := (stored_iff hw a p v).1 hs
  refine ⟨?_, ?_, ?_⟩
  · intro d
    rw [stored_iff (wf_of_reach (.image d hr))]
    simp only [imageEntry]
    split
    · exact ⟨ha, hm⟩
    · refine ⟨by simp [ha], ?_⟩
      simp only [List.idxOf_append_of_mem ha]
      exact hm
  · intro s db' h
    rw [stored_iff (wf_of_reach (.param s hr h))]
    rcases parameterEntry_cases h with rfl | ⟨x, _, rfl⟩ <;> exact ⟨ha, hm⟩
  · intro b q w db' h
    rw [stored_iff (wf_of_reach (.fp b q w hr h))]
    obtain ⟨pid, _, _, ⟨rfl, _⟩ | ⟨rfl, _⟩⟩ := fingerprintEntry_cases h
    · exact ⟨ha, hm⟩
    · exact ⟨ha, by simp [hm]⟩

/-- What the insertion of a symbol does to the numbers of the symbols. -/
private theorem insertParam_spec {I V : Type} (db : FDB I V) (s : String) :
    ∃ pid, resolve (insertParam db s) (.symbol s) = .ok pid ∧ getParameters (insertParam db s) [s] = .ok [pid] ∧
      (insertParam db s).images = db.images ∧ (insertParam db s).fps = db.fps ∧
      (∀ x q, resolve db (.symbol x) = .ok q → resolve (insertParam db s) (.symbol x) = .ok q) ∧
      (s ∉ db.params → pid = db.params.length + 1) ∧ (s ∈ db.params → insertParam db s = db) := by
  by_cases h : s ∈ db.params
  · have e : insertParam db s = db := by simp [insertParam, h]
    rw [e]
    exact ⟨db.params.idxOf s + 1, by simp [resolve, h], by simp [getParameters, h], rfl, rfl, fun x q hx => hx,
      fun h' => absurd h h', fun _ => rfl⟩
  · have e : insertParam db s = { db with params := db.params ++ [s] } := by simp [insertParam, h]
    rw [e]
    refine ⟨(db.params ++ [s]).idxOf s + 1, by simp [resolve], by simp [getParameters], rfl, rfl, ?_, ?_,
      fun h' => absurd h' h⟩
    · intro x q hx
      simp only [resolve] at hx ⊢
      split at hx
      · next hm =>
        rw [if_pos (by simp [hm]), List.idxOf_append_of_mem hm]
        exact hx
      · cases hx
    · intro _
      rw [List.idxOf_append_of_notMem h]
      simp

/-- C273: a parameter entered with a symbol can be referred to by it: `get_parameters` and `fingerprint_entry` give it
the same number, the next one if the symbol is new.  No other symbol changes its number, images and values stay, and
different symbols have different numbers. -/
theorem C273_named {I V : Type} (db : FDB I V) (s : String) (hs : s ≠ "") :
    ∃ db' pid, parameterEntry db (some s) = .ok db' ∧ resolve db' (.symbol s) = .ok pid ∧
      getParameters db' [s] = .ok [pid] ∧ db'.images = db.images ∧ db'.fps = db.fps ∧
      (∀ x q, resolve db (.symbol x) = .ok q → resolve db' (.symbol x) = .ok q) ∧
      (∀ x, resolve db' (.symbol x) = .ok pid → x = s) ∧
      (s ∉ db.params → pid = db.params.length + 1) ∧ (s ∈ db.params → db' = db) := by
  obtain ⟨pid, h1, h2, h3, h4, h5, h6, h7⟩ := insertParam_spec db s
  refine ⟨insertParam db s, pid, by simp [parameterEntry, hs], h1, h2, h3, h4, h5, ?_, h6, h7⟩
  intro x hx
  simp only [resolve] at h1 hx
  split at h1
  · split at hx
    · next hm1 hm2 =>
      simp at h1 hx
      exact (List.idxOf_inj hm2).1 (by omega)
    · cases hx
  · cases h1

/-- C273: without a symbol the number of the parameter becomes its symbol. -/
theorem C273_unnamed_partial {I V : Type} (db : FDB I V) (s : Option String) (hs : s = none ∨ s = some "")
    (hne : db.params ≠ []) (hf : toString (db.params.length + 1) ∉ db.params) :
    ∃ db', parameterEntry db s = .ok db' ∧ db'.params = db.params ++ [toString (db.params.length + 1)] ∧
      resolve db' (.symbol (toString (db.params.length + 1))) = .ok (db.params.length + 1) ∧
      db'.images = db.images ∧ db'.fps = db.fps ∧
      (∀ x q, resolve db (.symbol x) = .ok q → resolve db' (.symbol x) = .ok q) := by
  obtain ⟨pid, h1, h2, h3, h4, h5, h6, h7⟩ := insertParam_spec db (toString (db.params.length + 1))
  have h6 := h6 hf
  subst h6
  have hl : ¬ db.params.length = 0 := by simpa using hne
  refine ⟨insertParam db (toString (db.params.length + 1)), ?_, ?_, h1, h3, h4, h5⟩
  · rcases hs with rfl | rfl <;> simp only [parameterEntry, Option.getD_none, Option.getD_some, if_true, hl, if_false]
  · simp only [insertParam, hf, if_false]

example : (⟨[], ["a"], []⟩ : FDB Nat Nat).params ≠ [] ∧
    toString ((⟨[], ["a"], []⟩ : FDB Nat Nat).params.length + 1) ∉ (⟨[], ["a"], []⟩ : FDB Nat Nat).params := by
  decide

/-- C273 fails: the first parameter of a database cannot be entered without a symbol, the call raises TypeError. -/
theorem C273_first_violated {I V : Type} (images : List I) (fps : List (Nat × Nat × V)) :
    parameterEntry (⟨images, [], fps⟩ : FDB I V) none = .error .type := rfl

/-- C273 fails: when an earlier parameter has the next number as its symbol, the parameter is not entered, and its
symbol stands for the earlier one. -/
theorem C273_taken_violated {I V : Type} (images : List I) (fps : List (Nat × Nat × V)) :
    parameterEntry (⟨images, ["2"], fps⟩ : FDB I V) none = .ok ⟨images, ["2"], fps⟩ ∧
    resolve (⟨images, ["2"], fps⟩ : FDB I V) (.symbol "2") = .ok 1 := by
  constructor
  · have : toString (1 + 1) ∈ ["2"] := by decide
    simp only [parameterEntry, insertParam, Option.getD_none, if_true, List.length_singleton, one_ne_zero, if_false, this]
  · simp [resolve]

/-- C134: what a successful `fingerprint_entry` does. -/
theorem C134_entry {I V : Type} [DecidableEq I] (db db' : FDB I V) (hr : Reach db) (a : I) (p : ParamRef) (v : V)
    (h : fingerprintEntry db a p v = .ok db') :
    ∃ pid, resolve db p = .ok pid ∧
      stored db' a pid = some ((stored db a pid).getD v) ∧
      ∀ b q, (b, q) ≠ (a, pid) → stored db' b q = stored db b q := by
  have hw := wf_of_reach hr
  have hw' := wf_of_reach (.fp a p v hr h)
  obtain ⟨pid, hp, ha, ⟨rfl, f, hf, h1, h2⟩ | ⟨rfl, hf⟩⟩ := fingerprintEntry_cases h
  · refine ⟨pid, hp, ?_, fun _ _ _ => rfl⟩
    have : stored db' a pid = some f.2.2 := by
      rw [stored_iff hw]
      refine ⟨ha, ?_⟩
      rw [← h1, ← h2]; exact hf
    rw [this]; rfl
  · refine ⟨pid, hp, ?_, ?_⟩
    · have hn : stored db a pid = none := by
        cases hs : stored db a pid with
        | none => rfl
        | some w =>
          obtain ⟨_, hm⟩ := (stored_iff hw a pid w).1 hs
          exact absurd ⟨rfl, rfl⟩ (hf _ hm)
      rw [hn, stored_iff hw']
      exact ⟨ha, by simp⟩
    · intro b q hne
      apply Option.ext
      intro w
      rw [stored_iff hw', stored_iff hw]
      constructor
      · rintro ⟨hb, hm⟩
        refine ⟨hb, ?_⟩
        simp only [List.mem_append, List.mem_singleton, Prod.mk.injEq] at hm
        rcases hm with hm | ⟨h1, h2, _⟩
        · exact hm
        · exfalso
          apply hne
          have : db.images.idxOf b = db.images.idxOf a := by simpa using h1
          rw [(List.idxOf_inj hb).1 this, h2]
      · rintro ⟨hb, hm⟩
        exact ⟨hb, by simp [hm]⟩

/-- C134: an entry for an unknown image or an unknown symbol raises (a TypeError in both cases), so every entry
that returns is stored under an image and a symbol of the database. -/
theorem C134_errors {I V : Type} [DecidableEq I] (db : FDB I V) (a : I) (v : V) :
    (∀ p, a ∉ db.images → fingerprintEntry db a p v = .error .type) ∧
    (∀ s, s ∉ db.params → fingerprintEntry db a (.symbol s) v = .error .type) := by
  refine ⟨?_, ?_⟩
  · intro p ha
    cases p with
    | pid k => simp [fingerprintEntry, resolve, ha]
    | symbol s =>
      by_cases hs : s ∈ db.params <;> simp [fingerprintEntry, resolve, ha, hs]
  · intro s hs
    simp [fingerprintEntry, resolve, hs]

/-- An image, a parameter, a value: reachable, and the second value is not stored. -/
example : ∃ db db' : FDB ℕ ℤ, Reach db ∧ stored db 5 1 = some 3 ∧
    fingerprintEntry db 5 (.symbol "f") 4 = .ok db' ∧ stored db' 5 1 = some 3 := by
  refine ⟨⟨[5], ["f"], [(1, 1, 3)]⟩, ⟨[5], ["f"], [(1, 1, 3)]⟩, ?_, by decide, rfl, by decide⟩
  have h1 : Reach (⟨[5], [], []⟩ : FDB ℕ ℤ) := .image ⟨1, 5⟩ .empty
  have h2 : Reach (⟨[5], ["f"], []⟩ : FDB ℕ ℤ) := .param (some "f") h1 rfl
  exact .fp 5 (.symbol "f") 3 h2 rfl

theorem mem_matching {I V : Type} [DecidableEq I] {db : FDB I V} (hw : WF db) (ids : List I) (pids : List Nat)
    (a : I) (p : Nat) (v : V) :
    (a, p, v) ∈ matching db ids pids ↔ a ∈ ids ∧ p ∈ pids ∧ stored db a p = some v := by
  simp only [matching, List.mem_filterMap]
  rw [stored_iff hw]
  constructor
  · rintro ⟨f, hf, h⟩
    cases hi : imageOf db f.1 with
    | none => rw [hi] at h; cases h
    | some b =>
      rw [hi] at h
      simp only at h
      split at h
      · rename_i hc
        simp only [Option.some.injEq, Prod.mk.injEq] at h
        obtain ⟨rfl, rfl, rfl⟩ := h
        obtain ⟨h1, h2⟩ := imageOf_eq hw.images hi
        exact ⟨hc.1, hc.2, h1, h2 ▸ hf⟩
      · cases h
  · rintro ⟨h1, h2, h3, h4⟩
    refine ⟨_, h4, ?_⟩
    simp [imageOf_idx h3, h1, h2]

theorem matching_pairwise {I V : Type} [DecidableEq I] {db : FDB I V} (hw : WF db) (ids : List I)
    (pids : List Nat) :
    (matching db ids pids).Pairwise fun r s => ¬ (r.1 = s.1 ∧ r.2.1 = s.2.1) := by
  simp only [matching]
  rw [List.pairwise_filterMap]
  refine hw.keys.imp ?_
  intro f g hfg r hr s hs ⟨h1, h2⟩
  apply hfg
  cases hi : imageOf db f.1 with
  | none => rw [hi] at hr; cases hr
  | some b =>
    cases hj : imageOf db g.1 with
    | none => rw [hj] at hs; cases hs
    | some c =>
      rw [hi] at hr; rw [hj] at hs
      simp only at hr hs
      split at hr
      · split at hs
        · simp only [Option.some.injEq] at hr hs
          subst hr; subst hs
          simp only at h1 h2
          obtain ⟨_, e1⟩ := imageOf_eq hw.images hi
          obtain ⟨_, e2⟩ := imageOf_eq hw.images hj
          exact ⟨by rw [e1, e2, h1], h2⟩
        · cases hs
      · cases hr

theorem mapM_fitRow {V : Type} (n : Nat) (l : List (List V)) (h : ∀ r ∈ l, r.length = n) :
    l.mapM (fitRow n) = .ok l := by
  induction l with
  | nil => rfl
  | cons r l ih =>
    rw [List.mapM_cons, ih fun x hx => h x (by simp [hx])]
    simp [fitRow, h r (by simp)]
    rfl

/-- The values of an image, one per parameter in the order of the request. -/
def rowOf {I V : Type} [DecidableEq I] (zero : V) (db : FDB I V) (pids : List Nat) (a : I) : List V :=
  pids.map fun p => (stored db a p).getD zero

/-- C58 (partial: at least two identifiers, requested in ascending order, every value present; the columns only up
to their order): after any history, `get_fingerprints` returns one row per requested identifier, in the requested
order, made of exactly the values stored for the requested parameters.  For one parameter the matrix is exactly the
stored values. -/
theorem C58_partial {I V : Type} [LinearOrder I] (zero : V) (order : List (Nat × V) → List (Nat × V))
    (ho : IsShuffle order) (db : FDB I V) (hr : Reach db) (ids : List I) (pids : List Nat)
    (hids : ids.Pairwise (· < ·)) (h2 : 2 ≤ ids.length) (hp : pids.Nodup) (hne : pids ≠ [])
    (hall : ∀ a ∈ ids, ∀ p ∈ pids, ∃ v, stored db a p = some v) :
    ∃ rows, getFingerprints zero order db ids pids = .ok rows ∧
      List.Forall₂ (fun row a => List.Perm row (rowOf zero db pids a)) rows ids := by
  have hw := wf_of_reach hr
  have hG : ∀ a ∈ ids, (((matching db ids pids).filter fun r => r.1 = a).map (·.2)).Perm
      (pids.map fun p => (p, (stored db a p).getD zero)) := by
    intro a ha
    have hpw := matching_pairwise hw ids pids
    rw [List.perm_ext_iff_of_nodup]
    · rintro ⟨p, v⟩
      simp only [List.mem_map, List.mem_filter, decide_eq_true_eq, Prod.mk.injEq]
      constructor
      · rintro ⟨⟨b, q, w⟩, ⟨hm, rfl⟩, hqw⟩
        simp only [Prod.mk.injEq] at hqw
        obtain ⟨rfl, rfl⟩ := hqw
        rw [mem_matching hw] at hm
        exact ⟨q, hm.2.1, rfl, by rw [hm.2.2]; rfl⟩
      · rintro ⟨q, hq, rfl, hv⟩
        obtain ⟨w, hs⟩ := hall a ha q hq
        rw [hs] at hv
        simp only [Option.getD_some] at hv
        subst hv
        exact ⟨(a, q, w), ⟨(mem_matching hw ids pids a q w).2 ⟨ha, hq, hs⟩, rfl⟩, rfl⟩
    · refine List.Nodup.of_map (fun x => x.1) ?_
      rw [List.map_map]
      unfold List.Nodup
      rw [List.pairwise_map, List.pairwise_filter]
      refine hpw.imp ?_
      intro r s hrs h1 h2 he
      simp only [decide_eq_true_eq] at h1 h2
      exact hrs ⟨h1.trans h2.symm, he⟩
    · exact hp.map fun x y hxy => (Prod.mk.inj hxy).1
  have has : sortAsc id ((matching db ids pids).map (·.1)).dedup = ids := by
    have hids' : ids.Pairwise (fun a b => id a ≤ id b) := hids.imp fun h => h.le
    have hnd : ids.Nodup := hids.imp fun h => h.ne
    refine List.Perm.eq_of_pairwise' (r := fun a b : I => a ≤ b) (sortAsc_pairwise id _) hids' ?_
    refine (sortAsc_perm _ _).trans ?_
    rw [List.perm_ext_iff_of_nodup (List.nodup_dedup _) hnd]
    intro a
    rw [List.mem_dedup, List.mem_map]
    constructor
    · rintro ⟨⟨b, q, w⟩, hm, rfl⟩
      exact ((mem_matching hw ids pids b q w).1 hm).1
    · intro ha
      obtain ⟨p, hpm⟩ := List.exists_mem_of_ne_nil _ hne
      obtain ⟨v, hv⟩ := hall a ha p hpm
      exact ⟨(a, p, v), (mem_matching hw ids pids a p v).2 ⟨ha, hpm, hv⟩, rfl⟩
  have hrows : ∀ a ∈ ids, ((order (((matching db ids pids).filter fun r => r.1 = a).map (·.2))).map (·.2)).Perm
      (rowOf zero db pids a) := by
    intro a ha
    have := ((ho _).trans (hG a ha)).map (fun x : Nat × V => x.2)
    rw [List.map_map] at this
    exact this
  have hg : groups order (matching db ids pids) = ids.map fun a =>
      (order (((matching db ids pids).filter fun r => r.1 = a).map (·.2))).map (·.2) := by
    simp only [groups, has]
  have hlen : ∀ r ∈ groups order (matching db ids pids), r.length = pids.length := by
    rw [hg]
    intro r hr
    obtain ⟨a, ha, rfl⟩ := List.mem_map.1 hr
    rw [(hrows a ha).length_eq]
    simp [rowOf]
  refine ⟨groups order (matching db ids pids), ?_, ?_⟩
  · simp only [getFingerprints, mapM_fitRow _ _ hlen]
    rw [if_neg (by omega)]
    simp [hg]
  · rw [hg, List.forall₂_map_left_iff, List.forall₂_same]
    exact hrows

/-- C58 (partial, as above, for one parameter): exactly the stored values. -/
theorem C58_one_parameter_partial {I V : Type} [LinearOrder I] (zero : V)
    (order : List (Nat × V) → List (Nat × V)) (ho : IsShuffle order) (db : FDB I V) (hr : Reach db)
    (ids : List I) (p : Nat) (hids : ids.Pairwise (· < ·)) (h2 : 2 ≤ ids.length)
    (hall : ∀ a ∈ ids, ∃ v, stored db a p = some v) :
    getFingerprints zero order db ids [p] = .ok (ids.map fun a => [(stored db a p).getD zero]) := by
  obtain ⟨rows, h, hf⟩ := C58_partial zero order ho db hr ids [p] hids h2 (by simp) (by simp)
    (by simpa using hall)
  rw [h]
  congr 1
  clear h hids h2 hall
  induction hf with
  | nil => rfl
  | cons h _ ih =>
    simp only [List.map_cons, ih, List.cons.injEq, and_true]
    exact List.perm_singleton.1 h

/-- Two images with two parameters each. -/
def sample : FDB ℕ ℤ := ⟨[5, 3], ["f", "g"], [(1, 1, 51), (1, 2, 52), (2, 1, 31), (2, 2, 32)]⟩

theorem sample_reach : Reach sample := by
  have h1 : Reach (⟨[5], [], []⟩ : FDB ℕ ℤ) := .image ⟨1, 5⟩ .empty
  have h2 : Reach (⟨[5, 3], [], []⟩ : FDB ℕ ℤ) := .image ⟨2, 3⟩ h1
  have h3 : Reach (⟨[5, 3], ["f"], []⟩ : FDB ℕ ℤ) := .param (some "f") h2 rfl
  have h4 : Reach (⟨[5, 3], ["f", "g"], []⟩ : FDB ℕ ℤ) := .param (some "g") h3 rfl
  have h5 := Reach.fp 5 (.symbol "f") 51 h4 rfl
  have h6 := Reach.fp 5 (.symbol "g") 52 h5 rfl
  have h7 := Reach.fp 3 (.symbol "f") 31 h6 rfl
  exact Reach.fp 3 (.symbol "g") 32 h7 rfl

example : [3, 5].Pairwise (· < ·) ∧ [1, 2].Nodup ∧
    ∀ a ∈ [3, 5], ∀ p ∈ [1, 2], ∃ v, stored sample a p = some v := by
  refine ⟨by simp, by simp, ?_⟩
  simp only [List.mem_cons, List.not_mem_nil, or_false]
  rintro a (rfl | rfl) p (rfl | rfl)
  · exact ⟨31, by decide⟩
  · exact ⟨32, by decide⟩
  · exact ⟨51, by decide⟩
  · exact ⟨52, by decide⟩

/-- C58 fails: the rows come in ascending order of the identifiers, not in the requested one, also when SQLite
keeps the order of entry inside a row. -/
theorem C58_order_violated : Reach sample ∧
    getFingerprints 0 id sample [5, 3] [1, 2] = .ok [[31, 32], [51, 52]] ∧
    [5, 3].map (rowOf 0 sample [1, 2]) = [[51, 52], [31, 32]] :=
  ⟨sample_reach, by decide, by decide⟩

/-- C58 fails: whatever the order in which SQLite concatenates (as long as it looks at the stored rows only), the
columns cannot follow both of two requests that list the parameters in different orders. -/
theorem C58_columns_violated (order : List (Nat × ℤ) → List (Nat × ℤ)) :
    ¬ (getFingerprints 0 order sample [3, 5] [1, 2] = .ok ([3, 5].map (rowOf 0 sample [1, 2])) ∧
       getFingerprints 0 order sample [3, 5] [2, 1] = .ok ([3, 5].map (rowOf 0 sample [2, 1]))) := by
  rintro ⟨h1, h2⟩
  have hm : matching sample [3, 5] [1, 2] = matching sample [3, 5] [2, 1] := by decide
  have : getFingerprints 0 order sample [3, 5] [1, 2] = getFingerprints 0 order sample [3, 5] [2, 1] := by
    simp only [getFingerprints, hm]
    rfl
  rw [h1, h2] at this
  revert this
  decide

/-- C58 fails: one identifier is an SQL error, for every database. -/
theorem C58_single_violated {I V : Type} [LinearOrder I] (zero : V) (order : List (Nat × V) → List (Nat × V))
    (db : FDB I V) (a : I) (pids : List Nat) :
    getFingerprints zero order db [a] pids = .error .other := by
  simp [getFingerprints]

/-- C58 fails: an identifier without values gets the row of the next one, and the zeros go to the last row. -/
theorem C58_missing_violated : ∃ db : FDB ℕ ℤ, Reach db ∧
    getFingerprints 0 id db [3, 5] [1] = .ok [[51], [0]] ∧ stored db 5 1 = some 51 ∧ stored db 3 1 = none := by
  have h1 : Reach (⟨[5], [], []⟩ : FDB ℕ ℤ) := .image ⟨1, 5⟩ .empty
  have h2 : Reach (⟨[5, 3], [], []⟩ : FDB ℕ ℤ) := .image ⟨2, 3⟩ h1
  have h3 : Reach (⟨[5, 3], ["f"], []⟩ : FDB ℕ ℤ) := .param (some "f") h2 rfl
  exact ⟨_, Reach.fp 5 (.symbol "f") 51 h3 rfl, by decide, by decide, by decide⟩

/-- C58 fails: an image with one value of the requested several gets it in all columns. -/
theorem C58_broadcast_violated : ∃ db : FDB ℕ ℤ, Reach db ∧
    getFingerprints 0 id db [3, 5] [1, 2] = .ok [[51, 51], [0, 0]] ∧ stored db 5 1 = some 51 ∧
    stored db 5 2 = none := by
  have h1 : Reach (⟨[5], [], []⟩ : FDB ℕ ℤ) := .image ⟨1, 5⟩ .empty
  have h2 : Reach (⟨[5, 3], [], []⟩ : FDB ℕ ℤ) := .image ⟨2, 3⟩ h1
  have h3 : Reach (⟨[5, 3], ["f"], []⟩ : FDB ℕ ℤ) := .param (some "f") h2 rfl
  have h4 : Reach (⟨[5, 3], ["f", "g"], []⟩ : FDB ℕ ℤ) := .param (some "g") h3 rfl
  exact ⟨_, Reach.fp 5 (.symbol "f") 51 h4 rfl, by decide, by decide, by decide⟩

/-! ## C135: the identifier returned by `image_entry` -/

/-- C135 (partial: the caller uses `unique_id`, or the two identifiers agree): after `image_entry(d)` values can be
entered for the image. -/
theorem C135_partial {I V : Type} [DecidableEq I] (db : FDB I V) (d : AseRow I) (p : Nat) (v : V) :
    (∃ db', fingerprintEntry (imageEntry db d).1 d.uniqueId (.pid p) v = .ok db') ∧
    (d.id = d.uniqueId → ∃ db', fingerprintEntry (imageEntry db d).1 (imageEntry db d).2 (.pid p) v = .ok db') := by
  have hm : d.uniqueId ∈ (imageEntry db d).1.images := by
    simp only [imageEntry]; split <;> simp_all
  constructor
  · simp [fingerprintEntry, resolve, hm]
  · intro h
    have : (imageEntry db d).2 = d.uniqueId := h
    simp [fingerprintEntry, resolve, this, hm]

/-- C135 fails: the identifier that `image_entry` returns is not the one under which the image is stored; using it
raises, for every database that does not hold it by accident. -/
theorem C135_violated {I V : Type} [DecidableEq I] (db : FDB I V) (d : AseRow I) (hne : d.id ≠ d.uniqueId)
    (hd : d.id ∉ db.images) (p : ParamRef) (v : V) :
    fingerprintEntry (imageEntry db d).1 (imageEntry db d).2 p v = .error .type := by
  refine (C134_errors _ _ v).1 p ?_
  simp only [imageEntry]
  split
  · exact hd
  · simp [hd, hne]

end CatLearn.DB
