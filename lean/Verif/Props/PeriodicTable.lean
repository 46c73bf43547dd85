import Verif.Model.PeriodicTable
import Verif.Spec.PeriodicTable
import Verif.Lemmas.MapM
import Mathlib.Tactic.Linarith
import Mathlib.Data.List.GetD
import Mathlib.Data.List.Rotate

/-!
# Properties of the elemental data functions (C148–C150)
-/

namespace CatLearn.Props

open CatLearn CatLearn.PeriodicTable CatLearn.Spec

/-! ### C148: outer electrons -/

private theorem digit_facts : ∀ k : Fin 10, (digit k).isDigit = true ∧ (digit k).toNat - 48 = k ∧
    (digit k).isAlpha = false ∧ digit k ≠ ' ' ∧ digit k ≠ 's' ∧ digit k ≠ 'p' ∧ digit k ≠ 'd' ∧
    digit k ≠ 'f' := by decide

private theorem letter_cases {c : Char} (h : c ∈ ['s', 'p', 'd', 'f']) :
    c = 's' ∨ c = 'p' ∨ c = 'd' ∨ c = 'f' := by simpa using h

private theorem shellCount_text (s : Shell) (h : s.Ok) : shellCount s.text = .ok s.count := by
  obtain ⟨n, c, k⟩ := s
  obtain ⟨hn, hc, h1, h2⟩ := h
  simp only at hn hc h1 h2
  have hal : c.isAlpha = true := by rcases letter_cases hc with rfl | rfl | rfl | rfl <;> decide
  by_cases hk1 : k = 1
  · subst hk1; simp [Shell.text, shellCount, hal]
  · by_cases hk : k < 10
    · obtain ⟨a, b, d, -⟩ := digit_facts ⟨k, hk⟩
      simp only at a b d
      simp [Shell.text, shellCount, hk1, hk, d, intOf, a, b]
    · obtain ⟨a, b, d, -⟩ := digit_facts ⟨k % 10, Nat.mod_lt _ (by decide)⟩
      obtain ⟨a', b', d', -⟩ := digit_facts ⟨k / 10, by omega⟩
      simp only at a b d a' b' d'
      simp [Shell.text, shellCount, hk1, hk, d, intOf, a, b, a', b']
      omega

private theorem mem_text (s : Shell) (h : s.Ok) (c : Char) (hc : c ∈ ['s', 'p', 'd', 'f', ' ']) :
    c ∈ s.text ↔ c = s.letter := by
  obtain ⟨n, l, k⟩ := s
  obtain ⟨hn, hl, h1, h2⟩ := h
  simp only at hn hl h1 h2
  have hd : ∀ k, k < 10 → c ≠ digit k := by
    intro k hk
    obtain ⟨-, -, -, a, b, d, e, f⟩ := digit_facts ⟨k, hk⟩
    simp only at a b d e f
    simp only [List.mem_cons, List.not_mem_nil, or_false] at hc
    rcases hc with rfl | rfl | rfl | rfl | rfl
    · exact Ne.symm b
    · exact Ne.symm d
    · exact Ne.symm e
    · exact Ne.symm f
    · exact Ne.symm a
  simp only [Shell.text, List.mem_append, List.mem_cons, List.not_mem_nil, or_false]
  constructor
  · rintro ((h | h) | h)
    · exact absurd h (hd n hn)
    · exact h
    · split at h
      · simp at h
      · split at h
        · simp only [List.mem_cons, List.not_mem_nil, or_false] at h
          exact absurd h (hd k (by omega))
        · simp only [List.mem_cons, List.not_mem_nil, or_false] at h
          rcases h with h | h
          · exact absurd h (hd _ (by omega))
          · exact absurd h (hd _ (Nat.mod_lt _ (by decide)))
  · intro h; exact .inl (.inr h)

private theorem electronsIn_cons (c : Char) (s : Shell) (l : List Shell) :
    electronsIn c (s :: l) = (if s.letter = c then s.count else 0) + electronsIn c l := by
  simp only [electronsIn, electrons, List.filter_cons, decide_eq_true_eq]
  split <;> simp

private theorem outerLoop_texts : ∀ (l : List Shell) (o : Outer), (∀ s ∈ l, s.Ok) →
    outerLoop (l.map Shell.text) o = .ok ⟨o.tot + electrons l, o.s + electronsIn 's' l,
      o.p + electronsIn 'p' l, o.d + electronsIn 'd' l, o.f + electronsIn 'f' l⟩ := by
  intro l
  induction l with
  | nil => intro o _; simp [outerLoop, electrons, electronsIn]
  | cons s l ih =>
    intro o h
    have hs := h s (by simp)
    rw [List.map_cons, outerLoop, shellCount_text s hs]
    simp only
    rw [ih _ fun t ht => h t (by simp [ht])]
    have m1 := mem_text s hs 's' (by simp)
    have m2 := mem_text s hs 'p' (by simp)
    have m3 := mem_text s hs 'd' (by simp)
    have m4 := mem_text s hs 'f' (by simp)
    have he : electrons (s :: l) = s.count + electrons l := by simp [electrons]
    simp only [electronsIn_cons, addShell, m1, m2, m3, m4, he]
    rcases letter_cases hs.2.1 with e | e | e | e <;> simp [e] <;> omega

private theorem text_no_space (s : Shell) (h : s.Ok) : ' ' ∉ s.text := by
  rw [mem_text s h ' ' (by simp)]
  rintro e
  have := h.2.1
  rw [← e] at this
  simp at this

/-- C148 (partial): for a configuration written with a noble gas core, whatever the core and the
shells, `n_outer` returns the number of electrons outside the core, and those in s, p, d and f
shells. -/
theorem C148_n_outer_partial (core : List Char) (hcore : ' ' ∉ core) (shells : List Shell)
    (h : ∀ s ∈ shells, s.Ok) :
    nOuter (words (core :: shells.map Shell.text)) =
      .ok ⟨electrons shells, electronsIn 's' shells, electronsIn 'p' shells, electronsIn 'd' shells,
        electronsIn 'f' shells⟩ := by
  have hx : ∀ l ∈ core :: shells.map Shell.text, ' ' ∉ l := by
    intro l hl
    rcases List.mem_cons.mp hl with rfl | hl
    · exact hcore
    · obtain ⟨s, hs, rfl⟩ := List.mem_map.mp hl
      exact text_no_space s (h s hs)
  rw [nOuter, words, List.splitOn_intercalate ' ' hx (by simp), List.drop_one, List.tail_cons,
    outerLoop_texts shells _ h]
  simp

example : nOuter (words ("[Ar]".toList :: [Shell.mk 3 'd' 6, ⟨4, 's', 2⟩].map Shell.text)) =
    .ok ⟨8, 2, 0, 6, 0⟩ := by
  have h : ∀ s ∈ [Shell.mk 3 'd' 6, ⟨4, 's', 2⟩], s.Ok := by
    intro s hs; simp at hs; rcases hs with rfl | rfl <;> simp [Shell.Ok]
  rw [C148_n_outer_partial _ (by decide) _ h]; decide

/-- C148 is violated: in a configuration without a core (`1s` of hydrogen, `1s2` of helium) the first
shell is taken for the core, and the number of outer electrons is always too small; for hydrogen and
helium it is 0. -/
theorem C148_n_outer_violated (shell : Shell) (shells : List Shell) (hs : shell.Ok)
    (h : ∀ s ∈ shells, s.Ok) :
    (∃ o, nOuter (words ((shell :: shells).map Shell.text)) = .ok o ∧
      o.tot + shell.count = electrons (shell :: shells) ∧ o.tot < electrons (shell :: shells)) ∧
    nOuter "1s".toList = .ok ⟨0, 0, 0, 0, 0⟩ ∧ nOuter "1s2".toList = .ok ⟨0, 0, 0, 0, 0⟩ := by
  refine ⟨⟨_, C148_n_outer_partial shell.text (text_no_space shell hs) shells h, ?_, ?_⟩, ?_, ?_⟩
  · simp [electrons, Nat.add_comm]
  · have := hs.2.2.1
    simp only [electrons, List.map_cons, List.sum_cons]; omega
  · decide +kernel
  · decide +kernel

example : (Shell.mk 1 's' 2).Ok := by simp [Shell.Ok]

/-! ### C149: the columns of the elemental parameters -/

/-- The values that belong to the labels of a parameter: the number itself; for the oxidation states
the smallest, the median and the largest; for the configuration the outer electrons (total, s, p, d, f);
for the block an indicator of s, p, d and f; the first ionisation energy. -/
def valuesOf (e : Elem) (p : String) : List (Option Rat) :=
  if p = "oxistates" then
    let l := e.oxistates.getD []
    [l.min?, some (median l), l.max?]
  else if p = "econf" then
    match nOuter e.econf with
    | .ok o => [some o.tot, some o.s, some o.p, some o.d, some o.f]
    | .error _ => []
  else if p = "block" then
    ['s', 'p', 'd', 'f'].map fun c => some (if e.block = c then 1 else 0)
  else if p = "ionenergies" then [some e.ionenergies1]
  else [e.plain p]

/-- The data of an element are complete for a parameter. -/
def DataOk (e : Elem) (p : String) : Prop :=
  (p = "oxistates" → ∃ l, l ≠ [] ∧ e.oxistates = some l) ∧
  (p = "econf" → ∃ o, nOuter e.econf = .ok o) ∧
  (p = "block" → e.block ∈ ['s', 'p', 'd', 'f'])

private theorem expand_ok (e : Elem) (p : String) (hs : isSpecial p = true) (hd : DataOk e p) :
    expand p (e.get p) = .ok (valuesOf e p) := by
  by_cases h1 : p = "oxistates"
  · obtain ⟨l, hl, he⟩ := hd.1 h1
    subst h1
    simp only [Elem.get, if_true, he, expand, valuesOf, Option.getD_some]
    cases hmin : l.min? with
    | none => simp at hmin; exact absurd hmin hl
    | some a =>
      cases hmax : l.max? with
      | none => simp at hmax; exact absurd hmax hl
      | some b => rfl
  · by_cases h2 : p = "econf"
    · obtain ⟨o, ho⟩ := hd.2.1 h2
      subst h2
      simp [Elem.get, expand, valuesOf, ho]
    · by_cases h3 : p = "block"
      · have hb := hd.2.2 h3
        subst h3
        rcases letter_cases hb with e | e | e | e <;>
          simp [Elem.get, expand, valuesOf, e, blockNumber]
      · by_cases h4 : p = "ionenergies"
        · subst h4; simp [Elem.get, expand, valuesOf]
        · simp [isSpecial, h1, h2, h3, h4] at hs

private theorem expandAll_ok (e : Elem) : ∀ params : List String, (∀ p ∈ params, DataOk e p) →
    expandAll (params.zip (params.map e.get)) =
      .ok (params.flatMap fun p => if isSpecial p then valuesOf e p else []) := by
  intro params
  induction params with
  | nil => intro _; rfl
  | cons p ps ih =>
    intro h
    rw [List.map_cons, List.zip_cons_cons, expandAll, ih fun q hq => h q (by simp [hq])]
    by_cases hs : isSpecial p = true
    · rw [if_pos hs, expand_ok e p hs (h p (by simp))]; simp [hs]
    · rw [if_neg hs]; simp [hs]

theorem valuesOf_plain (e : Elem) (p : String) (h : isSpecial p = false) :
    valuesOf e p = [e.plain p] ∧ e.get p = .num (e.plain p) := by
  simp only [isSpecial, Bool.or_eq_false_iff, decide_eq_false_iff_not] at h
  obtain ⟨⟨⟨h1, h2⟩, h3⟩, h4⟩ := h
  simp [valuesOf, Elem.get, h1, h2, h3, h4]

theorem valuesOf_length (e : Elem) (p : String) (hd : DataOk e p) (pre suf : String) :
    (valuesOf e p).length = (labelsOf pre suf p).length := by
  by_cases h1 : p = "oxistates"
  · subst h1; simp [valuesOf, labelsOf]
  · by_cases h2 : p = "econf"
    · obtain ⟨o, ho⟩ := hd.2.1 h2
      subst h2; simp [valuesOf, labelsOf, ho]
    · by_cases h3 : p = "block"
      · subst h3; simp [valuesOf, labelsOf]
      · by_cases h4 : p = "ionenergies"
        · subst h4; simp [valuesOf, labelsOf]
        · simp [valuesOf, labelsOf, h1, h2, h3, h4]

theorem valuesOf_nParams (e : Elem) : ∀ params : List String, (∀ p ∈ params, DataOk e p) →
    (params.flatMap (valuesOf e)).length = nParams params := by
  intro params
  induction params with
  | nil => intro _; rfl
  | cons p ps ih =>
    intro h
    have hp := valuesOf_length e p (h p (by simp)) "" ""
    have := ih fun q hq => h q (by simp [hq])
    rw [List.flatMap_cons, List.length_append, hp, this]
    simp only [nParams, List.map_cons, List.sum_cons, Nat.add_right_cancel_iff]
    by_cases h1 : p = "oxistates"
    · subst h1; simp [labelsOf]
    · by_cases h2 : p = "econf"
      · subst h2; simp [labelsOf]
      · by_cases h3 : p = "block"
        · subst h3; simp [labelsOf]
        · by_cases h4 : p = "ionenergies"
          · subst h4; simp [labelsOf]
          · simp [labelsOf, h1, h2, h3, h4]

private theorem zip_flatMap {A B C : Type} (f : A → List B) (g : A → List C) : ∀ l : List A,
    (∀ a ∈ l, (f a).length = (g a).length) →
    (l.flatMap f).zip (l.flatMap g) = l.flatMap fun a => (f a).zip (g a) := by
  intro l
  induction l with
  | nil => intro _; rfl
  | cons a l ih =>
    intro h
    rw [List.flatMap_cons, List.flatMap_cons, List.flatMap_cons, List.zip_append (h a (by simp)),
      ih fun b hb => h b (by simp [hb])]

theorem line_ok (table : Nat → Option Elem) (plain special : List String) (z : Nat) (e : Elem)
    (hz : table z = some e) (hp : ∀ p ∈ plain, isSpecial p = false)
    (hs : ∀ p ∈ special, isSpecial p = true) (hd : ∀ p ∈ plain ++ special, DataOk e p) :
    line table (plain ++ special) z = .ok ((plain ++ special).flatMap (valuesOf e)) := by
  have hcount : (plain ++ special).countP isSpecial = special.length := by
    rw [List.countP_append, List.countP_eq_zero.mpr (fun p h => by simp [hp p h]),
      List.countP_eq_length.mpr hs, Nat.zero_add]
  have hstart : lineStart (plain ++ special) ((plain ++ special).map e.get) = plain.map e.get := by
    rw [lineStart, hcount, List.map_append, List.length_append, List.length_map, List.length_map,
      Nat.add_sub_cancel, List.take_left' (by simp)]
  have hfl : (plain.map e.get).mapM toFloat = .ok (plain.map e.plain) := by
    have := MapM.mapM_ok_map toFloat (fun r => match r with | .num v => v | _ => none) (plain.map e.get)
      (by
        intro r hr
        obtain ⟨p, hp', rfl⟩ := List.mem_map.mp hr
        rw [(valuesOf_plain e p (hp p hp')).2]; rfl)
    rw [this, List.map_map]
    congr 1
    apply List.map_congr_left
    intro p hp'
    simp only [Function.comp, (valuesOf_plain e p (hp p hp')).2]
  have h1 : plain.flatMap (valuesOf e) = plain.map e.plain := by
    rw [← List.flatMap_singleton' (plain.map e.plain), List.flatMap_map]
    apply List.flatMap_congr
    intro p hp'
    exact (valuesOf_plain e p (hp p hp')).1
  have h2 : (plain.flatMap fun p => if isSpecial p then valuesOf e p else []) = [] := by
    rw [List.flatMap_eq_nil_iff]
    intro p hp'; simp [hp p hp']
  have h3 : (special.flatMap fun p => if isSpecial p then valuesOf e p else []) =
      special.flatMap (valuesOf e) := by
    apply List.flatMap_congr
    intro p hp'; simp [hs p hp']
  simp only [line, getParams, hz]
  rw [expandAll_ok e _ hd, hstart, hfl]
  simp only
  rw [List.flatMap_append, List.flatMap_append, h1, h2, h3, List.nil_append]

/-- C149 (partial): if the parameters with several columns stand at the end of `params` and the data of
the elements are complete, `list_mendeleev_params` gives one row per atom, in order, and in every row
the value in each column is the one announced by the label `make_labels` gives to that column. -/
theorem C149_columns_match_labels_partial (table : Nat → Option Elem) (numbers : List Nat)
    (hn : numbers ≠ []) (elem : Nat → Elem) (plain special : List String)
    (hz : ∀ z ∈ numbers, table z = some (elem z)) (hp : ∀ p ∈ plain, isSpecial p = false)
    (hs : ∀ p ∈ special, isSpecial p = true)
    (hd : ∀ z ∈ numbers, ∀ p ∈ plain ++ special, DataOk (elem z) p) (pre suf : String) :
    ∃ rows, listParams table numbers (plain ++ special) = .ok rows ∧ rows.length = numbers.length ∧
      ∀ i (hi : i < numbers.length), ∃ row, rows[i]? = some row ∧
        row.length = (makeLabels (plain ++ special) pre suf).length ∧
        row.zip (makeLabels (plain ++ special) pre suf) =
          (plain ++ special).flatMap fun p => (valuesOf (elem numbers[i]) p).zip (labelsOf pre suf p) := by
  have hrows : numbers.mapM (line table (plain ++ special)) =
      .ok (numbers.map fun z => (plain ++ special).flatMap (valuesOf (elem z))) :=
    MapM.mapM_ok_map _ _ _ fun z h => line_ok table plain special z (elem z) (hz z h) hp hs (hd z h)
  refine ⟨numbers.map fun z => (plain ++ special).flatMap (valuesOf (elem z)), ?_, by simp, ?_⟩
  · have hne : (numbers.map fun z => (plain ++ special).flatMap (valuesOf (elem z))) ≠ [] := by
      simpa using hn
    simp only [listParams, hrows, if_neg hne]
    rw [if_pos]
    rw [List.all_eq_true]
    intro r hr
    obtain ⟨z, h, rfl⟩ := List.mem_map.mp hr
    simpa using valuesOf_nParams (elem z) _ (hd z h)
  · intro i hi
    have hd' := hd numbers[i] (List.getElem_mem hi)
    refine ⟨(plain ++ special).flatMap (valuesOf (elem numbers[i])), by simp [hi], ?_, ?_⟩
    · have : ∀ l : List String, (∀ p ∈ l, DataOk (elem numbers[i]) p) →
          (l.flatMap (valuesOf (elem numbers[i]))).length = (makeLabels l pre suf).length := by
        intro l
        induction l with
        | nil => intro _; rfl
        | cons p ps ih =>
          intro h
          simp only [makeLabels, List.flatMap_cons, List.length_append] at ih ⊢
          rw [ih fun q hq => h q (by simp [hq]), valuesOf_length _ p (h p (by simp)) pre suf]
      exact this _ hd'
    · exact zip_flatMap _ _ _ fun p h => valuesOf_length _ p (hd' p h) pre suf

/-- C149 is violated: if a parameter with its own expansion is named before an ordinary one, every call
for at least one atom raises an exception. -/
theorem C149_columns_match_labels_violated (table : Nat → Option Elem) (numbers : List Nat)
    (hn : numbers ≠ []) (params : List String) (i j : Nat) (p q : String) (hij : i < j)
    (hp : params[i]? = some p) (hps : isSpecial p = true) (hq : params[j]? = some q)
    (hqs : isSpecial q = false) :
    ∃ err, listParams table numbers params = .error err := by
  obtain ⟨z, hz⟩ := List.exists_mem_of_ne_nil _ hn
  have hline : ∃ e, line table params z = .error e := by
    cases ht : table z with
    | none => exact ⟨.key, by simp [line, getParams, ht]⟩
    | some e =>
      set m := params.length - params.countP isSpecial with hm
      have hex : ∃ r ∈ (params.take m), isSpecial r = true := by
        by_contra hno
        push Not at hno
        have h1 : (params.take m).countP isSpecial = 0 := by
          rw [List.countP_eq_zero]; intro r hr; simpa using hno r hr
        have h2 : params.countP isSpecial = (params.drop m).countP isSpecial := by
          conv_lhs => rw [← List.take_append_drop m params]
          rw [List.countP_append, h1, Nat.zero_add]
        have hle := List.countP_le_length (p := isSpecial) (l := params)
        have h3 : (params.drop m).countP isSpecial = (params.drop m).length := by
          rw [← h2, List.length_drop]; omega
        have h4 := List.countP_eq_length.mp h3
        have hj : j < m := by
          by_contra hge
          have : q ∈ params.drop m := by
            refine List.mem_of_getElem? (i := j - m) ?_
            rw [List.getElem?_drop, ← hq]; congr 1; omega
          rw [h4 q this] at hqs; simp at hqs
        have : p ∈ params.take m := by
          refine List.mem_of_getElem? (i := i) ?_
          rw [List.getElem?_take_of_lt (by omega), hp]
        exact hno p this hps
      obtain ⟨r, hr, hrs⟩ := hex
      have herr : ∃ err, (lineStart params (params.map e.get)).mapM toFloat = .error err := by
        apply MapM.mapM_error_of_mem
        refine ⟨e.get r, ?_, ?_⟩
        · rw [lineStart, List.length_map, ← List.map_take]
          exact List.mem_map_of_mem hr
        · simp only [isSpecial, Bool.or_eq_true, decide_eq_true_eq] at hrs
          rcases hrs with ((rfl | rfl) | rfl) | rfl
          · exact ⟨.value, rfl⟩
          · exact ⟨.value, rfl⟩
          · exact ⟨.value, rfl⟩
          · exact ⟨.type, rfl⟩
      obtain ⟨err, herr⟩ := herr
      simp only [line, getParams, ht, herr]
      cases expandAll (params.zip (params.map e.get)) with
      | error e' => exact ⟨e', rfl⟩
      | ok b => exact ⟨err, rfl⟩
  obtain ⟨err, herr⟩ := MapM.mapM_error_of_mem (line table params) numbers ⟨z, hz, hline⟩
  exact ⟨err, by simp [listParams, herr]⟩

example : (["block", "atomic_number"] : List String)[0]? = some "block" ∧ isSpecial "block" = true ∧
    isSpecial "atomic_number" = false := by decide

example : ∃ e : Elem, ∀ p ∈ ["atomic_number"] ++ ["oxistates", "block", "econf", "ionenergies"],
    DataOk e p := by
  refine ⟨⟨fun _ => some 26, some [6, 3, 2, 0, -2], "[Ar] 3d6 4s2".toList, 'd', 8⟩, ?_⟩
  intro p _
  exact ⟨fun _ => ⟨_, by simp, rfl⟩, fun _ => ⟨⟨8, 2, 0, 6, 0⟩, by decide +kernel⟩, fun _ => by simp⟩

/-- C149 is violated: for an element without oxidation states (helium, neon, argon, radon) or without an
entry for them (93 to 103), asking for the oxidation states raises an exception instead of giving NaN. -/
theorem C149_no_oxistates_violated (table : Nat → Option Elem) (numbers : List Nat) (z : Nat)
    (hz : z ∈ numbers) (e : Elem) (he : table z = some e)
    (hox : e.oxistates = none ∨ e.oxistates = some []) (params : List String)
    (hp : "oxistates" ∈ params) : ∃ err, listParams table numbers params = .error err := by
  have hex : ∀ l : List String, "oxistates" ∈ l → ∃ err, expandAll (l.zip (l.map e.get)) = .error err := by
    intro l
    induction l with
    | nil => intro h; simp at h
    | cons p ps ih =>
      intro h
      rw [List.map_cons, List.zip_cons_cons, expandAll]
      by_cases hp : p = "oxistates"
      · subst hp
        have : ∃ err, expand "oxistates" (e.get "oxistates") = .error err := by
          rcases hox with h | h
          · exact ⟨.type, by simp [Elem.get, h, expand]⟩
          · exact ⟨.value, by simp [Elem.get, h, expand]⟩
        obtain ⟨err, herr⟩ := this
        rw [if_pos (by decide), herr]
        exact ⟨err, by cases expandAll (ps.zip (ps.map e.get)) <;> rfl⟩
      · rcases List.mem_cons.mp h with h | h
        · exact absurd h.symm hp
        · obtain ⟨err, herr⟩ := ih h
          rw [herr]
          cases (if isSpecial p = true then expand p (e.get p) else .ok []) with
          | error e' => exact ⟨e', rfl⟩
          | ok a => exact ⟨err, rfl⟩
  obtain ⟨err, herr⟩ := hex params hp
  have hline : line table params z = .error err := by
    simp only [line, getParams, he, herr]
  obtain ⟨err', h'⟩ := MapM.mapM_error_of_mem (line table params) numbers ⟨z, hz, err, hline⟩
  exact ⟨err', by simp [listParams, h']⟩

example : ("oxistates" : String) ∈ ["atomic_number", "oxistates"] := by simp

/-! ### C150: reading a formula -/

private theorem matchDecimal_none (c : Char) (t : List Char) (h : c.isDigit = false) (hdot : c ≠ '.') (hp : c ≠ '+') (hm : c ≠ '-') :
    matchDecimal (c :: t) = none := by
  unfold matchDecimal
  simp only [hp, hm, or_self, if_false]
  rw [List.dropWhile_cons, h]
  simp only [Bool.false_eq_true, if_false]
  split
  · rename_i r hr
    simp only [List.cons.injEq] at hr
    exact absurd hr.1 hdot
  · rfl

private theorem take_drop (ds t : List Char) (hd : ∀ c ∈ ds, c.isDigit = true) (ht : ∀ c, t.head? = some c → c.isDigit = false) :
    (ds ++ t).takeWhile Char.isDigit = ds ∧ (ds ++ t).dropWhile Char.isDigit = t := by
  constructor
  · rw [List.takeWhile_append_of_pos hd]
    cases t with
    | nil => simp
    | cons c t => simp [ht c rfl]
  · rw [List.dropWhile_append_of_pos hd]
    cases t with
    | nil => simp
    | cons c t => simp [ht c rfl]

private theorem digit_no_sign {c : Char} (h : c.isDigit = true) : c ≠ '+' ∧ c ≠ '-' ∧ c ≠ '.' := by
  refine ⟨?_, ?_, ?_⟩ <;> rintro rfl <;> revert h <;> decide

private theorem findCoefs_skip : ∀ (w t : List Char) (n : Nat), (∀ c ∈ w, c.isDigit = false ∧ c ≠ '.' ∧ c ≠ '+' ∧ c ≠ '-') →
    w.length ≤ n → findCoefs n (w ++ t) = findCoefs (n - w.length) t := by
  intro w
  induction w with
  | nil => intro t n _ _; simp
  | cons c w ih =>
    intro t n hd hn
    cases n with
    | zero => simp at hn
    | succ n =>
      obtain ⟨h1, h2, h3, h4⟩ := hd c (by simp)
      rw [List.cons_append, findCoefs, matchDecimal_none c _ h1 h2 h3 h4]
      simp only [h1, Bool.false_eq_true, if_false]
      rw [ih t n (fun a ha => hd a (by simp [ha])) (by simpa using hn)]
      simp

/-- The sign is no part of the text. -/
private theorem matchDecimal_unsigned (t : List Char) (h : ∀ c, t.head? = some c → c ≠ '+' ∧ c ≠ '-') :
    matchDecimal t = match t.dropWhile Char.isDigit with
      | '.' :: r =>
        if r.takeWhile Char.isDigit = [] then none
        else some (t.takeWhile Char.isDigit ++ '.' :: r.takeWhile Char.isDigit, r.dropWhile Char.isDigit)
      | _ => none := by
  unfold matchDecimal
  cases t with
  | nil => rfl
  | cons c r =>
    obtain ⟨h1, h2⟩ := h c rfl
    simp only [h1, h2, or_self, if_false, List.nil_append]
    rfl

private theorem findCoefs_number (ds t : List Char) (n : Nat) (hds : IsNumber ds)
    (ht : ∀ c, t.head? = some c → c.isDigit = false ∧ c ≠ '.') : findCoefs (n + 1) (ds ++ t) = ds :: findCoefs n t := by
  rcases hds with ⟨hne, hd⟩ | ⟨a, b, rfl, ha, hne, hb⟩
  · obtain ⟨h1, h2⟩ := take_drop ds t hd fun c hc => (ht c hc).1
    have hm : matchDecimal (ds ++ t) = none := by
      rw [matchDecimal_unsigned]
      · rw [h2]
        split
        · rename_i r
          exact absurd rfl (ht '.' rfl).2
        · rfl
      · intro c hc
        cases ds with
        | nil => exact absurd rfl hne
        | cons d ds =>
          cases hc
          have := digit_no_sign (hd c (by simp))
          exact ⟨this.1, this.2.1⟩
    cases ds with
    | nil => exact absurd rfl hne
    | cons d ds =>
      rw [List.cons_append] at h1 h2 hm ⊢
      rw [findCoefs, hm]
      simp only [hd d (by simp), if_true, h1, h2]
  · obtain ⟨h1, h2⟩ := take_drop a ('.' :: (b ++ t)) ha (by intro c hc; cases hc; decide)
    obtain ⟨h3, h4⟩ := take_drop b t hb fun c hc => (ht c hc).1
    have hm : matchDecimal (a ++ '.' :: (b ++ t)) = some (a ++ '.' :: b, t) := by
      rw [matchDecimal_unsigned]
      · simp only [h1, h2, h3, h4, hne, if_false]
      · intro c hc
        cases a with
        | nil =>
          cases hc
          decide
        | cons d a =>
          cases hc
          have := digit_no_sign (ha c (by simp))
          exact ⟨this.1, this.2.1⟩
    rw [List.append_assoc, List.cons_append]
    obtain ⟨c, r, hcr⟩ : ∃ c r, a ++ '.' :: (b ++ t) = c :: r := by
      cases a with
      | nil => exact ⟨_, _, rfl⟩
      | cons d a => exact ⟨_, _, rfl⟩
    rw [hcr] at hm ⊢
    rw [findCoefs, hm]

private theorem upper_not_digit {c : Char} (h : c.isUpper = true) : c.isDigit = false := by
  simp only [Char.isUpper, Char.isDigit, Bool.and_eq_true, decide_eq_true_eq, ge_iff_le,
    Bool.and_eq_false_iff, decide_eq_false_iff_not] at h ⊢
  right
  intro h'
  have := UInt32.le_trans h.1 h'
  revert this; decide

private theorem lower_not_digit {c : Char} (h : c.isLower = true) : c.isDigit = false := by
  simp only [Char.isLower, Char.isDigit, Bool.and_eq_true, decide_eq_true_eq, ge_iff_le,
    Bool.and_eq_false_iff, decide_eq_false_iff_not] at h ⊢
  right
  intro h'
  have := UInt32.le_trans h.1 h'
  revert this; decide

private theorem lower_not_upper {c : Char} (h : c.isLower = true) : c.isUpper = false := by
  cases hu : c.isUpper with
  | false => rfl
  | true =>
    simp only [Char.isLower, Char.isUpper, Bool.and_eq_true, decide_eq_true_eq, ge_iff_le] at h hu
    have := UInt32.le_trans h.1 hu.2
    revert this; decide

private theorem digit_not_upper {c : Char} (h : c.isDigit = true) : c.isUpper = false := by
  cases hu : c.isUpper with
  | false => rfl
  | true => rw [upper_not_digit hu] at h; simp at h

private theorem digit_not_lower {c : Char} (h : c.isDigit = true) : c.isLower = false := by
  cases hu : c.isLower with
  | false => rfl
  | true => rw [lower_not_digit hu] at h; simp at h

private theorem upper_no_sign {c : Char} (h : c.isUpper = true) : c ≠ '.' ∧ c ≠ '+' ∧ c ≠ '-' := by
  refine ⟨?_, ?_, ?_⟩ <;> rintro rfl <;> revert h <;> decide

private theorem lower_no_sign {c : Char} (h : c.isLower = true) : c ≠ '.' ∧ c ≠ '+' ∧ c ≠ '-' := by
  refine ⟨?_, ?_, ?_⟩ <;> rintro rfl <;> revert h <;> decide

private theorem formula_head (l : List Part) (h : ∀ p ∈ l, p.Ok) :
    ∀ c, (formula l).head? = some c → c.isDigit = false ∧ c ≠ '.' := by
  intro c hc
  cases l with
  | nil => simp [formula] at hc
  | cons p l =>
    have : (formula (p :: l)).head? = some p.head := by
      simp [formula, Part.text, Part.symbol]
    rw [this] at hc
    cases hc
    have := (h p (by simp)).1
    exact ⟨upper_not_digit this, (upper_no_sign this).1⟩

private theorem number_ne_nil {ds : List Char} (h : IsNumber ds) : ds ≠ [] := by
  rcases h with ⟨hne, _⟩ | ⟨a, b, rfl, _⟩
  · exact hne
  · simp

private theorem findCoefs_formula : ∀ (l : List Part), (∀ p ∈ l, p.Ok) → ∀ n, (formula l).length ≤ n →
    findCoefs n (formula l) = l.filterMap Part.coef := by
  intro l
  induction l with
  | nil => intro _ n _; cases n <;> simp [formula, findCoefs]
  | cons p l ih =>
    intro h n hn
    have hok := h p (by simp)
    have hl : ∀ q ∈ l, q.Ok := fun q hq => h q (by simp [hq])
    have hf : formula (p :: l) = p.symbol ++ (p.coef.getD [] ++ formula l) := by
      simp [formula, Part.text]
    have hlen : (formula (p :: l)).length =
        p.symbol.length + ((p.coef.getD []).length + (formula l).length) := by
      rw [hf, List.length_append, List.length_append]
    rw [hf]
    have hsym : ∀ c ∈ p.symbol, c.isDigit = false ∧ c ≠ '.' ∧ c ≠ '+' ∧ c ≠ '-' := by
      intro c hc
      rcases List.mem_cons.mp hc with rfl | hc
      · exact ⟨upper_not_digit hok.1, upper_no_sign hok.1⟩
      · exact ⟨lower_not_digit (hok.2.1 c hc).1, lower_no_sign (hok.2.1 c hc).1⟩
    rw [findCoefs_skip p.symbol _ n hsym (by omega)]
    cases hc : p.coef with
    | none =>
      simp only [hc, Option.getD_none, List.nil_append, List.length_nil] at hlen ⊢
      rw [ih hl _ (by omega), List.filterMap_cons, hc]
    | some ds =>
      simp only [hc, Option.getD_some] at hlen ⊢
      have hds := hok.2.2 ds hc
      have hpos : 0 < ds.length := List.length_pos_iff.mpr (number_ne_nil hds)
      obtain ⟨m, hm⟩ : ∃ m, n - p.symbol.length = m + 1 := ⟨n - p.symbol.length - 1, by omega⟩
      rw [hm, findCoefs_number ds _ m hds (formula_head l hl), ih hl m (by omega),
        List.filterMap_cons, hc]

/-- The weight the scan gives to the part at position `k`. -/
private def given (coefs : List Rat) (k : Nat) (p : Part) : Except PyErr (Option Rat) :=
  match p.coef with
  | none => .ok (some 1)
  | some _ =>
    match pyIndex coefs ((k : Int) - 1) with
    | .error e => .error e
    | .ok w => .ok (some w)

/-- State of the scan after `k` complete parts. -/
private def Inv (Z : List Char → Option Nat) (k : Nat) (ws : List (Option Rat)) (ns : List Nat)
    (s : Scan) : Prop :=
  ∃ t, flush Z s = .ok t ∧ t.nFloat = (k : Int) - 1 ∧ t.nSymbol = (k : Int) - 1 ∧ t.weights = ws ∧
    t.numbers = ns

private theorem scan_lower (Z : List Char → Option Nat) (coefs : List Rat) : ∀ (w t : List Char) (s : Scan),
    (∀ c ∈ w, c.isLower ∧ c ≠ 'x') →
    scanLoop Z coefs (w ++ t) s = scanLoop Z coefs t { s with symbol := s.symbol ++ w } := by
  intro w
  induction w with
  | nil => intro t s _; simp
  | cons c w ih =>
    intro t s h
    obtain ⟨h1, h2⟩ := h c (by simp)
    rw [List.cons_append, scanLoop]
    simp only [step, lower_not_upper h1, Bool.false_eq_true, if_false, h1, if_true, h2]
    rw [ih t _ fun a ha => h a (by simp [ha])]
    simp

private theorem step_dot (Z : List Char → Option Nat) (coefs : List Rat) (s : Scan) : step Z coefs s '.' = .ok s := by
  have h1 : ('.' : Char).isUpper = false := by decide
  have h2 : ('.' : Char).isLower = false := by decide
  have h3 : ('.' : Char).isDigit = false := by decide
  simp only [step, h1, h2, h3, Bool.false_eq_true, if_false]

private theorem scan_digits (Z : List Char → Option Nat) (coefs : List Rat) : ∀ (w t : List Char) (s : Scan),
    (∀ c ∈ w, c.isDigit ∨ c = '.') → s.scanning = true → scanLoop Z coefs (w ++ t) s = scanLoop Z coefs t s := by
  intro w
  induction w with
  | nil => intro t s _ _; simp
  | cons c w ih =>
    intro t s h hs
    rw [List.cons_append, scanLoop]
    rcases h c (by simp) with h1 | rfl
    · simp only [step, digit_not_upper h1, digit_not_lower h1, Bool.false_eq_true, if_false, h1, if_true,
        hs]
      have : (if s.nSymbol = -1 then Except.ok (ε := PyErr) s else .ok s) = .ok s := by split <;> rfl
      rw [this]
      exact ih t s (fun a ha => h a (by simp [ha])) hs
    · rw [step_dot]
      exact ih t s (fun a ha => h a (by simp [ha])) hs

private theorem scan_part (Z : List Char → Option Nat) (coefs : List Rat) (p : Part) (hp : p.Ok) (z : Nat)
    (hz : Z p.symbol = some z) (t : List Char) (k : Nat) (ws : List (Option Rat)) (ns : List Nat) (s : Scan)
    (hs : Inv Z k ws ns s) :
    (∃ e, given coefs k p = .error e ∧ scanLoop Z coefs (p.text ++ t) s = .error e) ∨
    ∃ w s', given coefs k p = .ok w ∧ scanLoop Z coefs (p.text ++ t) s = scanLoop Z coefs t s' ∧
      Inv Z (k + 1) (ws ++ [w]) (ns ++ [z]) s' ∧ s'.symbol = p.symbol ∧ s'.nSymbol = k ∧
      s'.numbers = ns := by
  obtain ⟨u, hf, h1, h2, h3, h4⟩ := hs
  obtain ⟨hup, hlow, hco⟩ := hp
  have htxt : p.text ++ t = p.head :: (p.tail ++ (p.coef.getD [] ++ t)) := by
    simp [Part.text, Part.symbol]
  rw [htxt, scanLoop]
  simp only [step, hup, if_true, hf]
  rw [scan_lower Z coefs p.tail _ _ hlow]
  simp only [List.singleton_append]
  cases hc : p.coef with
  | none =>
    right
    refine ⟨some 1, Scan.mk (p.head :: p.tail) u.nFloat (u.nSymbol + 1) u.weights u.numbers false,
      by simp [given, hc], by simp, ?_, rfl, ?_, h4⟩
    · refine ⟨Scan.mk (p.head :: p.tail) (u.nFloat + 1) (u.nSymbol + 1) (u.weights ++ [some 1])
        (u.numbers ++ [z]) false, ?_, ?_, ?_, by simp [h3], by simp [h4]⟩
      · have hz' : Z (p.head :: p.tail) = some z := hz
        have ha : (0 : Int) ≤ u.nSymbol + 1 := by omega
        have hb : u.nFloat < u.nSymbol + 1 := by omega
        simp only [flush, if_pos ha, if_pos hb, hz']
      · simp only [h1]; omega
      · simp only [h2]; omega
    · simp only [h2]; omega
  | some ds =>
    obtain ⟨d, ds', hd, hds, hscan⟩ : ∃ d ds', d.isDigit = true ∧ (∀ c ∈ ds', c.isDigit = true ∨ c = '.') ∧
        ∀ s : Scan, scanLoop Z coefs (ds ++ t) s = scanLoop Z coefs (d :: (ds' ++ t)) s := by
      rcases hco ds hc with ⟨hne, hds⟩ | ⟨a, b, rfl, ha, hne, hb⟩
      · cases ds with
        | nil => exact absurd rfl hne
        | cons d ds => exact ⟨d, ds, hds d (by simp), fun c hc => .inl (hds c (by simp [hc])), fun s => rfl⟩
      · cases a with
        | nil =>
          cases b with
          | nil => exact absurd rfl hne
          | cons d b =>
            refine ⟨d, b, hb d (by simp), fun c hc => .inl (hb c (by simp [hc])), fun s => ?_⟩
            rw [List.nil_append, List.cons_append, scanLoop, step_dot, List.cons_append]
        | cons d a =>
          refine ⟨d, a ++ '.' :: b, ha d (by simp), fun c hc => ?_, fun s => rfl⟩
          simp only [List.mem_append, List.mem_cons] at hc
          rcases hc with hc | hc | hc
          · exact .inl (ha c (by simp [hc]))
          · exact .inr hc
          · exact .inl (hb c hc)
    · rw [Option.getD_some, hscan, scanLoop]
      have hns : u.nSymbol + 1 ≠ -1 := by omega
      simp only [step, digit_not_upper hd, digit_not_lower hd, Bool.false_eq_true, if_false, hd, if_true,
        hns, h1]
      cases hw : pyIndex coefs ((k : Int) - 1) with
      | error e => left; exact ⟨e, by simp [given, hc, hw], rfl⟩
      | ok w =>
        right
        simp only
        rw [scan_digits Z coefs ds' t _ hds rfl]
        refine ⟨some w, Scan.mk (p.head :: p.tail) ((k : Int) - 1 + 1) (u.nSymbol + 1)
          (u.weights ++ [some w]) u.numbers true, by simp [given, hc, hw], rfl, ?_, rfl, ?_, h4⟩
        · refine ⟨Scan.mk (p.head :: p.tail) ((k : Int) - 1 + 1) (u.nSymbol + 1)
            (u.weights ++ [some w]) (u.numbers ++ [z]) true, ?_, ?_, ?_, by simp [h3], by simp [h4]⟩
          · have hz' : Z (p.head :: p.tail) = some z := hz
            have ha : (0 : Int) ≤ u.nSymbol + 1 := by omega
            have hb : ¬ ((k : Int) - 1 + 1 < u.nSymbol + 1) := by omega
            simp only [flush, if_pos ha, if_neg hb, hz']
          · simp only; omega
          · simp only [h2]; omega
        · simp only [h2]; omega

private theorem finish_flush (Z : List Char → Option Nat) (s t : Scan) (z : Nat) (h0 : 0 ≤ s.nSymbol)
    (hz : Z s.symbol = some z) (hf : flush Z s = .ok t) (hl : t.weights.length = t.numbers.length) :
    finish Z s = .ok (t.numbers, t.weights) := by
  simp only [flush, if_pos h0] at hf
  simp only [finish]
  by_cases h : s.nFloat < s.nSymbol
  · simp only [if_pos h, hz, Except.ok.injEq] at hf ⊢
    subst hf
    simp only at hl ⊢
    rw [if_pos hl]
  · simp only [if_neg h, hz, Except.ok.injEq] at hf ⊢
    subst hf
    simp only at hl ⊢
    rw [if_pos hl]

private theorem scan_formula (Z : List Char → Option Nat) (coefs : List Rat) (num : Part → Nat) :
    ∀ (l : List Part), (∀ p ∈ l, p.Ok ∧ Z p.symbol = some (num p)) →
    ∀ (k : Nat) (ws : List (Option Rat)) (ns : List Nat) (s : Scan), Inv Z k ws ns s →
      (l = [] → 0 ≤ s.nSymbol ∧ ∃ z, Z s.symbol = some z) →
      (∃ e, (l.zipIdx k).mapM (fun q => given coefs q.2 q.1) = .error e ∧
        scanLoop Z coefs (formula l) s = .error e) ∨
      ∃ ws' s', (l.zipIdx k).mapM (fun q => given coefs q.2 q.1) = .ok ws' ∧
        scanLoop Z coefs (formula l) s = .ok s' ∧
        Inv Z (k + l.length) (ws ++ ws') (ns ++ l.map num) s' ∧
        0 ≤ s'.nSymbol ∧ ∃ z, Z s'.symbol = some z := by
  intro l
  induction l with
  | nil =>
    intro _ k ws ns s hs h0
    right
    exact ⟨[], s, rfl, by simp [formula, scanLoop], by simpa using hs, h0 rfl⟩
  | cons p l ih =>
    intro h k ws ns s hs _
    obtain ⟨hok, hz⟩ := h p (by simp)
    have hf : formula (p :: l) = p.text ++ formula l := by simp [formula]
    rw [hf, List.zipIdx_cons, MapM.mapM_cons]
    rcases scan_part Z coefs p hok (num p) hz (formula l) k ws ns s hs with ⟨e, h1, h2⟩ | ⟨w, s', h1, h2, h3, h4, h5, -⟩
    · left; exact ⟨e, by simp [h1], h2⟩
    · rw [h2]
      simp only [h1]
      rcases ih (fun q hq => h q (by simp [hq])) (k + 1) _ _ s' h3
        (fun _ => ⟨by omega, num p, by rw [h4]; exact hz⟩) with ⟨e, g1, g2⟩ | ⟨ws', s'', g1, g2, g3, g4⟩
      · left; exact ⟨e, by simp [g1], g2⟩
      · right
        refine ⟨w :: ws', s'', by simp [g1], g2, ?_, g4⟩
        have e1 : k + (p :: l).length = k + 1 + l.length := by simp only [List.length_cons]; omega
        rw [e1]
        simpa using g3

/-- C150, exactly what is computed, for every formula made of known symbols (without the letter `x`)
with or without coefficients, integer or decimal: the elements are found in order; a symbol without coefficient gets
the weight 1, but the symbol at position `k` with a coefficient gets the `k - 1`-th of the written
coefficients (the last one for `k = 0`), and the call fails if there are not so many. -/
theorem C150_formula_weights_exact (Z : List Char → Option Nat) (float : List Char → Rat)
    (num : Part → Nat) (l : List Part) (hne : l ≠ [])
    (h : ∀ p ∈ l, p.Ok ∧ Z p.symbol = some (num p)) :
    readFormula Z float (formula l) =
      match l.zipIdx.mapM (fun q : Part × Nat => match q.1.coef with
        | none => (.ok (some 1) : Except PyErr (Option Rat))
        | some _ => match pyIndex ((l.filterMap Part.coef).map float) ((q.2 : Int) - 1) with
          | .error e => .error e
          | .ok w => .ok (some w)) with
      | .error e => .error e
      | .ok ws => .ok (l.map num, ws) := by
  have hco := findCoefs_formula l (fun p hp => (h p hp).1) _ le_rfl
  have hstart : Inv Z 0 [] [] .start :=
    ⟨Scan.start, by simp [flush, Scan.start], by simp [Scan.start], by simp [Scan.start], rfl, rfl⟩
  simp only [readFormula, hco]
  change _ = match l.zipIdx.mapM (fun q => given ((l.filterMap Part.coef).map float) q.2 q.1) with
    | .error e => (.error e : Except PyErr (List Nat × List (Option Rat)))
    | .ok ws => .ok (l.map num, ws)
  rcases scan_formula Z ((l.filterMap Part.coef).map float) num l h 0 [] [] _ hstart
    (fun e => absurd e hne) with ⟨e, h1, h2⟩ | ⟨ws, s', h1, h2, ⟨t, ht, -, -, t1, t2⟩, h4, z, hz⟩
  · rw [h1, h2]
  · rw [h1, h2]
    simp only
    have hlen : ws.length = l.length := by
      have := (MapM.mapM_ok_forall₂ _ _ _ h1).length_eq
      simpa using this.symm
    simp only [List.nil_append] at t1 t2
    rw [finish_flush Z s' t z h4 hz ht (by rw [t1, t2, hlen, List.length_map]), t1, t2]

/-- C150 is violated: when every symbol carries a coefficient, the weights are the coefficients moved by
one place: the first element gets the last coefficient. -/
theorem C150_formula_weights_violated (Z : List Char → Option Nat) (float : List Char → Rat)
    (num : Part → Nat) (l : List Part) (hne : l ≠ [])
    (h : ∀ p ∈ l, p.Ok ∧ Z p.symbol = some (num p)) (hall : ∀ p ∈ l, p.coef ≠ none) :
    readFormula Z float (formula l) = .ok (l.map num,
      ((l.map (Part.coefficient float)).rotate (l.length - 1)).map some) := by
  have hcs : (l.filterMap Part.coef).map float = l.map (Part.coefficient float) := by
    clear h hne
    induction l with
    | nil => rfl
    | cons p l ih =>
      have := ih fun q hq => hall q (by simp [hq])
      cases hc : p.coef with
      | none => exact absurd hc (hall p (by simp))
      | some ds => rw [List.filterMap_cons, hc]; simp only [List.map_cons, this, Part.coefficient, hc]
  set cs := l.map (Part.coefficient float) with hcsdef
  have hlen : cs.length = l.length := by simp [hcsdef]
  have hpos : 0 < l.length := List.length_pos_iff.mpr hne
  rw [C150_formula_weights_exact Z float num l hne h, hcs]
  have hidx : ∀ k : Nat, k < l.length → pyIndex cs ((k : Int) - 1) =
      .ok ((cs.rotate (l.length - 1)).getD k 0) := by
    intro k hk
    have hr : (cs.rotate (l.length - 1)).getD k 0 = cs[(k + (l.length - 1)) % cs.length]'(Nat.mod_lt _ (by omega)) := by
      rw [List.getD_eq_getElem _ _ (by rw [List.length_rotate, hlen]; exact hk), List.getElem_rotate]
    rw [hr]
    cases k with
    | zero =>
      have e0 : ((0 + (l.length - 1)) % cs.length) = l.length - 1 := by
        rw [hlen, Nat.zero_add, Nat.mod_eq_of_lt (by omega)]
      have h1 : ¬ (0 : Int) ≤ ((0 : Nat) : Int) - 1 := by omega
      have h2 : (0 : Int) ≤ ((0 : Nat) : Int) - 1 + cs.length := by omega
      have h3 : (((0 : Nat) : Int) - 1 + cs.length).toNat = l.length - 1 := by omega
      simp only [pyIndex, if_neg h1, if_pos h2, h3, e0]
      rw [List.getElem?_eq_getElem (by omega)]
    | succ k =>
      have e0 : ((k + 1 + (l.length - 1)) % cs.length) = k := by
        rw [hlen, show k + 1 + (l.length - 1) = k + l.length by omega, Nat.add_mod_right,
          Nat.mod_eq_of_lt (by omega)]
      have h1 : (0 : Int) ≤ ((k + 1 : Nat) : Int) - 1 := by omega
      have h3 : (((k + 1 : Nat) : Int) - 1).toNat = k := by omega
      simp only [pyIndex, if_pos h1, h3, e0]
      rw [List.getElem?_eq_getElem (by omega)]
  have hmap : l.zipIdx.mapM (fun q : Part × Nat => match q.1.coef with
      | none => (.ok (some 1) : Except PyErr (Option Rat))
      | some _ => match pyIndex cs ((q.2 : Int) - 1) with
        | .error e => .error e
        | .ok w => .ok (some w)) =
      .ok (l.zipIdx.map fun q => some ((cs.rotate (l.length - 1)).getD q.2 0)) := by
    apply MapM.mapM_ok_map
    intro q hq
    have hq' := List.mem_zipIdx hq
    have hqm : q.1 ∈ l := by rw [hq'.2.2]; exact List.getElem_mem _
    cases hc : q.1.coef with
    | none => exact absurd hc (hall _ hqm)
    | some ds => simp only [hidx q.2 (by omega)]
  rw [hmap]
  simp only [Except.ok.injEq, Prod.mk.injEq, true_and]
  apply List.ext_getElem
  · simp [hlen, List.length_rotate]
  · intro i h1 h2
    simp only [List.getElem_map, List.getElem_zipIdx, Nat.zero_add]
    rw [List.getD_eq_getElem _ _ (by simpa using h2)]

/-- The symbols of the examples. -/
private def someSymbols (s : List Char) : Option Nat :=
  if s = "Fe".toList then some 26 else if s = "Co".toList then some 27
  else if s = "O".toList then some 8 else none

/-- The integer value of a string of digits. -/
private def someFloat (s : List Char) : Rat := ((s.foldl (fun n c => 10 * n + (c.toNat - 48)) 0 : Nat) : Rat)

/-- `Fe2O3` is read as three iron for two oxygen, and `FeCoO2` raises IndexError. -/
theorem C150_iron_oxide_violated :
    readFormula someSymbols someFloat "Fe2O3".toList = .ok ([26, 8], [some 3, some 2]) ∧
    readFormula someSymbols someFloat "FeCoO2".toList = .error .index := by
  constructor <;> decide +kernel

/-- C150 (partial): a formula in which at most one coefficient is written, on the first or on the second
symbol (`H2O`, `FeO2`), is read correctly, whatever the number of symbols. -/
theorem C150_formula_weights_partial (Z : List Char → Option Nat) (float : List Char → Rat)
    (num : Part → Nat) (l : List Part) (hne : l ≠ [])
    (h : ∀ p ∈ l, p.Ok ∧ Z p.symbol = some (num p))
    (hone : ∀ i (hi : i < l.length), l[i].coef ≠ none → i ≤ 1 ∧ ∀ j (hj : j < l.length), l[j].coef ≠ none → j = i) :
    readFormula Z float (formula l) = .ok (l.map num, l.map fun p => some (p.coefficient float)) := by
  rw [C150_formula_weights_exact Z float num l hne h]
  have hfm : ∀ i (hi : i < l.length) ds, l[i].coef = some ds → l.filterMap Part.coef = [ds] := by
    intro i hi ds hds
    have hrest : ∀ j (hj : j < l.length), j ≠ i → l[j].coef = none := by
      intro j hj hji
      by_contra hc
      exact hji ((hone i hi (by rw [hds]; simp)).2 j hj hc)
    have hsplit : l = l.take i ++ l[i] :: l.drop (i + 1) := by
      rw [List.getElem_cons_drop, List.take_append_drop]
    have h1 : (l.take i).filterMap Part.coef = [] := by
      rw [List.filterMap_eq_nil_iff]
      intro p hp
      obtain ⟨j, hj, rfl⟩ := List.mem_iff_getElem.mp hp
      rw [List.getElem_take]
      rw [List.length_take] at hj
      exact hrest j (by omega) (by omega)
    have h2 : (l.drop (i + 1)).filterMap Part.coef = [] := by
      rw [List.filterMap_eq_nil_iff]
      intro p hp
      obtain ⟨j, hj, rfl⟩ := List.mem_iff_getElem.mp hp
      rw [List.getElem_drop]
      rw [List.length_drop] at hj
      exact hrest _ (by omega) (by omega)
    rw [hsplit, List.filterMap_append, h1, List.filterMap_cons, hds, h2]; rfl
  have hmap : l.zipIdx.mapM (fun q : Part × Nat => match q.1.coef with
      | none => (.ok (some 1) : Except PyErr (Option Rat))
      | some _ => match pyIndex ((l.filterMap Part.coef).map float) ((q.2 : Int) - 1) with
        | .error e => .error e
        | .ok w => .ok (some w)) =
      .ok (l.zipIdx.map fun q => some (q.1.coefficient float)) := by
    apply MapM.mapM_ok_map
    intro q hq
    have hq' := List.mem_zipIdx hq
    have hlt : q.2 < l.length := by omega
    have hqe : q.1 = l[q.2] := by simpa using hq'.2.2
    cases hc : q.1.coef with
    | none => simp [Part.coefficient, hc]
    | some ds =>
      have hi := (hone q.2 hlt (by rw [← hqe, hc]; simp)).1
      rw [hfm q.2 hlt ds (by rw [← hqe, hc])]
      have : q.2 = 0 ∨ q.2 = 1 := by omega
      rcases this with e | e <;> simp [e, pyIndex, Part.coefficient, hc]
  rw [hmap]
  simp only [Except.ok.injEq, Prod.mk.injEq, true_and]
  apply List.ext_getElem
  · simp
  · intro i h1 h2; simp

example : (Part.mk 'O' [] (some "0.25".toList)).Ok :=
  ⟨by decide, by simp, fun ds h => .inr ⟨"0".toList, "25".toList, by cases h; rfl, by decide, by decide, by decide⟩⟩

example : findCoefs 9 "Fe.5O0.25".toList = [".5".toList, "0.25".toList] := by decide +kernel

example : readFormula someSymbols someFloat "FeO2Co".toList = .ok ([26, 8, 27], [some 1, some 2, some 1]) := by
  decide +kernel

/-- C150 (partial, the same formulas): `stat_mendeleev_params` returns the lines of `list_mendeleev_params` for the elements in
the order of the formula, and their coefficients; it raises exactly what `list_mendeleev_params` raises. -/
theorem C150_stat_partial (table : Nat → Option Elem) (Z : List Char → Option Nat) (float : List Char → Rat)
    (num : Part → Nat) (l : List Part) (hne : l ≠ []) (params : List String)
    (h : ∀ p ∈ l, p.Ok ∧ Z p.symbol = some (num p))
    (hone : ∀ i (hi : i < l.length), l[i].coef ≠ none → i ≤ 1 ∧ ∀ j (hj : j < l.length), l[j].coef ≠ none → j = i) :
    statParams table Z float (formula l) params =
      (listParams table (l.map num) params).map fun rows => (rows, l.map fun p => some (p.coefficient float)) := by
  unfold statParams
  rw [C150_formula_weights_partial Z float num l hne h hone]
  simp only
  cases listParams table (l.map num) params <;> rfl

/-- C150: whatever the formula, a successful call returns as many lines as weights, or one line of NaN and no weight. -/
theorem C150_stat_shape (table : Nat → Option Elem) (Z : List Char → Option Nat) (float : List Char → Rat)
    (composition : List Char) (params : List String) (rows : List (List (Option Rat))) (ws : List (Option Rat))
    (h : statParams table Z float composition params = .ok (rows, ws)) :
    (rows.length = ws.length ∨ (ws = [] ∧ rows = [List.replicate (nParams params) none])) ∧
      ∀ r ∈ rows, r.length = nParams params := by
  unfold statParams at h
  cases hf : readFormula Z float composition with
  | error e => rw [hf] at h; simp at h
  | ok v =>
    obtain ⟨numbers, weights⟩ := v
    rw [hf] at h
    simp only at h
    cases hl : listParams table numbers params with
    | error e => rw [hl] at h; simp at h
    | ok rows' =>
      rw [hl] at h
      simp only [Except.ok.injEq, Prod.mk.injEq] at h
      obtain ⟨rfl, rfl⟩ := h
      have hw : weights.length = numbers.length := by
        unfold readFormula at hf
        split at hf
        · simp at hf
        · unfold finish at hf
          extract_lets t at hf
          cases hz : Z t.symbol with
          | some z =>
            rw [hz] at hf
            by_cases hlen : t.weights.length = (t.numbers ++ [z]).length
            · simp only [hlen, if_true, Except.ok.injEq, Prod.mk.injEq] at hf
              rw [← hf.1, ← hf.2, hlen]
            · simp only [hlen, if_false] at hf
              simp at hf
          | none =>
            rw [hz] at hf
            by_cases he : t.weights = []
            · simp [he] at hf
            · by_cases hlen : t.weights.dropLast.length = t.numbers.length
              · simp only [he, hlen, if_true, if_false, Except.ok.injEq, Prod.mk.injEq] at hf
                rw [← hf.1, ← hf.2, hlen]
              · simp only [he, hlen, if_false] at hf
                simp at hf
      unfold listParams at hl
      cases hm : numbers.mapM (line table params) with
      | error e => rw [hm] at hl; simp at hl
      | ok rs =>
        rw [hm] at hl
        simp only at hl
        have hlen := (MapM.mapM_ok_forall₂ _ _ _ hm).length_eq
        by_cases he : rs = []
        · rw [if_pos he] at hl
          by_cases hall : [List.replicate (nParams params) (none : Option Rat)].all (fun r => r.length = nParams params) = true
          · rw [if_pos hall] at hl
            simp only [Except.ok.injEq] at hl
            subst hl
            rw [he, List.length_nil] at hlen
            exact ⟨Or.inr ⟨List.length_eq_zero_iff.mp (by omega), rfl⟩, by simp⟩
          · rw [if_neg hall] at hl
            simp at hl
        · rw [if_neg he] at hl
          by_cases hall : rs.all (fun r => r.length = nParams params) = true
          · rw [if_pos hall] at hl
            simp only [Except.ok.injEq] at hl
            subst hl
            exact ⟨Or.inl (by omega), by simpa using hall⟩
          · rw [if_neg hall] at hl
            simp at hl

end CatLearn.Props
