import Verif.Model.Catmap
import Mathlib.Data.List.Basic
import Mathlib.Order.Basic
import Mathlib.Data.Rat.Defs
import Mathlib.Algebra.Order.Ring.Rat

/-!
C198: the energy landscape handed to CatMAP.  C199: formulas for Magpie.
-/

namespace CatLearn.Catmap

open CatLearn

variable {R ι : Type} [LinearOrder R]

theorem find_assign (d : Dicts R ι) (k k' : List Char) (e : Entry R ι) :
    find (assign d k e) k' = if k' = k then some e else find d k' := by
  unfold assign
  have hmap : ((d.map fun p => if p.1 = k then (p.1, e) else p).find? fun p => p.1 == k') =
      (d.find? fun p => p.1 == k').map fun p => if p.1 = k then (p.1, e) else p := by
    rw [List.find?_map]
    congr 1
    congr 1
    funext p
    simp only [Function.comp_apply]
    split <;> rfl
  by_cases h : d.any (·.1 == k) = true
  · rw [if_pos h]
    unfold find
    rw [hmap]
    by_cases ek : k' = k
    · subst ek
      rw [if_pos rfl]
      obtain ⟨p, hp, hpl⟩ := List.any_eq_true.mp h
      obtain ⟨q, hq⟩ : ∃ q, d.find? (fun p => p.1 == k') = some q := by
        rw [← Option.isSome_iff_exists, List.find?_isSome]
        exact ⟨p, hp, hpl⟩
      have hql : q.1 = k' := by simpa using List.find?_some hq
      rw [hq]
      simp [hql]
    · rw [if_neg ek]
      cases hf : d.find? (fun p => p.1 == k') with
      | none => rfl
      | some q =>
        have hql : q.1 = k' := by simpa using List.find?_some hf
        have : q.1 ≠ k := by rw [hql]; exact ek
        simp [this]
  · rw [if_neg h]
    unfold find
    rw [List.find?_append]
    have hnone : ∀ p ∈ d, p.1 ≠ k := by
      intro p hp ek
      exact h (List.any_eq_true.mpr ⟨p, hp, by simp [ek]⟩)
    by_cases ek : k' = k
    · subst ek
      have : d.find? (fun p => p.1 == k') = none := List.find?_eq_none.mpr fun p hp => by simpa using hnone p hp
      simp [this]
    · rw [if_neg ek]
      have : List.find? (fun p : List Char × Entry R ι => p.1 == k') [(k, e)] = none := by
        simp [Ne.symm ek]
      rw [this]
      simp

/-- The key of candidate `j`. -/
def keyAt (get : ι → Option Record) (ss : Bool) (ids : List ι) (j : ℕ) : Option (List Char) :=
  ((ids[j]?).bind get).map (key ss)

/-- Candidate `m` is the one kept for key `k` among the first `n`: the first with the largest prediction. -/
def Kept (get : ι → Option Record) (ss : Bool) (ids : List ι) (prediction uncertainty : List R) (n : ℕ) (k : List Char)
    (e : Entry R ι) : Prop :=
  ∃ m < n, keyAt get ss ids m = some k ∧ prediction[m]? = some e.energy ∧ uncertainty[m]? = some e.std ∧
    ids[m]? = some e.dbid ∧
    ∀ j < n, keyAt get ss ids j = some k → ∃ p, prediction[j]? = some p ∧ p ≤ e.energy ∧ (j < m → p < e.energy)

theorem loop_spec (get : ι → Option Record) (ss : Bool) (ids : List ι) (prediction uncertainty : List R)
    (hp : prediction.length = ids.length) (hu : uncertainty.length = ids.length) (hg : ∀ id ∈ ids, (get id).isSome)
    (r : List ι) (i : ℕ) (hr : r = ids.drop i) (d : Dicts R ι) (hi : i ≤ ids.length)
    (hnone : ∀ k, (∀ j < i, keyAt get ss ids j ≠ some k) → find d k = none)
    (hsome : ∀ k, (∃ j < i, keyAt get ss ids j = some k) → ∃ e, find d k = some e ∧ Kept get ss ids prediction uncertainty i k e) :
    ∃ d', loop get ss prediction (some uncertainty) r i d = .ok d' ∧
      (∀ k, (∀ j < ids.length, keyAt get ss ids j ≠ some k) → find d' k = none) ∧
      (∀ k, (∃ j < ids.length, keyAt get ss ids j = some k) →
        ∃ e, find d' k = some e ∧ Kept get ss ids prediction uncertainty ids.length k e) := by
  induction r generalizing i d with
  | nil =>
    have : i = ids.length := by
      have := congrArg List.length hr
      simp at this
      omega
    subst this
    exact ⟨d, rfl, hnone, hsome⟩
  | cons id r ih =>
    have hil : i < ids.length := by
      have := congrArg List.length hr
      simp at this
      omega
    have hid : ids[i]? = some id := by
      have := congrArg (·[0]?) hr
      simp at this
      rw [List.getElem?_eq_getElem hil]
      simpa [List.getElem?_eq_getElem hil] using this.symm
    have hr' : r = ids.drop (i + 1) := by
      rw [← List.tail_drop, ← hr]
      rfl
    obtain ⟨rec, hrec⟩ := Option.isSome_iff_exists.mp (hg id (List.mem_of_getElem? hid))
    obtain ⟨p, hpi⟩ : ∃ p, prediction[i]? = some p := ⟨_, List.getElem?_eq_getElem (by omega)⟩
    obtain ⟨u, hui⟩ : ∃ u, uncertainty[i]? = some u := ⟨_, List.getElem?_eq_getElem (by omega)⟩
    have hkey : keyAt get ss ids i = some (key ss rec) := by simp [keyAt, hid, hrec]
    set k := key ss rec with hk
    -- other keys are not affected
    have hold : ∀ d2 : Dicts R ι, (∀ k', k' ≠ k → find d2 k' = find d k') →
        (∃ e, find d2 k = some e ∧ Kept get ss ids prediction uncertainty (i + 1) k e) →
        ∃ d', loop get ss prediction (some uncertainty) r (i + 1) d2 = .ok d' ∧
      (∀ k, (∀ j < ids.length, keyAt get ss ids j ≠ some k) → find d' k = none) ∧
      (∀ k, (∃ j < ids.length, keyAt get ss ids j = some k) →
        ∃ e, find d' k = some e ∧ Kept get ss ids prediction uncertainty ids.length k e) := by
      intro d2 hd2 hkk
      refine ih (i + 1) hr' d2 (by omega) ?_ ?_
      · intro k' hk'
        have hne : k' ≠ k := by
          rintro rfl
          exact hk' i (by omega) hkey
        rw [hd2 k' hne]
        exact hnone k' fun j hj => hk' j (by omega)
      · rintro k' ⟨j, hj, hjk⟩
        by_cases hkk' : k' = k
        · subst hkk'
          exact hkk
        · rw [hd2 k' hkk']
          have hj' : j < i := by
            rcases Nat.lt_succ_iff_lt_or_eq.mp hj with h | rfl
            · exact h
            · rw [hkey] at hjk
              exact absurd (Option.some.inj hjk).symm hkk'
          obtain ⟨e, h1, m, hm, h2, h3, h4, h5, h6⟩ := hsome k' ⟨j, hj', hjk⟩
          refine ⟨e, h1, m, by omega, h2, h3, h4, h5, ?_⟩
          intro j' hj'' hjk'
          rcases Nat.lt_succ_iff_lt_or_eq.mp hj'' with h | rfl
          · exact h6 j' h hjk'
          · rw [hkey] at hjk'
            exact absurd (Option.some.inj hjk').symm hkk'
    unfold loop
    simp only [hrec, item, hpi, hui, ← hk]
    by_cases hex : ∃ j < i, keyAt get ss ids j = some k
    · obtain ⟨e, h1, m, hm, h2, h3, h4, h5, h6⟩ := hsome k hex
      rw [h1]
      simp only
      by_cases hlt : e.energy < p
      · rw [if_pos hlt]
        refine hold _ (fun k' hne => by rw [find_assign, if_neg hne]) ⟨⟨p, u, id⟩, by rw [find_assign, if_pos rfl], ?_⟩
        refine ⟨i, by omega, hkey, hpi, hui, hid, ?_⟩
        intro j hj hjk
        rcases Nat.lt_succ_iff_lt_or_eq.mp hj with h | rfl
        · obtain ⟨q, hq, hle, -⟩ := h6 j h hjk
          have : q < p := lt_of_le_of_lt hle hlt
          exact ⟨q, hq, this.le, fun _ => this⟩
        · exact ⟨p, hpi, le_rfl, fun h => absurd h (lt_irrefl _)⟩
      · rw [if_neg hlt]
        refine hold _ (fun k' _ => rfl) ⟨e, h1, m, by omega, h2, h3, h4, h5, ?_⟩
        intro j hj hjk
        rcases Nat.lt_succ_iff_lt_or_eq.mp hj with h | rfl
        · exact h6 j h hjk
        · exact ⟨p, hpi, not_lt.mp hlt, fun h => by omega⟩
    · push Not at hex
      rw [hnone k hex]
      simp only
      refine hold _ (fun k' hne => by rw [find_assign, if_neg hne]) ⟨⟨p, u, id⟩, by rw [find_assign, if_pos rfl], ?_⟩
      refine ⟨i, by omega, hkey, hpi, hui, hid, ?_⟩
      intro j hj hjk
      rcases Nat.lt_succ_iff_lt_or_eq.mp hj with h | rfl
      · exact absurd hjk (hex j h)
      · exact ⟨p, hpi, le_rfl, fun h => absurd h (lt_irrefl _)⟩

/-- C198: for every key that occurs among the candidates, energy, uncertainty and id stored are those of one and the same
candidate with that key, the first one with the largest predicted energy; all other entries of the CatMAP object stay as
they are. -/
theorem C198_entries_partial (get : ι → Option Record) (ss : Bool) (ids : List ι) (prediction uncertainty : List R)
    (hp : prediction.length = ids.length) (hu : uncertainty.length = ids.length) (hg : ∀ id ∈ ids, (get id).isSome)
    (c : Landscape R ι) :
    ∃ c', energyLandscape get ids prediction (some uncertainty) (some c) ss = .ok c' ∧ ∀ k,
      ((∀ (j : ℕ) id rec, ids[j]? = some id → get id = some rec → key ss rec ≠ k) → c' k = c k) ∧
      ((∃ (j : ℕ) (id : ι) (rec : Record), ids[j]? = some id ∧ get id = some rec ∧ key ss rec = k) →
        ∃ (m : ℕ) (id : ι) (rec : Record) (p u : R), ids[m]? = some id ∧ get id = some rec ∧ key ss rec = k ∧
          prediction[m]? = some p ∧ uncertainty[m]? = some u ∧ c' k = some ⟨p, u, id⟩ ∧
          ∀ (j : ℕ) id' rec' q, ids[j]? = some id' → get id' = some rec' → key ss rec' = k → prediction[j]? = some q →
            q ≤ p ∧ (j < m → q < p)) := by
  obtain ⟨d, h1, h2, h3⟩ := loop_spec get ss ids prediction uncertainty hp hu hg ids 0 rfl [] (Nat.zero_le _)
    (by simp [find]) (by rintro k ⟨j, hj, -⟩; omega)
  refine ⟨_, by unfold energyLandscape; simp only; rw [h1], ?_⟩
  have hka : ∀ (j : ℕ) k, keyAt get ss ids j = some k ↔ ∃ id rec, ids[j]? = some id ∧ get id = some rec ∧ key ss rec = k := by
    intro j k
    unfold keyAt
    rw [Option.map_eq_some_iff]
    constructor
    · rintro ⟨rec, e, e2⟩
      obtain ⟨id, e3, e4⟩ := Option.bind_eq_some_iff.mp e
      exact ⟨id, rec, e3, e4, e2⟩
    · rintro ⟨id, rec, e3, e4, e2⟩
      exact ⟨rec, Option.bind_eq_some_iff.mpr ⟨id, e3, e4⟩, e2⟩
  intro k
  constructor
  · intro h
    have : find d k = none := h2 k fun j _ hj => by
      obtain ⟨id, rec, e1, e2, e3⟩ := (hka j k).mp hj
      exact h j id rec e1 e2 e3
    simp only [this]
  · rintro ⟨j, id, rec, e1, e2, e3⟩
    have hj : j < ids.length := (List.getElem?_eq_some_iff.mp e1).1
    obtain ⟨e, f1, m, hm, f2, f3, f4, f5, f6⟩ := h3 k ⟨j, hj, (hka j k).mpr ⟨id, rec, e1, e2, e3⟩⟩
    obtain ⟨id', rec', g1, g2, g3⟩ := (hka m k).mp f2
    have hid : id' = e.dbid := by
      rw [g1] at f5
      exact Option.some.inj f5
    refine ⟨m, id', rec', e.energy, e.std, g1, g2, g3, f3, f4, ?_, ?_⟩
    · simp only [f1, hid]
    · intro j' id'' rec'' q a1 a2 a3 a4
      have hj' : j' < ids.length := (List.getElem?_eq_some_iff.mp a1).1
      obtain ⟨q', b1, b2, b3⟩ := f6 j' hj' ((hka j' k).mpr ⟨id'', rec'', a1, a2, a3⟩)
      rw [a4] at b1
      obtain rfl := Option.some.inj b1
      exact ⟨b2, b3⟩

/-- C198 fails for the claim of the description, "Use the minimum ab initio energy, disregarding the site": whenever two
candidates with one key have different predictions, the energy stored is not the smallest one. -/
theorem C198_minimum_violated (get : ι → Option Record) (ss : Bool) (ids : List ι) (prediction uncertainty : List R)
    (hp : prediction.length = ids.length) (hu : uncertainty.length = ids.length) (hg : ∀ id ∈ ids, (get id).isSome)
    (c : Landscape R ι) (i j : ℕ) (id id' : ι) (rec rec' : Record) (p q : R) (h1 : ids[i]? = some id) (h2 : ids[j]? = some id')
    (h3 : get id = some rec) (h4 : get id' = some rec') (hk : key ss rec = key ss rec') (h5 : prediction[i]? = some p)
    (h6 : prediction[j]? = some q) (hlt : p < q) :
    ∃ c' e, energyLandscape get ids prediction (some uncertainty) (some c) ss = .ok c' ∧ c' (key ss rec) = some e ∧
      p < e.energy := by
  obtain ⟨c', a1, a2⟩ := C198_entries_partial get ss ids prediction uncertainty hp hu hg c
  obtain ⟨m, id'', rec'', p', u, b1, b2, b3, b4, b5, b6, b7⟩ := (a2 (key ss rec)).2 ⟨i, id, rec, h1, h3, rfl⟩
  refine ⟨c', _, a1, b6, ?_⟩
  exact lt_of_lt_of_le hlt (b7 j id' rec' q h2 h4 hk.symm h6).1

/-- C198 fails for the defaults `uncertainty=None` and `catmap=None`: exceptions. -/
theorem C198_defaults_violated (get : ι → Option Record) (ss : Bool) (id : ι) (ids : List ι) (rec : Record) (h : get id = some rec)
    (p : R) (prediction : List R) :
    (∀ c : Landscape R ι, energyLandscape get (id :: ids) (p :: prediction) none (some c) ss = .error .type) ∧
      ∀ u, energyLandscape get (id :: ids) (p :: prediction) u none ss = .error .attribute := by
  constructor
  · intro c
    simp [energyLandscape, loop, h, item, find]
  · intro u
    simp [energyLandscape, h]

theorem join_injective (a b : List (List Char)) (hl : a.length = b.length) (ha : ∀ s ∈ a, '_' ∉ s) (hb : ∀ s ∈ b, '_' ∉ s)
    (h : join a = join b) : a = b := by
  induction a generalizing b with
  | nil =>
    cases b with
    | nil => rfl
    | cons _ _ => simp at hl
  | cons s t ih =>
    cases b with
    | nil => simp at hl
    | cons s' t' =>
      cases t with
      | nil =>
        cases t' with
        | nil => simpa [join] using h
        | cons _ _ => simp at hl
      | cons t1 t2 =>
        cases t' with
        | nil => simp at hl
        | cons t1' t2' =>
          have key : ∀ (s s' x y : List Char), '_' ∉ s → '_' ∉ s' → s ++ '_' :: x = s' ++ '_' :: y → s = s' ∧ x = y := by
            intro s
            induction s with
            | nil =>
              intro s' x y _ h2 e
              cases s' with
              | nil => simpa using e
              | cons c cs =>
                simp only [List.nil_append, List.cons_append, List.cons.injEq] at e
                exact absurd e.1 (fun e' => h2 (e' ▸ List.mem_cons_self))
            | cons c cs ihs =>
              intro s' x y h1 h2 e
              cases s' with
              | nil =>
                simp only [List.nil_append, List.cons_append, List.cons.injEq] at e
                exact absurd e.1.symm (fun e' => h1 (e' ▸ List.mem_cons_self))
              | cons c' cs' =>
                simp only [List.cons_append, List.cons.injEq] at e
                obtain ⟨r1, r2⟩ := ihs cs' x y (fun h => h1 (by simp [h])) (fun h => h2 (by simp [h])) e.2
                exact ⟨by rw [e.1, r1], r2⟩
          have e : s ++ '_' :: join (t1 :: t2) = s' ++ '_' :: join (t1' :: t2') := h
          obtain ⟨e1, e2⟩ := key _ _ _ _ (ha s (by simp)) (hb s' (by simp)) e
          rw [e1, ih (t1' :: t2') (by simpa using hl) (fun x hx => ha x (by simp [hx])) (fun x hx => hb x (by simp [hx])) e2]

/-- C198: candidates share a key only if they agree in all fields (and in the site, if sites are distinguished and given),
provided no field contains an underscore. -/
theorem C198_keys_partial (ss : Bool) (r r' : Record) (hl : r.fields.length = r'.fields.length)
    (h1 : ∀ s ∈ r.fields, '_' ∉ s) (h2 : ∀ s ∈ r'.fields, '_' ∉ s) (h3 : ∀ s, r.site = some s → '_' ∉ s)
    (h4 : ∀ s, r'.site = some s → '_' ∉ s) (hk : key ss r = key ss r') :
    r.fields = r'.fields ∧ (ss = true → r.site.getD "site".toList = r'.site.getD "site".toList) := by
  have hsite : '_' ∉ "site".toList := by decide
  have hs : ∀ r : Record, (∀ s, r.site = some s → '_' ∉ s) → '_' ∉ (match ss, r.site with
    | true, some s => s
    | _, _ => "site".toList) := by
    intro r hr
    cases ss <;> cases hsr : r.site <;> simp only <;> first | exact hsite | exact hr _ hsr
  have := join_injective _ _ (by simp [hl]) (by
      intro s hs'
      rw [List.mem_append, List.mem_singleton] at hs'
      rcases hs' with h | rfl
      · exact h1 s h
      · exact hs r h3) (by
      intro s hs'
      rw [List.mem_append, List.mem_singleton] at hs'
      rcases hs' with h | rfl
      · exact h2 s h
      · exact hs r' h4) hk
  have := List.append_inj this hl
  refine ⟨this.1, ?_⟩
  rintro rfl
  have e := List.singleton_inj.mp this.2
  cases hr : r.site <;> cases hr' : r'.site <;> simp [hr, hr'] at e ⊢ <;> exact e

/-- C198 fails for fields with underscores: different candidates get the same key, and one is lost. -/
theorem C198_keys_violated : ∃ r r' : Record, r.fields.length = r'.fields.length ∧ r.fields ≠ r'.fields ∧
    ∀ ss, key ss r = key ss r' :=
  ⟨⟨["a_b".toList, "c".toList], none⟩, ⟨["a".toList, "b_c".toList], none⟩, by decide, by decide, by decide⟩

/-- Two sites of one surface. -/
example : ∃ c', energyLandscape (R := ℚ) (ι := ℕ) (fun _ => some ⟨[['1'], ['C', 'O']], none⟩) [7, 9] [-3, -2] (some [1, 2])
    (some fun _ => none) false = .ok c' ∧ c' "1_CO_site".toList = some ⟨-2, 2, 9⟩ := by
  refine ⟨_, rfl, ?_⟩
  decide +kernel

/-! ### Formulas for Magpie -/

/-- C199: the formula is right if the symbols contain no digit 1 and every multiplicity is 1 or has no digit 1. -/
theorem C199_formula_partial (sites : List (List Char × ℕ)) (h1 : ∀ s ∈ sites, '1' ∉ s.1)
    (h2 : ∀ s ∈ sites, s.2 = 1 ∨ '1' ∉ Nat.toDigits 10 s.2) :
    formula sites = (sites.map fun s => s.1 ++ if s.2 = 1 then [] else Nat.toDigits 10 s.2).flatten := by
  unfold formula
  induction sites with
  | nil => rfl
  | cons s t ih =>
    rw [List.map_cons, List.flatten_cons, List.map_cons, List.flatten_cons, List.filter_append,
      ih (fun x hx => h1 x (by simp [hx])) (fun x hx => h2 x (by simp [hx])), List.filter_append]
    congr 2
    · rw [List.filter_eq_self]
      intro c hc
      have := h1 s (by simp)
      simp only [ne_eq, decide_not, Bool.not_eq_true', decide_eq_false_iff_not]
      rintro rfl
      exact this hc
    · by_cases e : s.2 = 1
      · rw [e]
        decide
      · rw [if_neg e, List.filter_eq_self]
        intro c hc
        have := (h2 s (by simp)).resolve_left e
        simp only [ne_eq, decide_not, Bool.not_eq_true', decide_eq_false_iff_not]
        rintro rfl
        exact this hc

/-- A chemical symbol: a capital followed by lower-case letters. -/
def Symbol (s : List Char) : Prop := ∃ c t, s = c :: t ∧ c.isUpper = true ∧ ∀ x ∈ t, x.isLower = true

private theorem digit_class {x : Char} (h : x.isDigit = true) : x.isUpper = false ∧ x.isLower = false := by
  simp only [Char.isDigit, Char.isUpper, Char.isLower, Bool.and_eq_true, decide_eq_true_eq, Bool.and_eq_false_iff,
    decide_eq_false_iff_not, UInt32.le_iff_toNat_le, ge_iff_le] at *
  have e1 : '0'.val.toNat = 48 := rfl
  have e2 : '9'.val.toNat = 57 := rfl
  have e3 : 'A'.val.toNat = 65 := rfl
  have e5 : 'a'.val.toNat = 97 := rfl
  omega

private theorem lower_class {x : Char} (h : x.isLower = true) : x.isUpper = false ∧ x.isDigit = false := by
  simp only [Char.isDigit, Char.isUpper, Char.isLower, Bool.and_eq_true, decide_eq_true_eq, Bool.and_eq_false_iff,
    decide_eq_false_iff_not, UInt32.le_iff_toNat_le, ge_iff_le] at *
  have e1 : '0'.val.toNat = 48 := rfl
  have e2 : '9'.val.toNat = 57 := rfl
  have e4 : 'Z'.val.toNat = 90 := rfl
  have e5 : 'a'.val.toNat = 97 := rfl
  omega

private theorem one_class {x : Char} (h : x.isUpper = true ∨ x.isLower = true) : x ≠ '1' := by
  rintro rfl
  revert h
  decide

/-- What is written for a multiplicity. -/
private def mult (n : ℕ) : List Char := if n = 1 then [] else Nat.toDigits 10 n

private theorem mult_digit (n : ℕ) : ∀ x ∈ mult n, x.isDigit = true := by
  intro x hx
  unfold mult at hx
  split at hx
  · cases hx
  · exact Nat.isDigit_of_mem_toDigits (by decide) (by decide) hx

private theorem mult_inj {n m : ℕ} (h : mult n = mult m) : n = m := by
  unfold mult at h
  split at h <;> split at h
  · omega
  · exact absurd h.symm Nat.toDigits_ne_nil
  · exact absurd h Nat.toDigits_ne_nil
  · have := congrArg (Nat.ofDigitChars 10 · 0) h
    simpa [Nat.ofDigitChars_ten_toDigits] using this

private theorem split_at {p : Char → Bool} {a b c d : List Char} (ha : ∀ x ∈ a, p x = true) (hc : ∀ x ∈ c, p x = true)
    (hb : ∀ x, b.head? = some x → p x = false) (hd : ∀ x, d.head? = some x → p x = false) (h : a ++ b = c ++ d) :
    a = c ∧ b = d := by
  induction a generalizing c with
  | nil =>
    cases c with
    | nil => exact ⟨rfl, h⟩
    | cons x c =>
      simp only [List.nil_append, List.cons_append] at h
      have := hb x (by rw [h]; rfl)
      rw [hc x (by simp)] at this
      cases this
  | cons x a ih =>
    cases c with
    | nil =>
      simp only [List.nil_append, List.cons_append] at h
      have := hd x (by rw [← h]; rfl)
      rw [ha x (by simp)] at this
      cases this
    | cons y c =>
      simp only [List.cons_append, List.cons.injEq] at h
      obtain ⟨rfl, h⟩ := h
      obtain ⟨rfl, rfl⟩ := ih (fun x hx => ha x (by simp [hx])) (fun x hx => hc x (by simp [hx])) h
      exact ⟨rfl, rfl⟩

private theorem flat_head (sites : List (List Char × ℕ)) (h1 : ∀ s ∈ sites, Symbol s.1) :
    ∀ x, ((sites.map fun s => s.1 ++ mult s.2).flatten).head? = some x → (!x.isUpper) = false := by
  intro x hx
  cases sites with
  | nil => cases hx
  | cons s t =>
    obtain ⟨c, r, hs, hc, -⟩ := h1 s (by simp)
    rw [List.map_cons, List.flatten_cons, hs] at hx
    simp only [List.cons_append, List.head?_cons, Option.some.injEq] at hx
    subst hx
    simp [hc]

/-- C199 (`_partial`: multiplicities without the digit 1, except 1 itself): different compounds have different formulas. -/
theorem C199_injective_partial (a b : List (List Char × ℕ)) (ha : ∀ s ∈ a, Symbol s.1) (hb : ∀ s ∈ b, Symbol s.1)
    (ha1 : ∀ s ∈ a, s.2 = 1 ∨ '1' ∉ Nat.toDigits 10 s.2) (hb1 : ∀ s ∈ b, s.2 = 1 ∨ '1' ∉ Nat.toDigits 10 s.2)
    (h : formula a = formula b) : a = b := by
  have hone : ∀ l : List (List Char × ℕ), (∀ s ∈ l, Symbol s.1) → ∀ s ∈ l, '1' ∉ s.1 := by
    intro l hl s hs
    obtain ⟨c, r, he, hc, hr⟩ := hl s hs
    rw [he]
    intro h1
    rcases List.mem_cons.mp h1 with h1 | h1
    · exact one_class (Or.inl hc) h1.symm
    · exact one_class (Or.inr (hr _ h1)) rfl
  rw [C199_formula_partial a (hone a ha) ha1, C199_formula_partial b (hone b hb) hb1] at h
  replace h : (a.map fun s => s.1 ++ mult s.2).flatten = (b.map fun s => s.1 ++ mult s.2).flatten := h
  clear ha1 hb1
  induction a generalizing b with
  | nil =>
    cases b with
    | nil => rfl
    | cons s t =>
      obtain ⟨c, r, hs, -⟩ := hb s (by simp)
      rw [List.map_cons, List.flatten_cons, hs] at h
      simp at h
  | cons s a ih =>
    cases b with
    | nil =>
      obtain ⟨c, r, hs, -⟩ := ha s (by simp)
      rw [List.map_cons, List.flatten_cons, hs] at h
      simp at h
    | cons s' b =>
      obtain ⟨c, r, hs, hc, hr⟩ := ha s (by simp)
      obtain ⟨c', r', hs', hc', hr'⟩ := hb s' (by simp)
      rw [List.map_cons, List.map_cons, List.flatten_cons, List.flatten_cons, hs, hs'] at h
      simp only [List.cons_append, List.cons.injEq] at h
      obtain ⟨rfl, h⟩ := h
      have hn : ∀ (r : List Char) (n : ℕ), (∀ x ∈ r, x.isLower = true) → ∀ x ∈ r ++ mult n, (!x.isUpper) = true := by
        intro r n hr x hx
        rcases List.mem_append.mp hx with hx | hx
        · simp [(lower_class (hr x hx)).1]
        · simp [(digit_class (mult_digit n x hx)).1]
      obtain ⟨h1, h2⟩ := split_at (p := fun x => !x.isUpper) (hn r s.2 hr) (hn r' s'.2 hr')
        (flat_head a fun x hx => ha x (by simp [hx])) (flat_head b fun x hx => hb x (by simp [hx])) h
      have hm : ∀ (n : ℕ) x, (mult n).head? = some x → x.isLower = false := by
        intro n x hx
        exact (digit_class (mult_digit n x (List.mem_of_mem_head? hx))).2
      obtain ⟨h3, h4⟩ := split_at (p := Char.isLower) hr hr' (hm _) (hm _) h1
      have he : s = s' := Prod.ext (by rw [hs, hs', h3]) (mult_inj h4)
      rw [he, ih b (fun x hx => ha x (by simp [hx])) (fun x hx => hb x (by simp [hx])) h2]

example : Symbol "Ba".toList ∧ '1' ∉ Nat.toDigits 10 3 :=
  ⟨⟨'B', ['a'], rfl, by decide, by decide⟩, by decide⟩

/-- C199 fails for larger multiplicities: 12 is written as 2, 10 as 0 and 11 not at all, whatever the symbol, so different
compounds have the same formula. -/
theorem C199_formula_violated (s : List Char) (t : List (List Char × ℕ)) :
    formula ((s, 12) :: t) = formula ((s, 2) :: t) ∧ formula ((s, 11) :: t) = formula ((s, 1) :: t) ∧
      formula ((s, 10) :: t) = formula ((s, 0) :: t) := by
  have key : ∀ (s : List Char) (k : ℕ), formula ((s, k) :: t) = s.filter (· ≠ '1') ++ (Nat.toDigits 10 k).filter (· ≠ '1') ++ formula t := by
    intro s k
    unfold formula
    rw [List.map_cons, List.flatten_cons, List.filter_append, List.filter_append]
  rw [key, key, key, key, key, key]
  refine ⟨?_, ?_, ?_⟩ <;> congr 1

/-- A perovskite. -/
example : formula [("Ba".toList, 1), ("Ti".toList, 1), ("O".toList, 3)] = "BaTiO3".toList := by decide

end CatLearn.Catmap
