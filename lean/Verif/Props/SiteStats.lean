import Verif.Model.SiteStats
import Verif.Props.PeriodicTable
import Verif.Lemmas.Py
import Verif.Lemmas.MapM
import Mathlib.Tactic.Linarith
import Mathlib.Tactic.FieldSimp
import Mathlib.Tactic.Ring
import Mathlib.Algebra.Order.BigOperators.Group.List
import Mathlib.Data.List.GetD
import Mathlib.Algebra.Group.Nat.Even

/-!
# Properties of the fingerprints of groups of atoms (C158–C162)
-/

namespace CatLearn.Props

open CatLearn CatLearn.PeriodicTable CatLearn.SiteStats

/-! ### The reductions -/

/-- What each statistic of a list of numbers is.  The median: the list splits into a lower part, a middle of one or two
entries and an upper part of the same size as the lower part, and the median is the average of the middle. -/
def IsStat : Stat → List Rat → Option Rat → Prop
  | .sum, l, r => r = some l.sum
  | .mean, l, r => (l = [] → r = none) ∧ (l ≠ [] → ∃ m, r = some m ∧ m * l.length = l.sum)
  | .min, l, r => (l = [] → r = none) ∧ (l ≠ [] → ∃ m ∈ l, r = some m ∧ ∀ x ∈ l, m ≤ x)
  | .max, l, r => (l = [] → r = none) ∧ (l ≠ [] → ∃ m ∈ l, r = some m ∧ ∀ x ∈ l, x ≤ m)
  | .median, l, r => (l = [] → r = none) ∧ (l ≠ [] → ∃ m lo mid hi, r = some m ∧ l.Perm (lo ++ mid ++ hi) ∧
      lo.length = hi.length ∧ (mid.length = 1 ∨ mid.length = 2) ∧ m * mid.length = mid.sum ∧
      (∀ x ∈ lo, ∀ y ∈ mid, x ≤ y) ∧ ∀ x ∈ mid, ∀ y ∈ hi, x ≤ y)

theorem median_spec (l : List Rat) (hl : l ≠ []) : ∃ lo mid hi, l.Perm (lo ++ mid ++ hi) ∧
    lo.length = hi.length ∧ (mid.length = 1 ∨ mid.length = 2) ∧ median l * mid.length = mid.sum ∧
    (∀ x ∈ lo, ∀ y ∈ mid, x ≤ y) ∧ ∀ x ∈ mid, ∀ y ∈ hi, x ≤ y := by
  obtain ⟨s, hs⟩ : ∃ s, sortAsc id l = s := ⟨_, rfl⟩
  have hperm : s.Perm l := hs ▸ sortAsc_perm id l
  have hsort : s.Pairwise (fun a b => a ≤ b) := hs ▸ sortAsc_pairwise id l
  have hlen := hperm.length_eq
  have hpos : 0 < l.length := List.length_pos_iff.mpr hl
  set p := (l.length - 1) / 2 with hp
  set q := l.length / 2 with hq
  have hpq : p ≤ q ∧ q ≤ p + 1 ∧ p + q + 1 = l.length ∧ q < l.length := by omega
  obtain ⟨h1, h2, h3, h4⟩ := hpq
  have hsplit : s = s.take p ++ (s.drop p).take (q - p + 1) ++ s.drop (q + 1) := by
    rw [List.append_assoc]
    conv_lhs => rw [← List.take_append_drop p s, ← List.take_append_drop (q - p + 1) (s.drop p)]
    rw [List.drop_drop]
    congr 3; omega
  have hmid : (s.drop p).take (q - p + 1) = if q = p then [s.getD p 0] else [s.getD p 0, s.getD q 0] := by
    have hsp : p < s.length := by omega
    have hsq : q < s.length := by omega
    rw [List.getD_eq_getElem _ _ hsp, List.getD_eq_getElem _ _ hsq]
    split
    · rename_i h
      rw [h, Nat.sub_self, List.drop_eq_getElem_cons hsp, List.take_succ_cons, List.take_zero]
    · have hq' : q = p + 1 := by omega
      have : p + 1 < s.length := by omega
      have h1' : q - p + 1 = 2 := by omega
      rw [h1', List.drop_eq_getElem_cons hsp, List.drop_eq_getElem_cons this, List.take_succ_cons, List.take_succ_cons,
        List.take_zero]
      simp only [hq']
  have hpw := hsort
  rw [hsplit, List.pairwise_append, List.pairwise_append] at hpw
  refine ⟨s.take p, (s.drop p).take (q - p + 1), s.drop (q + 1), hsplit ▸ hperm.symm, ?_, ?_, ?_, ?_, ?_⟩
  · rw [List.length_take, List.length_drop]; omega
  · rw [hmid]; split <;> simp
  · rw [hmid, median, hs, ← hp, ← hq]
    split
    · rename_i h
      rw [h]; simp
    · simp
  · exact fun x hx y hy => hpw.1.2.2 x hx y hy
  · exact fun x hx y hy => hpw.2.2 x (List.mem_append_right _ hx) y hy

private theorem col_spec (st : Stat) (l : List (Option Rat)) : IsStat st (known l) (st.col l) := by
  cases st with
  | sum => rfl
  | mean =>
    refine ⟨fun h => by simp [Stat.col, h], fun h => ⟨(known l).sum / (known l).length, by simp [Stat.col, h], ?_⟩⟩
    have : ((known l).length : Rat) ≠ 0 := by
      have := List.length_pos_iff.mpr h
      exact_mod_cast this.ne'
    field_simp
  | min =>
    refine ⟨fun h => by simp [Stat.col, h], fun h => ?_⟩
    cases hm : (known l).min? with
    | none => simp at hm; exact absurd hm h
    | some m =>
      obtain ⟨h1, h2⟩ := List.min?_eq_some_iff.mp hm
      exact ⟨m, h1, by simp [Stat.col, hm], h2⟩
  | max =>
    refine ⟨fun h => by simp [Stat.col, h], fun h => ?_⟩
    cases hm : (known l).max? with
    | none => simp at hm; exact absurd hm h
    | some m =>
      obtain ⟨h1, h2⟩ := List.max?_eq_some_iff.mp hm
      exact ⟨m, h1, by simp [Stat.col, hm], h2⟩
  | median =>
    refine ⟨fun h => by simp [Stat.col, h], fun h => ?_⟩
    obtain ⟨lo, mid, hi, hr⟩ := median_spec (known l) h
    exact ⟨median (known l), lo, mid, hi, by simp [Stat.col, h], hr⟩

private theorem col_perm (st : Stat) (l l' : List (Option Rat)) (h : l.Perm l') : st.col l = st.col l' := by
  have hk : (known l).Perm (known l') := h.filterMap id
  have he : known l = [] ↔ known l' = [] := by
    constructor <;> intro hh
    · exact List.perm_nil.mp (hh ▸ hk.symm)
    · exact List.perm_nil.mp (hh ▸ hk)
  cases st with
  | sum => simp only [Stat.col, hk.sum_eq]
  | mean => simp only [Stat.col, hk.sum_eq, hk.length_eq, he]
  | min =>
    simp only [Stat.col]
    cases hm : (known l').min? with
    | none => simp at hm ⊢; exact he.mpr hm
    | some m =>
      obtain ⟨h1, h2⟩ := List.min?_eq_some_iff.mp hm
      exact List.min?_eq_some_iff.mpr ⟨hk.mem_iff.mpr h1, fun x hx => h2 x (hk.mem_iff.mp hx)⟩
  | max =>
    simp only [Stat.col]
    cases hm : (known l').max? with
    | none => simp at hm ⊢; exact he.mpr hm
    | some m =>
      obtain ⟨h1, h2⟩ := List.max?_eq_some_iff.mp hm
      exact List.max?_eq_some_iff.mpr ⟨hk.mem_iff.mpr h1, fun x hx => h2 x (hk.mem_iff.mp hx)⟩
  | median =>
    have hs : sortAsc id (known l) = sortAsc id (known l') := by
      apply List.Perm.eq_of_pairwise (le := fun a b => a ≤ b)
      · intro a b _ _ h1 h2; exact le_antisymm h1 h2
      · exact sortAsc_pairwise id _
      · exact sortAsc_pairwise id _
      · exact ((sortAsc_perm id _).trans hk).trans (sortAsc_perm id _).symm
    simp only [Stat.col, he, median, hs, hk.length_eq]

/-! ### C158: the statistics of a group of atoms -/

/-- The record of an element for the parameters: the values announced by `make_labels`, then the magnetic moment. -/
def record (elem : ℕ → Elem) (magmom : ℕ → Rat) (params : List String) (z : ℕ) : List (Option Rat) :=
  params.flatMap (valuesOf (elem z)) ++ [some (magmom z)]

private theorem labels_length (elem : ℕ → Elem) (params : List String) (z : ℕ)
    (h : ∀ p ∈ params, DataOk (elem z) p) (pre suf : String) :
    (makeLabels params pre suf).length = (params.flatMap (valuesOf (elem z))).length := by
  induction params with
  | nil => rfl
  | cons p ps ih =>
    simp only [makeLabels, List.flatMap_cons, List.length_append] at ih ⊢
    rw [ih fun q hq => h q (by simp [hq]), valuesOf_length _ p (h p (by simp)) pre suf]

private theorem nParams_labels (params : List String) (pre suf : String) :
    nParams params = (makeLabels params pre suf).length := by
  induction params with
  | nil => rfl
  | cons p ps ih =>
    simp only [makeLabels, List.flatMap_cons, List.length_append] at ih ⊢
    rw [← ih]
    simp only [nParams, List.map_cons, List.sum_cons, Nat.add_right_cancel_iff]
    by_cases h1 : p = "oxistates"
    · subst h1; simp [labelsOf]
    · by_cases h2 : p = "econf"
      · subst h2; simp [labelsOf]
      · by_cases h3 : p = "block"
        · subst h3; simp [labelsOf]
        · by_cases h4 : p = "ionenergies"
          · subst h4; simp [labelsOf]
          · simp [labelsOf, h1, h2, h3, h4]

private theorem listParams_ok (table : ℕ → Option Elem) (numbers : List ℕ) (hn : numbers ≠ [])
    (elem : ℕ → Elem) (plain special : List String) (hz : ∀ z ∈ numbers, table z = some (elem z))
    (hp : ∀ p ∈ plain, isSpecial p = false) (hs : ∀ p ∈ special, isSpecial p = true)
    (hd : ∀ z ∈ numbers, ∀ p ∈ plain ++ special, DataOk (elem z) p) :
    listParams table numbers (plain ++ special) =
      .ok (numbers.map fun z => (plain ++ special).flatMap (valuesOf (elem z))) := by
  have hrows : numbers.mapM (line table (plain ++ special)) =
      .ok (numbers.map fun z => (plain ++ special).flatMap (valuesOf (elem z))) :=
    MapM.mapM_ok_map _ _ _ fun z h => line_ok table plain special z (elem z) (hz z h) hp hs (hd z h)
  have hne : (numbers.map fun z => (plain ++ special).flatMap (valuesOf (elem z))) ≠ [] := by simpa using hn
  simp only [listParams, hrows, if_neg hne]
  rw [if_pos]
  rw [List.all_eq_true]
  intro r hr
  obtain ⟨z, h, rfl⟩ := List.mem_map.mp hr
  simpa using valuesOf_nParams (elem z) _ (hd z h)

private theorem reduced_ok (table : ℕ → Option Elem) (magmom : ℕ → Rat) (st : Stat) (numbers : List ℕ)
    (hn : numbers ≠ []) (elem : ℕ → Elem) (plain special : List String)
    (hz : ∀ z ∈ numbers, table z = some (elem z)) (hp : ∀ p ∈ plain, isSpecial p = false)
    (hs : ∀ p ∈ special, isSpecial p = true) (hd : ∀ z ∈ numbers, ∀ p ∈ plain ++ special, DataOk (elem z) p) :
    reduced table magmom st (plain ++ special) numbers = .ok ((List.range (nParams (plain ++ special) + 1)).map fun j =>
      st.col (numbers.map fun z => (record elem magmom (plain ++ special) z).getD j none)) := by
  simp only [reduced, listParams_ok table numbers hn elem plain special hz hp hs hd, Stat.ofList, List.map_eq_nil_iff,
    hn, false_and, if_false, List.range_succ, List.map_append, List.map_cons, List.map_nil]
  congr 2
  · apply List.map_congr_left
    intro j hj
    rw [List.mem_range] at hj
    congr 1
    simp only [column, List.map_map]
    apply List.map_congr_left
    intro z hz'
    have hl := valuesOf_nParams (elem z) _ (hd z hz')
    simp only [Function.comp, record]
    rw [List.getD_append _ _ _ _ (by omega)]
  · congr 2
    apply List.map_congr_left
    intro z hz'
    have hl := valuesOf_nParams (elem z) _ (hd z hz')
    simp only [record]
    rw [List.getD_append_right _ _ _ _ (by omega), hl, Nat.sub_self]; rfl

/-- C158 (partial): for a nonempty group of atoms with complete data, the parameters with several columns at the end of
the list, each of the five statistics gives one number per label, and the number in a column is the statistic of the
values the group's atoms have for that label; atoms whose value is unknown do not count. -/
theorem C158_group_statistics_partial (table : ℕ → Option Elem) (magmom : ℕ → Rat) (st : Stat) (numbers : List ℕ)
    (hn : numbers ≠ []) (elem : ℕ → Elem) (plain special : List String)
    (hz : ∀ z ∈ numbers, table z = some (elem z)) (hp : ∀ p ∈ plain, isSpecial p = false)
    (hs : ∀ p ∈ special, isSpecial p = true) (hd : ∀ z ∈ numbers, ∀ p ∈ plain ++ special, DataOk (elem z) p)
    (suf : String) :
    ∃ v, statFp table magmom st (plain ++ special) suf numbers = .ok v ∧
      v.length = (statLabels (plain ++ special) suf).length ∧
      (∀ z ∈ numbers, (record elem magmom (plain ++ special) z).length = v.length) ∧
      ∀ (j : ℕ) (r : Option Rat), v[j]? = some r →
        IsStat st (numbers.filterMap fun z => (record elem magmom (plain ++ special) z).getD j none) r := by
  have hlab : (statLabels (plain ++ special) suf).length = nParams (plain ++ special) + 1 := by
    rw [statLabels, List.length_append, ← nParams_labels]; rfl
  refine ⟨(List.range (nParams (plain ++ special) + 1)).map fun j =>
      st.col (numbers.map fun z => (record elem magmom (plain ++ special) z).getD j none), ?_, ?_, ?_, ?_⟩
  · rw [statFp, reduced_ok table magmom st numbers hn elem plain special hz hp hs hd]
    simp only [checkLabels, List.length_map, List.length_range, hlab, ne_eq, not_true, if_false]
  · simp [hlab]
  · intro z hz'
    rw [record, List.length_append, valuesOf_nParams (elem z) _ (hd z hz')]; simp
  · intro j r hr
    rw [List.getElem?_map, Option.map_eq_some_iff] at hr
    obtain ⟨k, hk, rfl⟩ := hr
    have hjk : k = j := by
      rw [List.getElem?_eq_some_iff] at hk
      obtain ⟨_, hk⟩ := hk
      simpa using hk.symm
    subst hjk
    have := col_spec st (numbers.map fun z => (record elem magmom (plain ++ special) z).getD k none)
    simpa [known, List.filterMap_map] using this

example : ∃ e : Elem, ∀ p ∈ ["atomic_number", "dbcenter"] ++ ["oxistates", "block", "econf", "ionenergies"],
    DataOk e p := by
  refine ⟨⟨fun p => if p = "dbcenter" then none else some 26, some [6, 3, 2, 0, -2], "[Ar] 3d6 4s2".toList, 'd', 8⟩, ?_⟩
  intro p _
  exact ⟨fun _ => ⟨_, by simp, rfl⟩, fun _ => ⟨⟨8, 2, 0, 6, 0⟩, by decide +kernel⟩, fun _ => by simp⟩

private theorem sum_bounds (l : List Rat) (a b : Rat) (ha : ∀ x ∈ l, a ≤ x) (hb : ∀ x ∈ l, x ≤ b) :
    a * l.length ≤ l.sum ∧ l.sum ≤ b * l.length := by
  induction l with
  | nil => simp
  | cons x xs ih =>
    obtain ⟨h1, h2⟩ := ih (fun y hy => ha y (by simp [hy])) (fun y hy => hb y (by simp [hy]))
    have h3 := ha x (by simp)
    have h4 := hb x (by simp)
    simp only [List.sum_cons, List.length_cons, Nat.cast_add, Nat.cast_one]
    constructor <;> linarith

/-- C158: in every column, for every group, either no value is known, and then the minimum, mean, median and maximum are
missing, or all are numbers, mean and median lie between minimum and maximum, and the sum is the mean times the
number of known values. -/
theorem C158_order (l : List (Option Rat)) :
    ((∀ x ∈ l, x = none) ∧ Stat.col .min l = none ∧ Stat.col .mean l = none ∧ Stat.col .median l = none ∧
      Stat.col .max l = none ∧ Stat.col .sum l = some 0) ∨
    ∃ a m d b s, Stat.col .min l = some a ∧ Stat.col .mean l = some m ∧ Stat.col .median l = some d ∧
      Stat.col .max l = some b ∧ Stat.col .sum l = some s ∧ a ≤ m ∧ m ≤ b ∧ a ≤ d ∧ d ≤ b ∧
      s = m * (l.countP (·.isSome) : Rat) := by
  have hcount : (known l).length = l.countP (·.isSome) := by
    induction l with
    | nil => rfl
    | cons x xs ih => cases x <;> simp_all [known]
  by_cases hk : known l = []
  · left
    refine ⟨?_, by simp [Stat.col, hk], by simp [Stat.col, hk], by simp [Stat.col, hk], by simp [Stat.col, hk],
      by simp [Stat.col, hk]⟩
    intro x hx
    cases x with
    | none => rfl
    | some y =>
      have : y ∈ known l := List.mem_filterMap.mpr ⟨some y, hx, rfl⟩
      rw [hk] at this; simp at this
  · right
    obtain ⟨a, ha, hae, hal⟩ := (col_spec .min l).2 hk
    obtain ⟨b, hb, hbe, hbl⟩ := (col_spec .max l).2 hk
    obtain ⟨m, hme, hm⟩ := (col_spec .mean l).2 hk
    obtain ⟨d, lo, mid, hi, hde, hperm, _, hmid, hd, _, _⟩ := (col_spec .median l).2 hk
    have hs : Stat.col .sum l = some (known l).sum := rfl
    have hpos : (0 : Rat) < (known l).length := by
      have := List.length_pos_iff.mpr hk
      exact_mod_cast this
    have hmp : (0 : Rat) < mid.length := by rcases hmid with h | h <;> rw [h] <;> norm_num
    have hsub : ∀ x ∈ mid, x ∈ known l := fun x hx => hperm.mem_iff.mpr (by simp [hx])
    obtain ⟨h1, h2⟩ := sum_bounds (known l) a b hal hbl
    obtain ⟨h3, h4⟩ := sum_bounds mid a b (fun x hx => hal x (hsub x hx)) (fun x hx => hbl x (hsub x hx))
    rw [← hm] at h1 h2
    rw [← hd] at h3 h4
    refine ⟨a, m, d, b, (known l).sum, hae, hme, hde, hbe, hs, ?_, ?_, ?_, ?_, ?_⟩
    · exact le_of_mul_le_mul_right h1 hpos
    · exact le_of_mul_le_mul_right h2 hpos
    · exact le_of_mul_le_mul_right h3 hmp
    · exact le_of_mul_le_mul_right h4 hmp
    · rw [← hcount, hm]

example : Stat.col .median [some 3, none, some 1, some 8] = some 3 ∧ Stat.col .mean [some 3, none, some 1, some 8] = some 4 ∧
    Stat.col .min [some 3, none, some 1, some 8] = some 1 ∧ Stat.col .sum [none] = some 0 := by decide +kernel

private theorem listParams_perm (table : ℕ → Option Elem) (params : List String) (numbers numbers' : List ℕ)
    (h : numbers.Perm numbers') (rows : List (List (Option Rat))) (hr : listParams table numbers params = .ok rows) :
    ∃ rows', listParams table numbers' params = .ok rows' ∧ rows.Perm rows' := by
  simp only [listParams] at hr
  cases hm : numbers.mapM (line table params) with
  | error e => simp [hm] at hr
  | ok r =>
    have hall : ∀ z ∈ numbers, ∃ l, line table params z = .ok l := by
      intro z hz
      cases hl : line table params z with
      | ok l => exact ⟨l, rfl⟩
      | error e =>
        obtain ⟨e', he'⟩ := MapM.mapM_error_of_mem (line table params) numbers ⟨z, hz, e, hl⟩
        rw [hm] at he'; simp at he'
    set g : ℕ → List (Option Rat) := fun z => match line table params z with | .ok l => l | .error _ => [] with hg
    have hgz : ∀ z ∈ numbers, line table params z = .ok (g z) := by
      intro z hz
      obtain ⟨l, hl⟩ := hall z hz
      simp [hg, hl]
    have h1 := MapM.mapM_ok_map (line table params) g numbers hgz
    have h2 := MapM.mapM_ok_map (line table params) g numbers' fun z hz => hgz z (h.mem_iff.mpr hz)
    rw [hm, Except.ok.injEq] at h1
    subst h1
    simp only [hm] at hr
    have hp : (numbers.map g).Perm (numbers'.map g) := h.map g
    have hrows : (if numbers.map g = [] then [List.replicate (nParams params) none] else numbers.map g).Perm
        (if numbers'.map g = [] then [List.replicate (nParams params) none] else numbers'.map g) := by
      by_cases he : numbers.map g = []
      · have he' : numbers'.map g = [] := List.perm_nil.mp (he ▸ hp.symm)
        rw [if_pos he, if_pos he']
      · have he' : numbers'.map g ≠ [] := fun h' => he (List.perm_nil.mp (h' ▸ hp))
        rw [if_neg he, if_neg he']; exact hp
    simp only [listParams, h2]
    by_cases hall' : (if numbers.map g = [] then [List.replicate (nParams params) none] else numbers.map g).all
        (fun r => r.length = nParams params) = true
    · rw [if_pos hall', Except.ok.injEq] at hr
      subst hr
      refine ⟨_, ?_, hrows⟩
      rw [if_pos]
      rw [List.all_eq_true] at hall' ⊢
      exact fun x hx => hall' x (hrows.mem_iff.mpr hx)
    · rw [if_neg hall'] at hr; simp at hr

private theorem reduced_perm (table : ℕ → Option Elem) (magmom : ℕ → Rat) (st : Stat) (params : List String)
    (numbers numbers' : List ℕ) (h : numbers.Perm numbers') (v : List (Option Rat))
    (hv : reduced table magmom st params numbers = .ok v) : reduced table magmom st params numbers' = .ok v := by
  simp only [reduced] at hv ⊢
  cases hr : listParams table numbers params with
  | error e => simp [hr] at hv
  | ok rows =>
    obtain ⟨rows', hr', hp⟩ := listParams_perm table params numbers numbers' h rows hr
    rw [hr] at hv
    rw [hr']
    have hm : st.ofList (numbers.map fun z => some (magmom z)) = st.ofList (numbers'.map fun z => some (magmom z)) := by
      have he : numbers = [] ↔ numbers' = [] :=
        ⟨fun hh => List.perm_nil.mp (hh ▸ h.symm), fun hh => List.perm_nil.mp (hh ▸ h)⟩
      simp only [Stat.ofList, List.map_eq_nil_iff, he, col_perm st _ _ (h.map fun z => some (magmom z))]
    simp only at hv ⊢
    rw [← hm]
    rw [← hv]
    cases st.ofList (numbers.map fun z => some (magmom z)) with
    | error e => rfl
    | ok m =>
      simp only [Except.ok.injEq]
      congr 1
      apply List.map_congr_left
      intro j _
      exact (col_perm st _ _ (hp.map fun r => r.getD j none)).symm

/-- C158: the fingerprints of a group of atoms do not depend on the order of the atoms, and neither does acceptance. -/
theorem C158_order_of_atoms (table : ℕ → Option Elem) (magmom : ℕ → Rat) (st : Stat) (params : List String)
    (suf : String) (numbers numbers' : List ℕ) (h : numbers.Perm numbers') (v : List (Option Rat)) :
    (statFp table magmom st params suf numbers = .ok v ↔ statFp table magmom st params suf numbers' = .ok v) ∧
    (surfLigands table magmom params numbers = .ok v ↔ surfLigands table magmom params numbers' = .ok v) := by
  have key : ∀ (a b : List ℕ), a.Perm b →
      (statFp table magmom st params suf a = .ok v → statFp table magmom st params suf b = .ok v) ∧
      (surfLigands table magmom params a = .ok v → surfLigands table magmom params b = .ok v) := by
    intro a b hab
    constructor
    · intro hv
      simp only [statFp] at hv ⊢
      cases hr : reduced table magmom st params a with
      | error e => simp [hr] at hv
      | ok r =>
        rw [hr] at hv
        rw [reduced_perm table magmom st params a b hab r hr]
        exact hv
    · intro hv
      simp only [surfLigands] at hv ⊢
      cases hr : reduced table magmom .mean params a with
      | error e => simp [hr] at hv
      | ok r =>
        rw [hr] at hv
        rw [reduced_perm table magmom .mean params a b hab r hr]
        simp only at hv ⊢
        rw [← hab.length_eq, ← hab.dedup.length_eq]
        exact hv
  exact ⟨⟨(key _ _ h).1, (key _ _ h.symm).1⟩, ⟨(key _ _ h).2, (key _ _ h.symm).2⟩⟩

/-- C158: `mean_surf_ligands` puts the number of ligand atoms and the number of different elements among them before
the means. -/
theorem C158_ligand_counts (table : ℕ → Option Elem) (magmom : ℕ → Rat) (params : List String) (numbers : List ℕ)
    (v : List (Option Rat)) (hv : surfLigands table magmom params numbers = .ok v) :
    v[0]? = some (some (numbers.length : Rat)) ∧ v[1]? = some (some ((numbers.toFinset.card : ℕ) : Rat)) ∧
      statFp table magmom .mean params "_surf_ligands" numbers = .ok (v.drop 2) := by
  simp only [surfLigands] at hv
  simp only [statFp]
  cases hr : reduced table magmom .mean params numbers with
  | error e => simp [hr] at hv
  | ok r =>
    simp only [hr, checkLabels] at hv ⊢
    split at hv
    · simp at hv
    · rename_i hl
      simp only [Except.ok.injEq] at hv
      subst hv
      have : r.length = (statLabels params "_surf_ligands").length := by
        simp only [ne_eq, not_not, List.length_append, List.length_cons, List.length_nil] at hl; omega
      simp [this, List.card_toFinset]

/-- C158 is violated for an empty group (a structure without site or cation atoms): the minimum and the maximum raise
ValueError, although the mean and the median are returned as missing values and the sums as zeros. -/
theorem C158_empty_group_violated (table : ℕ → Option Elem) (magmom : ℕ → Rat) (params : List String) (suf : String) :
    statFp table magmom .min params suf [] = .error .value ∧ statFp table magmom .max params suf [] = .error .value ∧
    statFp table magmom .mean params suf [] = .ok (List.replicate (nParams params + 1) none) ∧
    statFp table magmom .median params suf [] = .ok (List.replicate (nParams params + 1) none) ∧
    statFp table magmom .sum params suf [] = .ok (List.replicate (nParams params + 1) (some 0)) := by
  have hl : listParams table [] params = .ok [List.replicate (nParams params) none] := by
    rw [listParams, MapM.mapM_nil]; simp
  have hlab : (statLabels params suf).length = nParams params + 1 := by
    rw [statLabels, List.length_append, ← nParams_labels]; rfl
  have hcol : ∀ (st : Stat) (x : Option Rat), (∀ j, st.col (column [List.replicate (nParams params) none] j) = x) →
      st.ofList [] = .ok x → statFp table magmom st params suf [] = .ok (List.replicate (nParams params + 1) x) := by
    intro st x hx h0
    simp only [statFp, reduced, hl, List.map_nil, h0, hx]
    simp [checkLabels, hlab, List.replicate_succ']
  have hnone : ∀ j, column [List.replicate (nParams params) none] j = [none] := by
    intro j
    simp only [column, List.map_cons, List.map_nil, List.cons.injEq, and_true]
    rw [List.getD_eq_getElem?_getD, List.getElem?_replicate]
    split <;> rfl
  refine ⟨by simp [statFp, reduced, hl, Stat.ofList], by simp [statFp, reduced, hl, Stat.ofList], ?_, ?_, ?_⟩
  · exact hcol _ _ (fun j => by rw [hnone]; decide) (by simp [Stat.ofList, Stat.col, known])
  · exact hcol _ _ (fun j => by rw [hnone]; decide) (by simp [Stat.ofList, Stat.col, known])
  · exact hcol _ _ (fun j => by rw [hnone]; decide) (by simp [Stat.ofList, Stat.col, known])

/-- C158: `term` and `bulk` take the elements from the formula stored with the structure if there is one, else from the
subset of atoms, and raise NotImplementedError if both are missing. -/
theorem C158_term_bulk (table : ℕ → Option Elem) (magmom : ℕ → Rat) (params : List String) (suf : String)
    (subset : Option (List ℕ)) (l m : List ℕ) :
    termBulk table magmom params suf (some (some l)) subset = statFp table magmom .mean params suf l ∧
    termBulk table magmom params suf none (some m) = statFp table magmom .mean params suf m ∧
    termBulk table magmom params suf none none = .error .notImpl := ⟨rfl, rfl, rfl⟩

/-! ### C159: the names of the bulk fingerprints -/

private theorem reduced_length (table : ℕ → Option Elem) (magmom : ℕ → Rat) (st : Stat) (params : List String)
    (numbers : List ℕ) (v : List (Option Rat)) (hv : reduced table magmom st params numbers = .ok v) :
    v.length = nParams params + 1 := by
  simp only [reduced] at hv
  split at hv
  · simp at hv
  · split at hv
    · simp at hv
    · simp only [Except.ok.injEq] at hv
      subst hv; simp

private theorem nParams_append (a b : List String) : nParams (a ++ b) = nParams a + nParams b := by
  simp [nParams]

/-- C159 (partial): with the default extra parameters `bulk_summation`, `bulk_average` and `bulk_std` return as many
numbers as names, for every structure they accept. -/
theorem C159_bulk_names_partial (table : ℕ → Option Elem) (magmom : ℕ → Rat) (st : Stat) (numbers : List ℕ) :
    (∀ v, bulkFp table magmom st defaultExtraParams numbers = .ok v →
      v.length = averageNames.length ∧ v.length = stdNames.length) ∧
    ∀ v, bulkStd table magmom defaultExtraParams numbers = .ok v → v.length = stdNames.length := by
  have h46 : nParams (defaultParams ++ defaultExtraParams) + 1 = averageNames.length ∧
      averageNames.length = stdNames.length := by decide
  constructor
  · intro v hv
    rw [reduced_length table magmom st _ numbers v hv, h46.1]
    exact ⟨rfl, h46.2⟩
  · intro v hv
    simp only [bulkStd] at hv
    split at hv
    · simp at hv
    · simp only [Except.ok.injEq] at hv
      rw [← hv, ← h46.2, ← h46.1]; simp

private theorem nanstd_spec (l : List (Option Rat)) :
    (l.filterMap id = [] → nanstd l = none) ∧
    (l.filterMap id ≠ [] → ∃ σ : ℝ, 0 ≤ σ ∧ nanstd l = some σ ∧ ∀ μ : Rat,
      μ * (l.filterMap id).length = (l.filterMap id).sum →
      σ ^ 2 * (l.filterMap id).length = (((l.filterMap id).map fun x => (x - μ) ^ 2).sum : Rat)) := by
  constructor
  · intro h; exact if_pos h
  · intro h
    have hlen : ((l.filterMap id).length : Rat) ≠ 0 := by
      have := List.length_pos_iff.mpr h
      exact_mod_cast this.ne'
    refine ⟨_, Real.sqrt_nonneg _, if_neg h, ?_⟩
    intro μ hμ
    have hm : (l.filterMap id).sum / ((l.filterMap id).length : Rat) = μ := by rw [← hμ]; field_simp
    change Real.sqrt ((((l.filterMap id).map fun x => (x - (l.filterMap id).sum / ((l.filterMap id).length : Rat)) ^ 2).sum /
      ((l.filterMap id).length : Rat) : Rat) : ℝ) ^ 2 * _ = _
    rw [hm]
    have h0 : (0 : Rat) ≤ ((l.filterMap id).map fun x => (x - μ) ^ 2).sum / ((l.filterMap id).length : Rat) := by
      apply div_nonneg _ (by positivity)
      apply List.sum_nonneg
      intro x hx
      obtain ⟨y, _, rfl⟩ := List.mem_map.1 hx
      positivity
    rw [Real.sq_sqrt (by exact_mod_cast h0)]
    rw [show ((l.filterMap id).length : ℝ) = (((l.filterMap id).length : Rat) : ℝ) by simp, ← Rat.cast_mul,
      div_mul_cancel₀ _ hlen]

/-- C159: the numbers of `bulk_std` are the population standard deviations (not the sample deviations) of the known
values of each parameter over the atoms, and of the magnetic moments at the end; a parameter without any value is
missing. -/
theorem C159_std_values (table : ℕ → Option Elem) (magmom : ℕ → Rat) (extra : List String) (numbers : List ℕ)
    (rows : List (List (Option Rat))) (hr : listParams table numbers (defaultParams ++ extra) = .ok rows)
    (s : List (Option ℝ)) (hs : bulkStd table magmom extra numbers = .ok s) :
    (∀ (j : ℕ) (v : List Rat), j < nParams (defaultParams ++ extra) → (rows.map fun r => r.getD j none).filterMap id = v →
      (v = [] → s[j]? = some none) ∧
      ∀ μ : Rat, v ≠ [] → μ * v.length = v.sum → ∃ σ : ℝ, 0 ≤ σ ∧ s[j]? = some (some σ) ∧
        σ ^ 2 * v.length = ((v.map fun x => (x - μ) ^ 2).sum : Rat)) ∧
    ∀ μ : Rat, numbers ≠ [] → μ * numbers.length = (numbers.map magmom).sum →
      ∃ σ : ℝ, 0 ≤ σ ∧ s[nParams (defaultParams ++ extra)]? = some (some σ) ∧
        σ ^ 2 * numbers.length = ((numbers.map fun z => (magmom z - μ) ^ 2).sum : Rat) := by
  simp only [bulkStd, hr, Except.ok.injEq] at hs
  subst hs
  constructor
  · rintro j v hj rfl
    have he : ((List.range (nParams (defaultParams ++ extra))).map (fun j => nanstd (column rows j)) ++
        [nanstd (numbers.map fun z => some (magmom z))])[j]? = some (nanstd (rows.map fun r => r.getD j none)) := by
      rw [List.getElem?_append_left (by simpa using hj), List.getElem?_map, List.getElem?_range hj]
      rfl
    rw [he]
    refine ⟨fun h => by rw [(nanstd_spec _).1 h], fun μ h hμ => ?_⟩
    obtain ⟨σ, h0, h1, h2⟩ := (nanstd_spec _).2 h
    exact ⟨σ, h0, by rw [h1], h2 μ hμ⟩
  · intro μ hn hμ
    have hk : (numbers.map fun z => some (magmom z)).filterMap id = numbers.map magmom := by
      simp [List.filterMap_map]
    have hne : (numbers.map fun z => some (magmom z)).filterMap id ≠ [] := by rw [hk]; simpa using hn
    obtain ⟨σ, h0, h1, h2⟩ := (nanstd_spec (numbers.map fun z => some (magmom z))).2 hne
    refine ⟨σ, h0, ?_, ?_⟩
    · rw [List.getElem?_append_right (by simp)]
      simp [h1]
    · have := h2 μ (by rw [hk]; simpa using hμ)
      rw [hk] at this
      simpa [List.map_map, Function.comp_def] using this

example : ∃ rows, listParams (fun z => some ⟨fun _ => some (z : Rat), none, [], 's', 1⟩) [29, 79] (defaultParams ++ []) =
    .ok rows ∧ (rows.map fun r => r.getD 3 none).filterMap id = [29, 79] := ⟨_, rfl, by decide +kernel⟩

/-- C159 is violated: the names are fixed, so for extra parameters with another number of columns the numbers and the
names never match, and nothing is raised. -/
theorem C159_extra_params_violated (table : ℕ → Option Elem) (magmom : ℕ → Rat) (st : Stat) (extra : List String)
    (he : nParams extra ≠ nParams defaultExtraParams) (numbers : List ℕ) (v : List (Option Rat))
    (hv : bulkFp table magmom st extra numbers = .ok v) : v.length ≠ averageNames.length := by
  have h46 : nParams defaultParams + nParams defaultExtraParams + 1 = averageNames.length := by decide
  rw [reduced_length table magmom st _ numbers v hv, nParams_append, ← h46]
  omega

example : nParams ["heat_of_formation"] ≠ nParams defaultExtraParams ∧
    ∃ v, bulkFp (fun _ => some ⟨fun _ => some 1, none, [], 's', 1⟩) (fun _ => 0) .mean ["heat_of_formation"] [29] = .ok v :=
  ⟨by decide, _, by
    rw [bulkFp, show defaultParams ++ ["heat_of_formation"] = (defaultParams ++ ["heat_of_formation"]) ++ [] by simp]
    exact reduced_ok _ _ _ _ (by simp) (fun _ => ⟨fun _ => some 1, none, [], 's', 1⟩) _ _ (by simp) (by decide) (by simp)
      (by
        intro z _ p hp
        have : p ≠ "oxistates" ∧ p ≠ "econf" ∧ p ≠ "block" := by
          revert p; decide
        exact ⟨fun h => absurd h this.1, fun h => absurd h this.2.1, fun h => absurd h this.2.2⟩)⟩

/-- C159 is violated: `bulk_average` and `bulk_std` both call a feature `en_gordy`, so the names of the two default
fingerprints together are not distinct. -/
theorem C159_duplicate_name_violated : ¬ (averageNames ++ stdNames).Nodup := by decide +kernel

/-- C159 is violated: the default list asks for `dft_std_modulus`, a parameter the elemental data do not have, so that
column of the averages is missing for every structure (and 0 in the sums). -/
theorem C159_modulus_violated (table : ℕ → Option Elem) (magmom : ℕ → Rat)
    (hdata : ∀ z e, table z = some e → e.plain "dft_std_modulus" = none) (numbers : List ℕ) (hn : numbers ≠ [])
    (elem : ℕ → Elem) (hz : ∀ z ∈ numbers, table z = some (elem z))
    (hd : ∀ z ∈ numbers, ∀ p ∈ defaultParams ++ defaultExtraParams, DataOk (elem z) p) :
    ∃ a s, bulkFp table magmom .mean defaultExtraParams numbers = .ok a ∧
      bulkFp table magmom .sum defaultExtraParams numbers = .ok s ∧
      (defaultParams ++ defaultExtraParams)[27]? = some "dft_std_modulus" ∧
      averageNames[27]? = some "dft_av_modulus_av" ∧ a[27]? = some none ∧ s[27]? = some (some 0) := by
  set plain := defaultParams ++ defaultExtraParams.take 21 with hplain
  set special := defaultExtraParams.drop 21 with hspecial
  have hsplit : defaultParams ++ defaultExtraParams = plain ++ special := by decide
  have hp : ∀ p ∈ plain, isSpecial p = false := by rw [hplain]; decide
  have hs : ∀ p ∈ special, isSpecial p = true := by rw [hspecial]; decide
  rw [hsplit] at hd
  have hred := fun st => reduced_ok table magmom st numbers hn elem plain special hz hp hs hd
  have hcol : (numbers.map fun z => (record elem magmom (plain ++ special) z).getD 27 none) = numbers.map fun _ => none := by
    apply List.map_congr_left
    intro z hz'
    have h1 : plain.flatMap (valuesOf (elem z)) = plain.map (elem z).plain := by
      rw [← List.flatMap_singleton' (plain.map (elem z).plain), List.flatMap_map]
      apply List.flatMap_congr
      intro p hp'
      exact (valuesOf_plain (elem z) p (hp p hp')).1
    rw [record, List.flatMap_append, h1, List.append_assoc, List.getD_append _ _ _ _ (by simp [hplain]; decide)]
    rw [List.getD_eq_getElem?_getD, List.getElem?_map, show plain[27]? = some "dft_std_modulus" by rw [hplain]; decide]
    simp [hdata z (elem z) (hz z hz')]
  have hknown : known (numbers.map fun _ => none) = [] := by simp [known]
  have h27 : 27 < nParams (plain ++ special) + 1 := by rw [← hsplit]; decide
  refine ⟨_, _, by rw [bulkFp, hsplit]; exact hred .mean, by rw [bulkFp, hsplit]; exact hred .sum, by decide, by decide,
    ?_, ?_⟩
  · rw [List.getElem?_map, List.getElem?_range h27]
    simp only [Option.map_some, hcol, Stat.col, hknown, if_true]
  · rw [List.getElem?_map, List.getElem?_range h27]
    simp only [Option.map_some, hcol, Stat.col, hknown, List.sum_nil]

/-! ### C160: repeating the unit cell -/

private theorem known_flatten (k : ℕ) (l : List (Option Rat)) :
    known (List.replicate k l).flatten = (List.replicate k (known l)).flatten := by
  induction k with
  | zero => rfl
  | succ k ih =>
    simp only [known, List.replicate_succ, List.flatten_cons, List.filterMap_append] at ih ⊢
    rw [ih]

private theorem sum_flatten_replicate (k : ℕ) (l : List Rat) : ((List.replicate k l).flatten).sum = k * l.sum := by
  induction k with
  | zero => simp
  | succ k ih => rw [List.replicate_succ, List.flatten_cons, List.sum_append, ih]; push_cast; ring

private theorem flatten_replicate_nil {A : Type} (k : ℕ) (hk : 0 < k) (l : List A) :
    (List.replicate k l).flatten = [] ↔ l = [] := by
  rw [List.flatten_eq_nil_iff]
  constructor
  · intro h; exact h l (by simp; omega)
  · intro h m hm; rw [List.mem_replicate] at hm; rw [hm.2, h]

private theorem mem_flatten_replicate {A : Type} (k : ℕ) (hk : 0 < k) (l : List A) (x : A) :
    x ∈ (List.replicate k l).flatten ↔ x ∈ l := by
  rw [List.mem_flatten]
  constructor
  · rintro ⟨m, hm, h⟩; rw [List.mem_replicate] at hm; exact hm.2 ▸ h
  · intro h; exact ⟨l, List.mem_replicate.mpr ⟨by omega, rfl⟩, h⟩

private theorem map_flatten_replicate {A B : Type} (k : ℕ) (l : List A) (f : A → B) :
    (List.replicate k l).flatten.map f = (List.replicate k (l.map f)).flatten := by
  rw [List.map_flatten, List.map_replicate]

private theorem getD_flatMap_replicate (k : ℕ) (hk : 0 < k) (d : Rat) : ∀ (s : List Rat) (i : ℕ),
    (s.flatMap (List.replicate k)).getD i d = s.getD (i / k) d := by
  intro s
  induction s with
  | nil => intro i; simp
  | cons x s ih =>
    intro i
    rw [List.flatMap_cons]
    by_cases hi : i < k
    · rw [List.getD_append _ _ _ _ (by simpa using hi), Nat.div_eq_of_lt hi, List.getD_eq_getElem _ _ (by simpa using hi)]
      simp
    · rw [List.getD_append_right _ _ _ _ (by simpa using hi), List.length_replicate, ih]
      obtain ⟨m, rfl⟩ : ∃ m, i = m + k := ⟨i - k, by omega⟩
      rw [Nat.add_sub_cancel, Nat.add_div_right _ hk, List.getD_cons_succ]

private theorem median_copies (k : ℕ) (hk : 0 < k) (l : List Rat) (hl : l ≠ []) :
    median (List.replicate k l).flatten = median l := by
  have hcount : ∀ a, (List.replicate k l).flatten.count a = (l.flatMap (List.replicate k)).count a := by
    intro a
    have h1 : (List.replicate k l).flatten.count a = k * l.count a := by
      induction k with
      | zero => simp
      | succ k ih =>
        rcases Nat.eq_zero_or_pos k with h | h
        · subst h; simp
        · rw [List.replicate_succ, List.flatten_cons, List.count_append, ih h]; ring
    have h2 : (l.flatMap (List.replicate k)).count a = k * l.count a := by
      clear h1 hl
      induction l with
      | nil => simp
      | cons x l ih =>
        rw [List.flatMap_cons, List.count_append, ih, List.count_replicate, List.count_cons]
        by_cases h : x = a <;> simp [h]
        ring
    rw [h1, h2]
  have hsort : sortAsc id (List.replicate k l).flatten = (sortAsc id l).flatMap (List.replicate k) := by
    apply List.Perm.eq_of_pairwise (le := fun a b => a ≤ b)
    · intro a b _ _ h1 h2; exact le_antisymm h1 h2
    · exact sortAsc_pairwise id _
    · rw [List.pairwise_flatMap]
      refine ⟨fun a _ => List.pairwise_replicate.mpr (Or.inr le_rfl), ?_⟩
      refine (sortAsc_pairwise id l).imp ?_
      intro a b hab x hx y hy
      rw [List.mem_replicate] at hx hy
      rw [hx.2, hy.2]; exact hab
    · exact ((sortAsc_perm id _).trans (List.perm_iff_count.mpr hcount)).trans
        ((sortAsc_perm id l).symm.flatMap_right _)
  have hlen : (List.replicate k l).flatten.length = k * l.length := by
    simp [List.length_flatten, List.map_replicate]
  have hpos : 0 < l.length := List.length_pos_iff.mpr hl
  simp only [median, hsort, hlen, getD_flatMap_replicate k hk]
  have h1 : k * l.length / 2 / k = l.length / 2 := by
    rw [Nat.div_div_eq_div_mul, Nat.mul_comm 2 k, Nat.mul_div_mul_left _ _ hk]
  have h2 : (k * l.length - 1) / 2 / k = (l.length - 1) / 2 := by
    rw [Nat.div_div_eq_div_mul]
    obtain ⟨m, hm⟩ : ∃ m, l.length = m + 1 := ⟨l.length - 1, by omega⟩
    rw [hm, Nat.add_sub_cancel]
    rcases Nat.even_or_odd' m with ⟨c, hc | hc⟩
    · subst hc
      have : k * (2 * c + 1) - 1 = (k - 1) + (2 * k) * c := by
        have : k * (2 * c + 1) = 2 * k * c + k := by ring
        omega
      rw [this, Nat.add_mul_div_left _ _ (by omega), Nat.div_eq_of_lt (by omega)]; omega
    · subst hc
      have : k * (2 * c + 1 + 1) - 1 = (2 * k - 1) + (2 * k) * c := by
        have : k * (2 * c + 1 + 1) = 2 * k * c + 2 * k := by ring
        omega
      rw [this, Nat.add_mul_div_left _ _ (by omega), Nat.div_eq_of_lt (by omega)]; omega
  rw [h1, h2]

/-- How a statistic of `k` copies of a group follows from that of the group. -/
def copies (st : Stat) (k : ℕ) (r : Option Rat) : Option Rat :=
  match st with
  | .sum => r.map (k * ·)
  | _ => r

private theorem col_copies (st : Stat) (k : ℕ) (hk : 0 < k) (l : List (Option Rat)) :
    st.col (List.replicate k l).flatten = copies st k (st.col l) := by
  have hkq : (k : Rat) ≠ 0 := by exact_mod_cast hk.ne'
  cases st with
  | sum => simp [Stat.col, copies, known_flatten, sum_flatten_replicate]
  | mean =>
    simp only [Stat.col, copies, known_flatten, flatten_replicate_nil k hk]
    by_cases h : known l = []
    · simp [h]
    · simp only [h, if_false, sum_flatten_replicate, Option.some.injEq, List.length_flatten, List.map_replicate,
        List.sum_replicate, smul_eq_mul, Nat.cast_mul]
      rw [mul_div_mul_left _ _ hkq]
  | min =>
    simp only [Stat.col, copies, known_flatten]
    cases hm : (known l).min? with
    | none =>
      simp only [List.min?_eq_none_iff] at hm ⊢
      exact (flatten_replicate_nil k hk _).mpr hm
    | some m =>
      obtain ⟨h1, h2⟩ := List.min?_eq_some_iff.mp hm
      exact List.min?_eq_some_iff.mpr ⟨(mem_flatten_replicate k hk _ m).mpr h1,
        fun x hx => h2 x ((mem_flatten_replicate k hk _ x).mp hx)⟩
  | max =>
    simp only [Stat.col, copies, known_flatten]
    cases hm : (known l).max? with
    | none =>
      simp only [List.max?_eq_none_iff] at hm ⊢
      exact (flatten_replicate_nil k hk _).mpr hm
    | some m =>
      obtain ⟨h1, h2⟩ := List.max?_eq_some_iff.mp hm
      exact List.max?_eq_some_iff.mpr ⟨(mem_flatten_replicate k hk _ m).mpr h1,
        fun x hx => h2 x ((mem_flatten_replicate k hk _ x).mp hx)⟩
  | median =>
    simp only [Stat.col, copies, known_flatten, flatten_replicate_nil k hk]
    by_cases h : known l = []
    · simp [h]
    · simp only [h, if_false, median_copies k hk _ h]

private theorem nanstd_copies (k : ℕ) (hk : 0 < k) (l : List (Option Rat)) :
    nanstd (List.replicate k l).flatten = nanstd l := by
  have hkq : (k : Rat) ≠ 0 := by exact_mod_cast hk.ne'
  simp only [nanstd, known_flatten, flatten_replicate_nil k hk]
  by_cases h : known l = []
  · simp [h]
  · simp only [h, if_false, sum_flatten_replicate, List.length_flatten, List.map_replicate,
        List.sum_replicate, smul_eq_mul, Nat.cast_mul, map_flatten_replicate]
    rw [mul_div_mul_left _ _ hkq, mul_div_mul_left _ _ hkq]

private theorem listParams_copies (table : ℕ → Option Elem) (params : List String) (numbers : List ℕ) (hn : numbers ≠ [])
    (k : ℕ) (hk : 0 < k) (rows : List (List (Option Rat))) (hr : listParams table numbers params = .ok rows) :
    listParams table (List.replicate k numbers).flatten params = .ok (List.replicate k rows).flatten := by
  simp only [listParams] at hr
  cases hm : numbers.mapM (line table params) with
  | error e => simp [hm] at hr
  | ok r =>
    set g : ℕ → List (Option Rat) := fun z => match line table params z with | .ok l => l | .error _ => [] with hg
    have hgz : ∀ z ∈ numbers, line table params z = .ok (g z) := by
      intro z hz
      cases hl : line table params z with
      | ok l => simp [hg, hl]
      | error e =>
        obtain ⟨e', he'⟩ := MapM.mapM_error_of_mem (line table params) numbers ⟨z, hz, e, hl⟩
        rw [hm] at he'; simp at he'
    have h1 := MapM.mapM_ok_map (line table params) g numbers hgz
    have h2 := MapM.mapM_ok_map (line table params) g (List.replicate k numbers).flatten
      fun z hz => hgz z ((mem_flatten_replicate k hk _ z).mp hz)
    rw [hm, Except.ok.injEq] at h1
    subst h1
    have hne : numbers.map g ≠ [] := by simpa using hn
    have hne' : (List.replicate k numbers).flatten.map g ≠ [] := by
      simpa [-List.flatten_eq_nil_iff, flatten_replicate_nil k hk] using hn
    simp only [hm, if_neg hne] at hr
    simp only [listParams, h2, if_neg hne']
    by_cases hall : (numbers.map g).all (fun r => r.length = nParams params) = true
    · rw [if_pos hall, Except.ok.injEq] at hr
      subst hr
      rw [if_pos, map_flatten_replicate]
      rw [map_flatten_replicate]
      rw [List.all_eq_true] at hall ⊢
      exact fun x hx => hall x ((mem_flatten_replicate k hk _ x).mp hx)
    · rw [if_neg hall] at hr; simp at hr

/-- C160: repeating the unit cell of a structure `k` times multiplies `bulk_summation` by `k` and leaves
`bulk_average` and `bulk_std` unchanged; likewise the mean, minimum, maximum and median over the atoms do not change. -/
theorem C160_supercell (table : ℕ → Option Elem) (magmom : ℕ → Rat) (extra : List String) (numbers : List ℕ)
    (hn : numbers ≠ []) (k : ℕ) (hk : 0 < k) :
    (∀ v, bulkFp table magmom .sum extra numbers = .ok v →
      bulkFp table magmom .sum extra (List.replicate k numbers).flatten = .ok (v.map fun r => r.map ((k : Rat) * ·))) ∧
    (∀ st : Stat, st ≠ .sum → ∀ v, bulkFp table magmom st extra numbers = .ok v →
      bulkFp table magmom st extra (List.replicate k numbers).flatten = .ok v) ∧
    ∀ v, bulkStd table magmom extra numbers = .ok v →
      bulkStd table magmom extra (List.replicate k numbers).flatten = .ok v := by
  have key : ∀ (st : Stat) (v : List (Option Rat)), bulkFp table magmom st extra numbers = .ok v →
      bulkFp table magmom st extra (List.replicate k numbers).flatten = .ok (v.map (copies st k)) := by
    intro st v hv
    simp only [bulkFp, reduced] at hv ⊢
    generalize defaultParams ++ extra = params at hv ⊢
    cases hr : listParams table numbers params with
    | error e => simp [hr] at hv
    | ok rows =>
      rw [listParams_copies table _ numbers hn k hk rows hr]
      have hne' : (List.replicate k numbers).flatten ≠ [] := fun h => hn ((flatten_replicate_nil k hk _).mp h)
      simp only [hr, Stat.ofList, List.map_eq_nil_iff, hn, false_and, if_false, Except.ok.injEq] at hv
      simp only [Stat.ofList, List.map_eq_nil_iff, hne', false_and, if_false, Except.ok.injEq]
      rw [← hv, List.map_append, List.map_map, List.map_cons, List.map_nil, map_flatten_replicate, col_copies st k hk]
      congr 1
      apply List.map_congr_left
      intro j _
      rw [column, map_flatten_replicate, col_copies st k hk]; rfl
  refine ⟨fun v hv => ?_, fun st h1 v hv => ?_, fun v hv => ?_⟩
  · exact key .sum v hv
  · rw [key st v hv]
    congr 1
    conv_rhs => rw [← List.map_id v]
    apply List.map_congr_left
    intro r _
    cases st <;> first | rfl | exact absurd rfl h1
  · simp only [bulkStd] at hv ⊢
    generalize defaultParams ++ extra = params at hv ⊢
    cases hr : listParams table numbers params with
    | error e => simp [hr] at hv
    | ok rows =>
      rw [listParams_copies table _ numbers hn k hk rows hr]
      simp only [hr, Except.ok.injEq] at hv
      simp only [Except.ok.injEq]
      rw [← hv, map_flatten_replicate, nanstd_copies k hk]
      congr 1
      apply List.map_congr_left
      intro j _
      rw [column, map_flatten_replicate, nanstd_copies k hk]; rfl

example : (List.replicate 2 [29, 30]).flatten = [29, 30, 29, 30] ∧ [29, 30] ≠ ([] : List ℕ) := by decide

/-! ### C161: radii and strain -/

/-- C161: the radius of an element is its atomic radius in Ångström, else its covalent radius, else the radius of ASE;
an element outside the table raises KeyError. -/
theorem C161_radius (table : ℕ → Option Elem) (radii : ℕ → Rat) (z : ℕ) :
    (table z = none → getRadius table radii z = .error .key) ∧
    ∀ e, table z = some e →
      (∀ r, e.plain "atomic_radius" = some r → ∃ a, getRadius table radii z = .ok a ∧ 100 * a = r) ∧
      (∀ r, e.plain "atomic_radius" = none → e.plain "covalent_radius_cordero" = some r →
        ∃ a, getRadius table radii z = .ok a ∧ 100 * a = r) ∧
      (e.plain "atomic_radius" = none → e.plain "covalent_radius_cordero" = none →
        getRadius table radii z = .ok (radii z)) := by
  refine ⟨fun h => by simp [getRadius, h], fun e he => ⟨fun r hr => ?_, fun r h1 hr => ?_, fun h1 h2 => ?_⟩⟩
  · exact ⟨r / 100, by simp [getRadius, he, hr], by ring⟩
  · exact ⟨r / 100, by simp [getRadius, he, h1, hr], by ring⟩
  · simp [getRadius, he, h1, h2]

/-- The mean radius of a group of atoms. -/
def meanRadius (r : ℕ → Rat) (l : List ℕ) : Rat := (l.map r).sum / l.length

private theorem sum_pos_of (l : List ℕ) (r : ℕ → Rat) (h : ∀ z ∈ l, 0 < r z) (hl : l ≠ []) : 0 < (l.map r).sum := by
  apply List.sum_pos
  · intro x hx
    obtain ⟨z, hz, rfl⟩ := List.mem_map.mp hx
    exact h z hz
  · simpa using hl

private theorem meanRadius_pos (r : ℕ → Rat) (l : List ℕ) (h : ∀ z ∈ l, 0 < r z) (hl : l ≠ []) :
    0 < meanRadius r l := by
  have : (0 : Rat) < l.length := by
    have := List.length_pos_iff.mpr hl
    exact_mod_cast this
  exact div_pos (sum_pos_of l r h hl) this

/-- C161: for nonempty groups of known elements with positive radii the fingerprint holds the relative difference of
the mean radius of the site, and of the termination, to that of the bulk.  So it is zero iff the mean radii agree,
positive iff the site (termination) atoms are larger, always above -1, and it does not change when all radii are
measured in another unit of length.  An empty site gives a missing value, not an exception. -/
theorem C161_strain (table : ℕ → Option Elem) (radii : ℕ → Rat) (r : ℕ → Rat) (site term bulk : List ℕ)
    (hr : ∀ z ∈ site ++ term ++ bulk, getRadius table radii z = .ok (r z) ∧ 0 < r z) (hterm : term ≠ [])
    (hbulk : bulk ≠ []) :
    (site = [] → ∃ t, strain table radii none none (some term) (some bulk) site = .ok [none, t]) ∧
    (site ≠ [] → ∃ s t, strain table radii none none (some term) (some bulk) site = .ok [some s, some t] ∧
      (1 + s) * meanRadius r bulk = meanRadius r site ∧ (1 + t) * meanRadius r bulk = meanRadius r term ∧
      (s = 0 ↔ meanRadius r site = meanRadius r bulk) ∧ (0 < s ↔ meanRadius r bulk < meanRadius r site) ∧ -1 < s ∧
      ∀ (table' : ℕ → Option Elem) (radii' : ℕ → Rat) (c : Rat), 0 < c →
        (∀ z ∈ site ++ term ++ bulk, getRadius table' radii' z = .ok (c * r z)) →
        strain table' radii' none none (some term) (some bulk) site = .ok [some s, some t]) := by
  have hb := meanRadius_pos r bulk (fun z h => (hr z (by simp [h])).2) hbulk
  have hmap : ∀ (tb : ℕ → Option Elem) (rd q : ℕ → Rat) (l : List ℕ), (∀ z ∈ l, getRadius tb rd z = .ok (q z)) →
      l.mapM (getRadius tb rd) = .ok (l.map q) := fun tb rd q l h => MapM.mapM_ok_map _ q l h
  have hexact : ∀ (tb : ℕ → Option Elem) (rd q : ℕ → Rat),
      (∀ z ∈ site ++ term ++ bulk, getRadius tb rd z = .ok (q z)) →
      strain tb rd none none (some term) (some bulk) site =
        .ok [relative (average (site.map q)) (average (bulk.map q)),
          relative (average (term.map q)) (average (bulk.map q))] := by
    intro tb rd q h
    simp only [strain, groupNumbers, hmap tb rd q bulk fun z hz => h z (by simp [hz]),
      hmap tb rd q term fun z hz => h z (by simp [hz]), hmap tb rd q site fun z hz => h z (by simp [hz])]
  have hav : ∀ (q : ℕ → Rat) (l : List ℕ), l ≠ [] → average (l.map q) = some (meanRadius q l) := by
    intro q l h
    simp [average, h, meanRadius]
  have h0 := hexact table radii r fun z hz => (hr z hz).1
  constructor
  · intro hs
    subst hs
    exact ⟨_, h0.trans rfl⟩
  · intro hs
    have hsite := meanRadius_pos r site (fun z h => (hr z (by simp [h])).2) hs
    have hne : meanRadius r bulk ≠ 0 := hb.ne'
    refine ⟨(meanRadius r site - meanRadius r bulk) / meanRadius r bulk,
      (meanRadius r term - meanRadius r bulk) / meanRadius r bulk, ?_, ?_, ?_, ?_, ?_, ?_, ?_⟩
    · rw [h0, hav r site hs, hav r term hterm, hav r bulk hbulk]
      simp [relative, hne]
    · field_simp; ring
    · field_simp; ring
    · rw [div_eq_zero_iff, or_iff_left hne, sub_eq_zero]
    · rw [div_pos_iff_of_pos_right hb, sub_pos]
    · rw [lt_div_iff₀ hb]; linarith
    · intro table' radii' c hc h'
      have hscale : ∀ l : List ℕ, meanRadius (fun z => c * r z) l = c * meanRadius r l := by
        intro l
        simp only [meanRadius, List.sum_map_mul_left]
        ring
      rw [hexact table' radii' (fun z => c * r z) h', hav _ site hs, hav _ term hterm, hav _ bulk hbulk]
      simp only [hscale, relative, mul_eq_zero, hc.ne', hne, or_self, if_false, ← mul_sub]
      rw [mul_div_mul_left _ _ hc.ne', mul_div_mul_left _ _ hc.ne']

private def pdOnCu : ℕ → Option Elem := fun z =>
  if z = 46 then some ⟨fun p => if p = "atomic_radius" then some 140 else none, none, [], 'd', 8⟩
  else if z = 29 then some ⟨fun p => if p = "covalent_radius_cordero" then some 132 else none, none, [], 'd', 8⟩
  else none

example : getRadius pdOnCu (fun _ => 1) 46 = .ok (7 / 5) ∧ getRadius pdOnCu (fun _ => 1) 29 = .ok (33 / 25) ∧
    strain pdOnCu (fun _ => 1) none none (some [46, 29]) (some [29, 29]) [46] = .ok [some (2 / 33), some (1 / 33)] := by
  decide +kernel

/-! ### C162: convoluted fingerprints -/

/-- C162 (partial): if all values are known, the first half of the fingerprint is, per column, the root of the sum of
squares over the group divided by the number of its atoms. -/
theorem C162_conv0_partial (v : List Rat) (hv : v ≠ []) :
    conv0 (v.map some) = some (Real.sqrt (((v.map fun x => x * x).sum : Rat) : ℝ) / v.length) := by
  have hc : complete (v.map some) = some v := by
    clear hv
    induction v with
    | nil => rfl
    | cons x xs ih =>
      simp only [complete, List.map_cons, List.mapM_cons, id] at ih ⊢
      rw [ih]; rfl
  have hpos : ¬ (v.map fun x => x * x).sum < 0 := by
    rw [not_lt]
    apply List.sum_nonneg
    intro y hy
    obtain ⟨x, _, rfl⟩ := List.mem_map.mp hy
    exact mul_self_nonneg x
  simp [conv0, hc, hv, npSqrt, hpos]

/-- The intended convolution: over the atoms of the group and their neighbours. -/
def convSum {n : ℕ} (v : Fin n → Rat) (cm : Fin n → Fin n → ℤ) (sub : List (Fin n)) : Rat :=
  (sub.map fun i => ∑ j, v i * v j * (cm i j : Rat)).sum

/-- C162 (partial): if the group consists of the first `m` atoms, in order, all values are known and the sum is not
negative, the second half of the fingerprint is the root of the sum of the products of the values of neighbouring
atoms (the first one in the group), divided by the number of atoms of the group. -/
theorem C162_conv1_partial {n : ℕ} (v : Fin n → Rat) (cm : Fin n → Fin n → ℤ) (m : ℕ) (hm : m ≤ n) (h0 : 0 < m)
    (sub : List (Fin n)) (hsub : sub = List.ofFn fun r : Fin m => ⟨r, Nat.lt_of_lt_of_le r.2 hm⟩)
    (hnn : 0 ≤ convSum v cm sub) :
    conv1 (fun i => some (v i)) cm sub = .ok (some (Real.sqrt (convSum v cm sub : ℝ) / (m : ℝ))) := by
  have hlen : sub.length = m := by rw [hsub]; simp
  have hne : sub ≠ [] := by intro h; rw [h] at hlen; simp at hlen; omega
  have hle : sub.length ≤ n := by omega
  have hsum : (∑ r : Fin sub.length, ∑ j, v ⟨r, Nat.lt_of_lt_of_le r.2 hle⟩ * (v j * (cm sub[r] j : Rat))) =
      convSum v cm sub := by
    rw [convSum, ← List.sum_ofFn]
    congr 1
    apply List.ext_getElem
    · simp
    · intro i h1 h2
      have hi : sub[i]'(by simpa using h2) = ⟨i, by simp at h2; omega⟩ := by simp [hsub]
      simp only [List.getElem_ofFn, List.getElem_map]
      apply Finset.sum_congr rfl
      intro j _
      simp only [Fin.getElem_fin, hi]
      ring
  have hex : ¬ ∃ i : Fin n, some (v i) = none := by simp
  simp only [conv1, dif_pos hle, if_neg hne, if_neg hex, Option.getD_some]
  rw [hsum, npSqrt, if_neg (not_lt.mpr hnn)]
  simp [hlen]

example : convSum ![1, 2, 3] (fun i j => if i = j then 0 else 1) [0, 1] = 13 ∧
    ([0, 1] : List (Fin 3)) = List.ofFn fun r : Fin 2 => (⟨r, Nat.lt_of_lt_of_le r.2 (by omega)⟩ : Fin 3) := by
  decide +kernel

/-- C162 is violated: for a group of one atom the second half multiplies by the value of the first atom of the
structure instead of the value of the atom of the group. -/
theorem C162_wrong_atom_violated {n : ℕ} (v : Fin (n + 1) → Rat) (cm : Fin (n + 1) → Fin (n + 1) → ℤ) (i : Fin (n + 1)) :
    conv1 (fun i => some (v i)) cm [i] = .ok (npSqrt (v 0 * ∑ j, v j * (cm i j : Rat))) ∧
    convSum v cm [i] = v i * ∑ j, v j * (cm i j : Rat) := by
  constructor
  · have hex : ¬ ∃ i : Fin (n + 1), some (v i) = none := by simp
    have hle : [i].length ≤ n + 1 := by simp
    simp only [conv1, dif_pos hle, if_neg hex, Option.getD_some, List.cons_ne_nil, if_false]
    rw [Finset.mul_sum]
    simp
  · simp [convSum, Finset.mul_sum, mul_assoc]

/-- C162 is violated: the order of the atoms in the structure changes the fingerprint.  Atoms with the values 1, 2, 3, the
last two bonded, the group being the atom with the value 3: the product over the bond is 6, the code gives the
root of 2, and the root of 6 if the atoms are listed in the opposite order. -/
theorem C162_order_of_atoms_violated :
    conv1 (n := 3) (fun i => some (![1, 2, 3] i)) (fun i j => if i.val + j.val = 3 then 1 else 0) [2] =
      .ok (some (Real.sqrt 2)) ∧
    conv1 (n := 3) (fun i => some (![3, 2, 1] i)) (fun i j => if i.val + j.val = 1 then 1 else 0) [0] =
      .ok (some (Real.sqrt 6)) := by
  rw [(C162_wrong_atom_violated (n := 2) ![1, 2, 3] _ 2).1, (C162_wrong_atom_violated (n := 2) ![3, 2, 1] _ 0).1]
  constructor
  · have : (![1, 2, 3] : Fin 3 → Rat) 0 * ∑ j, (![1, 2, 3] : Fin 3 → Rat) j *
        (((if (2 : Fin 3).val + j.val = 3 then 1 else 0 : ℤ)) : Rat) = 2 := by decide +kernel
    rw [this]; simp [npSqrt]
  · have : (![3, 2, 1] : Fin 3 → Rat) 0 * ∑ j, (![3, 2, 1] : Fin 3 → Rat) j *
        (((if (0 : Fin 3).val + j.val = 1 then 1 else 0 : ℤ)) : Rat) = 6 := by decide +kernel
    rw [this]; simp [npSqrt]

/-- C162 is violated: a value that is unknown for one atom anywhere in the structure, bonded to the group or not, makes
the second half of that column missing. -/
theorem C162_unknown_value_violated {n : ℕ} (d : Fin n → Option Rat) (cm : Fin n → Fin n → ℤ) (sub : List (Fin n))
    (hsub : sub.length ≤ n) (i : Fin n) (hi : d i = none) : conv1 d cm sub = .ok none := by
  simp only [conv1, dif_pos hsub, if_pos (⟨i, hi⟩ : ∃ i, d i = none)]
  split <;> rfl

example : conv1 (n := 3) ![some 1, some 1, none] (fun i j => if i.val + j.val = 1 then 1 else 0) [0] = .ok none :=
  C162_unknown_value_violated _ _ _ (by simp) 2 rfl

/-- C162 is violated: two bonded atoms with values of opposite sign (electron affinities, heats of formation) have no
second-half value. -/
theorem C162_negative_violated (a b : Rat) (h : a * b < 0) :
    conv1 (n := 2) (fun i => some (![a, b] i)) (fun i j => if i = j then 0 else 1) [0, 1] = .ok none := by
  have hex : ¬ ∃ i : Fin 2, some ((![a, b] : Fin 2 → Rat) i) = none := by simp
  have hle : ([0, 1] : List (Fin 2)).length ≤ 2 := by simp
  have hv : (∑ r : Fin ([0, 1] : List (Fin 2)).length, ∑ j, (![a, b] : Fin 2 → Rat) ⟨r, Nat.lt_of_lt_of_le r.2 hle⟩ *
      ((![a, b] : Fin 2 → Rat) j * ((if ([0, 1] : List (Fin 2))[r] = j then 0 else 1 : ℤ) : Rat))) = 2 * (a * b) := by
    rw [show (∑ r : Fin ([0, 1] : List (Fin 2)).length, ∑ j, (![a, b] : Fin 2 → Rat) ⟨r, Nat.lt_of_lt_of_le r.2 hle⟩ *
      ((![a, b] : Fin 2 → Rat) j * ((if ([0, 1] : List (Fin 2))[r] = j then 0 else 1 : ℤ) : Rat))) =
      ∑ r : Fin 2, ∑ j, (![a, b] : Fin 2 → Rat) r *
      ((![a, b] : Fin 2 → Rat) j * ((if ([0, 1] : List (Fin 2))[r] = j then 0 else 1 : ℤ) : Rat)) from rfl]
    simp [Fin.sum_univ_two]
    ring
  simp only [conv1, dif_pos hle, if_neg hex, Option.getD_some, List.cons_ne_nil, if_false]
  rw [hv, npSqrt, if_pos (by linarith)]
  rfl

example : (2 : Rat) * (-1) < 0 := by norm_num

/-- C162: without the subset the fingerprints raise NotImplementedError; whenever they return, there are 74 numbers, one
per name; so, the names being fixed, parameters with another number of columns than the default ones are refused. -/
theorem C162_names (table : ℕ → Option Elem) (magmom : ℕ → Rat) (params : List String) {n : ℕ} (z : Fin n → ℕ)
    (cm : Fin n → Fin n → ℤ) (sub : Option (List (Fin n))) :
    (sub = none → convFp table magmom params z cm sub = .error .notImpl) ∧
    ∀ v, convFp table magmom params z cm sub = .ok v → v.length = 74 ∧
      nParams params = nParams (defaultParams ++ extraSlabParams) := by
  have h36 : nParams (defaultParams ++ extraSlabParams) = 36 := by decide
  refine ⟨fun h => by simp [convFp, h], fun v hv => ?_⟩
  rw [h36]
  cases sub with
  | none => simp [convFp] at hv
  | some sub =>
    simp only [convFp] at hv
    split at hv
    · simp at hv
    · simp at hv
    · split at hv
      · simp at hv
      · simp at hv
      · rename_i second m hs hm
        split at hv
        · simp at hv
        · rename_i hl
          simp only [Except.ok.injEq] at hv
          subst hv
          have h2 : second.length = nParams params := by
            have := (MapM.mapM_ok_forall₂ _ _ _ hs).length_eq
            simpa using this.symm
          simp only [ne_eq, not_not] at hl
          refine ⟨hl, ?_⟩
          simp [h2] at hl
          omega

end CatLearn.Props
