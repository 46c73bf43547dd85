import Verif.Props.PeriodicTable
import Verif.Props.SiteStats

/-!
C149 with the labels and values written out, independent of `labelsOf` and `valuesOf`.
-/

namespace CatLearn.Props

open CatLearn CatLearn.PeriodicTable

/-- A number in the middle of a list: the middle one or the mean of the two middle ones. -/
def IsMedian (l : List Rat) (m : Rat) : Prop :=
  ∃ lo mid hi, l.Perm (lo ++ mid ++ hi) ∧ lo.length = hi.length ∧ (mid.length = 1 ∨ mid.length = 2) ∧
    m * mid.length = mid.sum ∧ (∀ x ∈ lo, ∀ y ∈ mid, x ≤ y) ∧ ∀ x ∈ mid, ∀ y ∈ hi, x ≤ y

/-- The columns of one parameter: every value stands under the label that names it. -/
def Announced (e : Elem) (pre suf p : String) (cols : List (Option Rat × String)) : Prop :=
  (p = "oxistates" → ∃ l lo me hi, e.oxistates = some l ∧ (lo ∈ l ∧ ∀ x ∈ l, lo ≤ x) ∧ IsMedian l me ∧
    (hi ∈ l ∧ ∀ x ∈ l, x ≤ hi) ∧
    cols = [(some lo, pre ++ "oxi_min" ++ suf), (some me, pre ++ "oxi_med" ++ suf), (some hi, pre ++ "oxi_max" ++ suf)]) ∧
  (p = "block" → cols =
    [(some (if e.block = 's' then 1 else 0), pre ++ "sblock" ++ suf),
      (some (if e.block = 'p' then 1 else 0), pre ++ "pblock" ++ suf),
      (some (if e.block = 'd' then 1 else 0), pre ++ "dblock" ++ suf),
      (some (if e.block = 'f' then 1 else 0), pre ++ "fblock" ++ suf)]) ∧
  (p = "econf" → ∃ o, nOuter e.econf = .ok o ∧ cols =
    [(some (o.tot : Rat), pre ++ "ne_outer" ++ suf), (some (o.s : Rat), pre ++ "ne_s" ++ suf),
      (some (o.p : Rat), pre ++ "ne_p" ++ suf), (some (o.d : Rat), pre ++ "ne_d" ++ suf),
      (some (o.f : Rat), pre ++ "ne_f" ++ suf)]) ∧
  (p = "ionenergies" → cols = [(some e.ionenergies1, pre ++ "ionenergy" ++ suf)]) ∧
  (p ∉ ["oxistates", "block", "econf", "ionenergies"] → cols = [(e.plain p, pre ++ p ++ suf)])

theorem join (a b c s : String) (h : a ++ b = c) : a ++ (b ++ s) = c ++ s := by rw [← String.append_assoc, h]

theorem announced_zip (e : Elem) (pre suf p : String) (hd : DataOk e p) :
    Announced e pre suf p ((valuesOf e p).zip (labelsOf pre suf p)) := by
  refine ⟨?_, ?_, ?_, ?_, ?_⟩
  · rintro rfl
    obtain ⟨l, hl, he⟩ := hd.1 rfl
    cases hmin : l.min? with
    | none => simp at hmin; exact absurd hmin hl
    | some a =>
      cases hmax : l.max? with
      | none => simp at hmax; exact absurd hmax hl
      | some b =>
        refine ⟨l, a, median l, b, he, List.min?_eq_some_iff.mp hmin, median_spec l hl,
          List.max?_eq_some_iff.mp hmax, ?_⟩
        simp only [valuesOf, labelsOf, he, hmin, hmax, if_true, Option.getD_some, List.map_cons, List.map_nil, List.zip_cons_cons,
          List.zip_nil_right, String.append_assoc]
        rw [join "oxi_" "min" "oxi_min" suf (by decide), join "oxi_" "med" "oxi_med" suf (by decide),
          join "oxi_" "max" "oxi_max" suf (by decide)]
  · rintro rfl
    simp [valuesOf, labelsOf, String.append_assoc]
    exact ⟨join _ _ _ _ (by decide), join _ _ _ _ (by decide), join _ _ _ _ (by decide), join _ _ _ _ (by decide)⟩
  · rintro rfl
    obtain ⟨o, ho⟩ := hd.2.1 rfl
    refine ⟨o, ho, ?_⟩
    simp [valuesOf, labelsOf, ho, String.append_assoc]
    exact ⟨join _ _ _ _ (by decide), join _ _ _ _ (by decide), join _ _ _ _ (by decide), join _ _ _ _ (by decide),
      join _ _ _ _ (by decide)⟩
  · rintro rfl
    simp [valuesOf, labelsOf]
  · intro hp
    simp only [List.mem_cons, List.not_mem_nil, or_false, not_or] at hp
    simp [valuesOf, labelsOf, hp.1, hp.2.1, hp.2.2.1, hp.2.2.2]

/-- C149 (partial): under the conditions of `C149_columns_match_labels_partial`, the columns of every row are, parameter
by parameter, the smallest, middle and largest oxidation state under `oxi_min`, `oxi_med`, `oxi_max`; indicators of the
block under `sblock`, `pblock`, `dblock`, `fblock`; the outer electrons under `ne_outer`, `ne_s`, `ne_p`, `ne_d`, `ne_f`;
the first ionisation energy under `ionenergy`; and any other parameter under its own name. -/
theorem C149_named_columns_partial (table : Nat → Option Elem) (numbers : List Nat)
    (hn : numbers ≠ []) (elem : Nat → Elem) (plain special : List String)
    (hz : ∀ z ∈ numbers, table z = some (elem z)) (hp : ∀ p ∈ plain, isSpecial p = false)
    (hs : ∀ p ∈ special, isSpecial p = true)
    (hd : ∀ z ∈ numbers, ∀ p ∈ plain ++ special, DataOk (elem z) p) (pre suf : String) :
    ∃ rows, listParams table numbers (plain ++ special) = .ok rows ∧ rows.length = numbers.length ∧
      ∀ i (hi : i < numbers.length), ∃ row cols, rows[i]? = some row ∧
        row.length = (makeLabels (plain ++ special) pre suf).length ∧
        row.zip (makeLabels (plain ++ special) pre suf) = cols.flatten ∧
        List.Forall₂ (Announced (elem numbers[i]) pre suf) (plain ++ special) cols := by
  obtain ⟨rows, h1, h2, h3⟩ := C149_columns_match_labels_partial table numbers hn elem plain special hz hp hs hd pre suf
  refine ⟨rows, h1, h2, fun i hi => ?_⟩
  obtain ⟨row, h4, h5, h6⟩ := h3 i hi
  refine ⟨row, (plain ++ special).map fun p => (valuesOf (elem numbers[i]) p).zip (labelsOf pre suf p), h4, h5, ?_, ?_⟩
  · rw [h6, List.flatMap_def]
  · rw [List.forall₂_map_right_iff, List.forall₂_same]
    intro p hp'
    exact announced_zip _ _ _ p (hd _ (List.getElem_mem hi) p hp')

example : let e : Elem := ⟨fun _ => some 5, some [3, 2, 7], "[Ar] 3d8 4s2".toList, 'd', 7⟩
    ∃ rows, listParams (fun z => if z = 28 then some e else none) [28, 28] (["en"] ++ ["oxistates", "block"]) = .ok rows ∧
      rows.length = 2 :=
  let e : Elem := ⟨fun _ => some 5, some [3, 2, 7], "[Ar] 3d8 4s2".toList, 'd', 7⟩
  have h := C149_named_columns_partial (fun z => if z = 28 then some e else none) [28, 28] (by simp) (fun _ => e) ["en"]
    ["oxistates", "block"] (by simp) (by decide) (by decide)
    (by intro z _ p hp; simp at hp; rcases hp with rfl | rfl | rfl <;> simp [DataOk, e]) "" ""
  ⟨h.choose, h.choose_spec.1, h.choose_spec.2.1⟩

end CatLearn.Props
