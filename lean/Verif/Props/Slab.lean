import Verif.Model.Slab
import Verif.Lemmas.Py
import Mathlib.Data.Finset.Card
import Mathlib.Data.Finset.Range
import Mathlib.Data.Finset.Basic
import Mathlib.Data.List.Nodup
import Mathlib.Data.Multiset.Fintype
import Mathlib.Tactic.NormNum
import Mathlib.Tactic.Linarith

/-!
# Adsorbate and slab atoms: C65, C66, C67, C145, C146, C147
-/

namespace CatLearn.Slab

open CatLearn

theorem mem_indices (n : ℕ) (i : ℤ) : i ∈ indices n ↔ 0 ≤ i ∧ i < n := by
  simp only [indices, List.mem_map, List.mem_range]
  constructor
  · rintro ⟨k, hk, rfl⟩
    exact ⟨Int.natCast_nonneg k, by simpa using hk⟩
  · rintro ⟨h1, h2⟩
    exact ⟨i.toNat, by omega, Int.toNat_of_nonneg h1⟩

theorem indices_sorted (n : ℕ) : (indices n).Pairwise (· < ·) := by
  unfold indices
  rw [List.pairwise_map]
  exact List.pairwise_lt_range.imp fun h => by simpa using h

theorem indices_nodup (n : ℕ) : (indices n).Nodup := (indices_sorted n).imp fun h => h.ne

theorem indices_length (n : ℕ) : (indices n).length = n := by simp [indices]

theorem mem_unique (l : List ℤ) (i : ℤ) : i ∈ unique l ↔ i ∈ l := by
  unfold unique
  rw [(sortAsc_perm id _).mem_iff, List.mem_dedup]

theorem unique_sorted (l : List ℤ) : (unique l).Pairwise (· < ·) := by
  have h1 := sortAsc_pairwise (id : ℤ → ℤ) l.dedup
  have h2 : (unique l).Nodup := (sortAsc_perm _ _).nodup_iff.2 (List.nodup_dedup _)
  exact (h1.and h2).imp fun h => lt_of_le_of_ne h.1 h.2

/-! ## C65: slab and adsorbate -/

/-- C65: the slab atoms are the atoms that are not adsorbate atoms, each once, in order; and the other way round. -/
theorem C65_partition (n : ℕ) (ads slab : List ℤ) :
    ((slabIndex n ads).Pairwise (· < ·) ∧ ∀ i, i ∈ slabIndex n ads ↔ (0 ≤ i ∧ i < n) ∧ i ∉ ads) ∧
    ((adsIndex n slab).Pairwise (· < ·) ∧ ∀ i, i ∈ adsIndex n slab ↔ (0 ≤ i ∧ i < n) ∧ i ∉ slab) := by
  refine ⟨⟨(indices_sorted n).filter _, fun i => ?_⟩, (indices_sorted n).filter _, fun i => ?_⟩
  · simp [slabIndex, mem_indices]
  · simp [adsIndex, mem_indices]

example : slabIndex 5 [1, 4] = [0, 2, 3] ∧ adsIndex 5 [0, 2, 3] = [1, 4] := by constructor <;> decide

/-- C65: the chemisorbed atoms are the adsorbate atoms bonded to a slab atom, the site atoms are the slab atoms bonded
to an adsorbate atom, the ligand atoms are the slab atoms bonded to a site atom that are not site atoms.  All three
lists are ascending without repetitions. -/
theorem C65_primary (cm : ℤ → ℤ → ℤ) (slab ads chemi site ligand : List ℤ)
    (h : primaryIndex cm slab ads = (chemi, site, ligand)) :
    (chemi.Pairwise (· < ·) ∧ ∀ i, i ∈ chemi ↔ i ∈ ads ∧ ∃ s ∈ slab, 0 < cm i s) ∧
    (site.Pairwise (· < ·) ∧ ∀ s, s ∈ site ↔ s ∈ slab ∧ ∃ i ∈ ads, 0 < cm i s) ∧
    (ligand.Pairwise (· < ·) ∧ ∀ l, l ∈ ligand ↔ l ∈ slab ∧ l ∉ site ∧ ∃ s ∈ site, 0 < cm l s) := by
  simp only [primaryIndex, Prod.mk.injEq] at h
  obtain ⟨rfl, rfl, rfl⟩ := h
  refine ⟨⟨unique_sorted _, fun i => ?_⟩, ⟨unique_sorted _, fun s => ?_⟩, (unique_sorted _).filter _, fun l => ?_⟩
  · rw [mem_unique]
    simp only [List.mem_map, List.mem_flatMap, List.mem_filter, decide_eq_true_eq]
    constructor
    · rintro ⟨p, ⟨a, ha, s, ⟨hs, hc⟩, rfl⟩, rfl⟩
      exact ⟨ha, s, hs, hc⟩
    · rintro ⟨ha, s, hs, hc⟩
      exact ⟨(i, s), ⟨i, ha, s, ⟨hs, hc⟩, rfl⟩, rfl⟩
  · rw [mem_unique]
    simp only [List.mem_map, List.mem_flatMap, List.mem_filter, decide_eq_true_eq]
    constructor
    · rintro ⟨p, ⟨a, ha, s, ⟨hs, hc⟩, rfl⟩, rfl⟩
      exact ⟨hs, a, ha, hc⟩
    · rintro ⟨hs, a, ha, hc⟩
      exact ⟨(a, s), ⟨a, ha, s, ⟨hs, hc⟩, rfl⟩, rfl⟩
  · rw [List.mem_filter, mem_unique]
    simp only [List.mem_flatMap, List.mem_filter, decide_eq_true_eq]
    constructor
    · rintro ⟨⟨s, hs, hl, hc⟩, hn⟩
      exact ⟨hl, hn, s, hs, hc⟩
    · rintro ⟨hl, hn, s, hs, hc⟩
      exact ⟨⟨s, hs, hl, hc⟩, hn⟩

/-- An atom 0 on a chain 1-2-3-4, bonded to 2. -/
example : primaryIndex (fun i j => if (i, j) ∈ ([(0, 2), (2, 0), (1, 2), (2, 1), (2, 3), (3, 2), (3, 4), (4, 3)] :
    List (ℤ × ℤ)) then 1 else 0) [1, 2, 3, 4] [0] = ([0], [2], [1, 3]) := by decide +kernel

/-- The length check of `autogen_info` with a computed slab. -/
theorem length_check (n : ℕ) (ads : List ℤ) (h : (slabIndex n ads).length + ads.length = n) :
    ads.Nodup ∧ ∀ i ∈ ads, 0 ≤ i ∧ i < n := by
  have h1 : (slabIndex n ads).length + ((indices n).filter (· ∈ ads)).length = n := by
    have := List.length_eq_length_filter_add (l := indices n) (fun i => decide (i ∈ ads))
    rw [indices_length] at this
    have h2 : (slabIndex n ads) = (indices n).filter fun i => !decide (i ∈ ads) := by
      unfold slabIndex
      refine List.filter_congr fun i _ => ?_
      simp
    rw [h2]
    omega
  have h3 : ((indices n).filter (· ∈ ads)).length = ads.length := by omega
  have h4 : ((indices n).filter (· ∈ ads)).toFinset ⊆ ads.toFinset := by
    intro i hi
    simp only [List.mem_toFinset, List.mem_filter, decide_eq_true_eq] at hi ⊢
    exact hi.2
  have h5 : ((indices n).filter (· ∈ ads)).toFinset.card = ads.length := by
    rw [List.toFinset_card_of_nodup ((indices_nodup n).filter _), h3]
  have h6 : ads.toFinset.card ≤ ads.length := List.toFinset_card_le ads
  have h7 : ((indices n).filter (· ∈ ads)).toFinset = ads.toFinset :=
    Finset.eq_of_subset_of_card_le h4 (by omega)
  refine ⟨?_, fun i hi => ?_⟩
  · have : ads.toFinset.card = ads.length := by rw [← h7, h5]
    exact (Multiset.toFinset_card_eq_card_iff_nodup (m := (ads : Multiset ℤ))).1 this
  · have : i ∈ ((indices n).filter (· ∈ ads)).toFinset := by rw [h7]; simpa using hi
    simp only [List.mem_toFinset, List.mem_filter] at this
    exact (mem_indices n i).1 this.1

/-- The subsets that `autogen` attaches. -/
theorem autogen_subsets (a a' : Atoms) (h : autogen a = .ok a') :
    (∃ ads, a'.subsets.ads = some ads ∧ (a.subsets.ads = none → ads = [] → a'.subsets.slab = a.subsets.slab) ∧
      (a.subsets.ads = some ads ∨ (a.subsets.ads = none ∧ detectAdsorbate a = .ok ads)) ∧
      ((a.subsets.ads = none ∧ ads = []) ∨
        (a'.subsets.slab = some (a.subsets.slab.getD (slabIndex a.n ads)) ∧
        (a.subsets.slab.getD (slabIndex a.n ads)).length + ads.length = a.n ∧
        a'.subsets.primary = some (a.subsets.primary.getD
          (primaryIndex a.cm (a.subsets.slab.getD (slabIndex a.n ads)) ads))))) := by
  have hfin : ∀ a1 : Atoms, finish a1 = .ok a' → a'.subsets.ads = a1.subsets.ads ∧
      a'.subsets.slab = a1.subsets.slab ∧ a'.subsets.primary = a1.subsets.primary := by
    intro a1 h1
    unfold finish at h1
    split at h1
    · cases h1; exact ⟨rfl, rfl, rfl⟩
    · simp only [autogenTermination] at h1
      split at h1
      · cases h1
      · cases h1; exact ⟨rfl, rfl, rfl⟩
  cases hads : a.subsets.ads with
  | some l =>
    simp only [autogen, hads, Bool.false_eq_true, if_false] at h
    split at h
    · cases h
    · rename_i hlen
      push Not at hlen
      obtain ⟨h1, h2, h3⟩ := hfin _ h
      exact ⟨l, h1, by simp, Or.inl rfl, Or.inr ⟨h2, hlen, h3⟩⟩
  | none =>
    simp only [autogen, hads] at h
    cases hd : detectAdsorbate a with
    | error e => rw [hd] at h; cases h
    | ok l =>
      rw [hd] at h
      simp only at h
      split at h
      · rename_i hl
        cases h
        exact ⟨l, rfl, fun _ _ => rfl, Or.inr ⟨rfl, rfl⟩, Or.inl ⟨rfl, by simpa using hl⟩⟩
      · rename_i hemp
        split at h
        · cases h
        · rename_i hlen
          push Not at hlen
          obtain ⟨h1, h2, h3⟩ := hfin _ h
          exact ⟨l, h1, fun _ hl => by subst hl; simp at hemp, Or.inr ⟨rfl, rfl⟩,
            Or.inr ⟨h2, hlen, h3⟩⟩

/-- C65 (partial: the user attached at most one of the two lists, and there is an adsorbate): after `autogen_info` the
adsorbate and slab atoms partition the atoms, whatever list was attached before (a wrong one is rejected), and
chemisorbed atoms are adsorbate atoms, site and ligand atoms are slab atoms. -/
theorem C65_autogen_partial (a a' : Atoms) (h : autogen a = .ok a')
    (huser : a.subsets.ads = none ∨ a.subsets.slab = none) (hp : a.subsets.primary = none)
    (ads : List ℤ) (hads : a'.subsets.ads = some ads) (hne : ads ≠ []) :
    ∃ slab chemi site ligand, a'.subsets.slab = some slab ∧ ads.Nodup ∧ slab.Nodup ∧
      (∀ i, (i ∈ ads ∨ i ∈ slab) ↔ 0 ≤ i ∧ i < a.n) ∧ (∀ i ∈ ads, i ∉ slab) ∧
      a'.subsets.primary = some (chemi, site, ligand) ∧ (∀ i ∈ chemi, i ∈ ads) ∧ (∀ i ∈ site, i ∈ slab) ∧
      (∀ i ∈ ligand, i ∈ slab ∧ i ∉ site) := by
  obtain ⟨ads', h1, _, h3, h4⟩ := autogen_subsets a a' h
  rw [hads] at h1
  cases h1
  rcases h4 with ⟨_, h4⟩ | ⟨h4, h5, h6⟩
  · exact absurd h4 hne
  have hpr := C65_primary a.cm (a.subsets.slab.getD (slabIndex a.n ads)) ads _ _ _ rfl
  rw [hp, Option.getD_none] at h6
  refine ⟨_, _, _, _, h4, ?_, ?_, ?_, ?_, h6, fun i hi => ((hpr.1.2 i).1 hi).1, fun i hi => ((hpr.2.1.2 i).1 hi).1,
    fun i hi => ⟨((hpr.2.2.2 i).1 hi).1, ((hpr.2.2.2 i).1 hi).2.1⟩⟩
  all_goals
    cases hs : a.subsets.slab with
    | none =>
      rw [hs, Option.getD_none] at h5
      have hc := length_check a.n ads h5
      have hsl := (C65_partition a.n ads []).1
      first
      | exact hc.1
      | exact hsl.1.imp fun h => h.ne
      | (intro i; simp only [Option.getD_none]; rw [hsl.2 i]
         constructor
         · rintro (hi | hi)
           · exact hc.2 i hi
           · exact hi.1
         · intro hi
           by_cases hm : i ∈ ads
           · exact Or.inl hm
           · exact Or.inr ⟨hi, hm⟩)
      | (intro i hi; simp only [Option.getD_none]; rw [hsl.2 i]; exact fun h => h.2 hi)
    | some s =>
      rcases huser with hu | hu
      · rcases h3 with h3 | ⟨_, h3⟩
        · rw [hu] at h3; cases h3
        · have hads' : ads = slabIndex a.n s := by
            simp only [detectAdsorbate, hu, hs, Except.ok.injEq] at h3
            exact h3.symm
          rw [hs, Option.getD_some] at h5
          have hc := length_check a.n s (by rw [← hads']; omega)
          have hsl := (C65_partition a.n s []).1
          subst hads'
          try simp only [Option.getD_some]
          first
          | exact hsl.1.imp fun h => h.ne
          | exact hc.1
          | (intro i; rw [hsl.2 i]
             constructor
             · rintro (hi | hi)
               · exact hi.1
               · exact hc.2 i hi
             · intro hi
               by_cases hm : i ∈ s
               · exact Or.inr hm
               · exact Or.inl ⟨hi, hm⟩)
          | (intro i hi; rw [hsl.2 i] at hi; exact hi.2)
      · rw [hs] at hu; cases hu

/-- C65 fails when both lists are attached: the check looks at their lengths only, and overlapping lists that leave
atoms out are accepted. -/
theorem C65_check_violated : ∃ a a' : Atoms, a.n = 4 ∧ a.subsets.ads = some [0] ∧ a.subsets.slab = some [0, 1, 2] ∧
    autogen a = .ok a' ∧ a'.subsets.ads = some [0] ∧ a'.subsets.slab = some [0, 1, 2] :=
  ⟨{ z := [1, 29, 29, 29], tags := [-1, 1, 2, 3], cm := fun _ _ => 0, subsets := { ads := some [0], slab := some [0, 1, 2] } },
    _, rfl, rfl, rfl, rfl, rfl, rfl⟩

/-! ## C66: names of the layers -/

/-- C66, `autogen_info`: the lists are stored under their names. -/
theorem C66_autogen (a a' : Atoms) (bulk term subsurf : List ℤ) (hd : detectTermination a = .ok (bulk, term, subsurf))
    (h : autogenTermination a = .ok a') :
    a'.subsets.bulk = some bulk ∧ a'.subsets.term = some term ∧ a'.subsets.subsurf = some subsurf := by
  simp only [autogenTermination, hd] at h
  cases h
  exact ⟨rfl, rfl, rfl⟩

/-- What the end of `autogen_info` stores. -/
theorem finish_layers (a a' : Atoms) (h : finish a = .ok a') :
    a'.subsets.ads = a.subsets.ads ∧
    ((∀ bulk term subsurf, a.subsets.bulk = some bulk → a.subsets.term = some term → a.subsets.subsurf = some subsurf →
        a'.subsets.bulk = some bulk ∧ a'.subsets.term = some term ∧ a'.subsets.subsurf = some subsurf) ∧
      ((a.subsets.bulk = none ∨ a.subsets.term = none ∨ a.subsets.subsurf = none) →
        ∃ bulk term subsurf, detectTermination a' = .ok (bulk, term, subsurf) ∧ a'.subsets.bulk = some bulk ∧
          a'.subsets.term = some term ∧ a'.subsets.subsurf = some subsurf)) := by
  unfold finish at h
  split at h
  · rename_i hs
    cases h
    refine ⟨rfl, fun _ _ _ h1 h2 h3 => ⟨h1, h2, h3⟩, fun hn => ?_⟩
    rcases hn with hn | hn | hn <;> simp [hn] at hs
  · rename_i hs
    simp only [autogenTermination] at h
    split at h
    · cases h
    · rename_i bulk term subsurf hd
      cases h
      refine ⟨rfl, fun _ _ _ h1 h2 h3 => ?_, fun _ => ⟨bulk, term, subsurf, ?_, rfl, rfl, rfl⟩⟩
      · simp [h1, h2, h3] at hs
      · rw [← hd]
        rfl

/-- C66, the whole of `autogen_info` for a structure with an adsorbate: if the three layers were all attached they are kept as
they are; if any is missing all three are those that `detect_termination` finds, each under its name. -/
theorem C66_autogen_layers (a a' : Atoms) (h : autogen a = .ok a') (hne : a'.subsets.ads ≠ some []) :
    (∀ bulk term subsurf, a.subsets.bulk = some bulk → a.subsets.term = some term → a.subsets.subsurf = some subsurf →
      a'.subsets.bulk = some bulk ∧ a'.subsets.term = some term ∧ a'.subsets.subsurf = some subsurf) ∧
    ((a.subsets.bulk = none ∨ a.subsets.term = none ∨ a.subsets.subsurf = none) →
      ∃ bulk term subsurf, detectTermination a' = .ok (bulk, term, subsurf) ∧ a'.subsets.bulk = some bulk ∧
        a'.subsets.term = some term ∧ a'.subsets.subsurf = some subsurf) := by
  cases hads : a.subsets.ads with
  | some l =>
    simp only [autogen, hads, Bool.false_eq_true, if_false] at h
    split at h
    · cases h
    · exact (finish_layers _ _ h).2
  | none =>
    simp only [autogen, hads] at h
    cases hd : detectAdsorbate a with
    | error e => rw [hd] at h; cases h
    | ok l =>
      rw [hd] at h
      simp only at h
      split at h
      · rename_i hl
        cases h
        exact absurd (by simpa using hl) hne
      · split at h
        · cases h
        · exact (finish_layers _ _ h).2

/-- A tagged slab with an attached bulk only: the hypotheses of C66_autogen_layers can be met. -/
example : ∃ a a' : Atoms, autogen a = .ok a' ∧ a'.subsets.ads ≠ some [] ∧ a.subsets.bulk = some [1] ∧ a.subsets.term = none ∧
    a'.subsets.term = some [1] :=
  ⟨{ z := [1, 29, 29, 29], tags := [-1, 1, 2, 3], cm := fun _ _ => 0, subsets := { ads := some [0], bulk := some [1] } },
    _, rfl, by simp, rfl, rfl, rfl⟩

/-- C66 fails for `termination_info`: the outermost layer is stored as subsurface and the second layer as
termination. -/
theorem C66_violated (a a' : Atoms) (bulk term subsurf : List ℤ) (hd : detectTermination a = .ok (bulk, term, subsurf))
    (h : terminationInfo a = .ok a') :
    a'.subsets.bulk = some bulk ∧ a'.subsets.term = some subsurf ∧ a'.subsets.subsurf = some term := by
  simp only [terminationInfo, hd] at h
  cases h
  exact ⟨rfl, rfl, rfl⟩

/-- A tagged slab of three layers with an adsorbate: the outermost layer is atom 1, it is stored as subsurface. -/
example : ∃ a', terminationInfo { z := [1, 29, 29, 29], tags := [-1, 1, 2, 3], cm := fun _ _ => 0 } = .ok a' ∧
    a'.subsets.subsurf = some [1] ∧ a'.subsets.term = some [2] := ⟨_, rfl, rfl, rfl⟩

/-! ## C146: the layers -/

/-- C146, tags: termination, subsurface and bulk atoms are those with tag 1, 2 and more than 1. -/
theorem C146_tags (a : Atoms) (ht : tagged a.tags 0 = true) :
    ∃ bulk term subsurf, detectTermination a = .ok (bulk, term, subsurf) ∧
      (∀ i, i ∈ term ↔ (0 ≤ i ∧ i < a.n) ∧ a.tag i = 1) ∧ (∀ i, i ∈ subsurf ↔ (0 ≤ i ∧ i < a.n) ∧ a.tag i = 2) ∧
      (∀ i, i ∈ bulk ↔ (0 ≤ i ∧ i < a.n) ∧ 1 < a.tag i) ∧ (∀ i ∈ subsurf, i ∈ bulk) ∧ (∀ i ∈ term, i ∉ bulk) := by
  refine ⟨(tagsTermination a).1, (tagsTermination a).2.1, (tagsTermination a).2.2, ?_, ?_⟩
  · simp only [detectTermination, ht, if_true]
  simp only [tagsTermination, List.mem_filter, mem_indices, decide_eq_true_eq]
  refine ⟨fun i => trivial, fun i => trivial, fun i => trivial, fun i h => ⟨h.1, by omega⟩, fun i h h' => by omega⟩

/-- C146, one constraint: bulk and termination atoms partition the slab; the constrained atoms are bulk atoms; the
subsurface atoms are the bulk atoms bonded to a termination atom. -/
theorem C146_constraints (cm : ℤ → ℤ → ℤ) (slab fixed bulk term subsurf : List ℤ)
    (h : constraintsTermination cm slab fixed = .ok (bulk, term, subsurf)) :
    (∀ i, i ∈ slab ↔ i ∈ bulk ∨ i ∈ term) ∧ (∀ i ∈ bulk, i ∉ term) ∧ (∀ i ∈ slab, i ∈ fixed → i ∈ bulk) ∧
    (∀ i, i ∈ subsurf ↔ i ∈ bulk ∧ ∃ t ∈ term, 0 < cm t i) := by
  simp only [constraintsTermination] at h
  split at h
  · cases h
  · simp only [Except.ok.injEq, Prod.mk.injEq] at h
    obtain ⟨rfl, rfl, rfl⟩ := h
    have hdis : ∀ i ∈ slab.filter (fun i : ℤ => decide (i ∈ fixed) || decide (maxCoord cm slab ≤ slabCoord cm slab i + 2)),
        i ∉ slab.filter (fun i : ℤ => !(decide (i ∈ fixed) || decide (maxCoord cm slab ≤ slabCoord cm slab i + 2))) := by
      intro i hi hi'
      rw [List.mem_filter] at hi hi'
      rw [hi.2] at hi'
      simp at hi'
    refine ⟨fun i => ?_, hdis, fun i hi hf => ?_, fun i => ?_⟩
    · simp only [List.mem_filter]
      cases (decide (i ∈ fixed) || decide (maxCoord cm slab ≤ slabCoord cm slab i + 2)) <;> simp
    · rw [List.mem_filter]
      exact ⟨hi, by simp [hf]⟩
    · rw [mem_unique]
      simp only [List.mem_flatMap, List.mem_map]
      constructor
      · rintro ⟨b, hb, t, ht, rfl⟩
        rw [List.mem_filter] at ht
        exact ⟨hb, t, ht.1, (by simpa using ht.2 : t ≠ b ∧ 0 < cm t b).2⟩
      · rintro ⟨hb, t, ht, hc⟩
        refine ⟨i, hb, t, ?_, rfl⟩
        rw [List.mem_filter]
        refine ⟨ht, ?_⟩
        have : t ≠ i := by rintro rfl; exact hdis t hb ht
        simp [this, hc]

/-- C146, one constraint: an atom of the slab is a termination atom just if it is not constrained and some atom of the slab
has at least three bonds to other atoms of the slab more than it. -/
theorem C146_coordination (cm : ℤ → ℤ → ℤ) (slab fixed bulk term subsurf : List ℤ) (hs : slab.Nodup)
    (h : constraintsTermination cm slab fixed = .ok (bulk, term, subsurf)) (i : ℤ) :
    i ∈ term ↔ i ∈ slab ∧ i ∉ fixed ∧ ∃ j ∈ slab,
      (slab.toFinset.filter fun b => b ≠ i ∧ cm i b ≠ 0).card + 3 ≤
        (slab.toFinset.filter fun b => b ≠ j ∧ cm j b ≠ 0).card := by
  have hco : ∀ a, slabCoord cm slab a = (slab.toFinset.filter fun b => b ≠ a ∧ cm a b ≠ 0).card := by
    intro a
    rw [slabCoord, ← List.toFinset_card_of_nodup (hs.filter _)]
    congr 1
    ext b
    simp only [List.mem_toFinset, List.mem_filter, Finset.mem_filter, decide_eq_true_eq, ne_comm (a := a)]
  have hmax : ∀ (l : List ℕ) (c : ℕ), c < l.foldr max 0 ↔ ∃ x ∈ l, c < x := by
    intro l c
    induction l with
    | nil => simp
    | cons x l ih => simp [ih]
  simp only [constraintsTermination] at h
  split at h
  · cases h
  · simp only [Except.ok.injEq, Prod.mk.injEq] at h
    obtain ⟨-, rfl, -⟩ := h
    simp only [List.mem_filter, Bool.not_eq_true', Bool.or_eq_false_iff, decide_eq_false_iff_not, not_le, maxCoord, hmax,
      List.mem_map, exists_exists_and_eq_and, hco]
    refine and_congr_right fun _ => and_congr_right fun _ => exists_congr fun j => and_congr_right fun _ => ?_
    omega

/-- Four atoms, the first bonded to the three others, two of which are constrained: the last one is the termination. -/
example : ∃ bulk subsurf, constraintsTermination (fun i j => if i = 0 ∧ j < 4 then 1 else 0) [0, 1, 2, 3] [1, 2] =
    .ok (bulk, [3], subsurf) := ⟨_, _, rfl⟩

/-- Number of layers when the slab fills the layers `0 … m - 1`. -/
theorem nlayers_eq (a : Atoms) (ads : List ℤ) (m : ℕ)
    (hl : ∀ i : ℤ, 0 ≤ i → i < a.n → i ∉ ads → 0 ≤ a.layers i ∧ a.layers i < m)
    (hall : ∀ k : ℕ, k < m → ∃ i : ℤ, (0 ≤ i ∧ i < a.n) ∧ i ∉ ads ∧ a.layers i = k) :
    (((indices a.n).filter (· ∉ ads)).map a.layers).dedup.length = m := by
  have hperm : (((indices a.n).filter (· ∉ ads)).map a.layers).dedup.Perm (indices m) := by
    rw [List.perm_ext_iff_of_nodup (List.nodup_dedup _) (indices_nodup m)]
    intro k
    simp only [List.mem_dedup, List.mem_map, List.mem_filter, mem_indices, decide_eq_true_eq]
    constructor
    · rintro ⟨i, ⟨hi, hn⟩, rfl⟩
      exact hl i hi.1 hi.2 hn
    · rintro ⟨h0, hk⟩
      obtain ⟨i, hi, hn, hk'⟩ := hall k.toNat (by omega)
      exact ⟨i, ⟨hi, hn⟩, by omega⟩
  rw [hperm.length_eq, indices_length]

/-- C146, layers (partial: the slab fills the `m` lowest layers and the adsorbate is above): termination and subsurface
are the top layer and the one below, bulk all slab atoms below the top. -/
theorem C146_layers_partial (a : Atoms) (ads : List ℤ) (m : ℕ)
    (hl : ∀ i : ℤ, 0 ≤ i → i < a.n → i ∉ ads → 0 ≤ a.layers i ∧ a.layers i < m)
    (hall : ∀ k : ℕ, k < m → ∃ i : ℤ, (0 ≤ i ∧ i < a.n) ∧ i ∉ ads ∧ a.layers i = k)
    (habove : ∀ i ∈ ads, (m : ℤ) ≤ a.layers i) (bulk term subsurf : List ℤ)
    (h : layersTermination a ads = (bulk, term, subsurf)) (i : ℤ) (hi : 0 ≤ i ∧ i < a.n) :
    (i ∈ term ↔ i ∉ ads ∧ a.layers i = m - 1) ∧ (i ∈ subsurf ↔ i ∉ ads ∧ a.layers i = m - 2) ∧
    (i ∈ bulk ↔ i ∉ ads ∧ a.layers i ≤ m - 2) := by
  simp only [layersTermination, nlayers_eq a ads m hl hall, Prod.mk.injEq] at h
  obtain ⟨rfl, rfl, rfl⟩ := h
  simp only [List.mem_filter, mem_indices, hi, decide_eq_true_eq, true_and, and_self]
  have h1 : i ∉ ads → a.layers i < m := fun hn => (hl i hi.1 hi.2 hn).2
  have h2 := habove i
  by_cases hm : i ∈ ads
  · have := h2 hm
    simp only [hm, not_true_eq_false, and_false, false_and, iff_false, true_iff, false_iff]
    refine ⟨trivial, by omega, by omega⟩
  · have := h1 hm
    simp only [hm, not_false_eq_true, and_true, true_and]
    first | omega | (refine ⟨by omega, ?_⟩ <;> simp) | (refine ⟨by omega, by omega, by omega⟩)

/-- C146 fails for an adsorbate below the surface: here on the underside it is reported as bulk, and the two topmost
slab layers as termination. -/
theorem C146_layers_violated : layersTermination
    { z := [1, 29, 29, 29], tags := [0, 0, 0, 0], cm := fun _ _ => 0, layers := id } [0] = ([0, 1], [2, 3], [1]) := by
  decide +kernel

/-- C146 fails for slabs without tags, without exactly one constraint and without the key `layers`: there is no way to
detect the termination. -/
theorem C146_connectivity_violated (a : Atoms) (ht : tagged a.tags 0 = false) (hf : a.fixed.length ≠ 1)
    (hl : a.layersKey = false) : detectTermination a = .error .notImpl := by
  simp only [detectTermination, ht, hl, Bool.and_false, Bool.false_eq_true, if_false]
  split
  · rename_i heq; rw [heq] at hf; simp at hf
  · rfl

/-- C146: which of the ways is taken.  Tags go first; without tags exactly one constraint decides; without both, the key `layers` of `info['key_value_pairs']` is
used, and the adsorbate atoms have to be known. -/
theorem C146_choice (a : Atoms) :
    (tagged a.tags 0 = true → detectTermination a = .ok (tagsTermination a)) ∧
    (tagged a.tags 0 = false → ∀ f slab, a.fixed = [f] → a.subsets.slab = some slab → detectTermination a = constraintsTermination a.cm slab f) ∧
    (tagged a.tags 0 = false → ∀ f, a.fixed = [f] → a.subsets.slab = none → detectTermination a = .error .key) ∧
    (tagged a.tags 0 = false → a.fixed.length ≠ 1 → a.hasInfo = true → a.layersKey = true → ∀ slab ads, a.subsets.slab = some slab →
      a.subsets.ads = some ads → detectTermination a = .ok (layersTermination a ads)) ∧
    (tagged a.tags 0 = false → a.fixed.length ≠ 1 → a.hasInfo = false → detectTermination a = .error .notImpl) := by
  refine ⟨fun ht => by simp only [detectTermination, ht, if_true], fun ht f slab hf hs => ?_, fun ht f hf hs => ?_,
    fun ht hf hi hl slab ads hs ha => ?_, fun ht hf hi => ?_⟩
  · simp only [detectTermination, ht, hf, hs, Bool.false_eq_true, if_false]
  · simp only [detectTermination, ht, hf, hs, Bool.false_eq_true, if_false]
  · simp only [detectTermination, ht, hi, hl, hs, ha, Bool.and_self, Bool.false_eq_true, if_false, if_true]
    split
    · rename_i heq; rw [heq] at hf; simp at hf
    · rfl
  · simp only [detectTermination, ht, hi, Bool.false_and, Bool.false_eq_true, if_false]
    split
    · rename_i heq; rw [heq] at hf; simp at hf
    · rfl

/-! ## C67: oxides -/

/-- C67 (partial: this much holds for every order): a structure called an oxide contains oxygen and a metal that is not
more abundant than oxygen. -/
theorem C67_partial (m : MetalTable) (z order : List ℕ) (ho : order.Perm z.dedup) (h : isOxide m z order = .ok true) :
    8 ∈ z ∧ ∃ e ∈ z, m.metal e = true ∧ z.count e ≤ z.count 8 := by
  have hmem : ∀ e, e ∈ order ↔ e ∈ z := fun e => by rw [ho.mem_iff, List.mem_dedup]
  unfold isOxide at h
  split at h
  · cases h
  · rename_i first elements
    simp only [Except.ok.injEq, List.any_eq_true, Bool.and_eq_true, decide_eq_true_eq] at h
    obtain ⟨e, he, ⟨hme, _⟩, h8, hc⟩ := h
    have hez : e ∈ z := (hmem e).1 (List.mem_cons_of_mem _ he)
    refine ⟨(hmem 8).1 h8, e, hez, hme, ?_⟩
    have hpos : (0 : ℚ) < z.count e := by exact_mod_cast List.count_pos_iff.2 hez
    rw [ge_iff_le, le_div_iff₀ hpos, one_mul] at hc
    exact_mod_cast hc

/-- C67 (partial: oxygen happens to come first in the set): the answer is exact, namely whether some metal is at most as
abundant as oxygen and more than a quarter as abundant. -/
theorem C67_oxygen_first_partial (m : MetalTable) (z rest : List ℕ) (ho : (8 :: rest).Perm z.dedup) :
    isOxide m z (8 :: rest) = .ok true ↔
      ∃ e ∈ z, m.metal e = true ∧ z.count e ≤ z.count 8 ∧ z.count 8 < 4 * z.count e := by
  have hmem : ∀ e, e ∈ 8 :: rest ↔ e ∈ z := fun e => by rw [ho.mem_iff, List.mem_dedup]
  have h8 : (0 : ℚ) < z.count 8 := by
    exact_mod_cast List.count_pos_iff.2 ((hmem 8).1 List.mem_cons_self)
  simp only [isOxide, Except.ok.injEq, List.any_eq_true, Bool.and_eq_true, decide_eq_true_eq]
  constructor
  · rintro ⟨e, he, ⟨hme, h1⟩, _, h2⟩
    have hez : e ∈ z := (hmem e).1 (List.mem_cons_of_mem _ he)
    have hpos : (0 : ℚ) < z.count e := by exact_mod_cast List.count_pos_iff.2 hez
    rw [ge_iff_le, le_div_iff₀ hpos, one_mul] at h2
    rw [gt_iff_lt, lt_div_iff₀ h8] at h1
    refine ⟨e, hez, hme, by exact_mod_cast h2, ?_⟩
    have : (z.count 8 : ℚ) < 4 * z.count e := by linarith
    exact_mod_cast this
  · rintro ⟨e, hez, hme, h2, h1⟩
    have hne : e ≠ 8 := by rintro rfl; rw [m.oxygen] at hme; cases hme
    have her : e ∈ rest := by
      rcases List.mem_cons.1 ((hmem e).2 hez) with h | h
      · exact absurd h hne
      · exact h
    have hpos : (0 : ℚ) < z.count e := by exact_mod_cast List.count_pos_iff.2 hez
    refine ⟨e, her, ⟨hme, ?_⟩, List.mem_cons_self, ?_⟩
    · rw [gt_iff_lt, lt_div_iff₀ h8]
      have : (z.count 8 : ℚ) < 4 * z.count e := by exact_mod_cast h1
      linarith
    · rw [ge_iff_le, le_div_iff₀ hpos, one_mul]
      exact_mod_cast h2

/-- C67: conversely the element that comes first in the set is never considered: if it is the only metal, the structure
is not called an oxide. -/
theorem C67_first_violated (m : MetalTable) (z rest : List ℕ) (first : ℕ) (hr : ∀ e ∈ rest, m.metal e = false) :
    isOxide m z (first :: rest) = .ok false := by
  have : ∀ b : ℕ → Bool, (rest.any fun e => m.metal e && b e) = false := by
    intro b
    rw [List.any_eq_false]
    intro e he
    simp [hr e he]
  simp only [isOxide, Except.ok.injEq, Bool.and_assoc]
  exact this _

/-- Titanium dioxide. -/
example : ([8, 22] : List ℕ).Perm [22, 8, 8].dedup := by decide

/-- C67 fails: for every metal, the dioxide is an oxide or not depending on the order of a set. -/
theorem C67_violated (m : MetalTable) (e : ℕ) (he : m.metal e = true) :
    isOxide m [e, 8, 8] [e, 8] = .ok false ∧ isOxide m [e, 8, 8] [8, e] = .ok true ∧
    [e, 8].Perm [e, 8, 8].dedup ∧ [8, e].Perm [e, 8, 8].dedup := by
  have hne : e ≠ 8 := by rintro rfl; rw [m.oxygen] at he; cases he
  have hd : [e, 8, 8].dedup = [e, 8] := by
    rw [List.dedup_cons_of_notMem (by simpa using hne)]
    congr 1
  refine ⟨?_, ?_, by rw [hd], by rw [hd]; exact List.Perm.swap _ _ _⟩
  · simp [isOxide, m.oxygen]
  · simp only [isOxide, List.any_cons, List.any_nil, he, Bool.true_and, Bool.or_false, Except.ok.injEq,
      Bool.and_eq_true, decide_eq_true_eq, List.count_cons, List.count_nil]
    simp [hne, Ne.symm hne]
    norm_num

/-! ## C145: the adsorbate has the composition of the species -/

theorem sortAsc_eq_iff (a b : List ℕ) : sortAsc id a = sortAsc id b ↔ a.Perm b := by
  constructor
  · intro h
    exact (sortAsc_perm id a).symm.trans (h ▸ sortAsc_perm id b)
  · intro h
    exact List.Perm.eq_of_pairwise' (r := fun a b : ℕ => a ≤ b) (sortAsc_pairwise id a) (sortAsc_pairwise id b)
      ((sortAsc_perm id a).trans (h.trans (sortAsc_perm id b).symm))

theorem numbersAt_ok (z : List ℕ) (idx : List ℤ) (h : ∀ i ∈ idx, 0 ≤ i ∧ i < z.length) :
    numbersAt z idx = .ok (idx.map fun i => z.getD i.toNat 0) := by
  unfold numbersAt
  induction idx with
  | nil => rfl
  | cons i l ih =>
    rw [List.mapM_cons, ih fun j hj => h j (by simp [hj]), if_pos (h i (by simp))]
    rfl

theorem checked_ok (z comp : List ℕ) (idx r : List ℤ) (h : checked z comp idx = .ok r)
    (hi : ∀ i ∈ idx, 0 ≤ i ∧ i < z.length) : r = idx ∧ (idx.map fun i => z.getD i.toNat 0).Perm comp := by
  simp only [checked, numbersAt_ok z idx hi] at h
  split at h
  · rename_i hs
    cases h
    exact ⟨rfl, ((sortAsc_eq_iff _ _).1 hs).symm⟩
  · cases h

/-- C145: the adsorbate found by formula, by tags or as the last atoms (if there are enough atoms) consists of distinct
atoms with exactly the composition of the species. -/
theorem C145_identified (a : Atoms) (comp : List ℕ) (r : List ℤ)
    (h : formulaIndex a comp = .ok r ∨ (tagsIndex a = .ok r ∧ a.species = some (.formula comp)) ∨
      (lastIndex a comp = .ok r ∧ comp.length ≤ a.n)) :
    r.Pairwise (· < ·) ∧ (∀ i ∈ r, 0 ≤ i ∧ i < a.n) ∧ (r.map a.num).Perm comp := by
  have hin : ∀ p : ℤ → Bool, ∀ i ∈ (indices a.n).filter p, 0 ≤ i ∧ i < a.z.length := by
    intro p i hi
    exact (mem_indices _ i).1 (List.mem_of_mem_filter hi)
  rcases h with h | ⟨h, hs⟩ | ⟨h, hn⟩
  · obtain ⟨rfl, hp⟩ := checked_ok _ _ _ _ h (hin _)
    exact ⟨(indices_sorted _).filter _, hin _, hp⟩
  · simp only [tagsIndex, hs] at h
    obtain ⟨rfl, hp⟩ := checked_ok _ _ _ _ h (hin _)
    exact ⟨(indices_sorted _).filter _, hin _, hp⟩
  · have hin2 : ∀ i ∈ (List.range comp.length).map fun k : ℕ => (a.n : ℤ) - comp.length + k,
        0 ≤ i ∧ i < a.z.length := by
      intro i hi
      obtain ⟨k, hk, rfl⟩ := List.mem_map.1 hi
      rw [List.mem_range] at hk
      have : a.n = a.z.length := rfl
      omega
    obtain ⟨rfl, hp⟩ := checked_ok _ _ _ _ h hin2
    refine ⟨?_, hin2, hp⟩
    rw [List.pairwise_map]
    exact List.pairwise_lt_range.imp fun h => by omega

/-- Carbon monoxide on copper. -/
example : formulaIndex { z := [29, 29, 6, 8], tags := [], cm := fun _ _ => 0 } [6, 8] = .ok [2, 3] := by decide +kernel

/-- C145: when an element of the species also occurs in the slab, the formula is refused. -/
theorem C145_formula_refused (a : Atoms) (comp : List ℕ) (s : ℕ) (hs : s ∈ comp) (hc : comp.count s < a.z.count s) :
    formulaIndex a comp = .error .assertion := by
  have hin : ∀ i ∈ (indices a.n).filter fun i => a.num i ∈ comp, 0 ≤ i ∧ i < a.z.length := by
    intro i hi
    exact (mem_indices _ i).1 (List.mem_of_mem_filter hi)
  simp only [formulaIndex, checked, numbersAt_ok _ _ hin]
  rw [if_neg]
  rw [sortAsc_eq_iff]
  intro hp
  have h1 := hp.count_eq s
  have h2 : (((indices a.n).filter fun i => a.num i ∈ comp).map fun i => a.z.getD i.toNat 0).count s = a.z.count s := by
    have h3 : (((indices a.n).filter fun i => a.num i ∈ comp).map a.num) = a.z.filter (· ∈ comp) := by
      have h4 : (indices a.n).map a.num = a.z := by
        refine List.ext_getElem (by simp [indices, Atoms.n]) fun k h1 h2 => ?_
        simp [indices, Atoms.num, List.getD_eq_getElem?_getD, h2]
      conv_rhs => rw [← h4]
      rw [List.filter_map]
      rfl
    have h5 : (a.z.filter (· ∈ comp)).count s = a.z.count s := List.count_filter (by simpa using hs)
    rw [← h5, ← h3]
    rfl
  omega

/-- C145 (partial: the species does not share elements with the slab): the adsorbate is detected by its formula. -/
theorem C145_detect_partial (a : Atoms) (comp : List ℕ) (hc : comp ≠ []) (ha : a.subsets.ads = none)
    (hs : a.subsets.slab = none) (ht : tagged a.tags (-1) = false) (hsp : a.species = some (.formula comp)) (r : List ℤ)
    (hf : formulaIndex a comp = .ok r) :
    detectAdsorbate a = .ok r ∧ (r.map a.num).Perm comp ∧ ∀ i, i ∈ r ↔ (0 ≤ i ∧ i < a.n) ∧ a.num i ∈ comp := by
  have hi := C145_identified a comp r (Or.inl hf)
  refine ⟨?_, hi.2.2, fun i => ?_⟩
  · simp [detectAdsorbate, ha, hs, ht, hsp, hc, hf, orElse]
  · have hin : ∀ i ∈ (indices a.n).filter fun i => a.num i ∈ comp, 0 ≤ i ∧ i < a.z.length := by
      intro i hi
      exact (mem_indices _ i).1 (List.mem_of_mem_filter hi)
    obtain ⟨rfl, _⟩ := checked_ok _ _ _ _ hf hin
    simp [mem_indices]

/-- C145 fails for the search by connectivity: for C2O2 on a carbide the two oxygen atoms are returned twice and no
carbon atom; for OH on an oxide with an isolated hydrogen atom only the hydrogen atom is returned.  The final check
that should refuse this compares `None` with `None`. -/
theorem C145_connectivity_violated :
    detectAdsorbate { z := [22, 6, 6, 6, 8, 8], tags := [], cm := fun _ _ => 0, species := some (.formula [6, 6, 8, 8]) } =
      .ok [4, 5, 4, 5] ∧
    detectAdsorbate { z := [22, 8, 8, 1], tags := [], cm := fun _ _ => 0, species := some (.formula [8, 1]) } =
      .ok [3] := by
  constructor <;> decide +kernel

/-- C145 fails for the last atoms when the structure has fewer atoms than the species: an atom is counted twice. -/
theorem C145_last_violated : lastIndex { z := [1], tags := [], cm := fun _ _ => 0 } [1, 1] = .ok [-1, 0] := by
  decide +kernel

/-- C145: by tags, the adsorbate are exactly the atoms with negative tags. -/
theorem C145_tags (a : Atoms) (r : List ℤ) (h : tagsIndex a = .ok r) :
    ∀ i, i ∈ r ↔ (0 ≤ i ∧ i < a.n) ∧ a.tag i < 0 := by
  have hin : ∀ i ∈ (indices a.n).filter fun i => a.tag i < 0, 0 ≤ i ∧ i < a.z.length := by
    intro i hi
    exact (mem_indices _ i).1 (List.mem_of_mem_filter hi)
  have hr : r = (indices a.n).filter fun i => a.tag i < 0 := by
    unfold tagsIndex at h
    split at h
    · cases h; rfl
    · exact (checked_ok _ _ _ _ h hin).1
    · cases h
  subst hr
  intro i
  rw [List.mem_filter, mem_indices, decide_eq_true_eq]

/-- A hydroxyl with tag -1. -/
example : tagsIndex { z := [29, 29, 8, 1], tags := [2, 1, -1, -1], cm := fun _ _ => 0 } = .ok [2, 3] := by decide +kernel

/-- C145 (partial: nothing says that the whole species is found, see `C145_connectivity_violated`): by connectivity, every
atom returned exists and is of an element of the species; the atom is of an element that does not occur in the slab or
is bonded to such an atom; and all atoms of these elements are returned. -/
theorem C145_connectivity_partial (a : Atoms) (comp : List ℕ) (r : List ℤ) (h : connectivityIndex a comp = .ok r) :
    (∀ i ∈ r, (0 ≤ i ∧ i < a.n) ∧ a.num i ∈ comp ∧ (comp.count (a.num i) = a.z.count (a.num i) ∨
      ∃ j ∈ r, comp.count (a.num j) = a.z.count (a.num j) ∧ a.num i ≠ a.num j ∧ 0 < a.cm j i)) ∧
    ∀ i : ℤ, 0 ≤ i → i < a.n → a.num i ∈ comp → comp.count (a.num i) = a.z.count (a.num i) → i ∈ r := by
  have hads : ∀ i, i ∈ (comp.flatMap fun s =>
      if comp.count s = a.z.count s then (indices a.n).filter fun i => a.num i = s else []) ↔
      (0 ≤ i ∧ i < a.n) ∧ a.num i ∈ comp ∧ comp.count (a.num i) = a.z.count (a.num i) := by
    intro i
    rw [List.mem_flatMap]
    constructor
    · rintro ⟨s, hs, hi⟩
      split at hi
      · rename_i hc
        rw [List.mem_filter, mem_indices, decide_eq_true_eq] at hi
        obtain ⟨hi, rfl⟩ := hi
        exact ⟨hi, hs, hc⟩
      · cases hi
    · rintro ⟨hi, hs, hc⟩
      refine ⟨_, hs, ?_⟩
      rw [if_pos hc, List.mem_filter, mem_indices, decide_eq_true_eq]
      exact ⟨hi, rfl⟩
  unfold connectivityIndex at h
  simp only at h
  split at h
  · cases h
    refine ⟨fun i hi => ?_, fun i h1 h2 h3 h4 => (hads i).2 ⟨⟨h1, h2⟩, h3, h4⟩⟩
    obtain ⟨h1, h2, h3⟩ := (hads i).1 hi
    exact ⟨h1, h2, Or.inl h3⟩
  · split at h
    · cases h
    · cases h
      have hmem : ∀ (l : List ℤ) (i : ℤ), i ∈ unique l ↔ i ∈ l := by
        intro l i
        rw [unique, (sortAsc_perm id l.dedup).mem_iff, List.mem_dedup]
      refine ⟨fun i hi => ?_, fun i h1 h2 h3 h4 => ?_⟩
      · rw [hmem, List.mem_append] at hi
        rcases hi with hi | hi
        · obtain ⟨h1, h2, h3⟩ := (hads i).1 hi
          exact ⟨h1, h2, Or.inl h3⟩
        · obtain ⟨j, hj, hi⟩ := List.mem_flatMap.1 hi
          rw [List.mem_filter, mem_indices, decide_eq_true_eq] at hi
          obtain ⟨hb, hcm, hc, hne⟩ := hi
          refine ⟨hb, hc, Or.inr ⟨j, ?_, ((hads j).1 hj).2.2, hne, hcm⟩⟩
          rw [hmem, List.mem_append]
          exact Or.inl hj
      · rw [hmem, List.mem_append]
        exact Or.inl ((hads i).2 ⟨⟨h1, h2⟩, h3, h4⟩)

/-- OH on an oxide: the hydrogen atom and the oxygen atom bonded to it. -/
example : connectivityIndex { z := [22, 8, 8, 1], tags := [], cm := fun i j => if (i, j) = (3, 2) ∨ (i, j) = (2, 3) then 1 else 0 }
    [8, 1] = .ok [2, 3] := by decide +kernel

/-- C145: without stored atoms, tags or species, the adsorbate are the atoms of H, C, N, O, F, Na, P, S, Cl and K, whatever
the slab is made of. -/
theorem C145_elements (a : Atoms) (ha : a.subsets.ads = none) (hs : a.subsets.slab = none) (ht : tagged a.tags (-1) = false)
    (hsp : a.species = none) :
    ∃ r, detectAdsorbate a = .ok r ∧ ∀ i, i ∈ r ↔ (0 ≤ i ∧ i < a.n) ∧
      (a.num i = 1 ∨ a.num i = 6 ∨ a.num i = 7 ∨ a.num i = 8 ∨ a.num i = 9 ∨ a.num i = 11 ∨ a.num i = 15 ∨ a.num i = 16 ∨
        a.num i = 17 ∨ a.num i = 19) := by
  refine ⟨_, by simp only [detectAdsorbate, ha, hs, ht, hsp]; rfl, fun i => ?_⟩
  rw [List.mem_filter, mem_indices, decide_eq_true_eq]
  refine and_congr_right fun _ => ?_
  simp only [adsSyms, List.mem_cons, List.not_mem_nil, or_false]
  omega

/-- C145: a coadsorption species is a NotImplementedError, an empty one has no adsorbate. -/
theorem C145_species (a : Atoms) (ha : a.subsets.ads = none) (hs : a.subsets.slab = none) (ht : tagged a.tags (-1) = false) :
    (a.species = some .coadsorption → detectAdsorbate a = .error .notImpl) ∧
    (a.species = some (.formula []) → detectAdsorbate a = .ok []) := by
  constructor <;> intro h <;> simp [detectAdsorbate, ha, hs, ht, h]

example : detectAdsorbate { z := [29, 29, 6, 8], tags := [], cm := fun _ _ => 0 } = .ok [2, 3] := by decide +kernel

/-! ## C147: cations and anions -/

/-- C147: the cations and anions partition the atoms by element, and there is an anion; without one the call is a
ValueError. -/
theorem C147_partition (a : Atoms) (anion : ℕ) :
    (anion ∉ a.z → attachCations a anion = .error .value) ∧
    (anion ∈ a.z → ∃ cations anions, attachCations a anion = .ok (cations, anions) ∧ anions ≠ [] ∧
      (∀ i, i ∈ cations ↔ (0 ≤ i ∧ i < a.n) ∧ a.num i ≠ anion) ∧
      (∀ i, i ∈ anions ↔ (0 ≤ i ∧ i < a.n) ∧ a.num i = anion)) := by
  constructor
  · intro h; simp [attachCations, h]
  · intro h
    refine ⟨_, _, if_pos h, ?_, ?_, ?_⟩
    · obtain ⟨k, hk, he⟩ := List.getElem_of_mem h
      have : (k : ℤ) ∈ (indices a.n).filter (fun i => a.num i = anion) := by
        rw [List.mem_filter, mem_indices]
        refine ⟨⟨by omega, by simpa [Atoms.n] using hk⟩, ?_⟩
        simp [Atoms.num, List.getD_eq_getElem?_getD, hk, he]
      exact List.ne_nil_of_mem this
    · intro i; simp [mem_indices]
    · intro i; simp [mem_indices]

end CatLearn.Slab
