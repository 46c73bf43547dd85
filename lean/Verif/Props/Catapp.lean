import Verif.Model.Catapp
import Verif.Lemmas.Py
import Mathlib.Tactic.Linarith
import Mathlib.Tactic.NormNum

/-!
# CatApp fingerprints: C176
-/

namespace CatLearn.Catapp

open CatLearn

/-- C176: a fingerprint has one value for each name (81, all different), given 26 values per element. -/
theorem C176_length (elem : ℕ → Except PyErr (List ℝ)) (he : ∀ z f, elem z = .ok f → f.length = 26)
    (parse : List Char → Except PyErr (List ℕ)) (raw : List ℕ) (term facet : List Char) (fp : List ℝ)
    (h : catappAB elem parse raw term facet = .ok fp) :
    fp.length = names.length ∧ names.length = 81 ∧ names.Nodup := by
  refine ⟨?_, by decide +kernel, by decide +kernel⟩
  have hn : names.length = 81 := by decide +kernel
  rw [hn]
  unfold catappAB at h
  split at h
  · cases h
  split at h
  · cases h
  split at h
  · cases h
  split at h
  · cases h
  rename_i f1 hf1
  split at h
  · cases h
  rename_i f2 hf2
  split at h
  · cases h
  cases h
  have h1 := he _ _ hf1
  have h2 : f2.length = 26 := by
    split at hf2
    · cases hf2; exact h1
    · exact he _ _ hf2
  simp [h1, h2]

theorem sorted_perm (raw : List ℕ) : (sorted raw).Perm raw := sortDesc_perm _ _

theorem foldl_other (z1 : ℕ) (l : List ℕ) (b x : ℕ) (hl : ∀ z ∈ l, z = z1 ∨ z = b) (hx : b ∈ l ∨ x = b) (hb : b ≠ z1) :
    l.foldl (fun z2 z => if z ≠ z1 then z else z2) x = b := by
  induction l generalizing x with
  | nil => simpa using hx
  | cons a l ih =>
    rw [List.foldl_cons]
    refine ih _ (fun z hz => hl z (List.mem_cons_of_mem _ hz)) ?_
    rcases hl a List.mem_cons_self with rfl | rfl
    · rw [if_neg (by simp)]
      rcases hx with hx | hx
      · rcases List.mem_cons.1 hx with h | h
        · exact absurd h hb
        · exact Or.inl h
      · exact Or.inr hx
    · rw [if_pos hb]
      exact Or.inr rfl

/-- The metals of a surface of two elements, one of which is more frequent. -/
theorem metals_two (raw : List ℕ) (a b : ℕ) (hab : a ≠ b) (hr : ∀ z ∈ raw, z = a ∨ z = b) (hb : b ∈ raw)
    (hc : raw.count b < raw.count a) : metals raw = .ok (a, b) ∧ (sorted raw).head? = some a := by
  have hp := sorted_perm raw
  have ha : a ∈ raw := List.count_pos_iff.1 (by omega)
  cases hs : sorted raw with
  | nil => rw [hs] at hp; rw [← hp.mem_iff] at ha; cases ha
  | cons z1 rest =>
    have h1 : z1 = a := by
      have hz1 : z1 ∈ raw := hp.mem_iff.1 (by rw [hs]; exact List.mem_cons_self)
      rcases hr z1 hz1 with h | h
      · exact h
      · exfalso
        have hpw := sortDesc_pairwise (fun z => raw.count z) raw
        have hs' : sortDesc (fun z => raw.count z) raw = z1 :: rest := hs
        rw [hs', List.pairwise_cons] at hpw
        have hm : a ∈ rest := by
          have : a ∈ sorted raw := hp.mem_iff.2 ha
          rw [hs] at this
          rcases List.mem_cons.1 this with h' | h'
          · exact absurd (h'.trans h) hab
          · exact h'
        have := hpw.1 a hm
        simp only [h] at this
        omega
    subst h1
    refine ⟨?_, rfl⟩
    simp only [metals, hs]
    congr 2
    refine foldl_other z1 _ b z1 ?_ ?_ (Ne.symm hab)
    · intro z hz; exact hr z (hp.mem_iff.1 (by rw [hs]; exact hz))
    · left; rw [← hs]; exact hp.mem_iff.2 hb

theorem dedup_two (raw : List ℕ) (a b : ℕ) (hab : a ≠ b) (ha : a ∈ raw) (hb : b ∈ raw) : raw.dedup.length ≠ 1 := by
  intro h
  obtain ⟨x, hx⟩ := List.length_eq_one_iff.1 h
  have h1 : a ∈ raw.dedup := List.mem_dedup.2 ha
  have h2 : b ∈ raw.dedup := List.mem_dedup.2 hb
  rw [hx, List.mem_singleton] at h1 h2
  exact hab (h1.trans h2.symm)

/-- C176 (partial: two elements, one of them more frequent): the first block is the more frequent element, the second the
other one, the third their sum, then concentration, facet and site 2; the order of the atoms does not matter. -/
theorem C176_two_metals_partial (elem : ℕ → Except PyErr (List ℝ)) (parse : List Char → Except PyErr (List ℕ))
    (raw : List ℕ) (term facet : List Char) (a b : ℕ) (fa fb : List ℝ) (c f : ℝ) (hab : a ≠ b)
    (hr : ∀ z ∈ raw, z = a ∨ z = b) (hb : b ∈ raw) (hc : raw.count b < raw.count a) (ha1 : elem a = .ok fa)
    (hb1 : elem b = .ok fb) (h3 : conc parse term = .ok c) (hf : facetValue facet = .ok f) :
    catappAB elem parse raw term facet = .ok (fa ++ fb ++ List.zipWith (· + ·) fa fb ++ [c, f, 2]) := by
  obtain ⟨h1, h2⟩ := metals_two raw a b hab hr hb hc
  have hd := dedup_two raw a b hab (List.count_pos_iff.1 (by omega)) hb
  simp [catappAB, h1, site, hd, h3, ha1, hb1, hab, hf]

/-- Pt3Ni. -/
example : metals [28, 78, 78, 78] = .ok (78, 28) := by decide +kernel

/-- C176: a surface of one element: both blocks are this element, the site is 1. -/
theorem C176_pure (elem : ℕ → Except PyErr (List ℝ)) (parse : List Char → Except PyErr (List ℕ))
    (k : ℕ) (term facet : List Char) (a : ℕ) (fa : List ℝ) (c f : ℝ) (ha1 : elem a = .ok fa)
    (h3 : conc parse term = .ok c) (hf : facetValue facet = .ok f) :
    catappAB elem parse (List.replicate (k + 1) a) term facet =
      .ok (fa ++ fa ++ List.zipWith (· + ·) fa fa ++ [c, f, 1]) := by
  have hs : sorted (List.replicate (k + 1) a) = List.replicate (k + 1) a :=
    List.perm_replicate.1 (sorted_perm _)
  have hm : metals (List.replicate (k + 1) a) = .ok (a, a) := by
    simp only [metals, hs]
    rw [List.replicate_succ]
    simp only
    congr 2
    have : ∀ l : List ℕ, (∀ z ∈ l, z = a) → l.foldl (fun z2 z => if z ≠ a then z else z2) a = a := by
      intro l
      induction l with
      | nil => intro _; rfl
      | cons x l ih =>
        intro hl
        rw [List.foldl_cons, if_neg (by simpa using hl x List.mem_cons_self)]
        exact ih fun z hz => hl z (List.mem_cons_of_mem _ hz)
    refine this _ ?_
    intro z hz
    rcases List.mem_cons.1 hz with h | h
    · exact h
    · exact (List.mem_replicate.1 h).2
  have hd : (List.replicate (k + 1) a).dedup.length = 1 := by
    rw [List.replicate_dedup (by omega)]; rfl
  have hh : (sorted (List.replicate (k + 1) a)).head? = some a := by rw [hs]; rfl
  simp [catappAB, hm, site, hd, hh, h3, ha1, hf]

/-- C176 fails for two elements that are equally frequent: the fingerprint depends on the numbering of the atoms, for all
elements with different data. -/
theorem C176_tie_violated (elem : ℕ → Except PyErr (List ℝ)) (parse : List Char → Except PyErr (List ℕ))
    (term facet : List Char) (a b : ℕ) (fa fb : List ℝ) (c f : ℝ) (hab : a ≠ b) (ha1 : elem a = .ok fa)
    (hb1 : elem b = .ok fb) (h3 : conc parse term = .ok c) (hf : facetValue facet = .ok f) (hl : fa.length = fb.length)
    (hne : fa ≠ fb) :
    catappAB elem parse [a, b] term facet ≠ catappAB elem parse [b, a] term facet := by
  have hs : ∀ x y : ℕ, x ≠ y → sorted [x, y] = [x, y] := by
    intro x y hxy
    simp [sorted, sortDesc, List.insertionSort, List.orderedInsert, List.count_cons, hxy, Ne.symm hxy]
  have hv : ∀ x y fx fy, x ≠ y → elem x = .ok fx → elem y = .ok fy → catappAB elem parse [x, y] term facet =
      .ok (fx ++ fy ++ List.zipWith (· + ·) fx fy ++ [c, f, 2]) := by
    intro x y fx fy hxy hx hy
    have hm : metals [x, y] = .ok (x, y) := by simp [metals, hs x y hxy, Ne.symm hxy]
    have hd := dedup_two [x, y] x y hxy (by simp) (by simp)
    simp [catappAB, hm, site, hd, h3, hx, hy, hxy, hf]
  rw [hv a b fa fb hab ha1 hb1, hv b a fb fa (Ne.symm hab) hb1 ha1]
  intro h
  rw [Except.ok.injEq, List.append_assoc, List.append_assoc, List.append_assoc, List.append_assoc] at h
  exact hne (List.append_inj_left h hl)

/-- C176 fails for the site: the code 3 (an atom of the second element) is never returned, since the first element is by
definition the most frequent one of the same atoms. -/
theorem C176_site_violated (raw : List ℕ) (z1 z2 : ℕ) (h : metals raw = .ok (z1, z2)) :
    site raw z1 z2 = .ok 1 ∨ site raw z1 z2 = .ok 2 := by
  have hh : (sorted raw).head? = some z1 := by
    unfold metals at h
    split at h
    · cases h
    · rename_i x rest hs
      cases h
      rw [hs]; rfl
  unfold site
  rw [if_pos hh]
  split
  · exact Or.inl rfl
  · exact Or.inr rfl

/-- C176 fails for the concentration: every composition written with the digit 3 counts as A3B, also a pure metal. -/
theorem C176_concentration_violated (parse : List Char → Except PyErr (List ℕ)) (term : List Char) (z : List ℕ)
    (h : parse term = .ok z) (h3 : '3' ∈ term) : conc parse term = .ok 3 := by
  simp [conc, h, h3]

/-- Three platinum atoms. -/
example : '3' ∈ "Pt3".toList := by decide

/-- C176: what is refused: no ligand atoms (IndexError), a facet that is not in the table (KeyError), a termination with
three or more elements and no digit 3 (NotImplementedError). -/
theorem C176_refused (elem : ℕ → Except PyErr (List ℝ)) (parse : List Char → Except PyErr (List ℕ)) (term facet : List Char)
    (z : List ℕ) (hz : parse term = .ok z) (hz3 : 3 ≤ z.dedup.length) (ht : '3' ∉ term)
    (hf : ∀ t ∈ facets, t.1 ≠ strip facet) :
    catappAB elem parse [] term facet = .error .index ∧ conc parse term = .error .notImpl ∧
    facetValue facet = .error .key := by
  refine ⟨rfl, ?_, ?_⟩
  · simp only [conc, hz, ht, if_false]
    rw [if_neg (by omega), if_neg (by omega)]
  · have : facets.find? (fun f => decide (f.1 = strip facet)) = none := by
      rw [List.find?_eq_none]
      intro t htm
      simpa using hf t htm
    rw [facetValue, this]

/-- CuNiPt and the facet 210. -/
example : ([29, 28, 78].dedup.length = 3) ∧ '3' ∉ "CuNiPt".toList := by decide

/-- C176: the parentheses of a facet do not matter. -/
theorem C176_facet (t : List Char) : facetValue ('(' :: t ++ [')']) = facetValue t := by
  simp [facetValue, strip, List.filter_append, List.filter_cons]

/-- C176: two facets with the same value are the same but for parentheses. -/
theorem C176_facet_distinct (t u : List Char) (v : ℝ) (ht : facetValue t = .ok v) (hu : facetValue u = .ok v) :
    t.filter (fun c => c ≠ '(' ∧ c ≠ ')') = u.filter (fun c => c ≠ '(' ∧ c ≠ ')') := by
  have hs : ∀ t : List Char, strip t = t.filter (fun c => c ≠ '(' ∧ c ≠ ')') := by
    intro t
    rw [strip, List.filter_filter]
    congr 1
    funext c
    simp
  have hf : ∀ t, facetValue t = .ok v → ∃ f ∈ facets, f.1 = strip t ∧ f.2 = v := by
    intro t h
    unfold facetValue at h
    split at h
    · rename_i f hf
      exact ⟨f, List.mem_of_find?_eq_some hf, by simpa using List.find?_some hf, by simpa using h⟩
    · cases h
  obtain ⟨f, hf1, hf2, hf3⟩ := hf t ht
  obtain ⟨g, hg1, hg2, hg3⟩ := hf u hu
  rw [← hs, ← hs, ← hf2, ← hg2]
  have hinj : ∀ f ∈ facets, ∀ g ∈ facets, f.2 = g.2 → f.1 = g.1 := by
    intro f hf g hg h
    simp only [facets, List.mem_cons, List.not_mem_nil, or_false] at hf hg
    rcases hf with rfl | rfl | rfl | rfl | rfl | rfl | rfl | rfl <;>
      rcases hg with rfl | rfl | rfl | rfl | rfl | rfl | rfl | rfl <;> first | rfl | (norm_num at h)
  exact hinj f hf1 g hg1 (hf3.trans hg3.symm)

/-- The facet (111) and its value. -/
example : facetValue "(111)".toList = .ok 5 := by
  have h : strip "(111)".toList = "111".toList := by decide
  simp only [facetValue, h]
  rw [show facets.find? (fun f => decide (f.1 = "111".toList)) = some ("111".toList, 5) by
    simp [facets, List.find?_cons]]

end CatLearn.Catapp
