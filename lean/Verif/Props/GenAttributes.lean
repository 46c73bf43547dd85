import Verif.Model.GenAttributes
import Verif.Props.AdsBonds
import Verif.Props.Features

/-!
# C264: bags of atoms and bonds after `normalize_features`
-/

namespace CatLearn.GenAttr

open CatLearn CatLearn.Props

private theorem types_spec (l : List (List ℕ)) : (Feat.atomTypes l).Pairwise (· < ·) ∧ ∀ t, t ∈ Feat.atomTypes l ↔ ∃ zs ∈ l, t ∈ zs :=
  ⟨(Feat.C142_types l).1, (Feat.C142_types l).2.1⟩

private theorem normalized (a : Attr) (train : List Struct) (test : Option (List Struct)) :
    (a.normalize train test).gen.atomTypes = some (Feat.atomTypes ((train ++ test.getD []).map Struct.numbers)) := rfl

/-- C264 (partial: without `bag_edges_all`).  After `normalize_features` the bags of atoms and bonds succeed for every structure of the training and the test data, and have the
same length for all of them; the entries of `bag_atoms_ads` add up to the number of adsorbate atoms and those of `bag_edges_ads` to the number of bonds outside the slab. -/
theorem C264_bags_partial (a : Attr) (train : List Struct) (test : Option (List Struct)) :
    ∃ k : ℕ, ∀ s ∈ train ++ test.getD [],
      (∃ v, bagAtomsAds (a.normalize train test) s = .ok v ∧ v.length = k ∧ v.sum = s.ads.length) ∧
      (∃ v, bagEdgesAds (a.normalize train test) s = .ok v ∧ v.length = (Fpr.triu k).length ∧
        v.sum = (Finset.univ.filter fun p : Fin s.n × Fin s.n => p.1 < p.2 ∧ 0 < s.cm p.1 p.2 ∧ p.1 ∉ s.slab ∧ p.2 ∉ s.slab).card) ∧
      ∃ v, bagEdgesChemi (a.normalize train test) s = .ok v ∧ v.length = (Fpr.triu k).length := by
  set types := Feat.atomTypes ((train ++ test.getD []).map Struct.numbers) with ht
  obtain ⟨h1, h2⟩ := types_spec ((train ++ test.getD []).map Struct.numbers)
  rw [← ht] at h1 h2
  refine ⟨types.length, fun s hs => ?_⟩
  have hz : ∀ i, s.z i ∈ types := fun i => (h2 _).mpr ⟨s.numbers, List.mem_map_of_mem hs, by simp [Struct.numbers]⟩
  refine ⟨?_, ?_, ?_⟩
  · obtain ⟨v, e1, e2, e3, _⟩ := (C166_bag_atoms_ads types (h1.imp fun h => h.ne) s.z s.ads).1 fun i _ => hz i
    exact ⟨v, by simp only [bagAtomsAds, Attr.withTypes, normalized, ← ht, e1], e2, e3⟩
  · obtain ⟨v, e1, e2, e3, _⟩ := C163_bag_edges_ads_partial types h1 s.z hz s.cm s.slab
    exact ⟨v, by simp only [bagEdgesAds, Attr.withTypes, normalized, ← ht, e1], e3, e2⟩
  · obtain ⟨v, e1, _, e3, _⟩ := Fpr.C63_partial types h1 s.z hz (Fpr.cleared s.cm)
    exact ⟨v, by simp only [bagEdgesChemi, Attr.withTypes, normalized, ← ht, AdsB.bagEdgesChemi, e1], e3⟩

/-- C264 is violated for `bag_edges_all`: nothing in the package assigns `ads_atom_types`, so that it raises an error for every structure after all public calls, AttributeError once
`atom_types` are known and TypeError before. -/
theorem C264_all_violated (types : Option (List ℕ)) (len : Option ℕ) (l : List Step) (s : Struct) :
    bagEdgesAll ((Attr.new types len).after l) s = .error (if ((Attr.new types len).after l).gen.atomTypes.isSome then .attribute else .type) := by
  have h : ∀ (l : List Step) (a : Attr), a.adsTypes = none → (a.after l).adsTypes = none := by
    intro l
    induction l with
    | nil => exact fun a h => h
    | cons c l ih =>
      intro a ha
      exact ih _ (by cases c <;> exact ha)
  have hn := h l (Attr.new types len) rfl
  unfold bagEdgesAll Attr.withTypes
  rw [hn]
  cases ((Attr.new types len).after l).gen.atomTypes with
  | none => rfl
  | some t => rfl

/-- C264: a generator that has seen no structure and was given no elements refuses all bags. -/
theorem C264_unset (len : Option ℕ) (s : Struct) :
    bagAtomsAds (Attr.new none len) s = .error .type ∧ bagEdgesAds (Attr.new none len) s = .error .type ∧
    bagEdgesChemi (Attr.new none len) s = .error .type ∧ bagEdgesAll (Attr.new none len) s = .error .type := ⟨rfl, rfl, rfl, rfl⟩

/-- C264: once `atom_types` are known, `return_vec` and `featurize_atomic_pairs` keep them; only `normalize_features` replaces them, and then what was known before has no influence. -/
theorem C264_types (a : Attr) (l : List Step) (t : List ℕ) (h : a.gen.atomTypes = some t) :
    (∀ tr te, (a.after (l ++ [.normalize tr te])).gen.atomTypes = some (Feat.atomTypes ((tr ++ te.getD []).map Struct.numbers))) ∧
    ((∀ c ∈ l, ∀ tr te, c ≠ .normalize tr te) → (a.after l).gen.atomTypes = some t) := by
  refine ⟨fun tr te => by simp [Attr.after, Attr.step, Attr.normalize], fun hl => ?_⟩
  induction l generalizing a with
  | nil => exact h
  | cons c l ih =>
    refine ih (a.step c) ?_ fun d hd => hl d (List.mem_cons_of_mem _ hd)
    cases c with
    | normalize tr te => exact absurd rfl (hl _ List.mem_cons_self tr te)
    | vec m => simp [Attr.step, Attr.vec, h]
    | pairs m => simp [Attr.step, Attr.pairs, h]

/-- C264, what the private function would give: `bag_edges_all` then succeeds for every structure of the data. -/
theorem C264_all_assigned_partial (a : Attr) (train : List Struct) (test : Option (List Struct)) (s : Struct) (hs : s ∈ train ++ test.getD []) :
    ∃ v, bagEdgesAll ((a.normalize train test).adsorbates train test) s = .ok v := by
  obtain ⟨h1, h2⟩ := types_spec ((train ++ test.getD []).map Struct.numbers)
  obtain ⟨h3, h4⟩ := types_spec ((train ++ test.getD []).map fun s => s.ads.map s.z)
  obtain ⟨v, hv, _⟩ := C163_bag_edges_all_partial _ _ (h1.imp fun h => h.ne) (h3.imp fun h => h.ne) s.z
    (fun i => (h2 _).mpr ⟨s.numbers, List.mem_map_of_mem hs, by simp [Struct.numbers]⟩) s.cm s.ads
    (fun i hi => (h4 _).mpr ⟨_, List.mem_map_of_mem hs, List.mem_map_of_mem hi⟩)
  exact ⟨v, hv⟩

/-- Carbon monoxide and a copper atom: the first structure has a bond outside the slab. -/
example : bagEdgesAds ((Attr.new none none).normalize [⟨3, ![29, 6, 8], ![![0, 1, 0], ![1, 0, 1], ![0, 1, 0]], [0], [1, 2]⟩] none)
    ⟨3, ![29, 6, 8], ![![0, 1, 0], ![1, 0, 1], ![0, 1, 0]], [0], [1, 2]⟩ = .ok [0, 1, 0, 0, 0, 0] := by decide +kernel

end CatLearn.GenAttr
