import Verif.Model.SiteStore
import Verif.Props.SiteSelect
import Verif.Lemmas.MapM
import Mathlib.Tactic.NormNum

/-!
# Stored sites: energies, files and numbers (C221–C224)
-/

namespace CatLearn.SiteStore

open CatLearn CatLearn.SiteSelect CatLearn.MapM

variable {S : Type} [DecidableEq S]

/-! ### C221: `update_site_file` -/

private theorem withCohesive_ok {order : List S → List S} {m m' : Material S}
    (h : withCohesive order m = .ok m') :
    ∃ c, cohesiveEnergy order m = .ok c ∧ m' = { m with cohesive := some c } := by
  unfold withCohesive at h
  split at h
  · cases h
  · rename_i c hc
    cases h
    exact ⟨c, hc, rfl⟩

/-- What one row does to one site. -/
private theorem updateOne_ok {dflt : S → Option ℚ} {order : List S → List S} {r : Row} {s s' : Site S}
    (h : updateOne dflt order r s = .ok s') :
    (s'.image = s.image ∧ s'.index = s.index ∧ s'.comp = s.comp ∧ s'.material.atoms = s.material.atoms ∧
      s'.defect.atoms = s.defect.atoms) ∧
    (r.names s → totalEnergy s'.defect = some r.energy ∧
      SiteSelect.cohesive dflt (order s.defect.atoms.syms) s.defect.atoms.syms (some r.energy)
        = cohesiveEnergy order s'.defect ∧ s'.material = newMaterial dflt s.material.atoms) ∧
    (¬ r.names s → s' = s) := by
  unfold updateOne at h
  by_cases hn : r.names s
  · rw [if_pos hn] at h
    split at h
    · cases h
    · rename_i d hd
      cases h
      obtain ⟨c, hc, rfl⟩ := withCohesive_ok hd
      refine ⟨⟨rfl, rfl, rfl, rfl, rfl⟩, fun _ => ⟨rfl, ?_, rfl⟩, fun h => absurd hn h⟩
      simp only [cohesiveEnergy, newMaterial, totalEnergy] at hc ⊢
      exact hc
  · rw [if_neg hn] at h
    cases h
    exact ⟨⟨rfl, rfl, rfl, rfl, rfl⟩, fun h => absurd h hn, fun _ => rfl⟩

/-- The last row with the name of a site. -/
def lastNamed (rows : List Row) (s : Site S) : Option Row :=
  (rows.filter fun r => decide (r.names s)).getLast?

private theorem names_congr {r : Row} {s s' : Site S} (hi : s'.image = s.image) (hj : s'.index = s.index) :
    r.names s' ↔ r.names s := by
  unfold Row.names; rw [hi, hj]

private theorem lastNamed_congr (rows : List Row) {s s' : Site S} (hi : s'.image = s.image)
    (hj : s'.index = s.index) : lastNamed rows s' = lastNamed rows s := by
  unfold lastNamed
  congr 1
  apply List.filter_congr
  intro r _
  exact decide_eq_decide.mpr (names_congr hi hj)

private theorem lastNamed_cons (r : Row) (rows : List Row) (s : Site S) :
    lastNamed (r :: rows) s =
      match lastNamed rows s with
      | some x => some x
      | none => if r.names s then some r else none := by
  unfold lastNamed
  by_cases h : r.names s
  · rw [List.filter_cons_of_pos (by simpa using h)]
    cases hf : rows.filter fun r => decide (r.names s) with
    | nil => simp [h]
    | cons a l =>
      have : (a :: l).getLast? = some ((a :: l).getLast (by simp)) := List.getLast?_eq_some_getLast (by simp)
      rw [List.getLast?_cons_cons, this]
  · rw [List.filter_cons_of_neg (by simpa using h)]
    cases (rows.filter fun r => decide (r.names s)).getLast? with
    | none => simp [h]
    | some x => rfl

/-- C221.  If `update_site_file` returns, no site is added, removed, renumbered or given other atoms.  A
site whose name occurs in the energy file gets, as energy of its defect, the energy of the last row with its name, and the
cohesive energy belonging to it; a site whose name does not occur is left as it is. -/
theorem C221_energies (dflt : S → Option ℚ) (order : List S → List S) (rows : List Row)
    (sites out : List (Site S)) (h : updateFile dflt order rows sites = .ok out) :
    out.length = sites.length ∧ ∀ (k : ℕ) (s : Site S), sites[k]? = some s → ∃ s', out[k]? = some s' ∧
      (s'.image = s.image ∧ s'.index = s.index ∧ s'.comp = s.comp ∧ s'.material.atoms = s.material.atoms ∧
        s'.defect.atoms = s.defect.atoms) ∧
      (∀ r, lastNamed rows s = some r → totalEnergy s'.defect = some r.energy ∧
        cohesiveEnergy order s'.defect =
          SiteSelect.cohesive dflt (order s.defect.atoms.syms) s.defect.atoms.syms (some r.energy)) ∧
      ((∀ r ∈ rows, ¬ r.names s) → s' = s) := by
  induction rows generalizing sites with
  | nil =>
    unfold updateFile at h
    cases h
    refine ⟨rfl, fun k s hs => ⟨s, hs, ⟨rfl, rfl, rfl, rfl, rfl⟩, fun r hr => ?_, fun _ => rfl⟩⟩
    simp [lastNamed] at hr
  | cons r rows ih =>
    unfold updateFile at h
    split at h
    · cases h
    · rename_i mid hm
      obtain ⟨hl, hall⟩ := ih mid h
      have hf := mapM_ok_forall₂ _ _ _ hm
      have hlen := hf.length_eq
      refine ⟨by rw [hl, hlen], fun k s hs => ?_⟩
      obtain ⟨hk, hsk⟩ := List.getElem?_eq_some_iff.mp hs
      have hk' : k < mid.length := hlen ▸ hk
      have hone : updateOne dflt order r s = .ok mid[k] := by
        have := List.forall₂_iff_get.mp hf |>.2 k hk hk'
        simp only [List.get_eq_getElem] at this
        rw [hsk] at this
        exact this
      obtain ⟨⟨a1, a2, a3, a4, a5⟩, b, c⟩ := updateOne_ok hone
      obtain ⟨s', hs', ⟨d1, d2, d3, d4, d5⟩, e, f⟩ := hall k mid[k] (List.getElem?_eq_getElem hk')
      refine ⟨s', hs', ⟨d1.trans a1, d2.trans a2, d3.trans a3, d4.trans a4, d5.trans a5⟩, ?_, ?_⟩
      · intro x hx
        rw [lastNamed_cons] at hx
        cases hrest : lastNamed rows s with
        | some y =>
          rw [hrest] at hx
          simp only [Option.some.injEq] at hx
          subst hx
          have := e y (by rw [lastNamed_congr rows a1 a2, hrest])
          rw [a5] at this
          exact this
        | none =>
          rw [hrest] at hx
          simp only at hx
          split at hx
          · rename_i hn
            cases hx
            have hnone : ∀ q ∈ rows, ¬ q.names mid[k] := by
              intro q hq hqn
              have hq' := (names_congr a1 a2).mp hqn
              unfold lastNamed at hrest
              rw [List.getLast?_eq_none_iff, List.filter_eq_nil_iff] at hrest
              exact hrest q hq (by simpa using hq')
            rw [f hnone]
            exact ⟨(b hn).1, (b hn).2.1.symm⟩
          · cases hx
      · intro hno
        have h1 := c (hno r (by simp))
        rw [f fun q hq hqn => hno q (by simp [hq]) ((names_congr a1 a2).mp hqn), h1]

/-- C221: the energies are taken over without exception if the default table has the elements of the named
sites. -/
theorem C221_returns (dflt : S → Option ℚ) (order : List S → List S)
    (hord : ∀ l : List S, (order l).Perm l.dedup) (rows : List Row) (sites : List (Site S))
    (hel : ∀ s ∈ sites, (∃ r ∈ rows, r.names s) →
      s.defect.atoms.syms ≠ [] ∧ ∀ e ∈ s.defect.atoms.syms, (dflt e).isSome = true) :
    ∃ out, updateFile dflt order rows sites = .ok out := by
  induction rows generalizing sites with
  | nil => exact ⟨sites, rfl⟩
  | cons r rows ih =>
    have hone : ∀ s ∈ sites, ∃ s', updateOne dflt order r s = .ok s' := by
      intro s hs
      unfold updateOne
      by_cases hn : r.names s
      · rw [if_pos hn]
        obtain ⟨hne, hall⟩ := hel s hs ⟨r, by simp, hn⟩
        have hc := C189_cohesive dflt (fun e => (dflt e).getD 0) (order s.defect.atoms.syms) s.defect.atoms.syms
          (hord _) (fun e he => by
            obtain ⟨v, hv⟩ := Option.isSome_iff_exists.mp (hall e he)
            rw [hv]; rfl) hne r.energy
        have : withCohesive order { newMaterial dflt s.defect.atoms with stored := some r.energy } = .ok
            ⟨s.defect.atoms, dflt, some r.energy, some ((r.energy - (List.map (fun e => (dflt e).getD 0)
              s.defect.atoms.syms).sum) / (s.defect.atoms.syms.length : ℕ))⟩ := by
          unfold withCohesive cohesiveEnergy
          simp only [newMaterial, totalEnergy]
          rw [hc]
        rw [this]
        exact ⟨_, rfl⟩
      · rw [if_neg hn]
        exact ⟨s, rfl⟩
    classical
    let g : Site S → Site S := fun s => if h : ∃ s', updateOne dflt order r s = .ok s' then h.choose else s
    have hg : ∀ s ∈ sites, updateOne dflt order r s = .ok (g s) := by
      intro s hs
      have h := hone s hs
      simp only [g, dif_pos h]
      exact h.choose_spec
    unfold updateFile
    rw [mapM_ok_map _ g _ hg]
    apply ih
    intro s' hs' hx
    obtain ⟨s, hs, rfl⟩ := List.mem_map.mp hs'
    obtain ⟨⟨a1, a2, _, _, a5⟩, _⟩ := updateOne_ok (hg s hs)
    obtain ⟨q, hq, hqn⟩ := hx
    rw [a5]
    exact hel s hs ⟨q, by simp [hq], (names_congr a1 a2).mp hqn⟩

/-- A site of two atoms of element 1 and its energy file. -/
private def exSite (em : Option ℚ) (ref : ℕ → Option ℚ) : Site ℕ :=
  ⟨4, some 1, ⟨⟨[1, 1], [fun _ => 0, fun _ => 2], em⟩, ref, none, none⟩,
    ⟨⟨[1], [fun _ => 0], none⟩, ref, none, none⟩, "Cu1"⟩

example : (∀ l : List ℕ, (l.dedup).Perm l.dedup) ∧ (∃ r ∈ [Row.mk 4 1 (-5)], r.names (exSite none fun _ => some 10)) ∧
    (exSite none fun _ => some 10).defect.atoms.syms ≠ [] := by
  refine ⟨fun _ => .refl _, ⟨_, List.mem_singleton.mpr rfl, ?_⟩, ?_⟩
  · exact ⟨rfl, rfl⟩
  · simp [exSite]

private theorem update_single (dflt : S → Option ℚ) (order : List S → List S) (r : Row) (s : Site S) (c : ℚ)
    (hn : r.names s) (hc : SiteSelect.cohesive dflt (order s.defect.atoms.syms) s.defect.atoms.syms (some r.energy) = .ok c) :
    updateFile dflt order [r] [s] = .ok [⟨s.image, s.index, newMaterial dflt s.material.atoms,
      ⟨s.defect.atoms, dflt, some r.energy, some c⟩, s.comp⟩] := by
  have h : updateOne dflt order r s = .ok ⟨s.image, s.index, newMaterial dflt s.material.atoms,
      ⟨s.defect.atoms, dflt, some r.energy, some c⟩, s.comp⟩ := by
    unfold updateOne
    rw [if_pos hn]
    unfold withCohesive cohesiveEnergy
    simp only [newMaterial, totalEnergy]
    rw [hc]
  unfold updateFile
  rw [mapM_cons, mapM_nil, h]
  rfl

/-- C221 is violated by sites with their own reference energies: the updated materials use the default
table, whatever table the site was made with.  Here a defect of one atom with the energy -5 has a cohesive energy of
-6 in the table of the site; the file with this same energy turns it into -15. -/
theorem C221_reference_violated :
    cohesiveEnergy (List.dedup ·) { (exSite (some (-8)) fun _ => some 1).defect with stored := some (-5) } = .ok (-6) ∧
    ∃ s', updateFile (fun _ => some 10) (List.dedup ·) [⟨4, 1, -5⟩] [exSite (some (-8)) fun _ => some 1] = .ok [s'] ∧
      cohesiveEnergy (List.dedup ·) s'.defect = .ok (-15) := by
  have hc : SiteSelect.cohesive (fun _ : ℕ => some (10 : ℚ)) (List.dedup [1]) [1] (some (-5)) = .ok (-15) := by
    simp [SiteSelect.cohesive, cohesiveLoop]; norm_num
  have h1 : SiteSelect.cohesive (fun _ : ℕ => some (1 : ℚ)) (List.dedup [1]) [1] (some (-5)) = .ok (-6) := by
    simp [SiteSelect.cohesive, cohesiveLoop]; norm_num
  exact ⟨h1, _, update_single (fun _ => some 10) (List.dedup ·) ⟨4, 1, -5⟩ (exSite (some (-8)) fun _ => some 1) (-15)
    ⟨rfl, rfl⟩ hc, rfl⟩

/-- C221 is violated by elements that the default table does not have: whatever the table of the site, the file cannot
be taken over. -/
theorem C221_element_violated (dflt : S → Option ℚ) (order : List S → List S)
    (hord : ∀ l : List S, (order l).Perm l.dedup) (r : Row) (rows : List Row) (s : Site S) (sites : List (Site S))
    (hn : r.names s) (e : S) (he : e ∈ s.defect.atoms.syms) (hd : dflt e = none) :
    ∃ x, updateFile dflt order (r :: rows) (s :: sites) = .error x := by
  have hc : ∃ x, withCohesive order { newMaterial dflt s.defect.atoms with stored := some r.energy } = .error x := by
    have hloop : ∀ (l : List S) (c : ℚ), e ∈ l → cohesiveLoop dflt s.defect.atoms.syms l (some c) = .error .key := by
      intro l
      induction l with
      | nil => intro c h; simp at h
      | cons a l ih =>
        intro c h
        unfold cohesiveLoop
        cases ha : dflt a with
        | none => rfl
        | some v =>
          have hne : e ≠ a := by rintro rfl; rw [hd] at ha; cases ha
          exact ih _ (by simpa [hne] using h)
    refine ⟨.key, ?_⟩
    unfold withCohesive cohesiveEnergy
    simp only [newMaterial, totalEnergy, SiteSelect.cohesive]
    rw [hloop _ _ ((hord _).mem_iff.mpr (List.mem_dedup.mpr he))]
  obtain ⟨x, hx⟩ := hc
  unfold updateFile
  rw [mapM_cons]
  have : updateOne dflt order r s = .error x := by
    unfold updateOne
    rw [if_pos hn, hx]
  rw [this]
  exact ⟨x, rfl⟩

example : (⟨4, 1, -5⟩ : Row).names (exSite none fun _ => some 1) ∧
    1 ∈ (exSite none fun _ => some 1).defect.atoms.syms := by
  refine ⟨⟨rfl, rfl⟩, ?_⟩
  simp [exSite]

/-- C221 is violated by stored energies of materials: a material whose energy was stored in the object and whose atoms
have no calculator is without energy after the energy of its defect has been updated, so that the stability of the
site becomes NaN. -/
theorem C221_stored_energy_violated (E : ℚ) :
    ∃ s s' : Site ℕ, totalEnergy s.material = some E ∧
      updateFile (fun _ => some 10) (List.dedup ·) [⟨4, 1, -5⟩] [s] = .ok [s'] ∧ totalEnergy s'.material = none ∧
      stability (fun _ => some (10 : ℚ)) s'.material.atoms.syms 1 (totalEnergy s'.material) (totalEnergy s'.defect)
        = .ok none := by
  have hc : SiteSelect.cohesive (fun _ : ℕ => some (10 : ℚ)) (List.dedup [1]) [1] (some (-5)) = .ok (-15) := by
    simp [SiteSelect.cohesive, cohesiveLoop]; norm_num
  refine ⟨⟨4, some 1, ⟨⟨[1, 1], [fun _ => 0, fun _ => 2], none⟩, fun _ => some 10, some E, none⟩,
    ⟨⟨[1], [fun _ => 0], none⟩, fun _ => some 10, none, none⟩, "Cu1"⟩, _, rfl,
    update_single (fun _ => some 10) (List.dedup ·) ⟨4, 1, -5⟩ _ (-15) ⟨rfl, rfl⟩ hc, ?_, ?_⟩
  · rfl
  · rfl

/-! ### C222: `_update_materials` -/

/-- What may change in a site: neither its number, nor its atoms, nor its energies. -/
def SameSite (s s' : Site S) : Prop :=
  s'.image = s.image ∧ s'.index = s.index ∧ s'.comp = s.comp ∧ s'.material.atoms = s.material.atoms ∧
    s'.defect.atoms = s.defect.atoms ∧ totalEnergy s'.material = totalEnergy s.material ∧
    totalEnergy s'.defect = totalEnergy s.defect

private theorem SameSite.refl (s : Site S) : SameSite s s := ⟨rfl, rfl, rfl, rfl, rfl, rfl, rfl⟩

private theorem refreshSite_same (ref : S → Option ℚ) (order : List S → List S) (s : Site S) :
    SameSite s (refreshSite ref order s).1 := by
  unfold refreshSite
  split
  · rename_i em ed hm hd
    split
    · exact .refl s
    · rename_i m hm'
      obtain ⟨c, _, rfl⟩ := withCohesive_ok hm'
      split
      · exact ⟨rfl, rfl, rfl, rfl, rfl, by rw [hm]; rfl, rfl⟩
      · rename_i d hd'
        obtain ⟨c', _, rfl⟩ := withCohesive_ok hd'
        exact ⟨rfl, rfl, rfl, rfl, rfl, by rw [hm]; rfl, by rw [hd]; rfl⟩
  · exact .refl s

/-- C222.  `_update_materials` keeps, at every position, the number, the atoms and the energies of the site, also if
it raises on the way. -/
theorem C222_energies (ref : S → Option ℚ) (order : List S → List S) (sites : List (Site S)) :
    List.Forall₂ SameSite sites (updateMaterials ref order sites).1 := by
  induction sites with
  | nil => exact .nil
  | cons s rest ih =>
    have h1 := refreshSite_same ref order s
    unfold updateMaterials
    split
    · rename_i s' e he
      rw [he] at h1
      exact .cons h1 (List.forall₂_same.mpr fun x _ => .refl x)
    · rename_i s' he
      rw [he] at h1
      exact .cons h1 ih

/-- C222.  If `_update_materials` does not raise, a site with both energies has the table of the featurizer in its two
materials and the cohesive energies belonging to it; a site without an energy is left as it is. -/
theorem C222_tables (ref : S → Option ℚ) (order : List S → List S) (sites : List (Site S))
    (hok : (updateMaterials ref order sites).2 = none) :
    List.Forall₂ (fun s s' : Site S =>
      (∀ em ed, totalEnergy s.material = some em → totalEnergy s.defect = some ed →
        s'.material.ref = ref ∧ s'.defect.ref = ref ∧
        cohesiveEnergy order s'.material = SiteSelect.cohesive ref (order s.material.atoms.syms) s.material.atoms.syms (some em) ∧
        cohesiveEnergy order s'.defect = SiteSelect.cohesive ref (order s.defect.atoms.syms) s.defect.atoms.syms (some ed)) ∧
      (totalEnergy s.material = none ∨ totalEnergy s.defect = none → s' = s))
      sites (updateMaterials ref order sites).1 := by
  induction sites with
  | nil => exact .nil
  | cons s rest ih =>
    unfold updateMaterials at hok ⊢
    split at hok
    · cases hok
    · rename_i s' he
      refine .cons ?_ (ih hok)
      unfold refreshSite at he
      split at he
      · rename_i em ed hm hd
        split at he
        · cases he
        · rename_i m hm'
          obtain ⟨c, hc, rfl⟩ := withCohesive_ok hm'
          split at he
          · cases he
          · rename_i d hd'
            obtain ⟨c', hc', rfl⟩ := withCohesive_ok hd'
            cases he
            refine ⟨fun em' ed' h1 h2 => ?_, fun h => ?_⟩
            · rw [hm] at h1
              rw [hd] at h2
              cases h1
              cases h2
              exact ⟨rfl, rfl, hc.symm, hc'.symm⟩
            · rw [hm, hd] at h
              simp at h
      · rename_i hx
        cases he
        exact ⟨fun em ed h1 h2 => absurd h2 (hx em ed h1), fun _ => rfl⟩

/-- A site with both energies whose update does not raise. -/
example : (updateMaterials (fun _ => some 1) (List.dedup ·)
    [{ exSite (some (-8)) (fun _ => some 3) with
      defect := ⟨⟨[1], [fun _ => 0], some (-5)⟩, fun _ => some 3, none, none⟩ }]).2 = none := by
  simp [updateMaterials, refreshSite, exSite, withCohesive, cohesiveEnergy, newMaterial, SiteSelect.cohesive, cohesiveLoop,
    totalEnergy]

/-- C222.  If `_update_materials` does not raise, the energies of calculators reach the sites: a site of two materials just
made from atoms with calculators keeps these energies in its materials, and its cohesive energies are those of the
energies of the calculators. -/
theorem C222_calculators (ref : S → Option ℚ) (order : List S → List S) (sites : List (Site S))
    (hok : (updateMaterials ref order sites).2 = none) (k : ℕ) (s s' : Site S) (hs : sites[k]? = some s)
    (hs' : (updateMaterials ref order sites).1[k]? = some s') (t u : S → Option ℚ) (em ed : ℚ)
    (hm : s.material = newMaterial t s.material.atoms) (hd : s.defect = newMaterial u s.defect.atoms)
    (hem : s.material.atoms.energy = some em) (hed : s.defect.atoms.energy = some ed) :
    totalEnergy s'.material = some em ∧ totalEnergy s'.defect = some ed ∧
      cohesiveEnergy order s'.material
        = SiteSelect.cohesive ref (order s.material.atoms.syms) s.material.atoms.syms (some em) ∧
      cohesiveEnergy order s'.defect
        = SiteSelect.cohesive ref (order s.defect.atoms.syms) s.defect.atoms.syms (some ed) := by
  have h1 : totalEnergy s.material = some em := by rw [hm]; exact hem
  have h2 : totalEnergy s.defect = some ed := by rw [hd]; exact hed
  obtain ⟨hk, rfl⟩ := List.getElem?_eq_some_iff.mp hs
  obtain ⟨hk', rfl⟩ := List.getElem?_eq_some_iff.mp hs'
  have ht := (List.forall₂_iff_get.mp (C222_tables ref order sites hok)).2 k hk hk'
  have he := (List.forall₂_iff_get.mp (C222_energies ref order sites)).2 k hk hk'
  obtain ⟨_, _, _, _, _, e1, e2⟩ := he
  obtain ⟨_, _, t1, t2⟩ := ht.1 em ed h1 h2
  exact ⟨e1.trans h1, e2.trans h2, t1, t2⟩

/-- A site just made, with two calculators. -/
example : ∃ s : Site ℕ, s.material = newMaterial (fun _ => some 3) s.material.atoms ∧
    s.defect = newMaterial (fun _ => some 3) s.defect.atoms ∧ s.material.atoms.energy = some (-8) ∧
    s.defect.atoms.energy = some (-5) :=
  ⟨{ exSite (some (-8)) (fun _ => some 3) with
      defect := ⟨⟨[1], [fun _ => 0], some (-5)⟩, fun _ => some 3, none, none⟩ }, rfl, rfl, rfl, rfl⟩

/-! ### C223: `write_site_trajectories` -/

private theorem writeSites_dir (f : Folder S) (sites : List (Site S)) (i : ℕ) (h : f.dir i = true) :
    (writeSites f sites).dir i = true ∧ (writeSites f sites).mat i = f.mat i := by
  induction sites generalizing f with
  | nil => exact ⟨h, rfl⟩
  | cons s rest ih =>
    have hd : (writeSite f s).dir i = true := by
      unfold writeSite
      by_cases hi : i = s.image
      · subst hi
        split <;> simp
      · split <;> simp [Function.update_of_ne hi, h]
    have hm : (writeSite f s).mat i = f.mat i := by
      unfold writeSite
      by_cases hdir : f.dir s.image = true
      · simp [hdir]
      · have : i ≠ s.image := by rintro rfl; exact hdir h
        simp [hdir, Function.update_of_ne this]
    have := ih (writeSite f s) hd
    exact ⟨this.1, this.2.trans hm⟩

private theorem writeSites_defect (f : Folder S) (sites : List (Site S)) (i : ℕ) (j : Option ℕ) (c : String)
    (a : Atoms S) (hall : ∀ s ∈ sites, s.image = i → s.index = j → s.comp = c → s.defect.atoms = a)
    (h : f.defect i j c = some a ∨ ∃ s ∈ sites, s.image = i ∧ s.index = j ∧ s.comp = c) :
    (writeSites f sites).defect i j c = some a := by
  induction sites generalizing f with
  | nil => simpa [writeSites] using h
  | cons s rest ih =>
    apply ih
    · exact fun x hx => hall x (by simp [hx])
    · by_cases hs : i = s.image ∧ j = s.index ∧ c = s.comp
      · left
        unfold writeSite
        simp only [hs, and_self, if_true]
        rw [hall s (by simp) hs.1.symm hs.2.1.symm hs.2.2.symm]
      · rcases h with h | ⟨x, hx, h1, h2, h3⟩
        · left
          unfold writeSite
          simp only [if_neg hs]
          split <;> exact h
        · rcases List.mem_cons.mp hx with rfl | hx
          · exact absurd ⟨h1.symm, h2.symm, h3.symm⟩ hs
          · exact .inr ⟨x, hx, h1, h2, h3⟩

private theorem writeSites_mat (f : Folder S) (sites : List (Site S)) (i : ℕ) (a : Atoms S) (hf : f.dir i = false)
    (hall : ∀ s ∈ sites, s.image = i → s.material.atoms = a) (h : ∃ s ∈ sites, s.image = i) :
    (writeSites f sites).mat i = some a := by
  induction sites generalizing f with
  | nil => simp at h
  | cons s rest ih =>
    by_cases hs : s.image = i
    · have hd : (writeSite f s).dir i = true := by
        unfold writeSite
        split <;> simp [hs]
      have := (writeSites_dir (writeSite f s) rest i hd).2
      unfold writeSites at this ⊢
      rw [List.foldl_cons, this]
      unfold writeSite
      rw [hs, hf]
      simp [hall s (by simp) hs]
    · unfold writeSites
      rw [List.foldl_cons]
      apply ih
      · unfold writeSite
        split <;> simp [Function.update_of_ne (Ne.symm hs), hf]
      · exact fun x hx => hall x (by simp [hx])
      · obtain ⟨x, hx, h1⟩ := h
        rcases List.mem_cons.mp hx with rfl | hx
        · exact absurd h1 hs
        · exact ⟨x, hx, h1⟩

/-- C223 (partial).  If the folder has no directory of a material of the sites, sites with the same image number have the
same material, and sites with the same image number, atom and composition the same defect, then after
`write_site_trajectories` both structures of every site are found under its name.  Missing: see the
violations. -/
theorem C223_written_partial (f : Folder S) (sites : List (Site S)) (hfresh : ∀ s ∈ sites, f.dir s.image = false)
    (hmat : ∀ s ∈ sites, ∀ t ∈ sites, s.image = t.image → s.material.atoms = t.material.atoms)
    (hdef : ∀ s ∈ sites, ∀ t ∈ sites, s.image = t.image → s.index = t.index → s.comp = t.comp →
      s.defect.atoms = t.defect.atoms) (s : Site S) (hs : s ∈ sites) :
    (writeSites f sites).mat s.image = some s.material.atoms ∧
      (writeSites f sites).defect s.image s.index s.comp = some s.defect.atoms :=
  ⟨writeSites_mat f sites s.image _ (hfresh s hs) (fun t ht h => hmat t ht s hs h) ⟨s, hs, rfl⟩,
    writeSites_defect f sites s.image s.index s.comp _
      (fun t ht h1 h2 h3 => hdef t ht s hs h1 h2 h3) (.inr ⟨s, hs, rfl, rfl, rfl⟩)⟩

/-- Two sites of one material in an empty folder. -/
example : ∃ (f : Folder ℕ) (sites : List (Site ℕ)), sites.length = 2 ∧ (∀ s ∈ sites, f.dir s.image = false) ∧
    (∀ s ∈ sites, ∀ t ∈ sites, s.image = t.image → s.material.atoms = t.material.atoms) ∧
    (∀ s ∈ sites, ∀ t ∈ sites, s.image = t.image → s.index = t.index → s.comp = t.comp →
      s.defect.atoms = t.defect.atoms) := by
  refine ⟨⟨fun _ => false, fun _ => none, fun _ _ _ => none⟩,
    [exSite none fun _ => none, { exSite none (fun _ => none) with
      index := some 0, defect := ⟨⟨[1], [fun _ => 2], none⟩, fun _ => none, none, none⟩ }], rfl, fun _ _ => rfl, ?_, ?_⟩
  · intro s hs t ht _
    fin_cases hs <;> fin_cases ht <;> rfl
  · intro s hs t ht _ h _
    fin_cases hs <;> fin_cases ht <;> first | rfl | (simp [exSite] at h)

/-- C223 is violated by folders that are used again: if the directory of a material exists, the structure in it stays, whatever
the material of the site is. -/
theorem C223_existing_directory_violated (f : Folder S) (sites : List (Site S)) (s : Site S) (_hs : s ∈ sites)
    (hd : f.dir s.image = true) (hne : f.mat s.image ≠ some s.material.atoms) :
    (writeSites f sites).mat s.image ≠ some s.material.atoms := by
  rw [(writeSites_dir f sites s.image hd).2]
  exact hne

example : ∃ (f : Folder ℕ), f.dir 4 = true ∧ f.mat 4 ≠ some (exSite none fun _ => none).material.atoms :=
  ⟨⟨fun _ => true, fun _ => none, fun _ _ _ => none⟩, rfl, by simp⟩

/-- C223 is violated by sites of different materials with the same image number: only the first material is
written. -/
theorem C223_same_number_violated (f : Folder S) (s t : Site S) (sites : List (Site S)) (hf : f.dir s.image = false)
    (hi : t.image = s.image) (hne : t.material.atoms ≠ s.material.atoms) :
    (writeSites f (s :: t :: sites)).mat t.image ≠ some t.material.atoms := by
  have hd : (writeSite f s).dir s.image = true := by
    unfold writeSite
    split <;> simp
  have h1 := (writeSites_dir (writeSite f s) (t :: sites) s.image hd).2
  have h2 : (writeSite f s).mat s.image = some s.material.atoms := by
    unfold writeSite
    simp [hf]
  rw [hi]
  unfold writeSites at h1 ⊢
  rw [List.foldl_cons, h1, h2]
  intro h
  exact hne (Option.some.inj h).symm

example : (exSite (some 1) fun _ => none).material.atoms ≠ (exSite none fun _ => none).material.atoms := by
  intro h
  have := congrArg Atoms.energy h
  simp [exSite] at this

/-! ### C224: numbers of sites that are read -/

/-- Reading several pairs of files one after the other with `traj_to_sites(…, extend=True)`. -/
def readAll (ref : S → Option ℚ) (name : Atoms S → String) (sites : Option (List (Site S))) :
    List (Atoms S × Atoms S) → Option (List (Site S))
  | [] => sites
  | p :: ps => readAll ref name (some (trajToSites ref name sites p.1 p.2 true)) ps

private theorem readAll_spec (ref : S → Option ℚ) (name : Atoms S → String) (l : List (Site S))
    (ps : List (Atoms S × Atoms S)) :
    readAll ref name (some l) ps = some (l ++ ps.mapIdx fun k p =>
      ⟨l.length + k, getSiteIndex p.1.pos p.2.pos, newMaterial ref p.1, newMaterial ref p.2, name p.2⟩) := by
  induction ps generalizing l with
  | nil => simp [readAll]
  | cons p ps ih =>
    unfold readAll
    rw [ih]
    simp only [trajToSites, Option.getD_some, if_true, List.length_append, List.length_singleton,
      List.mapIdx_cons, List.append_assoc, List.singleton_append]
    congr 3
    apply List.mapIdx_eq_mapIdx_iff.mpr
    intro k hk
    congr 1
    omega

/-- C224 (partial).  If all sites are read with `traj_to_sites(…, extend=True)`, site number `k` has the image number `k`,
the structures of the `k`-th pair of files and the atom found missing in it, so that no two sites have the same
number.  Missing: sites that were not read this way (see the violations). -/
theorem C224_numbers_partial (ref : S → Option ℚ) (name : Atoms S → String) (ps : List (Atoms S × Atoms S))
    (hps : ps ≠ []) :
    ∃ out, readAll ref name none ps = some out ∧ out.length = ps.length ∧
      (∀ (k : ℕ) (s : Site S) (p : Atoms S × Atoms S), out[k]? = some s → ps[k]? = some p →
        s.image = k ∧ s.index = getSiteIndex p.1.pos p.2.pos ∧ s.material.atoms = p.1 ∧ s.defect.atoms = p.2 ∧
        s.material.ref = ref ∧ s.defect.ref = ref) ∧
      (out.map fun s => s.image).Nodup := by
  have h0 : readAll ref name none ps = readAll ref name (some []) ps := by
    cases ps with
    | nil => exact absurd rfl hps
    | cons p ps => rfl
  rw [h0, readAll_spec]
  refine ⟨_, rfl, by simp, ?_, ?_⟩
  · intro k s p hs hp
    simp only [List.nil_append, List.length_nil, List.getElem?_mapIdx, hp, Option.map_some, Option.some.injEq] at hs
    subst hs
    exact ⟨by simp, rfl, rfl, rfl, rfl, rfl⟩
  · have : (List.map (fun s : Site S => s.image) ([] ++ ps.mapIdx fun k p =>
        (⟨([] : List (Site S)).length + k, getSiteIndex p.1.pos p.2.pos, newMaterial ref p.1, newMaterial ref p.2, name p.2⟩ : Site S)))
        = List.range ps.length := by
      apply List.ext_getElem
      · simp
      · intro k h1 h2
        simp
    rw [this]
    exact List.nodup_range

example : ([(⟨[1, 1], [fun _ => 0, fun _ => 2], none⟩, ⟨[1], [fun _ => 0], none⟩)] : List (Atoms ℕ × Atoms ℕ)) ≠ [] := by
  simp

/-- C224: a file written in between changes nothing.  If the sites read so far are stored (`save_sites`) and read again with
`read_sites` by a featurizer without sites, or by any featurizer that is not extended, reading on from there gives the
sites that reading all pairs of files without interruption gives. -/
theorem C224_resume (ref : S → Option ℚ) (name : Atoms S → String) (ps qs : List (Atoms S × Atoms S)) (file : List (Site S))
    (hfile : readAll ref name none ps = some file) (sites : Option (List (Site S))) (extend : Bool)
    (h : sites = none ∨ extend = false) :
    readAll ref name (some (readSites sites file extend)) qs = readAll ref name none (ps ++ qs) := by
  have h1 : readSites sites file extend = file := by
    rcases h with rfl | rfl
    · rfl
    · cases sites <;> rfl
  have h2 : ∀ (l : Option (List (Site S))) (as bs : List (Atoms S × Atoms S)),
      readAll ref name l (as ++ bs) = readAll ref name (readAll ref name l as) bs := by
    intro l as
    induction as generalizing l with
    | nil => intro bs; rfl
    | cons a as ih => intro bs; exact ih _ bs
  rw [h1, h2, hfile]

example : ∃ file : List (Site ℕ), readAll (fun _ => some 1) (fun _ => "") none
    [(⟨[1, 1], [fun _ => 0, fun _ => 2], none⟩, ⟨[1], [fun _ => 0], none⟩)] = some file ∧ file.length = 1 := ⟨_, rfl, rfl⟩

/-- C224: with `read_sites(…, extend=True)` the sites there keep their places and those of the file follow in their
order. -/
theorem C224_extend (l file : List (Site S)) (k : ℕ) :
    (k < l.length → (readSites (some l) file true)[k]? = l[k]?) ∧ (readSites (some l) file true)[l.length + k]? = file[k]? ∧
      (readSites (some l) file true).length = l.length + file.length := by
  refine ⟨fun hk => ?_, ?_, ?_⟩
  · show (l ++ file)[k]? = l[k]?
    exact List.getElem?_append_left hk
  · show (l ++ file)[l.length + k]? = file[k]?
    rw [List.getElem?_append_right (by omega)]
    congr 1
    omega
  · show (l ++ file).length = _
    simp

/-- C224 is violated by `read_sites(…, extend=True)`: the numbers in the file are kept, so that the file of one sequence of
reads added to the sites of another always gives two sites the same number. -/
theorem C224_merge_violated (ref : S → Option ℚ) (name : Atoms S → String) (ps qs : List (Atoms S × Atoms S))
    (l file : List (Site S)) (hp : ps ≠ []) (hq : qs ≠ []) (hl : readAll ref name none ps = some l)
    (hfile : readAll ref name none qs = some file) :
    ¬ ((readSites (some l) file true).map fun s => s.image).Nodup := by
  obtain ⟨l', hl', hlen, hall, _⟩ := C224_numbers_partial ref name ps hp
  obtain ⟨f', hf', hflen, hfall, _⟩ := C224_numbers_partial ref name qs hq
  rw [hl] at hl'
  rw [hfile] at hf'
  cases hl'
  cases hf'
  have zero : ∀ (out : List (Site S)) (rs : List (Atoms S × Atoms S)), rs ≠ [] → out.length = rs.length →
      (∀ (k : ℕ) (s : Site S) (p : Atoms S × Atoms S), out[k]? = some s → rs[k]? = some p →
        s.image = k ∧ s.index = getSiteIndex p.1.pos p.2.pos ∧ s.material.atoms = p.1 ∧ s.defect.atoms = p.2 ∧
        s.material.ref = ref ∧ s.defect.ref = ref) → ∃ s ∈ out, s.image = 0 := by
    intro out rs hne ho hx
    cases rs with
    | nil => exact absurd rfl hne
    | cons r rs =>
      cases out with
      | nil => simp at ho
      | cons o out => exact ⟨o, by simp, (hx 0 o r rfl rfl).1⟩
  obtain ⟨s, hs, h0⟩ := zero l ps hp hlen hall
  obtain ⟨t, ht, h1⟩ := zero file qs hq hflen hfall
  show ¬ ((l ++ file).map fun s => s.image).Nodup
  rw [List.map_append]
  intro hnd
  rw [List.nodup_append] at hnd
  exact hnd.2.2 s.image (List.mem_map.mpr ⟨s, hs, rfl⟩) t.image (List.mem_map.mpr ⟨t, ht, rfl⟩) (h0.trans h1.symm)

example : ∃ l file : List (Site ℕ), readAll (fun _ => some 1) (fun _ => "") none
      [(⟨[1, 1], [fun _ => 0, fun _ => 2], none⟩, ⟨[1], [fun _ => 0], none⟩)] = some l ∧
    readAll (fun _ => some 1) (fun _ => "") none
      [(⟨[3, 1], [fun _ => 0, fun _ => 2], none⟩, ⟨[1], [fun _ => 2], none⟩)] = some file := ⟨_, _, rfl, rfl⟩

/-- C224 is violated by sites that were selected or read from a file before: the number given to a new site is the
number of sites so far, which a site may have already.  This holds for every list of sites in which some site has the
number `len(sites)`; for instance the single site that `select_specific_sites([[1, 0]])` makes. -/
theorem C224_clash_violated (ref : S → Option ℚ) (name : Atoms S → String) (l : List (Site S)) (m d : Atoms S)
    (h : ∃ s ∈ l, s.image = l.length) :
    ¬ ((trajToSites ref name (some l) m d true).map fun s => s.image).Nodup := by
  obtain ⟨s, hs, hi⟩ := h
  simp only [trajToSites, Option.getD_some, if_true, List.map_append, List.map_cons, List.map_nil]
  intro hnd
  rw [List.nodup_append] at hnd
  exact hnd.2.2 s.image (List.mem_map.mpr ⟨s, hs, rfl⟩) l.length (by simp) hi

example : ∃ s ∈ [{ exSite none (fun _ => none) with image := 1 }],
    s.image = [{ exSite none (fun _ => none) with image := 1 }].length := ⟨_, List.mem_singleton.mpr rfl, rfl⟩

/-- C224 is violated by `extend=False`: the list is replaced but the number goes on counting, so that the same call
repeated gives another number. -/
theorem C224_replace_violated (ref : S → Option ℚ) (name : Atoms S → String) (m d : Atoms S) :
    ((trajToSites ref name none m d false).map fun s => s.image) = [0] ∧
      ((trajToSites ref name (some (trajToSites ref name none m d false)) m d false).map fun s => s.image) = [1] := by
  simp [trajToSites]

/-- C224 is violated for sites that were written and are read back: the number in the names of the directories is not
the number of the site read, so that an energy reported under the name of the directory does not arrive.  For every
pair of sites of the same image, written to `material{i}` and read back in order, an energy file with the name of the
second site changes nothing unless the image was number 1. -/
theorem C224_renumbered_violated (dflt ref : S → Option ℚ) (order : List S → List S) (name : Atoms S → String)
    (s t : Site S) (i j : ℕ) (hi : i ≠ 1) (E : ℚ) (ht : t.image = i) (htj : t.index = some j)
    (hs : getSiteIndex s.material.atoms.pos s.defect.atoms.pos ≠ some j ∨ i ≠ 0) :
    ∃ out, readAll ref name none [(s.material.atoms, s.defect.atoms), (t.material.atoms, t.defect.atoms)] = some out ∧
      (⟨i, j, E⟩ : Row).names t ∧ updateFile dflt order [⟨i, j, E⟩] out = .ok out := by
  refine ⟨_, rfl, ⟨ht, htj⟩, ?_⟩
  unfold updateFile
  have h0 : ¬ (⟨i, j, E⟩ : Row).names (⟨0, getSiteIndex s.material.atoms.pos s.defect.atoms.pos,
      newMaterial ref s.material.atoms, newMaterial ref s.defect.atoms, name s.defect.atoms⟩ : Site S) := by
    rintro ⟨h1, h2⟩
    rcases hs with h | h
    · exact h h2
    · exact h h1.symm
  have h1 : ¬ (⟨i, j, E⟩ : Row).names (⟨1, getSiteIndex t.material.atoms.pos t.defect.atoms.pos,
      newMaterial ref t.material.atoms, newMaterial ref t.defect.atoms, name t.defect.atoms⟩ : Site S) := by
    rintro ⟨h1, h2⟩
    exact hi h1.symm
  rw [mapM_ok_map _ id]
  · simp [updateFile]
  · intro x hx
    simp only [trajToSites, Option.getD_none, Option.getD_some, if_true, List.nil_append, List.length_nil,
      List.length_singleton, List.singleton_append, List.mem_cons, List.not_mem_nil, or_false] at hx
    unfold updateOne
    rcases hx with rfl | rfl
    · exact if_neg h0
    · exact if_neg h1

/-- Atoms 0 and 1 of the image 0: the energy of `material0_site1` is lost. -/
example : getSiteIndex [fun _ => 0, fun _ => 2] [fun _ => (2 : ℚ)] ≠ some 1 := by decide +kernel

end CatLearn.SiteStore
