import Verif.Model.SiteState
import Verif.Props.SiteGeom

/-!
# C262: asking a `Material` repeatedly
-/

namespace CatLearn.SiteGeom

open CatLearn CatLearn.Nb

variable {n : ℕ}

private theorem cm_diag (radius : ℕ → ℝ) (z : Fin n → ℕ) (p : Fin n → Fin 3 → ℝ) (i : Fin n) : cm radius z p i i = 0 := by
  rw [cm_eq, if_neg]
  simp [near]

/-- A site that has been chosen by the calls. -/
def chosen (l : List (Call n)) : Option (Fin n) :=
  l.foldl (fun s c => match c with
    | .features i => some i
    | .defect i => some i
    | _ => s) none

/-- No call asks for angles or distances before a site has been chosen, and no atom is moved. -/
def Orderly (l : List (Call n)) : Prop :=
  (∀ p, .move p ∉ l) ∧ ∀ l₁ c l₂, l = l₁ ++ c :: l₂ → (c = .angles ∨ c = .distances) → chosen l₁ ≠ none

private theorem clear_same (radius : ℕ → ℝ) (z : Fin n → ℕ) (p : Fin n → Fin 3 → ℝ) (i : Fin n) :
    (⟨z, p, cm radius z p, cnList radius z p, some i⟩ : Material n).clearDiag = ⟨z, p, cm radius z p, cnList radius z p, some i⟩ := by
  simp only [Material.clearDiag]
  congr 1
  rw [Function.update_eq_self_iff]
  funext j
  by_cases h : j = i
  · subst h
    rw [Function.update_self, cm_diag]
  · rw [Function.update_of_ne h]

private theorem features_same (radius : ℕ → ℝ) (valence : ℕ → ℕ) (z : Fin n → ℕ) (p : Fin n → Fin 3 → ℝ) (o : Option (Fin n)) (i : Fin n) :
    (⟨z, p, cm radius z p, cnList radius z p, o⟩ : Material n).getSiteFeatures valence i =
      (siteFeatures radius valence z p i, ⟨z, p, cm radius z p, cnList radius z p, some i⟩) := by
  have hnb : neighbors (cm radius z p i) i = (List.finRange n).filter fun j => cm radius z p i j = 1 := by
    unfold neighbors
    refine List.filter_congr fun j _ => ?_
    by_cases h : j = i
    · subst h
      rw [Function.update_self, cm_diag]
    · rw [Function.update_of_ne h]
  simp only [Material.getSiteFeatures, Material.siteAngles, Material.siteDistances, clear_same, siteFeatures, hnb]
  by_cases hd : List.map (fun j => Nb.distance (p j) (p i)) ((List.finRange n).filter fun j => cm radius z p i j = 1) = []
  · simp only [hd, if_true]
  · simp only [hd, if_false]

/-- The state after orderly calls. -/
private theorem after_orderly (radius : ℕ → ℝ) (valence : ℕ → ℕ) (z : Fin n → ℕ) (p : Fin n → Fin 3 → ℝ) (l : List (Call n)) (h : Orderly l) :
    (Material.new radius z p).after valence l = ⟨z, p, cm radius z p, cnList radius z p, chosen l⟩ := by
  induction l using List.reverseRecOn with
  | nil => rfl
  | append_singleton l c ih =>
    have hl : Orderly l := ⟨fun q hq => h.1 q (by simp [hq]), fun l₁ c' l₂ e => h.2 l₁ c' (l₂ ++ [c]) (by simp [e])⟩
    have hlast := h.2 l c [] rfl
    have hmove : ∀ q, c ≠ .move q := fun q e => h.1 q (by simp [e])
    have e1 : (Material.new radius z p).after valence (l ++ [c]) = (((Material.new radius z p).after valence l).call valence c).2 := by
      simp [Material.after]
    rw [e1, ih hl]
    simp only [chosen, List.foldl_append, List.foldl_cons, List.foldl_nil]
    rw [← chosen]
    cases c with
    | features i => simp only [Material.call, features_same]
    | angles =>
      obtain ⟨i, hi⟩ := Option.ne_none_iff_exists'.mp (hlast (.inl rfl))
      simp only [Material.call, Material.siteAngles, hi, clear_same]
    | distances =>
      obtain ⟨i, hi⟩ := Option.ne_none_iff_exists'.mp (hlast (.inr rfl))
      simp only [Material.call, Material.siteDistances, hi, clear_same]
    | defect i => rfl
    | move q => exact absurd rfl (hmove q)

/-- C262 (partial: a site has been chosen before angles or distances are asked for, and the atoms do not move).  After any calls, the features of a site are those
that a new `Material` gives, and angles and distances are those of the site chosen last. -/
theorem C262_history_partial (radius : ℕ → ℝ) (valence : ℕ → ℕ) (z : Fin n → ℕ) (p : Fin n → Fin 3 → ℝ) (l : List (Call n)) (h : Orderly l) :
    (∀ i, (((Material.new radius z p).after valence l).call valence (.features i)).1 = .features (siteFeatures radius valence z p i)) ∧
    ∀ i, chosen l = some i →
      (((Material.new radius z p).after valence l).call valence .angles).1 =
        ((((Material.new radius z p).call valence (.defect i)).2).call valence .angles).1 ∧
      (((Material.new radius z p).after valence l).call valence .distances).1 =
        ((((Material.new radius z p).call valence (.defect i)).2).call valence .distances).1 := by
  rw [after_orderly radius valence z p l h]
  refine ⟨fun i => ?_, fun i hi => ?_⟩
  · simp only [Material.call, features_same]
  · rw [hi]
    exact ⟨rfl, rfl⟩

/-- C262, the values: angles and distances after a site was chosen are those of the neighbours of the site. -/
theorem C262_values_partial (radius : ℕ → ℝ) (valence : ℕ → ℕ) (z : Fin n → ℕ) (p : Fin n → Fin 3 → ℝ) (i : Fin n) (l : List (Call n)) (h : Orderly l)
    (hi : chosen l = some i) :
    (∃ r, (((Material.new radius z p).after valence l).call valence .angles).1 = .list (.ok r) ∧
      ∀ x, x ∈ r ↔ ∃ j ∈ near radius z p i, ∃ k ∈ near radius z p i, j < k ∧ angle (p j) (p i) (p k) = some x) ∧
    ((near radius z p i).Nonempty → ∃ r, (((Material.new radius z p).after valence l).call valence .distances).1 = .list (.ok r) ∧
      r.length = (near radius z p i).card ∧ ∀ x, x ∈ r ↔ ∃ j ∈ near radius z p i, Nb.distance (p j) (p i) = x) := by
  have hmem : ∀ j, j ∈ (List.finRange n).filter (fun j => cm radius z p i j = 1) ↔ j ∈ near radius z p i := by
    intro j
    rw [List.mem_filter, cm_eq]
    by_cases hj : j ∈ near radius z p i <;> simp [hj]
  have hsort : ((List.finRange n).filter (fun j => cm radius z p i j = 1)).Pairwise (· < ·) := (List.pairwise_lt_finRange n).filter _
  have hpairs : ∀ (l : List (Fin n)), l.Pairwise (· < ·) → ∀ q, q ∈ pairs l ↔ q.1 ∈ l ∧ q.2 ∈ l ∧ q.1 < q.2 := by
    intro l hl
    induction l with
    | nil => simp [pairs]
    | cons a l ih =>
      intro q
      rw [List.pairwise_cons] at hl
      rw [pairs, List.mem_append, ih hl.2, List.mem_map]
      constructor
      · rintro (⟨y, hy, rfl⟩ | ⟨h1, h2, h3⟩)
        · exact ⟨by simp, by simp [hy], hl.1 y hy⟩
        · exact ⟨by simp [h1], by simp [h2], h3⟩
      · rintro ⟨h1, h2, h3⟩
        rcases List.mem_cons.mp h1 with h1 | h1 <;> rcases List.mem_cons.mp h2 with h2 | h2
        · rw [h1, h2] at h3; exact absurd h3 (lt_irrefl _)
        · exact .inl ⟨q.2, h2, by rw [← h1]⟩
        · have := hl.1 _ h1
          rw [h2] at h3
          exact absurd (this.trans h3) (lt_irrefl _)
        · exact .inr ⟨h1, h2, h3⟩
  rw [after_orderly radius valence z p l h, hi]
  simp only [Material.call, Material.siteAngles, Material.siteDistances, clear_same]
  refine ⟨⟨_, rfl, fun x => ?_⟩, fun hne => ?_⟩
  · simp only [List.mem_filterMap]
    constructor
    · rintro ⟨q, hq, hx⟩
      obtain ⟨h1, h2, h3⟩ := (hpairs _ hsort q).mp hq
      exact ⟨q.1, (hmem _).mp h1, q.2, (hmem _).mp h2, h3, hx⟩
    · rintro ⟨j, hj, k, hk, hjk, hx⟩
      exact ⟨(j, k), (hpairs _ hsort _).mpr ⟨(hmem _).mpr hj, (hmem _).mpr hk, hjk⟩, hx⟩
  · obtain ⟨j, hj⟩ := hne
    have hjl := (hmem j).mpr hj
    rw [if_neg (by
      intro e
      rw [List.map_eq_nil_iff] at e
      rw [e] at hjl
      exact absurd hjl (by simp))]
    refine ⟨_, rfl, ?_, fun x => ?_⟩
    · rw [List.length_map, ← List.toFinset_card_of_nodup ((List.nodup_finRange n).filter _)]
      congr 1
      ext j
      rw [List.mem_toFinset, hmem]
    · simp only [List.mem_map]
      exact ⟨fun ⟨j, hj, hx⟩ => ⟨j, (hmem j).mp hj, hx⟩, fun ⟨j, hj, hx⟩ => ⟨j, (hmem j).mpr hj, hx⟩⟩

/-- C262 is violated: asking for the angles or distances before a site has been chosen raises ValueError and clears the connection matrix; from then on no site has
neighbours, and `get_site_features` raises ValueError for every site of every structure. -/
theorem C262_unchosen_violated (radius : ℕ → ℝ) (valence : ℕ → ℕ) (z : Fin n → ℕ) (p : Fin n → Fin 3 → ℝ) (hn : 2 ≤ n) (c : Call n) (hc : c = .angles ∨ c = .distances)
    (i : Fin n) :
    ((Material.new radius z p).call valence c).1 = .list (.error .value) ∧
      (((Material.new radius z p).call valence c).2.call valence (.features i)).1 = .features (.error .value) := by
  have h1 : n ≠ 1 := by omega
  have hclear : (Material.new radius z p).clearDiag = ⟨z, p, fun _ _ => 0, cnList radius z p, none⟩ := rfl
  have hfeat : ((⟨z, p, fun _ _ => 0, cnList radius z p, none⟩ : Material n).getSiteFeatures valence i).1 = .error .value := by
    have hcd : (⟨z, p, fun _ _ => 0, cnList radius z p, some i⟩ : Material n).clearDiag = ⟨z, p, fun _ _ => 0, cnList radius z p, some i⟩ := by
      simp only [Material.clearDiag]
      congr 1
      rw [Function.update_eq_self_iff]
      funext j
      by_cases h : j = i
      · subst h; rw [Function.update_self]
      · rw [Function.update_of_ne h]
    simp [Material.getSiteFeatures, Material.siteAngles, Material.siteDistances, hcd]
  rcases hc with rfl | rfl
  · refine ⟨?_, ?_⟩
    · simp [Material.call, Material.siteAngles, Material.new, h1]
    · simp only [Material.call, Material.siteAngles, Material.new] at *
      simp only [hclear, hfeat]
  · refine ⟨?_, ?_⟩
    · simp [Material.call, Material.siteDistances, Material.new]
    · simp only [Material.call, Material.siteDistances, Material.new] at *
      simp only [hclear, hfeat]

/-- C262 is violated when the atoms are moved: the neighbours remain those of the positions at which the `Material` was made.  A site whose neighbours are all taken
away still has them (a new `Material` raises ValueError). -/
theorem C262_moved_violated (radius : ℕ → ℝ) (valence : ℕ → ℕ) (z : Fin n → ℕ) (hz : ∀ j, z j ≠ 0) (p p' : Fin n → Fin 3 → ℝ) (i : Fin n)
    (h : (near radius z p i).Nonempty) (h' : near radius z p' i = ∅) :
    ∃ f, (((Material.new radius z p).after valence [.move p']).call valence (.features i)).1 = .features (.ok f) ∧ f.cn = (near radius z p i).card ∧
      ((Material.new radius z p').call valence (.features i)).1 = .features (.error .value) := by
  have hnew : ((Material.new radius z p').call valence (.features i)).1 = .features (.error .value) := by
    have := features_same radius valence z p' none i
    simp only [Material.call, Material.new, this, (C215_features radius valence z hz p' i).1 h']
  obtain ⟨j, hj⟩ := h
  have hcd : (⟨z, p', cm radius z p, cnList radius z p, some i⟩ : Material n).clearDiag = ⟨z, p', cm radius z p, cnList radius z p, some i⟩ := by
    have := clear_same radius z p i
    simp only [Material.clearDiag, Material.mk.injEq, true_and, and_true] at this ⊢
    exact this
  have hcn : cnList radius z p i = (near radius z p i).card := by
    unfold cnList
    simp [cm_eq]
  have hne : ((List.finRange n).filter fun j => cm radius z p i j = 1).map (fun j => Nb.distance (p' j) (p' i)) ≠ [] := by
    intro e
    rw [List.map_eq_nil_iff, List.filter_eq_nil_iff] at e
    exact e j (List.mem_finRange j) (by rw [cm_eq, if_pos hj]; simp)
  have hret : ∃ f, (((Material.new radius z p).after valence [.move p']).call valence (.features i)).1 = .features (.ok f) ∧ f.cn = cnList radius z p i := by
    simp only [Material.after, List.foldl_cons, List.foldl_nil, Material.call, Material.new, Material.getSiteFeatures, Material.siteAngles, Material.siteDistances, hcd,
      if_neg hne]
    exact ⟨_, rfl, rfl⟩
  obtain ⟨f, h1, h2⟩ := hret
  exact ⟨f, h1, h2.trans hcn, hnew⟩

/-- Two calls after which every further call is answered as by a new object; and one that is not allowed. -/
example : Orderly [Call.features (0 : Fin 3), .angles, .defect 2, .distances] ∧ chosen [Call.features (0 : Fin 3), .angles, .defect 2, .distances] = some 2 ∧
    ¬ Orderly [Call.angles, Call.features (0 : Fin 3)] := by
  refine ⟨⟨by simp, ?_⟩, rfl, fun h => ?_⟩
  · intro l₁ c l₂ e hc
    match l₁, e with
    | [], e => simp only [List.nil_append, List.cons.injEq] at e; rcases hc with rfl | rfl <;> simp at e
    | [a], e => simp only [List.cons_append, List.nil_append, List.cons.injEq] at e; rw [← e.1]; simp [chosen]
    | [a, b], e => simp only [List.cons_append, List.nil_append, List.cons.injEq] at e; rw [← e.1, ← e.2.1]; simp [chosen]
    | [a, b, d], e => simp only [List.cons_append, List.nil_append, List.cons.injEq] at e; rw [← e.1, ← e.2.1, ← e.2.2.1]; simp [chosen]
    | a :: b :: d :: f :: r, e => simp at e
  · exact h.2 [] .angles _ rfl (.inl rfl) rfl

end CatLearn.SiteGeom
