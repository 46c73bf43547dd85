import Verif.Model.Clustering
import Mathlib.Data.List.Basic
import Mathlib.Data.List.Nodup
import Mathlib.Data.List.Perm.Basic
import Mathlib.Tactic.Linarith

/-!
C197: clusters of training and test data.
-/

namespace CatLearn.Clustering

open CatLearn

variable {α β γ : Type}

/-- The entry of a key (an empty list for a missing key). -/
def get (d : Dict α) (l : ℕ) : List α := ((d.find? fun p => p.1 == l).map Prod.snd).getD []

/-- The rows with label `l`, in their order. -/
def labelled (rows : List α) (order : List ℕ) (l : ℕ) : List α :=
  ((rows.zip order).filter fun p => p.2 == l).map Prod.fst

theorem find_map (d : Dict α) (l l' : ℕ) (x : α) :
    ((d.map fun p => if p.1 = l then (p.1, p.2 ++ [x]) else p).find? fun p => p.1 == l') =
      (d.find? fun p => p.1 == l').map fun p => if p.1 = l then (p.1, p.2 ++ [x]) else p := by
  rw [List.find?_map]
  congr 1
  congr 1
  funext p
  simp only [Function.comp_apply]
  split <;> rfl

theorem get_append (d : Dict α) (l l' : ℕ) (x : α) :
    get (append d l x) l' = if l' = l then get d l ++ [x] else get d l' := by
  unfold append
  by_cases h : d.any (·.1 == l) = true
  · rw [if_pos h]
    unfold get
    rw [find_map]
    by_cases e : l' = l
    · subst e
      rw [if_pos rfl]
      obtain ⟨p, hp, hpl⟩ := List.any_eq_true.mp h
      obtain ⟨q, hq⟩ : ∃ q, d.find? (fun p => p.1 == l') = some q := by
        rw [← Option.isSome_iff_exists, List.find?_isSome]
        exact ⟨p, hp, hpl⟩
      have hql : q.1 = l' := by simpa using List.find?_some hq
      rw [hq]
      simp [hql]
    · rw [if_neg e]
      cases hf : d.find? (fun p => p.1 == l') with
      | none => rfl
      | some q =>
        have hql : q.1 = l' := by simpa using List.find?_some hf
        have : q.1 ≠ l := by rw [hql]; exact e
        simp [this]
  · rw [if_neg h]
    unfold get
    rw [List.find?_append]
    have hnone : ∀ p ∈ d, p.1 ≠ l := by
      intro p hp e
      exact h (List.any_eq_true.mpr ⟨p, hp, by simp [e]⟩)
    by_cases e : l' = l
    · subst e
      have : d.find? (fun p => p.1 == l') = none := List.find?_eq_none.mpr fun p hp => by simpa using hnone p hp
      simp [this]
    · rw [if_neg e]
      have : List.find? (fun p : ℕ × List α => p.1 == l') [(l, [x])] = none := by
        simp [Ne.symm e]
      rw [this]
      simp

theorem keys_append (d : Dict α) (l : ℕ) (x : α) :
    (append d l x).map Prod.fst = if l ∈ d.map Prod.fst then d.map Prod.fst else d.map Prod.fst ++ [l] := by
  unfold append
  have hiff : d.any (·.1 == l) = true ↔ l ∈ d.map Prod.fst := by
    rw [List.any_eq_true, List.mem_map]
    exact ⟨fun ⟨p, hp, e⟩ => ⟨p, hp, by simpa using e⟩, fun ⟨p, hp, e⟩ => ⟨p, hp, by simpa using e⟩⟩
  by_cases h : d.any (·.1 == l) = true
  · rw [if_pos h, if_pos (hiff.mp h), List.map_map]
    refine List.map_congr_left fun p _ => ?_
    simp only [Function.comp_apply]
    split <;> rfl
  · rw [if_neg h, if_neg (fun h' => h (hiff.mpr h'))]
    simp

theorem flat_append (d : Dict α) (hnd : (d.map Prod.fst).Nodup) (l : ℕ) (x : α) :
    ((append d l x).flatMap Prod.snd).Perm (d.flatMap Prod.snd ++ [x]) := by
  unfold append
  by_cases h : d.any (·.1 == l) = true
  · rw [if_pos h]
    clear * - h hnd
    induction d with
    | nil => simp at h
    | cons p t ih =>
      rw [List.map_cons, List.nodup_cons] at hnd
      rw [List.map_cons, List.flatMap_cons, List.flatMap_cons]
      by_cases e : p.1 = l
      · rw [if_pos e]
        have : (t.map fun p => if p.1 = l then (p.1, p.2 ++ [x]) else p) = t := by
          conv_rhs => rw [← List.map_id t]
          refine List.map_congr_left fun q hq => ?_
          have : q.1 ≠ l := fun e' => hnd.1 (by rw [e, ← e']; exact List.mem_map_of_mem hq)
          simp [this]
        rw [this]
        simp only [List.append_assoc]
        exact (List.perm_append_comm).append_left _
      · rw [if_neg e]
        have h' : t.any (·.1 == l) = true := by
          rw [List.any_cons] at h
          simpa [e] using h
        rw [List.append_assoc]
        exact (ih hnd.2 h').append_left _
  · rw [if_neg h]
    simp

theorem splitLoop_spec (r : List (α × β × ℕ)) (d : Dict α × Dict β) (hnd : (d.1.map Prod.fst).Nodup)
    (hk : d.1.map Prod.fst = d.2.map Prod.fst) :
    let d' := splitLoop r d
    (d'.1.map Prod.fst).Nodup ∧ d'.1.map Prod.fst = d'.2.map Prod.fst ∧
      (∀ l, l ∈ d'.1.map Prod.fst ↔ l ∈ d.1.map Prod.fst ∨ l ∈ r.map fun p => p.2.2) ∧
      (∀ l, get d'.1 l = get d.1 l ++ (r.filter fun p => p.2.2 == l).map fun p => p.1) ∧
      (∀ l, get d'.2 l = get d.2 l ++ (r.filter fun p => p.2.2 == l).map fun p => p.2.1) ∧
      (d'.1.flatMap Prod.snd).Perm (d.1.flatMap Prod.snd ++ r.map fun p => p.1) ∧
      (d'.2.flatMap Prod.snd).Perm (d.2.flatMap Prod.snd ++ r.map fun p => p.2.1) := by
  induction r generalizing d with
  | nil => exact ⟨hnd, hk, by simp [splitLoop], by simp [splitLoop], by simp [splitLoop], by simp [splitLoop], by simp [splitLoop]⟩
  | cons p r ih =>
    obtain ⟨f, t, l⟩ := p
    have hnd' : ((append d.1 l f).map Prod.fst).Nodup := by
      rw [keys_append]
      split
      · exact hnd
      · rw [List.nodup_append']
        refine ⟨hnd, by simp, ?_⟩
        intro a ha hb
        rw [List.mem_singleton] at hb
        subst hb
        contradiction
    have hk' : (append d.1 l f).map Prod.fst = (append d.2 l t).map Prod.fst := by
      rw [keys_append, keys_append, hk]
    obtain ⟨h1, h2, h3, h4, h5, h6, h7⟩ := ih (append d.1 l f, append d.2 l t) hnd' hk'
    refine ⟨h1, h2, ?_, ?_, ?_, ?_, ?_⟩
    · intro l'
      refine (h3 l').trans ?_
      simp only [keys_append, List.map_cons, List.mem_cons]
      split
      · rename_i hl
        constructor
        · rintro (h | h)
          · exact Or.inl h
          · exact Or.inr (Or.inr h)
        · rintro (h | rfl | h)
          · exact Or.inl h
          · exact Or.inl hl
          · exact Or.inr h
      · rw [List.mem_append, List.mem_singleton, or_assoc]
    · intro l'
      refine (h4 l').trans ?_
      simp only [get_append]
      by_cases e : l' = l
      · subst e
        simp
      · simp [e, Ne.symm e]
    · intro l'
      refine (h5 l').trans ?_
      simp only [get_append]
      by_cases e : l' = l
      · subst e
        simp
      · simp [e, Ne.symm e]
    · refine h6.trans ?_
      have := (flat_append d.1 hnd l f).append_right (r.map fun p => p.1)
      simpa using this
    · refine h7.trans ?_
      have := (flat_append d.2 (hk ▸ hnd) l t).append_right (r.map fun p => p.2.1)
      simpa using this

theorem zip_fst (features : List α) (t : List β) (order : List ℕ) (h : t.length = features.length) (l : ℕ) :
    ((features.zip (t.zip order)).filter fun p => p.2.2 == l).map (fun p => p.1) = labelled features order l := by
  induction features generalizing t order with
  | nil => simp [labelled]
  | cons f fs ih =>
    cases t with
    | nil => simp at h
    | cons y ys =>
      cases order with
      | nil => simp [labelled]
      | cons o os =>
        have := ih ys os (by simpa using h)
        simp only [List.zip_cons_cons, List.filter_cons, labelled] at this ⊢
        by_cases e : o == l <;> simp [e, this]

theorem zip_snd (features : List α) (t : List β) (order : List ℕ) (h : t.length = features.length) (l : ℕ) :
    ((features.zip (t.zip order)).filter fun p => p.2.2 == l).map (fun p => p.2.1) = labelled t order l := by
  induction features generalizing t order with
  | nil =>
    have : t = [] := List.eq_nil_of_length_eq_zero (by simpa using h)
    simp [labelled, this]
  | cons f fs ih =>
    cases t with
    | nil => simp at h
    | cons y ys =>
      cases order with
      | nil => simp [labelled]
      | cons o os =>
        have := ih ys os (by simpa using h)
        simp only [List.zip_cons_cons, List.filter_cons, labelled] at this ⊢
        by_cases e : o == l <;> simp [e, this]

/-- What a pair of dictionaries has to satisfy to be the split of rows and targets by label. -/
def IsSplit (features : List α) (t : List β) (order : List ℕ) (df : Dict α) (dt : Dict β) : Prop :=
  (df.map Prod.fst).Nodup ∧ df.map Prod.fst = dt.map Prod.fst ∧ (∀ l, l ∈ df.map Prod.fst ↔ l ∈ order) ∧
    (∀ l, get df l = labelled features order l) ∧ (∀ l, get dt l = labelled t order l) ∧
    (df.flatMap Prod.snd).Perm features ∧ (dt.flatMap Prod.snd).Perm t

theorem clusterSplit_spec (features : List α) (t : List β) (order : List ℕ) (h1 : t.length = features.length)
    (h2 : order.length = features.length) :
    ∃ df dt, clusterSplit features (some t) order = .ok (df, some dt) ∧ IsSplit features t order df dt := by
  refine ⟨_, _, rfl, ?_⟩
  obtain ⟨e1, e2, e3, e4, e5, e6, e7⟩ := splitLoop_spec (features.zip (t.zip order)) ([], []) (by simp) (by simp)
  refine ⟨e1, e2, ?_, ?_, ?_, ?_, ?_⟩
  · intro l
    rw [e3]
    have : (features.zip (t.zip order)).map (fun p => p.2.2) = order := by
      have ha : (features.zip (t.zip order)).map Prod.snd = t.zip order := List.map_snd_zip (by simp [h1, h2])
      have hb : (t.zip order).map Prod.snd = order := List.map_snd_zip (by simp [h1, h2])
      conv_rhs => rw [← hb, ← ha, List.map_map]
      rfl
    simp [this]
  · intro l
    rw [e4, zip_fst features t order h1]
    simp [get]
  · intro l
    rw [e5, zip_snd features t order h1]
    simp [get]
  · refine e6.trans ?_
    have : (features.zip (t.zip order)).map Prod.fst = features := List.map_fst_zip (by simp [h1, h2])
    simpa [this] using List.Perm.refl _
  · refine e7.trans ?_
    have ha : (features.zip (t.zip order)).map Prod.snd = t.zip order := List.map_snd_zip (by simp [h1, h2])
    have hb : (t.zip order).map Prod.fst = t := List.map_fst_zip (by simp [h1, h2])
    have : (features.zip (t.zip order)).map (fun p => p.2.1) = t := by
      conv_rhs => rw [← hb, ← ha, List.map_map]
      rfl
    simp [this]

/-- The index is a nearest one among `is`, the first of several. -/
theorem nearest_spec (dist : ℕ → ℝ) (is : List ℕ) (seen : List ℕ) (acc : Option ℝ × Option ℕ)
    (hacc : ∀ td, acc.1 = some td → ∃ k ∈ seen, acc.2 = some k ∧ dist k = td ∧ ∀ i ∈ seen, td ≤ dist i)
    (hseen : acc.1 = none → seen = []) (hne : seen ++ is ≠ []) (hord : (seen ++ is).Pairwise (· < ·))
    (hfirst : ∀ td k, acc.1 = some td → acc.2 = some k → ∀ i ∈ seen, i < k → td < dist i) :
    ∃ k ∈ seen ++ is, (nearest dist is acc).2 = some k ∧ (∀ i ∈ seen ++ is, dist k ≤ dist i) ∧
      ∀ i ∈ seen ++ is, i < k → dist k < dist i := by
  induction is generalizing seen acc with
  | nil =>
    rw [List.append_nil] at hne ⊢
    cases h : acc.1 with
    | none => exact absurd (hseen h) hne
    | some td =>
      obtain ⟨k, hk, h2, h3, h4⟩ := hacc td h
      refine ⟨k, hk, h2, fun i hi => h3 ▸ h4 i hi, fun i hi hik => ?_⟩
      rw [h3]
      exact hfirst td k h h2 i hi hik
  | cons j r ih =>
    have hsplit : seen ++ j :: r = (seen ++ [j]) ++ r := by simp
    rw [hsplit] at hne hord ⊢
    have hjmax : ∀ i ∈ seen, i < j := by
      intro i hi
      have := (List.pairwise_append.mp hord).1
      exact (List.pairwise_append.mp this).2.2 i hi j (by simp)
    unfold nearest
    cases h : acc.1 with
    | none =>
      have hs := hseen h
      subst hs
      refine ih _ _ ?_ ?_ hne hord ?_
      · intro td e
        simp only [Option.some.injEq] at e
        refine ⟨j, by simp, rfl, e, ?_⟩
        intro i hi
        simp at hi
        rw [hi, e]
      · intro e; simp at e
      · intro td k e1 e2 i hi hik
        simp at hi e2
        omega
    | some td =>
      simp only
      obtain ⟨k, hk, h2, h3, h4⟩ := hacc td h
      by_cases hlt : dist j < td
      · rw [if_pos hlt]
        refine ih _ _ ?_ ?_ hne hord ?_
        · intro td' e
          simp only [Option.some.injEq] at e
          refine ⟨j, by simp, rfl, e, ?_⟩
          intro i hi
          rw [List.mem_append, List.mem_singleton] at hi
          rcases hi with hi | rfl
          · rw [← e]
            exact hlt.le.trans (h4 i hi)
          · exact e.symm.le
        · intro e; simp at e
        · intro td' k' e1 e2 i hi hik
          simp only [Option.some.injEq] at e1 e2
          rw [List.mem_append, List.mem_singleton] at hi
          rcases hi with hi | rfl
          · rw [← e1]
            exact lt_of_lt_of_le hlt (h4 i hi)
          · omega
      · rw [if_neg hlt]
        push Not at hlt
        refine ih _ _ ?_ ?_ hne hord ?_
        · intro td' e
          have : td' = td := by simpa [h] using e.symm
          subst this
          refine ⟨k, by simp [hk], h2, h3, ?_⟩
          intro i hi
          rw [List.mem_append, List.mem_singleton] at hi
          rcases hi with hi | rfl
          · exact h4 i hi
          · exact hlt
        · intro e
          rw [h] at e
          cases e
        · intro td' k' e1 e2 i hi hik
          rw [List.mem_append, List.mem_singleton] at hi
          rcases hi with hi | rfl
          · exact hfirst td' k' e1 e2 i hi hik
          · have : k' = k := by
              rw [h2] at e2
              simpa using e2.symm
            subst this
            exact absurd (hjmax k' hk) (by omega)

theorem assign_spec (dist : α → γ → ℝ) (centroids : List γ) (hc : centroids ≠ []) (rows : List (α × β)) (mini : Option ℕ)
    (acc : List ℕ) :
    ∃ o, assign dist centroids rows mini acc = .ok (acc ++ o) ∧ o.length = rows.length ∧
      ∀ j (hj : j < rows.length), ∃ k c, o[j]? = some k ∧ centroids[k]? = some c ∧
        ∀ i c', centroids[i]? = some c' → dist rows[j].1 c ≤ dist rows[j].1 c' ∧ (i < k → dist rows[j].1 c < dist rows[j].1 c') := by
  induction rows generalizing mini acc with
  | nil => exact ⟨[], by simp [assign], rfl, by simp⟩
  | cons p r ih =>
    obtain ⟨t, y⟩ := p
    have hpos : 0 < centroids.length := List.length_pos_of_ne_nil hc
    obtain ⟨k, hk, h1, h2, h3⟩ := nearest_spec (fun i => ((centroids[i]?).map (dist t)).getD 0)
      (List.range centroids.length) [] (none, mini) (by simp) (fun _ => rfl) (by simpa using hc)
      (by simpa using List.pairwise_lt_range) (by simp)
    rw [List.nil_append, List.mem_range] at hk
    obtain ⟨o, e1, e2, e3⟩ := ih (some k) (acc ++ [k])
    refine ⟨k :: o, ?_, by simp [e2], ?_⟩
    · unfold assign
      rw [h1]
      simp only
      rw [e1]
      simp
    · intro j hj
      cases j with
      | zero =>
        refine ⟨k, centroids[k], rfl, List.getElem?_eq_getElem hk, ?_⟩
        intro i c' hi
        have hil : i < centroids.length := (List.getElem?_eq_some_iff.mp hi).1
        have a1 := h2 i (by simpa using hil)
        have a2 := h3 i (by simpa using hil)
        simp only [List.getElem?_eq_getElem hk, hi, Option.map_some, Option.getD_some] at a1 a2
        exact ⟨a1, a2⟩
      | succ j =>
        obtain ⟨k', c, g1, g2, g3⟩ := e3 j (by simpa using hj)
        exact ⟨k', c, by simpa using g1, g2, g3⟩

/-- C197: with targets for both sets, every training row and every test row lies in exactly one cluster, together with
its own target and in the original order; a test row is put into the cluster of the nearest centroid, the first one of
several. -/
theorem C197_clusters_partial (dist : α → γ → ℝ) (centroids : List γ) (hc : centroids ≠ []) (order : List ℕ) (train test : List α)
    (trainTarget testTarget : List β) (h1 : trainTarget.length = train.length) (h2 : order.length = train.length)
    (h3 : testTarget.length = test.length) :
    ∃ r dt dtt, clusterFeatures dist centroids order train (some trainTarget) (some test) (some testTarget) = .ok r ∧
      r.trainTarget = some dt ∧ r.testTarget = some dtt ∧
      IsSplit train trainTarget r.trainOrder r.trainFeatures dt ∧ r.trainOrder = order ∧
      IsSplit test testTarget r.testOrder r.testFeatures dtt ∧
      ∀ j (hj : j < test.length), ∃ k c, r.testOrder[j]? = some k ∧ centroids[k]? = some c ∧
        ∀ i c', centroids[i]? = some c' → dist test[j] c ≤ dist test[j] c' ∧ (i < k → dist test[j] c < dist test[j] c') := by
  obtain ⟨df, dt, e1, e2⟩ := clusterSplit_spec train trainTarget order h1 h2
  obtain ⟨o, g1, g2, g3⟩ := assign_spec dist centroids hc (test.zip testTarget) none []
  rw [List.nil_append] at g1
  have hzl : (test.zip testTarget).length = test.length := by simp [h3]
  rw [hzl] at g2
  obtain ⟨dtf, dtt, f1, f2⟩ := clusterSplit_spec test testTarget o h3 g2
  refine ⟨⟨order, df, some dt, o, dtf, some dtt⟩, dt, dtt, ?_, rfl, rfl, e2, rfl, f2, ?_⟩
  · unfold clusterFeatures
    rw [e1]
    simp only
    rw [g1]
    simp only
    rw [f1]
  · intro j hj
    obtain ⟨k, c, a1, a2, a3⟩ := g3 j (by rw [hzl]; exact hj)
    refine ⟨k, c, a1, a2, ?_⟩
    simpa using a3

/-- C197 fails without targets or test data, which are optional: TypeError without test data or test targets, ValueError
without training targets. -/
theorem C197_optional_violated (dist : α → γ → ℝ) (centroids : List γ) (order : List ℕ) (train : List α) :
    (∀ (trainTarget : List β) testTarget, trainTarget.length = train.length → order.length = train.length →
      clusterFeatures dist centroids order train (some trainTarget) none testTarget = .error .type) ∧
    (∀ (trainTarget : List β) test, trainTarget.length = train.length → order.length = train.length →
      clusterFeatures dist centroids order train (some trainTarget) test none = .error .type) ∧
    (train ≠ [] → order ≠ [] → ∀ test testTarget,
      clusterFeatures (β := β) dist centroids order train none test testTarget = .error .value) := by
  refine ⟨fun t tt h1 h2 => ?_, fun t test h1 h2 => ?_, fun h1 h2 test tt => ?_⟩
  · unfold clusterFeatures clusterSplit
    rfl
  · unfold clusterFeatures clusterSplit
    cases test <;> rfl
  · unfold clusterFeatures clusterSplit
    simp [h1, h2]

/-- Five rows in two clusters, three test rows. -/
example : ∃ r, clusterFeatures (β := ℕ) (fun (x c : ℝ) => |x - c|) [0, 10] [0, 1, 0, 1, 0] [1, 9, 2, 11, 0] (some [5, 6, 7, 8, 9])
    (some [1, 8, 5]) (some [1, 2, 3]) = .ok r := by
  obtain ⟨r, -, -, h, -⟩ := C197_clusters_partial (β := ℕ) (fun (x c : ℝ) => |x - c|) [0, 10] (by simp) [0, 1, 0, 1, 0] [1, 9, 2, 11, 0]
    [1, 8, 5] [5, 6, 7, 8, 9] [1, 2, 3] rfl rfl rfl
  exact ⟨r, h⟩

end CatLearn.Clustering
