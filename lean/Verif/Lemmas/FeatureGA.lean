import Verif.Model.FeatureGA
import Verif.Lemmas.Py
import Mathlib.Data.List.Forall2
import Mathlib.Data.List.Perm.Basic
import Mathlib.Tactic.Linarith

/-! Lemmas about the loops of `GAFeatureSelection`. -/

namespace CatLearn.FeatureGA

open CatLearn

/-- `n` different features out of `T`. -/
def Chrom (n T : ℕ) (c : List ℕ) : Prop := c.length = n ∧ c.Nodup ∧ ∀ g ∈ c, g < T

theorem Chrom.perm {n T : ℕ} {c d : List ℕ} (h : Chrom n T c) (p : d.Perm c) : Chrom n T d :=
  ⟨p.length_eq.trans h.1, p.nodup_iff.mpr h.2.1, fun g hg => h.2.2 g (p.mem_iff.mp hg)⟩

theorem forall₂_set {α β : Type} {R : α → β → Prop} {l : List α} {l' : List β} (h : List.Forall₂ R l l') (i : ℕ)
    (a : α) (ha : ∀ b, l'[i]? = some b → R a b) : List.Forall₂ R (l.set i a) l' := by
  induction h generalizing i with
  | nil => simp
  | @cons x y xs ys hxy hr ih =>
    cases i with
    | zero => exact .cons (ha y (by simp)) hr
    | succ i => exact .cons hxy (ih i fun b hb => ha b (by simpa using hb))

theorem forall₂_get {α β : Type} {R : α → β → Prop} {l : List α} {l' : List β} (h : List.Forall₂ R l l') {i : ℕ}
    {a : α} (ha : l[i]? = some a) : ∃ b, l'[i]? = some b ∧ R a b := by
  induction h generalizing i with
  | nil => simp at ha
  | @cons x y xs ys hxy hr ih =>
    cases i with
    | zero => simp at ha; exact ⟨y, by simp, ha ▸ hxy⟩
    | succ i => simpa using ih (by simpa using ha)

theorem forall₂_refl_perm (l : List (List ℕ)) : List.Forall₂ List.Perm l l := by
  induction l with
  | nil => exact .nil
  | cons a l ih => exact .cons (List.Perm.refl _) ih

/-- What one round of mating does. -/
theorem mateStep_spec {r : Rng} {N n : ℕ} (hr : r.Ok N n) {c i : ℕ} {s : List (List ℕ) × List (List ℕ)}
    {ps0 : List (List ℕ)} (h0 : List.Forall₂ List.Perm s.1 ps0) (hi : i + i < s.1.length) :
    ∃ (ps' : List (List ℕ)) (a b : List ℕ), mateStep r c i s = .ok (ps', s.2 ++ [a.take c ++ b.drop c]) ∧ List.Forall₂ List.Perm ps' ps0 ∧
      (∃ a', ps0[i]? = some a' ∧ a.Perm a') ∧ (∃ b', ps0[i + i]? = some b' ∧ b.Perm b') ∧ (i = 0 → a = b) := by
  obtain ⟨p1, hp1⟩ : ∃ p1, s.1[i]? = some p1 := ⟨s.1[i], List.getElem?_eq_getElem (by omega)⟩
  have hps : List.Forall₂ List.Perm (s.1.set i (r.shuffle i false p1)) ps0 := by
    refine forall₂_set h0 _ _ fun b hb => ?_
    obtain ⟨b', hb', hp⟩ := forall₂_get h0 hp1
    rw [hb] at hb'
    injection hb' with hb'
    subst hb'
    exact (hr.shuffle _ _ _).trans hp
  obtain ⟨p2, hp2⟩ : ∃ p2, (s.1.set i (r.shuffle i false p1))[i + i]? = some p2 :=
    ⟨(s.1.set i (r.shuffle i false p1))[i + i]'(by simpa using hi), List.getElem?_eq_getElem _⟩
  have hps' : List.Forall₂ List.Perm ((s.1.set i (r.shuffle i false p1)).set (i + i) (r.shuffle i true p2)) ps0 := by
    refine forall₂_set hps _ _ fun b hb => ?_
    obtain ⟨b', hb', hp⟩ := forall₂_get hps hp2
    rw [hb] at hb'
    injection hb' with hb'
    subst hb'
    exact (hr.shuffle _ _ _).trans hp
  set ps' := (s.1.set i (r.shuffle i false p1)).set (i + i) (r.shuffle i true p2) with hdef
  have hl : ps'.length = s.1.length := by simp [hdef]
  have ha : ps'[i]? = some (ps'.getD i []) := by
    rw [List.getD_eq_getElem?_getD, List.getElem?_eq_getElem (by omega)]; rfl
  have hb : ps'[i + i]? = some (ps'.getD (i + i) []) := by
    rw [List.getD_eq_getElem?_getD, List.getElem?_eq_getElem (by omega)]; rfl
  refine ⟨ps', ps'.getD i [], ps'.getD (i + i) [], ?_, hps', ?_, ?_, ?_⟩
  · unfold mateStep
    simp only [hp1, hp2]
    rw [hdef]
  · exact forall₂_get hps' ha
  · exact forall₂_get hps' hb
  · rintro rfl
    rfl

theorem mateStep_err {r : Rng} {c i : ℕ} {s : List (List ℕ) × List (List ℕ)} (hi : s.1.length ≤ i + i) :
    mateStep r c i s = .error .index := by
  unfold mateStep
  split
  · rfl
  · rename_i p1 hp1
    have : (s.1.set i (r.shuffle i false p1))[i + i]? = none := by
      rw [List.getElem?_eq_none_iff]; simpa using hi
    simp only [this]

/-- A list of features of the right length, possibly with repetitions. -/
def Raw (n T : ℕ) (c : List ℕ) : Prop := c.length = n ∧ ∀ g ∈ c, g < T

theorem raw_mix {n T c : ℕ} {a b a' b' : List ℕ} (ha : a.Perm a') (hb : b.Perm b') (ca : Chrom n T a')
    (cb : Chrom n T b') (hc : c ≤ n) : Raw n T (a.take c ++ b.drop c) := by
  have ha := ca.perm ha
  have hb := cb.perm hb
  refine ⟨?_, ?_⟩
  · rw [List.length_append, List.length_take, List.length_drop, ha.1, hb.1]; omega
  · intro g hg
    rcases List.mem_append.mp hg with h | h
    · exact ha.2.2 g (List.mem_of_mem_take h)
    · exact hb.2.2 g (List.mem_of_mem_drop h)

theorem mateLoop_spec {r : Rng} {N n T : ℕ} (hr : r.Ok N n) {c : ℕ} (hc : c ≤ n) {ps0 : List (List ℕ)}
    (hv : ∀ p ∈ ps0, Chrom n T p) (k i : ℕ) (s : List (List ℕ) × List (List ℕ))
    (h0 : List.Forall₂ List.Perm s.1 ps0) (hoff : ∀ o ∈ s.2, Raw n T o) (hk : k = 0 ∨ (i + k - 1) + (i + k - 1) < ps0.length) :
    ∃ ps' off, mateLoop r c k i s = .ok (ps', s.2 ++ off) ∧ List.Forall₂ List.Perm ps' ps0 ∧ off.length = k ∧
      (∀ o ∈ s.2 ++ off, Raw n T o) ∧
      (i = 0 → 0 < k → ∃ o rest, off = o :: rest ∧ ∃ a', ps0[0]? = some a' ∧ o.Perm a') := by
  induction k generalizing i s with
  | zero => exact ⟨s.1, [], by simp [mateLoop], h0, rfl, by simpa using hoff, fun _ h => absurd h (by omega)⟩
  | succ k ih =>
    have hlen : s.1.length = ps0.length := h0.length_eq
    have hi : i + i < s.1.length := by omega
    obtain ⟨ps', a, b, hs, hf, ⟨a', ha', hpa⟩, ⟨b', hb', hpb⟩, hab⟩ := mateStep_spec (c := c) hr h0 hi
    have hraw : Raw n T (a.take c ++ b.drop c) :=
      raw_mix hpa hpb (hv _ (List.mem_of_getElem? ha')) (hv _ (List.mem_of_getElem? hb')) hc
    have hoff' : ∀ o ∈ s.2 ++ [a.take c ++ b.drop c], Raw n T o := by
      intro o ho
      rcases List.mem_append.mp ho with h | h
      · exact hoff o h
      · rw [List.mem_singleton.mp h]; exact hraw
    obtain ⟨ps'', off, hl, hf', hlo, hall, -⟩ := ih (i + 1) (ps', s.2 ++ [a.take c ++ b.drop c]) hf hoff' (by omega)
    refine ⟨ps'', (a.take c ++ b.drop c) :: off, ?_, hf', by simp [hlo], ?_, ?_⟩
    · unfold mateLoop
      rw [hs]
      simp only [hl]
      simp
    · simpa [List.append_assoc] using hall
    · rintro rfl -
      refine ⟨_, _, rfl, a', ha', ?_⟩
      rw [← hab rfl, List.take_append_drop]
      exact hpa

theorem mateLoop_err {r : Rng} {N n : ℕ} (hr : r.Ok N n) {c : ℕ} {ps0 : List (List ℕ)} (k i : ℕ)
    (s : List (List ℕ) × List (List ℕ)) (h0 : List.Forall₂ List.Perm s.1 ps0) (hk : 0 < k)
    (h : ps0.length ≤ (i + k - 1) + (i + k - 1)) : mateLoop r c k i s = .error .index := by
  induction k generalizing i s with
  | zero => omega
  | succ k ih =>
    have hlen : s.1.length = ps0.length := h0.length_eq
    unfold mateLoop
    by_cases hi : i + i < s.1.length
    · obtain ⟨ps', a, b, hs, hf, -⟩ := mateStep_spec (c := c) hr h0 hi
      rw [hs]
      exact ih (i + 1) _ hf (by omega) (by omega)
    · rw [mateStep_err (by omega)]

theorem length_cands {T : ℕ} {c : List ℕ} (hc : ∀ g ∈ c, g < T) :
    ((List.range T).filter (· ∉ c)).length + c.dedup.length = T := by
  have hp : ((List.range T).filter (· ∈ c)).Perm c.dedup := by
    rw [List.perm_ext_iff_of_nodup (List.nodup_range.filter _) (List.nodup_dedup c)]
    intro g
    simp only [List.mem_filter, List.mem_range, decide_eq_true_eq, List.mem_dedup]
    exact ⟨fun h => h.2, fun h => ⟨hc g h, h⟩⟩
  have := List.length_eq_length_filter_add (l := List.range T) (fun g => decide (g ∈ c))
  rw [List.length_range, hp.length_eq] at this
  have e : (List.range T).filter (· ∉ c) = (List.range T).filter fun g => !decide (g ∈ c) := by
    congr 1
    funext g
    simp
  rw [e]
  omega

theorem fixDuplicate_spec {r : Rng} {N n T : ℕ} (hr : r.Ok N n) (hn : n ≤ T) (i : ℕ) {c : List ℕ} (hc : Raw n T c) :
    ∃ c', fixDuplicate r T i c = .ok c' ∧ Chrom n T c' ∧ (c.Nodup → c' = c) ∧ ∀ g ∈ c, g ∈ c' := by
  unfold fixDuplicate
  by_cases hd : c.length = c.dedup.length
  · have hnd : c.Nodup := by
      rw [← List.dedup_eq_self]
      exact (List.dedup_sublist c).eq_of_length hd.symm
    rw [if_pos hd]
    exact ⟨c, rfl, ⟨hc.1, hnd, hc.2⟩, fun _ => rfl, fun _ h => h⟩
  · rw [if_neg hd]
    have hle : c.dedup.length ≤ c.length := (List.dedup_sublist c).length_le
    have hl := length_cands hc.2
    have hc1 := hc.1
    have hk : ¬ ((List.range T).filter (· ∉ c)).length < c.length - c.dedup.length := by omega
    simp only
    rw [if_neg hk]
    obtain ⟨h1, h2, h3⟩ := hr.choice i ((List.range T).filter (· ∉ c)) (c.length - c.dedup.length)
      (List.nodup_range.filter _) (by omega)
    have hs := hr.setOrder c
    refine ⟨_, rfl, ⟨?_, ?_, ?_⟩, ?_, ?_⟩
    · rw [List.length_append, hs.length_eq, h2]; omega
    · rw [List.nodup_append]
      refine ⟨hs.nodup_iff.mpr (List.nodup_dedup c), h1, ?_⟩
      intro a ha b hb hab
      subst hab
      have hac : a ∈ c := List.mem_dedup.mp (hs.mem_iff.mp ha)
      have := h3 a hb
      simp [hac] at this
    · intro g hg
      rcases List.mem_append.mp hg with h | h
      · exact hc.2 g (List.mem_dedup.mp (hs.mem_iff.mp h))
      · have := h3 g h
        simp at this
        exact this.1
    · intro hnd
      exact absurd (by rw [List.dedup_eq_self.mpr hnd]) hd
    · intro g hg
      exact List.mem_append_left _ (hs.mem_iff.mpr (List.mem_dedup.mpr hg))

theorem fixDuplicates_spec {r : Rng} {N n T : ℕ} (hr : r.Ok N n) (hn : n ≤ T) (i : ℕ) (cs : List (List ℕ))
    (hc : ∀ c ∈ cs, Raw n T c) :
    ∃ cs', fixDuplicates r T i cs = .ok cs' ∧ (∀ c ∈ cs', Chrom n T c) ∧
      List.Forall₂ (fun c' c => (c.Nodup → c' = c) ∧ ∀ g ∈ c, g ∈ c') cs' cs := by
  induction cs generalizing i with
  | nil => exact ⟨[], rfl, by simp, .nil⟩
  | cons c cs ih =>
    obtain ⟨c', h1, h2, h3, h4⟩ := fixDuplicate_spec hr hn i (hc c (by simp))
    obtain ⟨cs', g1, g2, g3⟩ := ih (i + 1) fun d hd => hc d (by simp [hd])
    refine ⟨c' :: cs', ?_, ?_, .cons ⟨h3, h4⟩ g3⟩
    · simp [fixDuplicates, h1, g1]
    · intro d hd
      rcases List.mem_cons.mp hd with rfl | hd
      · exact h2
      · exact g2 d hd

theorem length_lower (k : ℕ) (adj : ℚ) (pop : List Ind) : (lower k adj pop).length = pop.length := by simp [lower]

theorem getFitness_length (score : List ℕ → ℚ) (cs : List (List ℕ)) : (getFitness score cs).length = cs.length := by
  simp [getFitness, (sortDesc_perm _ _).length_eq]

theorem mem_getFitness {score : List ℕ → ℚ} {cs : List (List ℕ)} {x : Ind} :
    x ∈ getFitness score cs ↔ x.genes ∈ cs ∧ x.fit = score x.genes ∧ x.score = score x.genes := by
  unfold getFitness
  rw [(sortDesc_perm _ _).mem_iff, List.mem_map]
  constructor
  · rintro ⟨c, hc, rfl⟩; exact ⟨hc, rfl, rfl⟩
  · rintro ⟨h1, h2, h3⟩
    refine ⟨_, h1, ?_⟩
    cases x
    simp_all

theorem mem_lower {k : ℕ} {adj : ℚ} {pop : List Ind} {y : Ind} (h : y ∈ lower k adj pop) :
    ∃ x ∈ pop, y.genes = x.genes ∧ y.score = x.score ∧ (y.fit = x.fit ∨ y.fit = x.fit * adj) := by
  unfold lower at h
  rw [List.mem_mapIdx] at h
  obtain ⟨i, hi, rfl⟩ := h
  refine ⟨pop[i], List.getElem_mem _, ?_⟩
  by_cases hk : i < k <;> simp [hk]

/-- Everything about a crossover that goes through: the parents with their chromosomes shuffled, the repaired offspring. -/
theorem crossover_spec {r : Rng} {N n T : ℕ} (hr : r.Ok N n) {score : List ℕ → ℚ} {m : ℕ} {pop : List Ind}
    (hne : pop ≠ []) (hv : ∀ x ∈ pop, Chrom n T x.genes) (hm : m + 1 ≤ pop.length)
    (h2 : m = 0 ∨ (m - 1) + (m - 1) < pop.length) :
    ∃ pop1 off', List.Forall₂ (fun y x : Ind => y.genes.Perm x.genes ∧ y.fit = x.fit ∧ y.score = x.score) pop1 pop ∧
      off'.length = m ∧ (∀ c ∈ off', Chrom n T c) ∧
      (0 < m → ∃ o ∈ off', ∃ x0, pop[0]? = some x0 ∧ o.Perm x0.genes) ∧
      crossover score m T r pop = .ok (sortDesc Ind.fit
        ((lower (m + 1) (percentile 75 (pop1.map Ind.score)) pop1).take (pop.length - m) ++ getFitness score off')) := by
  obtain ⟨p0, rest, rfl⟩ : ∃ p0 rest, pop = p0 :: rest := by
    cases pop with
    | nil => exact absurd rfl hne
    | cons a l => exact ⟨a, l, rfl⟩
  have hp0 := hv p0 (by simp)
  have hn : n ≤ T := by
    have h := length_cands hp0.2.2
    rw [List.dedup_eq_self.mpr hp0.2.1, hp0.1] at h
    omega
  have hv' : ∀ p ∈ (p0 :: rest).map Ind.genes, Chrom n T p := by
    intro p hp
    obtain ⟨x, hx, rfl⟩ := List.mem_map.mp hp
    exact hv x hx
  obtain ⟨ps', off, hl, hf, hlo, hraw, hfirst⟩ := mateLoop_spec (c := p0.genes.length / 2) hr
    (by rw [hp0.1]; omega) hv' m 0 ((p0 :: rest).map Ind.genes, []) (forall₂_refl_perm _) (by simp)
    (by simp only [List.length_map]; omega)
  simp only [List.nil_append] at hl hraw
  obtain ⟨off', hfix, hch, hsame⟩ := fixDuplicates_spec hr hn 0 off hraw
  have hloff : off'.length = m := hsame.length_eq.trans hlo
  have hz : List.Forall₂ (fun y x : Ind => y.genes.Perm x.genes ∧ y.fit = x.fit ∧ y.score = x.score)
      (List.zipWith (fun (x : Ind) g => ({ x with genes := g } : Ind)) (p0 :: rest) ps') (p0 :: rest) := by
    clear hl hfirst hv hv' hm h2 hne hp0 hn
    generalize (p0 :: rest) = pop at hf
    induction pop generalizing ps' with
    | nil => simp
    | cons x xs ih =>
      simp only [List.map_cons] at hf
      cases hf with
      | cons h1 h2 => exact .cons ⟨h1, rfl, rfl⟩ (ih _ h2)
  refine ⟨_, off', hz, hloff, hch, ?_, ?_⟩
  · intro hm0
    obtain ⟨o, rest', rfl, a', ha', hpo⟩ := hfirst rfl hm0
    simp at ha'
    subst ha'
    have hnd : o.Nodup := hpo.nodup_iff.mpr hp0.2.1
    cases hsame with
    | @cons o' _ os _ h1 h2 =>
      refine ⟨o', by simp, p0, by simp, ?_⟩
      rw [h1.1 hnd]
      exact hpo
  · have hlen := hz.length_eq
    unfold crossover
    simp only [hl, hfix]
    rw [if_neg (by rw [hlen, hloff]; omega)]
    simp only [length_lower, getFitness_length, hlen, hloff]

theorem crossover_parents_err {r : Rng} {N n T : ℕ} (hr : r.Ok N n) {score : List ℕ → ℚ} {m : ℕ} {pop : List Ind}
    (hm : 0 < m) (h2 : pop.length ≤ (m - 1) + (m - 1)) : crossover score m T r pop = .error .index := by
  cases pop with
  | nil => rfl
  | cons p0 rest =>
    unfold crossover
    simp only
    rw [mateLoop_err hr m 0 _ (forall₂_refl_perm _) hm (by simpa using h2)]

theorem crossover_ok_inv {r : Rng} {N n T : ℕ} (hr : r.Ok N n) {score : List ℕ → ℚ} {m : ℕ} {pop pop' : List Ind}
    (hv : ∀ x ∈ pop, Chrom n T x.genes) (h : crossover score m T r pop = .ok pop') :
    pop ≠ [] ∧ m + 1 ≤ pop.length ∧ (m = 0 ∨ (m - 1) + (m - 1) < pop.length) := by
  have hne : pop ≠ [] := by rintro rfl; simp [crossover] at h
  have h2 : m = 0 ∨ (m - 1) + (m - 1) < pop.length := by
    by_contra hc
    rw [crossover_parents_err hr (by omega) (by omega)] at h
    cases h
  refine ⟨hne, ?_, h2⟩
  by_contra hm
  obtain ⟨p0, rest, rfl⟩ : ∃ p0 rest, pop = p0 :: rest := by
    cases pop with
    | nil => exact absurd rfl hne
    | cons a l => exact ⟨a, l, rfl⟩
  have hp0 := hv p0 (by simp)
  have hn : n ≤ T := by
    have h := length_cands hp0.2.2
    rw [List.dedup_eq_self.mpr hp0.2.1, hp0.1] at h
    omega
  have hv' : ∀ p ∈ (p0 :: rest).map Ind.genes, Chrom n T p := by
    intro p hp
    obtain ⟨x, hx, rfl⟩ := List.mem_map.mp hp
    exact hv x hx
  obtain ⟨ps', off, hl, hf, hlo, hraw, -⟩ := mateLoop_spec (c := p0.genes.length / 2) hr
    (by rw [hp0.1]; omega) hv' m 0 ((p0 :: rest).map Ind.genes, []) (forall₂_refl_perm _) (by simp)
    (by simp only [List.length_map]; omega)
  simp only [List.nil_append] at hl hraw
  obtain ⟨off', hfix, -, hsame⟩ := fixDuplicates_spec hr hn 0 off hraw
  have hloff : off'.length = m := hsame.length_eq.trans hlo
  unfold crossover at h
  simp only [hl, hfix] at h
  rw [if_pos] at h
  · cases h
  · have := hf.length_eq
    simp only [List.length_map] at this
    rw [List.length_zipWith, this, hloff]
    omega

/-- What one mutation does. -/
theorem mutateStep_inv {N n T : ℕ} {r : Rng} (hr : r.Ok N n) {j : ℕ} {pop pop' : List Ind}
    (h : mutateStep N n T r j pop = .ok pop') :
    ∃ x g, pop[r.genePos j]? = some x ∧ r.chromPos j < x.genes.length ∧ g < T ∧ g ∉ x.genes ∧
      pop' = pop.set (r.genePos j) { x with genes := x.genes.set (r.chromPos j) g } := by
  unfold mutateStep at h
  split at h
  · cases h
  · split at h
    · cases h
    · rename_i x hx
      split at h
      · cases h
      · simp only at h
        split at h
        · cases h
        · rename_i hc
          split at h
          · cases h
          · rename_i hl
            injection h with h
            have := hr.newGene j _ hc
            rw [List.mem_filter, List.mem_range] at this
            exact ⟨x, _, hx, by omega, this.1, by simpa using this.2, h.symm⟩

theorem chrom_set {n T : ℕ} {c : List ℕ} (h : Chrom n T c) {i g : ℕ} (hg : g < T) (hc : g ∉ c) :
    Chrom n T (c.set i g) := by
  refine ⟨by simp [h.1], ?_, ?_⟩
  · rw [List.nodup_iff_injective_getElem]
    have := List.nodup_iff_injective_getElem.mp h.2.1
    intro a b hab
    simp only [List.getElem_set] at hab
    have ha : a.1 < c.length := by simpa using a.2
    have hb : b.1 < c.length := by simpa using b.2
    have hinj : ∀ (x y : ℕ) (hx : x < c.length) (hy : y < c.length), c[x] = c[y] → x = y := by
      intro x y hx hy e
      have := @this ⟨x, hx⟩ ⟨y, hy⟩ e
      simpa using this
    split at hab <;> split at hab
    · rename_i h1 h2; ext; omega
    · exact absurd (hab ▸ List.getElem_mem hb) hc
    · exact absurd (hab ▸ List.getElem_mem ha) hc
    · ext; exact hinj _ _ ha hb hab
  · intro x hx
    rcases List.mem_or_eq_of_mem_set hx with h' | rfl
    · exact h.2.2 x h'
    · exact hg

end CatLearn.FeatureGA
