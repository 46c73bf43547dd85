import Verif.Lemmas.FeatureGA
import Mathlib.Data.List.MinMax
import Mathlib.Data.List.GetD
import Mathlib.Tactic.NormNum
import Mathlib.Tactic.FieldSimp
import Mathlib.Tactic.Positivity
import Mathlib.Tactic.Ring

/-!
C184-C187: feature selection with the genetic algorithm of `GAFeatureSelection`.
-/

namespace CatLearn.FeatureGA

open CatLearn

/-! ### C184: every generation has valid chromosomes -/

theorem crossover_valid {r : Rng} {N n T : ℕ} (hr : r.Ok N n) {score : List ℕ → ℚ} {m : ℕ} {pop pop' : List Ind}
    (hv : ∀ x ∈ pop, Chrom n T x.genes) (h : crossover score m T r pop = .ok pop') :
    pop'.length = pop.length ∧ ∀ x ∈ pop', Chrom n T x.genes := by
  obtain ⟨hne, hm, h2⟩ := crossover_ok_inv hr hv h
  obtain ⟨pop1, off', hf, hlo, hch, -, he⟩ := crossover_spec (score := score) hr hne hv hm h2
  rw [he] at h
  injection h with h
  subst h
  have hl1 := hf.length_eq
  constructor
  · rw [(sortDesc_perm _ _).length_eq, List.length_append, List.length_take, length_lower, getFitness_length, hl1, hlo]
    omega
  · intro x hx
    rw [(sortDesc_perm _ _).mem_iff, List.mem_append] at hx
    rcases hx with hx | hx
    · obtain ⟨y, hy, hg, -, -⟩ := mem_lower (List.mem_of_mem_take hx)
      obtain ⟨i, hi⟩ := List.mem_iff_getElem?.mp hy
      obtain ⟨z, hz, hp, -, -⟩ := forall₂_get hf hi
      rw [hg]
      exact (hv z (List.mem_of_getElem? hz)).perm hp
    · exact hch _ (mem_getFitness.mp hx).1

theorem mutateStep_valid {N n T : ℕ} {r : Rng} (hr : r.Ok N n) {j : ℕ} {pop pop' : List Ind}
    (hv : ∀ x ∈ pop, Chrom n T x.genes) (h : mutateStep N n T r j pop = .ok pop') :
    pop'.length = pop.length ∧ ∀ x ∈ pop', Chrom n T x.genes := by
  obtain ⟨x, g, hx, -, hg, hc, rfl⟩ := mutateStep_inv hr h
  refine ⟨by simp, fun y hy => ?_⟩
  rcases List.mem_or_eq_of_mem_set hy with h' | rfl
  · exact hv y h'
  · exact chrom_set (hv x (List.mem_of_getElem? hx)) hg hc

theorem mutateLoop_valid {N n T : ℕ} {r : Rng} (hr : r.Ok N n) (k j : ℕ) {pop pop' : List Ind}
    (hv : ∀ x ∈ pop, Chrom n T x.genes) (h : mutateLoop N n T r k j pop = .ok pop') :
    pop'.length = pop.length ∧ ∀ x ∈ pop', Chrom n T x.genes := by
  induction k generalizing j pop with
  | zero => simp only [mutateLoop] at h; injection h with h; subst h; exact ⟨rfl, hv⟩
  | succ k ih =>
    unfold mutateLoop at h
    split at h
    · cases h
    · rename_i p hp
      obtain ⟨h1, h2⟩ := mutateStep_valid hr hv hp
      obtain ⟨h3, h4⟩ := ih (j + 1) h2 h
      exact ⟨h3.trans h1, h4⟩

/-- C184: whatever the draws, after any number of generations the population has the size it started with and every
chromosome consists of `n` different features of the data. -/
theorem C184_valid {score : List ℕ → ℚ} {m N n T : ℕ} {r : ℕ → Rng} (hr : ∀ i, (r i).Ok N n) (k : ℕ)
    {pop pop' : List Ind} (hv : ∀ x ∈ pop, x.genes.length = n ∧ x.genes.Nodup ∧ ∀ g ∈ x.genes, g < T)
    (h : evolve score m N n T r k pop = .ok pop') :
    pop'.length = pop.length ∧ ∀ x ∈ pop', x.genes.length = n ∧ x.genes.Nodup ∧ ∀ g ∈ x.genes, g < T := by
  induction k generalizing pop' with
  | zero => simp only [evolve] at h; injection h with h; subst h; exact ⟨rfl, hv⟩
  | succ k ih =>
    unfold evolve at h
    split at h
    · cases h
    · rename_i p hp
      obtain ⟨h1, h2⟩ := ih hp
      unfold generation at h
      split at h
      · cases h
      · rename_i q hq
        obtain ⟨h3, h4⟩ := crossover_valid (hr k) h2 hq
        obtain ⟨h5, h6⟩ := mutateLoop_valid (hr k) _ _ h4 h
        exact ⟨h5.trans (h3.trans h1), h6⟩

/-- C184: the starting population: `min N (T choose n)` chromosomes, all valid, no two with the same features. -/
theorem C184_initial (score : List ℕ → ℚ) (T n N : ℕ) (sh : List (List ℕ) → List (List ℕ)) (hs : ∀ l, (sh l).Perm l) :
    (getFitness score (randomGenes T n N sh)).length = min N (T.choose n) ∧
      (∀ x ∈ getFitness score (randomGenes T n N sh), x.genes.length = n ∧ x.genes.Nodup ∧ (∀ g ∈ x.genes, g < T) ∧
        x.fit = score x.genes ∧ x.score = score x.genes) ∧
      ((getFitness score (randomGenes T n N sh)).map fun x => x.genes.toFinset).Nodup := by
  have hmem : ∀ c ∈ randomGenes T n N sh, c.Sublist (List.range T) ∧ c.length = n := by
    intro c hc
    have := (hs _).mem_iff.mp (List.mem_of_mem_take hc)
    exact List.mem_sublistsLen.mp this
  refine ⟨?_, ?_, ?_⟩
  · rw [getFitness_length, randomGenes, List.length_take, (hs _).length_eq, List.length_sublistsLen, List.length_range]
  · intro x hx
    obtain ⟨hc, h1, h2⟩ := mem_getFitness.mp hx
    obtain ⟨hsub, hl⟩ := hmem _ hc
    exact ⟨hl, List.nodup_range.sublist hsub, fun g hg => List.mem_range.mp (hsub.subset hg), h1, h2⟩
  · have hnd : (randomGenes T n N sh).Nodup := by
      refine List.Nodup.sublist (List.take_sublist _ _) ?_
      rw [(hs _).nodup_iff]
      exact List.nodup_sublistsLen n List.nodup_range
    have hp : ((getFitness score (randomGenes T n N sh)).map fun x => x.genes.toFinset).Perm
        ((randomGenes T n N sh).map fun c => c.toFinset) := by
      unfold getFitness
      have := (sortDesc_perm Ind.fit ((randomGenes T n N sh).map fun c => (⟨c, score c, score c⟩ : Ind))).map
        fun x => x.genes.toFinset
      simpa [List.map_map, Function.comp_def] using this
    rw [hp.nodup_iff]
    refine (List.nodup_map_iff_inj_on hnd).mpr ?_
    intro a ha b hb hab
    have h1 := (hmem a ha).1
    have h2 := (hmem b hb).1
    have hab' : a.Perm b := by
      rw [List.perm_ext_iff_of_nodup (List.nodup_range.sublist h1) (List.nodup_range.sublist h2)]
      intro g
      have := Finset.ext_iff.mp hab g
      simpa using this
    have hsa : a.Pairwise (· < ·) := List.pairwise_lt_range.sublist h1
    have hsb : b.Pairwise (· < ·) := List.pairwise_lt_range.sublist h2
    exact hab'.eq_of_pairwise (fun x y _ _ hxy hyx => absurd hxy (by omega)) hsa hsb

theorem mutateStep_ok {N n T : ℕ} {r : Rng} (hr : r.Ok N n) {j : ℕ} {pop : List Ind} (hN : pop.length = N)
    (h0 : 0 < N) (hn : 0 < n) (hT : n < T) (hv : ∀ x ∈ pop, Chrom n T x.genes) :
    ∃ pop', mutateStep N n T r j pop = .ok pop' := by
  have hp : r.genePos j < pop.length := hN ▸ hr.genePos j h0
  have hx := hv pop[r.genePos j] (List.getElem_mem _)
  have hc : (List.range T).filter (· ∉ pop[r.genePos j].genes) ≠ [] := by
    intro he
    have h := length_cands hx.2.2
    rw [he, List.dedup_eq_self.mpr hx.2.1, hx.1] at h
    simp at h
    omega
  have hq := hr.chromPos j hn
  unfold mutateStep
  rw [if_neg (by omega), List.getElem?_eq_getElem hp]
  simp only
  rw [if_neg (by omega), if_neg hc, if_neg (by rw [hx.1]; omega)]
  exact ⟨_, rfl⟩

theorem mutateLoop_ok {N n T : ℕ} {r : Rng} (hr : r.Ok N n) (k j : ℕ) {pop : List Ind} (hN : pop.length = N)
    (h0 : 0 < N) (hn : 0 < n) (hT : n < T) (hv : ∀ x ∈ pop, Chrom n T x.genes) :
    ∃ pop', mutateLoop N n T r k j pop = .ok pop' := by
  induction k generalizing j pop with
  | zero => exact ⟨pop, rfl⟩
  | succ k ih =>
    obtain ⟨p, hp⟩ := mutateStep_ok (j := j) hr hN h0 hn hT hv
    obtain ⟨h1, h2⟩ := mutateStep_valid hr hv hp
    obtain ⟨q, hq⟩ := ih (j + 1) (h1.trans hN) h2
    exact ⟨q, by simp [mutateLoop, hp, hq]⟩

/-- C184: a run over any number of generations goes through if the population has the announced size, at least one feature
is to be selected and one is left over, and the offspring are not too many: `m + 1` parents at least, and, since parent
`i` is mated with parent `2 i`, more than `2 (m - 1)`. -/
theorem C184_no_error_partial {score : List ℕ → ℚ} {m N n T : ℕ} {r : ℕ → Rng} (hr : ∀ i, (r i).Ok N n) (k : ℕ)
    {pop : List Ind} (hv : ∀ x ∈ pop, x.genes.length = n ∧ x.genes.Nodup ∧ ∀ g ∈ x.genes, g < T) (hN : pop.length = N)
    (hn : 0 < n) (hT : n < T) (hm : m + 1 ≤ N) (h2 : m = 0 ∨ 2 * (m - 1) < N) :
    ∃ pop', evolve score m N n T r k pop = .ok pop' := by
  induction k with
  | zero => exact ⟨pop, rfl⟩
  | succ k ih =>
    obtain ⟨p, hp⟩ := ih
    obtain ⟨h1, h3⟩ := C184_valid hr k hv hp
    have hlen : p.length = N := h1.trans hN
    have hne : p ≠ [] := by rintro rfl; simp at hlen; omega
    obtain ⟨pop1, off', -, -, -, -, he⟩ :=
      crossover_spec (score := score) (hr k) hne h3 (by omega) (by omega : m = 0 ∨ (m - 1) + (m - 1) < p.length)
    obtain ⟨h4, h5⟩ := crossover_valid (hr k) h3 he
    obtain ⟨q, hq⟩ := mutateLoop_ok (hr k) _ 0 (h4.trans hlen) (by omega) hn hT h5
    refine ⟨q, ?_⟩
    simp only [evolve, hp, generation, he]
    exact hq

/-- C184 fails for more offspring than about half of the population, although the description asks for `m + 1` parents
only: parent `2 (m - 1)` does not exist. -/
theorem C184_parents_violated {score : List ℕ → ℚ} {m N n T : ℕ} {r : ℕ → Rng} (hr : ∀ i, (r i).Ok N n) (k : ℕ)
    {pop : List Ind} (hm : 0 < m) (h2 : pop.length ≤ 2 * (m - 1)) :
    evolve score m N n T r (k + 1) pop = .error .index := by
  induction k with
  | zero =>
    simp only [evolve, generation]
    rw [crossover_parents_err (hr 0) hm (by omega)]
  | succ k ih =>
    unfold evolve
    rw [ih]

/-- C184 fails if there are fewer combinations of features than the announced population size: `mutate` draws a position
from the announced size. -/
theorem C184_size_violated {N n T : ℕ} {r : Rng} {pop : List Ind} (h0 : 0 < pop.length * r.percent / 100)
    (hp : pop.length ≤ r.genePos 0) (hN : r.genePos 0 < N) : mutate N n T r pop = .error .index := by
  unfold mutate
  obtain ⟨k, hk⟩ := Nat.exists_eq_succ_of_ne_zero h0.ne'
  rw [hk]
  unfold mutateLoop mutateStep
  rw [if_neg (by omega), List.getElem?_eq_none_iff.mpr hp]

/-! ### C185: recorded scores -/

/-- C185: after a crossover every recorded score is still the score of the features it is recorded with (in one of their
orders: the parents are shuffled in place). -/
theorem C185_crossover_partial {r : Rng} {N n T : ℕ} (hr : r.Ok N n) {score : List ℕ → ℚ} {m : ℕ} {pop pop' : List Ind}
    (hv : ∀ x ∈ pop, x.genes.length = n ∧ x.genes.Nodup ∧ ∀ g ∈ x.genes, g < T)
    (hs : ∀ x ∈ pop, ∃ c : List ℕ, c.Perm x.genes ∧ x.score = score c) (h : crossover score m T r pop = .ok pop') :
    ∀ x ∈ pop', ∃ c : List ℕ, c.Perm x.genes ∧ x.score = score c := by
  obtain ⟨hne, hm, h2⟩ := crossover_ok_inv hr hv h
  obtain ⟨pop1, off', hf, hlo, hch, -, he⟩ := crossover_spec (score := score) hr hne hv hm h2
  rw [he] at h
  injection h with h
  subst h
  intro x hx
  rw [(sortDesc_perm _ _).mem_iff, List.mem_append] at hx
  rcases hx with hx | hx
  · obtain ⟨y, hy, hg, hsc, -⟩ := mem_lower (List.mem_of_mem_take hx)
    obtain ⟨i, hi⟩ := List.mem_iff_getElem?.mp hy
    obtain ⟨z, hz, hp, -, hsc'⟩ := forall₂_get hf hi
    obtain ⟨c, hc, he⟩ := hs z (List.mem_of_getElem? hz)
    exact ⟨c, hc.trans (hg ▸ hp.symm), by rw [hsc, hsc', he]⟩
  · obtain ⟨-, -, h3⟩ := mem_getFitness.mp hx
    exact ⟨x.genes, List.Perm.refl _, h3⟩

/-- C185 fails for `mutate`: every mutation changes the features of a member of the population and leaves the score that
was recorded for the old ones. -/
theorem C185_mutate_violated {N n T : ℕ} {r : Rng} (hr : r.Ok N n) {j : ℕ} {pop pop' : List Ind}
    (h : mutateStep N n T r j pop = .ok pop') :
    ∃ x y : Ind, pop[r.genePos j]? = some x ∧ pop'[r.genePos j]? = some y ∧ y.score = x.score ∧ y.fit = x.fit ∧
      ∃ g ∈ y.genes, g ∉ x.genes := by
  obtain ⟨x, g, hx, hl, -, hc, rfl⟩ := mutateStep_inv hr h
  have hlt : r.genePos j < pop.length := (List.getElem?_eq_some_iff.mp hx).1
  refine ⟨x, { x with genes := x.genes.set (r.chromPos j) g }, hx, by rw [List.getElem?_set_self hlt], rfl, rfl, g, ?_, hc⟩
  exact List.mem_set hl g

/-! ### C186: the best combination is kept -/

theorem percentile_mem {l : List ℚ} (hne : l ≠ []) {a b : ℚ} (h : ∀ x ∈ l, a ≤ x ∧ x ≤ b) :
    a ≤ percentile 75 l ∧ percentile 75 l ≤ b := by
  have hpos : 0 < l.length := List.length_pos_iff.mpr hne
  have hlq : (1 : ℚ) ≤ l.length := by exact_mod_cast hpos
  set s := sortAsc id l with hs
  have hsl : s.length = l.length := (sortAsc_perm _ _).length_eq
  have hsm : ∀ x ∈ s, a ≤ x ∧ x ≤ b := fun x hx => h x ((sortAsc_perm _ _).mem_iff.mp hx)
  set pos : ℚ := 75 / 100 * ((l.length : ℚ) - 1) with hp
  have hp0 : 0 ≤ pos := by rw [hp]; linarith
  set lo := ⌊pos⌋.toNat with hlo
  have hfl : ((lo : ℕ) : ℚ) = ((⌊pos⌋ : ℤ) : ℚ) := by
    have : ((lo : ℕ) : ℤ) = ⌊pos⌋ := Int.toNat_of_nonneg (Int.floor_nonneg.mpr hp0)
    exact_mod_cast this
  have h1 : (lo : ℚ) ≤ pos := by rw [hfl]; exact Int.floor_le pos
  have h2 : pos < (lo : ℚ) + 1 := by rw [hfl]; exact Int.lt_floor_add_one pos
  have hlt : lo < s.length := by
    rw [hsl]
    have : (lo : ℚ) < l.length := by rw [hp] at h1; linarith
    exact_mod_cast this
  have hA : a ≤ s.getD lo 0 ∧ s.getD lo 0 ≤ b := by
    rw [List.getD_eq_getElem _ _ hlt]
    exact hsm _ (List.getElem_mem _)
  have hB : a ≤ s.getD (lo + 1) (s.getD lo 0) ∧ s.getD (lo + 1) (s.getD lo 0) ≤ b := by
    by_cases hlt' : lo + 1 < s.length
    · rw [List.getD_eq_getElem _ _ hlt']
      exact hsm _ (List.getElem_mem _)
    · rw [List.getD_eq_default _ _ (by omega)]
      exact hA
  have e : percentile 75 l = s.getD lo 0 + (pos - lo) * (s.getD (lo + 1) (s.getD lo 0) - s.getD lo 0) := rfl
  rw [e]
  generalize s.getD (lo + 1) (s.getD lo 0) = B at hB
  generalize s.getD lo 0 = A at hA hB
  constructor
  · nlinarith [mul_nonneg (sub_nonneg.mpr h1) (sub_nonneg.mpr hB.1),
      mul_nonneg (by linarith : (0 : ℚ) ≤ 1 - (pos - lo)) (sub_nonneg.mpr hA.1)]
  · nlinarith [mul_nonneg (sub_nonneg.mpr h1) (sub_nonneg.mpr hB.2),
      mul_nonneg (by linarith : (0 : ℚ) ≤ 1 - (pos - lo)) (sub_nonneg.mpr hA.2)]

/-- Scores between 0 and 1, no fitness above the score, and the first member leads in both. -/
def Led (pop : List Ind) : Prop :=
  (∀ x ∈ pop, 0 ≤ x.fit ∧ x.fit ≤ x.score ∧ x.score ≤ 1) ∧
    ∃ x0, pop[0]? = some x0 ∧ x0.fit = x0.score ∧ ∀ x ∈ pop, x.score ≤ x0.score

theorem led_getFitness {score : List ℕ → ℚ} (h01 : ∀ c, 0 ≤ score c ∧ score c ≤ 1) {cs : List (List ℕ)} (hne : cs ≠ []) :
    Led (getFitness score cs) := by
  have hl : 0 < (getFitness score cs).length := by
    rw [getFitness_length]; exact List.length_pos_iff.mpr hne
  refine ⟨?_, ?_⟩
  · intro x hx
    obtain ⟨-, h1, h2⟩ := mem_getFitness.mp hx
    rw [h1, h2]
    exact ⟨(h01 _).1, le_refl _, (h01 _).2⟩
  · have hs := sortDesc_pairwise Ind.fit (cs.map fun c => (⟨c, score c, score c⟩ : Ind))
    change (getFitness score cs).Pairwise _ at hs
    have hm : ∀ x ∈ getFitness score cs, x.fit = x.score := fun x hx => by
      obtain ⟨-, h1, h2⟩ := mem_getFitness.mp hx
      rw [h1, h2]
    generalize getFitness score cs = pop at hl hs hm
    cases pop with
    | nil => simp at hl
    | cons x0 rest =>
      refine ⟨x0, rfl, hm x0 (by simp), fun x hx => ?_⟩
      rcases List.mem_cons.mp hx with rfl | hx'
      · exact le_refl _
      · rw [← hm x hx, ← hm x0 (by simp)]
        exact (List.pairwise_cons.mp hs).1 x hx'

/-- C186: if the scores lie between 0 and 1 and do not depend on the order of the features, a crossover keeps a member
with the features of the leader and its full fitness, so the leader of the next generation is at least as good. -/
theorem C186_crossover_partial {r : Rng} {N n T : ℕ} (hr : r.Ok N n) {score : List ℕ → ℚ}
    (h01 : ∀ c, 0 ≤ score c ∧ score c ≤ 1) (hperm : ∀ c d : List ℕ, c.Perm d → score c = score d) {m : ℕ} (hm : 0 < m)
    {pop pop' : List Ind} (hv : ∀ x ∈ pop, x.genes.length = n ∧ x.genes.Nodup ∧ ∀ g ∈ x.genes, g < T)
    (hs : ∀ x ∈ pop, x.score = score x.genes) (hled : Led pop) (h : crossover score m T r pop = .ok pop') :
    Led pop' ∧ (∀ x ∈ pop', x.score = score x.genes) ∧
      ∃ x0 y, pop[0]? = some x0 ∧ y ∈ pop' ∧ y.genes.Perm x0.genes ∧ y.score = x0.score := by
  have hsc := C185_crossover_partial hr hv (fun x hx => ⟨x.genes, List.Perm.refl _, hs x hx⟩) h
  obtain ⟨hne, hm1, h2⟩ := crossover_ok_inv hr hv h
  obtain ⟨pop1, off', hf, hlo, hch, hcopy, he⟩ := crossover_spec (score := score) hr hne hv hm1 h2
  obtain ⟨o, ho, x0, hx0, hox⟩ := hcopy hm
  obtain ⟨hb, x0', hx0', hlead, hmax⟩ := hled
  rw [hx0] at hx0'
  injection hx0' with hx0'
  subst hx0'
  rw [he] at h
  injection h with h
  have hx0m : x0 ∈ pop := List.mem_of_getElem? hx0
  have hb1 : ∀ y ∈ pop1, 0 ≤ y.fit ∧ y.fit ≤ y.score ∧ y.score ≤ x0.score ∧ y.score ≤ 1 := by
    intro y hy
    obtain ⟨i, hi⟩ := List.mem_iff_getElem?.mp hy
    obtain ⟨z, hz, -, hfit, hsco⟩ := forall₂_get hf hi
    have hz' := List.mem_of_getElem? hz
    have := hb z hz'
    rw [hfit, hsco]
    exact ⟨this.1, this.2.1, hmax z hz', this.2.2⟩
  have hp1 : pop1 ≠ [] := by
    rintro rfl
    have := hf.length_eq
    simp at this
    rw [← this] at hm1
    omega
  have hadj : 0 ≤ percentile 75 (pop1.map Ind.score) ∧ percentile 75 (pop1.map Ind.score) ≤ 1 := by
    apply percentile_mem (by simpa using hp1)
    intro q hq
    obtain ⟨y, hy, rfl⟩ := List.mem_map.mp hq
    have := hb1 y hy
    exact ⟨this.1.trans this.2.1, this.2.2.2⟩
  set y : Ind := ⟨o, score o, score o⟩ with hydef
  have hyo : y ∈ getFitness score off' := mem_getFitness.mpr ⟨ho, rfl, rfl⟩
  have hysc : y.score = x0.score := by
    change score o = x0.score
    rw [hs x0 hx0m]
    exact hperm _ _ hox
  have hmem : ∀ x, x ∈ pop' ↔ x ∈ (lower (m + 1) (percentile 75 (pop1.map Ind.score)) pop1).take (pop.length - m) ∨
      x ∈ getFitness score off' := by
    intro x
    rw [← h, (sortDesc_perm _ _).mem_iff, List.mem_append]
  have hy' : y ∈ pop' := (hmem y).mpr (Or.inr hyo)
  have hall : ∀ x ∈ pop', 0 ≤ x.fit ∧ x.fit ≤ x.score ∧ x.score ≤ 1 ∧ (x.score ≤ x0.score ∨ x.fit = x.score) := by
    intro x hx
    rcases (hmem x).mp hx with hx | hx
    · obtain ⟨z, hz, -, hsco, hfit⟩ := mem_lower (List.mem_of_mem_take hx)
      have hz1 := hb1 z hz
      refine ⟨?_, ?_, by rw [hsco]; exact hz1.2.2.2, Or.inl (by rw [hsco]; exact hz1.2.2.1)⟩
      · rcases hfit with e | e <;> rw [e]
        · exact hz1.1
        · exact mul_nonneg hz1.1 hadj.1
      · rw [hsco]
        rcases hfit with e | e <;> rw [e]
        · exact hz1.2.1
        · exact (mul_le_of_le_one_right hz1.1 hadj.2).trans hz1.2.1
    · obtain ⟨-, e1, e2⟩ := mem_getFitness.mp hx
      rw [e1, e2]
      exact ⟨(h01 _).1, le_refl _, (h01 _).2, Or.inr rfl⟩
  refine ⟨⟨fun x hx => ⟨(hall x hx).1, (hall x hx).2.1, (hall x hx).2.2.1⟩, ?_⟩, ?_, x0, y, hx0, hy', hox, hysc⟩
  · have hsorted : pop'.Pairwise fun a b => b.fit ≤ a.fit := by rw [← h]; exact sortDesc_pairwise _ _
    obtain ⟨z, rest, rfl⟩ : ∃ z rest, pop' = z :: rest := by
      cases pop' with
      | nil => simp at hy'
      | cons a l => exact ⟨a, l, rfl⟩
    have htop : ∀ x ∈ z :: rest, x.fit ≤ z.fit := by
      intro x hx
      rcases List.mem_cons.mp hx with rfl | hx
      · exact le_refl _
      · exact (List.pairwise_cons.mp hsorted).1 x hx
    have hz := hall z (by simp)
    have hge : x0.score ≤ z.fit := by
      have := htop y hy'
      have e : y.fit = y.score := rfl
      rw [e, hysc] at this
      exact this
    have hzz : z.fit = z.score := by
      rcases hz.2.2.2 with h' | h'
      · exact le_antisymm hz.2.1 (h'.trans hge)
      · exact h'
    refine ⟨z, rfl, hzz, fun x hx => ?_⟩
    rcases (hall x hx).2.2.2 with h' | h'
    · exact h'.trans (hge.trans hz.2.1)
    · rw [← h', ← hzz]; exact htop x hx
  · intro x hx
    obtain ⟨c, hc, e⟩ := hsc x hx
    rw [e]
    exact hperm _ _ hc

/-- Crossovers only, one after the other. -/
def crossovers (score : List ℕ → ℚ) (m T : ℕ) (r : ℕ → Rng) : ℕ → List Ind → Except PyErr (List Ind)
  | 0, pop => .ok pop
  | k + 1, pop =>
    match crossovers score m T r k pop with
    | .error e => .error e
    | .ok pop' => crossover score m T (r k) pop'

/-- C186: over any number of crossovers from a starting population the maximum fitness does not fall, and it is the score
of a member. -/
theorem C186_never_lost_partial {N n T : ℕ} {r : ℕ → Rng} (hr : ∀ i, (r i).Ok N n) {score : List ℕ → ℚ}
    (h01 : ∀ c, 0 ≤ score c ∧ score c ≤ 1) (hperm : ∀ c d : List ℕ, c.Perm d → score c = score d) {m : ℕ} (hm : 0 < m)
    {cs : List (List ℕ)} (hne : cs ≠ []) (hv : ∀ c ∈ cs, c.length = n ∧ c.Nodup ∧ ∀ g ∈ c, g < T) (k : ℕ)
    {pop' : List Ind} (h : crossovers score m T r k (getFitness score cs) = .ok pop') :
    ∃ x ∈ pop', x.score = score x.genes ∧ (∀ c ∈ cs, score c ≤ x.score) ∧ maxFitness pop' = some x.score := by
  have key : ∀ (k : ℕ) (pop' : List Ind), crossovers score m T r k (getFitness score cs) = .ok pop' →
      Led pop' ∧ (∀ x ∈ pop', x.score = score x.genes) ∧ (∀ x ∈ pop', Chrom n T x.genes) ∧
        ∃ x ∈ pop', ∀ c ∈ cs, score c ≤ x.score := by
    intro k
    induction k with
    | zero =>
      intro pop' h
      simp only [crossovers] at h
      injection h with h
      subst h
      have hl := led_getFitness h01 hne
      refine ⟨hl, fun x hx => (mem_getFitness.mp hx).2.2, fun x hx => hv _ (mem_getFitness.mp hx).1, ?_⟩
      obtain ⟨-, x0, hx0, -, hmax⟩ := hl
      refine ⟨x0, List.mem_of_getElem? hx0, fun c hc => ?_⟩
      exact hmax ⟨c, score c, score c⟩ (mem_getFitness.mpr ⟨hc, rfl, rfl⟩)
    | succ k ih =>
      intro pop' h
      unfold crossovers at h
      split at h
      · cases h
      · rename_i p hp
        obtain ⟨h1, h2, h3, x, hx, hxc⟩ := ih p hp
        obtain ⟨g1, g2, x0, y, hx0, hy, -, hys⟩ := C186_crossover_partial (hr k) h01 hperm hm h3 h2 h1 h
        refine ⟨g1, g2, (crossover_valid (hr k) h3 h).2, y, hy, fun c hc => ?_⟩
        obtain ⟨-, z, hz, -, hzm⟩ := h1
        rw [hx0] at hz
        injection hz with hz
        subst hz
        rw [hys]
        exact (hxc c hc).trans (hzm x hx)
  obtain ⟨h1, h2, h3, y, hy, hyc⟩ := key k pop' h
  obtain ⟨-, x0, hx0, -, hmax⟩ := h1
  have hm0 := List.mem_of_getElem? hx0
  refine ⟨x0, hm0, h2 x0 hm0, fun c hc => (hyc c hc).trans (hmax y hy), ?_⟩
  unfold maxFitness
  rw [List.max?_eq_some_iff]
  refine ⟨List.mem_map_of_mem hm0, fun b hb => ?_⟩
  obtain ⟨x, hx, rfl⟩ := List.mem_map.mp hb
  exact hmax x hx

/-- Five single features with scores 0.6, 0.5, 0.4, 0.1, 0.1. -/
def demoScore : List ℕ → ℚ := fun c =>
  if c = [0] then 6 / 10 else if c = [1] then 5 / 10 else if c = [2] then 4 / 10 else 1 / 10

/-- Draws that mutate member `p`. -/
def demoRng (p : ℕ) : Rng :=
  ⟨fun _ _ l => l, fun l => l.dedup, fun _ l k => l.take k, 20, fun _ => p, fun _ => 0, fun _ l => l.getLastD 0⟩

theorem demoRng_ok {p : ℕ} (hp : p < 5) : (demoRng p).Ok 5 1 where
  shuffle _ _ _ := List.Perm.refl _
  setOrder _ := List.Perm.refl _
  choice _ l k hn hk := ⟨hn.sublist (List.take_sublist _ _), by simp [demoRng, hk], fun g hg => List.mem_of_mem_take hg⟩
  percent := by simp [demoRng]
  genePos _ _ := hp
  chromPos _ h := h
  newGene _ l hl := by
    simp only [demoRng]
    rw [List.getLastD_eq_getLast?, List.getLast?_eq_some_getLast hl]
    exact List.getLast_mem hl

theorem exists_of_test {e : Except PyErr (List Ind)} {P : List Ind → Prop} [DecidablePred P]
    (h : (match e with | .ok p => decide (P p) | .error _ => false) = true) : ∃ p, e = .ok p ∧ P p := by
  cases e with
  | error e => cases h
  | ok p => exact ⟨p, rfl, of_decide_eq_true h⟩

/-- C186 fails for `evolve`, because of the mutations: after two generations the maximum fitness reported is 0.6, but no
member of the population has features that score more than 0.5. -/
theorem C186_stale_maximum_violated :
    ∃ pop', evolve demoScore 1 5 1 5 (fun i => if i = 0 then demoRng 0 else demoRng 1) 2
        (getFitness demoScore [[0], [1], [2], [3], [4]]) = .ok pop' ∧
      maxFitness pop' = some (6 / 10) ∧ ∀ x ∈ pop', demoScore x.genes ≤ 5 / 10 := by
  apply exists_of_test (P := fun p => maxFitness p = some (6 / 10) ∧ ∀ x ∈ p, demoScore x.genes ≤ 5 / 10)
  decide +kernel

/-- C186 fails for `evolve`: the maximum fitness falls, from 0.6 to 0.1 after twelve generations. -/
theorem C186_lost_violated :
    maxFitness (getFitness demoScore [[0], [1], [2], [3], [4]]) = some (6 / 10) ∧
      ∃ pop', evolve demoScore 1 5 1 5 (fun _ => demoRng 0) 12
          (getFitness demoScore [[0], [1], [2], [3], [4]]) = .ok pop' ∧ maxFitness pop' = some (1 / 10) := by
  refine ⟨by decide +kernel, ?_⟩
  apply exists_of_test (P := fun p => maxFitness p = some (1 / 10))
  decide +kernel

/-- The hypotheses of C184 to C186 are met by this population. -/
example : (∀ x ∈ getFitness demoScore [[0], [1], [2], [3], [4]],
    x.genes.length = 1 ∧ x.genes.Nodup ∧ ∀ g ∈ x.genes, g < 5) ∧ (∀ c, 0 ≤ demoScore c ∧ demoScore c ≤ 1) ∧
    (∀ c d : List ℕ, c.Perm d → demoScore c = demoScore d) ∧ (1 : ℕ) < 5 ∧ 1 + 1 ≤ 5 ∧ 2 * (1 - 1) < 5 := by
  refine ⟨by decide +kernel, ?_, ?_, by omega, by omega, by omega⟩
  · intro c
    unfold demoScore
    split
    · norm_num
    · split
      · norm_num
      · split <;> norm_num
  · intro c d h
    unfold demoScore
    have e : ∀ k : ℕ, c = [k] ↔ d = [k] := fun k =>
      ⟨fun hc => List.perm_singleton.mp (hc ▸ h.symm), fun hd => List.perm_singleton.mp (hd ▸ h)⟩
    simp only [e]

/-- Six offspring of ten: seven parents would do, but parent 10 is asked for. -/
example : (6 : ℕ) + 1 ≤ 10 ∧ (10 : ℕ) ≤ 2 * (6 - 1) := by omega

/-- Five single features and a population size of ten: the starting population has five members, and a draw of
position 7 raises. -/
example (score : List ℕ → ℚ) : mutate 10 1 5 (demoRng 7) (getFitness score (randomGenes 5 1 10 id)) = .error .index := by
  have hl := (C184_initial score 5 1 10 id fun _ => List.Perm.refl _).1
  have hl' : (getFitness score (randomGenes 5 1 10 id)).length = 5 := hl
  exact C184_size_violated (by rw [hl']; simp [demoRng]) (by rw [hl']; simp [demoRng]) (by simp [demoRng])

/-! ### C187: statistics of the population -/

theorem le_foldr_max {l : List ℕ} {g : ℕ} (h : g ∈ l) : g ≤ l.foldr max 0 := by
  induction l with
  | nil => cases h
  | cons a l ih =>
    rcases List.mem_cons.mp h with rfl | h
    · exact le_max_left _ _
    · exact (ih h).trans (le_max_right _ _)

theorem foldr_max_lt {l : List ℕ} {T : ℕ} (hT : 0 < T) (h : ∀ g ∈ l, g < T) : l.foldr max 0 < T := by
  induction l with
  | nil => exact hT
  | cons a l ih => exact max_lt (h a (by simp)) (ih fun g hg => h g (by simp [hg]))

theorem sum_count_range (l : List ℕ) (b : ℕ) (h : ∀ g ∈ l, g < b) : ((List.range b).map fun i => l.count i).sum = l.length := by
  induction l with
  | nil => simp
  | cons a l ih =>
    have e : ((List.range b).map fun i => (a :: l).count i).sum =
        ((List.range b).map fun i => l.count i).sum + ((List.range b).map fun i => if a = i then 1 else 0).sum := by
      rw [← List.sum_map_add]
      congr 1
      refine List.map_congr_left fun i _ => ?_
      rw [List.count_cons]
      by_cases hai : a = i <;> simp [hai]
    rw [e, ih fun g hg => h g (by simp [hg])]
    have : ((List.range b).map fun i => if a = i then 1 else 0).sum = 1 := by
      have ha := h a (by simp)
      clear e ih h
      induction b with
      | zero => omega
      | succ b ih =>
        rw [List.range_succ, List.map_append, List.sum_append]
        by_cases hab : a = b
        · subst hab
          have : ((List.range a).map fun i => if a = i then 1 else 0).sum = 0 := by
            rw [List.sum_eq_zero]
            intro x hx
            obtain ⟨i, hi, rfl⟩ := List.mem_map.mp hx
            have := List.mem_range.mp hi
            simp; omega
          simp [this]
        · rw [ih (by omega)]
          simp [hab]
    rw [this]
    rfl

theorem bincount_sum (l : List ℕ) : (bincount l).sum = l.length :=
  sum_count_range l _ fun g hg => Nat.lt_succ_of_le (le_foldr_max hg)

theorem zip_snd_sum {α : Type} (names : List α) (b : List ℕ) (h : b.length ≤ names.length) :
    ((names.zip b).map Prod.snd).sum = b.sum := by
  rw [List.map_snd_zip h]

theorem frequencies_total {α : Type} (names : List α) (pop : List Ind)
    (hT : ∀ x ∈ pop, ∀ g ∈ x.genes, g < names.length) (hne : (pop.map Ind.genes).flatten ≠ []) :
    ((sortDesc Prod.snd (names.zip (bincount (pop.map Ind.genes).flatten))).map Prod.snd).sum =
      (pop.map Ind.genes).flatten.length := by
  have hall : ∀ g ∈ (pop.map Ind.genes).flatten, g < names.length := by
    intro g hg
    obtain ⟨c, hc, hg⟩ := List.mem_flatten.mp hg
    obtain ⟨x, hx, rfl⟩ := List.mem_map.mp hc
    exact hT x hx g hg
  have hpos : 0 < names.length := by
    obtain ⟨g, hg⟩ := List.exists_mem_of_ne_nil _ hne
    exact lt_of_le_of_lt (Nat.zero_le _) (hall g hg)
  rw [((sortDesc_perm _ _).map Prod.snd).sum_eq, zip_snd_sum, bincount_sum]
  have := foldr_max_lt hpos hall
  simp [bincount]
  omega

/-- C187: the percentages of `feature_frequencies` belong to the features they are listed with: feature `i` has the share
of the entries of all chromosomes that are `i`; together they make 100; they are listed in falling order. -/
theorem C187_frequencies {α : Type} (names : List α) (pop : List Ind)
    (hT : ∀ x ∈ pop, ∀ g ∈ x.genes, g < names.length) (hne : (pop.map Ind.genes).flatten ≠ []) :
    (∀ p ∈ featureFrequencies names pop, ∃ i, names[i]? = some p.1 ∧
        p.2 = (((pop.map Ind.genes).flatten.count i : ℕ) : ℚ) / (pop.map Ind.genes).flatten.length * 100) ∧
      ((featureFrequencies names pop).map Prod.snd).sum = 100 ∧
      (featureFrequencies names pop).Pairwise (fun a b => b.2 ≤ a.2) := by
  have htot := frequencies_total names pop hT hne
  set all := (pop.map Ind.genes).flatten with hall
  have hlen : (0 : ℚ) < all.length := by exact_mod_cast List.length_pos_iff.mpr hne
  have hdef : featureFrequencies names pop =
      (sortDesc Prod.snd (names.zip (bincount all))).map fun p => (p.1, (p.2 : ℚ) / all.length * 100) := by
    unfold featureFrequencies
    simp only [← hall, htot]
  rw [hdef]
  refine ⟨?_, ?_, ?_⟩
  · intro p hp
    obtain ⟨q, hq, rfl⟩ := List.mem_map.mp hp
    rw [(sortDesc_perm _ _).mem_iff] at hq
    obtain ⟨i, hi⟩ := List.mem_iff_getElem?.mp hq
    rw [List.getElem?_zip_eq_some] at hi
    refine ⟨i, hi.1, ?_⟩
    have h2 := hi.2
    unfold bincount at h2
    rw [List.getElem?_map] at h2
    cases hr : (List.range (all.foldr max 0 + 1))[i]? with
    | none => rw [hr] at h2; simp at h2
    | some j =>
      rw [hr] at h2
      have hj : j = i := by
        obtain ⟨hlt, e⟩ := List.getElem?_eq_some_iff.mp hr
        rw [List.getElem_range] at e
        exact e.symm
      subst hj
      simp at h2
      simp only
      rw [← h2]
  · rw [List.map_map]
    have : ((sortDesc Prod.snd (names.zip (bincount all))).map
        (Prod.snd ∘ fun p : α × ℕ => (p.1, (p.2 : ℚ) / all.length * 100))).sum =
        ((((sortDesc Prod.snd (names.zip (bincount all))).map Prod.snd).sum : ℕ) : ℚ) / all.length * 100 := by
      generalize sortDesc Prod.snd (names.zip (bincount all)) = L
      induction L with
      | nil => simp
      | cons a L ih =>
        simp only [List.map_cons, List.sum_cons, Function.comp_apply, ih]
        push_cast
        ring
    rw [this, htot]
    field_simp
  · rw [List.pairwise_map]
    refine (sortDesc_pairwise Prod.snd (names.zip (bincount all))).imp fun {a b} hab => ?_
    simp only
    have : (b.2 : ℚ) ≤ a.2 := by exact_mod_cast hab
    gcongr

/-- C187: every feature that is selected somewhere is listed. -/
theorem C187_selected_listed {α : Type} (names : List α) (pop : List Ind) {x : Ind} {g : ℕ} {a : α} (hx : x ∈ pop)
    (hg : g ∈ x.genes) (ha : names[g]? = some a) : a ∈ (featureFrequencies names pop).map Prod.fst := by
  have hm : g ∈ (pop.map Ind.genes).flatten := List.mem_flatten.mpr ⟨_, List.mem_map_of_mem hx, hg⟩
  have hle := le_foldr_max hm
  set all := (pop.map Ind.genes).flatten with hall
  have hq : (a, all.count g) ∈ names.zip (bincount all) := by
    refine List.mem_iff_getElem?.mpr ⟨g, ?_⟩
    rw [List.getElem?_zip_eq_some]
    refine ⟨ha, ?_⟩
    unfold bincount
    rw [List.getElem?_map, List.getElem?_range (by omega)]
    rfl
  unfold featureFrequencies
  rw [List.map_map]
  refine List.mem_map.mpr ⟨(a, all.count g), ?_, rfl⟩
  rw [(sortDesc_perm _ _).mem_iff]
  exact hq

/-- C187 fails for the last features of the data: if none of the features from `T₀` on is selected, they are not listed
with 0 per cent, they are missing. -/
theorem C187_missing_violated {α : Type} (names : List α) (pop : List Ind) (hn : names.Nodup) {i : ℕ} {a : α}
    (ha : names[i]? = some a) (hi : 0 < i) (h : ∀ x ∈ pop, ∀ g ∈ x.genes, g < i) :
    a ∉ (featureFrequencies names pop).map Prod.fst := by
  have hall : ∀ g ∈ (pop.map Ind.genes).flatten, g < i := by
    intro g hg
    obtain ⟨c, hc, hg⟩ := List.mem_flatten.mp hg
    obtain ⟨x, hx, rfl⟩ := List.mem_map.mp hc
    exact h x hx g hg
  have hlt := foldr_max_lt hi hall
  unfold featureFrequencies
  rw [List.map_map]
  intro hm
  obtain ⟨q, hq, e⟩ := List.mem_map.mp hm
  rw [(sortDesc_perm _ _).mem_iff] at hq
  obtain ⟨j, hj⟩ := List.mem_iff_getElem?.mp hq
  rw [List.getElem?_zip_eq_some] at hj
  simp only [Function.comp_apply] at e
  rw [e] at hj
  have hij : j = i := by
    have h1 := List.getElem?_eq_some_iff.mp hj.1
    have h2 := List.getElem?_eq_some_iff.mp ha
    obtain ⟨hj1, e1⟩ := h1
    obtain ⟨hi1, e2⟩ := h2
    exact (List.Nodup.getElem_inj_iff hn).mp (e1.trans e2.symm)
  subst hij
  have h3 := (List.getElem?_eq_some_iff.mp hj.2).1
  simp [bincount] at h3
  omega

/-- C187: `homogeneity` is 0 exactly if every feature occurs in the population, and lies between 0 and 1. -/
theorem C187_homogeneity {T : ℕ} (hT : 0 < T) (pop : List Ind) (h : ∀ x ∈ pop, ∀ g ∈ x.genes, g < T) :
    0 ≤ homogeneity T pop ∧ homogeneity T pop ≤ 1 ∧
      (homogeneity T pop = 0 ↔ ∀ g < T, ∃ x ∈ pop, g ∈ x.genes) := by
  have hall : ∀ g ∈ (pop.map Ind.genes).flatten, g < T := by
    intro g hg
    obtain ⟨c, hc, hg⟩ := List.mem_flatten.mp hg
    obtain ⟨x, hx, rfl⟩ := List.mem_map.mp hc
    exact h x hx g hg
  have hl := length_cands hall
  set all := (pop.map Ind.genes).flatten with hdef
  have hTq : (0 : ℚ) < T := by exact_mod_cast hT
  have hle : ((all.dedup.length : ℕ) : ℚ) ≤ T := by exact_mod_cast (by omega : all.dedup.length ≤ T)
  have h1 : ((all.dedup.length : ℕ) : ℚ) / T ≤ 1 := (div_le_one hTq).mpr hle
  have h0 : 0 ≤ ((all.dedup.length : ℕ) : ℚ) / T := by positivity
  have e : homogeneity T pop = 1 - ((all.dedup.length : ℕ) : ℚ) / T := rfl
  rw [e]
  refine ⟨by linarith, by linarith, ?_⟩
  have hiff : (1 - ((all.dedup.length : ℕ) : ℚ) / T = 0) ↔ all.dedup.length = T := by
    rw [sub_eq_zero, eq_comm, div_eq_one_iff_eq hTq.ne']
    exact_mod_cast Iff.rfl
  rw [hiff]
  have hmem : ∀ g, g ∈ all ↔ ∃ x ∈ pop, g ∈ x.genes := by
    intro g
    rw [hdef, List.mem_flatten]
    constructor
    · rintro ⟨c, hc, hg⟩
      obtain ⟨x, hx, rfl⟩ := List.mem_map.mp hc
      exact ⟨x, hx, hg⟩
    · rintro ⟨x, hx, hg⟩
      exact ⟨_, List.mem_map_of_mem hx, hg⟩
  constructor
  · intro he g hg
    have hz : ((List.range T).filter (· ∉ all)) = [] := List.length_eq_zero_iff.mp (by omega)
    rw [List.filter_eq_nil_iff] at hz
    have := hz g (List.mem_range.mpr hg)
    simp at this
    exact (hmem g).mp this
  · intro hcov
    have hz : ((List.range T).filter (· ∉ all)) = [] := by
      rw [List.filter_eq_nil_iff]
      intro g hg
      have := (hmem g).mpr (hcov g (List.mem_range.mp hg))
      simp [this]
    rw [hz] at hl
    simpa using hl

example : featureFrequencies ["a", "b", "c", "d"] [⟨[0, 2], 1, 1⟩, ⟨[2, 1], 1, 1⟩] =
    [("c", 50), ("a", 25), ("b", 25)] := by decide +kernel

end CatLearn.FeatureGA
