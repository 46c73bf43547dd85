import Verif.Model.SlabLayers
import Verif.Lemmas.Py
import Verif.Props.Slab
import Mathlib.Tactic.Linarith
import Mathlib.Tactic.NormNum
import Mathlib.Tactic.Positivity
import Mathlib.Tactic.Ring
import Mathlib.Algebra.Order.BigOperators.Group.List

/-!
C204: the layers of a slab found by clustering the heights.
-/

namespace CatLearn.SlabLayers

open CatLearn CatLearn.Slab

/-- What k-means and the iteration over a set promise: one label for each point, every label once. -/
structure Clusters (kmeans : ℕ → List ℝ → List ℕ) (setOrder : List ℕ → List ℕ) : Prop where
  labels : ∀ n hs, (kmeans n hs).length = hs.length
  order : ∀ l, (setOrder l).Perm l

private theorem classes {α : Type} (f : α → ℕ) (L : List ℕ) (hL : L.Nodup) (l : List α) (h : ∀ x ∈ l, f x ∈ L) :
    ((L.map fun i => l.filter fun x => f x = i).flatten).Perm l := by
  induction L generalizing l with
  | nil =>
    have : l = [] := by
      cases l with
      | nil => rfl
      | cons x l => simpa using h x (by simp)
    simp [this]
  | cons i L ih =>
    rw [List.nodup_cons] at hL
    have h1 := ih hL.2 (l.filter fun x => !decide (f x = i)) (by
      intro x hx
      rw [List.mem_filter] at hx
      have := h x hx.1
      simp at hx
      simpa [hx.2] using this)
    have h2 : (L.map fun j => (l.filter fun x => !decide (f x = i)).filter fun x => f x = j) =
        L.map fun j => l.filter fun x => f x = j := by
      apply List.map_congr_left
      intro j hj
      rw [List.filter_filter]
      apply List.filter_congr
      intro x _
      by_cases hx : f x = j
      · have : f x ≠ i := by rintro rfl; subst hx; exact hL.1 hj
        simp [hx, hx ▸ this]
      · simp [hx]
    rw [h2] at h1
    rw [List.map_cons, List.flatten_cons]
    exact (h1.append_left _).trans (List.filter_append_perm (fun x => decide (f x = i)) l)

variable {kmeans : ℕ → List ℝ → List ℕ} {setOrder : List ℕ → List ℕ}

private theorem layers_perm (hc : Clusters kmeans setOrder) (n : ℕ) (pts : List Point) :
    ((layersOf setOrder (kmeans n (pts.map Prod.snd)) pts).flatten).Perm pts ∧
      ∀ l ∈ layersOf setOrder (kmeans n (pts.map Prod.snd)) pts, l ≠ [] := by
  have hlen := hc.labels n (pts.map Prod.snd)
  rw [List.length_map] at hlen
  generalize kmeans n (pts.map Prod.snd) = labels at hlen ⊢
  have hsnd : (pts.zip labels).map Prod.snd = labels := List.map_snd_zip (by omega)
  have hfst : (pts.zip labels).map Prod.fst = pts := List.map_fst_zip (by omega)
  constructor
  · have h1 := classes (fun p : Point × ℕ => p.2) (setOrder labels.dedup) ((hc.order _).nodup_iff.2 (List.nodup_dedup _))
      (pts.zip labels) (by
        intro p hp
        rw [(hc.order _).mem_iff, List.mem_dedup, ← hsnd]
        exact List.mem_map.2 ⟨p, hp, rfl⟩)
    have h2 := h1.map Prod.fst
    rw [hfst, List.map_flatten, List.map_map] at h2
    exact h2
  · intro l hl
    obtain ⟨i, hi, rfl⟩ := List.mem_map.1 hl
    rw [(hc.order _).mem_iff, List.mem_dedup, ← hsnd] at hi
    obtain ⟨p, hp, rfl⟩ := List.mem_map.1 hi
    exact List.ne_nil_of_mem (List.mem_map.2 ⟨p, List.mem_filter.2 ⟨hp, by simp⟩, rfl⟩)

/-- The result of the loop comes from a pass in which the layers have converged. -/
private theorem loop_some (tol : ℝ) (pts : List Point) (k n : ℕ) (zs : List ℝ) (atoms : List (List ℕ))
    (h : layerLoop kmeans setOrder tol pts k n = .ok (some (zs, atoms))) :
    ∃ n', n ≤ n' ∧ n' < n + k ∧ converged tol (layersOf setOrder (kmeans n' (pts.map Prod.snd)) pts) = true ∧
      zs = (sortAsc mean (layersOf setOrder (kmeans n' (pts.map Prod.snd)) pts)).map mean ∧
      atoms = (sortAsc mean (layersOf setOrder (kmeans n' (pts.map Prod.snd)) pts)).map fun l => l.map Prod.fst := by
  induction k generalizing n with
  | zero => simp [layerLoop] at h
  | succ k ih =>
    simp only [layerLoop] at h
    split at h
    · cases h
    · split at h
      · rename_i hcv
        simp only [Except.ok.injEq, Option.some.injEq, Prod.mk.injEq] at h
        exact ⟨n, le_refl _, by omega, hcv, h.1.symm, h.2.symm⟩
      · obtain ⟨n', h1, h2, h3⟩ := ih (n + 1) h
        exact ⟨n', by omega, by omega, h3⟩

private theorem mem_snd {pts : List Point} {h : ℕ → ℝ} {s : List ℕ} (hp : pts = s.map fun i => (i, h i)) (p : Point)
    (hm : p ∈ pts) : p.2 = h p.1 := by
  subst hp
  obtain ⟨i, -, rfl⟩ := List.mem_map.1 hm
  rfl

private theorem result (hc : Clusters kmeans setOrder) (h : ℕ → ℝ) (s : List ℕ) (k : ℕ) (tol : ℝ) (zs : List ℝ)
    (atoms : List (List ℕ)) (hr : layerLoop kmeans setOrder tol (s.map fun i => (i, h i)) k 1 = .ok (some (zs, atoms))) :
    atoms.flatten.Perm s ∧ (∀ l ∈ atoms, l ≠ []) ∧ zs = atoms.map (fun l => (l.map h).sum / (l.length : ℝ)) ∧
      zs.Pairwise (· ≤ ·) ∧
      ∃ ls : List (List Point), converged tol ls = true ∧ (ls.map fun l => l.map Prod.fst).Perm atoms ∧
        ∀ l ∈ ls, ∀ p ∈ l, p.2 = h p.1 := by
  obtain ⟨n, -, -, hcv, hzs, hat⟩ := loop_some tol _ k 1 zs atoms hr
  clear hr
  obtain ⟨hp, hne⟩ := layers_perm hc n (s.map fun i => (i, h i))
  generalize layersOf setOrder (kmeans n ((s.map fun i => (i, h i)).map Prod.snd)) (s.map fun i => (i, h i)) = ls at *
  subst hzs hat
  have hs := sortAsc_perm mean ls
  have hval : ∀ l ∈ ls, ∀ p ∈ l, p.2 = h p.1 := fun l hl p hpl =>
    mem_snd rfl p (hp.mem_iff.1 (List.mem_flatten.2 ⟨l, hl, hpl⟩))
  refine ⟨?_, ?_, ?_, ?_, ls, hcv, (hs.map _).symm, hval⟩
  · rw [← List.map_flatten]
    have := ((hs.flatten).trans hp).map Prod.fst
    simpa [List.map_map, Function.comp_def] using this
  · intro l hl
    obtain ⟨l', hl', rfl⟩ := List.mem_map.1 hl
    have := hne l' (hs.mem_iff.1 hl')
    simpa using this
  · rw [List.map_map]
    apply List.map_congr_left
    intro l hl
    have hv := hval l (hs.mem_iff.1 hl)
    simp only [mean, Function.comp_apply, List.map_map, List.length_map]
    congr 2
    apply List.map_congr_left
    intro p hp'
    exact hv p hp'
  · rw [List.pairwise_map]
    exact sortAsc_pairwise mean ls

/-- C204 (`_partial`: oxides and slabs with one atom in each layer fail, see below): for a slab that is not taken for an
oxide, the layers `slab_layers` returns contain every atom exactly once, no layer is empty, the numbers are the mean
heights of the layers, and they ascend.  For any clustering. -/
theorem C204_layers_partial (hc : Clusters kmeans setOrder) (m : MetalTable) (z order : List ℕ) (h : ℕ → ℝ) (k : ℕ) (tol : ℝ)
    (hox : isOxide m z order = .ok false) (zs : List ℝ) (atoms : List (List ℕ))
    (hr : slabLayers kmeans setOrder m z order h k tol = .ok (some (zs, atoms))) :
    atoms.flatten.Perm (List.range z.length) ∧ (∀ l ∈ atoms, l ≠ []) ∧
      zs = atoms.map (fun l => (l.map h).sum / (l.length : ℝ)) ∧ zs.Pairwise (· ≤ ·) := by
  simp only [slabLayers, points, hox] at hr
  obtain ⟨h1, h2, h3, h4, -⟩ := result hc h _ k tol zs atoms hr
  exact ⟨h1, h2, h3, h4⟩

private theorem tolerance (h : ℕ → ℝ) (tol : ℝ) (ls : List (List Point)) (hv : ∀ l ∈ ls, ∀ p ∈ l, p.2 = h p.1)
    (hcv : converged tol ls = true) : 0 ≤ tol ∧ ls.length < (ls.map List.length).sum ∧
      (ls.map fun l => ((l.map Prod.fst).map fun i => (h i - ((l.map Prod.fst).map h).sum / l.length) ^ 2).sum / l.length *
        ((l.length : ℝ) - 1)).sum ≤ tol ^ 2 * ((ls.map List.length).sum - ls.length : ℕ) := by
  simp only [converged] at hcv
  split at hcv
  · cases hcv
  · rename_i hden
    rw [decide_eq_true_eq] at hcv
    have ht : 0 ≤ tol := le_trans (Real.sqrt_nonneg _) hcv
    refine ⟨ht, by omega, ?_⟩
    have hpos : (0 : ℝ) < ((ls.map List.length).sum - ls.length : ℕ) := by exact_mod_cast Nat.pos_of_ne_zero hden
    rw [Real.sqrt_le_iff] at hcv
    have h2 := hcv.2
    rw [div_le_iff₀ hpos] at h2
    refine le_trans (le_of_eq ?_) h2
    congr 1
    apply List.map_congr_left
    intro l hl
    have hmean : mean l = ((l.map Prod.fst).map h).sum / l.length := by
      simp only [mean, List.map_map]
      congr 2
      apply List.map_congr_left
      intro p hp; exact hv l hl p hp
    simp only [var, hmean, List.map_map]
    congr 3
    apply List.map_congr_left
    intro p hp
    simp [hv l hl p hp]

/-- C204: the layers that are returned are flat: the weighted mean of the variances of the heights in the layers (weights
`n - 1`) is at most the square of the tolerance, and there are fewer layers than atoms. -/
theorem C204_tolerance (hc : Clusters kmeans setOrder) (m : MetalTable) (z order : List ℕ) (h : ℕ → ℝ) (k : ℕ) (tol : ℝ)
    (hox : isOxide m z order = .ok false) (zs : List ℝ) (atoms : List (List ℕ))
    (hr : slabLayers kmeans setOrder m z order h k tol = .ok (some (zs, atoms))) :
    0 ≤ tol ∧ atoms.length < z.length ∧
      (atoms.map fun l => (l.map fun i => (h i - (l.map h).sum / l.length) ^ 2).sum / l.length * ((l.length : ℝ) - 1)).sum ≤
        tol ^ 2 * (z.length - atoms.length : ℕ) := by
  simp only [slabLayers, points, hox] at hr
  obtain ⟨h1, -, -, -, ls, hcv, hp, hv⟩ := result hc h _ k tol zs atoms hr
  obtain ⟨ht, hlt, hle⟩ := tolerance h tol ls hv hcv
  have hlen : ls.length = atoms.length := by simpa using hp.length_eq
  have hsum : (ls.map List.length).sum = z.length := by
    have h2 : (atoms.map List.length).sum = z.length := by
      rw [← List.length_flatten, h1.length_eq, List.length_range]
    have h3 := (hp.map List.length).sum_eq
    rw [List.map_map] at h3
    rw [← h2, ← h3]
    congr 1
    apply List.map_congr_left
    intro l _; simp
  rw [hlen, hsum] at hlt hle
  refine ⟨ht, hlt, ?_⟩
  refine le_trans (le_of_eq ?_) hle
  have h4 := (hp.map fun l : List ℕ => (l.map fun i => (h i - (l.map h).sum / l.length) ^ 2).sum / l.length *
    ((l.length : ℝ) - 1)).sum_eq
  rw [← h4, List.map_map]
  congr 1
  apply List.map_congr_left
  intro l _
  simp

/-- C204 is violated for oxides: the layers consist of the atoms of one metal only; the oxygen atoms (and other metals) are
in no layer. -/
theorem C204_oxide_violated (hc : Clusters kmeans setOrder) (m : MetalTable) (z order : List ℕ) (h : ℕ → ℝ) (k : ℕ) (tol : ℝ)
    (hox : isOxide m z order = .ok true) (zs : List ℝ) (atoms : List (List ℕ))
    (hr : slabLayers kmeans setOrder m z order h k tol = .ok (some (zs, atoms))) :
    ∃ e, m.metal e = true ∧ (∀ i, i ∈ atoms.flatten ↔ z[i]? = some e) ∧ ∀ i, z[i]? = some 8 → i ∉ atoms.flatten := by
  simp only [slabLayers, points, hox] at hr
  cases he : (order.tail.filter m.metal).getLast? with
  | none => rw [he] at hr; cases hr
  | some e =>
    rw [he] at hr
    have hm : m.metal e = true := (List.mem_filter.1 (List.mem_of_getLast? he)).2
    obtain ⟨h1, -⟩ := result hc h _ k tol zs atoms hr
    have hmem : ∀ i, i ∈ atoms.flatten ↔ z[i]? = some e := by
      intro i
      rw [h1.mem_iff, List.mem_filter, List.mem_range, decide_eq_true_eq]
      exact ⟨fun h => h.2, fun h => ⟨(List.getElem?_eq_some_iff.1 h).1, h⟩⟩
    refine ⟨e, hm, hmem, fun i hi => ?_⟩
    rw [hmem, hi]
    rintro ⟨⟩
    rw [m.oxygen] at hm
    cases hm

/-- Points more than twice the tolerance apart are spread by more than the tolerance around any centre. -/
private theorem spread (t μ : ℝ) (ht : 0 ≤ t) (l : List Point) (hl : 2 ≤ l.length)
    (hp : l.Pairwise fun p q => 2 * t < |p.2 - q.2|) : t ^ 2 * l.length < (l.map fun p => (p.2 - μ) ^ 2).sum := by
  have two : ∀ a b : ℝ, 2 * t < |a - b| → 2 * t ^ 2 < (a - μ) ^ 2 + (b - μ) ^ 2 := by
    intro a b h
    have h1 : (2 * t) ^ 2 < (a - b) ^ 2 := by rw [← sq_abs (a - b)]; exact pow_lt_pow_left₀ h (by linarith) (by norm_num)
    nlinarith [sq_nonneg (a - μ + (b - μ))]
  induction l with
  | nil => simp at hl
  | cons a l ih =>
    rw [List.pairwise_cons] at hp
    cases l with
    | nil => simp at hl
    | cons b l =>
      have hab := two a.2 b.2 (hp.1 b (by simp))
      by_cases hlen : l = []
      · subst hlen
        simp
        linarith
      · by_cases ha : t ≤ |a.2 - μ|
        · have h1 := ih (by have := List.length_pos_iff.2 hlen; simp; omega) hp.2
          have h2 : t ^ 2 ≤ (a.2 - μ) ^ 2 := by rw [← sq_abs (a.2 - μ)]; exact pow_le_pow_left₀ ht ha 2
          rw [List.map_cons, List.sum_cons, List.length_cons]
          push_cast
          linarith
        · have hrest : t ^ 2 * (l.length : ℝ) ≤ (l.map fun p => (p.2 - μ) ^ 2).sum := by
            have : ∀ p ∈ l, t ^ 2 ≤ (p.2 - μ) ^ 2 := by
              intro p hpl
              have h1 := hp.1 p (by simp [hpl])
              have h2 : t ≤ |p.2 - μ| := by
                have h3 : |a.2 - p.2| ≤ |a.2 - μ| + |p.2 - μ| := by
                  have := abs_sub_le a.2 μ p.2
                  rwa [abs_sub_comm μ p.2] at this
                push Not at ha
                linarith
              rw [← sq_abs (p.2 - μ)]
              exact pow_le_pow_left₀ ht h2 2
            clear ih hab hp hl hlen
            induction l with
            | nil => simp
            | cons x l ih =>
              have h1 := this x (by simp)
              have h2 := ih fun p hp => this p (by simp [hp])
              rw [List.map_cons, List.sum_cons, List.length_cons]
              push_cast
              linarith
          rw [List.map_cons, List.sum_cons, List.map_cons, List.sum_cons, List.length_cons, List.length_cons]
          push_cast
          linarith

private theorem not_converged (tol : ℝ) (ls : List (List Point)) (hne : ∀ l ∈ ls, l ≠ [])
    (hp : ∀ l ∈ ls, l.Pairwise fun p q : Point => 2 * tol < |p.2 - q.2|) : converged tol ls = false := by
  simp only [converged]
  split
  · rfl
  · rename_i hden
    rw [decide_eq_false_iff_not]
    intro hle
    have ht : 0 ≤ tol := le_trans (Real.sqrt_nonneg _) hle
    have hpos : (0 : ℝ) < ((ls.map List.length).sum - ls.length : ℕ) := by exact_mod_cast Nat.pos_of_ne_zero hden
    rw [Real.sqrt_le_iff] at hle
    have h2 := hle.2
    rw [div_le_iff₀ hpos] at h2
    have key : ∀ ls : List (List Point), (∀ l ∈ ls, l ≠ []) →
        (∀ l ∈ ls, l.Pairwise fun p q : Point => 2 * tol < |p.2 - q.2|) →
        ls.length ≤ (ls.map List.length).sum ∧
        tol ^ 2 * ((ls.map List.length).sum - ls.length : ℕ) ≤ (ls.map fun l => var l * ((l.length : ℝ) - 1)).sum ∧
        (ls.length < (ls.map List.length).sum →
          tol ^ 2 * ((ls.map List.length).sum - ls.length : ℕ) < (ls.map fun l => var l * ((l.length : ℝ) - 1)).sum) := by
      intro ls
      induction ls with
      | nil => intro _ _; simp
      | cons l ls ih =>
        intro hn hq
        obtain ⟨i1, i2, i3⟩ := ih (fun x hx => hn x (by simp [hx])) (fun x hx => hq x (by simp [hx]))
        have hl := List.length_pos_iff.2 (hn l (by simp))
        have hcast : (((ls.map List.length).sum + l.length - (ls.length + 1) : ℕ) : ℝ) =
            ((ls.map List.length).sum - ls.length : ℕ) + ((l.length : ℝ) - 1) := by
          rw [show (ls.map List.length).sum + l.length - (ls.length + 1) =
            ((ls.map List.length).sum - ls.length) + (l.length - 1) by omega]
          rw [Nat.cast_add, Nat.cast_sub hl]
          simp
        rw [List.map_cons, List.sum_cons, List.map_cons, List.sum_cons, List.length_cons,
          Nat.add_comm l.length (ls.map List.length).sum, hcast]
        have hvar : (l.length = 1 → var l * ((l.length : ℝ) - 1) = 0) ∧
            (2 ≤ l.length → tol ^ 2 * ((l.length : ℝ) - 1) < var l * ((l.length : ℝ) - 1)) := by
          constructor
          · intro h; rw [h]; simp
          · intro h
            have h1 := spread tol (mean l) ht l h (hq l (by simp))
            have h2 : (0 : ℝ) < l.length := by exact_mod_cast hl
            have h3 : tol ^ 2 < var l := by rw [var, lt_div_iff₀ h2]; exact h1
            have h4 : (0 : ℝ) < (l.length : ℝ) - 1 := by
              have : (2 : ℝ) ≤ l.length := by exact_mod_cast h
              linarith
            exact mul_lt_mul_of_pos_right h3 h4
        refine ⟨by omega, ?_, ?_⟩
        · by_cases h1 : l.length = 1
          · rw [hvar.1 h1, h1]; push_cast; linarith
          · have := hvar.2 (by omega)
            linarith
        · intro hlt
          by_cases h1 : l.length = 1
          · have := i3 (by omega)
            rw [hvar.1 h1, h1]; push_cast; linarith
          · have := hvar.2 (by omega)
            linarith
    obtain ⟨-, -, h3⟩ := key ls hne hp
    have := h3 (by omega)
    linarith

/-- C204 is violated for a slab with one atom in each layer (heights more than twice the tolerance apart, as in every slab
of a primitive surface cell): no layers are ever returned, for any clustering and any `max_layers`.  With one atom in each
cluster the pooled deviation is NaN, with fewer clusters it exceeds the tolerance; the function raises ValueError (more
clusters than atoms) or ends without a result. -/
theorem C204_one_per_layer_violated (hc : Clusters kmeans setOrder) (m : MetalTable) (z order : List ℕ) (h : ℕ → ℝ) (k : ℕ)
    (tol : ℝ) (hz : ∀ i < z.length, ∀ j < z.length, i ≠ j → 2 * tol < |h i - h j|) (hne : order ≠ [])
    (hox : isOxide m z order = .ok false) :
    slabLayers kmeans setOrder m z order h k tol = if z.length < k then .error .value else .ok none := by
  simp only [slabLayers, points, hox]
  set pts := (List.range z.length).map fun i => (i, h i) with hpts
  have hpl : pts.length = z.length := by simp [hpts]
  have hpair : pts.Pairwise fun p q : Point => 2 * tol < |p.2 - q.2| := by
    rw [hpts, List.pairwise_map]
    exact (List.pairwise_lt_range).imp_of_mem fun {i j} hi hj hij =>
      hz i (List.mem_range.1 hi) j (List.mem_range.1 hj) (by omega)
  have hconv : ∀ n, converged tol (layersOf setOrder (kmeans n (pts.map Prod.snd)) pts) = false := by
    intro n
    apply not_converged _ _ (layers_perm hc n pts).2
    intro l hl
    obtain ⟨i, -, rfl⟩ := List.mem_map.1 hl
    have hlen := hc.labels n (pts.map Prod.snd)
    rw [List.length_map] at hlen
    have hfst : (pts.zip (kmeans n (pts.map Prod.snd))).map Prod.fst = pts := List.map_fst_zip (by omega)
    refine hpair.sublist ?_
    have hsub : (((pts.zip (kmeans n (pts.map Prod.snd))).filter fun p => p.2 = i).map Prod.fst).Sublist
        ((pts.zip (kmeans n (pts.map Prod.snd))).map Prod.fst) := (List.filter_sublist).map _
    rwa [hfst] at hsub
  have key : ∀ (k n : ℕ), layerLoop kmeans setOrder tol pts k n = if z.length + 1 < n + k ∧ 0 < k then .error .value else .ok none := by
    intro k
    induction k with
    | zero => intro n; simp [layerLoop]
    | succ k ih =>
      intro n
      simp only [layerLoop, hpl, hconv]
      by_cases hlt : z.length < n
      · rw [if_pos hlt, if_pos (by omega)]
      · rw [if_neg hlt, if_neg (by simp), ih]
        by_cases h1 : z.length + 1 < n + 1 + k ∧ 0 < k
        · rw [if_pos h1, if_pos (by omega)]
        · rw [if_neg h1, if_neg (by omega)]
  rw [key]
  by_cases hk : z.length < k
  · rw [if_pos (by omega), if_pos hk]
  · rw [if_neg (by omega), if_neg hk]

/-- Four layers with one copper atom each, two angstrom apart. -/
example : ∀ i < [29, 29, 29, 29].length, ∀ j < [29, 29, 29, 29].length, i ≠ j →
    2 * (1 / 2 : ℝ) < |(2 * (i : ℝ)) - (2 * (j : ℝ))| := by
  intro i _ j _ hij
  have h1 : (1 : ℤ) ≤ |(i : ℤ) - j| := Int.one_le_abs (by omega)
  have h2 : (1 : ℝ) ≤ |(i : ℝ) - j| := by exact_mod_cast h1
  rw [← mul_sub, abs_mul]
  norm_num
  linarith

/-- Two atoms at one height are one layer. -/
example : Clusters (fun _ hs => hs.map fun _ => 0) id ∧
    slabLayers (fun _ hs => hs.map fun _ => 0) id ⟨fun e => decide (e = 29), by decide⟩ [29, 29] [29] (fun _ => 3) 20 (1 / 2) =
      .ok (some ([3], [[0, 1]])) := by
  refine ⟨⟨fun _ _ => by simp, fun _ => List.Perm.refl _⟩, ?_⟩
  have h1 : isOxide ⟨fun e => decide (e = 29), by decide⟩ [29, 29] [29] = .ok false := by decide +kernel
  have h2 : layersOf id ([3, 3].map fun _ : ℝ => 0) [(0, (3 : ℝ)), (1, 3)] = [[(0, 3), (1, 3)]] := by
    simp [layersOf]
  have hm : mean [(0, (3 : ℝ)), (1, 3)] = 3 := by norm_num [mean]
  have h3 : converged (1 / 2) [[(0, (3 : ℝ)), (1, 3)]] = true := by
    simp only [converged, List.map_cons, List.map_nil, List.length_cons, List.length_nil, List.sum_cons, List.sum_nil]
    norm_num [var, hm]
  simp only [slabLayers, points, h1]
  simp only [List.length_cons, List.length_nil, List.range_succ, List.range_zero, List.nil_append, List.cons_append,
    List.map_cons, List.map_nil, layerLoop]
  rw [if_neg (by norm_num)]
  have h2' : layersOf id [0, 0] [(0, (3 : ℝ)), (1, 3)] = [[(0, 3), (1, 3)]] := by simpa using h2
  simp only [h2', h3, if_true]
  simp [sortAsc, hm]

end CatLearn.SlabLayers
