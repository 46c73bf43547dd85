import Verif.Model.SystemFeatures
import Mathlib.Data.Finset.Dedup
import Mathlib.Algebra.BigOperators.Group.Finset.Basic
import Mathlib.Data.Multiset.Basic
import Mathlib.Algebra.BigOperators.Ring.Nat
import Mathlib.Data.Nat.Cast.Order.Ring
import Mathlib.Algebra.BigOperators.Ring.Finset
import Mathlib.Tactic.NormNum

/-!
C219: the features of a material.
-/

namespace CatLearn.SystemFeatures

open CatLearn CatLearn.SiteTable

variable {S : Type} [DecidableEq S]

private theorem sum_order (f : S → ℝ) (order syms : List S) (ho : order.Perm syms.dedup) : (order.map f).sum = ∑ e ∈ syms.toFinset, f e := by
  rw [(ho.map f).sum_eq, ← List.sum_toFinset f (List.nodup_dedup syms)]
  congr 1
  ext e
  simp

private theorem length_order (order syms : List S) (ho : order.Perm syms.dedup) : order.length = syms.toFinset.card := by
  rw [ho.length_eq, List.card_toFinset]

private theorem npMean_order (f : S → ℝ) (order syms : List S) (ho : order.Perm syms.dedup) (hne : syms ≠ []) :
    npMean (order.map f) = some ((∑ e ∈ syms.toFinset, f e) / syms.toFinset.card) := by
  have hl := length_order order syms ho
  have hne' : order.map f ≠ [] := by
    intro h
    rw [List.map_eq_nil_iff] at h
    subst h
    rw [List.length_nil] at hl
    have := Finset.card_eq_zero.1 hl.symm
    rw [List.toFinset_eq_empty_iff] at this
    exact hne this
  unfold npMean
  rw [if_neg hne', sum_order f order syms ho, List.length_map, hl]

/-- C219: `system_features` has the number of atoms; for every element of the material, once, its atomic number, the number of its atoms and of
its valence electrons, so that the numbers of atoms add up to the number of atoms; and the means over the elements, whatever their numbers of
atoms. -/
theorem C219_composition (Z nval : S → ℝ) (order syms : List S) (ho : order.Perm syms.dedup) (hne : syms ≠ []) (hZ : Function.Injective Z) :
    (systemFeatures Z nval order syms).natoms = syms.length ∧
      ((systemFeatures Z nval order syms).elems.map Elem.n).sum = syms.length ∧
      (systemFeatures Z nval order syms).elems.length = syms.toFinset.card ∧
      ((systemFeatures Z nval order syms).elems.map Elem.Z).Nodup ∧
      (∀ x, x ∈ (systemFeatures Z nval order syms).elems ↔ ∃ e ∈ syms, x = ⟨Z e, syms.count e, nval e⟩) ∧
      (systemFeatures Z nval order syms).zMean = some ((∑ e ∈ syms.toFinset, Z e) / syms.toFinset.card) ∧
      (systemFeatures Z nval order syms).eMean = some ((∑ e ∈ syms.toFinset, nval e) / syms.toFinset.card) := by
  have hz := npMean_order Z order syms ho hne
  have hv := npMean_order nval order syms ho hne
  simp only [systemFeatures, stoichiometry, List.map_map, Function.comp_def, List.length_map]
  refine ⟨trivial, ?_, length_order order syms ho, ?_, ?_, hz, hv⟩
  · rw [sum_order (fun e => ((syms.count e : ℕ) : ℝ)) order syms ho, ← Nat.cast_sum]
    congr 1
    exact List.sum_toFinset_count_eq_length syms
  · exact (ho.nodup_iff.2 (List.nodup_dedup syms)).map hZ
  · intro x
    simp only [List.mem_map]
    constructor
    · rintro ⟨e, he, rfl⟩
      exact ⟨e, List.mem_dedup.1 (ho.mem_iff.1 he), rfl⟩
    · rintro ⟨e, he, rfl⟩
      exact ⟨e, ho.mem_iff.2 (List.mem_dedup.2 he), rfl⟩

/-- C219: the order of the atoms, and of the set, does not matter for the number of atoms, the means and the entries of the elements as a whole. -/
theorem C219_order_partial (Z nval : S → ℝ) (order order' syms syms' : List S) (hs : syms.Perm syms') (ho : order.Perm syms.dedup)
    (ho' : order'.Perm syms'.dedup) (hne : syms ≠ []) :
    (systemFeatures Z nval order syms).natoms = (systemFeatures Z nval order' syms').natoms ∧
      (systemFeatures Z nval order syms).elems.Perm (systemFeatures Z nval order' syms').elems ∧
      (systemFeatures Z nval order syms).zMean = (systemFeatures Z nval order' syms').zMean ∧
      (systemFeatures Z nval order syms).eMean = (systemFeatures Z nval order' syms').eMean := by
  have hne' : syms' ≠ [] := fun h => hne (by rw [h] at hs; exact hs.eq_nil)
  have hfin : syms.toFinset = syms'.toFinset := List.toFinset_eq_of_perm _ _ hs
  have hoo : order.Perm order' := ho.trans ((hs.dedup).trans ho'.symm)
  refine ⟨?_, ?_, ?_, ?_⟩
  · simp only [systemFeatures, hs.length_eq]
  · simp only [systemFeatures, stoichiometry, List.map_map, Function.comp_def, hs.count_eq]
    exact hoo.map _
  · simp only [systemFeatures, stoichiometry, List.map_map, Function.comp_def]
    rw [npMean_order Z order syms ho hne, npMean_order Z order' syms' ho' hne', hfin]
  · simp only [systemFeatures, stoichiometry, List.map_map, Function.comp_def]
    rw [npMean_order nval order syms ho hne, npMean_order nval order' syms' ho' hne', hfin]

example : (["Au", "Cu"] : List String).Perm ["Cu", "Au", "Cu"].dedup ∧ (["Cu", "Au"] : List String).Perm ["Au", "Cu", "Cu"].dedup := by
  decide

/-- C219 is violated: which element is element 0 depends on the order of a set of strings, and that differs from one run of Python to the next.  Any
element of the material can be element 0, so that columns `Z0`, `n0` and `e_val0` of the same material differ between runs. -/
theorem C219_element_zero_violated (Z nval : S → ℝ) (hZ : Function.Injective Z) (syms : List S) (a b : S) (ha : a ∈ syms) (hb : b ∈ syms) (hab : a ≠ b) :
    ∃ order order' : List S, order.Perm syms.dedup ∧ order'.Perm syms.dedup ∧
      ((systemFeatures Z nval order syms).elems[0]?).map Elem.Z = some (Z a) ∧ ((systemFeatures Z nval order' syms).elems[0]?).map Elem.Z = some (Z b) ∧
      (systemFeatures Z nval order syms).elems ≠ (systemFeatures Z nval order' syms).elems := by
  refine ⟨a :: syms.dedup.erase a, b :: syms.dedup.erase b, (List.perm_cons_erase (List.mem_dedup.2 ha)).symm,
    (List.perm_cons_erase (List.mem_dedup.2 hb)).symm, rfl, rfl, ?_⟩
  intro h
  simp only [systemFeatures, stoichiometry, List.map_cons] at h
  injection h with h1 _
  injection h1 with h2 _ _
  exact hab (hZ h2)

/-- C219: the means do not see the composition.  A material and one atom more of an element it has already have the same means. -/
theorem C219_means_unweighted (Z nval : S → ℝ) (order syms : List S) (e : S) (he : e ∈ syms) (ho : order.Perm syms.dedup) :
    order.Perm (e :: syms).dedup ∧ (systemFeatures Z nval order (e :: syms)).zMean = (systemFeatures Z nval order syms).zMean ∧
      (systemFeatures Z nval order (e :: syms)).eMean = (systemFeatures Z nval order syms).eMean ∧
      (systemFeatures Z nval order (e :: syms)).natoms ≠ (systemFeatures Z nval order syms).natoms := by
  refine ⟨by rwa [List.dedup_cons_of_mem he], ?_, ?_, ?_⟩
  · simp only [systemFeatures, stoichiometry, List.map_map, Function.comp_def]
  · simp only [systemFeatures, stoichiometry, List.map_map, Function.comp_def]
  · simp [systemFeatures]

end CatLearn.SystemFeatures
