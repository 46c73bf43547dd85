import Verif.Model.SiteTable

/-!
# The features of a material: `Material.system_features`, catlearn/featurize/site_stability.py L401-428

Numbers are exact reals.  The cohesive energy (L410) is that of `Verif.Model.SiteSelect`.
-/

namespace CatLearn.SystemFeatures

open CatLearn CatLearn.SiteTable

variable {S : Type} [DecidableEq S]

/-- `stoichiometry(atoms)`, slab_utilities.py L18-38: the elements in the order of the set of symbols, with the number of atoms. -/
def stoichiometry (order syms : List S) : List (S × ℕ) := order.map fun e => (e, syms.count e)

/-- The table of one row. -/
structure Features where
  natoms : ℝ
  elems : List Elem
  zMean : Option ℝ
  eMean : Option ℝ

/-- `np.mean` of a list; NaN for an empty one. -/
noncomputable def npMean (l : List ℝ) : Option ℝ := if l = [] then none else some (l.sum / l.length)

/-- `system_features`, L401-428: `Z` is the atomic number and `nval` the number of valence electrons of an element. -/
noncomputable def systemFeatures (Z nval : S → ℝ) (order syms : List S) : Features :=
  let composition := stoichiometry order syms
  { natoms := syms.length
    elems := composition.map fun q => ⟨Z q.1, q.2, nval q.1⟩
    zMean := npMean (composition.map fun q => Z q.1)
    eMean := npMean (composition.map fun q => nval q.1) }

end CatLearn.SystemFeatures
