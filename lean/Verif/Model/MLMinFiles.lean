import Verif.Model.MLMin

/-!
# The trajectory file of `MLMin`
-/

namespace CatLearn.MLMin

open CatLearn

/-- The file `self.filename` after the structures `new` were evaluated, in order: the constructor writes the whole list of structures
(mlmin.py L121), each evaluation appends one (L357-359).  A restart reads it (L58-61, L83-97). -/
noncomputable def trajectoryFile (x0 : Calc) (prev : List Calc) (real : List ℝ → ℝ × List ℝ) (new : List (List ℝ)) : List Calc :=
  dedupe [x0] prev ++ new.map fun p => ⟨p, (real p).1, (real p).2⟩

end CatLearn.MLMin
