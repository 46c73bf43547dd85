import Mathlib.Data.Real.Basic

/-!
# Specification vocabulary for data cleaning
-/

namespace CatLearn.Spec

/-- The entries of a list whose flag is set, in order. -/
def keep {α : Type} (flags : List Bool) (l : List α) : List α :=
  (l.zip flags).filterMap fun p => if p.2 then some p.1 else none

/-- `m` is a median of the list: at most half of the values are below and at most half above it. -/
def IsMedian (l : List ℝ) (m : ℝ) : Prop :=
  2 * l.countP (fun x => decide (x < m)) ≤ l.length ∧
  2 * l.countP (fun x => decide (m < x)) ≤ l.length

end CatLearn.Spec
