import Mathlib.Algebra.BigOperators.Fin
import Mathlib.Algebra.Order.Field.Rat

/-!
# Specification of formal charges
-/

namespace CatLearn.Utilities

variable {n : Nat}

/-- The number of bonds of an atom (with multiplicity, over periodic boundaries). -/
def bonds (cm : Fin n → Fin n → Rat) (i : Fin n) : Rat := ∑ j, cm i j

/-- The charge an ion of charge `q` with `b` bonds passes to the other end of each bond. -/
def perBond (q b : Rat) : Rat := if b = 0 then 0 else if b = 1 then q / |q| else q / b

end CatLearn.Utilities
