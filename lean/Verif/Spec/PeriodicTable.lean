import Mathlib.Data.List.Basic
import Mathlib.Data.Rat.Defs
import Mathlib.Algebra.BigOperators.Group.List.Basic

/-!
# Vocabulary for electron configurations and formulas
-/

namespace CatLearn.Spec

/-- The digit of a number below ten. -/
def digit (k : Nat) : Char := Char.ofNat (48 + k)

/-- A shell of an electron configuration: principal quantum number, letter, number of electrons. -/
structure Shell where
  n : Nat
  letter : Char
  count : Nat

/-- A shell as it occurs in a configuration. -/
def Shell.Ok (s : Shell) : Prop :=
  s.n < 10 ∧ s.letter ∈ ['s', 'p', 'd', 'f'] ∧ 1 ≤ s.count ∧ s.count < 100

/-- How a shell is written: `4s`, `4s2`, `3d10`. -/
def Shell.text (s : Shell) : List Char :=
  [digit s.n, s.letter] ++ (if s.count = 1 then []
    else if s.count < 10 then [digit s.count] else [digit (s.count / 10), digit (s.count % 10)])

/-- Words separated by single spaces. -/
def words (l : List (List Char)) : List Char := [' '].intercalate l

/-- The electrons in the shells, and those in the shells with a given letter. -/
def electrons (l : List Shell) : Nat := (l.map Shell.count).sum

/-- The electrons in the shells with a given letter. -/
def electronsIn (c : Char) (l : List Shell) : Nat := electrons (l.filter fun s => s.letter = c)

/-- One part of a formula: the letters of a symbol and, if written, its coefficient. -/
structure Part where
  head : Char
  tail : List Char
  coef : Option (List Char)

/-- The text of a number: digits, or digits after a point, perhaps with digits before it (`12`, `0.5`, `.5`). -/
def IsNumber (ds : List Char) : Prop :=
  (ds ≠ [] ∧ ∀ c ∈ ds, c.isDigit) ∨
    ∃ a b, ds = a ++ '.' :: b ∧ (∀ c ∈ a, c.isDigit) ∧ b ≠ [] ∧ ∀ c ∈ b, c.isDigit

/-- A part in which the symbol is a capital followed by small letters other than `x`, and the
coefficient is a number. -/
def Part.Ok (p : Part) : Prop :=
  p.head.isUpper ∧ (∀ c ∈ p.tail, c.isLower ∧ c ≠ 'x') ∧ ∀ ds, p.coef = some ds → IsNumber ds

/-- The symbol of a part. -/
def Part.symbol (p : Part) : List Char := p.head :: p.tail

/-- The text of a part. -/
def Part.text (p : Part) : List Char := p.symbol ++ p.coef.getD []

/-- The text of a formula. -/
def formula (l : List Part) : List Char := l.flatMap Part.text

/-- The coefficient a chemist reads: the number written after the symbol, 1 if none is. -/
def Part.coefficient (float : List Char → Rat) (p : Part) : Rat :=
  match p.coef with
  | none => 1
  | some ds => float ds

end CatLearn.Spec
