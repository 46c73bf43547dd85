import Verif.Model.FeatEng
import Mathlib.Data.List.Dedup
import Mathlib.Data.Rat.Defs
import Mathlib.Algebra.Order.Ring.Rat

/-!
# Numbers computed by `generate_features`

Models `_decode_key` and `generate_features(…, s=False)` in
`/repo/catlearn/preprocess/feature_engineering.py`, L271-311 and L374-449: the expression written for a
fraction and the number Python's `eval` makes of it.

Simplifications.  Features are rational numbers, arithmetic is exact and `str` of a number is read back
as the number.  The order in which `list.sort` puts the texts of the numbers is a parameter.
-/

namespace CatLearn.FracEval

open CatLearn CatLearn.FeatEng

/-- Value of the text that L303-309 write for a factor `x` with multiplicity `c`: `str(x)` for one
factor and `str(x) + '**c'` (L447 replaces `^`) for more.  The text of a negative number begins with a minus
sign, which in Python binds weaker than `**`: `-2.0**2` is `-(2.0**2)`. -/
def tokenPow (x : ℚ) (c : Nat) : ℚ :=
  if c = 1 then x                          -- L306-307
  else if x < 0 then -((-x) ^ c)           -- L308-309, a text beginning with `-`
  else x ^ c

/-- Value of `_decode_key(p, key)`, L271-311; equal numbers have equal texts and are merged
(L295-302).  `le` is the order of the texts (L297). -/
def decodeKey (le : ℚ → ℚ → Bool) (p : List ℚ) (key : List Nat) : ℚ :=
  let translated := key.map fun i => p.getD i 0                 -- L294
  let unique := translated.dedup.mergeSort le                   -- L295-296
  (unique.map fun v => tokenPow v (translated.count v)).prod    -- L297-310

/-- Evaluation of `num/(den)`. -/
def evalFrac (num den : ℚ) : Except PyErr ℚ :=
  if den = 0 then .error .zeroDiv else .ok (num / den)

/-- `generate_features(p, max_num, max_den, exclude=exclude)` for a list `p` of numbers, L411-449. -/
def genValues (le : ℚ → ℚ → Bool) (p : List ℚ) (maxNum maxDen : Nat) (exclude : Bool) :
    Except PyErr (List ℚ) :=
  if maxDen = 0 then .ok (genPositive List.prod 1 p maxNum exclude)              -- L411-412
  else if maxNum = 0 then
    -- L414 returns `p` itself for `max_den = 1` (L348-353), whose numbers L418 appends to a text
    if maxDen = 1 ∧ p ≠ [] then .error .type
    else (genPositive List.flatten [] ((List.range p.length).map fun i => [i]) maxDen exclude).mapM
      fun key => evalFrac 1 (key.map fun i => p.getD i 0).prod                   -- L417-421
  else (genFeatures p.length maxNum maxDen exclude).mapM fun r =>
    evalFrac (decodeKey le p r.1) (decodeKey le p r.2)                           -- L424-448

end CatLearn.FracEval
