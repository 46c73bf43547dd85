import Verif.Model.Py
import Mathlib.Analysis.SpecialFunctions.Log.Basic
import Mathlib.Analysis.Real.Sqrt

/-!
# Model of `catlearn/preprocess/feature_engineering.py`

A feature matrix is given by its columns, `A : List (List V)`; numpy works elementwise on them, so the
elementwise functions are parameters where their values do not matter.
-/

namespace CatLearn.FeatEng

open CatLearn

/-- `for f1 in range(m): for f2 in range(f1, m)`. -/
def loopTri (m : Nat) : List (Nat × Nat) :=
  (List.range m).flatMap fun f1 => (List.range' f1 (m - f1)).map fun f2 => (f1, f2)

/-- `for f1 in range(m): for f2 in range(m)`. -/
def loopAll (m : Nat) : List (Nat × Nat) :=
  (List.range m).flatMap fun f1 => (List.range m).map fun f2 => (f1, f2)

/-- The preallocated array of columns and the running column index `nfi` (e.g. L56, L48). -/
structure Fill (C : Type) where
  nfi : Nat
  cols : List C

/-- `new_features[:, nfi] = c; nfi += 1`; writing outside the allocated columns raises IndexError. -/
def Fill.write {C : Type} (s : Fill C) (c : C) : Except PyErr (Fill C) :=
  if s.nfi < s.cols.length then .ok ⟨s.nfi + 1, s.cols.set s.nfi c⟩ else .error .index

/-- Column `f` of the matrix. -/
def col {V : Type} (A : List (List V)) (f : Nat) : List V := A.getD f []

/-- `sum(range(m + 1))`. -/
def triangular (m : Nat) : Nat := (List.range (m + 1)).sum

/-- The common shape of `get_order_2` (L31-62), `get_order_2ab` (L129-156) and the second half of
`get_ablog` (L203-210): zeros are allocated for `sum(range(m+1))` columns of `n` rows and filled in loop
order. -/
def order2With {V : Type} (zero : V) (op : V → V → V) (n : Nat) (A : List (List V)) :
    Except PyErr (List (List V)) := do
  let s ← (loopTri A.length).foldlM
    (fun s (p : Nat × Nat) => Fill.write s (List.zipWith op (col A p.1) (col A p.2)))
    ⟨0, List.replicate (triangular A.length) (List.replicate n zero)⟩
  pure s.cols

/-- `get_order_2(A)`, L31-62.  Of the memory check L51-53 only the division by the number of columns is modelled. -/
def getOrder2 {V : Type} [Mul V] (zero : V) (n : Nat) (A : List (List V)) : Except PyErr (List (List V)) :=
  if A.length = 0 then .error .zeroDiv else order2With zero (· * ·) n A

/-- `get_order_2ab(A, a, b)`, L129-156; `pw x a` is `x**a`. -/
def getOrder2ab {V E : Type} [Mul V] (pw : V → E → V) (zero : V) (n : Nat) (A : List (List V))
    (a b : E) : Except PyErr (List (List V)) :=
  order2With zero (fun x y => pw x a * pw y b) n A

/-- Smallest entry of a column; numpy raises ValueError when there are no rows. -/
noncomputable def colMin : List ℝ → Except PyErr ℝ
  | [] => .error .value
  | x :: xs => .ok (xs.foldl min x)

/-- The shifted column `A + |min A| + 1`, L24 and L201-202. -/
noncomputable def shiftCol (c : List ℝ) : Except PyErr (List ℝ) := do
  let m ← colMin c
  pure (c.map fun x => x + (|m| + 1))

/-- `get_ablog(A, a, b)`, L181-210.  The second component is the caller's matrix after the call
(`A += shift` works in place). -/
noncomputable def getAblog (n : Nat) (A : List (List ℝ)) (a b : ℝ) :
    Except PyErr (List (List ℝ) × List (List ℝ)) := do
  let A' ← A.mapM shiftCol
  let r ← order2With 0 (fun x y => a * Real.log x + b * Real.log y) n A'
  pure (r, A')

/-- `single_transform(A)`, L10-28: squares, square roots of the shifted columns, logarithms of the shifted
columns. -/
noncomputable def singleTransform (A : List (List ℝ)) : Except PyErr (List (List ℝ)) := do
  let S ← A.mapM shiftCol
  pure (A.map (fun c => c.map fun x => x ^ 2) ++ S.map (fun c => c.map Real.sqrt)
    ++ S.map (fun c => c.map Real.log))

/-- `get_div_order_2(A)`, L65-98; `div` is numpy's division (with inf and nan).  Of the memory check L86-88 only the
division by the number of columns is modelled. -/
def getDivOrder2 {V : Type} (zero : V) (div : V → V → V) (n : Nat) (A : List (List V)) :
    Except PyErr (List (List V)) := do
  if A.length = 0 then throw .zeroDiv
  let s ← (loopAll A.length).foldlM
    (fun s (p : Nat × Nat) =>
      if p.1 ≠ p.2 then Fill.write s (List.zipWith div (col A p.1) (col A p.2)) else .ok s)
    ⟨0, List.replicate (A.length ^ 2) (List.replicate n zero)⟩
  pure s.cols

/-- `get_labels_order_2(l, div)`, L101-126. -/
def labelsOrder2 (l : List String) (div : Bool) : List String :=
  let op := if div then "_div_" else "_x_"
  let loop := if div then loopAll l.length else loopTri l.length
  loop.map fun p => l.getD p.1 "" ++ op ++ l.getD p.2 ""

/-- `get_labels_order_2ab(l, a, b)`, L159-178; `sa`, `sb` are `str(a)`, `str(b)`. -/
def labelsOrder2ab (l : List String) (sa sb : String) : List String :=
  (loopTri l.length).map fun p =>
    l.getD p.1 "" ++ "_" ++ sa ++ "_x_" ++ l.getD p.2 "" ++ "_" ++ sb

/-- `get_labels_ablog(l, a, b)`, L213-233. -/
def labelsAblog (l : List String) (sa sb : String) : List String :=
  (loopTri l.length).map fun p =>
    "log" ++ sa ++ "_" ++ l.getD p.1 "" ++ "log" ++ sb ++ "_" ++ l.getD p.2 ""

/-- `itertools.combinations_with_replacement(p, i)`, in its documented (lexicographic) order. -/
def cwr {α : Type} : List α → Nat → List (List α)
  | _, 0 => [[]]
  | [], _ + 1 => []
  | a :: p, n + 1 => (cwr (a :: p) n).map (a :: ·) ++ cwr p (n + 1)
  termination_by p n => p.length + n

/-- `generate_positive_features(p, N, exclude, s)`, L314-371.  `join` is `'*'.join` for `s=True` and
the product for `s=False`, where a feature is a number written to a string and evaluated again (taken
to be the identity); `one` is `'1'` or `1`. -/
def genPositive {α : Type} (join : List α → α) (one : α) (p : List α) (N : Nat) (exclude : Bool) :
    List α :=
  if N = 0 then [one]                                          -- L344-347
  else if N = 1 ∧ exclude = false then p ++ [one]              -- L348-351
  else if N = 1 ∧ exclude = true then p                        -- L352-353
  else
    let all := (List.range' 1 N).reverse.map fun i => (cwr p i).map join    -- L357-364
    let all := if exclude then all else all ++ [[one]]         -- L365-369
    all.flatten                                                -- L370

/-- `generate_features(p, max_num, max_den, exclude)`, L374-449, as numerator/denominator pairs of
lists of feature indices, before `_decode_key` (L271-311) writes a pair as a string; an empty list stands
for `1`.  Keys such as `'0*1*1'` are the index lists themselves. -/
def genFeatures (numP maxNum maxDen : Nat) (exclude : Bool) : List (List Nat × List Nat) :=
  let pos (N : Nat) (ex : Bool) : List (List Nat) :=
    genPositive List.flatten [] ((List.range numP).map fun i => [i]) N ex
  if maxDen = 0 then (pos maxNum exclude).map fun k => (k, [])               -- L411-412
  else if maxNum = 0 then (pos maxDen exclude).map fun k => ([], k)          -- L413-422
  else
    let k1 := pos maxNum true                                                -- L427
    let k2 := pos maxDen true                                                -- L429
    (k1.flatMap fun a => (k2.filter fun b => a.all fun x => !b.contains x).map fun b => (a, b))
      ++ k1.map (fun a => (a, [])) ++ k2.map (fun b => ([], b))              -- L431-443
      ++ (if exclude then [] else [([], [])])                                -- L444-445

end CatLearn.FeatEng
