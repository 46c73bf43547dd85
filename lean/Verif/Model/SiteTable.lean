import Verif.Model.Py
import Mathlib.Data.Nat.Digits.Defs
import Mathlib.Data.Real.Basic

/-!
# The tables of `SiteFeaturizer`: `site_features` and `features_of_all_sites`, catlearn/featurize/site_stability.py
L530-557 and L594-617, with `system_features`, L401-428

NaN is `none`.  Tables are those of `pandas` with `sort=False` (the default since version 1.0): `concat` appends the rows, and after the columns
of the first table the new columns of the second.
-/

namespace CatLearn.SiteTable

open CatLearn

/-- The columns for each element, L420-422: `Z0`, `n0`, `e_val0`, `Z1`, … -/
inductive Kind where
  | Z
  | n
  | e
  deriving DecidableEq

/-- The columns of a table: those every row has, before (`head`) and after (`tail`) the columns of the elements. -/
inductive Col where
  | head (k : ℕ)
  | atom (kind : Kind) (i : ℕ)
  | tail (k : ℕ)
  deriving DecidableEq

/-- What an element contributes, L415-422. -/
structure Elem where
  Z : ℝ
  n : ℝ
  e : ℝ

/-- The entry in a column. -/
def Elem.get (x : Elem) : Kind → ℝ
  | .Z => x.Z
  | .n => x.n
  | .e => x.e

/-- The features of one site (`get_features`, L247-260, with the columns added in L541-543 or L606). -/
structure Row where
  head : List (Option ℝ)
  elems : List Elem
  tail : List (Option ℝ)

/-- A table; a row has a value for every column, `none` where it is NaN. -/
structure Frame where
  cols : List Col
  rows : List (Col → Option ℝ)

/-- The columns of the table of one site. -/
def Row.cols (r : Row) : List Col :=
  (List.range r.head.length).map .head ++ ((List.range r.elems.length).flatMap fun i => [.atom .Z i, .atom .n i, .atom .e i]) ++
    (List.range r.tail.length).map .tail

/-- Its values. -/
def Row.value (r : Row) : Col → Option ℝ
  | .head k => (r.head[k]?).join
  | .atom kind i => (r.elems[i]?).map fun x => x.get kind
  | .tail k => (r.tail[k]?).join

/-- The table of one site. -/
def Row.frame (r : Row) : Frame := ⟨r.cols, [r.value]⟩

/-- `pd.concat([a, b], axis=0)`, L547 and L610. -/
def Frame.concat (a b : Frame) : Frame := ⟨a.cols ++ b.cols.filter (· ∉ a.cols), a.rows ++ b.rows⟩

/-- `fillna(0)`, L548 and L611. -/
noncomputable def Frame.fillna (f : Frame) : Frame :=
  { f with rows := f.rows.map fun r c => if c ∈ f.cols then some ((r c).getD 0) else none }

/-- One more site, L547-549 and L610-612. -/
noncomputable def Frame.add (f : Frame) (r : Row) : Frame := (f.concat r.frame).fillna

/-- The loop L534-549: UnboundLocalError without sites. -/
noncomputable def build : List Row → Except PyErr Frame
  | [] => .error .name
  | r :: rs => .ok (rs.foldl Frame.add r.frame)

/-- `'1' in x` for the name of a column, L551; only the names of element columns have digits. -/
def hasOne : Col → Bool
  | .atom _ i => decide (1 ∈ Nat.digits 10 i)
  | _ => false

/-- `atom1.replace('1', '0')`, L553: `none` if the result is not the name of a column (`Z10` gives `Z00`). -/
def substitute : Col → Option Col
  | .atom kind i =>
    if i = 1 then some (.atom kind 0)
    else if (Nat.digits 10 i).getLast? = some 1 then none
    else some (.atom kind (Nat.ofDigits 10 ((Nat.digits 10 i).map fun d => if d = 1 then 0 else d)))
  | c => some c

open Classical in
/-- L553-554 for one column: the lambda looks up the substitute only for rows with a zero. -/
noncomputable def replaceCol (f : Frame) (c : Col) : Except PyErr Frame :=
  if (∃ r ∈ f.rows, r c = some 0) ∧ ∀ c' ∈ f.cols, substitute c ≠ some c' then .error .key
  else .ok { f with rows := f.rows.map fun r => Function.update r c (if r c = some 0 then (substitute c).bind r else r c) }

/-- `site_features`, L530-557. -/
noncomputable def siteTable (rs : List Row) : Except PyErr Frame :=
  match build rs with
  | .error e => .error e
  | .ok f => (f.cols.filter hasOne).foldlM replaceCol f

/-! ### `features_of_all_sites` -/

/-- The column `material_number` is added last, L606. -/
def Row.numbered (r : Row) (i : ℕ) : Row := { r with tail := r.tail ++ [some (i : ℝ)] }

/-- L607-612 for atom number `a` of image number `i`. -/
noncomputable def allStep (st : Option Frame) (i a : ℕ) (r : Row) : Except PyErr (Option Frame) :=
  if i = 0 ∧ a = 0 then .ok (some (r.numbered i).frame)
  else
    match st with
    | none => .error .name
    | some f => .ok (some (f.add (r.numbered i)))

/-- The loop over the atoms of an image, L602-612. -/
noncomputable def imageLoop (i : ℕ) : ℕ → List Row → Option Frame → Except PyErr (Option Frame)
  | _, [], st => .ok st
  | a, r :: rs, st =>
    match allStep st i a r with
    | .error e => .error e
    | .ok st => imageLoop i (a + 1) rs st

/-- The loop over the images, L600-612. -/
noncomputable def imagesLoop : ℕ → List (List Row) → Option Frame → Except PyErr (Option Frame)
  | _, [], st => .ok st
  | i, rs :: images, st =>
    match imageLoop i 0 rs st with
    | .error e => .error e
    | .ok st => imagesLoop (i + 1) images st

/-- `features_of_all_sites`, L594-617; `images` has the features of all atoms of the images, `t` is the number of columns after those of the
elements, so that `material_number` is `tail t`: it is put first, and all columns but the last follow (L613-616). -/
noncomputable def allSites (t : ℕ) (images : List (List Row)) : Except PyErr Frame :=
  match imagesLoop 0 images none with
  | .error e => .error e
  | .ok none => .error .name
  | .ok (some f) => .ok { f with cols := .tail t :: f.cols.dropLast }

end CatLearn.SiteTable
