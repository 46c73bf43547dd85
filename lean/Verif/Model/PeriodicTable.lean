import Verif.Model.Py
import Mathlib.Data.Rat.Defs
import Mathlib.Algebra.Order.Field.Rat

/-!
# Model of `catlearn/featurize/periodic_table_data.py`

Strings that are scanned are lists of characters.  `Char.isUpper`, `Char.isLower`, `Char.isDigit`,
`Char.isAlpha` are the ASCII classes; the Python methods also know other alphabets.  A value that may
be missing (`None`, NaN in the returned arrays) is an `Option`.
-/

namespace CatLearn.PeriodicTable

open CatLearn

/-! ### `n_outer`, L51-74 -/

/-- `int(s)` for a string of characters; anything but digits raises ValueError. -/
def intOf (s : List Char) : Except PyErr Nat :=
  if s ≠ [] ∧ s.all Char.isDigit then .ok (s.foldl (fun n c => 10 * n + (c.toNat - 48)) 0)
  else .error .value

/-- The number of electrons of one shell, L58-64. -/
def shellCount (shell : List Char) : Except PyErr Nat :=
  match shell.getLast? with
  | none => .error .index                                        -- `''[-1]`
  | some c =>
    if c.isAlpha then .ok 1                                      -- L59-60
    else if shell.length = 3 then intOf [c]                      -- L61-62
    else if shell.length = 4 then intOf (shell.drop 2)           -- L63-64, `shell[-2:]`
    else .ok 0

/-- The five counters of `n_outer` (L52-56). -/
structure Outer where
  tot : Nat
  s : Nat
  p : Nat
  d : Nat
  f : Nat
  deriving DecidableEq, Repr

/-- The counters after a shell with `n` electrons, L65-73. -/
def addShell (o : Outer) (shell : List Char) (n : Nat) : Outer :=
  let o := { o with tot := o.tot + n }
  if 's' ∈ shell then { o with s := o.s + n }
  else if 'p' ∈ shell then { o with p := o.p + n }
  else if 'd' ∈ shell then { o with d := o.d + n }
  else if 'f' ∈ shell then { o with f := o.f + n }
  else o

/-- The loop of `n_outer`, L57-73. -/
def outerLoop : List (List Char) → Outer → Except PyErr Outer
  | [], o => .ok o
  | shell :: rest, o =>
    match shellCount shell with
    | .error e => .error e
    | .ok n => outerLoop rest (addShell o shell n)

/-- `n_outer(econf)`, L51-74: the first word is skipped (L57). -/
def nOuter (econf : List Char) : Except PyErr Outer :=
  outerLoop ((econf.splitOn ' ').drop 1) ⟨0, 0, 0, 0, 0⟩

/-! ### `list_mendeleev_params`, `make_labels` -/

/-- The entry of one element in the data file (`data[str(Z)]`, L14-17): the plain numbers by name
(`None` where missing), and the parameters that are not numbers. -/
structure Elem where
  plain : String → Option Rat
  oxistates : Option (List Rat)
  econf : List Char
  block : Char
  ionenergies1 : Rat

/-- A raw value of `get_mendeleev_params` (L106-108). -/
inductive Raw where
  | num (v : Option Rat)
  | list (l : Option (List Rat))
  | str (s : List Char)
  | dict (first : Rat)

/-- The four names with a special treatment (L127-137). -/
def isSpecial (p : String) : Bool :=
  p = "oxistates" || p = "econf" || p = "block" || p = "ionenergies"

/-- `data[str(an)].get(p)`, L108. -/
def Elem.get (e : Elem) (p : String) : Raw :=
  if p = "oxistates" then .list e.oxistates
  else if p = "econf" then .str e.econf
  else if p = "block" then .str [e.block]
  else if p = "ionenergies" then .dict e.ionenergies1
  else .num (e.plain p)

/-- `get_mendeleev_params(Z, params)` for one atomic number, L77-110; an unknown number raises
KeyError. -/
def getParams (table : Nat → Option Elem) (z : Nat) (params : List String) :
    Except PyErr (List Raw) :=
  match table z with
  | none => .error .key
  | some e => .ok (params.map e.get)

/-- `np.nanmedian` of a nonempty list. -/
def median (l : List Rat) : Rat :=
  let s := sortAsc id l
  (s.getD ((l.length - 1) / 2) 0 + s.getD (l.length / 2) 0) / 2

/-- `block2number`, L20-23; another letter raises KeyError. -/
def blockNumber (c : Char) : Except PyErr (List (Option Rat)) :=
  if c = 's' then .ok [some 1, some 0, some 0, some 0]
  else if c = 'p' then .ok [some 0, some 1, some 0, some 0]
  else if c = 'd' then .ok [some 0, some 0, some 1, some 0]
  else if c = 'f' then .ok [some 0, some 0, some 0, some 1]
  else .error .key

/-- What one special parameter appends to the line, L147-156. -/
def expand (p : String) (raw : Raw) : Except PyErr (List (Option Rat)) :=
  match raw with
  | .list none => .error .type                                   -- `np.nanmin(None)`
  | .list (some l) =>
    match l.min?, l.max? with                                    -- `np.nanmin([])` raises ValueError
    | some a, some b => .ok [some a, some (median l), some b]
    | _, _ => .error .value
  | .str s =>
    if p = "econf" then
      match nOuter s with
      | .error e => .error e
      | .ok o => .ok [some o.tot, some o.s, some o.p, some o.d, some o.f]
    else match s with
      | [c] => blockNumber c
      | _ => .error .key
  | .dict v => .ok [some v]
  | .num _ => .ok []

/-- The loop over the parameters that extends the line, L146-156. -/
def expandAll : List (String × Raw) → Except PyErr (List (Option Rat))
  | [] => .ok []
  | (p, raw) :: rest =>
    match (if isSpecial p then expand p raw else .ok []), expandAll rest with
    | .ok a, .ok b => .ok (a ++ b)
    | .error e, _ => .error e
    | _, .error e => .error e

/-- Conversion of a raw entry by `np.array(dat, dtype=float)`, L160: a list or a string raises
ValueError, a dictionary TypeError. -/
def toFloat : Raw → Except PyErr (Option Rat)
  | .num v => .ok v
  | .list _ => .error .value
  | .str _ => .error .value
  | .dict _ => .error .type

/-- The number of columns, L124-137. -/
def nParams (params : List String) : Nat :=
  (params.map fun p => if p = "oxistates" then 3 else if p = "econf" then 5
    else if p = "block" then 4 else 1).sum

/-- `mnlv[:-special]` if there are special parameters, else `mnlv` (L142-145). -/
def lineStart (params : List String) (mnlv : List Raw) : List Raw :=
  mnlv.take (mnlv.length - params.countP isSpecial)

/-- One line of the result, L140-160 (the conversion to float is applied line by line). -/
def line (table : Nat → Option Elem) (params : List String) (z : Nat) :
    Except PyErr (List (Option Rat)) :=
  match getParams table z params with
  | .error e => .error e
  | .ok mnlv =>
    match expandAll (params.zip mnlv), (lineStart params mnlv).mapM toFloat with
    | .error e, _ => .error e
    | _, .error e => .error e
    | .ok b, .ok a => .ok (a ++ b)

/-- `list_mendeleev_params(numbers, params)`, L113-164.  Without atoms the result is one row of NaN
(L158-159). -/
def listParams (table : Nat → Option Elem) (numbers : List Nat) (params : List String) :
    Except PyErr (List (List (Option Rat))) :=
  match numbers.mapM (line table params) with
  | .error e => .error e
  | .ok rows =>
    let rows := if rows = [] then [List.replicate (nParams params) none] else rows
    if rows.all (fun r => r.length = nParams params) then .ok rows else .error .assertion  -- L163

/-- The labels of one parameter in `make_labels`, L335-349. -/
def labelsOf (pre suf p : String) : List String :=
  if p = "oxistates" then ["min", "med", "max"].map fun s => pre ++ "oxi_" ++ s ++ suf
  else if p = "block" then ["s", "p", "d", "f"].map fun s => pre ++ s ++ "block" ++ suf
  else if p = "econf" then ["outer", "s", "p", "d", "f"].map fun s => pre ++ "ne_" ++ s ++ suf
  else if p = "ionenergies" then [pre ++ "ionenergy" ++ suf]
  else [pre ++ p ++ suf]

/-- `make_labels(params, prefix, suffix)`, L317-350. -/
def makeLabels (params : List String) (pre suf : String) : List String :=
  params.flatMap (labelsOf pre suf)

/-! ### `stat_mendeleev_params`, L167-278: reading a formula -/

/-- One match of `[-+]?\d*\.\d+` at the head of the text, with the rest (L178). -/
def matchDecimal (t : List Char) : Option (List Char × List Char) :=
  let (sign, t1) := match t with
    | c :: r => if c = '+' ∨ c = '-' then ([c], r) else ([], t)
    | [] => ([], [])
  match t1.dropWhile Char.isDigit with
  | '.' :: r =>
    if r.takeWhile Char.isDigit = [] then none
    else some (sign ++ t1.takeWhile Char.isDigit ++ '.' :: r.takeWhile Char.isDigit,
      r.dropWhile Char.isDigit)
  | _ => none

/-- `re.findall(r"[-+]?\d*\.\d+|\d+", composition)`, L178; the number of steps is bounded by the
length of the text. -/
def findCoefs : Nat → List Char → List (List Char)
  | 0, _ => []
  | _, [] => []
  | n + 1, c :: t =>
    match matchDecimal (c :: t) with
    | some (m, rest) => m :: findCoefs n rest
    | none =>
      if c.isDigit then
        (c :: t).takeWhile Char.isDigit :: findCoefs n ((c :: t).dropWhile Char.isDigit)
      else findCoefs n t

/-- Python indexing of a list, with negative positions counted from the end. -/
def pyIndex {A : Type} (l : List A) (i : Int) : Except PyErr A :=
  if 0 ≤ i then
    match l[i.toNat]? with | some a => .ok a | none => .error .index
  else if 0 ≤ i + l.length then
    match l[(i + l.length).toNat]? with | some a => .ok a | none => .error .index
  else .error .index

/-- The variables of the scan, L180-185.  A weight `none` is NaN. -/
structure Scan where
  symbol : List Char
  nFloat : Int
  nSymbol : Int
  weights : List (Option Rat)
  numbers : List Nat
  scanning : Bool

/-- The state before the loop, L180-185. -/
def Scan.start : Scan := ⟨[], -1, -1, [], [], false⟩

/-- A symbol ends, L188-198: a weight 1 is added if none was read, and the atomic number is looked up
in `ase.data.atomic_numbers`; an unknown symbol is forgotten together with its weight. -/
def flush (atomicNumber : List Char → Option Nat) (s : Scan) : Except PyErr Scan :=
  if 0 ≤ s.nSymbol then
    let s := if s.nFloat < s.nSymbol then
      { s with nFloat := s.nFloat + 1, weights := s.weights ++ [some 1] } else s
    match atomicNumber s.symbol with
    | some z => .ok { s with numbers := s.numbers ++ [z] }
    | none =>
      if s.weights = [] then .error .index
      else .ok { s with nSymbol := s.nSymbol - 1, weights := s.weights.dropLast }
  else .ok s

/-- One turn of the loop, L186-223. -/
def step (atomicNumber : List Char → Option Nat) (coefs : List Rat) (s : Scan) (c : Char) :
    Except PyErr Scan :=
  if c.isUpper then
    match flush atomicNumber s with
    | .error e => .error e
    | .ok s => .ok { s with symbol := [c], nSymbol := s.nSymbol + 1, scanning := false }  -- L200-202
  else if c.isLower then
    if c = 'x' then .ok { s with weights := s.weights ++ [none], nFloat := s.nFloat + 1 }  -- L205-207
    else .ok { s with symbol := s.symbol ++ [c] }                                          -- L209
  else if c.isDigit then
    if s.nSymbol = -1 then .ok s                                                           -- L211-213
    else if s.scanning then .ok s                                                          -- L215-216
    else match pyIndex coefs s.nFloat with                                                 -- L218
      | .error e => .error e
      | .ok w => .ok { s with weights := s.weights ++ [some w], nFloat := s.nFloat + 1,
                              scanning := true }
  else .ok s                                                                               -- L221-223

/-- The loop, L186-223. -/
def scanLoop (atomicNumber : List Char → Option Nat) (coefs : List Rat) :
    List Char → Scan → Except PyErr Scan
  | [], s => .ok s
  | c :: t, s =>
    match step atomicNumber coefs s c with
    | .error e => .error e
    | .ok s => scanLoop atomicNumber coefs t s

/-- The last symbol and the assertion, L225-235. -/
def finish (atomicNumber : List Char → Option Nat) (s : Scan) :
    Except PyErr (List Nat × List (Option Rat)) :=
  let s := if s.nFloat < s.nSymbol then
    { s with nFloat := s.nFloat + 1, weights := s.weights ++ [some 1] } else s
  match atomicNumber s.symbol with
  | some z =>
    if s.weights.length = (s.numbers ++ [z]).length then .ok (s.numbers ++ [z], s.weights)
    else .error .assertion
  | none =>
    if s.weights = [] then .error .index
    else if s.weights.dropLast.length = s.numbers.length then .ok (s.numbers, s.weights.dropLast)
    else .error .assertion

/-- The elements and the weights `stat_mendeleev_params(composition)` finds, L178-235.  `float` is the
conversion of a piece of text to a number. -/
def readFormula (atomicNumber : List Char → Option Nat) (float : List Char → Rat)
    (composition : List Char) : Except PyErr (List Nat × List (Option Rat)) :=
  match scanLoop atomicNumber ((findCoefs composition.length composition).map float) composition
    .start with
  | .error e => .error e
  | .ok s => finish atomicNumber s

/-- `stat_mendeleev_params(composition, params)`, L167-278: one line per element as in
`list_mendeleev_params`, and the weights. -/
def statParams (table : Nat → Option Elem) (atomicNumber : List Char → Option Nat)
    (float : List Char → Rat) (composition : List Char) (params : List String) :
    Except PyErr (List (List (Option Rat)) × List (Option Rat)) :=
  match readFormula atomicNumber float composition with
  | .error e => .error e
  | .ok (numbers, weights) =>
    match listParams table numbers params with
    | .error e => .error e
    | .ok rows => .ok (rows, weights)

end CatLearn.PeriodicTable
