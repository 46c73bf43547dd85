import Verif.Model.Ridge

/-!
# Search of the regularisation: `catlearn/regression/ridge_regression.py` L81-145, L238-335, L383-407

Numbers are floats without rounding: reals, two infinities and NaN, because logarithms of zero and divisions by zero occur
(numpy warns and goes on).
-/

namespace CatLearn.RidgeSearch

open CatLearn CatLearn.Ridge Matrix

/-- A numpy float without rounding. -/
inductive Fl
  | nan
  | ninf
  | pinf
  | fin (x : ℝ)

namespace Fl

/-- Sum; infinities of opposite sign give NaN. -/
noncomputable def add : Fl → Fl → Fl
  | nan, _ => nan
  | _, nan => nan
  | ninf, pinf => nan
  | pinf, ninf => nan
  | ninf, _ => ninf
  | _, ninf => ninf
  | pinf, _ => pinf
  | _, pinf => pinf
  | fin x, fin y => fin (x + y)

/-- Change of sign. -/
noncomputable def neg : Fl → Fl
  | nan => nan
  | ninf => pinf
  | pinf => ninf
  | fin x => fin (-x)

/-- Product with a finite number; zero times infinity is NaN. -/
noncomputable def scale (c : ℝ) : Fl → Fl
  | nan => nan
  | ninf => if c = 0 then nan else if 0 < c then ninf else pinf
  | pinf => if c = 0 then nan else if 0 < c then pinf else ninf
  | fin x => fin (c * x)

/-- Quotient by a finite number; `x / 0` is infinite, `0 / 0` NaN. -/
noncomputable def divBy (a : Fl) (c : ℝ) : Fl :=
  if c = 0 then
    match a with
    | nan => nan
    | ninf => ninf
    | pinf => pinf
    | fin x => if x = 0 then nan else if 0 < x then pinf else ninf
  else scale c⁻¹ a

/-- `np.log`. -/
noncomputable def log : Fl → Fl
  | nan => nan
  | ninf => nan
  | pinf => pinf
  | fin x => if x < 0 then nan else if x = 0 then ninf else fin (Real.log x)

/-- `np.exp`. -/
noncomputable def exp : Fl → Fl
  | nan => nan
  | ninf => fin 0
  | pinf => pinf
  | fin x => fin (Real.exp x)

/-- `a ≤ b` between numbers (never asked of NaN below). -/
def le : Fl → Fl → Prop
  | ninf, _ => True
  | _, pinf => True
  | fin x, fin y => x ≤ y
  | _, _ => False

end Fl

/-- `np.linspace(a, b, k)`: `a + i * ((b - a) / (k - 1))`, the last value replaced by `b` if there is more than one; a single
value is `0 * (b - a) + a`. -/
noncomputable def linspace (a b : Fl) (k : ℕ) : List Fl :=
  let delta := b.add a.neg
  if k = 0 then []
  else if k = 1 then [(delta.scale 0).add a]
  else ((List.range (k - 1)).map fun (i : ℕ) => ((delta.divBy ((k : ℝ) - 1)).scale i).add a) ++ [b]

open Classical in
/-- The first element with the smallest key. -/
noncomputable def argminNum (key : Fl → Fl) : List Fl → Option Fl
  | [] => none
  | x :: xs =>
    match argminNum key xs with
    | none => some x
    | some y => if (key x).le (key y) then some x else some y

open Classical in
/-- `np.argmin`, L129-130: the first NaN if there is one, else the first of the smallest. -/
noncomputable def argmin (key : Fl → Fl) (l : List Fl) : Option Fl :=
  match l.find? fun x => decide (key x = .nan) with
  | some x => some x
  | none => argminNum key l

/-- The loop of `find_optimal_regularization`, L120-143, for the error estimate `epe` (either of the two cross validations).
`tried` are the values examined so far, `range` the ones to examine next.  For no values the list of errors is never bound
(L399-407, L261-277: UnboundLocalError, a NameError); for a single value it is a number, whose `tolist()` is no list
(L127: TypeError).  The early return at L132-133 compares a `np.int64` with an `int` by `is`, which is never true. -/
noncomputable def refine (epe : Fl → Fl) (wsteps : ℕ) :
    (rsteps : ℕ) → (tried range : List Fl) → (width best : Fl) → Except PyErr Fl
  | 0, _, _, _, best => .ok best
  | r + 1, tried, range, width, best =>
    if range.length = 0 then .error .name
    else if range.length = 1 then .error .type
    else
      match argmin epe (tried ++ range) with                                          -- L129-131
      | none => .ok best
      | some w =>
        let width' := (width.scale 2).divBy ((wsteps : ℝ) - 1)                         -- L137
        refine epe wsteps r (tried ++ range)
          ((linspace (w.log.add (width'.scale 0.5).neg) (w.log.add (width'.scale 0.5)) wsteps).map Fl.exp) width' w

/-- The initial range, L112-118. -/
noncomputable def initialRange (wlow whigh : Fl) (wsteps : ℕ) : List Fl :=
  [wlow.exp.scale 1e-6] ++ (linspace wlow whigh wsteps).map Fl.exp ++ [whigh.exp.scale 1e6]

/-- `find_optimal_regularization`, L81-145, from the largest and the smallest singular value of `XᵀX`.  Without a search
step the result is infinite (L98). -/
noncomputable def findOptimal (epe : Fl → Fl) (wFirst wLast : ℝ) (wsteps rsteps : ℕ) : Except PyErr Fl :=
  let whigh := (Fl.fin (wFirst * 2)).log
  let wlow := (Fl.fin (wLast * 0.5)).log
  refine epe wsteps rsteps [] (initialRange wlow whigh wsteps) (whigh.add wlow.neg) .pinf

/-! ## The bootstrap -/

variable {d : Type} [Fintype d] [DecidableEq d] {N : ℕ}

/-- The coefficients for one bootstrap sample (the indices of the drawn rows), L370-373 and L315-319. -/
noncomputable def sampleCoefs (svd : Svd d) (X : Matrix (Fin N) d ℝ) (Y : Fin N → ℝ) (p w : ℝ) (s : Fin N → Fin N) : d → ℝ :=
  let Xs := X.submatrix s id
  let D := svd (Xsᵀ * Xs)
  solve D.1 D.2 Xs (Y ∘ s) w p

/-- The errors on all data of the model of one sample, L321, by position. -/
noncomputable def sampleErrors (svd : Svd d) (X : Matrix (Fin N) d ℝ) (Y : Fin N → ℝ) (p w : ℝ) (s : Fin N → Fin N) (i : ℕ) : ℝ :=
  if h : i < N then (X *ᵥ sampleCoefs svd X Y p w s) ⟨i, h⟩ - Y ⟨i, h⟩ else 0

/-- `bootstrap_calc`, L292-335, with `_get_samples_svd`, L359-381: `err`, `ERR` and `EPE`; `W2`, `Vh` are those of the object.
`none` is NaN.  Without samples nothing is bound (UnboundLocalError); with a single sample the stacked arrays have a dimension
too few and `Vh_samples[:, :, i]` is an IndexError. -/
noncomputable def bootstrapCalc (svd : Svd d) (W2 : d → ℝ) (Vh : Matrix d d ℝ) (X : Matrix (Fin N) d ℝ) (Y : Fin N → ℝ) (p w : ℝ)
    (samples : List (Fin N → Fin N)) : Except PyErr (ℝ × Option ℝ × Option ℝ) :=
  match samples with
  | [] => .error .name
  | [_] => .error .index
  | _ =>
    let coefs := solve W2 Vh X Y w p
    let err := ∑ i, ((X *ᵥ coefs) i - Y i) ^ 2 / (N : ℝ)
    let errOut := bootstrapErr N (samples.map (sampleErrors svd X Y p w)) (samples.map fun s => List.ofFn fun j => (s j).val)
    .ok (err, errOut, errOut.map fun e => epe632 err e)

end CatLearn.RidgeSearch
