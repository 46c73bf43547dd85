import Verif.Model.FeatEng

/-!
# Features engineered one after the other from one matrix (catlearn/preprocess/feature_engineering.py L10-210)

A script holds one array and calls the functions on it, as test/test_feature_optimization.py L95-113 does.  The state is that array: `get_ablog` works on it in
place (L202), the other functions read it.
-/

namespace CatLearn.FeatEng

/-- A call of a script: `single_transform` (L10-28), `get_order_2` (L31-62), `get_div_order_2` (L65-98), `get_order_2ab` (L129-156) and `get_ablog`
(L181-210). -/
inductive Call
  | single
  | order2
  | div
  | order2ab (a b : ℝ)
  | ablog (a b : ℝ)

/-- Whether the call is one of `get_ablog`. -/
def Call.isAblog : Call → Bool
  | .ablog _ _ => true
  | _ => false

/-- One call on the array with columns `A` and `n` rows: what is returned, and the array afterwards.  `quot` and `pw` are numpy's division and power.  With no
rows `get_ablog` raises on L201, before the array is changed. -/
noncomputable def Call.run (quot pw : ℝ → ℝ → ℝ) (n : Nat) (A : List (List ℝ)) : Call → Except PyErr (List (List ℝ)) × List (List ℝ)
  | .single => (singleTransform A, A)
  | .order2 => (getOrder2 0 n A, A)
  | .div => (getDivOrder2 0 quot n A, A)
  | .order2ab a b => (getOrder2ab pw 0 n A a b, A)
  | .ablog a b =>
    match getAblog n A a b with
    | .ok (r, A') => (.ok r, A')
    | .error e => (.error e, A)

/-- The array after a number of calls. -/
noncomputable def afterCalls (quot pw : ℝ → ℝ → ℝ) (n : Nat) (A : List (List ℝ)) (l : List Call) : List (List ℝ) :=
  l.foldl (fun A c => (c.run quot pw n A).2) A

end CatLearn.FeatEng
