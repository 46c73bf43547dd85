import Verif.Model.Curve

/-!
# The options of `hierarchy` and `feature_frequency`

Models catlearn/learning_curve/learning_curve.py L121-239 with the options `globalscale` and
`featselect_featvar`, and `predict_subsets`, `get_data_scale`, `reg_feat_var` and `getstats` of
catlearn/learning_curve/placeholder.py (L92-108, L144-163, L198-229, L274-307) for a varying number of features.

Simplifications.  Scaling, sizes and errors are not followed: an error is identified by the subsets and the set of
features it belongs to and by the coefficients it is computed with.  The feature selection is a parameter: the list of sets of
features it found.
-/

namespace CatLearn.CurveOptions

open CatLearn CatLearn.Curve

/-- Use of a local variable of a Python function: UnboundLocalError (a NameError) if it was not assigned. -/
def useLocal {α : Type} : Option α → Except PyErr α
  | none => .error .name
  | some a => .ok a

/-- An entry of `p_error` with a varying number of features. -/
structure FitVar (γ : Type) where
  train : Nat × Nat
  test : Nat × Nat
  features : List Nat
  coef : γ

/-- The loop of `reg_feat_var`, placeholder.py L202-228, over the sets of features that are left; `new` is
`self.new_training`, which L225 sets again after every set.  `result_x` is empty (L203-208), so that without a new training
`result[0]` (L261) does not exist. -/
def regFeatVar {γ : Type} (fit : Nat × Nat → List Nat → γ) (train test : Nat × Nat) :
    Bool → List (List Nat) → List (FitVar γ) → Except PyErr (List (FitVar γ))
  | _, [], acc => .ok acc
  | new, fs :: rest, acc =>
    if new then regFeatVar fit train test true rest (acc ++ [⟨train, test, fs, fit train fs⟩])
    else .error .index

/-- The loop of `predict_subsets`, placeholder.py L94-106, over the test subsets that are left.  The last component tells
whether the loop was left because no set of features was found (L101-105). -/
def predictVar {γ : Type} (fit : Nat × Nat → List Nat → γ) (sels : List (List Nat)) (train : Nat × Nat) :
    List (Nat × Nat) → List (FitVar γ) → Except PyErr (List (FitVar γ) × Bool)
  | [], acc => .ok (acc, false)
  | t :: ts, acc =>
    if sels = [] then                                            -- L155-156 returns the lists as they are
      if acc = [] then .ok (acc, true) else predictVar fit sels train ts acc
    else match regFeatVar fit train t true sels acc with         -- L158-163
      | .error e => .error e
      | .ok acc => if acc = [] then .ok (acc, true) else predictVar fit sels train ts acc

/-- The loop of `hierarchy`, learning_curve.py L149-173, with `featselect_featvar=True`.  The keys are pairs (level,
number). -/
def hierarchyVar {γ : Type} (fit : Nat × Nat → List Nat → γ) (sels : List (List Nat)) (hierLevel : Nat) :
    List (Nat × Nat) → List (FitVar γ) → Except PyErr (List (FitVar γ))
  | [], acc => .ok acc
  | k :: ks, acc =>
    let acc := if k.1 < hierLevel then [] else acc               -- placeholder.py L90-93
    match predictVar fit sels k
      (((List.range' 1 (2 ^ k.1)).filter fun s => s ≠ k.2).map fun s => (k.1, s)) acc with
    | .error e => .error e
    | .ok (acc, stopped) =>
      let index2 := if stopped then 0 else k.2                   -- placeholder.py L103
      if index2 = 1 then .error .type                            -- L163-167: `np.vstack()` without arguments
      else if acc = [] then .ok acc                              -- L169-171
      else hierarchyVar fit sels hierLevel ks acc

/-- What `hierarchy` returns: errors for a fixed or for a varying number of features. -/
inductive Errors (γ : Type) where
  | const (l : List (Fit (Nat × Nat) γ))
  | var (l : List (FitVar γ))

/-- `hierarchy(…)`, learning_curve.py L121-173.  `glob` is what the global scaling gives (`glob_feat1` and `glob_tar1`,
L136-143); without it (L144-146) only `s_feat` and `m_feat` are assigned.  The arguments of `placeholder` (L149-156) are
evaluated for every key. -/
def hierarchyOpts {γ G : Type} (glob : G) (globalscale featvar : Bool) (fit : Nat × Nat → List Nat → γ)
    (sels : List (List Nat)) (const : List Nat) (hierLevel : Nat) (keys : List (Nat × Nat)) : Except PyErr (Errors γ) :=
  let globFeat1 : Option G := if globalscale then some glob else none
  match keys with
  | [] => .ok (.var [])
  | _ =>
    match useLocal globFeat1 with
    | .error e => .error e
    | .ok _ =>
      if featvar then
        match hierarchyVar fit sels hierLevel keys [] with
        | .error e => .error e
        | .ok l => .ok (.var l)
      else
        match Curve.hierarchy (fun k => fit k const) keys [] with
        | .error e => .error e
        | .ok l => .ok (.const l)

/-- `feature_frequency(…)`, learning_curve.py L208-239, and `getstats`, placeholder.py L274-307: with `smallest=True` the
globally scaled subset is discarded (L226-229), but `s_feat` (L231) is assigned only with global scaling.  `select`
are the features selected from the given subset, if any, otherwise from the smallest one. -/
def featureFrequency {G F : Type} (glob : G) (globalscale smallest : Bool) (select : Option G → F) : Except PyErr F :=
  let sFeat : Option Unit := if globalscale then some () else none
  let globFeat1 : Option (Option G) :=
    if smallest then some none else if globalscale then some (some glob) else none
  match useLocal sFeat with
  | .error e => .error e
  | .ok _ =>
    match useLocal globFeat1 with
    | .error e => .error e
    | .ok g => .ok (select g)

end CatLearn.CurveOptions
