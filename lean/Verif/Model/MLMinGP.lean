import Verif.Model.MLMin
import Verif.Model.Surrogate

/-!
# The Gaussian process that `MLMin.run` trains, as a surrogate (catlearn/optimize/mlmin.py L154-252, L286-299, L367-380)
-/

namespace CatLearn.MLMin

open CatLearn CatLearn.Masks CatLearn.GradProc CatLearn.Kernel

/-- A masked row as a vector of `N` coordinates. -/
def toVec (N : ℕ) (l : List ℝ) : Fin N → ℝ := fun a => l.getD a 0

/-- `pred['prediction'][0][0]` and `pred['uncertainty_with_reg'][0]`, L292-295.  A model that was trained always gives a number (the targets are numbers). -/
def number : Except PyErr (Option ℝ) → ℝ
  | .ok (some v) => v
  | _ => 0

/-- L161-167, L226-252 and `fit`, L367-380: the maximum of the targets is subtracted, positions and gradients are masked, and a Gaussian process is trained with
regularisation 0 and without scaling; `uncertainty_with_reg` (gaussian_process.py L190-191) is then the uncertainty.  `kern` are the kernels, with their final
hyperparameters (L169-224, L240-252). -/
noncomputable def gpFit {N : ℕ} (mask : List ℕ) (kern : State → List (GDict N)) (st : State) : Except PyErr Surrogate :=
  match CatLearn.Surrogate.npMax st.targets with
  | .error e => .error e
  | .ok m =>
    match applyMask st.train mask with
    | .error e => .error e
    | .ok x =>
      match applyMask st.gradients mask with
      | .error e => .error e
      | .ok g =>
        match GradProc.init (x.2.map (toVec N)) (st.targets.map (· - m)) (g.2.map (toVec N)) (kern st) (some 0) false with
        | .error e => .error e
        | .ok gp => .ok ⟨fun u => number (predict gp (toVec N u)), fun u => number (uncertainty gp (toVec N u))⟩

end CatLearn.MLMin
