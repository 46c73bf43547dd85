import Verif.Model.Kernel

/-!
# What kernel dictionaries are meant to satisfy
-/

namespace CatLearn.Kernel

/-- A list of hyperparameters has one entry for each column or one entry in total, and the entries are positive unless
they are on a log scale. -/
def GoodWidths (log : Bool) (w : List ℝ) (ncols : Nat) : Prop :=
  (w.length = 1 ∨ w.length = ncols) ∧ (log = true ∨ ∀ t ∈ w, 0 < t)

/-- Kernel dictionaries with the lengths `prepare_kernels` arranges and positive hyperparameters (any reals on a log
scale). -/
def GoodKernel {N : Nat} (log : Bool) (k : KDict N) : Prop :=
  (log = true ∨ ∀ s, k.scaling = some s → 0 ≤ s) ∧
  match k.ktype with
  | .gaussian w => GoodWidths log w (columns k).length
  | .laplacian w => GoodWidths log w (columns k).length
  | .sqe w => GoodWidths log w (columns k).length
  | .quadratic slope degree _ => GoodWidths log slope (columns k).length ∧ (log = true ∨ 0 < degree)
  | .linear => True
  | .constant c => log = true ∨ 0 ≤ c
  | .noiseMulti h => h.length = 2

end CatLearn.Kernel
