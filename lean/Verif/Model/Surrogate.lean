import Verif.Model.GPGrad

/-!
# The surrogate models of `MLNEB` and `MLMin`: `train_gp_model`, catlearn/optimize/mlneb.py L668-724, and the training part
of `MLMin.run`, catlearn/optimize/mlmin.py L154-252, L367-380

Positions are vectors of `M` coordinates, of which the mask (the indices of the free coordinates, `index_mask`) keeps `N`; without
constraints it keeps all.
-/

namespace CatLearn.Surrogate

open CatLearn CatLearn.Kernel CatLearn.GradProc

/-- `np.max`. -/
noncomputable def npMax : List ℝ → Except PyErr ℝ
  | [] => .error .value
  | x :: l => .ok (l.foldl max x)

/-- `1e-3 + np.std(targets)**2`, mlneb.py L676. -/
noncomputable def sigmaF (t : List ℝ) : ℝ :=
  1 / 1000 + Real.sqrt ((t.map fun x => (x - t.sum / t.length) ^ 2).sum / t.length) ^ 2

/-- The hyperparameters: the widths of the Gaussian kernel (all the same for the dimension `single`), and the noise of the
energies and of the forces. -/
structure Hyper (N : ℕ) where
  width : Fin N → ℝ
  noiseE : ℝ
  noiseF : ℝ

/-- The list of kernels, mlneb.py L690-699: a Gaussian kernel with `scaling` and `noise_multi`. -/
noncomputable def kernels {N : ℕ} (scaling : ℝ) (h : Hyper N) : List (GDict N) :=
  [⟨.gaussian h.width, scaling, false⟩, ⟨.noiseMulti h.noiseE h.noiseF, 1, false⟩]

/-- `train_gp_model`, mlneb.py L669-724: the model and the maximum of the targets.  `minimizer` gives the optimised hyperparameters (the
bounds keep the scaling and the regularisation as they are); a width that is not positive is an AssertionError (kernel_setup.py
L151-153). -/
noncomputable def trainGP {M N : ℕ} (minimizer : GradGP N → Hyper N) (mask : Fin N → Fin M) (dist : ℝ) (x : List (Fin M → ℝ))
    (t : List ℝ) (g : List (Fin M → ℝ)) : Except PyErr (GradGP N × ℝ) :=
  match npMax t with
  | .error e => .error e
  | .ok m =>
    let s := t.map (· - m)
    let sf := sigmaF s
    if x.length ≠ s.length then .error .assertion
    else if dist / 2 ≤ 0 then .error .assertion
    else
      match init (x.map (· ∘ mask)) s (g.map (· ∘ mask)) (kernels sf ⟨fun _ => dist / 2, 5 / 1000, 5 / 10000⟩) (some 0) false with
      | .error e => .error e
      | .ok gp =>
        match finish { gp with kernels := kernels sf (minimizer gp) } false with
        | .error e => .error e
        | .ok gp' => .ok (gp', m)

/-- The energy of `ASECalc`, mlneb.py L775-790: the prediction plus the maximum of the targets. -/
noncomputable def energy {M N : ℕ} (r : GradGP N × ℝ) (mask : Fin N → Fin M) (x : Fin M → ℝ) : Except PyErr (Option ℝ) :=
  match predict r.1 (x ∘ mask) with
  | .error e => .error e
  | .ok p => .ok (p.map (· + r.2))

/-- The uncertainty of a position, mlneb.py L736-742 without the factor. -/
noncomputable def unc {M N : ℕ} (r : GradGP N × ℝ) (mask : Fin N → Fin M) (x : Fin M → ℝ) : Except PyErr (Option ℝ) :=
  uncertainty r.1 (x ∘ mask)

/-! ### `MLMin` -/

/-- The values of the argument `kernel` that are known; any other string is `unknown`. -/
inductive KernelName where
  | sqeFixed
  | sqe
  | ardSqe
  | unknown

/-- What the kernel dictionaries of one list hold: scaling and hyperparameters. -/
structure Dict (N : ℕ) where
  scaling : ℝ
  hyper : Hyper N

/-- The local variables of `run` that survive an iteration, and the lists of kernel dictionaries, which are objects: `heap r` is the content
of list number `r`, `next` the number of lists so far. -/
structure Vars (N : ℕ) where
  kdict : Option ℕ := none
  opt : Bool := false
  success : Option ℕ := none
  heap : ℕ → Dict N
  next : ℕ := 0

/-- A new list of dictionaries, bound to `kdict`. -/
def Vars.new {N : ℕ} (v : Vars N) (d : Dict N) (opt : Bool) : Vars N :=
  { v with kdict := some v.next, opt := opt, heap := Function.update v.heap v.next d, next := v.next + 1 }

/-- L169-208: the list for the argument `kernel`; nothing for an unknown one. -/
noncomputable def Vars.byName {N : ℕ} (v : Vars N) (name : KernelName) (noise sf : ℝ) : Vars N :=
  match name with
  | .sqeFixed => v.new ⟨1, ⟨fun _ => 0.4, noise * 0.4 ^ 2, noise⟩⟩ false
  | .sqe => v.new ⟨sf, ⟨fun _ => 0.4, noise, noise * 0.4 ^ 2⟩⟩ true
  | .ardSqe => v.new ⟨sf, ⟨fun _ => 0.4, noise / 2, noise / 10⟩⟩ true
  | .unknown => v

/-- L210-224: one target so far. -/
noncomputable def Vars.single {N : ℕ} (v : Vars N) (noise sf : ℝ) (n : ℕ) : Vars N :=
  if n = 1 then v.new ⟨sf, ⟨fun _ => 0.2, noise * 0.4 ^ 2, noise⟩⟩ false else v

/-- The training in one iteration, L169-252, for `n` targets with `sigma_f = sf`.  `opt` is what the optimisation of the hyperparameters
would give: the final values and whether it was successful; it works on the dictionaries in place (`list2kdict`), `prepare_kernels` copies
nothing.  The result has the content of the dictionaries when the model is made and the number of the list; UnboundLocalError if there is
none. -/
noncomputable def trainStep {N : ℕ} (name : KernelName) (noise sf : ℝ) (n : ℕ) (opt : Dict N → Hyper N × Bool) (v : Vars N) :
    Except PyErr (Dict N × ℕ × Vars N) :=
  let v := (v.byName name noise sf).single noise sf n
  let v := match v.success with
    | none => v
    | some r => { v with kdict := some r }
  match v.kdict with
  | none => .error .name
  | some r =>
    let d := v.heap r
    if v.opt ∧ n > 5 then
      let v' := { v with heap := Function.update v.heap r { d with hyper := (opt d).1 } }
      .ok (d, r, if (opt d).2 then { v' with success := some r } else v')
    else .ok (d, r, v)

/-- The dictionaries of the model that an iteration used, when the iteration is over. -/
noncomputable def used {N : ℕ} (s : Dict N × ℕ × Vars N) : Dict N := s.2.2.heap s.2.1

/-- Several iterations: each with `n` targets, `sigma_f` and the result of the optimisation. -/
noncomputable def trainLoop {N : ℕ} (name : KernelName) (noise : ℝ) : List (ℝ × ℕ × (Dict N → Hyper N × Bool)) → Vars N →
    Except PyErr (List (Dict N) × Vars N)
  | [], v => .ok ([], v)
  | i :: is, v =>
    match trainStep name noise i.1 i.2.1 i.2.2 v with
    | .error e => .error e
    | .ok s =>
      match trainLoop name noise is s.2.2 with
      | .error e => .error e
      | .ok (l, v') => .ok (used s :: l, v')

end CatLearn.Surrogate
