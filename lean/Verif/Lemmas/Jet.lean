import Verif.Lemmas.PSD

/-!
# Kernels of values and partial derivatives

A jet kernel on points `α` with directions `ι` gives the covariance of values and directional derivatives.  Jets can be
multiplied (Leibniz' rule) and put into the exponential (chain rule), and stay positive semidefinite.
-/

namespace CatLearn.PSD

open Matrix

variable {α β γ ι : Type}

/-- Linear combinations of two of the variables. -/
theorem PSDK.comb {k : β → β → ℝ} (hk : PSDK k) (h : γ → Bool → β) (c : γ → Bool → ℝ) :
    PSDK (fun p q : γ => ∑ b : Bool, ∑ b' : Bool, c p b * c q b' * k (h p b) (h q b')) := by
  have h1 := (hk.comp fun pb : γ × Bool => h pb.1 pb.2).mul (psdk_rank_one fun pb : γ × Bool => c pb.1 pb.2)
  refine psdk_of_form (fun p q => ?_) (fun s v => ?_)
  · rw [Finset.sum_comm]
    refine Finset.sum_congr rfl fun b _ => Finset.sum_congr rfl fun b' _ => ?_
    rw [hk.symm]; ring
  · have h2 := h1.form (s ×ˢ Finset.univ) (fun pb => v pb.1)
    rw [Finset.sum_product] at h2
    convert h2 using 2 with p hp
    simp only [Finset.sum_product]
    rw [Finset.sum_comm]
    refine Finset.sum_congr rfl fun q _ => ?_
    simp only [Fintype.sum_bool]
    ring

/-- Points and derivatives at points. -/
abbrev Jet (α ι : Type) : Type := α ⊕ α × ι

/-- The point of a jet. -/
def Jet.pt : Jet α ι → α
  | .inl x => x
  | .inr (x, _) => x

/-- Leibniz' rule for one side. -/
private def leib : Jet α ι → Bool → Jet α ι × Jet α ι
  | .inl x, _ => (.inl x, .inl x)
  | .inr (x, a), true => (.inr (x, a), .inl x)
  | .inr (x, a), false => (.inl x, .inr (x, a))

private def leibC : Jet α ι → Bool → ℝ
  | .inl _, true => 1
  | .inl _, false => 0
  | .inr _, _ => 1

/-- The product of two jet kernels. -/
def jetMul (K L : Jet α ι → Jet α ι → ℝ) : Jet α ι → Jet α ι → ℝ
  | .inl x, .inl y => K (.inl x) (.inl y) * L (.inl x) (.inl y)
  | .inl x, .inr (y, b) =>
    K (.inl x) (.inr (y, b)) * L (.inl x) (.inl y) + K (.inl x) (.inl y) * L (.inl x) (.inr (y, b))
  | .inr (x, a), .inl y =>
    K (.inr (x, a)) (.inl y) * L (.inl x) (.inl y) + K (.inl x) (.inl y) * L (.inr (x, a)) (.inl y)
  | .inr (x, a), .inr (y, b) =>
    K (.inr (x, a)) (.inr (y, b)) * L (.inl x) (.inl y) + K (.inr (x, a)) (.inl y) * L (.inl x) (.inr (y, b)) +
      K (.inl x) (.inr (y, b)) * L (.inr (x, a)) (.inl y) + K (.inl x) (.inl y) * L (.inr (x, a)) (.inr (y, b))

theorem PSDK.jetMul {K L : Jet α ι → Jet α ι → ℝ} (hK : PSDK K) (hL : PSDK L) : PSDK (jetMul K L) := by
  have h1 : PSDK (fun p q : Jet α ι × Jet α ι => K p.1 q.1 * L p.2 q.2) :=
    (hK.comp Prod.fst).mul (hL.comp Prod.snd)
  have h2 := h1.comb leib leibC
  have : PSD.jetMul K L = fun p q : Jet α ι => ∑ b : Bool, ∑ b' : Bool,
      leibC p b * leibC q b' * (K (leib p b).1 (leib q b').1 * L (leib p b).2 (leib q b').2) := by
    funext p q
    rcases p with x | ⟨x, a⟩ <;> rcases q with y | ⟨y, b⟩ <;>
      simp [PSD.jetMul, leib, leibC] <;> ring
  rw [this]
  exact h2

/-- The chain rule: the jet of `f (S x y)`, given `f` and its first two derivatives. -/
def jetComp (f f' f'' : ℝ → ℝ) (S : Jet α ι → Jet α ι → ℝ) : Jet α ι → Jet α ι → ℝ
  | .inl x, .inl y => f (S (.inl x) (.inl y))
  | .inl x, .inr (y, b) => f' (S (.inl x) (.inl y)) * S (.inl x) (.inr (y, b))
  | .inr (x, a), .inl y => f' (S (.inl x) (.inl y)) * S (.inr (x, a)) (.inl y)
  | .inr (x, a), .inr (y, b) =>
    f'' (S (.inl x) (.inl y)) * (S (.inr (x, a)) (.inl y) * S (.inl x) (.inr (y, b))) +
      f' (S (.inl x) (.inl y)) * S (.inr (x, a)) (.inr (y, b))

private theorem jetComp_pow {S : Jet α ι → Jet α ι → ℝ} (hS : PSDK S) (m : ℕ) :
    PSDK (jetComp (fun s => s ^ m) (fun s => m * s ^ (m - 1)) (fun s => m * ((m - 1 : ℕ) * s ^ (m - 1 - 1))) S) := by
  induction m with
  | zero =>
    have := psdk_rank_one (fun p : Jet α ι => match p with | .inl _ => (1:ℝ) | .inr _ => 0)
    convert this using 3 with p q
    rcases p with x | ⟨x, a⟩ <;> rcases q with y | ⟨y, b⟩ <;> simp [jetComp]
  | succ m ih =>
    have := ih.jetMul hS
    convert this using 1
    funext p q
    rcases p with x | ⟨x, a⟩ <;> rcases q with y | ⟨y, b⟩ <;> simp only [jetComp, jetMul]
    · rw [pow_succ]
    · rcases m with _ | m
      · simp
      · simp; ring
    · rcases m with _ | m
      · simp
      · simp; ring
    · rcases m with _ | _ | m
      · simp
      · simp; ring
      · simp; ring

/-- The exponential of a jet kernel. -/
theorem PSDK.jetExp {S : Jet α ι → Jet α ι → ℝ} (hS : PSDK S) :
    PSDK (jetComp Real.exp Real.exp Real.exp S) := by
  refine psdk_of_tendsto (k := fun m p q => ((List.range (m + 2)).map fun (i : ℕ) =>
    (i.factorial : ℝ)⁻¹ * jetComp (fun s => s ^ i) (fun s => i * s ^ (i - 1))
      (fun s => i * ((i - 1 : ℕ) * s ^ (i - 1 - 1))) S p q).sum) (fun m => ?_) (fun p q => ?_)
  · exact psdk_list_sum _ _ fun i _ => (jetComp_pow hS i).smul (by positivity)
  · have hsum : ∀ (m : ℕ) (g : ℕ → ℝ), ((List.range m).map g).sum = ∑ i ∈ Finset.range m, g i := by
      intro m g
      induction m with
      | zero => rfl
      | succ m ih => rw [Finset.sum_range_succ, List.range_succ, List.map_append, List.sum_append, ih]; simp
    simp only [hsum]
    have hexp : ∀ s : ℝ, Filter.Tendsto (fun m : ℕ => ∑ i ∈ Finset.range m, (i.factorial : ℝ)⁻¹ * s ^ i)
        Filter.atTop (nhds (Real.exp s)) := by
      intro s
      have := (NormedSpace.expSeries_div_hasSum_exp s).tendsto_sum_nat
      rw [← Real.exp_eq_exp_ℝ] at this
      simpa [div_eq_inv_mul] using this
    have e0 : ∀ s : ℝ, Filter.Tendsto (fun m : ℕ => ∑ i ∈ Finset.range (m + 2), (i.factorial : ℝ)⁻¹ * s ^ i)
        Filter.atTop (nhds (Real.exp s)) := fun s => (hexp s).comp (Filter.tendsto_add_atTop_nat 2)
    have e1 : ∀ s : ℝ, Filter.Tendsto (fun m : ℕ => ∑ i ∈ Finset.range (m + 2), (i.factorial : ℝ)⁻¹ *
        (i * s ^ (i - 1))) Filter.atTop (nhds (Real.exp s)) := by
      intro s
      refine ((hexp s).comp (Filter.tendsto_add_atTop_nat 1)).congr fun m => ?_
      rw [Finset.sum_range_succ']
      simp only [Function.comp]
      simp
      refine Finset.sum_congr rfl fun i _ => ?_
      rw [Nat.factorial_succ]
      push_cast
      have : (i:ℝ) + 1 ≠ 0 := by positivity
      field_simp
    have e2 : ∀ s : ℝ, Filter.Tendsto (fun m : ℕ => ∑ i ∈ Finset.range (m + 2), (i.factorial : ℝ)⁻¹ *
        (i * ((i - 1 : ℕ) * s ^ (i - 1 - 1)))) Filter.atTop (nhds (Real.exp s)) := by
      intro s
      refine (hexp s).congr fun m => ?_
      rw [Finset.sum_range_succ', Finset.sum_range_succ']
      simp
      refine Finset.sum_congr rfl fun i _ => ?_
      rw [Nat.factorial_succ, Nat.factorial_succ]
      push_cast
      have : (i:ℝ) + 1 ≠ 0 := by positivity
      have : (i:ℝ) + 1 + 1 ≠ 0 := by positivity
      field_simp
    rcases p with x | ⟨x, a⟩ <;> rcases q with y | ⟨y, b⟩ <;> simp only [jetComp]
    · exact e0 _
    · refine ((e1 (S (.inl x) (.inl y))).mul_const (S (.inl x) (.inr (y, b)))).congr fun m => ?_
      rw [Finset.sum_mul]
      exact Finset.sum_congr rfl fun i _ => by ring
    · refine ((e1 (S (.inl x) (.inl y))).mul_const (S (.inr (x, a)) (.inl y))).congr fun m => ?_
      rw [Finset.sum_mul]
      exact Finset.sum_congr rfl fun i _ => by ring
    · refine (((e2 (S (.inl x) (.inl y))).mul_const (S (.inr (x, a)) (.inl y) * S (.inl x) (.inr (y, b)))).add
        ((e1 (S (.inl x) (.inl y))).mul_const (S (.inr (x, a)) (.inr (y, b))))).congr fun m => ?_
      rw [Finset.sum_mul, Finset.sum_mul, ← Finset.sum_add_distrib]
      exact Finset.sum_congr rfl fun i _ => by ring

end CatLearn.PSD
