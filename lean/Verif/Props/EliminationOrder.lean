import Verif.Props.Elimination
import Verif.Props.ScreeningFeatures

/-!
# C263: greedy elimination and the order of the features
-/

namespace CatLearn.Props

open CatLearn CatLearn.Elim

/-- The `step` lowest of a list are determined if no two are equally low. -/
private theorem lowest_unique (φ : ℕ → ℝ) {A B A' B' : List ℕ} (hp : (A ++ B).Perm (A' ++ B')) (hlen : A.length = A'.length)
    (hinj : ∀ f ∈ A ++ B, ∀ g ∈ A ++ B, φ f = φ g → f = g) (hA : A.Pairwise fun f g => φ f ≤ φ g) (hA' : A'.Pairwise fun f g => φ f ≤ φ g)
    (hAB : ∀ f ∈ A, ∀ g ∈ B, φ f ≤ φ g) (hAB' : ∀ f ∈ A', ∀ g ∈ B', φ f ≤ φ g) : A = A' ∧ B.Perm B' := by
  have hs : ∀ l : List ℕ, ((sortDesc (fun f => -φ f) l)).Pairwise fun f g => φ f ≤ φ g := fun l =>
    (sortDesc_pairwise (fun f => -φ f) l).imp fun h => by linarith
  have hsp : ∀ l : List ℕ, (sortDesc (fun f => -φ f) l).Perm l := fun l => sortDesc_perm _ l
  have e : A ++ sortDesc (fun f => -φ f) B = A' ++ sortDesc (fun f => -φ f) B' := by
    have hp' : (A ++ sortDesc (fun f => -φ f) B).Perm (A' ++ sortDesc (fun f => -φ f) B') :=
      ((List.perm_append_left_iff A).mpr (hsp B)).trans (hp.trans ((List.perm_append_left_iff A').mpr (hsp B').symm))
    refine List.Perm.eq_of_pairwise (le := fun f g => φ f ≤ φ g) ?_ ?_ ?_ hp'
    · intro f g hf hg h1 h2
      have hf' : f ∈ A ++ B := ((List.perm_append_left_iff A).mpr (hsp B)).mem_iff.mp hf
      have hg' : g ∈ A ++ B := hp.mem_iff.mpr (((List.perm_append_left_iff A').mpr (hsp B')).mem_iff.mp hg)
      exact hinj f hf' g hg' (le_antisymm h1 h2)
    · rw [List.pairwise_append]
      exact ⟨hA, hs B, fun f hf g hg => hAB f hf g ((hsp B).mem_iff.mp hg)⟩
    · rw [List.pairwise_append]
      exact ⟨hA', hs B', fun f hf g hg => hAB' f hf g ((hsp B').mem_iff.mp hg)⟩
  have hA2 : A = A' := List.append_inj_left e hlen
  refine ⟨hA2, ?_⟩
  have := List.append_inj_right e hlen
  exact ((hsp B).symm.trans (List.Perm.of_eq this)).trans (hsp B')

private theorem rounds_last (argsort : List ℝ → List Nat) (entry : Nat → List Nat → Nat → ℝ) (nsplit step : Nat) (n : ℕ) (st : St) :
    rounds argsort entry nsplit step (n + 1) st = (rounds argsort entry nsplit step n st).bind (round argsort entry nsplit step) := by
  induction n generalizing st with
  | zero =>
    simp only [rounds, bind, Except.bind]
    cases round argsort entry nsplit step st <;> rfl
  | succ n ih =>
    rw [rounds]
    simp only [bind, Except.bind]
    cases h : round argsort entry nsplit step st with
    | error e => simp [rounds, h, bind, Except.bind]
    | ok st' =>
      simp only [ih st']
      rw [rounds]
      simp only [h, bind, Except.bind]

variable {d : ℕ}

private theorem map_moved_erase (σ : Equiv.Perm (Fin d)) (l : List ℕ) (hl : ∀ x ∈ l, x < d) (f : ℕ) (hf : f < d) :
    (l.erase f).map (moved σ) = (l.map (moved σ)).erase (moved σ f) := by
  induction l with
  | nil => rfl
  | cons a l ih =>
    by_cases h : a = f
    · subst h
      simp
    · have h' : moved σ a ≠ moved σ f := fun e => h (moved_inj σ (hl a (by simp)) hf e)
      rw [List.erase_cons_tail (by simpa using h), List.map_cons, List.map_cons, List.erase_cons_tail (by simpa using h'),
        ih fun x hx => hl x (by simp [hx])]

/-- The states of two runs that see the same features under different numbers. -/
private structure Twin (σ : Equiv.Perm (Fin d)) (s s' : St) : Prop where
  output : s'.output.map (fun p => (moved σ p.1, p.2)) = s.output
  surv : (s'.survivors.map (moved σ)).Perm s.survivors
  lt : ∀ f ∈ s.survivors, f < d
  lt' : ∀ f ∈ s'.survivors, f < d
  nodup : s.survivors.Nodup

private theorem twin_step (σ : Equiv.Perm (Fin d)) {s s' t t' : St} (h : Twin σ s s') (φ φ' : ℕ → ℝ) {elim elim' : List (ℕ × ℝ)}
    (hφ : ∀ f ∈ s'.survivors, φ' f = φ (moved σ f)) (hinj : ∀ f ∈ s.survivors, ∀ g ∈ s.survivors, φ f = φ g → f = g)
    (hlen : elim.length = elim'.length)
    (h1 : t.output = s.output ++ elim) (h1' : t'.output = s'.output ++ elim')
    (h2 : (elim.map Prod.fst ++ t.survivors).Perm s.survivors) (h2' : (elim'.map Prod.fst ++ t'.survivors).Perm s'.survivors)
    (h3 : elim.Pairwise fun p q => p.2 ≤ q.2) (h3' : elim'.Pairwise fun p q => p.2 ≤ q.2)
    (h4 : ∀ p ∈ elim, p.2 = φ p.1) (h4' : ∀ p ∈ elim', p.2 = φ' p.1)
    (h5 : ∀ p ∈ elim, ∀ f ∈ t.survivors, p.2 ≤ φ f) (h5' : ∀ p ∈ elim', ∀ f ∈ t'.survivors, p.2 ≤ φ' f) : Twin σ t t' := by
  have hin : ∀ p ∈ elim, p.1 ∈ s.survivors := fun p hp => h2.mem_iff.mp (by simp only [List.mem_append, List.mem_map]; exact .inl ⟨p, hp, rfl⟩)
  have hin' : ∀ p ∈ elim', p.1 ∈ s'.survivors := fun p hp => h2'.mem_iff.mp (by simp only [List.mem_append, List.mem_map]; exact .inl ⟨p, hp, rfl⟩)
  have hts : ∀ f ∈ t.survivors, f ∈ s.survivors := fun f hf => h2.mem_iff.mp (by simp [hf])
  have hts' : ∀ f ∈ t'.survivors, f ∈ s'.survivors := fun f hf => h2'.mem_iff.mp (by simp [hf])
  have hp : (elim.map Prod.fst ++ t.survivors).Perm ((elim'.map Prod.fst).map (moved σ) ++ t'.survivors.map (moved σ)) := by
    rw [← List.map_append]
    exact h2.trans (h.surv.symm.trans ((h2'.symm).map _))
  have hφ4 : ∀ p ∈ elim', p.2 = φ (moved σ p.1) := fun p hp => (h4' p hp).trans (hφ p.1 (hin' p hp))
  obtain ⟨e1, e2⟩ := lowest_unique φ hp (by simp [hlen])
    (fun f hf g hg => hinj f (h2.mem_iff.mp hf) g (h2.mem_iff.mp hg))
    (by
      rw [List.pairwise_map]
      exact h3.imp_of_mem fun {p q} hp hq hpq => by rwa [h4 p hp, h4 q hq] at hpq)
    (by
      rw [List.pairwise_map, List.pairwise_map]
      exact h3'.imp_of_mem fun {p q} hp hq hpq => by rwa [hφ4 p hp, hφ4 q hq] at hpq)
    (by
      intro f hf g hg
      obtain ⟨p, hp, rfl⟩ := List.mem_map.mp hf
      have := h5 p hp g hg
      rwa [h4 p hp] at this)
    (by
      intro f hf g hg
      obtain ⟨f', hf', rfl⟩ := List.mem_map.mp hf
      obtain ⟨p, hp, rfl⟩ := List.mem_map.mp hf'
      obtain ⟨g', hg', rfl⟩ := List.mem_map.mp hg
      have := h5' p hp g' hg'
      rwa [hφ4 p hp, hφ g' (hts' g' hg')] at this)
  refine ⟨?_, e2.symm, fun f hf => h.lt f (hts f hf), fun f hf => h.lt' f (hts' f hf), ?_⟩
  · rw [h1, h1', List.map_append, h.output]
    congr 1
    have ha : ∀ l : List (ℕ × ℝ), (∀ p ∈ l, p.2 = φ p.1) → l = (l.map Prod.fst).map fun f => (f, φ f) := by
      intro l hl
      rw [List.map_map]
      conv_lhs => rw [← List.map_id l]
      exact List.map_congr_left fun p hp => Prod.ext rfl (hl p hp)
    rw [ha elim h4, e1, List.map_map, List.map_map]
    exact List.map_congr_left fun p hp => Prod.ext rfl (hφ4 p hp)
  · have := h2.nodup_iff.mpr h.nodup
    exact (List.nodup_append.mp this).2.1

private theorem twin_init (σ : Equiv.Perm (Fin d)) : Twin σ (St.init d) (St.init d) :=
  ⟨rfl, range_moved σ, fun _ hf => List.mem_range.mp hf, fun _ hf => List.mem_range.mp hf, List.nodup_range⟩

/-- The mean error over the folds. -/
noncomputable def meanError (nsplit : ℕ) (e : ℕ → ℝ) : ℝ := ((List.range nsplit).map e).sum / nsplit

private theorem rounds_ok (argsort : List ℝ → List Nat) (entry : Nat → List Nat → Nat → ℝ) (nsplit step n : ℕ) (st fin : St)
    (h : rounds argsort entry nsplit step (n + 1) st = .ok fin) :
    ∃ mid, rounds argsort entry nsplit step n st = .ok mid ∧ round argsort entry nsplit step mid = .ok fin := by
  rw [rounds_last] at h
  cases hm : rounds argsort entry nsplit step n st with
  | error e => rw [hm] at h; cases h
  | ok mid => rw [hm] at h; exact ⟨mid, rfl, h⟩

private theorem rounds_step_le {step k : ℕ} (hd : 0 < d) (hk : k ≤ (d - 1) / step) : k * step ≤ d :=
  le_trans (Nat.mul_le_mul_right _ hk) (le_trans (Nat.div_mul_le_self _ _) (by omega))

/-- C263 (partial: no two surviving features are equally good in any round).  The data with its features in another order, and a model whose errors do not depend on
the order of the columns: greedy elimination removes the same features, in the same order and with the same scores. -/
theorem C263_greedy_partial (argsort argsort' : List ℝ → List Nat) (ha : IsArgsort argsort) (ha' : IsArgsort argsort') (err err' : ℕ → List ℕ → ℝ)
    (nsplit step : ℕ) (hstep : 0 < step) (hd : 0 < d) (σ : Equiv.Perm (Fin d))
    (hsym : ∀ k a b, a.Perm b → err k a = err k b) (hren : ∀ k a, err' k a = err k (a.map (moved σ)))
    (htie : ∀ sv : List ℕ, sv.Nodup → (∀ f ∈ sv, f < d) → ∀ f ∈ sv, ∀ g ∈ sv,
      meanError nsplit (fun k => err k (sv.erase f)) = meanError nsplit (fun k => err k (sv.erase g)) → f = g) :
    ∃ fin fin', runFrom argsort (greedyEntry err) nsplit step (St.init d) = .ok fin ∧
      runFrom argsort' (greedyEntry err') nsplit step (St.init d) = .ok fin' ∧
      fin'.output.map (fun p => (moved σ p.1, p.2)) = fin.output ∧ (fin'.survivors.map (moved σ)).Perm fin.survivors := by
  obtain ⟨fin, hf, _⟩ := C24_greedy_partition argsort ha err nsplit step d hstep hd
  obtain ⟨fin', hf', _⟩ := C24_greedy_partition argsort' ha' err' nsplit step d hstep hd
  have key : ∀ n, n ≤ (d - 1) / step → ∀ s s', rounds argsort (greedyEntry err) nsplit step n (St.init d) = .ok s →
      rounds argsort' (greedyEntry err') nsplit step n (St.init d) = .ok s' → Twin σ s s' := by
    intro n
    induction n with
    | zero =>
      intro _ s s' h h'
      cases h; cases h'
      exact twin_init σ
    | succ n ih =>
      intro hn t t' ht ht'
      obtain ⟨s, hs, hst⟩ := rounds_ok _ _ _ _ _ _ _ ht
      obtain ⟨s', hs', hst'⟩ := rounds_ok _ _ _ _ _ _ _ ht'
      have hT := ih (by omega) s s' hs hs'
      have hle := rounds_step_le hd hn
      obtain ⟨u, elim, hu, o1, o2, o3, _, o4, o5, o6⟩ := C24_greedy_round argsort ha err nsplit step d n hle s hs
      obtain ⟨u', elim', hu', o1', o2', o3', _, o4', o5', o6'⟩ := C24_greedy_round argsort' ha' err' nsplit step d n hle s' hs'
      rw [hst] at hu; cases hu
      rw [hst'] at hu'; cases hu'
      refine twin_step σ hT (fun f => meanError nsplit fun k => err k (s.survivors.erase f)) (fun f => meanError nsplit fun k => err' k (s'.survivors.erase f))
        ?_ (htie s.survivors hT.nodup hT.lt) (by rw [o2, o2']) o1 o1' o3 o3' o4 o4' o5 o5' o6 o6'
      intro f hf
      congr 1
      funext k
      rw [hren, map_moved_erase σ _ hT.lt' f (hT.lt' f hf)]
      exact hsym k _ _ (hT.surv.erase _)
  simp only [runFrom, if_neg hstep.ne'] at hf hf' ⊢
  have hT := key _ le_rfl fin fin' hf hf'
  exact ⟨fin, fin', hf, hf', hT.output, hT.surv⟩

/-- C263 (partial: as before) for importance elimination. -/
theorem C263_importance_partial (argsort argsort' : List ℝ → List Nat) (ha : IsArgsort argsort) (ha' : IsArgsort argsort') (err err' : ℕ → List ℕ → ℕ → ℝ)
    (nsplit step : ℕ) (hstep : 0 < step) (hd : 0 < d) (σ : Equiv.Perm (Fin d))
    (hsym : ∀ k a b f, a.Perm b → err k a f = err k b f) (hren : ∀ k a f, err' k a f = err k (a.map (moved σ)) (moved σ f))
    (htie : ∀ sv : List ℕ, sv.Nodup → (∀ f ∈ sv, f < d) → ∀ f ∈ sv, ∀ g ∈ sv,
      meanError nsplit (fun k => err k sv f) = meanError nsplit (fun k => err k sv g) → f = g) :
    ∃ fin fin', runFrom argsort (importanceEntry err) nsplit step (St.init d) = .ok fin ∧
      runFrom argsort' (importanceEntry err') nsplit step (St.init d) = .ok fin' ∧
      fin'.output.map (fun p => (moved σ p.1, p.2)) = fin.output ∧ (fin'.survivors.map (moved σ)).Perm fin.survivors := by
  obtain ⟨fin, hf, _⟩ := C24_importance_partition argsort ha err nsplit step d hstep hd
  obtain ⟨fin', hf', _⟩ := C24_importance_partition argsort' ha' err' nsplit step d hstep hd
  have key : ∀ n, n ≤ (d - 1) / step → ∀ s s', rounds argsort (importanceEntry err) nsplit step n (St.init d) = .ok s →
      rounds argsort' (importanceEntry err') nsplit step n (St.init d) = .ok s' → Twin σ s s' := by
    intro n
    induction n with
    | zero =>
      intro _ s s' h h'
      cases h; cases h'
      exact twin_init σ
    | succ n ih =>
      intro hn t t' ht ht'
      obtain ⟨s, hs, hst⟩ := rounds_ok _ _ _ _ _ _ _ ht
      obtain ⟨s', hs', hst'⟩ := rounds_ok _ _ _ _ _ _ _ ht'
      have hT := ih (by omega) s s' hs hs'
      have hle := rounds_step_le hd hn
      obtain ⟨u, elim, hu, o1, o2, o3, _, o4, o5, o6⟩ := C24_importance_round argsort ha err nsplit step d n hle s hs
      obtain ⟨u', elim', hu', o1', o2', o3', _, o4', o5', o6'⟩ := C24_importance_round argsort' ha' err' nsplit step d n hle s' hs'
      rw [hst] at hu; cases hu
      rw [hst'] at hu'; cases hu'
      refine twin_step σ hT (fun f => meanError nsplit fun k => err k s.survivors f) (fun f => meanError nsplit fun k => err' k s'.survivors f)
        ?_ (htie s.survivors hT.nodup hT.lt) (by rw [o2, o2']) o1 o1' o3 o3' o4 o4' o5 o5' o6 o6'
      intro f hf
      congr 1
      funext k
      rw [hren]
      exact hsym k _ _ _ hT.surv
  simp only [runFrom, if_neg hstep.ne'] at hf hf' ⊢
  have hT := key _ le_rfl fin fin' hf hf'
  exact ⟨fin, fin', hf, hf', hT.output, hT.surv⟩

/-- A model without ties: every feature contributes another amount to the error. -/
example : (∀ (k : ℕ) (a b : List ℕ), a.Perm b → (a.map fun f => (2 : ℝ) ^ f).sum = (b.map fun f => (2 : ℝ) ^ f).sum) ∧
    ∀ sv : List ℕ, ∀ f ∈ sv, ∀ g ∈ sv, meanError 1 (fun _ => ((sv.erase f).map fun f => (2 : ℝ) ^ f).sum) =
      meanError 1 (fun _ => ((sv.erase g).map fun f => (2 : ℝ) ^ f).sum) → f = g := by
  refine ⟨fun _ a b h => (h.map _).sum_eq, fun sv f hf g hg h => ?_⟩
  have h1 := List.sum_map_erase (fun f => (2 : ℝ) ^ f) hf
  have h2 := List.sum_map_erase (fun f => (2 : ℝ) ^ f) hg
  simp only [meanError, List.range_one, List.map_cons, List.map_nil, List.sum_cons, List.sum_nil, add_zero, Nat.cast_one, div_one] at h
  have h3 : (2 : ℝ) ^ f = 2 ^ g := by linarith
  exact pow_right_injective₀ (by norm_num) (by norm_num) h3

/-- C263 is violated for features that are equally good: of two of them the one at a certain position is removed, so that exchanging them removes the other one. -/
theorem C263_tie_violated (argsort : List ℝ → List Nat) (ha : IsArgsort argsort) (c : ℝ) (nsplit : ℕ) :
    ∃ fin f x, runFrom argsort (greedyEntry fun _ _ => c) nsplit 1 (St.init 2) = .ok fin ∧ fin.output = [(f, x)] ∧
      moved (Equiv.swap (0 : Fin 2) 1) f ≠ f := by
  obtain ⟨fin, h, hp, _, _, hl⟩ := C24_greedy_partition argsort ha (fun _ _ => c) nsplit 1 2 one_pos two_pos
  have hl1 : fin.output.length = 1 := by simpa using hl
  obtain ⟨⟨f, x⟩, hfx⟩ := List.length_eq_one_iff.mp hl1
  refine ⟨fin, f, x, h, hfx, ?_⟩
  have hf : f ∈ List.range 2 := hp.mem_iff.mp (by simp [hfx])
  have : f = 0 ∨ f = 1 := by have := List.mem_range.mp hf; omega
  rcases this with rfl | rfl <;> simp [moved]

end CatLearn.Props
