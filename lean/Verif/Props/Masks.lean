import Verif.Model.Masks

/-!
# C53: constrained coordinates never move (masks)
-/

namespace CatLearn.Masks

open CatLearn

/-! ## Round trip -/

theorem pick_ok {α : Type} (x : List α) (idx : List Nat) (h : ∀ i ∈ idx, i < x.length) :
    ∃ m, pick x idx = .ok m ∧ m.length = idx.length ∧ ∀ k (hk : k < idx.length), m[k]? = x[idx[k]]? := by
  induction idx with
  | nil => exact ⟨[], rfl, rfl, by simp⟩
  | cons i is ih =>
    obtain ⟨m, hm, hl, hg⟩ := ih fun j hj => h j (by simp [hj])
    have hi : i < x.length := h i (by simp)
    refine ⟨x[i] :: m, ?_, by simp [hl], ?_⟩
    · simp only [pick] at hm ⊢
      simp only [List.mapM_cons, hm, List.getElem?_eq_getElem hi, bind, Except.bind, pure, Except.pure]
    · intro k hk
      cases k with
      | zero => simp
      | succ k => simpa using hg k (by simpa using hk)

theorem pick_error {α : Type} (x : List α) (idx : List Nat) (m : List α) (h : pick x idx = .ok m) :
    ∀ i ∈ idx, i < x.length := by
  induction idx generalizing m with
  | nil => simp
  | cons i is ih =>
    simp only [pick, List.mapM_cons, bind, Except.bind, pure, Except.pure] at h ih
    cases hx : x[i]? with
    | none => rw [hx] at h; simp at h
    | some v =>
      rw [hx] at h
      simp only at h
      split at h
      · cases h
      · rename_i m' hm'
        intro j hj
        rcases List.mem_cons.1 hj with rfl | hj
        · exact (List.getElem?_eq_some_iff.1 hx).1
        · exact ih _ hm' j hj

theorem writeBack_spec {α : Type} (x : List α) (idx : List Nat) (m y : List α)
    (h : writeBack x idx m = .ok y) :
    y.length = x.length ∧ ∀ i, i ∉ idx → y[i]? = x[i]? := by
  induction idx generalizing x m with
  | nil => simp only [writeBack, Except.ok.injEq] at h; subst h; simp
  | cons i is ih =>
    cases m with
    | nil => simp [writeBack] at h
    | cons v vs =>
      rw [writeBack] at h
      split at h
      · obtain ⟨hl, hk⟩ := ih _ _ h
        refine ⟨by simpa using hl, fun j hj => ?_⟩
        simp only [List.mem_cons, not_or] at hj
        rw [hk j hj.2, List.getElem?_set_ne (by omega)]
      · cases h

theorem writeBack_ok {α : Type} (x : List α) (idx : List Nat) (m : List α)
    (hl : idx.length ≤ m.length) (h : ∀ i ∈ idx, i < x.length) : ∃ y, writeBack x idx m = .ok y := by
  induction idx generalizing x m with
  | nil => exact ⟨x, by simp [writeBack]⟩
  | cons i is ih =>
    cases m with
    | nil => simp at hl
    | cons v vs =>
      rw [writeBack, if_pos (h i (by simp))]
      exact ih _ _ (by simpa using hl) fun j hj => by simpa using h j (by simp [hj])

theorem writeBack_kept {α : Type} (x : List α) (idx : List Nat) (m y : List α) (hn : idx.Nodup)
    (h : writeBack x idx m = .ok y) (k : Nat) (hk : k < idx.length) : y[idx[k]]? = m[k]? := by
  induction idx generalizing x m k with
  | nil => simp at hk
  | cons i is ih =>
    cases m with
    | nil => simp [writeBack] at h
    | cons v vs =>
      rw [writeBack] at h
      split at h
      · rename_i hi
        cases k with
        | zero =>
          have := (writeBack_spec _ _ _ _ h).2 i (List.nodup_cons.1 hn).1
          simp only [List.getElem_cons_zero, List.getElem?_cons_zero]
          rw [this, List.getElem?_set_self hi]
        | succ k => simpa using ih _ _ (List.nodup_cons.1 hn).2 h k (by simpa using hk)
      · cases h

theorem writeBack_restore {α : Type} (x o : List α) (idx : List Nat) (m y : List α)
    (hm : pick x idx = .ok m) (hw : writeBack o idx m = .ok y) (i : Nat) (hi : i ∈ idx) :
    y[i]? = x[i]? := by
  induction idx generalizing o m with
  | nil => simp at hi
  | cons j js ih =>
    have hb := pick_error _ _ _ hm
    obtain ⟨m', hm', -, -⟩ := pick_ok x js fun i hi => hb i (by simp [hi])
    have hj : j < x.length := hb j (by simp)
    have hmm : m = x[j] :: m' := by
      simp only [pick] at hm hm'
      simp only [List.mapM_cons, hm', List.getElem?_eq_getElem hj, bind, Except.bind, pure, Except.pure,
        Except.ok.injEq] at hm
      exact hm.symm
    subst hmm
    rw [writeBack] at hw
    split at hw
    · rename_i hjo
      by_cases hjs : i ∈ js
      · exact ih _ _ hm' hw hjs
      · rcases List.mem_cons.1 hi with rfl | hi
        · rw [(writeBack_spec _ _ _ _ hw).2 i hjs, List.getElem?_set_self hjo, List.getElem?_eq_getElem hj]
        · exact absurd hi hjs
    · cases hw

/-- C53, round trip: masking a geometry and unmasking it with any reference geometry that agrees with it on
the removed coordinates gives the geometry back. -/
theorem C53_round_trip {α : Type} (x o : List α) (rest : List (List α)) (idx : List Nat)
    (hl : o.length = x.length) (hidx : ∀ i ∈ idx, i < x.length)
    (hagree : ∀ i, i ∉ idx → o[i]? = x[i]?) :
    ∃ m, applyMask [x] idx = .ok ([x], [m]) ∧ m.length = idx.length ∧
      unmask (o :: rest) m idx = .ok x := by
  obtain ⟨m, hm, hml, -⟩ := pick_ok x idx hidx
  obtain ⟨y, hy⟩ := writeBack_ok o idx m (by omega) (fun i hi => by rw [hl]; exact hidx i hi)
  refine ⟨m, ?_, hml, ?_⟩
  · simp [applyMask, hm, bind, Except.bind, pure, Except.pure]
  · rw [unmask, hy]
    congr 1
    apply List.ext_getElem?
    intro i
    by_cases hi : i ∈ idx
    · exact writeBack_restore x o idx m y hm hy i hi
    · rw [(writeBack_spec _ _ _ _ hy).2 i hi, hagree i hi]

example : ∀ i, i ∉ ([0, 2] : List Nat) → ([7, 5, 9] : List ℤ)[i]? = ([1, 5, 3] : List ℤ)[i]? := by
  intro i hi
  match i with
  | 0 => simp at hi
  | 1 => rfl
  | 2 => simp at hi
  | i + 3 => rfl

/-- C53, unmasking: whatever masked values are written back, every removed coordinate keeps the value of the
first reference geometry, the kept coordinates take the written values, and the size is unchanged. -/
theorem C53_unmask {α : Type} (o : List α) (rest : List (List α)) (m y : List α) (idx : List Nat)
    (h : unmask (o :: rest) m idx = .ok y) :
    y.length = o.length ∧ (∀ i, i ∉ idx → y[i]? = o[i]?) ∧
      (idx.Nodup → ∀ k (hk : k < idx.length), y[idx[k]]? = m[k]?) :=
  ⟨(writeBack_spec _ _ _ _ h).1, (writeBack_spec _ _ _ _ h).2,
    fun hn k hk => writeBack_kept _ _ _ _ hn h k hk⟩

example : unmask [[7, 5, 9]] [1, 3] [0, 2] = .ok ([1, 5, 3] : List ℤ) := rfl

private theorem writeBack_fails {α : Type} (x : List α) (idx : List Nat) (m : List α)
    (h : m.length < idx.length ∨ ∃ i ∈ idx, x.length ≤ i) : writeBack x idx m = .error .index := by
  induction idx generalizing x m with
  | nil => rcases h with h | ⟨i, hi, -⟩ <;> simp_all
  | cons j js ih =>
    cases m with
    | nil => rfl
    | cons v vs =>
      rw [writeBack]
      split
      · rename_i hj
        apply ih
        rcases h with h | ⟨i, hi, hl⟩
        · exact Or.inl (by simpa using h)
        · rcases List.mem_cons.mp hi with rfl | hi
          · omega
          · exact Or.inr ⟨i, hi, by simpa using hl⟩
      · rfl

/-- C53: without a reference geometry, with fewer values than indices, or with an index outside the geometry, unmasking is an
IndexError; otherwise it succeeds. -/
theorem C53_unmask_raises {α : Type} (o : List α) (rest : List (List α)) (m : List α) (idx : List Nat) :
    unmask [] m idx = .error .index ∧
    ((m.length < idx.length ∨ ∃ i ∈ idx, o.length ≤ i) → unmask (o :: rest) m idx = .error .index) ∧
    (idx.length ≤ m.length → (∀ i ∈ idx, i < o.length) → ∃ y, unmask (o :: rest) m idx = .ok y) :=
  ⟨rfl, fun h => writeBack_fails o idx m h, fun h1 h2 => writeBack_ok o idx m h1 h2⟩

/-! ## Which coordinates are removed -/

/-- A constraint fixes coordinate `k` of atom `a`. -/
def Fixes (c : Constraint) (a : Nat) (k : Fin 3) : Prop :=
  match c with
  | .cart b mask => a = b ∧ mask k = true
  | .atoms index => a ∈ index
  | .other => False

/-- The atoms that a constraint names exist. -/
def Valid (n : Nat) : Constraint → Prop
  | .cart b _ => b < n
  | .atoms index => ∀ a ∈ index, a < n
  | .other => True

theorem mem_createMask (n : Nat) (cs : List Constraint) (a : Nat) (k : Fin 3) (ha : a < n) :
    3 * a + k ∈ createMask n cs ↔ maskArr n cs a k = true := by
  have hk := k.2
  have h1 : (3 * a + k.1) / 3 = a := by omega
  have h2 : (⟨(3 * a + k.1) % 3, Nat.mod_lt _ (by decide)⟩ : Fin 3) = k := by
    apply Fin.ext; simp only; omega
  simp only [createMask, List.mem_filter, List.mem_range, h1]
  rw [h2]
  constructor
  · exact fun h => h.2
  · exact fun h => ⟨by omega, h⟩

/-- The flat indices are strictly increasing and in range, so `unmask_geometry` and `apply_mask` never
fail on geometries of the right size. -/
theorem C53_mask_indices (n : Nat) (cs : List Constraint) :
    (createMask n cs).Pairwise (· < ·) ∧ ∀ i ∈ createMask n cs, i < 3 * n := by
  refine ⟨List.Pairwise.sublist List.filter_sublist List.pairwise_lt_range, fun i hi => ?_⟩
  exact List.mem_range.1 (List.mem_filter.1 hi).1

theorem applyCart_free (n : Nat) (m : MaskArr) (c : Constraint) (a : Nat) (k : Fin 3)
    (hm : m a k = true) (hc : ¬ Fixes c a k) : applyCart n m c a k = true := by
  cases c with
  | cart b mask =>
    simp only [applyCart]
    split
    · by_cases hab : a = b
      · simp only [hab, if_true]
        simpa [Fixes, hab] using hc
      · simpa [hab] using hm
    · exact hm
  | atoms _ => exact hm
  | other => exact hm

theorem applyAtoms_free (n : Nat) (m : MaskArr) (c : Constraint) (a : Nat) (k : Fin 3)
    (hm : m a k = true) (hc : ¬ Fixes c a k) : applyAtoms n m c a k = true := by
  cases c with
  | atoms index =>
    simp only [applyAtoms]
    split
    · simp only [Fixes] at hc
      simpa [hc] using hm
    · exact hm
  | cart _ _ => exact hm
  | other => exact hm

/-- C53, free coordinates: a coordinate that no constraint fixes is always kept. -/
theorem C53_free (n : Nat) (cs : List Constraint) (a : Nat) (k : Fin 3) (ha : a < n)
    (h : ∀ c ∈ cs, ¬ Fixes c a k) : 3 * a + k ∈ createMask n cs := by
  rw [mem_createMask _ _ _ _ ha]
  cases cs with
  | nil => rfl
  | cons c t =>
    rw [maskArr]
    have key : ∀ (l : List Constraint) (m : MaskArr) (f la : Constraint), ¬ Fixes f a k → ¬ Fixes la a k →
        (∀ c ∈ l, ¬ Fixes c a k) → m a k = true → (l.foldl (maskStep n f la) m) a k = true := by
      intro l
      induction l with
      | nil => intro m f la _ _ _ hm; exact hm
      | cons d l ih =>
        intro m f la hf hla hl hm
        refine ih _ f la hf hla (fun c hc => hl c (by simp [hc])) ?_
        exact applyCart_free _ _ _ _ _ (applyCart_free _ _ _ _ _ (applyAtoms_free _ _ _ _ _
          (applyCart_free _ _ _ _ _ hm (hl d (by simp))) (hl d (by simp))) hf) hla
    exact key _ _ _ _ (h c (by simp)) (h _ (List.getLast_mem _)) h rfl

/-- Two constraints on the same atom agree: a `FixCartesian` on an atom fixes every coordinate of it that
some other constraint fixes. -/
def Consistent (cs : List Constraint) : Prop :=
  ∀ c ∈ cs, ∀ a mask, c = .cart a mask → ∀ c' ∈ cs, ∀ k, Fixes c' a k → mask k = true

theorem applyCart_fixed (n : Nat) (m : MaskArr) (cs : List Constraint) (hcs : Consistent cs) (c : Constraint)
    (hc : c ∈ cs) (a : Nat) (k : Fin 3) (hf : ∃ c' ∈ cs, Fixes c' a k)
    (hm : m a k = false) : applyCart n m c a k = false := by
  cases c with
  | cart b mask =>
    simp only [applyCart]
    split
    · by_cases hab : a = b
      · obtain ⟨c', hc', hf⟩ := hf
        subst hab
        simp [hcs _ hc a mask rfl c' hc' k hf]
      · simpa [hab] using hm
    · exact hm
  | atoms _ => exact hm
  | other => exact hm

theorem applyAtoms_fixed (n : Nat) (m : MaskArr) (c : Constraint) (a : Nat) (k : Fin 3)
    (hm : m a k = false) : applyAtoms n m c a k = false := by
  cases c with
  | atoms index =>
    simp only [applyAtoms]
    split
    · simp [hm]
    · exact hm
  | cart _ _ => exact hm
  | other => exact hm

theorem step_fixes (n : Nat) (m : MaskArr) (c : Constraint) (hv : Valid n c) (a : Nat) (k : Fin 3)
    (hf : Fixes c a k) : applyAtoms n (applyCart n m c) c a k = false := by
  cases c with
  | cart b mask =>
    obtain ⟨rfl, hk⟩ := hf
    simp only [Valid] at hv
    simp [applyAtoms, applyCart, hv, hk]
  | atoms index =>
    simp only [Fixes] at hf
    simp only [Valid] at hv
    have : index.all (· < n) = true := by simpa using hv
    simp only [applyAtoms, this, if_true, hf]
  | other => exact absurd hf id

/-- C53, fixed coordinates, part: if the constraints name existing atoms and never disagree about an atom,
every coordinate fixed by any listed constraint is removed from the surrogate's coordinates.  Missing: lists
with two constraints on the same atom that disagree (`C53_later_violated`, `C53_first_violated`). -/
theorem C53_fixed_partial (n : Nat) (cs : List Constraint) (hv : ∀ c ∈ cs, Valid n c) (hcs : Consistent cs)
    (a : Nat) (k : Fin 3) (ha : a < n) (h : ∃ c ∈ cs, Fixes c a k) : 3 * a + k ∉ createMask n cs := by
  rw [mem_createMask _ _ _ _ ha, Bool.not_eq_true]
  cases cs with
  | nil => simp at h
  | cons c t =>
    rw [maskArr]
    generalize hla : (c :: t).getLast (by simp) = la
    have hlam : la ∈ c :: t := hla ▸ List.getLast_mem _
    have keep : ∀ (m : MaskArr) (d : Constraint), d ∈ c :: t → m a k = false →
        maskStep n c la m d a k = false := by
      intro m d hd hm
      exact applyCart_fixed n _ _ hcs _ hlam a k h (applyCart_fixed n _ _ hcs _ (by simp) a k h
        (applyAtoms_fixed _ _ _ _ _ (applyCart_fixed n _ _ hcs _ hd a k h hm)))
    have keepAll : ∀ (l : List Constraint) (m : MaskArr), (∀ d ∈ l, d ∈ c :: t) → m a k = false →
        (l.foldl (maskStep n c la) m) a k = false := by
      intro l
      induction l with
      | nil => intro m _ hm; exact hm
      | cons d l ih =>
        intro m hl hm
        exact ih _ (fun e he => hl e (by simp [he])) (keep m d (hl d (by simp)) hm)
    have main : ∀ (l : List Constraint) (m : MaskArr), (∀ d ∈ l, d ∈ c :: t) → (∃ d ∈ l, Fixes d a k) →
        (l.foldl (maskStep n c la) m) a k = false := by
      intro l
      induction l with
      | nil => intro m _ hm; simp at hm
      | cons d l ih =>
        intro m hl hm
        obtain ⟨e, he, hfe⟩ := hm
        by_cases hd : Fixes d a k
        · refine keepAll l _ (fun e he => hl e (by simp [he])) ?_
          exact applyCart_fixed n _ _ hcs _ hlam a k h (applyCart_fixed n _ _ hcs _ (by simp) a k h
            (step_fixes n m d (hv d (hl d (by simp))) a k hd))
        · rcases List.mem_cons.1 he with rfl | he
          · exact absurd hfe hd
          · exact ih _ (fun e he => hl e (by simp [he])) ⟨e, he, hfe⟩
    exact main _ _ (fun d hd => hd) h

example : Consistent [.atoms [0, 1], .cart 2 (fun k => k == 2)] ∧
    (∀ c ∈ [.atoms [0, 1], .cart 2 (fun k => k == 2)], Valid 3 c) := by
  constructor
  · intro c hc a mask hca c' hc' k hf
    simp only [List.mem_cons, List.not_mem_nil, or_false] at hc hc'
    rcases hc with rfl | rfl
    · cases hca
    · cases hca
      rcases hc' with rfl | rfl
      · simp [Fixes] at hf
      · exact hf.2
  · intro c hc
    simp only [List.mem_cons, List.not_mem_nil, or_false] at hc
    rcases hc with rfl | rfl <;> simp [Valid]

/-- C53 fails when a `FixCartesian` follows a `FixAtoms` on the same atom: assigning the row of the atom
releases the coordinates that only the first one fixes. -/
theorem C53_later_violated :
    ∃ (n : Nat) (cs : List Constraint) (a : Nat) (k : Fin 3), (∀ c ∈ cs, Valid n c) ∧ a < n ∧
      (∃ c ∈ cs, Fixes c a k) ∧ 3 * a + k ∈ createMask n cs := by
  refine ⟨1, [.atoms [0], .cart 0 fun k => k == 0], 0, 1, ?_, by decide, ⟨.atoms [0], by simp, by simp [Fixes]⟩,
    by decide⟩
  intro c hc
  simp only [List.mem_cons, List.not_mem_nil, or_false] at hc
  rcases hc with rfl | rfl <;> simp [Valid]

/-- C53 fails for the reverse order too: the first constraint of the list is applied again in every pass,
so a `FixCartesian` at the head releases coordinates that a later `FixAtoms` had fixed. -/
theorem C53_first_violated :
    ∃ (n : Nat) (cs : List Constraint) (a : Nat) (k : Fin 3), (∀ c ∈ cs, Valid n c) ∧ a < n ∧
      (∃ c ∈ cs, Fixes c a k) ∧ 3 * a + k ∈ createMask n cs ∧ cs.getLast? = some (.atoms [0]) := by
  refine ⟨1, [.cart 0 fun k => k == 0, .atoms [0]], 0, 1, ?_, by decide, ⟨.atoms [0], by simp, by simp [Fixes]⟩,
    by decide, rfl⟩
  intro c hc
  simp only [List.mem_cons, List.not_mem_nil, or_false] at hc
  rcases hc with rfl | rfl <;> simp [Valid]

/-! ## Steps on the surrogate -/

/-- The surrogate calculator exerts no force on a removed coordinate. -/
theorem surForces_fixed (s : Surrogate) (fs : ℝ) (pos f : List ℝ) (idx : List Nat)
    (h : surForces s fs pos idx = .ok f) :
    f.length = pos.length ∧ ∀ i, i ∉ idx → i < pos.length → f[i]? = some 0 := by
  simp only [surForces, bind, Except.bind, pure, Except.pure] at h
  split at h
  · cases h
  · split at h
    · cases h
    · rename_i g hg
      obtain ⟨hl, hk⟩ := writeBack_spec _ _ _ _ hg
      simp only [List.length_replicate] at hl
      cases h
      refine ⟨by simpa using hl, fun i hi hlt => ?_⟩
      rw [List.getElem?_map, hk i hi]
      simp [List.getElem?_replicate, hlt]

/-- C53, forces: the surrogate calculator exerts no force on a removed coordinate, and on a kept one it
exerts minus the central difference of the predicted energy. -/
theorem C53_forces (s : Surrogate) (fs : ℝ) (pos f : List ℝ) (idx : List Nat)
    (h : surForces s fs pos idx = .ok f) :
    f.length = pos.length ∧ (∀ i, i ∉ idx → i < pos.length → f[i]? = some 0) ∧
      ∃ t, applyMask [pos] idx = .ok ([pos], [t]) ∧
        (idx.Nodup → ∀ k (hk : k < idx.length), f[idx[k]]? =
          some (-((s.energy (t.set k (t.getD k 0 + fs)) - s.energy (t.set k (t.getD k 0 - fs))) / (2 * fs)))) := by
  obtain ⟨h1, h2⟩ := surForces_fixed s fs pos f idx h
  refine ⟨h1, h2, ?_⟩
  simp only [surForces, bind, Except.bind, pure, Except.pure] at h
  split at h
  · cases h
  · rename_i t ht
    refine ⟨t, by simp [applyMask, ht, bind, Except.bind, pure, Except.pure], fun hn k hk => ?_⟩
    split at h
    · cases h
    · rename_i g hg
      cases h
      rw [List.getElem?_map, writeBack_kept _ _ _ _ hn hg k hk]
      simp [List.getElem?_map, List.getElem?_range hk, surGrad]
      ring

example : ∃ f, surForces ⟨fun t => t.sum, fun _ => 0⟩ 1 [1, 2, 3] [2] = .ok f := ⟨_, rfl⟩

theorem pick_eq {α : Type} (x : List α) (idx : List Nat) (m : List α) (h : ∀ i ∈ idx, i < x.length)
    (hl : m.length = idx.length) (hm : ∀ k (hk : k < idx.length), m[k]? = x[idx[k]]?) : pick x idx = .ok m := by
  obtain ⟨m', h1, h2, h3⟩ := pick_ok x idx h
  rw [h1]
  congr 1
  apply List.ext_getElem?
  intro k
  by_cases hk : k < idx.length
  · rw [h3 k hk, hm k hk]
  · rw [List.getElem?_eq_none (by omega), List.getElem?_eq_none (by omega)]

/-- C53, energies: the energy the surrogate calculator reports depends on the kept coordinates only, and the force it reports
on a kept coordinate is minus the central difference of the energies it reports for the two displaced structures. -/
theorem C53_energy (s : Surrogate) (fs scaling : ℝ) (pos f : List ℝ) (idx : List Nat) (hn : idx.Nodup)
    (h : surForces s fs pos idx = .ok f) :
    (∃ e, surEnergy s scaling pos idx = .ok e ∧ ∀ pos' : List ℝ, pos'.length = pos.length →
      (∀ i ∈ idx, pos'[i]? = pos[i]?) → surEnergy s scaling pos' idx = .ok e) ∧
    ∀ i ∈ idx, ∃ x ep em, pos[i]? = some x ∧ surEnergy s scaling (pos.set i (x + fs)) idx = .ok ep ∧
      surEnergy s scaling (pos.set i (x - fs)) idx = .ok em ∧ f[i]? = some (-((ep - em) / (2 * fs))) := by
  obtain ⟨-, -, t, ht, hf⟩ := C53_forces s fs pos f idx h
  have ht' : pick pos idx = .ok t := by
    simp only [applyMask, List.mapM_cons, List.mapM_nil, bind, Except.bind, pure, Except.pure] at ht
    cases hp : pick pos idx with
    | error e => rw [hp] at ht; simp at ht
    | ok t' => rw [hp] at ht; simpa using ht
  have hb := pick_error _ _ _ ht'
  obtain ⟨t', h1, hl, hk⟩ := pick_ok pos idx hb
  have ett : t' = t := by
    rw [ht'] at h1
    simpa using h1.symm
  rw [ett] at hl hk
  have hE : ∀ (p u : List ℝ), pick p idx = .ok u → surEnergy s scaling p idx = .ok (s.energy u + scaling) := by
    intro p u hu
    simp [surEnergy, hu, bind, Except.bind, pure, Except.pure]
  refine ⟨⟨_, hE pos t ht', ?_⟩, ?_⟩
  · intro pos' hlen hag
    refine hE pos' t (pick_eq pos' idx t (fun i hi => by rw [hlen]; exact hb i hi) hl ?_)
    intro k hk'
    rw [hk k hk', hag _ (List.getElem_mem hk')]
  · intro i hi
    obtain ⟨k, hk', rfl⟩ := List.mem_iff_getElem.mp hi
    have hlt := hb _ hi
    have hset : ∀ v, pick (pos.set idx[k] v) idx = .ok (t.set k v) := by
      intro v
      refine pick_eq _ idx _ (fun i hi => by simpa using hb i hi) (by simpa using hl) ?_
      intro j hj
      by_cases e : k = j
      · subst e
        rw [List.getElem?_set_self (by omega), List.getElem?_set_self hlt]
      · have : idx[k] ≠ idx[j] := fun e' => e ((List.Nodup.getElem_inj_iff hn).mp e')
        rw [List.getElem?_set_ne e, List.getElem?_set_ne this, hk j hj]
    have hx : t.getD k 0 = pos[idx[k]] := by
      rw [List.getD_eq_getElem?_getD, hk k hk', List.getElem?_eq_getElem hlt]
      rfl
    refine ⟨pos[idx[k]], _, _, List.getElem?_eq_getElem hlt, hE _ _ (hset _), hE _ _ (hset _), ?_⟩
    rw [hf hn k hk', hx]
    congr 3
    ring

example : ∃ f, surForces ⟨fun t => t.sum, fun _ => 0⟩ 1 [1, 2, 3] [2, 0] = .ok f ∧ [2, 0].Nodup := ⟨_, rfl, by decide⟩

/-- Steps of the optimiser on the surrogate, each with its own numbers. -/
noncomputable def steps (s : Surrogate) (fs : ℝ) (idx : List Nat) :
    List Coef → List ℝ → List ℝ → Except PyErr (List ℝ)
  | [], r, _ => .ok r
  | c :: cs, r, v =>
    match surForces s fs r idx with
    | .error e => .error e
    | .ok f => steps s fs idx cs (mdmin c r v f).1 (mdmin c r v f).2

theorem mdmin_fixed (c : Coef) (r v f : List ℝ) (hv : v.length = r.length) (hf : f.length = r.length)
    (i : Nat) (hvi : i < r.length → v[i]? = some 0) (hfi : i < r.length → f[i]? = some 0) :
    (mdmin c r v f).1.length = r.length ∧ (mdmin c r v f).2.length = r.length ∧
      (mdmin c r v f).1[i]? = r[i]? ∧ (i < r.length → (mdmin c r v f).2[i]? = some 0) := by
  have h2 : i < r.length → (mdmin c r v f).2[i]? = some 0 := by
    intro hi
    simp [mdmin, List.getElem?_zipWith, hvi hi, hfi hi]
  refine ⟨by simp [mdmin, hv, hf], by simp [mdmin, hv, hf], ?_, h2⟩
  by_cases hi : i < r.length
  · have h3 := h2 hi
    simp only [mdmin] at h3 ⊢
    rw [List.getElem?_zipWith, h3, List.getElem?_eq_getElem hi]
    simp
  · have : (mdmin c r v f).1.length ≤ i := by simp [mdmin, hv, hf]; omega
    rw [List.getElem?_eq_none this, List.getElem?_eq_none (by omega)]

/-- C53, steps: after any number of optimiser steps on the surrogate landscape, starting at rest, every
coordinate that is not among the kept ones has its original value. -/
theorem C53_steps (s : Surrogate) (fs : ℝ) (idx : List Nat) (cs : List Coef) (r r' : List ℝ)
    (h : steps s fs idx cs r (List.replicate r.length 0) = .ok r') :
    r'.length = r.length ∧ ∀ i, i ∉ idx → r'[i]? = r[i]? := by
  have key : ∀ (cs : List Coef) (r v r' : List ℝ), v.length = r.length →
      (∀ i, i ∉ idx → i < r.length → v[i]? = some 0) → steps s fs idx cs r v = .ok r' →
      r'.length = r.length ∧ ∀ i, i ∉ idx → r'[i]? = r[i]? := by
    intro cs
    induction cs with
    | nil => intro r v r' _ _ h; simp only [steps, Except.ok.injEq] at h; subst h; simp
    | cons c cs ih =>
      intro r v r' hv hvi h
      rw [steps] at h
      split at h
      · cases h
      · rename_i f hf
        obtain ⟨hfl, hfi⟩ := surForces_fixed _ _ _ _ _ hf
        have hlen : (mdmin c r v f).1.length = r.length ∧ (mdmin c r v f).2.length = r.length := by
          simp [mdmin, hv, hfl]
        have hm := fun i (hi : i ∉ idx) => mdmin_fixed c r v f hv hfl i (hvi i hi) (hfi i hi)
        obtain ⟨h1, h2⟩ := ih _ _ _ (by rw [hlen.1, hlen.2])
          (fun i hi hlt => (hm i hi).2.2.2 (by omega)) h
        exact ⟨by rw [h1, hlen.1], fun i hi => by rw [h2 i hi, (hm i hi).2.2.1]⟩
  refine key cs r _ r' (by simp) (fun i _ hi => by simp [List.getElem?_replicate, hi]) h

example : ∃ r', steps ⟨fun t => t.sum, fun _ => 0⟩ 1 [2] [⟨1, 1, 1⟩, ⟨1, 2, 1⟩] [1, 2, 3] [0, 0, 0] = .ok r' :=
  ⟨_, rfl⟩

end CatLearn.Masks
