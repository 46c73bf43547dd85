import Verif.Model.Utilities
import Verif.Spec.Utilities
import Verif.Lemmas.Py
import Verif.Lemmas.MapM
import Mathlib.Algebra.BigOperators.Field
import Mathlib.Algebra.Order.BigOperators.Ring.Finset
import Mathlib.Tactic.FieldSimp
import Mathlib.Tactic.Linarith
import Mathlib.Tactic.NormNum
import Mathlib.Tactic.FinCases

/-!
# Properties of formal charges, geometry hashes and penalties
-/

namespace CatLearn.Props

open CatLearn CatLearn.Utilities

/-! ### C151, C152: formal charges -/

section Charges

variable {n : Nat}

private theorem fold_charges (z : Fin n → Nat) (cm : Fin n → Fin n → Rat) (ion : Nat) (q : Rat) :
    ∀ (L : List (Fin n)) (s : (Fin n → Rat) × Option (Fin n → Rat)),
      (L.foldl (chargeStep z cm ion q) s).1 = (fun i => if i ∈ L ∧ z i = ion then q else s.1 i) ∧
      (L.foldl (chargeStep z cm ion q) s).2 =
        if ∃ i ∈ L, z i = ion then some (allCharges cm q (L.foldl (chargeStep z cm ion q) s).1) else s.2 := by
  intro L
  induction L with
  | nil => intro s; simp
  | cons a L ih =>
    intro s
    rw [List.foldl_cons]
    obtain ⟨h1, h2⟩ := ih (chargeStep z cm ion q s a)
    have h1' : (L.foldl (chargeStep z cm ion q) (chargeStep z cm ion q s a)).1 =
        fun i => if i ∈ a :: L ∧ z i = ion then q else s.1 i := by
      rw [h1]
      funext i
      by_cases hi : i ∈ L ∧ z i = ion
      · rw [if_pos hi, if_pos ⟨List.mem_cons_of_mem _ hi.1, hi.2⟩]
      · rw [if_neg hi]
        by_cases ha : z a = ion
        · by_cases hia : i = a
          · subst hia; simp [chargeStep, ha]
          · have : ¬ (i ∈ a :: L ∧ z i = ion) := by
              rintro ⟨hm, hz⟩
              rcases List.mem_cons.mp hm with h | h
              · exact hia h
              · exact hi ⟨h, hz⟩
            rw [if_neg this]; simp [chargeStep, ha, Function.update_of_ne hia]
        · have : ¬ (i ∈ a :: L ∧ z i = ion) := by
            rintro ⟨hm, hz⟩
            rcases List.mem_cons.mp hm with h | h
            · exact ha (h ▸ hz)
            · exact hi ⟨h, hz⟩
          rw [if_neg this]; simp [chargeStep, ha]
    refine ⟨h1', ?_⟩
    rw [h2]
    by_cases hL : ∃ i ∈ L, z i = ion
    · rw [if_pos hL, if_pos (by obtain ⟨i, hi, hz⟩ := hL; exact ⟨i, by simp [hi], hz⟩)]
    · rw [if_neg hL]
      by_cases ha : z a = ion
      · rw [if_pos ⟨a, by simp, ha⟩, h1']
        simp only [chargeStep, if_pos ha]
        congr 2
        funext i
        by_cases hia : i = a
        · subst hia; simp [ha]
        · have : ¬ (i ∈ a :: L ∧ z i = ion) := by
            rintro ⟨hm, hz⟩
            rcases List.mem_cons.mp hm with h | h
            · exact hia h
            · exact hL ⟨i, h, hz⟩
          rw [Function.update_of_ne hia, if_neg this]
      · rw [if_neg (by
          rintro ⟨i, hi, hz⟩
          rcases List.mem_cons.mp hi with h | h
          · exact ha (h ▸ hz)
          · exact hL ⟨i, h, hz⟩)]
        simp [chargeStep, ha]

private theorem shared_getD (cm : Fin n → Fin n → Rat) (q : Rat) (a : Fin n → Rat) (i j : Fin n)
    (ha : a i = q ∨ a i = 0) :
    (shared cm q a i j).getD 0 = if a i = q then cm i j * perBond q (bonds cm i) else 0 := by
  have hs : (∑ k, cm i k * a i) = bonds cm i * a i := by rw [bonds, Finset.sum_mul]
  by_cases hq : q = 0
  · subst hq
    have ha0 : a i = 0 := by rcases ha with h | h <;> exact h
    simp [shared, rowSum, ha0, perBond]
  rcases ha with ha | ha
  · rw [if_pos ha]
    have hr : rowSum cm q a i = if bonds cm i * q = q then bonds cm i * q * |q| else bonds cm i * q := by
      simp only [rowSum, hs]
      rw [ha]
    simp only [shared, hr, ha]
    have hab : |q| ≠ 0 := abs_ne_zero.mpr hq
    by_cases h0 : bonds cm i = 0
    · have : ¬ (bonds cm i * q = q) := by rw [h0, zero_mul]; exact fun h => hq h.symm
      rw [if_neg this, if_pos (by rw [h0, zero_mul])]
      simp [perBond, h0]
    · by_cases h1 : bonds cm i = 1
      · rw [if_pos (show bonds cm i * q = q by rw [h1, one_mul]),
          if_neg (by rw [h1, one_mul]; exact mul_ne_zero hq hab)]
        simp only [Option.getD_some, perBond, h1, one_mul]
        norm_num
        field_simp
      · have hne : ¬ (bonds cm i * q = q) := by
          intro h
          apply h1
          have : (bonds cm i - 1) * q = 0 := by linarith
          rcases mul_eq_zero.mp this with h | h
          · linarith
          · exact absurd h hq
        rw [if_neg hne, if_neg (mul_ne_zero h0 hq)]
        simp only [Option.getD_some, perBond, if_neg h0, if_neg h1]
        field_simp
  · rw [if_neg (by rw [ha]; exact fun h => hq h.symm)]
    have : ¬ ((0 : Rat) = q) := fun h => hq h.symm
    simp [shared, rowSum, ha, this]

/-- C151, what is computed: an ion has its charge and passes `perBond` of it along each of its bonds; without an ion
the call fails. -/
theorem C151_formal_charges_exact (z : Fin n → Nat) (cm : Fin n → Fin n → Rat) (ion : Nat) (q : Rat) :
    formalCharges z cm ion q = if ∃ i, z i = ion then
      .ok fun j => (if z j = ion then q else 0) -
        ∑ i, if z i = ion then cm i j * perBond q (bonds cm i) else 0
    else .error .name := by
  obtain ⟨h1, h2⟩ := fold_charges z cm ion q (List.finRange n) (fun _ => 0, none)
  simp only [formalCharges]
  rw [h2, h1]
  simp only [List.mem_finRange, true_and]
  by_cases h : ∃ i, z i = ion
  · rw [if_pos h, if_pos h]
    simp only [Except.ok.injEq]
    funext j
    simp only [allCharges]
    rw [← sub_eq_add_neg]
    congr 1
    apply Finset.sum_congr rfl
    intro i _
    rw [shared_getD cm q _ i j (by by_cases hz : z i = ion <;> simp [hz])]
    by_cases hz : z i = ion
    · simp [hz]
    · by_cases hq : q = 0
      · subst hq; simp [hz, perBond]
      · have : ¬ ((0 : Rat) = q) := fun h => hq h.symm
        simp [hz, this]
  · rw [if_neg h, if_neg h]

private theorem total_charge (z : Fin n → Nat) (cm : Fin n → Fin n → Rat) (ion : Nat) (q : Rat) (c : Fin n → Rat)
    (h : formalCharges z cm ion q = .ok c) :
    ∑ j, c j = ∑ i, if z i = ion then q - bonds cm i * perBond q (bonds cm i) else 0 := by
  rw [C151_formal_charges_exact] at h
  split at h
  · simp only [Except.ok.injEq] at h
    subst h
    rw [Finset.sum_sub_distrib, Finset.sum_comm, ← Finset.sum_sub_distrib]
    apply Finset.sum_congr rfl
    intro i _
    by_cases hz : z i = ion
    · simp only [if_pos hz]
      rw [← Finset.sum_mul, bonds]
    · simp [hz]
  · simp at h

/-- C151 (partial): the charges of a structure add up to zero if every ion has more than one bond, or has one bond and
the charge ±1. -/
theorem C151_neutral_partial (z : Fin n → Nat) (cm : Fin n → Fin n → Rat) (ion : Nat) (q : Rat) (c : Fin n → Rat)
    (h : formalCharges z cm ion q = .ok c)
    (hb : ∀ i, z i = ion → bonds cm i ≠ 0 ∧ (bonds cm i ≠ 1 ∨ |q| = 1)) : ∑ j, c j = 0 := by
  rw [total_charge z cm ion q c h]
  apply Finset.sum_eq_zero
  intro i _
  by_cases hz : z i = ion
  · rw [if_pos hz]
    obtain ⟨h0, h1⟩ := hb i hz
    by_cases hone : bonds cm i = 1
    · have hq := h1.resolve_left (not_not.mpr hone)
      rw [hone, perBond, if_neg one_ne_zero, if_pos rfl, hq]; simp
    · rw [perBond, if_neg h0, if_neg hone]
      field_simp
      simp
  · rw [if_neg hz]

/-- C151 is violated: as soon as one oxide ion (charge below -1) has a single bond, or none, the charges of the
structure do not add up to zero: their sum is negative. -/
theorem C151_neutral_violated (z : Fin n → Nat) (cm : Fin n → Fin n → Rat) (ion : Nat) (q : Rat) (hq : q < -1)
    (i : Fin n) (hz : z i = ion) (hb : bonds cm i = 1 ∨ bonds cm i = 0) :
    ∃ c, formalCharges z cm ion q = .ok c ∧ ∑ j, c j < 0 := by
  have hex : ∃ i, z i = ion := ⟨i, hz⟩
  have hok := C151_formal_charges_exact z cm ion q
  rw [if_pos hex] at hok
  refine ⟨_, hok, ?_⟩
  rw [total_charge z cm ion q _ hok]
  have habs : |q| = -q := abs_of_neg (by linarith)
  have hone : q / |q| = -1 := by rw [habs, div_neg, div_self (by linarith)]
  have hle : ∀ k, (if z k = ion then q - bonds cm k * perBond q (bonds cm k) else 0) ≤ 0 := by
    intro k
    by_cases hk : z k = ion
    · rw [if_pos hk, perBond]
      split_ifs with h0 h1
      · linarith
      · rw [h1, hone]; linarith
      · rw [mul_div_cancel₀ _ h0]; linarith
    · rw [if_neg hk]
  apply Finset.sum_neg' (fun k _ => hle k)
  refine ⟨i, Finset.mem_univ _, ?_⟩
  rw [if_pos hz, perBond]
  rcases hb with hb | hb
  · rw [hb, if_neg one_ne_zero, if_pos rfl, hone]; linarith
  · rw [hb, if_pos rfl]; linarith

/-- Titanium dioxide with a bridging (two bonds) and a terminal (one bond) oxygen: atoms Ti, O, O, Ti. -/
private def bridge : Fin 4 → Fin 4 → Rat := ![![0, 1, 1, 0], ![1, 0, 0, 1], ![1, 0, 0, 0], ![0, 1, 0, 0]]

example : bonds bridge 1 = 2 ∧ bonds bridge 2 = 1 := by decide +kernel

example : ∃ c, formalCharges ![22, 8, 8, 22] bridge 8 (-2) = .ok c ∧ ∑ j, c j < 0 :=
  C151_neutral_violated _ _ _ _ (by norm_num) 2 rfl (Or.inl (by decide +kernel))

example : formalCharges ![22, 8, 22] ![![0, 1, 0], ![1, 0, 1], ![0, 1, 0]] 8 (-2) = .ok ![1, -2, 1] := by
  rw [C151_formal_charges_exact, if_pos ⟨1, rfl⟩]
  congr 1
  funext j
  revert j
  decide +kernel

/-- C152. For a negative ion and a connectivity without negative entries: an atom of another element has a charge of at
least zero, and zero exactly if it is bound to no ion; an ion that is bound to no ion has exactly its charge. -/
theorem C152_signs (z : Fin n → Nat) (cm : Fin n → Fin n → Rat) (ion : Nat) (q : Rat) (hq : q < 0)
    (hcm : ∀ i j, 0 ≤ cm i j) (c : Fin n → Rat) (h : formalCharges z cm ion q = .ok c) (j : Fin n) :
    (z j ≠ ion → 0 ≤ c j ∧ (c j = 0 ↔ ∀ i, z i = ion → cm i j = 0)) ∧
    (z j = ion → q ≤ c j ∧ (c j = q ↔ ∀ i, z i = ion → cm i j = 0)) := by
  rw [C151_formal_charges_exact] at h
  split at h
  swap
  · simp at h
  simp only [Except.ok.injEq] at h
  subst h
  have hneg : ∀ i, cm i j ≠ 0 → perBond q (bonds cm i) < 0 := by
    intro i hi
    have hpos : 0 < bonds cm i :=
      lt_of_lt_of_le (lt_of_le_of_ne (hcm i j) (Ne.symm hi))
        (Finset.single_le_sum (f := fun k => cm i k) (fun k _ => hcm i k) (Finset.mem_univ j))
    rw [perBond, if_neg hpos.ne']
    split_ifs
    · exact div_neg_of_neg_of_pos hq (abs_pos.mpr hq.ne)
    · exact div_neg_of_neg_of_pos hq hpos
  have hterm : ∀ i, (if z i = ion then cm i j * perBond q (bonds cm i) else 0) ≤ 0 := by
    intro i
    split_ifs
    · by_cases h0 : cm i j = 0
      · rw [h0, zero_mul]
      · exact mul_nonpos_of_nonneg_of_nonpos (hcm i j) (hneg i h0).le
    · exact le_rfl
  have hsum : ∑ i, (if z i = ion then cm i j * perBond q (bonds cm i) else 0) ≤ 0 :=
    Finset.sum_nonpos fun i _ => hterm i
  have hzero : ∑ i, (if z i = ion then cm i j * perBond q (bonds cm i) else 0) = 0 ↔
      ∀ i, z i = ion → cm i j = 0 := by
    rw [Finset.sum_eq_zero_iff_of_nonpos fun i _ => hterm i]
    constructor
    · intro h i hz
      have := h i (Finset.mem_univ i)
      rw [if_pos hz] at this
      by_contra h0
      exact (mul_ne_zero h0 (hneg i h0).ne) this
    · intro h i _
      split_ifs with hz
      · rw [h i hz, zero_mul]
      · rfl
  constructor
  · intro hz
    simp only [if_neg hz]
    refine ⟨by linarith, ?_⟩
    rw [← hzero]
    constructor <;> intro h <;> linarith
  · intro hz
    simp only [if_pos hz]
    refine ⟨by linarith, ?_⟩
    rw [← hzero]
    constructor <;> intro h <;> linarith

/-- C152. The charges belong to the atoms: with the atoms in another order the same charges come in that order. -/
theorem C152_order (z : Fin n → Nat) (cm : Fin n → Fin n → Rat) (ion : Nat) (q : Rat) (σ : Equiv.Perm (Fin n)) :
    formalCharges (z ∘ σ) (fun i j => cm (σ i) (σ j)) ion q =
      (formalCharges z cm ion q).map fun c => c ∘ σ := by
  rw [C151_formal_charges_exact, C151_formal_charges_exact]
  have hex : (∃ i, (z ∘ σ) i = ion) ↔ ∃ i, z i = ion :=
    ⟨fun ⟨i, h⟩ => ⟨σ i, h⟩, fun ⟨i, h⟩ => ⟨σ.symm i, by simpa using h⟩⟩
  have hb : ∀ i, bonds (fun i j => cm (σ i) (σ j)) i = bonds cm (σ i) := fun i =>
    Equiv.sum_comp σ fun k => cm (σ i) k
  by_cases h : ∃ i, z i = ion
  · rw [if_pos (hex.mpr h), if_pos h]
    simp only [Except.map, Except.ok.injEq]
    funext j
    simp only [Function.comp, hb]
    congr 1
    exact Equiv.sum_comp σ fun i => if z i = ion then cm i (σ j) * perBond q (bonds cm i) else 0
  · rw [if_neg (fun h' => h (hex.mp h')), if_neg h]; rfl

end Charges

/-! ### C153, C154: `geometry_hash` -/

/-- C153 is violated with Python 3, where `hashlib.md5` refuses text: there is no hash for any structure, and the atoms of
the caller have been moved into the cell nevertheless. -/
theorem C153_hash_violated (p : Printer) (hpy3 : ∀ s, p.md5 s = .error .type) (g : Geometry) :
    geometryHash p g = (.error .type, { g with atoms := g.atoms.map fun a => (p.wrap g.cell a.1, a.2) }) := by
  simp [geometryHash, hpy3]

private theorem key_injective : Function.Injective key := by
  rintro ⟨a, b, c⟩ ⟨a', b', c'⟩ h
  simp only [key, EmbeddingLike.apply_eq_iff_eq, Prod.mk.injEq] at h
  obtain ⟨h1, h2, h3⟩ := h
  rw [h1, h2, h3]

private theorem sort_unique (l l' : List (Vec × Nat)) (h : l.Perm l') (hn : (l.map (·.1)).Nodup) :
    sortAsc (fun a => key a.1) l = sortAsc (fun a => key a.1) l' := by
  have hp : (sortAsc (fun a : Vec × Nat => key a.1) l).Perm (sortAsc (fun a => key a.1) l') :=
    ((sortAsc_perm _ l).trans h).trans (sortAsc_perm _ l').symm
  refine List.Perm.eq_of_pairwise ?_ (sortAsc_pairwise _ l) (sortAsc_pairwise _ l') hp
  intro a b ha hb hab hba
  have ha' : a ∈ l := (sortAsc_perm _ l).mem_iff.mp ha
  have hb' : b ∈ l := h.mem_iff.mpr ((sortAsc_perm _ l').mem_iff.mp hb)
  exact List.inj_on_of_nodup_map hn ha' hb' (key_injective (le_antisymm hab hba))

/-- C153 (partial; with Python 2, where there is a hash): listing the atoms in another order does not change the hash,
provided that no two atoms are at the same place. -/
theorem C153_order_partial (p : Printer) (cell : List Vec) (l l' : List (Vec × Nat)) (h : l.Perm l')
    (hn : (l.map fun a => p.wrap cell a.1).Nodup) :
    (geometryHash p ⟨cell, l⟩).1 = (geometryHash p ⟨cell, l'⟩).1 := by
  have := sort_unique (l.map fun a => (p.wrap cell a.1, a.2)) (l'.map fun a => (p.wrap cell a.1, a.2))
    (h.map _) (by simpa [List.map_map, Function.comp_def] using hn)
  simp only [geometryHash, masterHash, this]

/-- Two atoms at the same place (up to the wrapping): the order matters. -/
theorem C153_same_place_violated : ∃ (p : Printer) (l l' : List (Vec × Nat)), l.Perm l' ∧
    (geometryHash p ⟨[], l⟩).1 ≠ (geometryHash p ⟨[], l'⟩).1 :=
  ⟨⟨fun _ v => v, id, fun _ => [], fun l => l.map Char.ofNat, fun s => .ok s⟩,
    [((0, 0, 0), 1), ((0, 0, 0), 2)], [((0, 0, 0), 2), ((0, 0, 0), 1)], List.Perm.swap _ _ _, by decide +kernel⟩

/-- A summarising printer, as `np.array_str` is with its default threshold: of more than 1000 entries only the first
three and the last three are shown. -/
def Summarises (floats : List Rat → List Char) : Prop :=
  ∀ l l' : List Rat, 1000 < l.length → l'.length = l.length → l.take 3 = l'.take 3 →
    l.drop (l.length - 3) = l'.drop (l'.length - 3) → floats l = floats l'

private theorem sort_sorted (l : List (Vec × Nat)) (h : l.Pairwise fun a b => key a.1 < key b.1) :
    sortAsc (fun a => key a.1) l = l := by
  refine List.Perm.eq_of_pairwise ?_ (sortAsc_pairwise _ l) (h.imp le_of_lt) (sortAsc_perm _ l)
  intro a b ha hb hab hba
  have ha' : a ∈ l := (sortAsc_perm _ l).mem_iff.mp ha
  have hn : (l.map (·.1)).Nodup := by
    rw [List.Nodup, List.pairwise_map]
    exact h.imp fun hab e => absurd hab (by rw [e]; exact lt_irrefl _)
  exact List.inj_on_of_nodup_map hn ha' hb (key_injective (le_antisymm hab hba))

private theorem flat_length {A : Type} (l : List (A × A × A)) : (flat l).length = 3 * l.length := by
  induction l with
  | nil => rfl
  | cons a l ih =>
    simp only [flat, List.flatMap_cons, List.length_append, List.length_cons, List.length_nil] at ih ⊢
    omega

/-- C154 is violated (also where there is a hash): in a structure of at least 334 atoms, all atoms but the lowest and the
highest can be moved without changing the hash. -/
theorem C154_distinguishes_violated (p : Printer) (hs : Summarises p.floats) (cell : List Vec)
    (hw : ∀ v, p.wrap cell v = v) (a b : Vec × Nat) (m m' : List (Vec × Nat)) (hlen : 332 ≤ m.length)
    (hnum : m.map (·.2) = m'.map (·.2))
    (hm : (a :: (m ++ [b])).Pairwise fun x y => key x.1 < key y.1)
    (hm' : (a :: (m' ++ [b])).Pairwise fun x y => key x.1 < key y.1) :
    (geometryHash p ⟨cell, a :: (m ++ [b])⟩).1 = (geometryHash p ⟨cell, a :: (m' ++ [b])⟩).1 := by
  have hid : ∀ l : List (Vec × Nat), (l.map fun x => (p.wrap cell x.1, x.2)) = l := by
    intro l
    have : (fun x : Vec × Nat => (p.wrap cell x.1, x.2)) = id := by funext x; rw [hw]; rfl
    rw [this, List.map_id]
  have hl : m.length = m'.length := by simpa using congrArg List.length hnum
  simp only [geometryHash, masterHash, hid, sort_sorted _ hm, sort_sorted _ hm']
  have hints : (a :: (m ++ [b])).map (·.2) = (a :: (m' ++ [b])).map (·.2) := by simp [hnum]
  have hflat : ∀ k : List (Vec × Nat), (flat ((a :: (k ++ [b])).map (·.1))).map p.round =
      [p.round a.1.1, p.round a.1.2.1, p.round a.1.2.2] ++ ((flat (k.map (·.1))).map p.round ++
        [p.round b.1.1, p.round b.1.2.1, p.round b.1.2.2]) := by
    intro k; simp [flat]
  have hlen3 : ∀ k : List (Vec × Nat), ((flat (k.map (·.1))).map p.round).length = 3 * k.length := by
    intro k; rw [List.length_map, flat_length, List.length_map]
  rw [hints]
  congr 3
  apply hs
  · rw [hflat]; simp only [List.length_append, hlen3, List.length_cons, List.length_nil]; omega
  · rw [hflat, hflat]; simp only [List.length_append, hlen3, List.length_cons, List.length_nil]; omega
  · rw [hflat, hflat]; simp
  · have hd : ∀ k : List (Vec × Nat), ((flat ((a :: (k ++ [b])).map (·.1))).map p.round).drop
        (((flat ((a :: (k ++ [b])).map (·.1))).map p.round).length - 3) =
        [p.round b.1.1, p.round b.1.2.1, p.round b.1.2.2] := by
      intro k
      rw [hflat, ← List.append_assoc]
      apply List.drop_left'
      simp only [List.length_append, hlen3, List.length_cons, List.length_nil]; omega
    rw [hd, hd]

/-- The hypotheses are met by the printer that shows six numbers, and by a chain of 402 atoms of which the inner ones
are moved up by a quarter. -/
example : ∃ m m' : List (Vec × Nat), 332 ≤ m.length ∧ m.map (·.2) = m'.map (·.2) ∧ m ≠ m' ∧
    ((((0, 0, 0), 6) : Vec × Nat) :: (m ++ [((0, 0, 1000), 8)])).Pairwise (fun x y => key x.1 < key y.1) ∧
    ((((0, 0, 0), 6) : Vec × Nat) :: (m' ++ [((0, 0, 1000), 8)])).Pairwise (fun x y => key x.1 < key y.1) := by
  have key_lt : ∀ x y : Rat, x < y → key (0, 0, x) < key (0, 0, y) := by
    intro x y h
    rw [key, key, Prod.Lex.toLex_lt_toLex]
    exact Or.inl h
  have chain : ∀ e : Rat, 0 ≤ e → e < 1 → ((((0, 0, 0), 6) : Vec × Nat) ::
      ((List.range 400).map (fun k : Nat => (((0, 0, (k : Rat) + 1 + e), 7) : Vec × Nat)) ++ [((0, 0, 1000), 8)])).Pairwise
      (fun x y => key x.1 < key y.1) := by
    intro e h0 h1
    have hr : ∀ k ∈ List.range 400, (k : Rat) + 1 + e < 1000 := by
      intro k hk
      have : (k : Rat) < 400 := by exact_mod_cast List.mem_range.mp hk
      linarith
    rw [List.pairwise_cons, List.pairwise_append]
    refine ⟨?_, ?_, by simp, ?_⟩
    · intro x hx
      rcases List.mem_append.mp hx with hx | hx
      · obtain ⟨k, _, rfl⟩ := List.mem_map.mp hx
        apply key_lt
        have : (0 : Rat) ≤ k := Nat.cast_nonneg k
        linarith
      · rw [List.mem_singleton.mp hx]; exact key_lt _ _ (by norm_num)
    · rw [List.pairwise_map]
      refine List.pairwise_lt_range.imp ?_
      intro x y h
      apply key_lt
      have : (x : Rat) < y := by exact_mod_cast h
      linarith
    · intro x hx y hy
      obtain ⟨k, hk, rfl⟩ := List.mem_map.mp hx
      rw [List.mem_singleton.mp hy]
      exact key_lt _ _ (hr k hk)
  refine ⟨_, _, by simp, by simp [List.map_map, Function.comp_def], ?_, chain 0 le_rfl one_pos, chain (1/4) (by norm_num) (by norm_num)⟩
  intro h
  have := List.map_inj_left.mp h 0 (List.mem_range.mpr (by norm_num))
  norm_num at this

example : Summarises fun l => (l.take 3 ++ l.drop (l.length - 3)).flatMap fun r => (toString r).toList := by
  intro l l' _ _ h1 h2
  simp only [h1, h2]

/-- A printer that writes whole numbers as their digits without separators, as `np.array_str` does after L134-135 have removed
brackets, blanks and dots. -/
def Concatenates (floats : List Rat → List Char) : Prop :=
  ∀ l : List Nat, l.length ≤ 1000 → floats (l.map fun k : Nat => (k : Rat)) = l.flatMap fun k => Nat.toDigits 10 k

/-- C154 is violated by small structures as well: coordinates are written one after the other without separator, so that an atom at
(1, 12, 0) and the same atom at (11, 2, 0) give the same hash, in every cell that contains both. -/
theorem C154_concatenation_violated (p : Printer) (hc : Concatenates p.floats) (hr : ∀ k : Nat, p.round k = k) (cell : List Vec)
    (hw : ∀ v, p.wrap cell v = v) (z : Nat) :
    (geometryHash p ⟨cell, [((1, 12, 0), z)]⟩).1 = (geometryHash p ⟨cell, [((11, 2, 0), z)]⟩).1 := by
  have h1 : ∀ v : Vec, sortAsc (fun a : Vec × Nat => key a.1) [(v, z)] = [(v, z)] := fun v => rfl
  have e1 : ([1, 12, 0] : List Rat).map p.round = ([1, 12, 0] : List Nat).map fun k : Nat => (k : Rat) := by
    have a1 := hr 1
    have a2 := hr 12
    have a3 := hr 0
    push_cast at a1 a2 a3
    simp [a1, a2, a3]
  have e2 : ([11, 2, 0] : List Rat).map p.round = ([11, 2, 0] : List Nat).map fun k : Nat => (k : Rat) := by
    have a1 := hr 11
    have a2 := hr 2
    have a3 := hr 0
    push_cast at a1 a2 a3
    simp [a1, a2, a3]
  have e3 : p.floats (([1, 12, 0] : List Rat).map p.round) = p.floats (([11, 2, 0] : List Rat).map p.round) := by
    rw [e1, e2, hc _ (by simp), hc _ (by simp)]
    decide
  simp only [geometryHash, masterHash, List.map_cons, List.map_nil, hw, h1]
  have f1 : flat [((1, 12, 0) : Vec)] = [1, 12, 0] := rfl
  have f2 : flat [((11, 2, 0) : Vec)] = [11, 2, 0] := rfl
  rw [f1, f2, e3]

/-- A printer that meets the hypotheses: whole numbers are printed without separator. -/
example : Concatenates (fun l => l.flatMap fun r => Nat.toDigits 10 r.num.toNat) ∧ ∀ k : Nat, ((fun r : Rat => r) k) = k := by
  refine ⟨fun l _ => ?_, fun _ => rfl⟩
  simp only [List.flatMap_map, Rat.num_natCast, Int.toNat_natCast]

/-- C154 (partial).  Two structures in the same cell with the same elements in the order of their sorted positions get different
strings exactly if the texts of their rounded, sorted positions differ.  Missing: that the texts differ whenever the positions do (see the
violations). -/
theorem C154_distinguishes_partial (p : Printer) (cell : List Vec) (a b : List (Vec × Nat))
    (hnum : (sortAsc (fun x : Vec × Nat => key x.1) (a.map fun x => (p.wrap cell x.1, x.2))).map (·.2)
      = (sortAsc (fun x : Vec × Nat => key x.1) (b.map fun x => (p.wrap cell x.1, x.2))).map (·.2)) :
    masterHash p ⟨cell, a⟩ ≠ masterHash p ⟨cell, b⟩ ↔
      p.floats ((flat (sortAsc key (a.map fun x => p.wrap cell x.1))).map p.round)
        ≠ p.floats ((flat (sortAsc key (b.map fun x => p.wrap cell x.1))).map p.round) := by
  have hpos : ∀ l : List (Vec × Nat), (sortAsc (fun x : Vec × Nat => key x.1) l).map (·.1) = sortAsc key (l.map (·.1)) := by
    intro l
    refine List.Perm.eq_of_pairwise (fun x y _ _ h1 h2 => key_injective (le_antisymm h1 h2)) ?_ (sortAsc_pairwise key _) ?_
    · rw [List.pairwise_map]
      exact sortAsc_pairwise _ l
    · exact ((sortAsc_perm _ l).map _).trans (sortAsc_perm key _).symm
  have hm : ∀ l : List (Vec × Nat), (l.map fun x => (p.wrap cell x.1, x.2)).map (·.1) = l.map fun x => p.wrap cell x.1 := by
    intro l; simp
  simp only [masterHash, hnum, hpos, hm]
  rw [not_iff_not]
  constructor
  · intro h
    exact List.append_cancel_left (List.append_cancel_right h)
  · intro h
    rw [h]

example : ∃ (p : Printer) (a b : List (Vec × Nat)),
    (sortAsc (fun x : Vec × Nat => key x.1) (a.map fun x => (p.wrap [] x.1, x.2))).map (·.2)
      = (sortAsc (fun x : Vec × Nat => key x.1) (b.map fun x => (p.wrap [] x.1, x.2))).map (·.2) ∧
    a ≠ b :=
  ⟨⟨fun _ v => v, fun r => r, fun _ => [], fun _ => [], fun s => .ok s⟩, [((0, 0, 0), 1)], [((0, 0, 1), 1)], rfl, by
    intro h
    have := congrArg (fun l => l.map fun x : Vec × Nat => x.1.2.2) h
    simp at this⟩

/-! ### C155: penalties -/

section Penalty

variable {d : Nat}

theorem minDist_spec (train : List (Fin d → ℝ)) (hne : train ≠ []) (x : Fin d → ℝ) :
    ∃ m, minDist train x = .ok m ∧ (∃ t ∈ train, m = Utilities.dist x t) ∧ ∀ t ∈ train, m ≤ Utilities.dist x t := by
  cases train with
  | nil => exact absurd rfl hne
  | cons t ts =>
    refine ⟨_, rfl, ?_⟩
    clear hne
    suffices h : ∀ m, (∃ s ∈ ([] : List (Fin d → ℝ)) ++ ts, ts.foldl (fun m y => min m (Utilities.dist x y)) m = Utilities.dist x s) ∨
        ts.foldl (fun m y => min m (Utilities.dist x y)) m = m by
      have hle : ∀ (ts : List (Fin d → ℝ)) (m : ℝ), ts.foldl (fun m y => min m (Utilities.dist x y)) m ≤ m ∧
          ∀ s ∈ ts, ts.foldl (fun m y => min m (Utilities.dist x y)) m ≤ Utilities.dist x s := by
        intro ts
        induction ts with
        | nil => intro m; simp
        | cons a ts ih =>
          intro m
          obtain ⟨h1, h2⟩ := ih (min m (Utilities.dist x a))
          refine ⟨h1.trans (min_le_left _ _), ?_⟩
          intro s hs
          rcases List.mem_cons.mp hs with rfl | hs
          · exact h1.trans (min_le_right _ _)
          · exact h2 s hs
      constructor
      · rcases h (Utilities.dist x t) with ⟨s, hs, e⟩ | e
        · exact ⟨s, by simp at hs; simp [hs], e⟩
        · exact ⟨t, by simp, e⟩
      · intro s hs
        rcases List.mem_cons.mp hs with rfl | hs
        · exact (hle ts _).1
        · exact (hle ts _).2 s hs
    induction ts with
    | nil => intro m; right; rfl
    | cons a ts ih =>
      intro m
      rw [List.foldl_cons]
      rcases ih (min m (Utilities.dist x a)) with ⟨s, hs, e⟩ | e
      · left; exact ⟨s, by simp at hs; simp [hs], e⟩
      · rcases min_choice m (Utilities.dist x a) with h | h
        · right; rw [e, h]
        · left; exact ⟨a, by simp, by rw [e, h]⟩

private theorem dist_nonneg (x y : Fin d → ℝ) : 0 ≤ Utilities.dist x y := Real.sqrt_nonneg _

private theorem dist_eq_zero (x y : Fin d → ℝ) : Utilities.dist x y = 0 ↔ x = y := by
  have h0 : 0 ≤ ∑ k, (x k - y k) ^ 2 := Finset.sum_nonneg fun k _ => sq_nonneg _
  rw [Utilities.dist, Real.sqrt_eq_zero h0, Finset.sum_eq_zero_iff_of_nonneg fun k _ => sq_nonneg _]
  constructor
  · intro h; funext k
    have := h k (Finset.mem_univ k)
    have := pow_eq_zero_iff (two_ne_zero) |>.mp this
    linarith
  · rintro rfl k _; simp

/-- C155, points too close: with a nonempty training set every test point gets a penalty, in order. It lies between 0 and
`c d²`; it is positive exactly if a training point is nearer than `d`; it is `c d²` exactly for a point that is already in the
training set; and of two points the one with the nearer training point never gets less. -/
theorem C155_penalty_close (c dcrit : ℝ) (hc : 0 < c) (hd : 0 < dcrit) (test train : List (Fin d → ℝ)) (hne : train ≠ []) :
    ∃ pen : (Fin d → ℝ) → ℝ, penaltyClose c dcrit test train = .ok (test.map pen) ∧ ∀ x,
      (0 ≤ pen x ∧ pen x ≤ c * dcrit ^ 2) ∧
      (0 < pen x ↔ ∃ t ∈ train, Utilities.dist x t < dcrit) ∧
      (pen x = c * dcrit ^ 2 ↔ x ∈ train) ∧
      (∀ y, (∀ t ∈ train, ∃ s ∈ train, Utilities.dist x s ≤ Utilities.dist y t) → pen y ≤ pen x) := by
  choose m hm hex hle using minDist_spec train hne
  refine ⟨fun x => if m x < dcrit then c * (m x - dcrit) ^ 2 else 0, ?_, ?_⟩
  · exact MapM.mapM_ok_map _ _ _ fun x _ => by simp only [hm x]
  · intro x
    have h0 : 0 ≤ m x := by obtain ⟨t, _, e⟩ := hex x; rw [e]; exact dist_nonneg x t
    have hm0 : m x = 0 ↔ x ∈ train := by
      constructor
      · intro h
        obtain ⟨t, ht, e⟩ := hex x
        rw [h] at e
        rw [(dist_eq_zero x t).mp e.symm]; exact ht
      · intro h
        exact le_antisymm ((hle x x h).trans ((dist_eq_zero x x).mpr rfl).le) h0
    refine ⟨?_, ?_, ?_, ?_⟩
    · by_cases h : m x < dcrit
      · simp only [if_pos h]
        refine ⟨by positivity, ?_⟩
        exact mul_le_mul_of_nonneg_left (by nlinarith) hc.le
      · simp only [if_neg h]; exact ⟨le_rfl, by positivity⟩
    · by_cases h : m x < dcrit
      · simp only [if_pos h]
        have : 0 < c * (m x - dcrit) ^ 2 := mul_pos hc (by nlinarith)
        simp only [this, true_iff]
        obtain ⟨t, ht, e⟩ := hex x
        exact ⟨t, ht, e ▸ h⟩
      · simp only [if_neg h, lt_irrefl, false_iff]
        rintro ⟨t, ht, hlt⟩
        exact h ((hle x t ht).trans_lt hlt)
    · rw [← hm0]
      by_cases h : m x < dcrit
      · simp only [if_pos h]
        constructor
        · intro e
          have e2 := mul_left_cancel₀ hc.ne' e
          nlinarith
        · intro e; rw [e]; ring
      · simp only [if_neg h]
        constructor
        · intro e
          have : 0 < c * dcrit ^ 2 := by positivity
          linarith
        · intro e; exact absurd (e ▸ hd) h
    · intro y hy
      have hxy : m x ≤ m y := by
        obtain ⟨t, ht, e⟩ := hex y
        obtain ⟨s, hs, h⟩ := hy t ht
        rw [e]; exact (hle x s hs).trans h
      by_cases h : m y < dcrit
      · simp only [if_pos h, if_pos (hxy.trans_lt h)]
        exact mul_le_mul_of_nonneg_left (by nlinarith) hc.le
      · simp only [if_neg h]
        split_ifs
        · positivity
        · exact le_rfl

/-- C155, points too far: the penalty is at least 0, positive exactly if no training point is within `d`, and of two points the
one farther from its nearest training point never gets less. -/
theorem C155_penalty_far (c dcrit : ℝ) (hc : 0 < c) (hd : 0 ≤ dcrit) (test train : List (Fin d → ℝ)) (hne : train ≠ []) :
    ∃ pen : (Fin d → ℝ) → ℝ, penaltyFar c dcrit test train = .ok (test.map pen) ∧ ∀ x,
      0 ≤ pen x ∧
      (0 < pen x ↔ ∀ t ∈ train, dcrit < Utilities.dist x t) ∧
      (∀ y, (∀ t ∈ train, ∃ s ∈ train, Utilities.dist x s ≤ Utilities.dist y t) → pen x ≤ pen y) := by
  choose m hm hex hle using minDist_spec train hne
  refine ⟨fun x => if dcrit < m x then c * (m x - dcrit) ^ 2 else 0, ?_, ?_⟩
  · exact MapM.mapM_ok_map _ _ _ fun x _ => by simp only [hm x]
  · intro x
    refine ⟨?_, ?_, ?_⟩
    · by_cases h : dcrit < m x
      · simp only [if_pos h]; positivity
      · simp only [if_neg h]; exact le_rfl
    · by_cases h : dcrit < m x
      · simp only [if_pos h]
        have : 0 < c * (m x - dcrit) ^ 2 := mul_pos hc (by nlinarith)
        simp only [this, true_iff]
        exact fun t ht => h.trans_le (hle x t ht)
      · simp only [if_neg h, lt_irrefl, false_iff]
        intro hall
        obtain ⟨t, ht, e⟩ := hex x
        exact h (e ▸ hall t ht)
    · intro y hy
      have hxy : m x ≤ m y := by
        obtain ⟨t, ht, e⟩ := hex y
        obtain ⟨s, hs, h⟩ := hy t ht
        rw [e]; exact (hle x s hs).trans h
      by_cases h : dcrit < m x
      · simp only [if_pos h, if_pos (h.trans_le hxy)]
        exact mul_le_mul_of_nonneg_left (by nlinarith) hc.le
      · simp only [if_neg h]
        split_ifs
        · positivity
        · exact le_rfl

/-- C155. Without training data there are no penalties, but an error. -/
theorem C155_penalty_no_data (c dcrit : ℝ) (test : List (Fin d → ℝ)) (hne : test ≠ []) :
    penaltyClose c dcrit test [] = .error .value ∧ penaltyFar c dcrit test [] = .error .value := by
  cases test with
  | nil => exact absurd rfl hne
  | cons x l => constructor <;> simp only [penaltyClose, penaltyFar, MapM.mapM_cons, minDist]

example : (1e5 : ℝ) > 0 ∧ (1e-5 : ℝ) > 0 ∧ ([![0], ![1]] : List (Fin 1 → ℝ)) ≠ [] :=
  ⟨by norm_num, by norm_num, List.cons_ne_nil _ _⟩

end Penalty

end CatLearn.Props
