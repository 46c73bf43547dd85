import Verif.Model.Features
import Verif.Lemmas.Py
import Mathlib.Tactic.Common
import Mathlib.Tactic.Linarith

/-!
# Assembling feature matrices: C61, C142
-/

namespace CatLearn.Feat

open CatLearn

variable {A K : Type}

theorem mapM_forall₂ {α β : Type} {f : α → Except PyErr β} {l : List α} {r : List β} (h : l.mapM f = .ok r) :
    List.Forall₂ (fun a b => f a = .ok b) l r := by
  induction l generalizing r with
  | nil => simp only [List.mapM_nil, pure, Except.pure, Except.ok.injEq] at h; subst h; exact .nil
  | cons a l ih =>
    rw [List.mapM_cons] at h
    simp only [bind, Except.bind, pure, Except.pure] at h
    cases ha : f a with
    | error e => rw [ha] at h; cases h
    | ok b =>
      rw [ha] at h
      simp only at h
      cases hl : l.mapM f with
      | error e => rw [hl] at h; cases h
      | ok bs =>
        rw [hl] at h
        simp only [Except.ok.injEq] at h
        subst h
        exact .cons ha (ih hl)

theorem mapM_of_forall₂ {α β : Type} {f : α → Except PyErr β} {l : List α} {r : List β}
    (h : List.Forall₂ (fun a b => f a = .ok b) l r) : l.mapM f = .ok r := by
  induction h with
  | nil => rfl
  | cons h _ ih =>
    rw [List.mapM_cons, ih]
    simp [bind, Except.bind, pure, Except.pure, h]

/-- The concatenation of numeric fingerprints. -/
theorem concatenate_nums (g : Gen) (a : Option A) (fs : List (Fp A K)) (vs : List (List K)) (acc : List K)
    (h : List.Forall₂ (fun (f : Fp A K) v => f g a = .ok (.nums v)) fs vs) :
    concatenate g a fs (.nums acc) = .ok (.nums (acc ++ vs.flatten)) := by
  induction h generalizing acc with
  | nil => simp [concatenate]
  | cons h _ ih =>
    simp only [concatenate, h, toArray, join, ih]
    simp [List.append_assoc]

theorem concatenate_strs (g : Gen) (a : Option A) (fs : List (Fp A K)) (vs : List (List String)) (acc : List String)
    (hacc : acc ≠ []) (hne : ∀ v ∈ vs, v ≠ [])
    (h : List.Forall₂ (fun (f : Fp A K) v => f g a = .ok (.strs v)) fs vs) :
    concatenate g a fs (.strs acc) = .ok (.strs (acc ++ vs.flatten)) := by
  induction h generalizing acc with
  | nil => simp [concatenate]
  | @cons f v fs vs h _ ih =>
    have hv : v ≠ [] := hne v (by simp)
    have ht : toArray (Vals.strs v : Vals K) = .strs v := by
      cases v with
      | nil => exact absurd rfl hv
      | cons _ _ => rfl
    simp only [concatenate, h, ht, join]
    rw [ih (acc ++ v) (by simp [hacc]) fun w hw => hne w (by simp [hw])]
    simp [List.append_assoc]

/-- Each row of the model of `_get_vec` is the concatenation of the requested fingerprints, in the requested order. -/
theorem getVec_nums (g : Gen) (a : Option A) (fs : List (Fp A K)) (vs : List (List K))
    (h : List.Forall₂ (fun (f : Fp A K) v => f g a = .ok (.nums v)) fs vs) :
    getVec g fs a = .ok (.nums vs.flatten) := by
  have key := concatenate_nums g a fs vs [] h
  simp only [List.nil_append] at key
  unfold getVec
  split
  · cases h with
    | cons h1 h2 => cases h2; simpa using h1
  · exact key

theorem getVec_strs (g : Gen) (a : Option A) (fs : List (Fp A K)) (vs : List (List String)) (hfs : fs ≠ [])
    (hne : ∀ v ∈ vs, v ≠ [])
    (h : List.Forall₂ (fun (f : Fp A K) v => f g a = .ok (.strs v)) fs vs) :
    getVec g fs a = .ok (.strs vs.flatten) := by
  unfold getVec
  cases h with
  | nil => exact absurd rfl hfs
  | @cons f v fs vs h1 h2 =>
    split
    · rename_i heq
      simp only [List.cons.injEq] at heq
      obtain ⟨rfl, rfl⟩ := heq
      cases h2
      simpa using h1
    · have hv : v ≠ [] := hne v (by simp)
      have ht : toArray (Vals.strs v : Vals K) = .strs v := by
        cases v with
        | nil => exact absurd rfl hv
        | cons _ _ => rfl
      simp only [concatenate, h1, ht, join, if_true]
      rw [concatenate_strs g a fs vs v hv (fun w hw => hne w (by simp [hw])) h2]
      simp

/-- C61, rows: when `return_vec` on a list of structures succeeds in serial mode, row `i` is the vector of structure
`i`, there is one row per structure, and when the fingerprint functions return numbers each row is the concatenation
of the requested fingerprints of that structure, in the requested order, evaluated with the same attributes. -/
theorem C61_rows (numbers : A → Option (List ℕ)) (g g' : Gen) (l : List A) (fs : List (Fp A K))
    (rows : List (Vals K)) (h : returnVec numbers none g (.list l) fs = .ok (g', rows)) :
    rows.length = l.length ∧
    ∀ (i : ℕ) (a : A), l[i]? = some a → ∃ row, rows[i]? = some row ∧ getVec g' fs (some a) = .ok row ∧
      ∀ vs : List (List K), List.Forall₂ (fun (f : Fp A K) v => f g' (some a) = .ok (.nums v)) fs vs →
        row = .nums vs.flatten := by
  simp only [returnVec, iterated] at h
  cases hp : prepare numbers g l with
  | error e => rw [hp] at h; cases h
  | ok g1 =>
    rw [hp] at h
    simp only at h
    cases hs : serial g1 fs l with
    | error e => rw [hs] at h; cases h
    | ok rs =>
      rw [hs] at h
      simp only [Except.ok.injEq, Prod.mk.injEq] at h
      obtain ⟨rfl, rfl⟩ := h
      have hf := mapM_forall₂ hs
      refine ⟨hf.length_eq.symm, ?_⟩
      intro i a hi
      obtain ⟨hlt, he⟩ := List.getElem?_eq_some_iff.1 hi
      have hlt' : i < rs.length := by rw [← hf.length_eq]; exact hlt
      have hrow : getVec g1 fs (some a) = .ok rs[i] := by
        have := (List.forall₂_iff_get.1 hf).2 i hlt hlt'
        simp only [List.get_eq_getElem] at this
        rw [he] at this
        exact this
      refine ⟨rs[i], by simp [hlt'], hrow, ?_⟩
      intro vs hv
      rw [getVec_nums g1 (some a) fs vs hv] at hrow
      exact (Except.ok.inj hrow).symm

theorem collect_eq {R : Type} (rows : List R) (slots : List (Option R)) (arr : List (ℕ × R))
    (hlen : slots.length = rows.length) (harr : ∀ p ∈ arr, rows[p.1]? = some p.2)
    (hslot : ∀ i : ℕ, i < rows.length → slots[i]? = some rows[i]? ∨ i ∈ arr.map (·.1)) :
    collect slots arr = rows.map some := by
  induction arr generalizing slots with
  | nil =>
    simp only [collect]
    refine List.ext_getElem? fun i => ?_
    by_cases hi : i < rows.length
    · rcases hslot i hi with h | h
      · rw [h]; simp [hi]
      · simp at h
    · rw [List.getElem?_eq_none (by omega), List.getElem?_eq_none (by simp; omega)]
  | cons p arr ih =>
    obtain ⟨k, r⟩ := p
    simp only [collect]
    refine ih _ (by simpa using hlen) (fun q hq => harr q (by simp [hq])) ?_
    intro i hi
    have hk := harr (k, r) (by simp)
    simp only at hk
    by_cases hik : i = k
    · subst hik
      left
      rw [List.getElem?_set_self (by omega), hk]
    · rcases hslot i hi with h | h
      · left; rw [List.getElem?_set_ne (Ne.symm hik), h]
      · right
        simpa [hik] using h

theorem mapM_id_some {R : Type} (rows : List R) : (rows.map some).mapM id = some rows := by
  induction rows with
  | nil => rfl
  | cons r rs ih => rw [List.map_cons, List.mapM_cons, ih]; rfl

/-- C61 (partial: there is a structure, and no fingerprint raises), serial and parallel: for every order in which the
worker processes finish, the parallel call returns what the serial call returns. -/
theorem C61_parallel_partial (numbers : A → Option (List ℕ)) (g g' : Gen) (l : List A) (hl : l ≠ [])
    (fs : List (Fp A K)) (rows : List (Vals K)) (order : List ℕ) (ho : order.Perm (List.range l.length))
    (h : returnVec numbers none g (.list l) fs = .ok (g', rows)) :
    returnVec numbers (some order) g (.list l) fs = .ok (g', rows) := by
  simp only [returnVec, iterated] at h ⊢
  cases hp : prepare numbers g l with
  | error e => rw [hp] at h; cases h
  | ok g1 =>
    rw [hp] at h
    simp only at h ⊢
    cases hs : serial g1 fs l with
    | error e => rw [hs] at h; cases h
    | ok rs =>
      rw [hs] at h
      simp only [Except.ok.injEq, Prod.mk.injEq] at h
      obtain ⟨rfl, rfl⟩ := h
      have hlen := (mapM_forall₂ hs).length_eq
      have hne : rs ≠ [] := by
        rintro rfl
        exact hl (List.length_eq_zero_iff.1 (by simpa using hlen))
      have hcol := collect_eq rs (List.replicate rs.length none)
        (order.filterMap fun i => rs[i]?.map fun r => (i, r)) (by simp) ?_ ?_
      · simp only [parallel, hs, if_neg hne, hcol, mapM_id_some]
      · intro p hp'
        obtain ⟨i, _, hi⟩ := List.mem_filterMap.1 hp'
        simp only [Option.map_eq_some_iff] at hi
        obtain ⟨r, hr, rfl⟩ := hi
        exact hr
      · intro i hi
        right
        refine List.mem_map.2 ⟨(i, rs[i]), ?_, rfl⟩
        refine List.mem_filterMap.2 ⟨i, ?_, by simp [hi]⟩
        exact ho.mem_iff.2 (List.mem_range.2 (by omega))

/-- C61 fails for the empty list: the serial call returns an empty matrix, the parallel one raises IndexError. -/
theorem C61_parallel_empty_violated (numbers : A → Option (List ℕ)) (g : Gen) (fs : List (Fp A K)) (order : List ℕ) :
    (∃ g', returnVec numbers none g (.list []) fs = .ok (g', [])) ∧
    returnVec numbers (some order) g (.list []) fs = .error .index := by
  have hp : ∃ g', prepare numbers g ([] : List A) = .ok g' := by
    simp only [prepare]
    split
    · exact ⟨_, rfl⟩
    · exact ⟨_, rfl⟩
  obtain ⟨g', hg⟩ := hp
  refine ⟨⟨g', ?_⟩, ?_⟩
  · simp only [returnVec, iterated, hg, serial, List.mapM_nil]
    rfl
  · simp only [returnVec, iterated, hg, parallel, serial, List.mapM_nil]
    rfl

/-- C61 fails: whatever a fingerprint function raises, the parallel call raises IndexError instead. -/
theorem C61_parallel_error_violated (numbers : A → Option (List ℕ)) (g g' : Gen) (l : List A) (fs : List (Fp A K))
    (order : List ℕ) (e : PyErr) (hp : prepare numbers g l = .ok g') (hs : serial g' fs l = .error e) :
    returnVec numbers none g (.list l) fs = .error e ∧
    returnVec numbers (some order) g (.list l) fs = .error .index := by
  simp [returnVec, iterated, hp, hs, parallel]

/-- C61 fails for dictionaries, which the documentation allows: a `defaultdict` is treated like the list of its keys,
a plain `dict` is a TypeError. -/
theorem C61_dict_violated (numbers : A → Option (List ℕ)) (g : Gen) (items : List (A × A)) (fs : List (Fp A K))
    (par : Option (List ℕ)) :
    returnVec numbers par g (.defaultdict items) fs = returnVec numbers par g (.list (items.map (·.1))) fs ∧
    returnVec numbers par g .other fs = .error .type := by
  constructor <;> rfl

/-- C61, names (partial: every fingerprint function returns as many names for `None` as it returns numbers for a
structure, and at least one): `return_names` has one name per column, in the same order of fingerprints. -/
theorem C61_names_partial (numbers : A → Option (List ℕ)) (g g' : Gen) (l : List A)
    (fs : List (Fp A K)) (hfs : fs ≠ []) (rows : List (Vals K))
    (h : returnVec numbers none g (.list l) fs = .ok (g', rows)) (names : List (List String))
    (hn : List.Forall₂ (fun (f : Fp A K) v => f g' none = .ok (.strs v)) fs names) (hne : ∀ v ∈ names, v ≠ [])
    (hlen : ∀ a ∈ l, ∀ f ∈ fs, ∀ v, f g' none = .ok (.strs v) →
      ∃ x : List K, f g' (some a) = .ok (.nums x) ∧ x.length = v.length) :
    returnNames g' fs = .ok (.strs names.flatten) ∧
    ∀ row ∈ rows, ∃ x, row = .nums x ∧ x.length = names.flatten.length := by
  refine ⟨getVec_strs g' none fs names hfs hne hn, ?_⟩
  intro row hrow
  obtain ⟨hl1, hl2⟩ := C61_rows numbers g g' l fs rows h
  obtain ⟨i, hi, rfl⟩ := List.getElem_of_mem hrow
  have hil : i < l.length := by omega
  obtain ⟨row', h1, h2, h3⟩ := hl2 i l[i] (by simp [hil])
  have he : rows[i] = row' := by
    rw [List.getElem?_eq_getElem hi] at h1
    exact Option.some.inj h1
  have : ∃ vs : List (List K), List.Forall₂ (fun (f : Fp A K) v => f g' (some l[i]) = .ok (.nums v)) fs vs ∧
      vs.flatten.length = names.flatten.length := by
    clear h3 h hfs h2 hl2
    induction hn with
    | nil => exact ⟨[], .nil, rfl⟩
    | @cons f v fs names hfv _ ih =>
      obtain ⟨vs, hv1, hv2⟩ := ih (fun w hw => hne w (by simp [hw])) (fun a ha f' hf' => hlen a ha f' (by simp [hf']))
      obtain ⟨x, hx1, hx2⟩ := hlen l[i] (List.getElem_mem hil) f (by simp) v hfv
      exact ⟨x :: vs, .cons hx1 hv1, by simp [hx2] at hv2 ⊢; omega⟩
  obtain ⟨vs, hv1, hv2⟩ := this
  exact ⟨vs.flatten, he.trans (h3 vs hv1), hv2⟩

/-- The composition of structures given as lists of atomic numbers, a fingerprint function. -/
def compositionFp : Fp (List ℕ) ℤ := fun g a =>
  match g.atomTypes with
  | none => .error .assertion
  | some ts =>
    match a with
    | none => .ok (.strs (ts.map fun t => toString t ++ "_count"))
    | some zs => .ok (.nums (ts.map fun t => (zs.count t : ℤ)))

/-- Two structures, the composition twice, serial and parallel. -/
example : (∃ g', returnVec some none ⟨none, none⟩ (.list [[1, 1, 8], [1, 17]]) [compositionFp, compositionFp] =
      .ok (g', [.nums [2, 1, 0, 2, 1, 0], .nums [1, 0, 1, 1, 0, 1]])) ∧
    (∃ g', returnVec some (some [1, 0]) ⟨none, none⟩ (.list [[1, 1, 8], [1, 17]]) [compositionFp, compositionFp] =
      .ok (g', [.nums [2, 1, 0, 2, 1, 0], .nums [1, 0, 1, 1, 0, 1]])) ∧ [1, 0].Perm (List.range 2) := by
  refine ⟨⟨⟨some [1, 8, 17], some 3⟩, rfl⟩, ⟨⟨some [1, 8, 17], some 3⟩, rfl⟩, by decide⟩

/-! ## C142: attributes -/

theorem foldl_len (numbers : List (List ℕ)) (m : ℕ) :
    m ≤ numbers.foldl (fun m a => if m < a.length then a.length else m) m ∧
    (∀ a ∈ numbers, a.length ≤ numbers.foldl (fun m a => if m < a.length then a.length else m) m) ∧
    (numbers.foldl (fun m a => if m < a.length then a.length else m) m = m ∨
      ∃ a ∈ numbers, a.length = numbers.foldl (fun m a => if m < a.length then a.length else m) m) := by
  induction numbers generalizing m with
  | nil => simp
  | cons a l ih =>
    simp only [List.foldl_cons, List.mem_cons, forall_eq_or_imp, exists_eq_or_imp]
    obtain ⟨h1, h2, h3⟩ := ih (if m < a.length then a.length else m)
    by_cases hm : m < a.length
    · rw [if_pos hm] at h1 h2 h3 ⊢
      refine ⟨by omega, ⟨h1, h2⟩, ?_⟩
      rcases h3 with h | h
      · exact Or.inr (Or.inl h.symm)
      · exact Or.inr (Or.inr h)
    · rw [if_neg hm] at h1 h2 h3 ⊢
      refine ⟨h1, ⟨by omega, h2⟩, ?_⟩
      rcases h3 with h | h
      · exact Or.inl h
      · exact Or.inr (Or.inr h)

/-- C142: the attributes found by `normalize_features` (and by the first `return_vec`): `atom_types` lists the
elements of the given structures and no others, in ascending order without repetition; `atom_len` is the size of the
largest structure. -/
theorem C142_types (numbers : List (List ℕ)) :
    (atomTypes numbers).Pairwise (· < ·) ∧ (∀ t, t ∈ atomTypes numbers ↔ ∃ zs ∈ numbers, t ∈ zs) ∧
    (∀ zs ∈ numbers, zs.length ≤ atomLength numbers) ∧
    (numbers ≠ [] → ∃ zs ∈ numbers, zs.length = atomLength numbers) := by
  have hperm := sortAsc_perm (id : ℕ → ℕ) numbers.flatten.dedup
  refine ⟨?_, ?_, (foldl_len numbers 0).2.1, ?_⟩
  · have h1 := sortAsc_pairwise (id : ℕ → ℕ) numbers.flatten.dedup
    have h2 : (atomTypes numbers).Nodup := hperm.nodup_iff.2 (List.nodup_dedup _)
    exact (h1.and h2).imp fun h => lt_of_le_of_ne h.1 h.2
  · intro t
    unfold atomTypes
    rw [hperm.mem_iff, List.mem_dedup, List.mem_flatten]
  · intro hne
    rcases (foldl_len numbers 0).2.2 with h | h
    · cases numbers with
      | nil => exact absurd rfl hne
      | cons a l =>
        refine ⟨a, by simp, ?_⟩
        have := (foldl_len (a :: l) 0).2.1 a (by simp)
        unfold atomLength
        omega
    · exact h

/-- C142: the attributes are fixed by the first call: a later call on other structures returns the same generator,
so that training and test features have the same columns. -/
theorem C142_stable (numbers : A → Option (List ℕ)) (g g' : Gen) (l l' : List A) (fs : List (Fp A K))
    (rows : List (Vals K)) (par : Option (List ℕ)) (h : returnVec numbers par g (.list l) fs = .ok (g', rows)) :
    g'.atomTypes.isSome ∧ g'.atomLen.isSome ∧ (∀ t, g.atomTypes = some t → g'.atomTypes = some t) ∧
    (∀ m, g.atomLen = some m → g'.atomLen = some m) ∧ prepare numbers g' l' = .ok g' := by
  have hg : prepare numbers g l = .ok g' := by
    simp only [returnVec, iterated] at h
    cases hp : prepare numbers g l with
    | error e => rw [hp] at h; cases h
    | ok g1 =>
      rw [hp] at h
      simp only at h
      split at h
      · cases h
      · simp only [Except.ok.injEq, Prod.mk.injEq] at h
        rw [h.1]
  have key : g'.atomTypes.isSome ∧ g'.atomLen.isSome ∧ (∀ t, g.atomTypes = some t → g'.atomTypes = some t) ∧
      (∀ m, g.atomLen = some m → g'.atomLen = some m) := by
    simp only [prepare] at hg
    split at hg
    · rename_i hs
      simp only [Except.ok.injEq] at hg
      subst hg
      exact ⟨hs.1, hs.2, fun _ h => h, fun _ h => h⟩
    · split at hg
      · cases hg
      · simp only [Except.ok.injEq] at hg
        subst hg
        exact ⟨rfl, rfl, fun t ht => by simp [ht], fun m hm => by simp [hm]⟩
  refine ⟨key.1, key.2.1, key.2.2.1, key.2.2.2, ?_⟩
  simp [prepare, key.1, key.2.1]

end CatLearn.Feat
