import Verif.Model.Fingerprints
import Verif.Model.Features
import Verif.Lemmas.Py
import Mathlib.Analysis.Matrix.Spectrum
import Mathlib.LinearAlgebra.Matrix.Charpoly.Eigs
import Mathlib.Data.List.ProdSigma
import Mathlib.Combinatorics.SimpleGraph.Metric
import Mathlib.Tactic.Linarith
import Mathlib.Tactic.Ring
import Mathlib.Tactic.FieldSimp
import Mathlib.Tactic.NormNum
import Mathlib.Tactic.FinCases

/-!
# Fingerprints of molecules: C61 (names), C62, C63, C64, C143, C144
-/

namespace CatLearn.Fpr

open CatLearn CatLearn.Nb

variable {n : ℕ}

/-! ## C62: renumbering the atoms -/

theorem ofFn_perm {α : Type} (z : Fin n → α) (σ : Equiv.Perm (Fin n)) :
    (List.ofFn fun i => z (σ i)).Perm (List.ofFn z) := by
  rw [List.ofFn_eq_map, List.ofFn_eq_map]
  have h : (List.finRange n).map (fun i => z (σ i)) = ((List.finRange n).map σ).map z := by simp
  rw [h]
  refine List.Perm.map z ?_
  rw [List.perm_ext_iff_of_nodup ((List.nodup_finRange n).map σ.injective) (List.nodup_finRange n)]
  intro a
  simp only [List.mem_map, List.mem_finRange, true_and, iff_true]
  exact ⟨σ.symm a, by simp⟩

/-- C62: the composition and the bag of elements do not depend on the numbering of the atoms. -/
theorem C62_composition (types : List ℕ) (z : Fin n → ℕ) (σ : Equiv.Perm (Fin n)) :
    composition types (fun i => z (σ i)) = composition types z ∧
    bagElements types (fun i => z (σ i)) = bagElements types z := by
  constructor <;>
  · refine List.map_congr_left fun t _ => ?_
    exact (ofFn_perm z σ).count_eq t

theorem coulomb_symm (z : Fin n → ℕ) (dist : Mat n ℝ) (hd : ∀ i j, dist i j = dist j i) : (coulomb z dist).IsSymm := by
  ext i j
  simp only [Matrix.transpose_apply, coulomb, eq_comm (a := j) (b := i)]
  split
  · rename_i h; subst h; rfl
  · rw [hd j i, mul_comm]

theorem eig_length (eig : ∀ n : ℕ, Matrix (Fin n) (Fin n) ℝ → List ℝ) (he : IsEig eig)
    (A : Matrix (Fin n) (Fin n) ℝ) (hA : A.IsSymm) : (eig n A).length = n := by
  have h1 := congrArg Multiset.card (he n A hA)
  rw [Multiset.coe_card] at h1
  rw [h1]
  have hH : A.IsHermitian := by
    rw [Matrix.IsHermitian, Matrix.conjTranspose_eq_transpose_of_trivial]; exact hA
  rw [hH.roots_charpoly_eq_eigenvalues]
  simp

/-- C62: the eigenspectrum of the Coulomb matrix does not depend on the numbering of the atoms. -/
theorem C62_eigenspectrum (eig : ∀ n : ℕ, Matrix (Fin n) (Fin n) ℝ → List ℝ) (he : IsEig eig) (atomLen : ℕ)
    (z : Fin n → ℕ) (dist : Mat n ℝ) (hd : ∀ i j, dist i j = dist j i) (σ : Equiv.Perm (Fin n)) :
    eigenspectrum eig atomLen (fun i => z (σ i)) (fun i j => dist (σ i) (σ j)) = eigenspectrum eig atomLen z dist := by
  have hc : coulomb (fun i => z (σ i)) (fun i j => dist (σ i) (σ j)) = Matrix.reindex σ.symm σ.symm (coulomb z dist) := by
    ext i j
    simp [coulomb]
  have hp : (eig n (coulomb (fun i => z (σ i)) (fun i j => dist (σ i) (σ j)))).Perm (eig n (coulomb z dist)) := by
    rw [← Multiset.coe_eq_coe, he n _ (coulomb_symm _ _ fun i j => hd _ _), he n _ (coulomb_symm _ _ hd), hc,
      Matrix.charpoly_reindex]
  have hs : sortDesc id (eig n (coulomb (fun i => z (σ i)) (fun i j => dist (σ i) (σ j)))) =
      sortDesc id (eig n (coulomb z dist)) := by
    refine List.Perm.eq_of_pairwise' (r := fun a b : ℝ => b ≤ a) (sortDesc_pairwise id _) (sortDesc_pairwise id _) ?_
    exact (sortDesc_perm _ _).trans (hp.trans (sortDesc_perm _ _).symm)
  simp only [eigenspectrum, hs]

/-- The contract is satisfiable. -/
example : IsEig fun _ A => A.charpoly.roots.toList := fun n A _ => by simp

/-- C62: the domain of `eigenspectrum_vec`: it succeeds iff the structure has at least two and at most `atom_len`
atoms, and then returns `atom_len` numbers, the first ones being the eigenvalues in descending order. -/
theorem C62_eigenspectrum_domain (eig : ∀ n : ℕ, Matrix (Fin n) (Fin n) ℝ → List ℝ) (he : IsEig eig) (atomLen : ℕ)
    (z : Fin n → ℕ) (dist : Mat n ℝ) (hd : ∀ i j, dist i j = dist j i) :
    ((∃ v, eigenspectrum eig atomLen z dist = .ok v) ↔ 2 ≤ n ∧ n ≤ atomLen) ∧
    ∀ v, eigenspectrum eig atomLen z dist = .ok v → v.length = atomLen ∧ (v.take n).Pairwise (· ≥ ·) ∧
      ((v.take n : List ℝ) : Multiset ℝ) = (coulomb z dist).charpoly.roots ∧ ∀ x ∈ v.drop n, x = 0 := by
  have hlen : (sortDesc id (eig n (coulomb z dist))).length = n := by
    rw [(sortDesc_perm _ _).length_eq, eig_length eig he _ (coulomb_symm z dist hd)]
  constructor
  · simp only [eigenspectrum, hlen]
    by_cases h2 : n < 2
    · simp [h2]
    · rw [if_neg h2]
      by_cases ha : n ≤ atomLen
      · simp only [if_pos ha]
        exact ⟨fun _ => ⟨by omega, ha⟩, fun _ => ⟨_, rfl⟩⟩
      · simp [ha]
  · intro v hv
    simp only [eigenspectrum, hlen] at hv
    split at hv
    · cases hv
    · split at hv
      · rename_i h2 ha
        simp only [Except.ok.injEq] at hv
        subst hv
        have ht : (sortDesc id (eig n (coulomb z dist)) ++ List.replicate (atomLen - n) (0 : ℝ)).take n =
            sortDesc id (eig n (coulomb z dist)) := by
          rw [List.take_append_of_le_length (by omega)]
          exact List.take_of_length_le (by omega)
        refine ⟨by simp [hlen]; omega, ?_, ?_, ?_⟩
        · rw [ht]; exact sortDesc_pairwise id _
        · rw [ht, ← he n _ (coulomb_symm z dist hd), Multiset.coe_eq_coe]
          exact sortDesc_perm _ _
        · intro x hx
          rw [List.drop_append, List.drop_of_length_le (by omega)] at hx
          simp only [List.nil_append] at hx
          exact List.eq_of_mem_replicate (List.mem_of_mem_drop hx)
      · cases hv

/-! ### Bonds -/

theorem bonds_nodup (cm : Fin n → Fin n → ℤ) : (bonds cm).Nodup :=
  ((List.nodup_finRange n).product (List.nodup_finRange n)).filter _

theorem mem_bonds (cm : Fin n → Fin n → ℤ) (p : Fin n × Fin n) : p ∈ bonds cm ↔ p.1 < p.2 ∧ 0 < cm p.1 p.2 := by
  obtain ⟨i, j⟩ := p
  simp [bonds, List.pair_mem_product]

/-- Twice the number of bonds with a symmetric property is the number of ordered pairs. -/
theorem two_mul_countP (cm : Fin n → Fin n → ℤ) (hcm : ∀ i j, cm i j = cm j i) (P : Fin n → Fin n → Bool)
    (hP : ∀ i j, P i j = P j i) :
    2 * (bonds cm).countP (fun p => P p.1 p.2) =
      (Finset.univ.filter fun p : Fin n × Fin n => p.1 ≠ p.2 ∧ 0 < cm p.1 p.2 ∧ P p.1 p.2 = true).card := by
  have h1 : (bonds cm).countP (fun p => P p.1 p.2) =
      (Finset.univ.filter fun p : Fin n × Fin n => p.1 < p.2 ∧ 0 < cm p.1 p.2 ∧ P p.1 p.2 = true).card := by
    rw [List.countP_eq_length_filter, ← List.toFinset_card_of_nodup ((bonds_nodup cm).filter _)]
    congr 1
    ext p
    simp [mem_bonds, and_assoc]
  have h2 : (Finset.univ.filter fun p : Fin n × Fin n => p.2 < p.1 ∧ 0 < cm p.1 p.2 ∧ P p.1 p.2 = true).card =
      (Finset.univ.filter fun p : Fin n × Fin n => p.1 < p.2 ∧ 0 < cm p.1 p.2 ∧ P p.1 p.2 = true).card := by
    refine Finset.card_equiv (Equiv.prodComm _ _) ?_
    rintro ⟨i, j⟩
    simp [hcm j i, hP j i]
  have h3 : (Finset.univ.filter fun p : Fin n × Fin n => p.1 ≠ p.2 ∧ 0 < cm p.1 p.2 ∧ P p.1 p.2 = true) =
      (Finset.univ.filter fun p : Fin n × Fin n => p.1 < p.2 ∧ 0 < cm p.1 p.2 ∧ P p.1 p.2 = true) ∪
      (Finset.univ.filter fun p : Fin n × Fin n => p.2 < p.1 ∧ 0 < cm p.1 p.2 ∧ P p.1 p.2 = true) := by
    ext p
    simp only [Finset.mem_filter, Finset.mem_univ, true_and, Finset.mem_union]
    constructor
    · rintro ⟨hne, h⟩
      rcases lt_or_gt_of_ne hne with hl | hl
      · exact Or.inl ⟨hl, h⟩
      · exact Or.inr ⟨hl, h⟩
    · rintro (⟨hl, h⟩ | ⟨hl, h⟩)
      · exact ⟨hl.ne, h⟩
      · exact ⟨hl.ne', h⟩
  rw [h3, Finset.card_union_of_disjoint, h2, ← h1]
  · ring
  · rw [Finset.disjoint_left]
    intro p hp hq
    simp only [Finset.mem_filter, Finset.mem_univ, true_and] at hp hq
    exact lt_asymm hp.1 hq.1

/-- Renumbering does not change the number of bonds with a property. -/
theorem countP_perm (cm : Fin n → Fin n → ℤ) (hcm : ∀ i j, cm i j = cm j i) (P : Fin n → Fin n → Bool)
    (hP : ∀ i j, P i j = P j i) (σ : Equiv.Perm (Fin n)) :
    (bonds fun i j => cm (σ i) (σ j)).countP (fun p => P (σ p.1) (σ p.2)) = (bonds cm).countP (fun p => P p.1 p.2) := by
  have h1 := two_mul_countP (fun i j => cm (σ i) (σ j)) (fun i j => hcm _ _) (fun i j => P (σ i) (σ j))
    (fun i j => hP _ _)
  have h2 := two_mul_countP cm hcm P hP
  have h3 : (Finset.univ.filter fun p : Fin n × Fin n => p.1 ≠ p.2 ∧ 0 < cm (σ p.1) (σ p.2) ∧
      P (σ p.1) (σ p.2) = true).card =
      (Finset.univ.filter fun p : Fin n × Fin n => p.1 ≠ p.2 ∧ 0 < cm p.1 p.2 ∧ P p.1 p.2 = true).card := by
    refine Finset.card_equiv (Equiv.prodCongr σ σ) ?_
    rintro ⟨i, j⟩
    simp
  omega

/-- Value of the cell, with a default. -/
def getOk {β : Type} (d : β) : Except PyErr β → β
  | .ok b => b
  | .error _ => d

/-- `mapM` in `Except` when all errors are the same. -/
theorem mapM_total {α β : Type} (f : α → Except PyErr β) (e : PyErr) (he : ∀ a x, f a = .error x → x = e)
    (l : List α) (d : β) :
    l.mapM f = if ∀ a ∈ l, (f a).isOk = true then
      .ok (l.map fun a => getOk d (f a)) else .error e := by
  induction l with
  | nil => simp [pure, Except.pure]
  | cons a l ih =>
    rw [List.mapM_cons, ih]
    simp only [bind, Except.bind, pure, Except.pure, List.mem_cons, forall_eq_or_imp, List.map_cons]
    cases ha : f a with
    | error x =>
      have := he a x ha
      subst this
      simp [Except.isOk, Except.toBool]
    | ok b =>
      by_cases h : ∀ a ∈ l, (f a).isOk = true
      · simp only [if_pos h]
        rw [if_pos ⟨rfl, h⟩]
        rfl
      · simp only [if_neg h]
        rw [if_neg (fun hh => h hh.2)]

theorem cell_symm (types : List ℕ) (a b : ℕ) : cell types a b = cell types b a := by
  simp only [cell, min_comm a b, max_comm a b]

theorem cell_error (types : List ℕ) (a b : ℕ) (x : PyErr) (h : cell types a b = .error x) : x = .value := by
  simp only [cell] at h
  split at h
  · cases h
  · exact (Except.error.inj h).symm

/-- A histogram over the bonds is invariant, whatever the symmetric cell function. -/
theorem histogram_perm (cm : Fin n → Fin n → ℤ) (hcm : ∀ i j, cm i j = cm j i) (f : Fin n → Fin n → Except PyErr (ℕ × ℕ))
    (hf : ∀ i j, f i j = f j i) (e : PyErr) (he : ∀ i j x, f i j = .error x → x = e) (σ : Equiv.Perm (Fin n))
    (t : List (ℕ × ℕ)) :
    (match (bonds fun i j => cm (σ i) (σ j)).mapM fun p => f (σ p.1) (σ p.2) with
      | .error e => .error e
      | .ok cells => .ok (t.map fun ab => cells.count ab)) =
    (match (bonds cm).mapM fun p => f p.1 p.2 with
      | .error e => (.error e : Except PyErr (List ℕ))
      | .ok cells => .ok (t.map fun ab => cells.count ab)) := by
  rw [mapM_total (fun p : Fin n × Fin n => f (σ p.1) (σ p.2)) e (fun p x => he _ _ x) _ (0, 0),
    mapM_total (fun p : Fin n × Fin n => f p.1 p.2) e (fun p x => he _ _ x) _ (0, 0)]
  have hiff : (∀ p ∈ bonds (fun i j => cm (σ i) (σ j)), (f (σ p.1) (σ p.2)).isOk = true) ↔
      ∀ p ∈ bonds cm, (f p.1 p.2).isOk = true := by
    have h1 := countP_perm cm hcm (fun i j => !(f i j).isOk) (fun i j => by rw [hf i j]) σ
    constructor
    · intro h
      have h0 : (bonds fun i j => cm (σ i) (σ j)).countP (fun p => !(f (σ p.1) (σ p.2)).isOk) = 0 := by
        rw [List.countP_eq_zero]
        intro p hp
        simp [h p hp]
      rw [h0] at h1
      have := List.countP_eq_zero.1 h1.symm
      intro p hp
      simpa using this p hp
    · intro h
      have h0 : (bonds cm).countP (fun p => !(f p.1 p.2).isOk) = 0 := by
        rw [List.countP_eq_zero]
        intro p hp
        simp [h p hp]
      rw [h0] at h1
      have := List.countP_eq_zero.1 h1
      intro p hp
      simpa using this p hp
  by_cases h : ∀ p ∈ bonds cm, (f p.1 p.2).isOk = true
  · rw [if_pos h, if_pos (hiff.2 h)]
    simp only
    congr 1
    refine List.map_congr_left fun ab _ => ?_
    rw [List.count_eq_countP, List.count_eq_countP, List.countP_map, List.countP_map]
    have h1 := countP_perm cm hcm (fun i j => getOk (0, 0) (f i j) == ab) (fun i j => by rw [hf i j]) σ
    exact h1
  · rw [if_neg h, if_neg (fun hh => h (hiff.1 hh))]

/-- C62: the bag of edges does not depend on the numbering of the atoms (symmetric connectivity), errors included. -/
theorem C62_bag_edges (types : List ℕ) (z : Fin n → ℕ) (cm : Fin n → Fin n → ℤ) (hcm : ∀ i j, cm i j = cm j i)
    (σ : Equiv.Perm (Fin n)) :
    bagEdges types (fun i => z (σ i)) (fun i j => cm (σ i) (σ j)) = bagEdges types z cm :=
  histogram_perm cm hcm (fun i j => cell types (z i) (z j)) (fun i j => cell_symm _ _ _) .value
    (fun i j x h => cell_error _ _ _ x h) σ (triu types.length)

theorem walk_perm (cm : Fin n → Fin n → ℤ) (σ : Equiv.Perm (Fin n)) (k : ℕ) (i j : Fin n) :
    Walk (fun i j => cm (σ i) (σ j)) k i j ↔ Walk cm k (σ i) (σ j) := by
  induction k generalizing i with
  | zero => simp [Walk]
  | succ k ih =>
    simp only [Walk, ih]
    constructor
    · rintro ⟨m, h1, h2⟩
      exact ⟨σ m, h1, h2⟩
    · rintro ⟨m, h1, h2⟩
      exact ⟨σ.symm m, by simpa using h1, by simpa using h2⟩

/-- C62: the autocorrelation fingerprint does not depend on the numbering of the atoms. -/
theorem C62_autocorrelation (params : List (ℕ → ℝ)) (dstar : ℕ) (z : Fin n → ℕ) (cm : Fin n → Fin n → ℤ)
    (σ : Equiv.Perm (Fin n)) :
    autocorrelation params dstar (fun i => z (σ i)) (fun i j => cm (σ i) (σ j)) =
      autocorrelation params dstar z cm := by
  classical
  have hat : ∀ dd i j, atDistance (fun i j => cm (σ i) (σ j)) dd i j ↔ atDistance cm dd (σ i) (σ j) := by
    intro dd i j
    simp only [atDistance, walk_perm]
  simp only [autocorrelation]
  congr 1
  funext dd
  refine List.map_congr_left fun w _ => ?_
  rw [← Equiv.sum_comp σ (fun i => ∑ j, w (z i) * (if atDistance cm dd i j then 1 else 0) * w (z j))]
  refine Finset.sum_congr rfl fun i _ => ?_
  rw [← Equiv.sum_comp σ (fun j => w (z (σ i)) * (if atDistance cm dd (σ i) j then 1 else 0) * w (z j))]
  refine Finset.sum_congr rfl fun j _ => ?_
  rw [if_congr (hat dd i j) rfl rfl]

/-- Swapping the atoms of carbon monoxide. -/
example : bagEdges [6, 8] ![6, 8] (fun i j => if i = j then 0 else 1) = .ok [0, 1, 0] ∧
    bagEdges [6, 8] (fun i => ![6, 8] (Equiv.swap (0 : Fin 2) 1 i)) (fun i j => if i = j then 0 else 1) = .ok [0, 1, 0] := by
  constructor <;> decide +kernel

/-- The bonds as a graph on the atoms. -/
def bondGraph (cm : Fin n → Fin n → ℤ) : SimpleGraph (Fin n) := SimpleGraph.fromRel fun i j => cm i j ≠ 0

theorem walk_of_graph (cm : Fin n → Fin n → ℤ) (hcm : ∀ i j, cm i j = cm j i) (i j : Fin n)
    (p : (bondGraph cm).Walk i j) : Walk cm p.length i j := by
  induction p with
  | nil => rfl
  | cons h p ih =>
    refine ⟨_, ?_, ih⟩
    rcases (SimpleGraph.fromRel_adj _ _ _).1 h with ⟨_, h | h⟩
    · exact h
    · rw [hcm]; exact h

theorem graph_of_walk (cm : Fin n → Fin n → ℤ) (k : ℕ) (i j : Fin n) (h : Walk cm k i j) :
    ∃ p : (bondGraph cm).Walk i j, p.length ≤ k := by
  induction k generalizing i with
  | zero => obtain rfl : i = j := h; exact ⟨.nil, le_refl _⟩
  | succ k ih =>
    obtain ⟨m, h1, h2⟩ := h
    obtain ⟨p, hp⟩ := ih m h2
    by_cases him : i = m
    · subst him
      exact ⟨p, by omega⟩
    · have ha : (bondGraph cm).Adj i m := (SimpleGraph.fromRel_adj _ _ _).2 ⟨him, Or.inl h1⟩
      refine ⟨.cons ha p, ?_⟩
      rw [SimpleGraph.Walk.length_cons]
      omega

theorem atDistance_iff (cm : Fin n → Fin n → ℤ) (hcm : ∀ i j, cm i j = cm j i) (dd : ℕ) (i j : Fin n) :
    atDistance cm dd i j ↔ (bondGraph cm).Reachable i j ∧ (bondGraph cm).dist i j = dd := by
  constructor
  · rintro ⟨h1, h2⟩
    obtain ⟨p, hp⟩ := graph_of_walk cm dd i j h1
    refine ⟨⟨p⟩, ?_⟩
    obtain ⟨q, hq⟩ := SimpleGraph.Reachable.exists_walk_length_eq_dist ⟨p⟩
    have h3 := SimpleGraph.dist_le p
    by_contra hne
    exact h2 q.length (by omega) (walk_of_graph cm hcm i j q)
  · rintro ⟨hr, rfl⟩
    obtain ⟨q, hq⟩ := hr.exists_walk_length_eq_dist
    refine ⟨hq ▸ walk_of_graph cm hcm i j q, fun k hk hw => ?_⟩
    obtain ⟨p, hp⟩ := graph_of_walk cm k i j hw
    have := SimpleGraph.dist_le p
    omega

theorem flatMap_map_getElem? {α β γ : Type} (l : List α) (m : List β) (f : α → β → γ) (i j : ℕ) (x : α) (y : β)
    (hx : l[i]? = some x) (hy : m[j]? = some y) :
    (l.flatMap fun a => m.map (f a))[i * m.length + j]? = some (f x y) := by
  obtain ⟨hj, _⟩ := List.getElem?_eq_some_iff.1 hy
  induction l generalizing i with
  | nil => simp at hx
  | cons a l ih =>
    rw [List.flatMap_cons]
    cases i with
    | zero =>
      obtain rfl : a = x := by simpa using hx
      rw [Nat.zero_mul, Nat.zero_add, List.getElem?_append_left (by simpa using hj), List.getElem?_map, hy]
      rfl
    | succ i =>
      rw [List.getElem?_append_right (by rw [List.length_map, Nat.succ_mul]; omega), List.length_map]
      rw [show (i + 1) * m.length + j - m.length = i * m.length + j by rw [Nat.succ_mul]; omega]
      exact ih i (by simpa using hx)

open Classical in
/-- C62: entry `dd` of a parameter sums its products over the ordered pairs of connected atoms whose shortest path has
`dd` bonds (the distance in the graph of the bonds); so every connected pair is counted at one distance only. -/
theorem C62_autocorrelation_entry (params : List (ℕ → ℝ)) (dstar : ℕ) (z : Fin n → ℕ) (cm : Fin n → Fin n → ℤ)
    (hcm : ∀ i j, cm i j = cm j i) (dd p : ℕ) (hd : dd ≤ dstar) (w : ℕ → ℝ) (hp : params[p]? = some w) :
    (autocorrelation params dstar z cm).length = (dstar + 1) * params.length ∧
    (autocorrelation params dstar z cm)[dd * params.length + p]? = some (∑ ij : Fin n × Fin n with
      (bondGraph cm).Reachable ij.1 ij.2 ∧ (bondGraph cm).dist ij.1 ij.2 = dd, w (z ij.1) * w (z ij.2)) := by
  constructor
  · rw [autocorrelation, List.length_flatMap]
    simp
  · rw [autocorrelation, flatMap_map_getElem? _ _ _ dd p dd w (by rw [List.getElem?_range (by omega)]) hp]
    congr 1
    rw [Finset.sum_filter, ← Finset.univ_product_univ, Finset.sum_product]
    refine Finset.sum_congr rfl fun i _ => Finset.sum_congr rfl fun j _ => ?_
    rw [if_congr (atDistance_iff cm hcm dd i j) rfl rfl]
    split_ifs <;> simp

/-- The hydrogen atoms of water are two bonds apart. -/
example : atDistance (n := 3) (fun i j => if i = j then 0 else if i = 1 ∨ j = 1 then 1 else 0) 2 0 2 := by
  refine ⟨⟨1, by decide, 2, by decide, rfl⟩, ?_⟩
  intro k hk h
  have : k = 0 ∨ k = 1 := by omega
  rcases this with rfl | rfl
  · exact absurd h (by simp [Walk])
  · obtain ⟨m, h1, h2⟩ := h
    obtain rfl : m = 2 := h2
    exact h1 (by decide)

/-! ## C63: bonds are counted once -/

theorem mem_triu (k a b : ℕ) : (a, b) ∈ triu k ↔ a ≤ b ∧ b < k := by
  simp only [triu, List.mem_flatMap, List.mem_range, List.mem_map, List.mem_filter, decide_eq_true_eq, Prod.mk.injEq]
  constructor
  · rintro ⟨x, hx, y, ⟨hy1, hy2⟩, rfl, rfl⟩
    exact ⟨hy2, hy1⟩
  · rintro ⟨h1, h2⟩
    exact ⟨a, by omega, b, ⟨h2, h1⟩, rfl, rfl⟩

theorem triu_nodup (k : ℕ) : (triu k).Nodup := by
  unfold triu
  rw [List.nodup_flatMap]
  refine ⟨?_, ?_⟩
  · intro a _
    exact (List.nodup_range.filter _).map fun x y h => (Prod.mk.inj h).2
  · refine List.Pairwise.imp ?_ (List.nodup_range (n := k))
    intro a b hab
    rw [Function.onFun, List.disjoint_left]
    intro p hp hq
    obtain ⟨x, _, rfl⟩ := List.mem_map.1 hp
    obtain ⟨y, _, hy⟩ := List.mem_map.1 hq
    exact hab (Prod.mk.inj hy).1.symm

theorem sum_count {α : Type} [DecidableEq α] [BEq α] [LawfulBEq α] (t cells : List α) (ht : t.Nodup) (hc : ∀ c ∈ cells, c ∈ t) :
    (t.map fun ab => cells.count ab).sum = cells.length := by
  induction cells with
  | nil => simp
  | cons c cs ih =>
    have h1 : (t.map fun ab => (c :: cs).count ab).sum =
        (t.map fun ab => cs.count ab).sum + (t.map fun ab => if c = ab then 1 else 0).sum := by
      rw [← List.sum_map_add]
      congr 1
      refine List.map_congr_left fun ab _ => ?_
      rw [List.count_cons]
      simp
    have h2 : (t.map fun ab => if c = ab then 1 else 0).sum = t.count c := by
      rw [List.count_eq_countP, List.countP_eq_length_filter]
      clear h1 ih hc ht
      induction t with
      | nil => rfl
      | cons x t ih =>
        simp only [List.map_cons, List.sum_cons, ih, List.filter_cons, beq_iff_eq]
        by_cases h : x = c
        · subst h; simp; omega
        · rw [if_neg (Ne.symm h), if_neg h]; simp
    rw [h1, ih fun x hx => hc x (by simp [hx]), h2, List.count_eq_one_of_mem ht (hc c (by simp))]
    rfl

theorem cell_ok (types : List ℕ) (a b : ℕ) (ha : a ∈ types) (hb : b ∈ types) :
    cell types a b = .ok (types.idxOf (min a b), types.idxOf (max a b)) := by
  simp only [cell]
  rw [if_pos]
  constructor
  · rcases min_choice a b with h | h <;> rw [h] <;> assumption
  · rcases max_choice a b with h | h <;> rw [h] <;> assumption

theorem idxOf_le (types : List ℕ) (ht : types.Pairwise (· < ·)) (a b : ℕ) (ha : a ∈ types) (hb : b ∈ types)
    (hab : a ≤ b) : types.idxOf a ≤ types.idxOf b := by
  by_contra h
  push Not at h
  have h1 := List.idxOf_lt_length_iff.2 ha
  have h2 := List.idxOf_lt_length_iff.2 hb
  have := List.pairwise_iff_getElem.1 ht _ _ h2 h1 h
  simp only [List.getElem_idxOf] at this
  omega

/-- C63 (partial: `atom_types` in ascending order, as `normalize_features` makes it, and complete): the bag of edges
sums to the number of bonds, and the entry for the pair `(a, b)` of element types is the number of bonds between atoms
of these two elements. -/
theorem C63_partial (types : List ℕ) (ht : types.Pairwise (· < ·)) (z : Fin n → ℕ) (hz : ∀ i, z i ∈ types)
    (cm : Fin n → Fin n → ℤ) :
    ∃ bag, bagEdges types z cm = .ok bag ∧
      bag.sum = (Finset.univ.filter fun p : Fin n × Fin n => p.1 < p.2 ∧ 0 < cm p.1 p.2).card ∧
      bag.length = (triu types.length).length ∧
      ∀ (i : ℕ) (a b : ℕ) (ta tb : ℕ), (triu types.length)[i]? = some (a, b) → types[a]? = some ta →
        types[b]? = some tb →
        bag[i]? = some (Finset.univ.filter fun p : Fin n × Fin n => p.1 < p.2 ∧ 0 < cm p.1 p.2 ∧
          ((z p.1 = ta ∧ z p.2 = tb) ∨ (z p.1 = tb ∧ z p.2 = ta))).card := by
  have hm : (bonds cm).mapM (fun p => cell types (z p.1) (z p.2)) = .ok ((bonds cm).map fun p =>
      (types.idxOf (min (z p.1) (z p.2)), types.idxOf (max (z p.1) (z p.2)))) := by
    have : (fun p : Fin n × Fin n => cell types (z p.1) (z p.2)) = fun p =>
        (Except.ok (types.idxOf (min (z p.1) (z p.2)), types.idxOf (max (z p.1) (z p.2))) : Except PyErr (ℕ × ℕ)) := by
      funext p
      exact cell_ok types _ _ (hz _) (hz _)
    rw [this]
    generalize bonds cm = l
    induction l with
    | nil => rfl
    | cons p l ih => rw [List.mapM_cons, ih]; rfl
  refine ⟨(triu types.length).map fun ab => ((bonds cm).map fun p =>
      (types.idxOf (min (z p.1) (z p.2)), types.idxOf (max (z p.1) (z p.2)))).count ab,
    by simp only [bagEdges, hm], ?_, by simp, ?_⟩
  · rw [sum_count _ _ (triu_nodup _), List.length_map]
    · rw [← List.toFinset_card_of_nodup (bonds_nodup cm)]
      congr 1
      ext p
      simp [mem_bonds]
    · intro c hc
      obtain ⟨p, _, rfl⟩ := List.mem_map.1 hc
      rw [mem_triu]
      have h1 : min (z p.1) (z p.2) ∈ types := by
        rcases min_choice (z p.1) (z p.2) with h | h <;> rw [h] <;> exact hz _
      have h2 : max (z p.1) (z p.2) ∈ types := by
        rcases max_choice (z p.1) (z p.2) with h | h <;> rw [h] <;> exact hz _
      exact ⟨idxOf_le types ht _ _ h1 h2 min_le_max, List.idxOf_lt_length_iff.2 h2⟩
  · intro i a b ta tb hi ha hb
    rw [List.getElem?_map, hi]
    simp only [Option.map_some, Option.some.injEq]
    have hab := (mem_triu _ a b).1 (List.mem_of_getElem? hi)
    obtain ⟨hal, hae⟩ := List.getElem?_eq_some_iff.1 ha
    obtain ⟨hbl, hbe⟩ := List.getElem?_eq_some_iff.1 hb
    have hnd : types.Nodup := ht.imp fun h => h.ne
    have hia : ∀ x ∈ types, (types.idxOf x = a ↔ x = ta) := by
      intro x hx
      constructor
      · rintro rfl; rw [List.getElem_idxOf] at hae; exact hae
      · rintro rfl; rw [← hae]; exact hnd.idxOf_getElem a hal
    have hib : ∀ x ∈ types, (types.idxOf x = b ↔ x = tb) := by
      intro x hx
      constructor
      · rintro rfl; rw [List.getElem_idxOf] at hbe; exact hbe
      · rintro rfl; rw [← hbe]; exact hnd.idxOf_getElem b hbl
    have htab : ta ≤ tb := by
      rcases Nat.lt_or_ge a b with h | h
      · have := List.pairwise_iff_getElem.1 ht a b hal hbl h
        rw [hae, hbe] at this; omega
      · have : a = b := by omega
        subst this
        rw [hae] at hbe; omega
    rw [List.count_eq_countP, List.countP_map, List.countP_eq_length_filter,
      ← List.toFinset_card_of_nodup ((bonds_nodup cm).filter _)]
    congr 1
    ext p
    simp only [List.mem_toFinset, List.mem_filter, mem_bonds, Function.comp_apply, beq_iff_eq, Prod.mk.injEq,
      Finset.mem_filter, Finset.mem_univ, true_and, and_assoc]
    refine and_congr_right fun _ => and_congr_right fun _ => ?_
    have h1 : min (z p.1) (z p.2) ∈ types := by
      rcases min_choice (z p.1) (z p.2) with h | h <;> rw [h] <;> exact hz _
    have h2 : max (z p.1) (z p.2) ∈ types := by
      rcases max_choice (z p.1) (z p.2) with h | h <;> rw [h] <;> exact hz _
    rw [hia _ h1, hib _ h2]
    omega

/-- C63 (partial: `atom_types` in ascending order and complete): for any two elements of `atom_types` the names and the
values have an entry in the same position, named by the symbols of the two elements and counting the bonds between
them. -/
theorem C63_names_partial (sym : ℕ → String) (types : List ℕ) (ht : types.Pairwise (· < ·)) (z : Fin n → ℕ)
    (hz : ∀ i, z i ∈ types) (cm : Fin n → Fin n → ℤ) :
    ∃ bag, bagEdges types z cm = .ok bag ∧ (bagEdgesNames sym types).length = bag.length ∧
      ∀ ta ∈ types, ∀ tb ∈ types, ta ≤ tb → ∃ i : ℕ,
        (bagEdgesNames sym types)[i]? = some ("bag_" ++ (sym tb ++ sym ta)) ∧
        bag[i]? = some (Finset.univ.filter fun p : Fin n × Fin n => p.1 < p.2 ∧ 0 < cm p.1 p.2 ∧
          ((z p.1 = ta ∧ z p.2 = tb) ∨ (z p.1 = tb ∧ z p.2 = ta))).card := by
  obtain ⟨bag, hb, _, hl, hc⟩ := C63_partial types ht z hz cm
  refine ⟨bag, hb, by rw [hl, bagEdgesNames, List.length_map], ?_⟩
  intro ta hta tb htb hab
  have h1 := List.idxOf_lt_length_iff.2 hta
  have h2 := List.idxOf_lt_length_iff.2 htb
  have g1 : types[types.idxOf ta]? = some ta := by rw [List.getElem?_eq_getElem h1, List.getElem_idxOf]
  have g2 : types[types.idxOf tb]? = some tb := by rw [List.getElem?_eq_getElem h2, List.getElem_idxOf]
  obtain ⟨i, hi⟩ := List.mem_iff_getElem?.1
    ((mem_triu types.length _ _).2 ⟨idxOf_le types ht ta tb hta htb hab, h2⟩)
  refine ⟨i, ?_, hc i _ _ ta tb hi g1 g2⟩
  rw [bagEdgesNames, List.getElem?_map, hi]
  simp [List.getD_eq_getElem?_getD, g1, g2]

/-- Water. -/
example : bagEdges [1, 8] ![1, 8, 1] (fun i j => if i = j then 0 else if i = 1 ∨ j = 1 then 1 else 0) = .ok [0, 2, 0] ∧
    [1, 8].Pairwise (· < ·) := by
  constructor <;> decide +kernel

/-- C63 fails when the user gives `atom_types` in another order: the bonds between different elements are lost. -/
theorem C63_order_violated :
    bagEdges [8, 1] ![1, 8, 1] (fun i j => if i = j then 0 else if i = 1 ∨ j = 1 then 1 else 0) = .ok [0, 0, 0] := by
  decide +kernel

/-! ## C64: averages -/

/-- C64 (partial: this is what `distance_vec` returns): for an element with counted pairs the reciprocal of the mean
distance of the pairs that differ in all three coordinates; 0 for the others. -/
theorem C64_distance_partial (types : List ℕ) (z : Fin n → ℕ) (pos : Fin n → Fin 3 → ℝ) (i : ℕ) (t : ℕ)
    (hi : types[i]? = some t) :
    (distanceVec types z pos)[i]? = some
      ((∑ p ∈ countedPairs z pos t, distance (pos p.1) (pos p.2)) / (countedPairs z pos t).card)⁻¹ := by
  simp only [distanceVec, List.getElem?_map, hi, Option.map_some]
  congr 1
  split
  · rw [inv_div]
  · rename_i h
    push Not at h
    simp [h]

/-- C64 fails: two atoms at distance 7 give 1/7. -/
theorem C64_reciprocal_violated : distance ![0, 0, 0] ![2, 3, 6] = 7 ∧
    distanceVec [1] ![1, 1] ![![0, 0, 0], ![2, 3, 6]] = [1 / 7] := by
  have h7 : distance ![0, 0, 0] ![2, 3, 6] = 7 := by
    simp only [distance, Fin.sum_univ_three]
    rw [show ((![0, 0, 0] : Fin 3 → ℝ) 0 - (![2, 3, 6] : Fin 3 → ℝ) 0) ^ 2 +
      ((![0, 0, 0] : Fin 3 → ℝ) 1 - (![2, 3, 6] : Fin 3 → ℝ) 1) ^ 2 +
      ((![0, 0, 0] : Fin 3 → ℝ) 2 - (![2, 3, 6] : Fin 3 → ℝ) 2) ^ 2 = 7 ^ 2 by simp; norm_num]
    exact Real.sqrt_sq (by norm_num)
  have h7' : distance ![2, 3, 6] ![0, 0, 0] = 7 := by
    rw [← h7]; simp only [distance]; congr 1; exact Finset.sum_congr rfl fun k _ => by ring
  refine ⟨h7, ?_⟩
  have hc : countedPairs ![1, 1] (![![0, 0, 0], ![2, 3, 6]] : Fin 2 → Fin 3 → ℝ) 1 = {(0, 1), (1, 0)} := by
    ext ⟨i, j⟩
    fin_cases i <;> fin_cases j <;> simp [countedPairs, Fin.forall_fin_succ]
  simp only [distanceVec, List.map_cons, List.map_nil, hc]
  rw [Finset.sum_pair (by decide), Finset.card_pair (by decide)]
  simp only [Matrix.cons_val_zero, Matrix.cons_val_one, h7, h7']
  norm_num

/-- C64 fails: atoms that agree in a coordinate are not counted at all: two atoms on the z axis have no distance. -/
theorem C64_plane_violated : distanceVec [1] ![1, 1] ![![0, 0, 0], ![0, 0, 2]] = [0] := by
  have hc : countedPairs ![1, 1] (![![0, 0, 0], ![0, 0, 2]] : Fin 2 → Fin 3 → ℝ) 1 = ∅ := by
    ext ⟨i, j⟩
    fin_cases i <;> fin_cases j <;> simp [countedPairs, Fin.forall_fin_succ]
  simp [distanceVec, hc]

theorem sum_ofFn_types (types : List ℕ) (ht : types.Nodup) (par : ℕ → ℝ) (l : List ℕ) (hl : ∀ a ∈ l, a ∈ types) :
    (types.map fun t => (l.count t : ℝ) * par t).sum = (l.map par).sum := by
  induction l with
  | nil => simp
  | cons a l ih =>
    have h1 : (types.map fun t => ((a :: l).count t : ℝ) * par t) =
        types.map fun t => (l.count t : ℝ) * par t + (if a = t then par t else 0) := by
      refine List.map_congr_left fun t _ => ?_
      rw [List.count_cons]
      by_cases h : a = t
      · subst h; simp; ring
      · simp [h]
    have h2 : (types.map fun t => if a = t then par t else 0).sum = par a := by
      have hat := hl a (by simp)
      clear h1 ih hl
      induction types with
      | nil => cases hat
      | cons x ts ih =>
        rw [List.nodup_cons] at ht
        simp only [List.map_cons, List.sum_cons]
        by_cases h : a = x
        · subst h
          rw [if_pos rfl]
          have : (ts.map fun t => if a = t then par t else 0).sum = 0 := by
            refine List.sum_eq_zero fun y hy => ?_
            obtain ⟨t, htm, rfl⟩ := List.mem_map.1 hy
            rw [if_neg]
            rintro rfl
            exact ht.1 htm
          rw [this, add_zero]
        · rw [if_neg h, ih ht.2 (by simpa [h] using hat), zero_add]
    rw [h1, List.sum_map_add, ih fun x hx => hl x (by simp [hx]), h2]
    simp [add_comm]

/-- C64 (partial: the sum; every element type has the parameter): `sum_all` is the sum of the parameter over the
atoms; `mean_all` is that sum over the number of element types plus two. -/
theorem C64_parameter_partial (types : List ℕ) (ht : types.Nodup) (par : ℕ → ℝ) (z : Fin n → ℕ)
    (hz : ∀ i, z i ∈ types) :
    elementParameter types (fun t => some (par t)) z =
      (types.map fun t => some (((List.ofFn z).count t : ℝ) * par t)) ++
        [some (∑ i, par (z i)), some ((∑ i, par (z i)) / (types.length + 2))] := by
  have hf : (List.zip (composition types z) types).map (fun ct => (some (par ct.2)).map fun x => (ct.1 : ℝ) * x) =
      types.map fun t => some (((List.ofFn z).count t : ℝ) * par t) := by
    simp only [composition]
    generalize List.ofFn z = l
    clear ht hz
    induction types with
    | nil => rfl
    | cons t ts ih =>
      rw [List.map_cons, List.zip_cons_cons, List.map_cons, ih]
      rfl
  have hfm : ((types.map fun t => some (((List.ofFn z).count t : ℝ) * par t)) ++ [some (0 : ℝ), some 0]).filterMap id =
      (types.map fun t => ((List.ofFn z).count t : ℝ) * par t) ++ [0, 0] := by
    rw [List.filterMap_append]
    congr 1
    generalize List.ofFn z = l
    clear ht hz hf
    induction types with
    | nil => rfl
    | cons t ts ih => simp [ih]
  have hsum : (types.map fun t => ((List.ofFn z).count t : ℝ) * par t).sum = ∑ i, par (z i) := by
    rw [sum_ofFn_types types ht par (List.ofFn z) (by intro a ha; obtain ⟨i, rfl⟩ := (List.mem_ofFn' z a).1 ha; exact hz i)]
    rw [List.map_ofFn, List.sum_ofFn]
    rfl
  simp only [elementParameter, hf, nansum, nanmean, hfm]
  rw [List.sum_append, hsum]
  simp

/-- C64 fails: two hydrogen atoms with parameter 3 have the mean 2 (the sum 6 over 1 + 2 entries), not 3. -/
theorem C64_mean_violated : elementParameter [1] (fun _ => some 3) ![1, 1] = [some 6, some 6, some 2] := by
  rw [C64_parameter_partial [1] (by simp) (fun _ => 3) ![1, 1] (by simp [Fin.forall_fin_two])]
  have h : (List.ofFn ![1, 1]).count 1 = 2 := by decide
  simp only [List.map_cons, List.map_nil, h, Fin.sum_univ_two, List.length_cons, List.length_nil]
  norm_num

/-! ## C143: atoms by element and coordination number -/

theorem cnCells_ok (info : Bool) (types : List ℕ) (lo hi : ℤ) (z : Fin n → ℕ) (cm : Fin n → Fin n → ℤ)
    (l : List (Fin n)) (hz : ∀ i ∈ l, z i ∈ types) (hc : ∀ i ∈ l, lo ≤ cn cm i ∧ cn cm i ≤ hi) :
    cnCells info types lo hi z cm l = .ok (some (l.map fun i => (types.idxOf (z i), cn cm i - lo))) := by
  induction l with
  | nil => rfl
  | cons i l ih =>
    have h1 := hc i (by simp)
    have h2 : ¬ (hi < cn cm i ∨ cn cm i < lo) := by omega
    rw [cnCells, if_neg h2, if_pos (hz i (by simp)), ih (fun j hj => hz j (by simp [hj])) fun j hj => hc j (by simp [hj])]
    rfl

theorem flatMap_congr' {α β : Type} (l : List α) (f g : α → List β) (h : ∀ a ∈ l, f a = g a) :
    l.flatMap f = l.flatMap g := by
  rw [List.flatMap_def, List.flatMap_def, List.map_congr_left h]

theorem flatMap_range_idxOf {β : Type} (types : List ℕ) (ht : types.Nodup) (f : ℕ → List β) (g : ℕ → List β)
    (h : ∀ t ∈ types, f (types.idxOf t) = g t) : (List.range types.length).flatMap f = types.flatMap g := by
  have h1 : types.flatMap g = (types.map types.idxOf).flatMap f := by
    rw [List.flatMap_map]
    exact (flatMap_congr' _ _ _ h).symm
  have h2 : types.map types.idxOf = List.range types.length := by
    refine List.ext_getElem (by simp) fun i h1 h2 => ?_
    simp only [List.getElem_map, List.getElem_range]
    exact ht.idxOf_getElem i (by simpa using h1)
  rw [h1, h2]

/-- The entries of a bag over pairs of an element and a coordination number. -/
theorem bag_cn_sum (types : List ℕ) (ht : types.Nodup) (w : ℕ) (lo : ℤ) (z : Fin n → ℕ) (c : Fin n → ℤ)
    (hz : ∀ i, z i ∈ types) (hc : ∀ i, lo ≤ c i ∧ c i < lo + w) :
    (types.flatMap fun t => (List.range w).map fun k : ℕ =>
      (Finset.univ.filter fun i : Fin n => z i = t ∧ c i = lo + k).card).sum = n := by
  have hk : ∀ (t k : ℕ), (Finset.univ.filter fun i : Fin n => z i = t ∧ c i = lo + (k : ℤ)).card =
      ((List.finRange n).map fun i => (z i, c i)).count (t, lo + (k : ℤ)) := by
    intro t k
    rw [List.count_eq_countP, List.countP_map, List.countP_eq_length_filter,
      ← List.toFinset_card_of_nodup ((List.nodup_finRange n).filter _)]
    congr 1
    ext i
    simp
  have h2 : (types.flatMap fun t => (List.range w).map fun k : ℕ =>
      (Finset.univ.filter fun i : Fin n => z i = t ∧ c i = lo + k).card) =
      (types.flatMap fun t => (List.range w).map fun k : ℕ => (t, lo + (k : ℤ))).map
        fun ab => ((List.finRange n).map fun i => (z i, c i)).count ab := by
    simp only [List.map_flatMap, List.map_map, hk]
    rfl
  rw [h2, sum_count]
  · simp
  · rw [List.nodup_flatMap]
    refine ⟨fun t _ => List.nodup_range.map fun a b hab => by simpa using hab, ?_⟩
    refine List.Pairwise.imp ?_ ht
    intro a b hab
    rw [Function.onFun, List.disjoint_left]
    intro p hp hq
    obtain ⟨x, _, rfl⟩ := List.mem_map.1 hp
    obtain ⟨y, _, hy⟩ := List.mem_map.1 hq
    exact hab (Prod.mk.inj hy).1.symm
  · intro p hp
    obtain ⟨i, _, rfl⟩ := List.mem_map.1 hp
    refine List.mem_flatMap.2 ⟨z i, hz i, List.mem_map.2 ⟨(c i - lo).toNat, ?_, ?_⟩⟩
    · have := hc i
      simp only [List.mem_range]; omega
    · have := hc i
      simp only [Prod.mk.injEq, true_and]; omega

/-- C143 (partial: every element is in `atom_types`, without repetitions, and every coordination number is within the
bounds): `bag_element_cn` counts, for each element and each coordination number from `cn_min` to `cn_max`, the atoms
of this element with this coordination number; the entries sum to the number of atoms. -/
theorem C143_partial (info : Bool) (types : List ℕ) (ht : types.Nodup) (lo hi : ℤ) (z : Fin n → ℕ)
    (cm : Fin n → Fin n → ℤ) (hz : ∀ i, z i ∈ types) (hc : ∀ i, lo ≤ ∑ j, cm i j ∧ ∑ j, cm i j ≤ hi) :
    ∃ bag : List ℕ, bagElementCn info types lo hi z cm = .ok (some bag) ∧
      bag = (types.flatMap fun t => (List.range (hi + 1 - lo).toNat).map fun k : ℕ =>
        (Finset.univ.filter fun i : Fin n => z i = t ∧ ∑ j, cm i j = lo + k).card) ∧ bag.sum = n := by
  refine ⟨_, ?_, rfl, ?_⟩
  · rw [bagElementCn, cnCells_ok info types lo hi z cm _ (fun i _ => hz i) fun i _ => hc i]
    simp only [Except.ok.injEq, Option.some.injEq]
    refine flatMap_range_idxOf types ht _ _ fun t htm => ?_
    refine List.map_congr_left fun k _ => ?_
    rw [List.count_eq_countP, List.countP_map, List.countP_eq_length_filter,
      ← List.toFinset_card_of_nodup ((List.nodup_finRange n).filter _)]
    congr 1
    ext i
    simp only [List.mem_toFinset, List.mem_filter, List.mem_finRange, true_and, Function.comp_apply, beq_iff_eq,
      Prod.mk.injEq, Finset.mem_filter, Finset.mem_univ]
    refine and_congr ⟨fun h => ?_, fun h => by rw [h]⟩ ?_
    · exact (List.idxOf_inj (hz i)).1 h
    · simp only [cn]; omega
  · refine bag_cn_sum types ht _ lo z (fun i => ∑ j, cm i j) hz fun i => ?_
    have := hc i
    omega

/-- Water: two hydrogen atoms with one bond, one oxygen atom with two. -/
example : bagElementCn false [1, 8] 1 2 ![1, 8, 1]
    (fun i j => if i = j then 0 else if i = 1 ∨ j = 1 then 1 else 0) = .ok (some [2, 0, 0, 1]) := by decide +kernel

/-- C143 fails: an atom with a coordination number out of bounds, which the documented behaviour answers with NaN, is
a KeyError when the structure has no `key_value_pairs`. -/
theorem C143_violated : bagElementCn false [1] 1 2 ![1] (fun _ _ => 0) = .error .key ∧
    bagElementCn true [1] 1 2 ![1] (fun _ _ => 0) = .ok none := by
  constructor <;> decide +kernel

/-! ## C144: bonds by element and coordination number -/

theorem nodes_sorted (types : List ℕ) (ht : types.Pairwise (· < ·)) (lo hi : ℤ) :
    (nodes types lo hi).Pairwise fun a b => a.1 < b.1 ∨ (a.1 = b.1 ∧ a.2 < b.2) := by
  unfold nodes
  rw [List.pairwise_flatMap]
  refine ⟨fun t _ => ?_, ?_⟩
  · rw [List.pairwise_map]
    refine List.pairwise_lt_range.imp fun h => ?_
    right; simp; exact_mod_cast h
  · refine ht.imp fun {a b} hab p hp q hq => ?_
    obtain ⟨x, _, rfl⟩ := List.mem_map.1 hp
    obtain ⟨y, _, rfl⟩ := List.mem_map.1 hq
    exact Or.inl hab

theorem mem_nodes (types : List ℕ) (lo hi : ℤ) (t : ℕ) (c : ℤ) :
    (t, c) ∈ nodes types lo hi ↔ t ∈ types ∧ lo ≤ c ∧ c ≤ hi := by
  simp only [nodes, List.mem_flatMap, List.mem_map, List.mem_range, Prod.mk.injEq]
  constructor
  · rintro ⟨t', ht', k, hk, rfl, rfl⟩
    exact ⟨ht', by omega, by omega⟩
  · rintro ⟨ht, h1, h2⟩
    exact ⟨t, ht, (c - lo).toNat, by omega, rfl, by omega⟩

theorem idxOf_nodes_le (types : List ℕ) (ht : types.Pairwise (· < ·)) (lo hi : ℤ) (a b : ℕ × ℤ)
    (ha : a ∈ nodes types lo hi) (hb : b ∈ nodes types lo hi) (hab : a.1 < b.1 ∨ (a.1 = b.1 ∧ a.2 ≤ b.2)) :
    (nodes types lo hi).idxOf a ≤ (nodes types lo hi).idxOf b := by
  by_contra h
  push Not at h
  have h1 := List.idxOf_lt_length_iff.2 ha
  have h2 := List.idxOf_lt_length_iff.2 hb
  have := List.pairwise_iff_getElem.1 (nodes_sorted types ht lo hi) _ _ h2 h1 h
  simp only [List.getElem_idxOf] at this
  omega

/-- The two nodes of a bond in the order of `np.lexsort`. -/
def lex (a b : ℕ × ℤ) : (ℕ × ℤ) × (ℕ × ℤ) := if a.1 < b.1 ∨ (a.1 = b.1 ∧ a.2 ≤ b.2) then (a, b) else (b, a)

theorem mapM_ok {α β : Type} (l : List α) (f : α → Except PyErr β) (g : α → β) (h : ∀ a ∈ l, f a = .ok (g a)) :
    l.mapM f = .ok (l.map g) := by
  induction l with
  | nil => rfl
  | cons a l ih =>
    rw [List.mapM_cons, ih fun b hb => h b (by simp [hb]), h a (by simp)]
    rfl

/-- C144 (partial: `atom_types` ascending; the bonded atoms have listed elements and coordination numbers within the
bounds): every bond is counted once, in the entry of its two nodes (element, coordination number). -/
theorem C144_partial (types : List ℕ) (ht : types.Pairwise (· < ·)) (lo hi : ℤ) (z : Fin n → ℕ)
    (cm : Fin n → Fin n → ℤ) (d : Fin n → ℤ) (hd : ∀ i, d i = ∑ j ∈ Finset.univ.erase i, cm i j)
    (hz : ∀ p ∈ bonds cm, (z p.1 ∈ types ∧ lo ≤ d p.1 ∧ d p.1 ≤ hi) ∧ (z p.2 ∈ types ∧ lo ≤ d p.2 ∧ d p.2 ≤ hi)) :
    ∃ bag, bagEdgesCn types lo hi z cm = .ok bag ∧
      bag.sum = (Finset.univ.filter fun p : Fin n × Fin n => p.1 < p.2 ∧ 0 < cm p.1 p.2).card ∧
      ∀ (i a b : ℕ) (na nb : ℕ × ℤ), (triu (nodes types lo hi).length)[i]? = some (a, b) →
        (nodes types lo hi)[a]? = some na → (nodes types lo hi)[b]? = some nb →
        bag[i]? = some (Finset.univ.filter fun p : Fin n × Fin n => p.1 < p.2 ∧ 0 < cm p.1 p.2 ∧
          (((z p.1, d p.1) = na ∧ (z p.2, d p.2) = nb) ∨ ((z p.1, d p.1) = nb ∧ (z p.2, d p.2) = na))).card := by
  have hcn : ∀ i, cn (cleared cm) i = d i := by
    intro i
    rw [hd, cn, ← Finset.add_sum_erase _ _ (Finset.mem_univ i)]
    simp only [cleared, if_true, zero_add]
    refine Finset.sum_congr rfl fun j hj => ?_
    rw [if_neg (Ne.symm (Finset.ne_of_mem_erase hj))]
  set N := nodes types lo hi with hN
  have hlex : ∀ p ∈ bonds cm, (lex (z p.1, d p.1) (z p.2, d p.2)).1 ∈ N ∧ (lex (z p.1, d p.1) (z p.2, d p.2)).2 ∈ N := by
    intro p hp
    have h := hz p hp
    have h1 : (z p.1, d p.1) ∈ N := (mem_nodes _ _ _ _ _).2 h.1
    have h2 : (z p.2, d p.2) ∈ N := (mem_nodes _ _ _ _ _).2 h.2
    unfold lex
    split
    · exact ⟨h1, h2⟩
    · exact ⟨h2, h1⟩
  have hm := mapM_ok (bonds cm) (fun p => cnCell types lo hi (z p.1, cn (cleared cm) p.1) (z p.2, cn (cleared cm) p.2))
    (fun p => (N.idxOf (lex (z p.1, d p.1) (z p.2, d p.2)).1, N.idxOf (lex (z p.1, d p.1) (z p.2, d p.2)).2)) (by
      intro p hp
      simp only [hcn]
      unfold cnCell
      exact if_pos (hlex p hp))
  refine ⟨(triu N.length).map fun ab => ((bonds cm).map fun p =>
      (N.idxOf (lex (z p.1, d p.1) (z p.2, d p.2)).1, N.idxOf (lex (z p.1, d p.1) (z p.2, d p.2)).2)).count ab,
    by simp only [bagEdgesCn, hm, ← hN], ?_, ?_⟩
  · rw [sum_count _ _ (triu_nodup _), List.length_map]
    · rw [← List.toFinset_card_of_nodup (bonds_nodup cm)]
      congr 1
      ext p
      simp [mem_bonds]
    · intro c hc
      obtain ⟨p, hp, rfl⟩ := List.mem_map.1 hc
      rw [mem_triu]
      refine ⟨idxOf_nodes_le types ht lo hi _ _ (hlex p hp).1 (hlex p hp).2 ?_, List.idxOf_lt_length_iff.2 (hlex p hp).2⟩
      unfold lex
      split
      · assumption
      · simp only at *
        omega
  · intro i a b na nb hi' ha hb
    rw [List.getElem?_map, hi']
    simp only [Option.map_some, Option.some.injEq]
    have hab := (mem_triu _ a b).1 (List.mem_of_getElem? hi')
    obtain ⟨hal, hae⟩ := List.getElem?_eq_some_iff.1 ha
    obtain ⟨hbl, hbe⟩ := List.getElem?_eq_some_iff.1 hb
    have hsort := nodes_sorted types ht lo hi
    have hnd : N.Nodup := hsort.imp fun h => by rintro rfl; omega
    have hia : ∀ x ∈ N, (N.idxOf x = a ↔ x = na) := by
      intro x hx
      constructor
      · rintro rfl; rw [List.getElem_idxOf] at hae; exact hae
      · rintro rfl; rw [← hae]; exact hnd.idxOf_getElem a hal
    have hib : ∀ x ∈ N, (N.idxOf x = b ↔ x = nb) := by
      intro x hx
      constructor
      · rintro rfl; rw [List.getElem_idxOf] at hbe; exact hbe
      · rintro rfl; rw [← hbe]; exact hnd.idxOf_getElem b hbl
    have hle : na.1 < nb.1 ∨ (na.1 = nb.1 ∧ na.2 ≤ nb.2) := by
      rcases Nat.lt_or_ge a b with h | h
      · have := List.pairwise_iff_getElem.1 hsort a b hal hbl h
        rw [hae, hbe] at this; omega
      · have : a = b := by omega
        subst this
        rw [hae] at hbe; subst hbe; omega
    rw [List.count_eq_countP, List.countP_map, List.countP_eq_length_filter,
      ← List.toFinset_card_of_nodup ((bonds_nodup cm).filter _)]
    congr 1
    ext p
    simp only [List.mem_toFinset, List.mem_filter, Function.comp_apply, beq_iff_eq, Prod.mk.injEq,
      Finset.mem_filter, Finset.mem_univ, true_and]
    rw [mem_bonds, ← and_assoc (a := p.1 < p.2)]
    refine and_congr_right fun hp => ?_
    have hp := (mem_bonds cm p).2 hp
    rw [hia _ (hlex p hp).1, hib _ (hlex p hp).2]
    obtain ⟨na1, na2⟩ := na
    obtain ⟨nb1, nb2⟩ := nb
    unfold lex
    simp only at hle ⊢
    split
    · simp only [Prod.mk.injEq]; omega
    · simp only [Prod.mk.injEq]; omega

/-- Water. -/
example : bagEdgesCn [1, 8] 1 2 ![1, 8, 1] (fun i j => if i = j then 0 else if i = 1 ∨ j = 1 then 1 else 0) =
    .ok [0, 0, 0, 2, 0, 0, 0, 0, 0, 0] := by decide +kernel

/-- C144 fails for `atom_types` in another order: the bonds between different elements are lost. -/
theorem C144_order_violated :
    bagEdgesCn [8, 1] 1 2 ![1, 8, 1] (fun i j => if i = j then 0 else if i = 1 ∨ j = 1 then 1 else 0) =
    .ok [0, 0, 0, 0, 0, 0, 0, 0, 0, 0] := by decide +kernel

/-- C144 fails for a coordination number out of bounds: ValueError, where `bag_element_cn` returns NaN. -/
theorem C144_bounds_violated :
    bagEdgesCn [1, 8] 1 1 ![1, 8, 1] (fun i j => if i = j then 0 else if i = 1 ∨ j = 1 then 1 else 0) =
    .error .value := by decide +kernel

/-- C143/C144: both bags are independent of the numbering of the atoms. -/
theorem C62_bag_edges_cn (types : List ℕ) (lo hi : ℤ) (z : Fin n → ℕ) (cm : Fin n → Fin n → ℤ)
    (hcm : ∀ i j, cm i j = cm j i) (σ : Equiv.Perm (Fin n)) :
    bagEdgesCn types lo hi (fun i => z (σ i)) (fun i j => cm (σ i) (σ j)) = bagEdgesCn types lo hi z cm := by
  have hcn : ∀ i, cn (cleared fun i j => cm (σ i) (σ j)) i = cn (cleared cm) (σ i) := by
    intro i
    simp only [cn]
    rw [← Equiv.sum_comp σ (fun j => cleared cm (σ i) j)]
    refine Finset.sum_congr rfl fun j _ => ?_
    simp [cleared]
  have hsym : ∀ a b, cnCell types lo hi a b = cnCell types lo hi b a := by
    rintro ⟨a1, a2⟩ ⟨b1, b2⟩
    have h : (if a1 < b1 ∨ (a1 = b1 ∧ a2 ≤ b2) then ((a1, a2), (b1, b2)) else ((b1, b2), (a1, a2))) =
        if b1 < a1 ∨ (b1 = a1 ∧ b2 ≤ a2) then ((b1, b2), (a1, a2)) else ((a1, a2), (b1, b2)) := by
      split <;> split
      · simp only [Prod.mk.injEq]; omega
      · rfl
      · rfl
      · simp only [Prod.mk.injEq]; omega
    simp only [cnCell, h]
  have := histogram_perm cm hcm
    (fun i j => cnCell types lo hi (z i, cn (cleared cm) i) (z j, cn (cleared cm) j)) (fun i j => hsym _ _) .value
    (fun i j x h => by
      simp only [cnCell] at h
      repeat' split at h
      all_goals first | cases h; done | exact (Except.error.inj h).symm) σ (triu (nodes types lo hi).length)
  simp only [bagEdgesCn, hcn]
  exact this

/-! ## C61: names of the fingerprints -/

/-- C61: each name stands beside its own number: the counts of `composition_vec` and `bag_elements` beside the number and
the symbol of the element counted, the entries of `element_parameter_vec` beside the element and the parameter. -/
theorem C61_fingerprint_pairs (sym : ℕ → String) (p : String) (types : List ℕ) (z : Fin n → ℕ) (k : ℕ) (t : ℕ)
    (hk : types[k]? = some t) :
    (compositionNames types)[k]? = some (toString t ++ "_count") ∧
    (composition types z)[k]? = some (Finset.univ.filter fun i => z i = t).card ∧
    (bagElementsNames sym types)[k]? = some ("bag_" ++ sym t) ∧
    (bagElements types z)[k]? = some (Finset.univ.filter fun i => z i = t).card ∧
    (elementParameterNames types p)[k]? = some ("sum_" ++ toString t ++ "_" ++ p) ∧
    ∀ par : ℕ → Option ℝ, (elementParameter types par z)[k]? =
      some ((par t).map fun x => ((Finset.univ.filter fun i => z i = t).card : ℝ) * x) := by
  have hlt : k < types.length := (List.getElem?_eq_some_iff.1 hk).1
  have hc : (List.ofFn z).count t = (Finset.univ.filter fun i => z i = t).card := by
    rw [List.ofFn_eq_map, List.count_eq_countP, List.countP_map, List.countP_eq_length_filter,
      ← List.toFinset_card_of_nodup ((List.nodup_finRange n).filter _)]
    congr 1
    ext i
    simp
  refine ⟨by simp [compositionNames, hk], by simp [composition, hk, hc], by simp [bagElementsNames, hk],
    by simp [bagElements, hk, hc], ?_, fun par => ?_⟩
  · rw [elementParameterNames, List.getElem?_append_left (by simpa using hlt)]
    simp [hk]
  · have hl : k < ((List.zip (composition types z) types).map fun ct => (par ct.2).map fun x => (ct.1 : ℝ) * x).length := by
      simpa [composition] using hlt
    rw [elementParameter, List.getElem?_append_left hl]
    have hz : (List.zip (composition types z) types)[k]? = some ((List.ofFn z).count t, t) := by
      rw [List.getElem?_zip_eq_some]
      exact ⟨by simp [composition, hk], hk⟩
    rw [List.getElem?_map, hz, hc]
    rfl

/-- Water: the second name is that of oxygen, of which there is one atom. -/
example : ([1, 8] : List ℕ)[1]? = some 8 ∧ (bagElements [1, 8] ![1, 8, 1])[1]? = some 1 :=
  ⟨rfl, ((C61_fingerprint_pairs (fun _ => "O") "mass" [1, 8] ![1, 8, 1] 1 8 rfl).2.2.2.1).trans (by decide)⟩

/-- C61: these fingerprint functions return as many names (for `None`) as numbers (for a structure). -/
theorem C61_fingerprint_names (sym : ℕ → String) (p : String) (types : List ℕ) (atomLen : ℕ) (z : Fin n → ℕ) :
    (compositionNames types).length = (composition types z).length ∧
    (bagElementsNames sym types).length = (bagElements types z).length ∧
    (∀ par, (elementParameterNames types p).length = (elementParameter types par z).length) ∧
    (∀ pos, (distanceNames types).length = (distanceVec types z pos).length) ∧
    (∀ eig dist v, eigenspectrum eig atomLen z dist = .ok v → (eigenspectrumNames atomLen).length = v.length) ∧
    (∀ cm v, bagEdges types z cm = .ok v → (bagEdgesNames sym types).length = v.length) := by
  refine ⟨by simp [compositionNames, composition], by simp [bagElementsNames, bagElements], ?_,
    by simp [distanceNames, distanceVec], ?_, ?_⟩
  · intro par
    simp [elementParameterNames, elementParameter, composition]
  · intro eig dist v hv
    simp only [eigenspectrum] at hv
    split at hv
    · cases hv
    · split at hv
      · cases hv
        simp only [eigenspectrumNames, List.length_map, List.length_range, List.length_append, List.length_replicate]
        omega
      · cases hv
  · intro cm v hv
    simp only [bagEdges] at hv
    split at hv
    · cases hv
    · cases hv
      simp [bagEdgesNames]

/-- A list of fingerprint functions one of which raises for `None` has no names. -/
theorem names_error {A K : Type} (g : Feat.Gen) (fs : List (Feat.Fp A K)) (f : Feat.Fp A K) (hf : f ∈ fs) (e : PyErr)
    (he : f g none = .error e) : ∃ e', Feat.returnNames g fs = .error e' := by
  have key : ∀ acc : Feat.Vals K, ∃ e', Feat.concatenate g none fs acc = .error e' := by
    induction fs with
    | nil => cases hf
    | cons f' fs ih =>
      intro acc
      rw [Feat.concatenate]
      rcases List.mem_cons.1 hf with h | h
      · subst h
        rw [he]
        exact ⟨e, rfl⟩
      · cases f' g none with
        | error e' => exact ⟨e', rfl⟩
        | ok v =>
          simp only
          cases Feat.join acc (Feat.toArray v) with
          | error e' => exact ⟨e', rfl⟩
          | ok acc' => exact ih h acc'
  unfold Feat.returnNames Feat.getVec
  split
  · rename_i f'
    have : f' = f := (List.mem_singleton.1 hf).symm
    subst this
    exact ⟨e, he⟩
  · exact key _

/-- C61 fails for the autocorrelation fingerprint: with it in the list `return_names` always raises, although
`return_vec` works. -/
theorem C61_autocorrelation_violated (params : List (ℕ → ℝ)) (dstar : ℕ) (g : Feat.Gen)
    (fs : List (Feat.Fp (Σ n : ℕ, (Fin n → ℕ) × (Fin n → Fin n → ℤ)) ℝ))
    (hf : (fun _ a => (getAutocorrelation params dstar a).map .nums) ∈ fs) :
    (∃ e, Feat.returnNames g fs = .error e) ∧ ∀ a, ∃ v, getAutocorrelation params dstar (some a) = .ok v :=
  ⟨names_error g fs _ hf .attribute rfl, fun _ => ⟨_, rfl⟩⟩

end CatLearn.Fpr
