import Verif.Props.ScreeningUnits
import Mathlib.Tactic.FinCases

/-!
# C260: screening and the order of the features
-/

namespace CatLearn.Props

open CatLearn CatLearn.Screen

variable {m : ℕ}

/-- The old position of the feature that is now at position `i`. -/
def moved (σ : Equiv.Perm (Fin m)) (i : ℕ) : ℕ := if h : i < m then (σ ⟨i, h⟩ : ℕ) else i

theorem moved_lt (σ : Equiv.Perm (Fin m)) {i : ℕ} (h : i < m) : moved σ i < m := by
  unfold moved
  rw [dif_pos h]
  exact (σ ⟨i, h⟩).2

private theorem getD_ofFn (v : Fin m → ℝ) {i : ℕ} (h : i < m) : (List.ofFn v).getD i 0 = v ⟨i, h⟩ := by
  simp [List.getD, h]

private theorem getD_moved (σ : Equiv.Perm (Fin m)) (v : Fin m → ℝ) {i : ℕ} (h : i < m) :
    (List.ofFn fun i => v (σ i)).getD i 0 = (List.ofFn v).getD (moved σ i) 0 := by
  rw [getD_ofFn _ h, getD_ofFn _ (moved_lt σ h)]
  congr 1
  unfold moved
  simp only [dif_pos h]

theorem range_moved (σ : Equiv.Perm (Fin m)) : ((List.range m).map (moved σ)).Perm (List.range m) := by
  have hinj : ∀ a ∈ List.range m, ∀ b ∈ List.range m, moved σ a = moved σ b → a = b := by
    intro a ha b hb h
    have ha := List.mem_range.mp ha
    have hb := List.mem_range.mp hb
    unfold moved at h
    rw [dif_pos ha, dif_pos hb] at h
    have := σ.injective (Fin.ext h)
    simpa using this
  have hnd : ((List.range m).map (moved σ)).Nodup := List.Nodup.map_on hinj List.nodup_range
  refine (List.subperm_of_subset hnd ?_).perm_of_length_le (by simp)
  intro x hx
  obtain ⟨i, hi, rfl⟩ := List.mem_map.mp hx
  exact List.mem_range.mpr (moved_lt σ (List.mem_range.mp hi))

private theorem order_mem (v : List ℝ) {i : ℕ} (h : i ∈ orderByAbs v) : i < v.length := by
  have : i ∈ List.range v.length := (sortDesc_perm _ _).mem_iff.mp h
  exact List.mem_range.mp this

private theorem order_range (v : Fin m → ℝ) : (orderByAbs (List.ofFn v)).Perm (List.range m) := by
  have := sortDesc_perm (fun i => |(List.ofFn v).getD i 0|) (List.range (List.ofFn v).length)
  have hl : List.range (List.ofFn v).length = List.range m := by rw [List.length_ofFn]
  exact this.trans (List.Perm.of_eq hl)

private theorem order_moved_perm (σ : Equiv.Perm (Fin m)) (v : Fin m → ℝ) :
    ((orderByAbs (List.ofFn fun i => v (σ i))).map (moved σ)).Perm (orderByAbs (List.ofFn v)) :=
  ((order_range _).map _).trans ((range_moved σ).trans (order_range v).symm)

private theorem order_moved (σ : Equiv.Perm (Fin m)) (v : Fin m → ℝ) (hinj : ∀ i j, |v i| = |v j| → i = j) :
    (orderByAbs (List.ofFn fun i => v (σ i))).map (moved σ) = orderByAbs (List.ofFn v) := by
  refine List.Perm.eq_of_pairwise (le := fun i j => |(List.ofFn v).getD j 0| ≤ |(List.ofFn v).getD i 0|) ?_ ?_ (sortDesc_pairwise _ _)
    (order_moved_perm σ v)
  · intro a b ha hb h1 h2
    have hb' : b < m := by simpa using order_mem _ hb
    have ha' : a < m := by
      obtain ⟨i, hi, rfl⟩ := List.mem_map.mp ha
      exact moved_lt σ (by simpa using order_mem _ hi)
    have h := le_antisymm h1 h2
    rw [getD_ofFn v hb', getD_ofFn v ha'] at h
    have := hinj _ _ h
    simpa using this.symm
  · rw [List.pairwise_map]
    refine List.Pairwise.imp_of_mem ?_ (sortDesc_pairwise (fun i => |(List.ofFn fun i => v (σ i)).getD i 0|) _)
    intro a b ha hb h
    have ha' : a < m := by simpa using order_mem _ ha
    have hb' : b < m := by simpa using order_mem _ hb
    rwa [getD_moved σ v ha', getD_moved σ v hb'] at h

private theorem order_values (σ : Equiv.Perm (Fin m)) (v : Fin m → ℝ) :
    (orderByAbs (List.ofFn fun i => v (σ i))).map (fun i => |(List.ofFn fun i => v (σ i)).getD i 0|) =
      (orderByAbs (List.ofFn v)).map fun i => |(List.ofFn v).getD i 0| := by
  refine List.Perm.eq_of_pairwise (le := fun a b => b ≤ a) (fun a b _ _ h1 h2 => le_antisymm h2 h1) ?_ ?_ ?_
  · rw [List.pairwise_map]
    exact sortDesc_pairwise _ _
  · rw [List.pairwise_map]
    exact sortDesc_pairwise _ _
  · have h := (order_moved_perm σ v).map fun i => |(List.ofFn v).getD i 0|
    rw [List.map_map] at h
    refine (List.Perm.of_eq ?_).trans h
    refine List.map_congr_left fun i hi => ?_
    have hi' : i < m := by simpa using order_mem _ hi
    simp only [Function.comp_apply, getD_moved σ v hi']

/-- The correlation of feature `i` that is used. -/
noncomputable def strength (x : Ext) (c : String) (t : Col) (f : Fin m → Col) (i : Fin m) : ℝ := (corrOf x c t (f i)).getD 0

private theorem corr_ofFn (x : Ext) (c : String) (t : Col) (f : Fin m → Col) : getCorrelation x c t (List.ofFn f) = List.ofFn (strength x c t f) := by
  have h : ∀ d, ∃ v, corrOf x c t d = some v := by
    intro d
    unfold corrOf
    by_cases h0 : x.isConst d = true
    · exact ⟨0, if_pos h0⟩
    · by_cases h1 : c = "pearson"
      · subst h1
        exact ⟨x.spearmanr d t, by simp [h0]⟩
      · exact ⟨x.pearsonr d t, by simp [h0, h1]⟩
  unfold getCorrelation
  have hmap : ∀ l : List Col, l.filterMap (corrOf x c t) = l.map fun d => (corrOf x c t d).getD 0 := by
    intro l
    induction l with
    | nil => rfl
    | cons d l ih =>
      obtain ⟨v, hv⟩ := h d
      rw [List.filterMap_cons, hv, ih, List.map_cons, hv]
      rfl
  rw [hmap, List.map_ofFn]
  rfl

private theorem screen_ofFn (x : Ext) (c : String) (fresh : Nat → List Col) (t : Col) (n : ℕ) (f : Fin (m + 1) → Col) :
    screen x c false fresh t n (List.ofFn f) = .ok ⟨orderByAbs (List.ofFn (strength x c t f)),
      (orderByAbs (List.ofFn (strength x c t f))).map fun i => |(List.ofFn (strength x c t f)).getD i 0|, n⟩ := by
  have hne : List.ofFn f ≠ [] := by simp [List.ofFn_succ]
  simp only [screen, setIndex, Bool.false_eq_true, if_false, bind, Except.bind, screenCore, if_neg hne, corr_ofFn, List.map_nil, List.foldl_nil]

/-- C260 (partial: no two features are equally strong).  Screening the features in another order finds the same order of the features.  In every case the sorted
correlations and the size are the same. -/
theorem C260_screen_partial (x : Ext) (c : String) (fresh : Nat → List Col) (t : Col) (n : ℕ) (f : Fin (m + 1) → Col) (σ : Equiv.Perm (Fin (m + 1))) :
    ∃ r r', screen x c false fresh t n (List.ofFn f) = .ok r ∧ screen x c false fresh t n (List.ofFn fun i => f (σ i)) = .ok r' ∧
      r'.correlation = r.correlation ∧ r'.size = r.size ∧
      ((∀ i j, |strength x c t f i| = |strength x c t f j| → i = j) → r'.index.map (moved σ) = r.index) := by
  refine ⟨_, _, screen_ofFn x c fresh t n f, screen_ofFn x c fresh t n fun i => f (σ i), ?_, rfl, fun hinj => ?_⟩
  · exact order_values σ (strength x c t f)
  · exact order_moved σ (strength x c t f) hinj

/-- C260 (partial: as before), selection by the coefficients of a regression.  The same features are accepted and rejected, in the same order. -/
theorem C260_select_partial (v : Fin (m + 1) → ℝ) (σ : Equiv.Perm (Fin (m + 1))) (hinj : ∀ i j, |v i| = |v j| → i = j) (size : ℕ) :
    ∃ a b a' b', featureSelect (List.ofFn v) size = .ok (a, b) ∧ featureSelect (List.ofFn fun i => v (σ i)) size = .ok (a', b') ∧
      a'.map (moved σ) = a ∧ b'.map (moved σ) = b := by
  have h := order_moved σ v hinj
  unfold featureSelect
  rw [if_neg (by simp [List.ofFn_succ]), if_neg (by simp [List.ofFn_succ])]
  refine ⟨_, _, _, _, rfl, rfl, ?_, ?_⟩
  · rw [← h, List.map_take]
  · rw [← h, List.map_drop]

private theorem delete_ofFn (f : Fin m → Col) (idx : List ℕ) :
    deleteCols (List.ofFn f) idx = ((List.range m).filter fun i => !idx.contains i).map fun i => if h : i < m then f ⟨i, h⟩ else [] := by
  rw [deleteCols_eq, List.length_ofFn]
  have : ∀ l : List ℕ, (∀ i ∈ l, i < m) → l.filterMap (fun i => (List.ofFn f)[i]?) = l.map fun i => if h : i < m then f ⟨i, h⟩ else [] := by
    intro l hl
    induction l with
    | nil => rfl
    | cons i l ih =>
      have hi : i < m := hl i (by simp)
      rw [List.filterMap_cons, List.map_cons, ← ih fun j hj => hl j (by simp [hj])]
      simp [hi]
  exact this _ fun i hi => List.mem_range.mp (List.mem_filter.mp hi).1

theorem moved_inj (σ : Equiv.Perm (Fin m)) {a b : ℕ} (ha : a < m) (hb : b < m) (h : moved σ a = moved σ b) : a = b := by
  unfold moved at h
  rw [dif_pos ha, dif_pos hb] at h
  have := σ.injective (Fin.ext h)
  simpa using this

private theorem delete_moved (f : Fin m → Col) (σ : Equiv.Perm (Fin m)) (idx : List ℕ) (hidx : ∀ i ∈ idx, i < m) :
    (deleteCols (List.ofFn fun i => f (σ i)) idx).Perm (deleteCols (List.ofFn f) (idx.map (moved σ))) := by
  rw [delete_ofFn, delete_ofFn]
  have h1 : ((List.range m).filter fun i => !idx.contains i).map (fun i => if h : i < m then f (σ ⟨i, h⟩) else []) =
      (((List.range m).filter fun i => !idx.contains i).map (moved σ)).map fun i => if h : i < m then f ⟨i, h⟩ else [] := by
    rw [List.map_map]
    refine List.map_congr_left fun i hi => ?_
    have hi' : i < m := List.mem_range.mp (List.mem_filter.mp hi).1
    rw [Function.comp_apply, dif_pos hi', dif_pos (moved_lt σ hi')]
    congr 1
    unfold moved
    simp only [dif_pos hi']
  rw [h1]
  refine List.Perm.map _ ?_
  have h2 : ((List.range m).filter fun i => !idx.contains i).map (moved σ) =
      ((List.range m).map (moved σ)).filter fun i => !(idx.map (moved σ)).contains i := by
    rw [List.filter_map]
    congr 1
    refine List.filter_congr fun i hi => ?_
    have hi' : i < m := List.mem_range.mp hi
    rw [Function.comp_apply]
    congr 1
    rw [Bool.eq_iff_iff]
    simp only [List.contains_iff_mem, List.mem_map]
    constructor
    · exact fun h => ⟨i, h, rfl⟩
    · rintro ⟨j, hj, hji⟩
      rwa [← moved_inj σ (hidx j hj) hi' hji]
  rw [h2]
  exact (range_moved σ).filter _

/-- C260 (partial: as before), elimination.  Giving the features of the training and the test data in another order leaves the same features, in another order. -/
theorem C260_eliminate_partial (x : Ext) (c : String) (fresh fresh1 fresh2 : Nat → List Col) (t : Col) (n : ℕ) (f g : Fin (m + 1) → Col)
    (σ : Equiv.Perm (Fin (m + 1))) (s : Option ℕ) (hinj : ∀ i j, |strength x c t f i| = |strength x c t f j| → i = j) :
    ∃ A B I k A' B' I', eliminateOnce x c false fresh fresh1 fresh2 t n (List.ofFn f) (List.ofFn g) s = .ok (A, B, I, k) ∧
      eliminateOnce x c false fresh fresh1 fresh2 t n (List.ofFn fun i => f (σ i)) (List.ofFn fun i => g (σ i)) s = .ok (A', B', I', k) ∧
      A'.Perm A ∧ B'.Perm B ∧ I'.map (moved σ) = I := by
  have hred : ∀ (f h : Fin (m + 1) → Col), reduceCore (List.ofFn h) (orderByAbs (List.ofFn (strength x c t f))) n =
      .ok ⟨(orderByAbs (List.ofFn (strength x c t f))).take n, (orderByAbs (List.ofFn (strength x c t f))).drop n,
        deleteCols (List.ofFn h) ((orderByAbs (List.ofFn (strength x c t f))).drop n)⟩ := by
    intro f h
    have hp := order_range (strength x c t f)
    have hl : (orderByAbs (List.ofFn (strength x c t f))).length = m + 1 := by simpa using hp.length_eq
    have hd : (deleteCols (List.ofFn h) ((orderByAbs (List.ofFn (strength x c t f))).drop n)).length =
        ((orderByAbs (List.ofFn (strength x c t f))).take n).length := by
      have := deleteCols_length (List.ofFn h) ((orderByAbs (List.ofFn (strength x c t f))).drop n)
        ((hp.nodup_iff.mpr List.nodup_range).sublist (List.drop_sublist _ _))
        fun i hi => by simpa using order_mem _ (List.mem_of_mem_drop hi)
      simp only [List.length_ofFn, List.length_drop, List.length_take, hl] at this ⊢
      omega
    unfold reduceCore
    rw [if_neg (by rw [hl, List.length_ofFn]; simp)]
    simp only
    rw [if_neg (by simp only [hd, ne_eq, not_true_eq_false, not_false_eq_true])]
  have hmov := order_moved σ (strength x c t f) hinj
  have hlt : ∀ i ∈ (orderByAbs (List.ofFn fun i => strength x c t f (σ i))).drop n, i < m + 1 := by
    intro i hi
    simpa using order_mem _ (List.mem_of_mem_drop hi)
  unfold eliminateOnce reduceMatrix setIndex
  simp only [screen_ofFn, Bool.false_eq_true, if_false, bind, Except.bind, hred]
  refine ⟨_, _, _, _, _, _, _, rfl, rfl, ?_, ?_, hmov⟩
  · show (deleteCols _ ((orderByAbs (List.ofFn fun i => strength x c t f (σ i))).drop n)).Perm _
    rw [← hmov, ← List.map_drop]
    exact delete_moved f σ _ hlt
  · show (deleteCols _ ((orderByAbs (List.ofFn fun i => strength x c t f (σ i))).drop n)).Perm _
    rw [← hmov, ← List.map_drop]
    exact delete_moved g σ _ hlt

/-- C260 is violated for features that are equally strong, for example a feature and its negative: the first one that is given comes first, so the order of
the columns decides. -/
theorem C260_screen_violated (x : Ext) (c : String) (fresh : Nat → List Col) (t : Col) (n : ℕ) (d e : Col)
    (h : |(corrOf x c t d).getD 0| = |(corrOf x c t e).getD 0|) :
    ∃ r r', screen x c false fresh t n [d, e] = .ok r ∧ screen x c false fresh t n [e, d] = .ok r' ∧ r.index = [0, 1] ∧ r'.index = [0, 1] := by
  have key : ∀ d e : Col, |(corrOf x c t d).getD 0| = |(corrOf x c t e).getD 0| →
      ∃ r, screen x c false fresh t n [d, e] = .ok r ∧ r.index = [0, 1] := by
    intro d e h
    have hf : [d, e] = List.ofFn ![d, e] := by simp [List.ofFn_succ]
    rw [hf, screen_ofFn]
    refine ⟨_, rfl, ?_⟩
    have hs : List.ofFn (strength x c t ![d, e]) = [(corrOf x c t d).getD 0, (corrOf x c t e).getD 0] := by
      simp [List.ofFn_succ, strength]
    show orderByAbs _ = _
    rw [hs]
    unfold orderByAbs sortDesc
    have : List.range [(corrOf x c t d).getD 0, (corrOf x c t e).getD 0].length = [0, 1] := rfl
    rw [this]
    simp [List.insertionSort, List.orderedInsert, h]
  obtain ⟨r, h1, h2⟩ := key d e h
  obtain ⟨r', h3, h4⟩ := key e d h.symm
  exact ⟨r, r', h1, h3, h2, h4⟩

/-- Three features that are not equally strong. -/
example : ∀ i j : Fin 3, |(![1, -3, 2] : Fin 3 → ℝ) i| = |(![1, -3, 2] : Fin 3 → ℝ) j| → i = j := by
  intro i j
  fin_cases i <;> fin_cases j <;> norm_num

/-- A feature and its negative are equally strong for every coefficient that changes its sign with the feature. -/
example (x : Ext) (t d : Col) (h0 : x.isConst d = false) (h1 : x.isConst (d.map fun a => -a) = false)
    (hs : x.pearsonr (d.map fun a => -a) t = -x.pearsonr d t) :
    |(corrOf x "spearman" t d).getD 0| = |(corrOf x "spearman" t (d.map fun a => -a)).getD 0| := by
  simp [corrOf, h0, h1, hs]

end CatLearn.Props
