import Verif.Model.Sensitivity
import Verif.Lemmas.Py
import Mathlib.Data.List.Perm.Basic
import Mathlib.Data.List.Range
import Mathlib.Analysis.SpecialFunctions.ExpDeriv
import Mathlib.Analysis.Calculus.Deriv.Pow
import Mathlib.Tactic.Linarith
import Mathlib.Tactic.FieldSimp
import Mathlib.Tactic.Positivity
import Mathlib.Tactic.Ring

/-!
C183: backward elimination of features by sensitivity.
-/

namespace CatLearn.Sensitivity

open CatLearn

variable {τ υ ω : Type}

theorem delete_map {α β : Type} (f : α → β) (l : List α) (idx : List ℕ) : delete (l.map f) idx = (delete l idx).map f := by
  unfold delete
  rw [List.zipIdx_map, List.filter_map, List.map_map, List.map_map]
  rfl

theorem delete_sublist {α : Type} (l : List α) (idx : List ℕ) : (delete l idx).Sublist l := by
  unfold delete
  have := (List.filter_sublist (p := fun p : α × ℕ => decide (p.2 ∉ idx)) (l := l.zipIdx)).map Prod.fst
  rwa [List.zipIdx_map_fst] at this

theorem delete_range (n : ℕ) (idx : List ℕ) : delete (List.range n) idx = (List.range n).filter (· ∉ idx) := by
  unfold delete
  have : (List.range n).zipIdx = (List.range n).map fun i => (i, i) := by
    apply List.ext_getElem
    · simp
    · intro i h1 h2; simp
  rw [this, List.filter_map, List.map_map]
  simp [Function.comp_def]

theorem delete_eq_map {α : Type} (l : List α) (idx : List ℕ) (a : α) :
    delete l idx = ((List.range l.length).filter (· ∉ idx)).map fun i => l.getD i a := by
  have : l = (List.range l.length).map fun i => l.getD i a := by
    apply List.ext_getElem
    · simp
    · intro i h1 h2; simp [h1]
  conv_lhs => rw [this]
  rw [delete_map, delete_range]

theorem sortedIndex_perm (s : List ℝ) : (sortedIndex s).Perm (List.range s.length) := by
  unfold sortedIndex
  have := (sortDesc_perm Prod.fst s.zipIdx).map Prod.snd
  rw [List.zipIdx_map_snd] at this
  simpa [List.range_eq_range'] using this

theorem length_delete_drop {α : Type} (l : List α) (s : List ℝ) (hs : s.length = l.length) (i : ℕ) :
    (delete l ((sortedIndex s).drop i)).length = min i l.length := by
  cases l with
  | nil => simp [delete]
  | cons a t =>
    set l := a :: t with hl
    rw [delete_eq_map l _ a, List.length_map]
    have hp := sortedIndex_perm s
    rw [hs] at hp
    have hnd : (sortedIndex s).Nodup := hp.nodup_iff.mpr List.nodup_range
    have e : ((List.range l.length).filter (· ∉ (sortedIndex s).drop i)).Perm ((sortedIndex s).take i) := by
      rw [List.perm_ext_iff_of_nodup (List.nodup_range.filter _) (hnd.sublist (List.take_sublist _ _))]
      intro x
      rw [List.mem_filter, ← hp.mem_iff, decide_eq_true_eq]
      have hd : List.Disjoint ((sortedIndex s).take i) ((sortedIndex s).drop i) := by
        have h := hnd
        rw [← List.take_append_drop i (sortedIndex s)] at h
        exact (List.nodup_append'.mp h).2.2
      constructor
      · rintro ⟨h1, h2⟩
        rw [← List.take_append_drop i (sortedIndex s), List.mem_append] at h1
        exact h1.resolve_right h2
      · intro h
        exact ⟨List.mem_of_mem_take h, fun h' => hd h h'⟩
    rw [e.length_eq, List.length_take, hp.length_eq, List.length_range]

/-- The data of a step are those of the features listed. -/
def Fits (train : List τ) (test : List υ) (d : Data τ υ ω) : Prop :=
  d.index.Pairwise (· < ·) ∧ (∀ a ∈ d.index, a < train.length) ∧ d.train.map some = d.index.map (train[·]?) ∧
    d.test.map some = d.index.map (test[·]?)

theorem Fits.delete {train : List τ} {test : List υ} {d : Data τ υ ω} (h : Fits train test d) (idx : List ℕ) :
    Fits train test ⟨delete d.train idx, delete d.test idx, delete d.width idx, delete d.index idx⟩ := by
  obtain ⟨h1, h2, h3, h4⟩ := h
  refine ⟨h1.sublist (delete_sublist _ _), fun a ha => h2 a ((delete_sublist _ _).subset ha), ?_, ?_⟩
  · rw [← delete_map, h3, delete_map]
  · rw [← delete_map, h4, delete_map]

theorem Fits.length {train : List τ} {test : List υ} {d : Data τ υ ω} (h : Fits train test d) :
    d.train.length = d.index.length ∧ d.test.length = d.index.length := by
  have h1 := congrArg List.length h.2.2.1
  have h2 := congrArg List.length h.2.2.2
  simp at h1 h2
  exact ⟨h1, h2⟩

/-- What a step records, for a model of the features `abs` of the data. -/
def Good (train : List τ) (test : List υ) (st : Step τ υ ω) : Prop :=
  st.features = st.abs.length ∧ st.sens.length = st.abs.length ∧ st.sorted = sortedIndex st.sens ∧
    st.abs.Pairwise (· < ·) ∧ (∀ a ∈ st.abs, a < train.length) ∧ st.train.map some = st.abs.map (train[·]?) ∧
    st.test.map some = st.abs.map (test[·]?)

theorem optStep_good {opt : List τ → List ω → List ω} {sens : List τ → List υ → List ω → List ℝ}
    (hsens : ∀ a b c, (sens a b c).length = a.length) {train : List τ} {test : List υ} {d d' : Data τ υ ω}
    {st : Step τ υ ω} (h : Fits train test d) (he : optStep opt sens d = .ok (st, d')) :
    Good train test st ∧ Fits train test d' ∧ st.abs = d.index ∧ d'.index = d.index ∧ d'.train = d.train := by
  unfold optStep at he
  simp only at he
  split at he
  · cases he
  · injection he with he
    injection he with he1 he2
    subst he1
    subst he2
    exact ⟨⟨h.length.1, by rw [hsens, h.length.1], rfl, h⟩, h, rfl, rfl, rfl⟩

/-- The second step keeps the most sensitive features of the first. -/
def Removed (a b : Step τ υ ω) : Prop :=
  b.abs.Sublist a.abs ∧ ∀ p p' x x' : ℕ, a.abs[p]? = some x → a.abs[p']? = some x' → x ∈ b.abs → x' ∉ b.abs →
    ∃ v v', a.sens[p]? = some v ∧ a.sens[p']? = some v' ∧ v' ≤ v

theorem sorted_split (s : List ℝ) (i p p' : ℕ) (hp : p ∈ (sortedIndex s).take i) (hp' : p' ∈ (sortedIndex s).drop i) :
    ∃ v v', s[p]? = some v ∧ s[p']? = some v' ∧ v' ≤ v := by
  unfold sortedIndex at hp hp'
  rw [← List.map_take] at hp
  rw [← List.map_drop] at hp'
  obtain ⟨⟨v, q⟩, hq, rfl⟩ := List.mem_map.mp hp
  obtain ⟨⟨v', q'⟩, hq', rfl⟩ := List.mem_map.mp hp'
  have hpw := sortDesc_pairwise Prod.fst s.zipIdx
  rw [← List.take_append_drop i (sortDesc Prod.fst s.zipIdx), List.pairwise_append] at hpw
  have hle := hpw.2.2 _ hq _ hq'
  have h1 : (v, q) ∈ s.zipIdx := (sortDesc_perm _ _).mem_iff.mp (List.mem_of_mem_take hq)
  have h2 : (v', q') ∈ s.zipIdx := (sortDesc_perm _ _).mem_iff.mp (List.mem_of_mem_drop hq')
  exact ⟨v, v', List.mk_mem_zipIdx_iff_getElem?.mp h1, List.mk_mem_zipIdx_iff_getElem?.mp h2, hle⟩

theorem removed_of_delete {a b : Step τ υ ω} (hs : a.sens.length = a.abs.length) (hsort : a.sorted = sortedIndex a.sens)
    (hnd : a.abs.Pairwise (· < ·)) (i : ℕ) (hb : b.abs = delete a.abs (a.sorted.drop i)) : Removed a b := by
  refine ⟨hb ▸ delete_sublist _ _, ?_⟩
  intro p p' x x' hx hx' hin hout
  have hnodup : a.abs.Nodup := hnd.imp fun h => ne_of_lt h
  have hpl := (List.getElem?_eq_some_iff.mp hx)
  have hpl' := (List.getElem?_eq_some_iff.mp hx')
  obtain ⟨hpl, ex⟩ := hpl
  obtain ⟨hpl', ex'⟩ := hpl'
  have hmem : ∀ (k : ℕ) (hk : k < a.abs.length), a.abs[k] ∈ b.abs ↔ k ∉ a.sorted.drop i := by
    intro k hk
    rw [hb]
    unfold delete
    rw [List.mem_map]
    constructor
    · rintro ⟨⟨y, j⟩, hy, e⟩
      rw [List.mem_filter] at hy
      obtain ⟨hz, hd⟩ := hy
      rw [List.mk_mem_zipIdx_iff_getElem?] at hz
      obtain ⟨hjl, ey⟩ := List.getElem?_eq_some_iff.mp hz
      simp only at e
      have : j = k := (List.Nodup.getElem_inj_iff hnodup).mp (ey.trans e)
      subst this
      simpa using hd
    · intro hd
      refine ⟨(a.abs[k], k), ?_, rfl⟩
      rw [List.mem_filter, List.mk_mem_zipIdx_iff_getElem?]
      exact ⟨List.getElem?_eq_getElem hk, by simpa using hd⟩
  have hmp : ∀ k, k < a.abs.length → k ∈ a.sorted := by
    intro k hk
    rw [hsort, (sortedIndex_perm _).mem_iff, hs]
    exact List.mem_range.mpr hk
  have h1 : p ∉ a.sorted.drop i := (hmem p hpl).mp (by rw [ex]; exact hin)
  have h2 : p' ∈ a.sorted.drop i := by
    by_contra hc
    exact hout (ex' ▸ (hmem p' hpl').mpr hc)
  have h3 : p ∈ a.sorted.take i := by
    have := hmp p hpl
    rw [← List.take_append_drop i a.sorted, List.mem_append] at this
    exact this.resolve_right h1
  rw [hsort] at h2 h3
  exact sorted_split a.sens i p p' h3 h2

theorem backLoop_spec {opt : List τ → List ω → List ω} {sens : List τ → List υ → List ω → List ℝ}
    (hsens : ∀ a b c, (sens a b c).length = a.length) {train : List τ} {test : List υ} (is : List ℕ)
    {last : Step τ υ ω} {d d' : Data τ υ ω} {r : List (ℕ × Step τ υ ω)} (hg : Good train test last)
    (hf : Fits train test d) (hla : last.abs = d.index) (h : backLoop opt sens is last d = .ok (r, d')) :
    r.map Prod.fst = is ∧ (∀ p ∈ r, Good train test p.2) ∧ List.IsChain Removed (last :: r.map Prod.snd) ∧
      List.IsChain (fun a b : ℕ × Step τ υ ω => b.2.abs.length = min b.1 a.2.abs.length) ((0, last) :: r) ∧
      d'.train.length = ((r.map Prod.snd).getLastD last).abs.length := by
  induction is generalizing last d r with
  | nil =>
    simp only [backLoop] at h
    injection h with h
    injection h with h1 h2
    subst h1
    subst h2
    exact ⟨rfl, by simp, by simp, by simp, by simp [hla, hf.length.1]⟩
  | cons i is ih =>
    unfold backLoop at h
    simp only at h
    split at h
    · cases h
    · rename_i st d2 hst
      split at h
      · cases h
      · rename_i r' d3 hr
        injection h with h
        injection h with h1 h2
        subst h1
        subst h2
        obtain ⟨g1, g2, g3, g4, -⟩ := optStep_good hsens (hf.delete _) hst
        obtain ⟨e1, e2, e3, e4, e5⟩ := ih g1 g2 (g3.trans g4.symm) hr
        have hdel : st.abs = delete last.abs (last.sorted.drop i) := by rw [g3, hla]
        refine ⟨by simp [e1], ?_, ?_, ?_, ?_⟩
        · intro p hp
          rcases List.mem_cons.mp hp with rfl | hp
          · exact g1
          · exact e2 p hp
        · rw [List.map_cons, List.isChain_cons_cons]
          exact ⟨removed_of_delete hg.2.1 hg.2.2.1 hg.2.2.2.1 i hdel, e3⟩
        · rw [List.isChain_cons_cons]
          refine ⟨?_, ?_⟩
          · simp only
            rw [hdel, hg.2.2.1, length_delete_drop _ _ hg.2.1]
          · cases r' with
            | nil => simp
            | cons b bs =>
              rw [List.isChain_cons_cons] at e4 ⊢
              exact e4
        · rw [e5]
          cases r' with
          | nil => simp
          | cons b bs =>
            simp only [List.map_cons, List.getLastD_eq_getLast?]
            rw [List.getLast?_cons_cons, List.getLast?_eq_some_getLast (List.cons_ne_nil _ _)]
            rfl

theorem backward_spec {opt : List τ → List ω → List ω} {sens : List τ → List υ → List ω → List ℝ}
    (hsens : ∀ a b c, (sens a b c).length = a.length) {lo hi : ℕ} {train : List τ} {test : List υ} {width : List ω}
    (htest : test.length = train.length) {st : Step τ υ ω} {r : List (ℕ × Step τ υ ω)} {d' : Data τ υ ω}
    (h : backward opt sens lo hi train test width = .ok (st, r, d')) :
    Good train test st ∧ st.abs = List.range train.length ∧ r.map Prod.fst = (List.range' lo (hi - lo)).reverse ∧
      (∀ p ∈ r, Good train test p.2) ∧ List.IsChain Removed (st :: r.map Prod.snd) ∧
      List.IsChain (fun a b : ℕ × Step τ υ ω => b.2.abs.length = min b.1 a.2.abs.length) ((0, st) :: r) ∧
      d'.train.length = ((r.map Prod.snd).getLastD st).abs.length := by
  unfold backward at h
  split at h
  · cases h
  · rename_i st0 d hst
    split at h
    · cases h
    · rename_i r0 d0 hr
      injection h with h
      injection h with h1 h2
      injection h2 with h2 h3
      subst h1
      subst h2
      subst h3
      have hmap : ∀ {α : Type} (l : List α), l.map some = (List.range l.length).map (l[·]?) := by
        intro α l
        apply List.ext_getElem
        · simp
        · intro i h1 h2
          simp at h1
          simp [h1]
      have hf : Fits train test (⟨train, test, width, List.range train.length⟩ : Data τ υ ω) :=
        ⟨List.pairwise_lt_range, fun a ha => List.mem_range.mp ha, hmap train, htest ▸ hmap test⟩
      obtain ⟨g1, g2, g3, g4, -⟩ := optStep_good hsens hf hst
      obtain ⟨e1, e2, e3, e4, e5⟩ := backLoop_spec hsens _ g1 g2 (g3.trans g4.symm) hr
      exact ⟨g1, g3, e1, e2, e3, e4, e5⟩

/-- C183: the results of `backward_selection` are filed under the number of features kept: `i` features (all, if there
are fewer); and `abs_index` tells which: the columns of training and test data the model was trained with are those columns
of the data of the user. -/
theorem C183_features {opt : List τ → List ω → List ω} {sens : List τ → List υ → List ω → List ℝ}
    (hsens : ∀ a b c, (sens a b c).length = a.length) {lo hi : ℕ} {train : List τ} {test : List υ} {width : List ω}
    (htest : test.length = train.length) {st : Step τ υ ω} {r : List (ℕ × Step τ υ ω)} {d' : Data τ υ ω}
    (h : backward opt sens lo hi train test width = .ok (st, r, d')) :
    r.map Prod.fst = (List.range' lo (hi - lo)).reverse ∧
      ∀ p ∈ r, p.2.features = min p.1 train.length ∧ p.2.abs.length = min p.1 train.length ∧
        p.2.abs.Pairwise (· < ·) ∧ (∀ a ∈ p.2.abs, a < train.length) ∧
        p.2.train.map some = p.2.abs.map (train[·]?) ∧ p.2.test.map some = p.2.abs.map (test[·]?) := by
  obtain ⟨-, hst, hkeys, hgood, -, hchain, -⟩ := backward_spec hsens htest h
  refine ⟨hkeys, ?_⟩
  have hdesc : (r.map Prod.fst).Pairwise (· > ·) := by
    rw [hkeys, List.pairwise_reverse]
    exact List.pairwise_lt_range'
  have hlen : ∀ p ∈ r, p.2.abs.length = min p.1 train.length := by
    have hst' : st.abs.length = train.length := by rw [hst, List.length_range]
    have key : ∀ (r : List (ℕ × Step τ υ ω)) (a : ℕ × Step τ υ ω), List.IsChain
        (fun a b : ℕ × Step τ υ ω => b.2.abs.length = min b.1 a.2.abs.length) (a :: r) →
        (r.map Prod.fst).Pairwise (· > ·) → (∀ b ∈ r, min b.1 a.2.abs.length = min b.1 train.length) →
        ∀ p ∈ r, p.2.abs.length = min p.1 train.length := by
      intro r
      induction r with
      | nil => simp
      | cons b r ih =>
        intro a hc hd hmin p hp
        rw [List.isChain_cons_cons] at hc
        rw [List.map_cons, List.pairwise_cons] at hd
        have hb : b.2.abs.length = min b.1 train.length := hc.1.trans (hmin b (by simp))
        rcases List.mem_cons.mp hp with rfl | hp
        · exact hb
        · refine ih b hc.2 hd.2 (fun c hcm => ?_) p hp
          have := hd.1 c.1 (List.mem_map_of_mem hcm)
          rw [hb]
          omega
    refine key r (0, st) hchain hdesc fun b _ => ?_
    simp only [hst']
  intro p hp
  obtain ⟨g1, g2, g3, g4, g5, g6, g7⟩ := hgood p hp
  exact ⟨g1.trans (hlen p hp), hlen p hp, g4, g5, g6, g7⟩

/-- C183: from step to step features only go, and those that go are no more sensitive, in the model before, than those
that stay. -/
theorem C183_least_sensitive {opt : List τ → List ω → List ω} {sens : List τ → List υ → List ω → List ℝ}
    (hsens : ∀ a b c, (sens a b c).length = a.length) {lo hi : ℕ} {train : List τ} {test : List υ} {width : List ω}
    (htest : test.length = train.length) {st : Step τ υ ω} {r : List (ℕ × Step τ υ ω)} {d' : Data τ υ ω}
    (h : backward opt sens lo hi train test width = .ok (st, r, d')) :
    List.IsChain (fun a b : Step τ υ ω => b.abs.Sublist a.abs ∧
      ∀ p p' x x' : ℕ, a.abs[p]? = some x → a.abs[p']? = some x' → x ∈ b.abs → x' ∉ b.abs →
        ∃ v v', a.sens[p]? = some v ∧ a.sens[p']? = some v' ∧ v' ≤ v) (st :: r.map Prod.snd) :=
  (backward_spec hsens htest h).2.2.2.2.1

theorem delete_zip {α β : Type} (l : List α) (m : List β) (h : m.length = l.length) (idx : List ℕ) :
    (delete l idx).zip (delete m idx) = delete (l.zip m) idx ∧ (delete m idx).length = (delete l idx).length := by
  have e1 : l = (l.zip m).map Prod.fst := by rw [List.map_fst_zip (by omega)]
  have e2 : m = (l.zip m).map Prod.snd := by rw [List.map_snd_zip (by omega)]
  generalize hz : l.zip m = z at e1 e2
  subst e1
  subst e2
  constructor
  · rw [delete_map, delete_map, List.zip_map']
    simp
  · rw [delete_map, delete_map, List.length_map, List.length_map]

/-- The second step starts with the widths of the first for the features it keeps. -/
def Carries (opt : List τ → List ω → List ω) (a b : Step τ υ ω) : Prop :=
  ∃ w, w.length = b.abs.length ∧ (b.abs.zip w).Sublist (a.abs.zip a.width) ∧ b.width = opt b.train w

theorem backLoop_widths {opt : List τ → List ω → List ω} {sens : List τ → List υ → List ω → List ℝ}
    (hopt : ∀ a w, (opt a w).length = w.length) (is : List ℕ) {last : Step τ υ ω} {d d' : Data τ υ ω} {r : List (ℕ × Step τ υ ω)}
    (hla : last.abs = d.index) (hlw : last.width = d.width) (hl : last.width.length = last.abs.length)
    (h : backLoop opt sens is last d = .ok (r, d')) :
    List.IsChain (Carries opt) (last :: r.map Prod.snd) ∧ ∀ p ∈ r, p.2.sens = sens p.2.train p.2.test p.2.width := by
  induction is generalizing last d r with
  | nil =>
    simp only [backLoop] at h
    injection h with h
    injection h with h1 h2
    subst h1
    simp
  | cons i is ih =>
    unfold backLoop at h
    simp only at h
    split at h
    · cases h
    · rename_i st d2 hst
      split at h
      · cases h
      · rename_i r' d3 hr
        injection h with h
        injection h with h1 h2
        subst h1
        subst h2
        have hst' : st.abs = delete d.index (last.sorted.drop i) ∧ d2.index = st.abs ∧ d2.width = st.width ∧
            st.width = opt st.train (delete d.width (last.sorted.drop i)) ∧ st.sens = sens st.train st.test st.width := by
          unfold optStep at hst
          simp only at hst
          split at hst
          · cases hst
          · injection hst with hst
            injection hst with e1 e2
            subst e1
            subst e2
            exact ⟨rfl, rfl, rfl, rfl, rfl⟩
        obtain ⟨f1, f2, f3, f4, f5⟩ := hst'
        obtain ⟨z1, z2⟩ := delete_zip d.index d.width (by rw [← hla, ← hlw, hl]) (last.sorted.drop i)
        obtain ⟨c1, c2⟩ := ih f2.symm f3.symm (by rw [f4, hopt, z2, f1]) hr
        refine ⟨?_, ?_⟩
        · rw [List.map_cons, List.isChain_cons_cons]
          refine ⟨⟨delete d.width (last.sorted.drop i), by rw [z2, f1], ?_, f4⟩, c1⟩
          rw [f1, z1, hla, hlw]
          exact delete_sublist _ _
        · intro p hp
          rcases List.mem_cons.mp hp with rfl | hp
          · exact f5
          · exact c2 p hp

/-- C183: the widths: the first model is optimised from the widths of the user, every later one from the optimised widths of the model
before for the features it keeps; the sensitivities of a step are those of its features with its optimised widths. -/
theorem C183_widths {opt : List τ → List ω → List ω} {sens : List τ → List υ → List ω → List ℝ}
    (hopt : ∀ a w, (opt a w).length = w.length) {lo hi : ℕ} {train : List τ} {test : List υ} {width : List ω}
    (hw : width.length = train.length) {st : Step τ υ ω} {r : List (ℕ × Step τ υ ω)} {d' : Data τ υ ω}
    (h : backward opt sens lo hi train test width = .ok (st, r, d')) :
    st.width = opt train width ∧ st.sens = sens train test st.width ∧
      (∀ p ∈ r, p.2.sens = sens p.2.train p.2.test p.2.width) ∧
      List.IsChain (fun a b : Step τ υ ω => ∃ w, w.length = b.abs.length ∧ (b.abs.zip w).Sublist (a.abs.zip a.width) ∧
        b.width = opt b.train w) (st :: r.map Prod.snd) := by
  unfold backward at h
  split at h
  · cases h
  · rename_i st0 d hst
    split at h
    · cases h
    · rename_i r0 d0 hr
      injection h with h
      injection h with h1 h2
      injection h2 with h2 h3
      subst h1
      subst h2
      unfold optStep at hst
      simp only at hst
      split at hst
      · cases hst
      · injection hst with hst
        injection hst with e1 e2
        subst e1
        subst e2
        obtain ⟨c1, c2⟩ := backLoop_widths hopt _ rfl rfl (by simp [hopt, hw]) hr
        exact ⟨rfl, rfl, c2, c1⟩

theorem backLoop_ok {opt : List τ → List ω → List ω} {sens : List τ → List υ → List ω → List ℝ}
    (hsens : ∀ a b c, (sens a b c).length = a.length) {train : List τ} {test : List υ} (is : List ℕ)
    (his : ∀ i ∈ is, 0 < i) {last : Step τ υ ω} {d : Data τ υ ω} (hg : Good train test last)
    (hf : Fits train test d) (hla : last.abs = d.index) (hne : d.index ≠ []) :
    ∃ r d', backLoop opt sens is last d = .ok (r, d') := by
  induction is generalizing last d with
  | nil => exact ⟨_, _, rfl⟩
  | cons i is ih =>
    have hlen : (delete d.index (last.sorted.drop i)).length = min i d.index.length := by
      rw [hg.2.2.1]
      exact length_delete_drop _ _ (by rw [hg.2.1, hla]) i
    have hpos : 0 < d.index.length := List.length_pos_of_ne_nil hne
    have hi := his i (by simp)
    have hf' := hf.delete (last.sorted.drop i)
    obtain ⟨st, d2, hst⟩ : ∃ st d2, optStep opt sens (⟨delete d.train (last.sorted.drop i),
        delete d.test (last.sorted.drop i), delete d.width (last.sorted.drop i),
        delete d.index (last.sorted.drop i)⟩ : Data τ υ ω) = .ok (st, d2) := by
      unfold optStep
      simp only
      rw [if_neg]
      · exact ⟨_, _, rfl⟩
      · intro hc
        have := congrArg List.length hc
        rw [hsens] at this
        have h2 := hf'.length.1
        simp only at h2
        rw [h2, hlen, List.length_nil] at this
        omega
    obtain ⟨g1, g2, g3, g4, -⟩ := optStep_good hsens hf' hst
    obtain ⟨r, d3, hr⟩ := ih (fun j hj => his j (by simp [hj])) g1 g2 (g3.trans g4.symm) (by
      rw [g4]
      intro hc
      have := congrArg List.length hc
      simp only [hlen, List.length_nil] at this
      omega)
    exact ⟨(i, st) :: r, d3, by unfold backLoop; simp only; rw [hst]; simp only; rw [hr]⟩

/-- C183: the selection runs through for any data with at least one feature, if at least one feature is to be kept; to
keep none ends in an IndexError. -/
theorem C183_no_error {opt : List τ → List ω → List ω} {sens : List τ → List υ → List ω → List ℝ}
    (hsens : ∀ a b c, (sens a b c).length = a.length) (lo hi : ℕ) {train : List τ} {test : List υ} (width : List ω)
    (htest : test.length = train.length) (hne : train ≠ []) :
    (0 < lo → ∃ st r d', backward opt sens lo hi train test width = .ok (st, r, d')) ∧
      (lo = 0 → 0 < hi → backward opt sens lo hi train test width = .error .index) := by
  have hmap : ∀ {α : Type} (l : List α), l.map some = (List.range l.length).map (l[·]?) := by
    intro α l
    apply List.ext_getElem
    · simp
    · intro i h1 h2
      simp at h1
      simp [h1]
  have hf : Fits train test (⟨train, test, width, List.range train.length⟩ : Data τ υ ω) :=
    ⟨List.pairwise_lt_range, fun a ha => List.mem_range.mp ha, hmap train, htest ▸ hmap test⟩
  have hlt : 0 < train.length := List.length_pos_of_ne_nil hne
  obtain ⟨st, d, hst⟩ : ∃ st d, optStep opt sens (⟨train, test, width, List.range train.length⟩ : Data τ υ ω) = .ok (st, d) := by
    unfold optStep
    simp only
    rw [if_neg]
    · exact ⟨_, _, rfl⟩
    · intro hc
      have := congrArg List.length hc
      rw [hsens] at this
      simp at this
      exact hne this
  obtain ⟨g1, g2, g3, g4, -⟩ := optStep_good hsens hf hst
  have hdne : d.index ≠ [] := by
    rw [g4]
    intro hc
    have := congrArg List.length hc
    simp at this
    exact hne this
  constructor
  · intro hlo
    obtain ⟨r, d3, hr⟩ := backLoop_ok hsens ((List.range' lo (hi - lo)).reverse) (by
      intro i hi
      rw [List.mem_reverse, List.mem_range'_1] at hi
      omega) g1 g2 (g3.trans g4.symm) hdne
    exact ⟨st, r, d3, by unfold backward; rw [hst]; simp only; rw [hr]⟩
  · rintro rfl hhi
    have key : ∀ (is : List ℕ) (last : Step τ υ ω) (d : Data τ υ ω), Good train test last → Fits train test d →
        last.abs = d.index → d.index ≠ [] → (∀ i ∈ is, 0 < i) → backLoop opt sens (is ++ [0]) last d = .error .index := by
      intro is
      induction is with
      | nil =>
        intro last d hg hf hla hne _
        have hlen : (delete d.index (last.sorted.drop 0)).length = 0 := by
          rw [hg.2.2.1, length_delete_drop _ _ (by rw [hg.2.1, hla])]
          simp
        have h2 := (hf.delete (last.sorted.drop 0)).length.1
        simp only at h2
        rw [hlen] at h2
        have h3 : sens (delete d.train (last.sorted.drop 0)) (delete d.test (last.sorted.drop 0))
            (opt (delete d.train (last.sorted.drop 0)) (delete d.width (last.sorted.drop 0))) = [] :=
          List.eq_nil_of_length_eq_zero (by rw [hsens, h2])
        rw [List.nil_append]
        unfold backLoop optStep
        simp only
        rw [if_pos h3]
      | cons i is ih =>
        intro last d hg hf hla hne his
        obtain ⟨r, d3, hr⟩ := backLoop_ok (opt := opt) hsens [i] (by simpa using his i (by simp)) hg hf hla hne
        unfold backLoop at hr
        simp only at hr
        split at hr
        · cases hr
        · rename_i st d2 hst
          obtain ⟨g1, g2, g3, g4, -⟩ := optStep_good hsens (hf.delete _) hst
          have hd2 : d2.index ≠ [] := by
            rw [g4]
            intro hc
            have hlen : (delete d.index (last.sorted.drop i)).length = min i d.index.length := by
              rw [hg.2.2.1]
              exact length_delete_drop _ _ (by rw [hg.2.1, hla]) i
            have hpos : 0 < d.index.length := List.length_pos_of_ne_nil hne
            have := congrArg List.length hc
            have hi := his i (by simp)
            simp only [hlen, List.length_nil] at this
            omega
          have := ih st d2 g1 g2 (g3.trans g4.symm) hd2 (fun j hj => his j (by simp [hj]))
          rw [List.cons_append]
          unfold backLoop
          simp only
          rw [hst]
          simp only
          rw [this]
    have hrange : (List.range' 0 (hi - 0)).reverse = (List.range' 1 (hi - 1)).reverse ++ [0] := by
      obtain ⟨k, rfl⟩ : ∃ k, hi = k + 1 := ⟨hi - 1, by omega⟩
      simp [List.range'_succ]
    unfold backward
    rw [hst]
    simp only
    rw [hrange, key _ st d g1 g2 (g3.trans g4.symm) hdne (by
      intro i hi
      rw [List.mem_reverse, List.mem_range'_1] at hi
      omega)]

/-- Three features, each as sensitive as its value. -/
example : ∃ st r d', backward (υ := ℝ) (ω := ℝ) (fun _ w => w) (fun a _ _ => a) 1 3 [2, 5, 3] [2, 5, 3] [1, 1, 1] = .ok (st, r, d') :=
  (C183_no_error (fun _ _ _ => rfl) 1 3 [1, 1, 1] rfl (by simp)).1 (by norm_num)

example : ∃ st r d', backward (υ := ℝ) (ω := ℝ) (fun _ w => w.map (· + 1)) (fun a _ _ => a) 1 3 [2, 5, 3] [2, 5, 3] [1, 2, 3] = .ok (st, r, d') ∧
    st.width = [1, 2, 3].map (· + 1) := by
  obtain ⟨st, r, d', h⟩ := (C183_no_error (υ := ℝ) (ω := ℝ) (opt := fun _ w => w.map (· + 1)) (sens := fun a _ _ => a) (train := [2, 5, 3]) (test := [2, 5, 3]) (fun _ _ _ => rfl) 1 3 [1, 2, 3] rfl (by simp)).1 (by norm_num)
  have hopt : ∀ (a : List ℝ) (w : List ℝ), ((fun (_ : List ℝ) (w : List ℝ) => w.map (· + 1)) a w).length = w.length := fun a w => by simp
  have hw := C183_widths hopt (by simp) h
  exact ⟨st, r, d', h, hw.1⟩

/-- C183 fails for a second run with the same object: it starts with the features the first run has left, and numbers
those from 0, so its `abs_index` does not refer to the data of the user. -/
theorem C183_second_run_violated {opt : List τ → List ω → List ω} {sens : List τ → List υ → List ω → List ℝ}
    (hsens : ∀ a b c, (sens a b c).length = a.length) {hi : ℕ} {train : List τ} {test : List υ} {width : List ω}
    (htest : test.length = train.length) (hhi : 1 < hi) {st : Step τ υ ω} {r : List (ℕ × Step τ υ ω)} {d' : Data τ υ ω}
    (h : backward opt sens 1 hi train test width = .ok (st, r, d')) {lo' hi' : ℕ} {st' : Step τ υ ω}
    {r' : List (ℕ × Step τ υ ω)} {d'' : Data τ υ ω}
    (h' : backward opt sens lo' hi' d'.train d'.test d'.width = .ok (st', r', d'')) : st'.abs.length ≤ 1 ∧ st'.features ≤ 1 := by
  obtain ⟨hkeys, hall⟩ := C183_features hsens htest h
  obtain ⟨-, -, -, -, -, -, hlast⟩ := backward_spec hsens htest h
  have hne : r ≠ [] := by
    rintro rfl
    have := congrArg List.length hkeys
    simp at this
    omega
  have hl : ((r.map Prod.snd).getLastD st) = (r.getLast hne).2 := by
    rw [List.getLastD_eq_getLast?, List.getLast?_map, List.getLast?_eq_some_getLast hne]
    rfl
  have hlk : (r.getLast hne).1 = 1 := by
    have h1 : (r.map Prod.fst).getLast (by simpa using hne) = (r.getLast hne).1 := by rw [List.getLast_map]
    rw [← h1]
    have h2 : (r.map Prod.fst).getLast (by simpa using hne) = ((List.range' 1 (hi - 1)).reverse).getLast
        (by rw [← hkeys]; simpa using hne) := by
      congr 1
    rw [h2, List.getLast_reverse]
    obtain ⟨k, hk⟩ : ∃ k, hi - 1 = k + 1 := ⟨hi - 2, by omega⟩
    simp [hk, List.range'_succ]
  have hd : d'.train.length ≤ 1 := by
    rw [hlast, hl, (hall _ (List.getLast_mem hne)).2.1, hlk]
    exact min_le_left _ _
  unfold backward at h'
  split at h'
  · cases h'
  · rename_i s0 d0 hs0
    split at h'
    · cases h'
    · injection h' with h'
      injection h' with h1 h2
      subst h1
      unfold optStep at hs0
      simp only at hs0
      split at hs0
      · cases hs0
      · injection hs0 with hs0
        injection hs0 with e1 e2
        subst e1
        simpa using hd

/-! ### The sensitivities -/

/-- C183: sensitivities are not negative. -/
theorem C183_nonneg (p q alpha : List ℝ) (ktb : List (List ℝ)) (w : ℝ) : 0 ≤ featureSensitivity p q alpha ktb w := by
  unfold featureSensitivity
  apply List.sum_nonneg
  intro x hx
  obtain ⟨qj, -, rfl⟩ := List.mem_map.mp hx
  positivity

/-- C183: a feature with the same value in all training and test points has sensitivity 0, the least there is. -/
theorem C183_constant (c : ℝ) (p q alpha : List ℝ) (ktb : List (List ℝ)) (w : ℝ) (hp : ∀ x ∈ p, x = c)
    (hq : ∀ x ∈ q, x = c) : featureSensitivity p q alpha ktb w = 0 := by
  unfold featureSensitivity
  apply List.sum_eq_zero
  intro x hx
  obtain ⟨qj, hqj, rfl⟩ := List.mem_map.mp hx
  have : (List.zipWith (fun (x : ℝ × ℝ) (kt : List ℝ) => (kt.map fun k => x.2 * (x.1 - qj) / w * k).sum)
      (p.zip alpha) ktb).sum = 0 := by
    apply List.sum_eq_zero
    intro y hy
    obtain ⟨i, hi, rfl⟩ := List.getElem_of_mem hy
    rw [List.getElem_zipWith]
    apply List.sum_eq_zero
    intro z hz
    obtain ⟨k, -, rfl⟩ := List.mem_map.mp hz
    have h1 : ((p.zip alpha)[i]'(by simp at hi ⊢; omega)).1 = c := by
      rw [List.getElem_zip]
      exact hp _ (List.getElem_mem _)
    have h2 := hq qj hqj
    rw [h1, show c - qj = 0 by rw [h2]; ring]
    simp
  rw [this]
  simp

/-- C183: the sensitivity does not change when the feature is shifted. -/
theorem C183_shift (c : ℝ) (p q alpha : List ℝ) (ktb : List (List ℝ)) (w : ℝ) :
    featureSensitivity (p.map (· + c)) (q.map (· + c)) alpha ktb w = featureSensitivity p q alpha ktb w := by
  unfold featureSensitivity
  rw [List.map_map, List.length_map]
  congr 1
  refine List.map_congr_left fun qj _ => ?_
  simp only [Function.comp_apply]
  congr 3
  rw [List.zip_map_left, List.zipWith_map_left]
  congr 1
  funext x kt
  simp

/-- C183 fails for the claim that this is the sensitivity of the predicted mean: the covariances between test and training
points do not enter.  For one training point at 0 with target `y`, a gaussian kernel of width `w` and regularisation
`g`, take a test point far away: the slope of the prediction is as small as wanted, the sensitivity as large as wanted. -/
theorem C183_far_violated (y w g : ℝ) (hy : y ≠ 0) (hw : 0 < w) (ε : ℝ) (hε : 0 < ε) :
    ∃ q m', HasDerivAt (fun x : ℝ => Real.exp (-x ^ 2 / (2 * w ^ 2)) * (y / (1 + g ^ 2))) m' q ∧ |m'| ≤ ε ∧
      1 / ε ≤ featureSensitivity [0] [q] [y / (1 + g ^ 2)] [[1 + g ^ 2]] w := by
  set a := y / (1 + g ^ 2) with ha
  have hg : (0 : ℝ) < 1 + g ^ 2 := by positivity
  have hay : a * (1 + g ^ 2) = y := by rw [ha]; field_simp
  -- sensitivity is (y q / w)²
  have hs : ∀ q : ℝ, featureSensitivity [0] [q] [a] [[1 + g ^ 2]] w = (y * q / w) ^ 2 := by
    intro q
    have : featureSensitivity [0] [q] [a] [[1 + g ^ 2]] w = (a * (0 - q) / w * (1 + g ^ 2)) ^ 2 := by
      simp [featureSensitivity]
    rw [this, ← hay]
    ring
  have hd : ∀ q : ℝ, HasDerivAt (fun x : ℝ => Real.exp (-x ^ 2 / (2 * w ^ 2)) * a)
      (Real.exp (-q ^ 2 / (2 * w ^ 2)) * (-(2 * q) / (2 * w ^ 2)) * a) q := by
    intro q
    have h1 : HasDerivAt (fun x : ℝ => -x ^ 2 / (2 * w ^ 2)) (-(2 * q) / (2 * w ^ 2)) q := by
      have := ((hasDerivAt_pow 2 q).neg).div_const (2 * w ^ 2)
      simpa using this
    exact (h1.exp).mul_const a
  set q : ℝ := 2 * |a| / ε + w / (|y| * ε) + w / |y| + 1 with hq
  have hyp : 0 < |y| := abs_pos.mpr hy
  have hq1 : 2 * |a| / ε ≤ q := by
    have : 0 ≤ w / (|y| * ε) := by positivity
    have : 0 ≤ w / |y| := by positivity
    rw [hq]; linarith
  have hq0 : 0 < q := by
    have : 0 ≤ 2 * |a| / ε := by positivity
    have : 0 ≤ w / (|y| * ε) := by positivity
    have : 0 ≤ w / |y| := by positivity
    rw [hq]; linarith
  have hq2 : w / (|y| * ε) + w / |y| ≤ q := by
    have : 0 ≤ 2 * |a| / ε := by positivity
    rw [hq]; linarith
  refine ⟨q, _, hd q, ?_, ?_⟩
  · have he : Real.exp (-q ^ 2 / (2 * w ^ 2)) ≤ 2 * w ^ 2 / q ^ 2 := by
      have h1 : q ^ 2 / (2 * w ^ 2) ≤ Real.exp (q ^ 2 / (2 * w ^ 2)) :=
        le_trans (by linarith) (Real.add_one_le_exp (q ^ 2 / (2 * w ^ 2)))
      have h2 : -q ^ 2 / (2 * w ^ 2) = -(q ^ 2 / (2 * w ^ 2)) := by ring
      rw [h2, Real.exp_neg]
      have h3 : 0 < q ^ 2 / (2 * w ^ 2) := by positivity
      calc (Real.exp (q ^ 2 / (2 * w ^ 2)))⁻¹ ≤ (q ^ 2 / (2 * w ^ 2))⁻¹ := by gcongr
        _ = 2 * w ^ 2 / q ^ 2 := by rw [inv_div]
    rw [abs_mul, abs_mul, abs_of_pos (Real.exp_pos _), abs_div, abs_neg, abs_of_pos (by positivity : (0 : ℝ) < 2 * q),
      abs_of_pos (by positivity : (0 : ℝ) < 2 * w ^ 2)]
    calc Real.exp (-q ^ 2 / (2 * w ^ 2)) * (2 * q / (2 * w ^ 2)) * |a|
        ≤ 2 * w ^ 2 / q ^ 2 * (2 * q / (2 * w ^ 2)) * |a| := by gcongr
      _ = 2 * |a| / q := by field_simp
      _ ≤ ε := by
        rw [div_le_iff₀ hq0]
        have := (div_le_iff₀ hε).mp hq1
        linarith
  · rw [hs]
    have h1 : 1 / ε + 1 ≤ |y| * q / w := by
      rw [le_div_iff₀ hw]
      have h2 := mul_le_mul_of_nonneg_left hq2 hyp.le
      have h3 : |y| * (w / (|y| * ε) + w / |y|) = (1 / ε + 1) * w := by field_simp
      rw [h3] at h2
      exact h2
    have h0 : 0 < 1 / ε := by positivity
    have h4 : (y * q / w) ^ 2 = (|y| * q / w) ^ 2 := by
      rw [div_pow, mul_pow, div_pow, mul_pow, sq_abs]
    rw [h4]
    nlinarith

/-- One training point, one feature, two test points. -/
example : featureSensitivity [1] [2, 3] [2] [[1]] 1 = 20 := by
  simp [featureSensitivity]
  norm_num

end CatLearn.Sensitivity
