import Verif.Model.GeneralGP
import Verif.Props.Estimator
import Mathlib.Tactic.Linarith
import Mathlib.Tactic.FieldSimp

/-!
# The general Gaussian process (C235, C236)
-/

namespace CatLearn.Props

open CatLearn CatLearn.Clean CatLearn.Spec CatLearn.Est

/-- Other units for the features of a row: the number `x` of feature `j` becomes `a j * x + b j`. -/
noncomputable def inUnits (u : List (ℝ × ℝ)) (row : List (Option ℝ)) : List (Option ℝ) :=
  List.zipWith (fun p x => x.map fun y => p.1 * y + p.2) u row

/-- A column is informative: it varies by more than the tolerance. -/
def Informative (v : List ℝ) : Prop := 1e-8 + 1e-5 * Real.sqrt (variance v) < Real.sqrt (variance v)

private theorem numbers_map (v : List ℝ) : numbers (v.map some) = some v := by
  induction v with
  | nil => rfl
  | cons a v ih => simp [numbers, ih]

private theorem numberRows_map (Z : List (List ℝ)) : numberRows (Z.map (·.map some)) = some Z := by
  unfold numberRows
  induction Z with
  | nil => rfl
  | cons z Z ih => rw [List.map_cons, List.mapM_cons, numbers_map, ih]; rfl

private theorem width_eq (index : List Bool) (sc) : width ⟨some index, sc⟩ = index.count true := by
  simp only [width]
  have h := boolIndex_eq index index rfl
  rw [← keep_length index index rfl, ← h]
  unfold boolIndex
  have : ∀ l : List Nat, (∀ j ∈ l, j < index.length) → l.length = (l.filterMap fun j => index[j]?).length := by
    intro l
    induction l with
    | nil => simp
    | cons j l ih =>
      intro hl
      have hj := hl j (by simp)
      simp only [List.filterMap_cons, List.getElem?_eq_getElem hj, List.length_cons]
      rw [← ih fun i hi => hl i (by simp [hi])]
  apply this
  intro j hj
  unfold truePos at hj
  simpa using (List.mem_filter.mp hj).1

private theorem keep_inUnits (index : List Bool) (u : List (ℝ × ℝ)) (row : List (Option ℝ))
    (hu : u.length = index.length) (hr : row.length = index.length) :
    keep index (inUnits u row) = inUnits (keep index u) (keep index row) := by
  unfold inUnits
  induction index generalizing u row with
  | nil => simp at hu hr; subst hu; subst hr; simp [keep]
  | cons b index ih =>
    cases u with
    | nil => simp at hu
    | cons p u =>
      cases row with
      | nil => simp at hr
      | cons x row =>
        have h := ih u row (by simpa using hu) (by simpa using hr)
        simp only [keep, List.zip_cons_cons, List.filterMap_cons, List.zipWith_cons_cons] at h ⊢
        cases b <;> simp [h]

private theorem bool_ext (d : Nat) (a b : List Bool) (ha : a.length = d) (hb : b.length = d)
    (h : ∀ j < d, (a[j]? = some true ↔ b[j]? = some true)) : a = b := by
  apply List.ext_getElem (by omega)
  intro j h1 h2
  have := h j (by omega)
  rw [List.getElem?_eq_getElem h1, List.getElem?_eq_getElem h2, Option.some.injEq, Option.some.injEq] at this
  exact Bool.eq_iff_iff.mpr this

private theorem sum_affine (v : List ℝ) (α β : ℝ) :
    (v.map fun x => α * x + β).sum = α * v.sum + v.length * β := by
  induction v with
  | nil => simp
  | cons a v ih => simp only [List.map_cons, List.sum_cons, ih, List.length_cons]; push_cast; ring

private theorem sum_sq_mul (v : List ℝ) (α : ℝ) :
    (v.map fun x => (α * x) ^ 2).sum = α ^ 2 * (v.map fun x => x ^ 2).sum := by
  induction v with
  | nil => simp
  | cons a v ih => simp only [List.map_cons, List.sum_cons, ih]; ring

/-- Of two columns with mean 0 and variance 1 that are related by an increasing affine map, the map is the identity. -/
private theorem affine_unique (v : List ℝ) (n : Nat) (hn : 0 < n) (hl : v.length = n) (α β : ℝ) (hα : 0 < α)
    (h0 : v.sum = 0) (h2 : (v.map fun x => x ^ 2).sum = (n : ℝ)) (h0' : (v.map fun x => α * x + β).sum = 0)
    (h2' : ((v.map fun x => α * x + β).map fun x => x ^ 2).sum = (n : ℝ)) : α = 1 ∧ β = 0 := by
  have hn' : (n : ℝ) ≠ 0 := by positivity
  rw [sum_affine, h0, hl] at h0'
  have hb : β = 0 := by
    rcases mul_eq_zero.mp (by linarith : (n : ℝ) * β = 0) with h | h
    · exact absurd h hn'
    · exact h
  subst hb
  rw [List.map_map] at h2'
  have : ((v.map ((fun x => x ^ 2) ∘ fun x => α * x + 0))).sum = α ^ 2 * n := by
    rw [← h2, ← sum_sq_mul]; simp [Function.comp_def]
  rw [this] at h2'
  have h1 : α ^ 2 = 1 := mul_right_cancel₀ hn' (by linarith)
  refine ⟨?_, rfl⟩
  nlinarith

/-- The processed data and the attributes in two systems of units. -/
private theorem units_process (d : Nat) (X : Mat) (hX : ∀ r ∈ X, r.length = d) (hne : X ≠ []) (t : List (Option ℝ))
    (ht : t.length = X.length) (htn : ∀ x ∈ t, x.isSome) (u : List (ℝ × ℝ)) (hu : u.length = d)
    (hpos : ∀ p ∈ u, 0 < p.1)
    (hsame : ∀ (j : Nat) (p : ℝ × ℝ) (v : List ℝ), u[j]? = some p →
      X.map (fun r => r[j]?) = v.map (fun x => some (some x)) →
      (Informative v ↔ Informative (v.map fun x => p.1 * x + p.2))) :
    ∃ (index : List Bool) (m s m' s' : List ℝ) (Z : List (List ℝ)) (out out' : Processed),
      process true ⟨none, none⟩ d X (some t) none = (⟨some index, some (m.map some, s.map some)⟩, .ok out) ∧
      process true ⟨none, none⟩ d (X.map (inUnits u)) (some t) none =
        (⟨some index, some (m'.map some, s'.map some)⟩, .ok out') ∧
      index.length = d ∧ out.train = Z.map (·.map some) ∧ out'.train = Z.map (·.map some) ∧
      (∀ r : List (Option ℝ), r.length = d →
        affineRow m' s' (keep index (inUnits u r)) = affineRow m s (keep index r)) ∧
      m.length = index.count true ∧ m'.length = index.count true := by
  have hXu : ∀ r ∈ X.map (inUnits u), r.length = d := by
    intro r hr
    obtain ⟨r, hr', rfl⟩ := List.mem_map.mp hr
    simp [inUnits, hX r hr', hu]
  obtain ⟨st, out, index, m, s, Z, a1, rfl, -, a3, a4, a5, a6, a7, a8, -, a9, a10, a11, a12⟩ := process_spec
    ⟨none, none⟩ d X hX hne (some t) (by intro t' h; simp at h; subst h; exact ⟨ht, htn⟩) none (by simp)
  obtain ⟨st', out', index', m', s', Z', b1, rfl, -, b3, b4, b5, b6, b7, b8, -, b9, b10, b11, b12⟩ := process_spec
    ⟨none, none⟩ d (X.map (inUnits u)) hXu (by simpa using hne) (some t)
    (by intro t' h; simp at h; subst h; exact ⟨by simpa using ht, htn⟩) none (by simp)
  have hii : index' = index := by
    apply bool_ext d _ _ b3 a3
    intro j hj
    rw [b4 j hj, a4 j hj]
    have hp : u[j]? = some (u[j]'(by omega)) := List.getElem?_eq_getElem (by omega)
    generalize u[j]'(by omega) = p at hp
    have hp0 : p.1 ≠ 0 := (hpos p (List.mem_of_getElem? hp)).ne'
    have hcol : (X.map (inUnits u)).map (fun r => r[j]?) =
        (X.map (fun r => r[j]?)).map (Option.map (Option.map fun y => p.1 * y + p.2)) := by
      rw [List.map_map, List.map_map]
      apply List.map_congr_left
      intro r hr
      have hj' : j < r.length := by rw [hX r hr]; exact hj
      simp only [Function.comp, inUnits, List.getElem?_zipWith, hp, List.getElem?_eq_getElem hj']
      rfl
    rw [hcol]
    constructor
    · rintro ⟨v, e1, e2⟩
      refine ⟨v.map fun x => (x - p.2) / p.1, ?_, ?_⟩
      · have hinj : Function.Injective (Option.map (Option.map fun y => p.1 * y + p.2) :
            Option (Option ℝ) → Option (Option ℝ)) := by
          apply Option.map_injective
          apply Option.map_injective
          intro x y h
          have h' : p.1 * x + p.2 = p.1 * y + p.2 := h
          exact mul_left_cancel₀ hp0 (by linarith)
        apply (List.map_injective_iff.mpr hinj)
        rw [e1, List.map_map, List.map_map]
        apply List.map_congr_left
        intro x _
        simp only [Function.comp, Option.map_some, Option.some.injEq]
        field_simp
        ring
      · refine (hsame j p _ hp ?_).mpr ?_
        · have hinj : Function.Injective (Option.map (Option.map fun y => p.1 * y + p.2) :
            Option (Option ℝ) → Option (Option ℝ)) := by
            apply Option.map_injective
            apply Option.map_injective
            intro x y h
            have h' : p.1 * x + p.2 = p.1 * y + p.2 := h
            exact mul_left_cancel₀ hp0 (by linarith)
          apply (List.map_injective_iff.mpr hinj)
          rw [e1, List.map_map, List.map_map]
          apply List.map_congr_left
          intro x _
          simp only [Function.comp, Option.map_some, Option.some.injEq]
          field_simp
          ring
        · rw [List.map_map]
          have : (v.map ((fun x => p.1 * x + p.2) ∘ fun x => (x - p.2) / p.1)) = v := by
            conv_rhs => rw [← List.map_id v]
            apply List.map_congr_left
            intro x _
            simp only [Function.comp, id]
            field_simp
            ring
          rw [this]
          exact e2
    · rintro ⟨v, e1, e2⟩
      exact ⟨v.map fun x => p.1 * x + p.2, by rw [e1]; simp [Function.comp_def], (hsame j p v hp e1).mp e2⟩
  subst hii
  set k := index'.count true with hk
  set u' := keep index' u with hu'
  have hul : u'.length = k := keep_length _ _ (by omega)
  have hupos : ∀ p ∈ u', 0 < p.1 := by
    intro p hp
    apply hpos
    simp only [hu', keep, List.mem_filterMap] at hp
    obtain ⟨q, h1, h2⟩ := hp
    have := (List.of_mem_zip h1)
    split at h2
    · simp at h2; rw [← h2]; first | exact this.1 | exact this.2
    · simp at h2
  have hnpos : 0 < X.length := List.length_pos_of_ne_nil hne
  have hZn : Z'.length = Z.length := by rw [a10, b10]; simp
  -- entries of the two results
  have hentry : ∀ (n j : Nat) (hn : n < Z.length) (hj : j < k),
      (Z'[n]'(by omega)).getD j 0 = ((u'[j]'(by omega)).1 * s[j]'(by omega) / s'[j]'(by omega)) * (Z[n]).getD j 0 +
        ((u'[j]'(by omega)).1 * m[j]'(by omega) + (u'[j]'(by omega)).2 - m'[j]'(by omega)) / s'[j]'(by omega) := by
    intro n j hn hj
    have hnX : n < X.length := by omega
    have hr := hX X[n] (List.getElem_mem hnX)
    have e1 : (Z[n]).map some = affineRow m s (keep index' X[n]) := by
      have := congrArg (fun l => l[n]?) (a9.symm.trans a8)
      simpa [hn, hnX] using this
    have e2 : (Z'[n]'(by omega)).map some = affineRow m' s' (inUnits u' (keep index' X[n])) := by
      have := congrArg (fun l => l[n]?) (b9.symm.trans b8)
      have h3 : n < Z'.length := by omega
      rw [hu', ← keep_inUnits index' u X[n] (by omega) (by omega)]
      simpa [h3, hnX] using this
    have hkl : (keep index' X[n]).length = k := keep_length _ _ (by omega)
    have l1 : (Z[n]).length = k := a11 _ (List.getElem_mem hn)
    have l2 : (Z'[n]'(by omega)).length = k := b11 _ (List.getElem_mem (by omega))
    have f1 := congrArg (fun l => l[j]?) e1
    have f2 := congrArg (fun l => l[j]?) e2
    simp only [affineRow, inUnits, List.getElem?_map, List.getElem?_zipWith, List.getElem?_eq_getElem (hkl.symm ▸ hj : j < (keep index' X[n]).length),
      List.getElem?_eq_getElem (l1.symm ▸ hj : j < (Z[n]).length),
      List.getElem?_eq_getElem (l2.symm ▸ hj : j < (Z'[n]'(by omega)).length),
      List.getElem?_eq_getElem (hul.symm ▸ hj : j < u'.length),
      List.getElem?_eq_getElem (by simp [a5, a6, hj] : j < (m.zip s).length),
      List.getElem?_eq_getElem (by simp [b5, b6, hj] : j < (m'.zip s').length), List.getElem_zip, Option.map_some] at f1 f2
    rw [List.getD_eq_getElem _ _ (by omega), List.getD_eq_getElem _ _ (by omega)]
    have hs : 0 < s[j]'(by omega) := a7 _ (List.getElem_mem _)
    have hs' : 0 < s'[j]'(by omega) := b7 _ (List.getElem_mem _)
    cases hx : (keep index' X[n])[j]'(by omega) with
    | none => rw [hx] at f1; simp at f1
    | some x =>
      rw [hx] at f1 f2
      simp only [Option.map_some, Option.some.injEq] at f1 f2
      rw [f1, f2]
      field_simp
      ring
  have hpar : ∀ (j : Nat) (hj : j < k), (u'[j]'(by omega)).1 * s[j]'(by omega) = s'[j]'(by omega) ∧
      (u'[j]'(by omega)).1 * m[j]'(by omega) + (u'[j]'(by omega)).2 = m'[j]'(by omega) := by
    intro j hj
    have hs : 0 < s[j]'(by omega) := a7 _ (List.getElem_mem _)
    have hs' : 0 < s'[j]'(by omega) := b7 _ (List.getElem_mem _)
    have hup : 0 < (u'[j]'(by omega)).1 := hupos _ (List.getElem_mem _)
    have hcol : colOf Z' j = (colOf Z j).map fun x => ((u'[j]'(by omega)).1 * s[j]'(by omega) / s'[j]'(by omega)) * x +
        ((u'[j]'(by omega)).1 * m[j]'(by omega) + (u'[j]'(by omega)).2 - m'[j]'(by omega)) / s'[j]'(by omega) := by
      apply List.ext_getElem (by simp [colOf, hZn])
      intro n h1 h2
      have hn : n < Z.length := by simpa [colOf] using h2
      simp only [colOf, List.getElem_map]
      exact hentry n j hn hj
    obtain ⟨c1, c2⟩ := a12 j hj
    obtain ⟨d1, d2⟩ := b12 j hj
    rw [hcol] at d1 d2
    rw [hZn] at d2
    obtain ⟨g1, g2⟩ := affine_unique (colOf Z j) Z.length (by omega) (by simp [colOf]) _ _ (by positivity) c1 c2 d1 d2
    rw [div_eq_one_iff_eq hs'.ne'] at g1
    rcases div_eq_zero_iff.mp g2 with h | h
    · exact ⟨g1, by linarith⟩
    · exact absurd h hs'.ne'
  have hrow : ∀ r : List (Option ℝ), r.length = d →
      affineRow m' s' (keep index' (inUnits u r)) = affineRow m s (keep index' r) := by
    intro r hr
    rw [keep_inUnits index' u r (by omega) (by omega), ← hu']
    have hkl : (keep index' r).length = k := keep_length _ _ (by omega)
    apply List.ext_getElem
    · simp [affineRow, inUnits, hkl, hul, a5, a6, b5, b6]
    intro j h1 h2
    have hj : j < k := by
      simp only [affineRow, List.length_zipWith, List.length_zip, hkl, a5, a6, ← hk] at h2; omega
    obtain ⟨p1, p2⟩ := hpar j hj
    have hs : 0 < s[j]'(by omega) := a7 _ (List.getElem_mem _)
    have hup : 0 < (u'[j]'(by omega)).1 := hupos _ (List.getElem_mem _)
    simp only [affineRow, inUnits, List.getElem_zipWith, List.getElem_zip, Option.map_map]
    congr 1
    funext x
    simp only [Function.comp]
    rw [← p1, ← p2]
    field_simp
    ring
  refine ⟨index', m, s, m', s', Z, out, out', a1, b1, a3, a9, ?_, hrow, a5, b5⟩
  rw [b8, List.map_map, ← a9, a8]
  apply List.map_congr_left
  intro r hr
  exact hrow r (hX r hr)

private theorem scaleRow_affine (m s : List ℝ) (row : List (Option ℝ)) :
    scaleRow (m.map some) (s.map some) row = affineRow m s row := by
  unfold scaleRow affineRow
  have h : (m.map some).zip (s.map some) = (m.zip s).map fun p => (some p.1, some p.2) := by
    rw [List.zip_map]; rfl
  rw [h, List.zipWith_map_right]
  congr 1
  funext x p
  cases x <;> rfl

/-- What `transform` does with attributes left by a successful `process`. -/
private theorem transform_eq (d : Nat) (index : List Bool) (m s : List ℝ) (hi : index.length = d)
    (hm : m.length = index.count true) (T : Mat) (hT : ∀ r ∈ T, r.length = d) :
    transform true ⟨some index, some (m.map some, s.map some)⟩ d T =
      .ok (T.map fun r => affineRow m s (keep index r)) := by
  have hw : (truePos index).length = index.count true := width_eq index none
  simp only [transform, Bool.not_true, Bool.false_eq_true, if_false, hi, ne_eq, not_true_eq_false, hw, List.length_map,
    hm, Except.ok.injEq]
  apply List.map_congr_left
  intro r hr
  rw [scaleRow_affine, boolIndex_eq _ _ (by rw [hi]; exact hT r hr)]

/-- The part of a training after a successful `process`. -/
private theorem trainGP_of_process {G : Type}
    (fit : (k : Nat) → List (List ℝ) → List (Option ℝ) → List (Kernel.RawDict k) → Except PyErr G)
    (smooth : Bool) (dimension : String) (o : General G) (d : Nat) (X : Mat) (t : List (Option ℝ)) (index : List Bool)
    (sc) (out : Processed) (Z : List (List ℝ))
    (h : process true ⟨none, none⟩ d X (some t) none = (⟨some index, sc⟩, .ok out))
    (hZ : out.train = Z.map (·.map some)) :
    trainGP fit true smooth dimension o d X t =
      (⟨some ⟨some index, sc⟩, match makeGP fit smooth dimension (index.count true) Z t with
        | .error _ => o.gp
        | .ok g => some g⟩, makeGP fit smooth dimension (index.count true) Z t) := by
  unfold trainGP
  rw [h]
  simp only
  rw [hZ, numberRows_map]
  simp only
  rw [width_eq]
  cases h1 : makeGP fit smooth dimension (index.count true) Z t with
  | error e => rfl
  | ok g => rfl

/-- C235 (`_partial`: the same features are informative in both units, see `C235_tolerance_violated`; every target is a
number): training in other units of the features gives the same process or the same exception, and for every test set
given in the units of the training the prediction is the same. -/
theorem C235_units_partial {G P : Type}
    (fit : (k : Nat) → List (List ℝ) → List (Option ℝ) → List (Kernel.RawDict k) → Except PyErr G)
    (pred : G → Mat → Except PyErr P) (smooth : Bool) (dimension : String) (o : General G) (d : Nat) (X : Mat)
    (hX : ∀ r ∈ X, r.length = d) (hne : X ≠ []) (t : List (Option ℝ)) (ht : t.length = X.length)
    (htn : ∀ x ∈ t, x.isSome) (u : List (ℝ × ℝ)) (hu : u.length = d) (hpos : ∀ p ∈ u, 0 < p.1)
    (hsame : ∀ (j : Nat) (p : ℝ × ℝ) (v : List ℝ), u[j]? = some p →
      X.map (fun r => r[j]?) = v.map (fun x => some (some x)) →
      (Informative v ↔ Informative (v.map fun x => p.1 * x + p.2))) :
    (trainGP fit true smooth dimension o d (X.map (inUnits u)) t).2 = (trainGP fit true smooth dimension o d X t).2 ∧
    ∀ T : Mat, (∀ r ∈ T, r.length = d) →
      predictGP pred true (trainGP fit true smooth dimension o d (X.map (inUnits u)) t).1 d (T.map (inUnits u)) =
        predictGP pred true (trainGP fit true smooth dimension o d X t).1 d T := by
  obtain ⟨index, m, s, m', s', Z, out, out', h1, h2, h3, h4, h5, h6, h7, h8⟩ :=
    units_process d X hX hne t ht htn u hu hpos hsame
  rw [trainGP_of_process fit smooth dimension o d X t index _ out Z h1 h4,
    trainGP_of_process fit smooth dimension o d (X.map (inUnits u)) t index _ out' Z h2 h5]
  refine ⟨rfl, ?_⟩
  intro T hT
  have hTu : ∀ r ∈ T.map (inUnits u), r.length = d := by
    intro r hr
    obtain ⟨r, hr', rfl⟩ := List.mem_map.mp hr
    simp [inUnits, hT r hr', hu]
  have e : (T.map (inUnits u)).map (fun r => affineRow m' s' (keep index r)) =
      T.map fun r => affineRow m s (keep index r) := by
    rw [List.map_map]
    apply List.map_congr_left
    intro r hr
    exact h6 r (hT r hr)
  simp only [predictGP, transform_eq d index m s h3 h7 T hT, transform_eq d index m' s' h3 h8 _ hTu, e]

/-- Kelvin to Celsius and metres to centimetres. -/
example : (∀ p ∈ [((1 : ℝ), (-273.15 : ℝ)), (100, 0)], 0 < p.1) ∧ Informative [0, 2] ∧
    Informative ([0, 2].map fun x => (100 : ℝ) * x + 0) := by
  have h1 : variance [0, 2] = 1 ^ 2 := by norm_num [variance]
  have h2 : variance ([0, 2].map fun x => (100 : ℝ) * x + 0) = 100 ^ 2 := by norm_num [variance]
  refine ⟨by simp, ?_, ?_⟩
  · rw [Informative, h1, Real.sqrt_sq (by norm_num)]; norm_num
  · rw [Informative, h2, Real.sqrt_sq (by norm_num)]; norm_num

private theorem variance_two (x y : ℝ) : variance [x, y] = ((y - x) / 2) ^ 2 := by
  simp [variance]; ring

/-- `process` on two rows with one feature. -/
private theorem process_two (x y : ℝ) (h : 3e-8 ≤ y - x) (a b : ℝ) :
    ∃ out, process true ⟨none, none⟩ 1 [[some x], [some y]] (some [some a, some b]) none =
      (⟨some [true], some ([(x + y) / 2].map some, [(y - x) / 2].map some)⟩, .ok out) ∧
      out.train = ([[-1], [1]] : List (List ℝ)).map (·.map some) := by
  obtain ⟨st, out, index, m, s, Z, a1, rfl, -, a3, a4, a5, a6, a7, a8, -, a9, a10, a11, a12⟩ := process_spec
    ⟨none, none⟩ 1 [[some x], [some y]] (by simp) (by simp) (some [some a, some b])
    (by intro t' h; simp at h; subst h; simp) none (by simp)
  have hi : index = [true] := by
    have h0 := (a4 0 (by omega)).mpr ⟨[x, y], by simp, by
      rw [variance_two, Real.sqrt_sq (by linarith)]; linarith⟩
    match index, a3, h0 with
    | [b], _, h0 => simp at h0; simp [h0]
  subst hi
  simp only [List.count_cons_self, List.count_nil, zero_add] at a5 a6 a11 a12
  match m, a5, s, a6, a7 with
  | [m], _, [s], _, a7 =>
    have hs : 0 < s := a7 s (by simp)
    simp only [List.map_cons, List.map_nil, affineRow, keep, List.zip_cons_cons, List.zip_nil_right,
      List.filterMap_cons, if_true, List.filterMap_nil, List.zipWith_cons_cons, Option.map_some,
      List.zipWith_nil_right] at a8
    have hZ : Z = [[(x - m) / s], [(y - m) / s]] := by
      apply (List.map_injective_iff.mpr (List.map_injective_iff.mpr (Option.some_injective ℝ)))
      rw [← a9, a8]
      simp
    obtain ⟨c1, c2⟩ := a12 0 (by omega)
    rw [hZ] at c1 c2
    simp only [colOf, List.map_cons, List.map_nil, List.getD_cons_zero, List.sum_cons, List.sum_nil, add_zero,
      List.length_cons, List.length_nil] at c1 c2
    have hm : m = (x + y) / 2 := by
      field_simp at c1
      linarith
    subst hm
    have hs2 : s = (y - x) / 2 := by
      have : (y - x) ^ 2 = (2 * s) ^ 2 := by
        field_simp at c2
        push_cast at c2
        nlinarith
      have := (sq_eq_sq₀ (by linarith) (by linarith)).mp this
      linarith
    subst hs2
    refine ⟨out, a1, ?_⟩
    rw [a8]
    have hne : (y - x) ≠ 0 := by linarith
    simp only [List.map_cons, List.map_nil, List.cons.injEq, Option.some.injEq, and_true]
    constructor <;> (field_simp; ring)

private theorem kernels_two (smooth : Bool) : ∃ ks, ∀ {G : Type}
    (fit : (k : Nat) → List (List ℝ) → List (Option ℝ) → List (Kernel.RawDict k) → Except PyErr G) (t),
    makeGP fit smooth "single" (([true] : List Bool).count true) ([[-1], [1]] : List (List ℝ)) t =
      fit 1 [[-1], [1]] t ks := by
  have hs : stdOf ([[-1], [1]] : List (List ℝ)).flatten = 1 := by norm_num [stdOf]
  obtain ⟨⟨ks, w, e1, -, -, e2⟩, ⟨ks', e3, e4⟩⟩ := C174_prepared_partial 1 ([[-1], [1]] : List (List ℝ)) "single" [1]
    (.inl ⟨rfl, by rw [hs]⟩) (by simp)
  have hc : ([true] : List Bool).count true = 1 := rfl
  rw [hc]
  cases smooth
  · refine ⟨ks, fun fit t => ?_⟩
    simp only [makeGP, kernelList, Bool.false_eq_true, if_false, e1, e2]
  · refine ⟨ks', fun fit t => ?_⟩
    simp only [makeGP, kernelList, if_true, e3, e4]

/-- C235 fails when a feature is small in the new units: with a process that can always be fitted, two points with one
feature can be trained on, but after a change of units that makes the two values closer than the (absolute) tolerance the
feature is eliminated and the training raises AssertionError. -/
theorem C235_tolerance_violated {G : Type}
    (fit : (k : Nat) → List (List ℝ) → List (Option ℝ) → List (Kernel.RawDict k) → Except PyErr G)
    (hfit : ∀ k Z t ks, ∃ g, fit k Z t ks = .ok g) (smooth : Bool) (o : General G) (x y a b : ℝ) (h : 3e-8 ≤ y - x) :
    (∃ g, (trainGP fit true smooth "single" o 1 [[some x], [some y]] [some a, some b]).2 = .ok g) ∧
    0 < 1e-8 / (y - x) ∧
    (trainGP fit true smooth "single" o 1 ([[some x], [some y]].map (inUnits [(1e-8 / (y - x), 0)]))
      [some a, some b]).2 = .error .assertion := by
  have hxy : 0 < y - x := by linarith
  refine ⟨?_, by positivity, ?_⟩
  · obtain ⟨out, h1, h2⟩ := process_two x y h a b
    obtain ⟨ks, e1⟩ := kernels_two smooth
    rw [trainGP_of_process fit smooth "single" o 1 _ _ _ _ out _ h1 h2]
    simp only [e1]
    exact hfit _ _ _ _
  · set c : ℝ := 1e-8 / (y - x) with hc
    obtain ⟨st, out, index, m, s, Z, a1, rfl, -, a3, a4, a5, a6, a7, a8, -, a9, a10, a11, a12⟩ := process_spec
      ⟨none, none⟩ 1 ([[some x], [some y]].map (inUnits [(c, 0)])) (by simp [inUnits]) (by simp)
      (some [some a, some b]) (by intro t' h; simp at h; subst h; simp) none (by simp)
    have hi : index = [false] := by
      have h0 : ¬ index[0]? = some true := by
        rw [a4 0 (by omega)]
        rintro ⟨v, e1, e2⟩
        have hv : v = [c * x, c * y] := by
          have hinj : Function.Injective (fun x : ℝ => some (some x)) := by
            intro x y h; simpa using h
          apply (List.map_injective_iff.mpr hinj)
          rw [← e1]
          simp [inUnits]
        have hcc : c * y - c * x = 1e-8 := by
          rw [hc, ← mul_sub, div_mul_cancel₀ _ hxy.ne']
        rw [hv, variance_two, hcc, Real.sqrt_sq (by norm_num)] at e2
        norm_num at e2
      match index, a3, h0 with
      | [b], _, h0 => cases b <;> simp at h0 ⊢
    subst hi
    have hZ : ∀ r ∈ Z, r = [] := by
      intro r hr
      exact List.length_eq_zero_iff.mp (by simpa using a11 r hr)
    obtain ⟨ks, ks', e1, e2, e3, e4⟩ := C174_no_features 0 Z hZ
    rw [trainGP_of_process fit smooth "single" o 1 _ _ _ _ out Z a1 a9]
    have hcount : ([false] : List Bool).count true = 0 := rfl
    rw [hcount]
    cases smooth
    · simp only [makeGP, kernelList, Bool.false_eq_true, if_false, e1, e3]
    · simp only [makeGP, kernelList, if_true, e2, e4]

example : (3e-8 : ℝ) ≤ 2 - 1 := by norm_num

/-- C236 (`_partial`: the last training succeeded, see `C236_failed_training_violated`; every target is a number): the
answer is that of the process fitted to the standardised informative features, and every test row goes through the map
that standardised the training data, whatever the object was before. -/
theorem C236_trained_partial {G P : Type}
    (fit : (k : Nat) → List (List ℝ) → List (Option ℝ) → List (Kernel.RawDict k) → Except PyErr G)
    (pred : G → Mat → Except PyErr P) (smooth : Bool) (dimension : String) (o o' : General G) (g : G) (d : Nat)
    (X : Mat) (hX : ∀ r ∈ X, r.length = d) (hne : X ≠ []) (t : List (Option ℝ)) (ht : t.length = X.length)
    (htn : ∀ x ∈ t, x.isSome) (h : trainGP fit true smooth dimension o d X t = (o', .ok g)) :
    ∃ (index : List Bool) (m s : List ℝ) (Z : List (List ℝ)) (ks : List (Kernel.RawDict (index.count true))),
      index.length = d ∧
      (∀ j < d, (index[j]? = some true ↔ ∃ v : List ℝ, X.map (fun r => r[j]?) = v.map (fun x => some (some x)) ∧
        Informative v)) ∧
      X.map (fun r => affineRow m s (keep index r)) = Z.map (·.map some) ∧
      (∀ j < index.count true, (colOf Z j).sum = 0 ∧ ((colOf Z j).map fun x => x ^ 2).sum = (Z.length : ℝ)) ∧
      fit (index.count true) Z t ks = .ok g ∧
      ∀ T : Mat, (∀ r ∈ T, r.length = d) →
        predictGP pred true o' d T = pred g (T.map fun r => affineRow m s (keep index r)) := by
  obtain ⟨st, out, index, m, s, Z, a1, rfl, -, a3, a4, a5, a6, a7, a8, -, a9, a10, a11, a12⟩ := process_spec
    ⟨none, none⟩ d X hX hne (some t) (by intro t' h; simp at h; subst h; exact ⟨ht, htn⟩) none (by simp)
  rw [trainGP_of_process fit smooth dimension o d X t index _ out Z a1 a9] at h
  cases h1 : kernelList smooth (index.count true) Z dimension with
  | error e => simp [makeGP, h1] at h
  | ok ks =>
    cases h2 : Kernel.prepareKernels ks with
    | error e => simp [makeGP, h1, h2] at h
    | ok p =>
      cases h3 : fit (index.count true) Z t ks with
      | error e => simp [makeGP, h1, h2, h3] at h
      | ok g' =>
        simp only [makeGP, h1, h2, h3, Prod.mk.injEq, Except.ok.injEq] at h
        obtain ⟨rfl, rfl⟩ := h
        refine ⟨index, m, s, Z, ks, a3, a4, by rw [← a8, a9], a12, h3, ?_⟩
        intro T hT
        simp only [predictGP, transform_eq d index m s a3 a5 T hT]

example : ∃ (o' : General Unit), trainGP (fun _ _ _ _ => .ok ()) true true "single" ⟨none, none⟩ 1
    [[some 0], [some 1]] [some 0, some 1] = (o', .ok ()) := by
  obtain ⟨out, h1, h2⟩ := process_two 0 1 (by norm_num) 0 1
  obtain ⟨ks, e1⟩ := kernels_two true
  rw [trainGP_of_process _ true "single" _ 1 _ _ _ _ out _ h1 h2]
  simp only [e1]
  exact ⟨_, rfl⟩

/-- C236: an object that was never trained refuses to predict (AttributeError), and methods for missing data other than
elimination are refused at training (NotImplementedError). -/
theorem C236_refused {G P : Type}
    (fit : (k : Nat) → List (List ℝ) → List (Option ℝ) → List (Kernel.RawDict k) → Except PyErr G)
    (pred : G → Mat → Except PyErr P) (e smooth : Bool) (dimension : String) (o : General G) (d : Nat) (X T : Mat)
    (t : List (Option ℝ)) :
    predictGP pred e ⟨none, none⟩ d T = .error .attribute ∧
    (trainGP fit false smooth dimension o d X t).2 = .error .notImpl := ⟨rfl, rfl⟩

/-- C236 fails after a training that raises when the process is made: the object keeps its old process but scales test
rows with the statistics of the new data, so that it silently gives other predictions than before. -/
theorem C236_failed_training_violated {G P : Type}
    (fit : (k : Nat) → List (List ℝ) → List (Option ℝ) → List (Kernel.RawDict k) → Except PyErr G)
    (pred : G → Mat → Except PyErr P) (smooth : Bool) (o : General G) (g : G) (e : PyErr) (x y x' y' a b a' b' : ℝ)
    (h : 3e-8 ≤ y - x) (h' : 3e-8 ≤ y' - x') (hok : ∀ k Z ks, fit k Z [some a, some b] ks = .ok g)
    (hbad : ∀ k Z ks, fit k Z [some a', some b'] ks = .error e) :
    ∃ o₁ o₂, trainGP fit true smooth "single" o 1 [[some x], [some y]] [some a, some b] = (o₁, .ok g) ∧
      trainGP fit true smooth "single" o₁ 1 [[some x'], [some y']] [some a', some b'] = (o₂, .error e) ∧
      predictGP pred true o₁ 1 [[some x]] = pred g [[some (-1)]] ∧
      predictGP pred true o₂ 1 [[some x]] = pred g [[some ((x - (x' + y') / 2) / ((y' - x') / 2))]] := by
  obtain ⟨out, p1, p2⟩ := process_two x y h a b
  obtain ⟨out', q1, q2⟩ := process_two x' y' h' a' b'
  obtain ⟨ks, e1⟩ := kernels_two smooth
  refine ⟨⟨some ⟨some [true], some ([(x + y) / 2].map some, [(y - x) / 2].map some)⟩, some g⟩,
    ⟨some ⟨some [true], some ([(x' + y') / 2].map some, [(y' - x') / 2].map some)⟩, some g⟩, ?_, ?_, ?_, ?_⟩
  · rw [trainGP_of_process fit smooth "single" _ 1 _ _ _ _ out _ p1 p2]
    simp only [e1, hok]
  · rw [trainGP_of_process fit smooth "single" _ 1 _ _ _ _ out' _ q1 q2]
    simp only [e1, hbad]
  · have ht := transform_eq 1 [true] [(x + y) / 2] [(y - x) / 2] rfl rfl [[some x]] (by simp)
    simp only [predictGP, ht]
    have hne : (y - x) ≠ 0 := by linarith
    have : (x - (x + y) / 2) / ((y - x) / 2) = -1 := by field_simp; ring
    simp [affineRow, keep, this]
  · have ht := transform_eq 1 [true] [(x' + y') / 2] [(y' - x') / 2] rfl rfl [[some x]] (by simp)
    simp only [predictGP, ht]
    simp [affineRow, keep]

/-- Old data 0, 2 and new data 2, 4: the test point 0 goes to -3 instead of -1. -/
example : ((0 : ℝ) - (2 + 4) / 2) / ((4 - 2) / 2) = -3 ∧ (3e-8 : ℝ) ≤ 2 - 0 ∧ (3e-8 : ℝ) ≤ 4 - 2 := by norm_num

/-- C236 fails after a training that raises for want of data: the object, which could predict before, now raises
AttributeError for every test set. -/
theorem C236_unusable_violated {G P : Type}
    (fit : (k : Nat) → List (List ℝ) → List (Option ℝ) → List (Kernel.RawDict k) → Except PyErr G)
    (pred : G → Mat → Except PyErr P) (smooth : Bool) (dimension : String) (o : General G) (d : Nat) :
    ∃ o', trainGP fit true smooth dimension o d [] [] = (o', .error .assertion) ∧
      ∀ T, predictGP pred true o' d T = .error .attribute := by
  obtain ⟨index, hi⟩ : ∃ index, eliminateIndex d [] (some []) none = .ok index := ⟨_, rfl⟩
  refine ⟨⟨some ⟨some index, none⟩, o.gp⟩, ?_, fun T => rfl⟩
  simp [trainGP, process, hi]

end CatLearn.Props
