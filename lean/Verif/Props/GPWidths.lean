import Verif.Props.GPRelations
import Verif.Props.GPUncertainty
import Mathlib.Topology.Instances.Matrix

/-!
# Features with large widths or with the same value everywhere (C287)
-/

namespace CatLearn.Proc

open CatLearn CatLearn.Kernel CatLearn.Scaling CatLearn.PSD Matrix Filter Topology

/-! ### Kernels with other widths and with fewer features -/

/-- The kernel with each width of a feature in `S` multiplied by `c`; on a log scale `c` is added. -/
noncomputable def widen {N : ℕ} (log : Bool) (S : Finset (Fin N)) (c : ℝ) (k : KDict N) : KDict N :=
  let ws := fun w => (used k w).map fun p => if p.1 ∈ S then (if log then p.2 + c else p.2 * c) else p.2
  match k.ktype with
  | .gaussian w => { k with ktype := .gaussian (ws w) }
  | .laplacian w => { k with ktype := .laplacian (ws w) }
  | .sqe w => { k with ktype := .sqe (ws w) }
  | _ => k

/-- The kernel without the features in `S`: its 'features' are the other ones, with the widths they had. -/
def without {N : ℕ} (S : Finset (Fin N)) (k : KDict N) : KDict N :=
  let ws := fun w => ((used k w).filter fun p => p.1 ∉ S).map Prod.snd
  let fs := some ((columns k).filter fun j => j ∉ S)
  match k.ktype with
  | .gaussian w => { k with ktype := .gaussian (ws w), features := fs }
  | .laplacian w => { k with ktype := .laplacian (ws w), features := fs }
  | .sqe w => { k with ktype := .sqe (ws w), features := fs }
  | _ => k

/-- Kernels of differences with widths, of which a feature outside `S` is left, constants and noise. -/
def HasWidths {N : ℕ} (S : Finset (Fin N)) (k : KDict N) : Prop :=
  match k.ktype with
  | .gaussian _ => ∃ j ∈ columns k, j ∉ S
  | .laplacian _ => ∃ j ∈ columns k, j ∉ S
  | .sqe _ => ∃ j ∈ columns k, j ∉ S
  | .constant _ => True
  | .noiseMulti _ => True
  | _ => False

private theorem used_fst {N : ℕ} (k : KDict N) (w : List ℝ) : (used k w).map Prod.fst = columns k := by
  simp only [used, List.map_map]
  exact List.zipIdx_map_fst 0 (columns k)

private theorem used_of {N : ℕ} (k : KDict N) (L : List (Fin N × ℝ)) (h : columns k = L.map Prod.fst) :
    used k (L.map Prod.snd) = L := by
  apply List.ext_getElem
  · simp [used, h]
  · intro i h1 h2
    simp only [used, h, List.getElem_map, List.getElem_zipIdx, pick, List.length_map, Nat.zero_add]
    have : (if L.length = 1 then 0 else i) = i := by split <;> omega
    rw [this]
    simp [List.getD_eq_getElem, h2]

private theorem colSum_eq {N : ℕ} (k : KDict N) (w : List ℝ) (g : ℝ → ℝ → ℝ → ℝ) (x y : Fin N → ℝ) :
    colSum (columns k) x y (fun i a b => g (pick w i) a b) = ((used k w).map fun p => g p.2 (x p.1) (y p.1)).sum := by
  simp only [used, List.map_map]
  rfl

private theorem used_pos {N : ℕ} (k : KDict N) (w : List ℝ) (hw : GoodWidths false w (columns k).length) :
    ∀ p ∈ used k w, 0 < p.2 := by
  intro p hp
  simp only [used, List.mem_map] at hp
  obtain ⟨c, hc, rfl⟩ := hp
  have hi : c.2 < (columns k).length := by
    have := List.mem_zipIdx hc
    omega
  obtain ⟨h1, h2⟩ := hw
  rcases h2 with h2 | h2
  · cases h2
  · apply h2
    unfold pick
    rw [List.getD_eq_getElem _ _ (by split <;> omega)]
    exact List.getElem_mem _

/-- How a kernel looks after both changes. -/
private theorem widen_columns {N : ℕ} (log : Bool) (S : Finset (Fin N)) (c : ℝ) (k : KDict N) :
    columns (widen log S c k) = columns k ∧ (widen log S c k).scaling = k.scaling ∧ (widen log S c k).mult = k.mult := by
  unfold widen
  cases k.ktype <;> exact ⟨rfl, rfl, rfl⟩

private theorem without_keys {N : ℕ} (S : Finset (Fin N)) (k : KDict N) :
    (without S k).scaling = k.scaling ∧ (without S k).mult = k.mult := by
  unfold without
  cases k.ktype <;> exact ⟨rfl, rfl⟩

private theorem scaleFactor_congr {N : ℕ} (k k' : KDict N) (log : Bool) (h : k'.scaling = k.scaling) :
    scaleFactor k' log = scaleFactor k log := by
  unfold scaleFactor; rw [h]

/-! ### Sums over the features -/

private theorem sum_widen {N : ℕ} (log : Bool) (S : Finset (Fin N)) (g : ℝ → ℝ → ℝ → ℝ)
    (hg : ∀ a b, Tendsto (fun w => g w a b) atTop (𝓝 0)) (L : List (Fin N × ℝ)) (hL : log = true ∨ ∀ p ∈ L, 0 < p.2)
    (x y : Fin N → ℝ) :
    Tendsto (fun c : ℝ => ((L.map fun p => (p.1, if p.1 ∈ S then (if log then p.2 + c else p.2 * c) else p.2)).map
        fun p : Fin N × ℝ => g (unlog log p.2) (x p.1) (y p.1)).sum) atTop
      (𝓝 (((L.filter fun p => p.1 ∉ S).map fun p => g (unlog log p.2) (x p.1) (y p.1)).sum)) := by
  induction L with
  | nil => simp
  | cons p L ih =>
    have ih := ih (hL.imp id fun h q hq => h q (by simp [hq]))
    simp only [List.map_cons, List.sum_cons]
    by_cases hp : p.1 ∈ S
    · rw [List.filter_cons_of_neg (by simpa using hp)]
      simp only [hp, if_true]
      rw [← zero_add (List.sum _)]
      refine Tendsto.add ((hg _ _).comp ?_) ih
      cases log with
      | true =>
        simp only [unlog, if_true]
        exact Real.tendsto_exp_atTop.comp (tendsto_atTop_add_const_left _ _ tendsto_id)
      | false =>
        simp only [unlog, Bool.false_eq_true, if_false]
        rcases hL with h | h
        · cases h
        · exact (tendsto_id).const_mul_atTop (h p (by simp))
    · rw [List.filter_cons_of_pos (by simpa using hp)]
      simp only [hp, if_false, List.map_cons, List.sum_cons]
      exact Tendsto.add tendsto_const_nhds ih

private theorem sum_same {N : ℕ} (S : Finset (Fin N)) (g : ℝ → ℝ → ℝ → ℝ) (hg : ∀ w a, g w a a = 0) (L : List (Fin N × ℝ))
    (x y : Fin N → ℝ) (hxy : ∀ j ∈ S, x j = y j) :
    (L.map fun p => g p.2 (x p.1) (y p.1)).sum = ((L.filter fun p => p.1 ∉ S).map fun p => g p.2 (x p.1) (y p.1)).sum := by
  induction L with
  | nil => rfl
  | cons p L ih =>
    by_cases hp : p.1 ∈ S
    · rw [List.filter_cons_of_neg (by simpa using hp)]
      rw [← ih, List.map_cons, List.sum_cons, hxy _ hp, hg, zero_add]
    · rw [List.filter_cons_of_pos (by simpa using hp)]
      rw [List.map_cons, List.sum_cons, List.map_cons, List.sum_cons, ← ih]

private theorem lim_gauss (a b : ℝ) : Tendsto (fun w : ℝ => (a / w - b / w) ^ 2) atTop (𝓝 0) := by
  have h := ((tendsto_const_nhds (x := a)).div_atTop tendsto_id).sub ((tendsto_const_nhds (x := b)).div_atTop tendsto_id)
  simpa using h.pow 2

private theorem lim_lapl (a b : ℝ) : Tendsto (fun w : ℝ => |a / w - b / w|) atTop (𝓝 0) := by
  have h := ((tendsto_const_nhds (x := a)).div_atTop tendsto_id).sub ((tendsto_const_nhds (x := b)).div_atTop tendsto_id)
  simpa using h.abs

private theorem lim_sqe (a b : ℝ) : Tendsto (fun w : ℝ => (a - b) ^ 2 / w) atTop (𝓝 0) :=
  (tendsto_const_nhds).div_atTop tendsto_id

private theorem used_widen {N : ℕ} (k k' : KDict N) (h : columns k' = columns k) (w : List ℝ) (f : Fin N × ℝ → ℝ) :
    used k' ((used k w).map f) = (used k w).map fun p => (p.1, f p) := by
  have := used_of k' ((used k w).map fun p => (p.1, f p)) (by
    rw [h, List.map_map]
    exact (used_fst k w).symm)
  rw [List.map_map] at this
  exact this

private theorem used_without {N : ℕ} (S : Finset (Fin N)) (k k' : KDict N) (h : columns k' = (columns k).filter fun j => j ∉ S)
    (w : List ℝ) : used k' (((used k w).filter fun p => p.1 ∉ S).map Prod.snd) = (used k w).filter fun p => p.1 ∉ S := by
  apply used_of
  rw [h, ← used_fst k w, List.filter_map]
  rfl

/-! ### Entries of the covariance -/

private theorem entry_widen {N : ℕ} (log : Bool) (S : Finset (Fin N)) (k : KDict N) (hk : GoodKernel log k)
    (hd : HasWidths S k) (x y : Fin N → ℝ) (s : Bool) :
    Tendsto (fun c => entry (widen log S c k).ktype (columns (widen log S c k)) log x y s) atTop
      (𝓝 (entry (without S k).ktype (columns (without S k)) log x y s)) := by
  have pos : ∀ w, GoodWidths log w (columns k).length → log = true ∨ ∀ p ∈ used k w, 0 < p.2 := by
    intro w hw
    cases log with
    | true => exact Or.inl rfl
    | false => exact Or.inr (used_pos k w hw)
  obtain ⟨kt, fe, sc, mu⟩ := k
  cases kt with
  | gaussian w =>
    have key := sum_widen log S (fun w a b => (a / w - b / w) ^ 2) lim_gauss _ (pos w hk.2) x y
    have e1 := fun c => used_widen ⟨.gaussian w, fe, sc, mu⟩ (widen log S c ⟨.gaussian w, fe, sc, mu⟩) rfl w
      (fun p => if p.1 ∈ S then (if log then p.2 + c else p.2 * c) else p.2)
    have e2 := used_without S ⟨.gaussian w, fe, sc, mu⟩ (without S ⟨.gaussian w, fe, sc, mu⟩) rfl w
    have f1 := fun c => colSum_eq (widen log S c ⟨.gaussian w, fe, sc, mu⟩) ((used ⟨.gaussian w, fe, sc, mu⟩ w).map
      (fun p => if p.1 ∈ S then (if log then p.2 + c else p.2 * c) else p.2)) (fun w a b => (a / unlog log w - b / unlog log w) ^ 2) x y
    have f2 := colSum_eq (without S ⟨.gaussian w, fe, sc, mu⟩) (((used ⟨.gaussian w, fe, sc, mu⟩ w).filter fun p => p.1 ∉ S).map Prod.snd)
      (fun w a b => (a / unlog log w - b / unlog log w) ^ 2) x y
    rw [e2] at f2
    simp only [e1] at f1
    refine (Real.continuous_exp.tendsto _).comp (Tendsto.const_mul (-0.5 : ℝ) ?_)
    exact (f2 ▸ key).congr fun c => (f1 c).symm
  | laplacian w =>
    have key := sum_widen log S (fun w a b => |a / w - b / w|) lim_lapl _ (pos w hk.2) x y
    have e1 := fun c => used_widen ⟨.laplacian w, fe, sc, mu⟩ (widen log S c ⟨.laplacian w, fe, sc, mu⟩) rfl w
      (fun p => if p.1 ∈ S then (if log then p.2 + c else p.2 * c) else p.2)
    have e2 := used_without S ⟨.laplacian w, fe, sc, mu⟩ (without S ⟨.laplacian w, fe, sc, mu⟩) rfl w
    have f1 := fun c => colSum_eq (widen log S c ⟨.laplacian w, fe, sc, mu⟩) ((used ⟨.laplacian w, fe, sc, mu⟩ w).map
      (fun p => if p.1 ∈ S then (if log then p.2 + c else p.2 * c) else p.2)) (fun w a b => |a / unlog log w - b / unlog log w|) x y
    have f2 := colSum_eq (without S ⟨.laplacian w, fe, sc, mu⟩) (((used ⟨.laplacian w, fe, sc, mu⟩ w).filter fun p => p.1 ∉ S).map Prod.snd)
      (fun w a b => |a / unlog log w - b / unlog log w|) x y
    rw [e2] at f2
    simp only [e1] at f1
    refine (Real.continuous_exp.tendsto _).comp (Tendsto.neg ?_)
    exact (f2 ▸ key).congr fun c => (f1 c).symm
  | sqe w =>
    have key := sum_widen log S (fun w a b => (a - b) ^ 2 / w) lim_sqe _ (pos w hk.2) x y
    have e1 := fun c => used_widen ⟨.sqe w, fe, sc, mu⟩ (widen log S c ⟨.sqe w, fe, sc, mu⟩) rfl w
      (fun p => if p.1 ∈ S then (if log then p.2 + c else p.2 * c) else p.2)
    have e2 := used_without S ⟨.sqe w, fe, sc, mu⟩ (without S ⟨.sqe w, fe, sc, mu⟩) rfl w
    have f1 := fun c => colSum_eq (widen log S c ⟨.sqe w, fe, sc, mu⟩) ((used ⟨.sqe w, fe, sc, mu⟩ w).map
      (fun p => if p.1 ∈ S then (if log then p.2 + c else p.2 * c) else p.2)) (fun w a b => (a - b) ^ 2 / unlog log w) x y
    have f2 := colSum_eq (without S ⟨.sqe w, fe, sc, mu⟩) (((used ⟨.sqe w, fe, sc, mu⟩ w).filter fun p => p.1 ∉ S).map Prod.snd)
      (fun w a b => (a - b) ^ 2 / unlog log w) x y
    rw [e2] at f2
    simp only [e1] at f1
    refine (Real.continuous_exp.tendsto _).comp (Tendsto.const_mul (-0.5 : ℝ) ((Real.continuous_sqrt.tendsto _).comp ?_))
    exact (f2 ▸ key).congr fun c => (f1 c).symm
  | quadratic a b c => exact hd.elim
  | linear => exact hd.elim
  | constant a => exact tendsto_const_nhds
  | noiseMulti h => exact tendsto_const_nhds

private theorem entry_without {N : ℕ} (log : Bool) (S : Finset (Fin N)) (k : KDict N) (hd : HasWidths S k) (x y : Fin N → ℝ) (s : Bool)
    (hxy : ∀ j ∈ S, x j = y j) :
    entry (without S k).ktype (columns (without S k)) log x y s = entry k.ktype (columns k) log x y s := by
  obtain ⟨kt, fe, sc, mu⟩ := k
  cases kt with
  | gaussian w =>
    have e2 := used_without S ⟨.gaussian w, fe, sc, mu⟩ (without S ⟨.gaussian w, fe, sc, mu⟩) rfl w
    have f1 := colSum_eq ⟨.gaussian w, fe, sc, mu⟩ w (fun w a b => (a / unlog log w - b / unlog log w) ^ 2) x y
    have f2 := colSum_eq (without S ⟨.gaussian w, fe, sc, mu⟩) (((used ⟨.gaussian w, fe, sc, mu⟩ w).filter fun p => p.1 ∉ S).map Prod.snd)
      (fun w a b => (a / unlog log w - b / unlog log w) ^ 2) x y
    rw [e2, ← sum_same S (fun w a b => (a / unlog log w - b / unlog log w) ^ 2) (by simp) _ x y hxy, ← f1] at f2
    exact congrArg (fun v => Real.exp (-0.5 * v)) f2
  | laplacian w =>
    have e2 := used_without S ⟨.laplacian w, fe, sc, mu⟩ (without S ⟨.laplacian w, fe, sc, mu⟩) rfl w
    have f1 := colSum_eq ⟨.laplacian w, fe, sc, mu⟩ w (fun w a b => |a / unlog log w - b / unlog log w|) x y
    have f2 := colSum_eq (without S ⟨.laplacian w, fe, sc, mu⟩) (((used ⟨.laplacian w, fe, sc, mu⟩ w).filter fun p => p.1 ∉ S).map Prod.snd)
      (fun w a b => |a / unlog log w - b / unlog log w|) x y
    rw [e2, ← sum_same S (fun w a b => |a / unlog log w - b / unlog log w|) (by simp) _ x y hxy, ← f1] at f2
    exact congrArg (fun v => Real.exp (-v)) f2
  | sqe w =>
    have e2 := used_without S ⟨.sqe w, fe, sc, mu⟩ (without S ⟨.sqe w, fe, sc, mu⟩) rfl w
    have f1 := colSum_eq ⟨.sqe w, fe, sc, mu⟩ w (fun w a b => (a - b) ^ 2 / unlog log w) x y
    have f2 := colSum_eq (without S ⟨.sqe w, fe, sc, mu⟩) (((used ⟨.sqe w, fe, sc, mu⟩ w).filter fun p => p.1 ∉ S).map Prod.snd)
      (fun w a b => (a - b) ^ 2 / unlog log w) x y
    rw [e2, ← sum_same S (fun w a b => (a - b) ^ 2 / unlog log w) (by simp) _ x y hxy, ← f1] at f2
    exact congrArg (fun v => Real.exp (-0.5 * Real.sqrt v)) f2
  | quadratic a b c => exact hd.elim
  | linear => exact hd.elim
  | constant a => rfl
  | noiseMulti h => rfl

private theorem cov_widen {N : ℕ} (log : Bool) (S : Finset (Fin N)) (ks : List (KDict N)) (hk : ∀ k ∈ ks, GoodKernel log k)
    (hd : ∀ k ∈ ks, HasWidths S k) (x y : Fin N → ℝ) (s : Bool) :
    Tendsto (fun c => covEntry (ks.map (widen log S c)) log x y s) atTop (𝓝 (covEntry (ks.map (without S)) log x y s)) := by
  unfold covEntry
  have key : ∀ (ks : List (KDict N)), (∀ k ∈ ks, GoodKernel log k) → (∀ k ∈ ks, HasWidths S k) → ∀ (g : ℝ → ℝ) (v : ℝ), Tendsto g atTop (𝓝 v) →
      Tendsto (fun c => (ks.map (widen log S c)).foldl (fun cov k =>
        let v := scaleFactor k log * entry k.ktype (columns k) log x y s
        if k.mult then cov * v else cov + v) (g c)) atTop (𝓝 ((ks.map (without S)).foldl (fun cov k =>
        let v := scaleFactor k log * entry k.ktype (columns k) log x y s
        if k.mult then cov * v else cov + v) v)) := by
    intro ks
    induction ks with
    | nil => intro _ _ g v hg; exact hg
    | cons k ks ih =>
      intro hk hd g v hg
      simp only [List.map_cons, List.foldl_cons]
      refine ih (fun k h => hk k (by simp [h])) (fun k h => hd k (by simp [h])) _ _ ?_
      have he := entry_widen log S k (hk k (by simp)) (hd k (by simp)) x y s
      have m1 := fun c => (widen_columns log S c k).2.2
      have m2 := (without_keys S k).2
      have s1 := fun c => scaleFactor_congr k (widen log S c k) log (widen_columns log S c k).2.1
      have s2 := scaleFactor_congr k (without S k) log (without_keys S k).1
      simp only [m1, m2, s1, s2]
      cases k.mult with
      | true => exact hg.mul (he.const_mul _)
      | false => exact hg.add (he.const_mul _)
  exact key ks hk hd (fun _ => 0) 0 tendsto_const_nhds

private theorem cov_without {N : ℕ} (log : Bool) (S : Finset (Fin N)) (ks : List (KDict N))
    (hd : ∀ k ∈ ks, HasWidths S k) (x y : Fin N → ℝ) (s : Bool) (hxy : ∀ j ∈ S, x j = y j) :
    covEntry (ks.map (without S)) log x y s = covEntry ks log x y s := by
  unfold covEntry
  rw [List.foldl_map]
  generalize (0 : ℝ) = v
  induction ks generalizing v with
  | nil => rfl
  | cons k ks ih =>
    simp only [List.foldl_cons]
    rw [ih (fun k h => hd k (by simp [h])), (without_keys S k).2, scaleFactor_congr k (without S k) log (without_keys S k).1,
      entry_without log S k (hd k (by simp)) x y s hxy]

/-! ### Two models of the same data -/

/-- What models of the same data have in common. -/
private theorem same_data {N : ℕ} {fp : List (Fin N → ℝ)} {t : List ℝ} {ks ks' : List (KDict N)} (hp : PacksList ks)
    (hp' : PacksList ks') {reg : Option ℝ} {log sd : Bool} {gp gp' : GP N} (h : init fp t ks reg log sd = .ok gp)
    (h' : init fp t ks' reg log sd = .ok gp') :
    gp'.fp = gp.fp ∧ gp'.target = gp.target ∧ gp'.nan = gp.nan ∧ gp'.scaling = gp.scaling ∧ gp'.scaleData = gp.scaleData := by
  obtain ⟨hc, hh, h1, h2, h3, h4⟩ := C43_init_partial _ _ _ hp _ _ _ gp h
  obtain ⟨hc', hh', h1', h2', h3', h4'⟩ := C43_init_partial _ _ _ hp' _ _ _ gp' h'
  have a := hh.1
  have b := hh'.1
  unfold store at a b
  have s := hc.2.2.2
  have s' := hc'.2.2.2
  rw [h4] at a s
  rw [h4'] at b s'
  cases sd with
  | false =>
    simp only [Bool.false_eq_true, if_false, Except.ok.injEq, Stored.mk.injEq, Option.getD_some, Option.isSome_some,
      if_true] at a b
    have s : gp.scaling = none := by simpa using s
    have s' : gp'.scaling = none := by simpa using s'
    exact ⟨b.1.symm.trans a.1, b.2.1.symm.trans a.2.1, b.2.2.1.symm.trans a.2.2.1, s'.trans s.symm, h4'.trans h4.symm⟩
  | true =>
    simp only [if_true, Except.ok.injEq, Stored.mk.injEq] at a b
    exact ⟨b.1.symm.trans a.1, b.2.1.symm.trans a.2.1, b.2.2.1.symm.trans a.2.2.1, b.2.2.2.symm.trans a.2.2.2, h4'.trans h4.symm⟩

/-- Prediction and variance as functions of kernels and stored data. -/
private noncomputable def mu {N : ℕ} (ks : List (KDict N)) (log : Bool) (reg : Option ℝ) (fp : List (Fin N → ℝ)) (t : List ℝ) (x : Fin N → ℝ) : ℝ :=
  postMean (gram ks log reg fp) (kvec ks log x fp.get) fun i => t.getD i 0

private noncomputable def va {N : ℕ} (ks : List (KDict N)) (log : Bool) (reg : Option ℝ) (fp : List (Fin N → ℝ)) (x : Fin N → ℝ) : ℝ :=
  postVar (covEntry ks log x x true) (gram ks log reg fp) (kvec ks log x fp.get)

private theorem model {N : ℕ} {fp : List (Fin N → ℝ)} {t : List ℝ} {ks ks' : List (KDict N)} (hp : PacksList ks)
    (hp' : PacksList ks') {reg : Option ℝ} {log sd : Bool} {gp gp' : GP N} (h : init fp t ks reg log sd = .ok gp)
    (h' : init fp t ks' reg log sd = .ok gp') :
    (∀ x, gp'.mean x = if gp.nan then none else some (gp.rescale (mu ks' log reg gp.fp gp.target x))) ∧
    (∀ x, gp'.var x = va ks' log reg gp.fp x) ∧ gp'.tstd = gp.tstd ∧ (∀ x, gp'.scaleRow x = gp.scaleRow x) := by
  obtain ⟨e1, e2, e3, e4, e5⟩ := same_data hp hp' h h'
  obtain ⟨hc', hh', h1', h2', h3', h4'⟩ := C43_init_partial _ _ _ hp' _ _ _ gp' h'
  have hr : ∀ p, gp'.rescale p = gp.rescale p := fun p => by unfold GP.rescale; rw [e4, e5]
  refine ⟨fun x => ?_, fun x => ?_, ?_, fun x => ?_⟩
  · unfold GP.mean
    have : (fun i : Fin gp'.fp.length => gp'.target.get (i.cast hc'.2.2.1.symm)) = fun i => gp'.target.getD i.1 0 := by
      funext i
      rw [List.getD_eq_getElem _ _ (by rw [hc'.2.2.1]; exact i.2)]
      rfl
    rw [hc'.mean_eq, hr, e3, this, h1', h2', h3']
    unfold mu
    rw [e1, e2]
  · rw [hc'.var_eq, h1', h2', h3']
    unfold va
    rw [e1]
  · unfold GP.tstd; rw [e4, e5]
  · unfold GP.scaleRow; rw [e4, e5]

private theorem mu_lim {N : ℕ} {K : ℝ → List (KDict N)} {ks : List (KDict N)} {log : Bool} (reg : Option ℝ)
    (hlim : ∀ x y s, Tendsto (fun c => covEntry (K c) log x y s) atTop (𝓝 (covEntry ks log x y s)))
    (fp : List (Fin N → ℝ)) (t : List ℝ) (hu : (gram ks log reg fp).det ≠ 0) (x : Fin N → ℝ) :
    Tendsto (fun c => mu (K c) log reg fp t x) atTop (𝓝 (mu ks log reg fp t x)) ∧
    Tendsto (fun c => va (K c) log reg fp x) atTop (𝓝 (va ks log reg fp x)) := by
  have hG : Tendsto (fun c => gram (K c) log reg fp) atTop (𝓝 (gram ks log reg fp)) := by
    refine tendsto_pi_nhds.2 fun i => tendsto_pi_nhds.2 fun j => ?_
    simp only [gram, covSelf_apply]
    exact (hlim _ _ _).add tendsto_const_nhds
  have hk : Tendsto (fun c => kvec (K c) log x fp.get) atTop (𝓝 (kvec ks log x fp.get)) :=
    tendsto_pi_nhds.2 fun i => hlim _ _ _
  have hI : Tendsto (fun c => (gram (K c) log reg fp)⁻¹) atTop (𝓝 (gram ks log reg fp)⁻¹) := by
    simp only [Matrix.inv_def, Ring.inverse_eq_inv']
    have h1 := ((continuous_id.matrix_det).tendsto (gram ks log reg fp)).comp hG
    have h2 := ((continuous_id.matrix_adjugate).tendsto (gram ks log reg fp)).comp hG
    exact (h1.inv₀ hu).smul h2
  have hdot : ∀ (v : ℝ → Fin fp.length → ℝ) (w : Fin fp.length → ℝ), Tendsto v atTop (𝓝 w) →
      Tendsto (fun c => kvec (K c) log x fp.get ⬝ᵥ (gram (K c) log reg fp)⁻¹ *ᵥ v c) atTop
        (𝓝 (kvec ks log x fp.get ⬝ᵥ (gram ks log reg fp)⁻¹ *ᵥ w)) := by
    intro v w hv
    simp only [dotProduct, mulVec]
    refine tendsto_finsetSum _ fun i _ => ((tendsto_pi_nhds.1 hk i).mul (tendsto_finsetSum _ fun j _ => ?_))
    exact ((tendsto_pi_nhds.1 (tendsto_pi_nhds.1 hI i) j).mul (tendsto_pi_nhds.1 hv j))
  constructor
  · exact hdot _ _ tendsto_const_nhds
  · unfold va postVar
    simp only [← dotProduct_mulVec]
    exact (hlim _ _ _).sub (hdot _ _ hk)

private theorem map_packs {N : ℕ} (f : KDict N → KDict N) (hf : ∀ k, (Packs k → Packs (f k)) ∧
    ((∀ s d b, k.ktype ≠ .quadratic s d b) → ∀ s d b, (f k).ktype ≠ .quadratic s d b)) (ks : List (KDict N)) (hp : PacksList ks) :
    PacksList (ks.map f) := by
  induction ks with
  | nil => trivial
  | cons k ks ih =>
    cases ks with
    | nil => exact (hf k).2 hp
    | cons k' ks =>
      exact ⟨(hf k).1 hp.1, ih hp.2⟩

theorem widen_packs {N : ℕ} (log : Bool) (S : Finset (Fin N)) (c : ℝ) (ks : List (KDict N)) (hp : PacksList ks) :
    PacksList (ks.map (widen log S c)) := by
  refine map_packs _ (fun k => ?_) ks hp
  obtain ⟨kt, fe, sc, mu⟩ := k
  cases kt <;> simp [widen, Packs]

theorem without_packs {N : ℕ} (S : Finset (Fin N)) (ks : List (KDict N)) (hp : PacksList ks) :
    PacksList (ks.map (without S)) := by
  refine map_packs _ (fun k => ?_) ks hp
  obtain ⟨kt, fe, sc, mu⟩ := k
  cases kt <;> simp [without, Packs]

theorem without_good {N : ℕ} (log : Bool) (S : Finset (Fin N)) (k : KDict N) (hk : GoodKernel log k) :
    GoodKernel log (without S k) := by
  obtain ⟨kt, fe, sc, mu⟩ := k
  have key : ∀ w, GoodWidths log w (columns (⟨kt, fe, sc, mu⟩ : KDict N)).length →
      GoodWidths log (((used ⟨kt, fe, sc, mu⟩ w).filter fun p => p.1 ∉ S).map Prod.snd)
        ((columns (⟨kt, fe, sc, mu⟩ : KDict N)).filter fun j => j ∉ S).length := by
    intro w hw
    refine ⟨Or.inr ?_, ?_⟩
    · rw [← used_fst ⟨kt, fe, sc, mu⟩ w, List.filter_map, List.length_map, List.length_map]
      rfl
    · cases log with
      | true => exact Or.inl rfl
      | false =>
        refine Or.inr fun t ht => ?_
        simp only [List.mem_map, List.mem_filter] at ht
        obtain ⟨p, ⟨hp, -⟩, rfl⟩ := ht
        exact used_pos _ w hw p hp
  cases kt with
  | gaussian w => exact ⟨hk.1, key w hk.2⟩
  | laplacian w => exact ⟨hk.1, key w hk.2⟩
  | sqe w => exact ⟨hk.1, key w hk.2⟩
  | quadratic a b c => exact hk
  | linear => exact hk
  | constant c => exact hk
  | noiseMulti h => exact hk

theorem widen_good {N : ℕ} (log : Bool) (S : Finset (Fin N)) (c : ℝ) (hc : 0 < c) (k : KDict N) (hk : GoodKernel log k) :
    GoodKernel log (widen log S c k) := by
  obtain ⟨kt, fe, sc, mu⟩ := k
  have key : ∀ w, GoodWidths log w (columns (⟨kt, fe, sc, mu⟩ : KDict N)).length →
      GoodWidths log ((used ⟨kt, fe, sc, mu⟩ w).map fun p => if p.1 ∈ S then (if log then p.2 + c else p.2 * c) else p.2)
        (columns (⟨kt, fe, sc, mu⟩ : KDict N)).length := by
    intro w hw
    refine ⟨Or.inr ?_, ?_⟩
    · rw [List.length_map, ← used_fst ⟨kt, fe, sc, mu⟩ w, List.length_map]
    · cases log with
      | true => exact Or.inl rfl
      | false =>
        refine Or.inr fun t ht => ?_
        simp only [List.mem_map] at ht
        obtain ⟨p, hp, rfl⟩ := ht
        have := used_pos _ w hw p hp
        split
        · exact mul_pos this hc
        · exact this
  cases kt with
  | gaussian w => exact ⟨hk.1, key w hk.2⟩
  | laplacian w => exact ⟨hk.1, key w hk.2⟩
  | sqe w => exact ⟨hk.1, key w hk.2⟩
  | quadratic a b c => exact hk
  | linear => exact hk
  | constant c => exact hk
  | noiseMulti h => exact hk

/-- C287: as the widths of some features grow, predictions and uncertainties tend to those of the model whose kernels do not
use these features.  (`tStd` is the standard deviation of the targets; scaled targets without one are nan.) -/
theorem C287_widths {N : ℕ} (fp : List (Fin N → ℝ)) (t : List ℝ) (ks : List (KDict N)) (hp : PacksList ks) (log sd : Bool)
    (hk : ∀ k ∈ ks, GoodKernel log k) (S : Finset (Fin N)) (hd : ∀ k ∈ ks, HasWidths S k) (r : ℝ)
    (hn : sd = true → tStd t.get ≠ 0) (gp : GP N) (h : init fp t (ks.map (without S)) (some r) log sd = .ok gp) (G : ℝ → GP N)
    (hG : ∀ c, 0 < c → init fp t (ks.map (widen log S c)) (some r) log sd = .ok (G c)) (x : Fin N → ℝ) :
    ∃ (p u v : ℝ) (P U V : ℝ → ℝ), predict gp [x] true = .ok ⟨[some p], some [(some u, some v)]⟩ ∧
      (∀ c, 0 < c → predict (G c) [x] true = .ok ⟨[some (P c)], some [(some (U c), some (V c))]⟩) ∧
      Tendsto P atTop (𝓝 p) ∧ Tendsto U atTop (𝓝 u) ∧ Tendsto V atTop (𝓝 v) := by
  have hp0 := without_packs S ks hp
  obtain ⟨hc, hh, h1, h2, h3, h4⟩ := C43_init_partial _ _ _ hp0 _ _ _ gp h
  have hnan : gp.nan = false := by
    have a := hh.1
    unfold store at a
    rw [h4] at a
    cases sd with
    | false =>
      simp only [Bool.false_eq_true, if_false, Except.ok.injEq, Stored.mk.injEq, Option.isSome_some, if_true] at a
      exact a.2.2.1.symm
    | true =>
      simp only [if_true, Except.ok.injEq, Stored.mk.injEq] at a
      rw [← a.2.2.1]
      exact decide_eq_false (hn rfl)
  have hu : (gram (ks.map (without S)) log (some r) gp.fp).det ≠ 0 := by
    have := hc.1.ne_zero
    rwa [h1, h2, h3] at this
  obtain ⟨l1, l2⟩ := mu_lim (some r) (cov_widen log S ks hk hd) gp.fp gp.target hu (gp.scaleRow x)
  have hresc : Continuous gp.rescale := by
    unfold GP.rescale
    split
    · unfold Scal.untgt
      fun_prop
    · exact continuous_id
  have all : ∀ (ks' : List (KDict N)) (hp' : PacksList ks') (hk' : ∀ k ∈ ks', GoodKernel log k) (g : GP N),
      init fp t ks' (some r) log sd = .ok g →
      predict g [x] true = .ok ⟨[some (gp.rescale (mu ks' log (some r) gp.fp gp.target (gp.scaleRow x)))],
        some [(some (Real.sqrt (va ks' log (some r) gp.fp (gp.scaleRow x)) * gp.tstd),
          some ((Real.sqrt (va ks' log (some r) gp.fp (gp.scaleRow x)) + r) * gp.tstd))]⟩ := by
    intro ks' hp' hk' g hg
    obtain ⟨m1, m2, m3, m4⟩ := model hp0 hp' h hg
    obtain ⟨hc', hh', h1', h2', h3', h4'⟩ := C43_init_partial _ _ _ hp' _ _ _ g hg
    have hv := (C42_variance g hc' (by rw [h1', h3']; exact hk') (gp.scaleRow x)).1
    rw [m2] at hv
    rw [hc'.predict_unc [x] (by simp) r h2']
    simp only [List.map_cons, List.map_nil, m4, m1, hnan, GP.unc, npSqrt, not_lt.2 hv, if_false, m3, m2, Bool.false_eq_true,
      Option.map_some]
  refine ⟨_, _, _, _, _, _, all _ hp0 (by
    intro k hk'
    obtain ⟨k', h', rfl⟩ := List.mem_map.1 hk'
    exact without_good log S k' (hk k' h')) gp h, fun c hcp => all _ (widen_packs log S c ks hp) (by
    intro k hk'
    obtain ⟨k', h', rfl⟩ := List.mem_map.1 hk'
    exact widen_good log S c hcp k' (hk k' h')) _ (hG c hcp), ?_, ?_, ?_⟩
  · exact (hresc.tendsto _).comp l1
  · exact ((Real.continuous_sqrt.tendsto _).comp l2).mul_const _
  · exact (((Real.continuous_sqrt.tendsto _).comp l2).add_const r).mul_const _

/-- C287: features that have the same value in all training and test points need not be given to the kernels: predictions and
uncertainties are the same without them. -/
theorem C287_constant {N : ℕ} (fp : List (Fin N → ℝ)) (t : List ℝ) (ks : List (KDict N)) (hp : PacksList ks) (log sd : Bool)
    (S : Finset (Fin N)) (hd : ∀ k ∈ ks, HasWidths S k) (reg : Option ℝ) (v : Fin N → ℝ) (hfp : ∀ x ∈ fp, ∀ j ∈ S, x j = v j)
    (gp : GP N) (h : init fp t ks reg log sd = .ok gp) :
    ∃ gp', init fp t (ks.map (without S)) reg log sd = .ok gp' ∧
      ∀ (test : List (Fin N → ℝ)) (b : Bool), (∀ x ∈ test, ∀ j ∈ S, x j = v j) → predict gp' test b = predict gp test b := by
  have hp0 := without_packs S ks hp
  obtain ⟨hne, hpd⟩ := init_posDef hp h
  obtain ⟨hc, hh, h1, h2, h3, h4⟩ := C43_init_partial _ _ _ hp _ _ _ gp h
  -- stored features
  obtain ⟨v', hv', hrow⟩ : ∃ v' : Fin N → ℝ, (∀ x ∈ gp.fp, ∀ j ∈ S, x j = v' j) ∧
      ∀ x : Fin N → ℝ, (∀ j ∈ S, x j = v j) → ∀ j ∈ S, gp.scaleRow x j = v' j := by
    have a := hh.1
    unfold store at a
    rw [h4] at a
    cases sd with
    | false =>
      simp only [Bool.false_eq_true, if_false, Except.ok.injEq, Stored.mk.injEq] at a
      refine ⟨v, by rw [← a.1]; exact hfp, fun x hx j hj => ?_⟩
      unfold GP.scaleRow
      rw [h4]
      exact hx j hj
    | true =>
      simp only [if_true, Except.ok.injEq, Stored.mk.injEq] at a
      refine ⟨(scalOf fp t).row v, ?_, fun x hx j hj => ?_⟩
      · rw [← a.1]
        intro x hx j hj
        obtain ⟨z, hz, rfl⟩ := List.mem_map.1 hx
        simp only [Scal.row, hfp z hz j hj]
      · unfold GP.scaleRow
        rw [h4, ← a.2.2.2]
        simp only [Scal.row, hx j hj]
  have hg : gram (ks.map (without S)) log reg gp.fp = gram ks log reg gp.fp := by
    ext i j
    rw [gram, gram, covSelf_apply, covSelf_apply, cov_without log S ks hd]
    intro a ha
    rw [hv' _ (List.get_mem _ _) a ha, hv' _ (List.get_mem _ _) a ha]
  have hst : store (blank (ks.map (without S)) reg log sd) fp (some t) = .ok ⟨gp.fp, gp.target, gp.nan, gp.scaling⟩ := by
    have a := hh.1
    have s := hc.2.2.2
    unfold store at a ⊢
    rw [h4] at a s
    cases sd with
    | false =>
      have s : gp.scaling = none := by simpa using s
      simp only [Bool.false_eq_true, if_false, Option.getD_some, Option.isSome_some, if_true] at a
      simp only [blank, Bool.false_eq_true, if_false, Option.getD_some, Option.isSome_some, if_true]
      rw [s] at a
      rw [s]
      exact a
    | true =>
      simp only [if_true] at a
      simp only [blank, if_true]
      exact a
  obtain ⟨l, hb⟩ := updateData_of (blank (ks.map (without S)) reg log sd) fp t log _ hh.2.2 hh.2.1 hst hp0
    (by simpa [blank] using hne) (by
      change IsUnit (gram (ks.map (without S)) log reg gp.fp).det
      rw [hg]; exact hpd.det_pos.ne'.isUnit) (by
      change (gram (ks.map (without S)) log reg gp.fp).PosDef
      rw [hg]; exact hpd)
  obtain ⟨gp', hi⟩ : ∃ gp', init fp t (ks.map (without S)) reg log sd = .ok gp' := by
    refine ⟨_, Eq.trans ?_ hb⟩
    unfold init
    simp [hh.2.1, Bind.bind, Except.bind, pure, Except.pure]
  refine ⟨gp', hi, fun test b ht => ?_⟩
  obtain ⟨m1, m2, m3, m4⟩ := model hp hp0 h hi
  obtain ⟨n1, n2, n3, n4⟩ := model hp hp h h
  obtain ⟨hc', hh', h1', h2', h3', h4'⟩ := C43_init_partial _ _ _ hp0 _ _ _ _ hi
  have hkv : ∀ x ∈ test, kvec (ks.map (without S)) log (gp.scaleRow x) gp.fp.get = kvec ks log (gp.scaleRow x) gp.fp.get := by
    intro x hx
    funext i
    refine cov_without log S ks hd _ _ _ fun j hj => ?_
    rw [hrow x (ht x hx) j hj, hv' _ (List.get_mem _ _) j hj]
  have hmu : ∀ x ∈ test, mu (ks.map (without S)) log reg gp.fp gp.target (gp.scaleRow x) = mu ks log reg gp.fp gp.target (gp.scaleRow x) := by
    intro x hx
    unfold mu
    rw [hg, hkv x hx]
  have hva : ∀ x ∈ test, va (ks.map (without S)) log reg gp.fp (gp.scaleRow x) = va ks log reg gp.fp (gp.scaleRow x) := by
    intro x hx
    unfold va
    rw [hg, hkv x hx, cov_without log S ks hd _ _ _ fun _ _ => rfl]
  by_cases he : test = []
  · subst he
    simp [predict, Bind.bind, Except.bind, throw, throwThe, MonadExceptOf.throw]
  have emean : ∀ x ∈ test, gp'.mean (gp'.scaleRow x) = gp.mean (gp.scaleRow x) := by
    intro x hx
    rw [m4, m1, n1, hmu x hx]
  have eunc : ∀ r, ∀ x ∈ test, gp'.unc r (gp'.scaleRow x) = gp.unc r (gp.scaleRow x) := by
    intro r x hx
    unfold GP.unc
    rw [m4, m2, n2, hva x hx, m3]
  cases b with
  | false =>
    rw [hc.predict_eq test he, hc'.predict_eq test he, List.map_congr_left emean]
  | true =>
    cases hr : reg with
    | none =>
      have p1 : gp.cinv.1 = gp.target.length := by rw [hc.2.1, hc.2.2.1]
      have p2 : gp.cinv.1 = gp.fp.length := by rw [hc.2.1]
      have p1' : gp'.cinv.1 = gp'.target.length := by rw [hc'.2.1, hc'.2.2.1]
      have p2' : gp'.cinv.1 = gp'.fp.length := by rw [hc'.2.1]
      rw [hr] at h2 h2'
      unfold predict
      simp only [Bind.bind, Except.bind, pure, Except.pure, throw, throwThe, MonadExceptOf.throw, h2, h2', ← p1, ← p2, ← p1', ← p2']
      simp
    | some r =>
      rw [hr] at h2 h2'
      rw [hc.predict_unc test he r h2, hc'.predict_unc test he r h2', List.map_congr_left emean, List.map_congr_left (eunc r)]

/-- Two features, a constant among the kernels. -/
def twoK : List (KDict 2) := [⟨.gaussian [1, 2], none, some 1, false⟩, ⟨.constant 1, none, none, false⟩]

example : PacksList twoK ∧ (∀ k ∈ twoK, GoodKernel false k) ∧ (∀ k ∈ twoK, HasWidths {1} k) ∧
    (∃ gp, init [![0, 5], ![2, 5]] [0, 1] twoK (some 1) false true = .ok gp) ∧ tStd ([0, 1] : List ℝ).get ≠ 0 ∧
    (∃ gp, init [![0, 5], ![2, 5]] [0, 1] (twoK.map (without {1})) (some 1) false true = .ok gp) ∧
    ∃ G : ℝ → GP 2, ∀ c, 0 < c → init [![0, 5], ![2, 5]] [0, 1] (twoK.map (widen false {1} c)) (some 1) false true = .ok (G c) := by
  have hp : PacksList twoK := by simp [twoK, PacksList, Packs]
  have hk : ∀ k ∈ twoK, GoodKernel false k := by
    simp [twoK, GoodKernel, GoodWidths, columns]
  have hd : ∀ k ∈ twoK, HasWidths {1} k := by
    intro k hk
    simp only [twoK, List.mem_cons, List.not_mem_nil, or_false] at hk
    rcases hk with rfl | rfl
    · exact ⟨0, by simp [columns], by simp⟩
    · trivial
  have build : ∀ ks : List (KDict 2), ks ≠ [] → PacksList ks → (∀ k ∈ ks, GoodKernel false k) →
      ∃ gp, init [![0, 5], ![2, 5]] [0, 1] ks (some 1) false true = .ok gp := fun ks h1 h2 h3 =>
    C113_can_build _ _ ks 1 false true (by simp) rfl h1 h2 h3 (Or.inr one_ne_zero)
  refine ⟨hp, hk, hd, build _ (by simp [twoK]) hp hk, ?_, build _ (by simp [twoK]) (without_packs _ _ hp) ?_, ?_⟩
  · simp [tStd, colStd, colMean, Fin.sum_univ_succ]
    norm_num
  · intro k h
    obtain ⟨k', h', rfl⟩ := List.mem_map.1 h
    exact without_good _ _ _ (hk k' h')
  · have : ∀ c : ℝ, ∃ g : GP 2, 0 < c → init [![0, 5], ![2, 5]] [0, 1] (twoK.map (widen false {1} c)) (some 1) false true = .ok g := by
      intro c
      by_cases hc : 0 < c
      · obtain ⟨g, hg⟩ := build (twoK.map (widen false {1} c)) (by simp [twoK]) (widen_packs _ _ _ _ hp) (by
          intro k h
          obtain ⟨k', h', rfl⟩ := List.mem_map.1 h
          exact widen_good _ _ _ hc _ (hk k' h'))
        exact ⟨g, fun _ => hg⟩
      · exact ⟨blank [] none false false, fun h => absurd h hc⟩
    choose G hG using this
    exact ⟨G, hG⟩

end CatLearn.Proc
