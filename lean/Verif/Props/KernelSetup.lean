import Verif.Model.KernelSetup
import Verif.Spec.Kernel
import Mathlib.Tactic.NormNum
import Mathlib.Tactic.Ring

/-!
# Packing and unpacking of hyperparameters (C45)
-/

namespace CatLearn.Kernel

open CatLearn

/-- Kernel types whose hyperparameters survive the round trip at any place in the list. -/
def Packs {N : Nat} (k : KDict N) : Prop :=
  match k.ktype with
  | .quadratic _ _ _ => False
  | .noiseMulti _ => False
  | _ => True

/-- All kernels but the last one are of types that pack well; the last one can also be a noise kernel. -/
def PacksList {N : Nat} : List (KDict N) → Prop
  | [] => True
  | [k] => ∀ s d b, k.ktype ≠ .quadratic s d b
  | k :: ks => Packs k ∧ PacksList ks

theorem item_append (pre post : List ℝ) (t : ℝ) : item (pre ++ t :: post) pre.length = .ok t := by
  simp [item]

theorem slice_append (pre h post : List ℝ) : slice (pre ++ (h ++ post)) pre.length h.length = h := by
  simp [slice]

/-- What one iteration does when the list of hyperparameters is long enough. -/
theorem setKernel_spec {N : Nat} (k : KDict N) (h0 : List ℝ) (hk : kdict2list k = .ok h0)
    (hq : ∀ s d b, k.ktype ≠ .quadratic s d b) (pre h post : List ℝ) (hl : h.length = h0.length) :
    ∃ k' ki', setKernel (pre ++ (h ++ post)) pre.length k = .ok (k', ki') ∧ kdict2list k' = .ok h ∧
      k'.features = k.features ∧ k'.mult = k.mult ∧ (h = h0 → k' = k) ∧
      (Packs k → ki' = (pre ++ h).length) := by
  obtain ⟨kt, fe, sc, mu⟩ := k
  cases sc with
  | none =>
    cases kt with
    | gaussian w =>
      simp only [kdict2list, Option.toList_none, List.nil_append, Except.ok.injEq] at hk
      subst hk
      refine ⟨⟨.gaussian h, fe, none, mu⟩, pre.length + h.length, ?_, ?_, rfl, rfl, ?_, ?_⟩
      · simp [setKernel, ← hl, slice_append, pure, Except.pure, bind, Except.bind]
      · simp [kdict2list]
      · rintro rfl; rfl
      · simp
    | laplacian w =>
      simp only [kdict2list, Option.toList_none, List.nil_append, Except.ok.injEq] at hk
      subst hk
      refine ⟨⟨.laplacian h, fe, none, mu⟩, pre.length + h.length, ?_, ?_, rfl, rfl, ?_, ?_⟩
      · simp [setKernel, ← hl, slice_append, pure, Except.pure, bind, Except.bind]
      · simp [kdict2list]
      · rintro rfl; rfl
      · simp
    | sqe w =>
      simp only [kdict2list, Option.toList_none, List.nil_append, Except.ok.injEq] at hk
      subst hk
      refine ⟨⟨.sqe h, fe, none, mu⟩, pre.length + h.length, ?_, ?_, rfl, rfl, ?_, ?_⟩
      · simp [setKernel, ← hl, slice_append, pure, Except.pure, bind, Except.bind]
      · simp [kdict2list]
      · rintro rfl; rfl
      · simp
    | quadratic s d b => exact absurd rfl (hq s d b)
    | linear =>
      simp only [kdict2list, Option.toList_none, Except.ok.injEq] at hk
      subst hk
      obtain rfl := List.length_eq_zero_iff.mp hl
      exact ⟨⟨.linear, fe, none, mu⟩, pre.length, by simp [setKernel, pure, Except.pure, bind, Except.bind],
        by simp [kdict2list], rfl, rfl, fun _ => rfl, by simp⟩
    | constant c =>
      simp only [kdict2list, Option.toList_none, List.nil_append, Except.ok.injEq] at hk
      subst hk
      obtain ⟨t, rfl⟩ := List.length_eq_one_iff.mp hl
      refine ⟨⟨.constant t, fe, none, mu⟩, pre.length + 1, ?_, by simp [kdict2list], rfl, rfl, ?_, by simp⟩
      · simp [setKernel, item_append, pure, Except.pure, bind, Except.bind]
      · intro h; simp at h; rw [h]
    | noiseMulti w =>
      simp only [kdict2list, Option.toList_none, List.nil_append, Except.ok.injEq] at hk
      subst hk
      refine ⟨⟨.noiseMulti h, fe, none, mu⟩, pre.length, ?_, ?_, rfl, rfl, ?_, ?_⟩
      · simp [setKernel, ← hl, slice_append, pure, Except.pure, bind, Except.bind]
      · simp [kdict2list]
      · rintro rfl; rfl
      · simp [Packs]
  | some s0 =>
    have hcons : ∃ t h', h = t :: h' := by
      cases h with
      | nil =>
        exfalso
        cases kt with
        | quadratic s d b => exact hq s d b rfl
        | _ =>
          simp only [kdict2list, Except.ok.injEq] at hk
          subst hk
          simp at hl
      | cons t h' => exact ⟨t, h', rfl⟩
    obtain ⟨t, h', rfl⟩ := hcons
    have hi : item (pre ++ (t :: h' ++ post)) pre.length = .ok t := item_append _ _ _
    have hsl : slice (pre ++ (t :: h' ++ post)) (pre.length + 1) h'.length = h' := by
      have := slice_append (pre ++ [t]) h' post
      simpa using this
    cases kt with
    | gaussian w =>
      simp only [kdict2list, Option.toList_some, List.singleton_append, Except.ok.injEq] at hk
      subst hk
      simp only [List.length_cons, Nat.add_right_cancel_iff] at hl
      refine ⟨⟨.gaussian h', fe, some t, mu⟩, pre.length + 1 + h'.length, ?_, ?_, rfl, rfl, ?_, ?_⟩
      · simp only [setKernel, hi, pure, Except.pure, bind, Except.bind, ← hl, hsl]
      · simp [kdict2list]
      · intro h; simp at h; rw [h.1, h.2]
      · simp; omega
    | laplacian w =>
      simp only [kdict2list, Option.toList_some, List.singleton_append, Except.ok.injEq] at hk
      subst hk
      simp only [List.length_cons, Nat.add_right_cancel_iff] at hl
      refine ⟨⟨.laplacian h', fe, some t, mu⟩, pre.length + 1 + h'.length, ?_, ?_, rfl, rfl, ?_, ?_⟩
      · simp only [setKernel, hi, pure, Except.pure, bind, Except.bind, ← hl, hsl]
      · simp [kdict2list]
      · intro h; simp at h; rw [h.1, h.2]
      · simp; omega
    | sqe w =>
      simp only [kdict2list, Option.toList_some, List.singleton_append, Except.ok.injEq] at hk
      subst hk
      simp only [List.length_cons, Nat.add_right_cancel_iff] at hl
      refine ⟨⟨.sqe h', fe, some t, mu⟩, pre.length + 1 + h'.length, ?_, ?_, rfl, rfl, ?_, ?_⟩
      · simp only [setKernel, hi, pure, Except.pure, bind, Except.bind, ← hl, hsl]
      · simp [kdict2list]
      · intro h; simp at h; rw [h.1, h.2]
      · simp; omega
    | quadratic s d b => exact absurd rfl (hq s d b)
    | linear =>
      simp only [kdict2list, Option.toList_some, Except.ok.injEq] at hk
      subst hk
      obtain rfl : h' = [] := List.length_eq_zero_iff.mp (by simpa using hl)
      refine ⟨⟨.linear, fe, some t, mu⟩, pre.length + 1, ?_, by simp [kdict2list], rfl, rfl, ?_, by simp⟩
      · simp only [setKernel, hi, pure, Except.pure, bind, Except.bind]
      · intro h; simp at h; rw [h]
    | constant c =>
      simp only [kdict2list, Option.toList_some, List.singleton_append, Except.ok.injEq] at hk
      subst hk
      simp only [List.length_cons, List.length_nil, Nat.add_right_cancel_iff, Nat.zero_add] at hl
      obtain ⟨u, rfl⟩ := List.length_eq_one_iff.mp hl
      have hi2 : item (pre ++ ([t, u] ++ post)) (pre.length + 1) = .ok u := by
        have := item_append (pre ++ [t]) post u
        simpa using this
      refine ⟨⟨.constant u, fe, some t, mu⟩, pre.length + 1 + 1, ?_, by simp [kdict2list], rfl, rfl, ?_, by simp⟩
      · simp only [setKernel, hi, hi2, pure, Except.pure, bind, Except.bind]
      · intro h; simp at h; rw [h.1, h.2]
    | noiseMulti w =>
      simp only [kdict2list, Option.toList_some, List.singleton_append, Except.ok.injEq] at hk
      subst hk
      simp only [List.length_cons, Nat.add_right_cancel_iff] at hl
      refine ⟨⟨.noiseMulti h', fe, some t, mu⟩, pre.length + 1, ?_, ?_, rfl, rfl, ?_, ?_⟩
      · simp only [setKernel, hi, pure, Except.pure, bind, Except.bind, ← hl, hsl]
      · simp [kdict2list]
      · intro h; simp at h; rw [h.1, h.2]
      · simp [Packs]

/-- The loop, for a list of hyperparameters that is long enough. -/
theorem list2kdictFrom_spec {N : Nat} (ks : List (KDict N)) (hp : PacksList ks) (ls : List (List ℝ))
    (hks : ks.mapM kdict2list = .ok ls) (pre h post : List ℝ) (hl : h.length = ls.flatten.length) :
    ∃ ks' ls', list2kdictFrom (pre ++ (h ++ post)) pre.length ks = .ok ks' ∧ ks'.mapM kdict2list = .ok ls' ∧
      ls'.flatten = h ∧ ks'.map (fun k => (k.features, k.mult)) = ks.map (fun k => (k.features, k.mult)) ∧
      (h = ls.flatten → ks' = ks) := by
  induction ks generalizing ls pre h with
  | nil =>
    simp [pure, Except.pure] at hks
    subst hks
    simp at hl
    subst hl
    exact ⟨[], [], rfl, rfl, rfl, rfl, fun _ => rfl⟩
  | cons k ks ih =>
    rw [List.mapM_cons] at hks
    cases hk : kdict2list k with
    | error e => simp [hk, bind, Except.bind] at hks
    | ok h0 =>
      cases hr : ks.mapM kdict2list with
      | error e => simp [hk, hr, bind, Except.bind] at hks
      | ok lr =>
        simp [hk, hr, bind, Except.bind, pure, Except.pure] at hks
        subst hks
        have hq : ∀ s d b, k.ktype ≠ .quadratic s d b := by
          cases ks with
          | nil => exact hp
          | cons k2 ks =>
            intro s d b hkt
            have := hp.1
            simp [Packs, hkt] at this
        have hspl : h = h.take h0.length ++ h.drop h0.length := (List.take_append_drop _ _).symm
        have hlen : (h.take h0.length).length = h0.length := by
          simp only [List.length_take]
          simp only [List.flatten_cons, List.length_append] at hl
          omega
        obtain ⟨k', ki', e1, e2, e3, e4, e5, e6⟩ := setKernel_spec k h0 hk hq pre (h.take h0.length)
          (h.drop h0.length ++ post) hlen
        have ee : pre ++ (h ++ post) = pre ++ (h.take h0.length ++ (h.drop h0.length ++ post)) := by
          rw [← List.append_assoc (h.take _), List.take_append_drop]
        rw [ee]
        cases ks with
        | nil =>
          simp [pure, Except.pure] at hr
          subst hr
          have hd : h.take h0.length = h := by
            apply List.take_of_length_le
            simp at hl
            omega
          refine ⟨[k'], [h.take h0.length], ?_, ?_, ?_, ?_, ?_⟩
          · simp [list2kdictFrom, e1, bind, Except.bind, pure, Except.pure]
          · simp [e2, bind, Except.bind, pure, Except.pure]
          · simpa using hd
          · simp [e3, e4]
          · intro hh
            rw [e5]
            rw [hd, hh]
            simp
        | cons k2 ks =>
          have hpk : Packs k := hp.1
          obtain ⟨ks', ls', f1, f2, f3, f4, f5⟩ := ih hp.2 lr hr (pre ++ h.take h0.length) (h.drop h0.length)
            (by simp only [List.length_drop]; simp only [List.flatten_cons, List.length_append] at hl; omega)
          rw [List.append_assoc, ← e6 hpk] at f1
          refine ⟨k' :: ks', h.take h0.length :: ls', ?_, ?_, ?_, ?_, ?_⟩
          · rw [list2kdictFrom]
            simp only [e1, bind, Except.bind, f1, pure, Except.pure]
          · rw [List.mapM_cons]
            simp only [e2, f2, bind, Except.bind, pure, Except.pure]
          · simp [f3]
          · simp only [List.map_cons, e3, e4]
            rw [f4]
            rfl
          · intro hh
            rw [e5 (by rw [hh]; simp), f5 (by rw [hh]; simp)]

/-- C45 (`_partial`: no quadratic kernels, and noise kernels only at the end of the kernel list): writing a list of
hyperparameters of the right length, possibly followed by others such as the regularisation, into the kernels and
reading it again gives the same list, and leaves the features and operations of the kernels alone. -/
theorem C45_list_round_trip_partial {N : Nat} (ks : List (KDict N)) (hp : PacksList ks) (l : List ℝ)
    (hks : kdicts2list ks = .ok l) (θ extra : List ℝ) (hl : θ.length = l.length) :
    ∃ ks' : List (KDict N), list2kdict (θ ++ extra) ks = .ok ks' ∧ kdicts2list ks' = .ok θ ∧
      ks'.map (fun k => (k.features, k.mult)) = ks.map (fun k => (k.features, k.mult)) := by
  unfold kdicts2list at hks
  split at hks
  · simp at hks
  · next hne =>
    cases hm : ks.mapM kdict2list with
    | error e => simp [hm, bind, Except.bind] at hks
    | ok ls =>
      simp [hm, bind, Except.bind, pure, Except.pure] at hks
      subst hks
      obtain ⟨ks', ls', f1, f2, f3, f4, f5⟩ := list2kdictFrom_spec ks hp ls hm [] θ extra hl
      refine ⟨ks', f1, ?_, f4⟩
      have hne' : ks'.isEmpty = false := by
        cases ks' with
        | nil =>
          cases ks with
          | nil => simp at hne
          | cons k ks => simp at f4
        | cons => rfl
      simp [kdicts2list, hne', f2, f3, bind, Except.bind, pure, Except.pure]

/-- C45 (`_partial`: as before): reading the hyperparameters and writing them back changes nothing. -/
theorem C45_kernel_round_trip_partial {N : Nat} (ks : List (KDict N)) (hp : PacksList ks) (l : List ℝ)
    (hks : kdicts2list ks = .ok l) (extra : List ℝ) : list2kdict (l ++ extra) ks = .ok ks := by
  unfold kdicts2list at hks
  split at hks
  · simp at hks
  · next hne =>
    cases hm : ks.mapM kdict2list with
    | error e => simp [hm, bind, Except.bind] at hks
    | ok ls =>
      simp [hm, bind, Except.bind, pure, Except.pure] at hks
      subst hks
      obtain ⟨ks', ls', f1, f2, f3, f4, f5⟩ := list2kdictFrom_spec ks hp ls hm [] ls.flatten extra rfl
      rw [f5 rfl] at f1
      exact f1

example : PacksList (N := 2) [⟨.gaussian [1, 2], none, some 3, false⟩, ⟨.constant 1, none, none, false⟩,
    ⟨.noiseMulti [1, 2], none, none, false⟩] ∧
    kdicts2list (N := 2) [⟨.gaussian [1, 2], none, some 3, false⟩, ⟨.constant 1, none, none, false⟩,
      ⟨.noiseMulti [1, 2], none, none, false⟩] = .ok [3, 1, 2, 1, 1, 2] := by
  refine ⟨⟨trivial, trivial, ?_⟩, rfl⟩
  intro s d b h
  simp at h

/-- All numbers of a kernel: scaling, then widths, slopes, degree or constants. -/
def vals {N : Nat} (k : KDict N) : List ℝ :=
  k.scaling.toList ++
  match k.ktype with
  | .gaussian w => w
  | .laplacian w => w
  | .sqe w => w
  | .quadratic s d _ => s ++ [d]
  | .linear => []
  | .constant c => [c]
  | .noiseMulti h => h

/-- Noise kernels only at the end. -/
def NoiseLast {N : Nat} : List (KDict N) → Prop
  | [] => True
  | [_] => True
  | k :: ks => (∀ h, k.ktype ≠ .noiseMulti h) ∧ NoiseLast ks

private theorem setKernel_vals {N : Nat} (k : KDict N) (pre h post : List ℝ) (hl : h.length = (vals k).length) :
    ∃ k' ki', setKernel (pre ++ (h ++ post)) pre.length k = .ok (k', ki') ∧ vals k' = h ∧
      k'.features = k.features ∧ k'.mult = k.mult ∧
      ((∀ h, k.ktype ≠ .noiseMulti h) → ki' = (pre ++ h).length) := by
  obtain ⟨kt, fe, sc, mu⟩ := k
  have key : ∀ (sc : Option ℝ) (pre h : List ℝ), h.length = (vals ⟨kt, fe, none, mu⟩ : List ℝ).length →
      ∃ kt' ki', (match kt with
        | .gaussian w => (pure ({ ktype := .gaussian (slice (pre ++ (h ++ post)) pre.length w.length), features := fe, scaling := sc, mult := mu }, pre.length + w.length) : Except PyErr (KDict N × Nat))
        | .laplacian w => pure ({ ktype := .laplacian (slice (pre ++ (h ++ post)) pre.length w.length), features := fe, scaling := sc, mult := mu }, pre.length + w.length)
        | .sqe w => pure ({ ktype := .sqe (slice (pre ++ (h ++ post)) pre.length w.length), features := fe, scaling := sc, mult := mu }, pre.length + w.length)
        | .quadratic s _ _ => do
          let d ← item (pre ++ (h ++ post)) (pre.length + s.length)
          pure ({ ktype := .quadratic (slice (pre ++ (h ++ post)) pre.length s.length) d true, features := fe, scaling := sc, mult := mu }, pre.length + s.length + 1)
        | .linear => pure ({ ktype := kt, features := fe, scaling := sc, mult := mu }, pre.length)
        | .constant _ => do
          let c ← item (pre ++ (h ++ post)) pre.length
          pure ({ ktype := .constant c, features := fe, scaling := sc, mult := mu }, pre.length + 1)
        | .noiseMulti h' => pure ({ ktype := .noiseMulti (slice (pre ++ (h ++ post)) pre.length h'.length), features := fe, scaling := sc, mult := mu }, pre.length))
        = .ok (⟨kt', fe, sc, mu⟩, ki') ∧ vals (N := N) ⟨kt', fe, none, mu⟩ = h ∧
        ((∀ h, kt ≠ .noiseMulti h) → ki' = (pre ++ h).length) := by
    intro sc pre h hl
    cases kt with
    | quadratic s d b =>
      obtain ⟨hs, hd, rfl⟩ : ∃ hs hd, h = hs ++ [hd] := by
        rcases List.eq_nil_or_concat h with rfl | ⟨a, b, rfl⟩
        · simp [vals] at hl
        · exact ⟨a, b, by simp⟩
      have h1 : hs.length = s.length := by simpa [vals] using hl
      refine ⟨.quadratic hs hd true, pre.length + s.length + 1, ?_, by simp [vals], by simp [h1]; omega⟩
      have e1 : item (pre ++ (hs ++ [hd] ++ post)) (pre.length + s.length) = .ok hd := by
        have := item_append (pre ++ hs) post hd
        simpa [h1] using this
      have e2 : slice (pre ++ (hs ++ [hd] ++ post)) pre.length s.length = hs := by
        have := slice_append pre hs ([hd] ++ post)
        simpa [h1] using this
      simp only [e1, e2, bind, Except.bind, pure, Except.pure]
    | constant c =>
      obtain ⟨t, rfl⟩ : ∃ t, h = [t] := List.length_eq_one_iff.mp (by simpa [vals] using hl)
      refine ⟨.constant t, pre.length + 1, ?_, by simp [vals], by simp⟩
      have := item_append pre post t
      simp only [List.cons_append, List.nil_append, this, bind, Except.bind, pure, Except.pure]
    | linear =>
      obtain rfl : h = [] := by simpa [vals] using hl
      exact ⟨.linear, pre.length, rfl, by simp [vals], by simp⟩
    | gaussian w =>
      have h1 : w.length = h.length := by simpa [vals] using hl.symm
      exact ⟨.gaussian h, pre.length + h.length, by simp [h1, slice_append, pure, Except.pure], by simp [vals], by simp⟩
    | laplacian w =>
      have h1 : w.length = h.length := by simpa [vals] using hl.symm
      exact ⟨.laplacian h, pre.length + h.length, by simp [h1, slice_append, pure, Except.pure], by simp [vals], by simp⟩
    | sqe w =>
      have h1 : w.length = h.length := by simpa [vals] using hl.symm
      exact ⟨.sqe h, pre.length + h.length, by simp [h1, slice_append, pure, Except.pure], by simp [vals], by simp⟩
    | noiseMulti w =>
      have h1 : w.length = h.length := by simpa [vals] using hl.symm
      exact ⟨.noiseMulti h, pre.length, by simp [h1, slice_append, pure, Except.pure], by simp [vals],
        fun h => absurd rfl (h w)⟩
  cases sc with
  | none =>
    obtain ⟨kt', ki', e1, e2, e3⟩ := key none pre h hl
    refine ⟨_, _, ?_, e2, rfl, rfl, e3⟩
    unfold setKernel
    exact e1
  | some s0 =>
    obtain ⟨t, h', rfl⟩ : ∃ t h', h = t :: h' := by
      cases h with
      | nil => simp [vals] at hl
      | cons t h' => exact ⟨t, h', rfl⟩
    obtain ⟨kt', ki', e1, e2, e3⟩ := key (some t) (pre ++ [t]) h' (by simpa [vals] using hl)
    refine ⟨⟨kt', fe, some t, mu⟩, ki', ?_, ?_, rfl, rfl, ?_⟩
    · unfold setKernel
      have hi : item (pre ++ (t :: h' ++ post)) pre.length = .ok t := item_append _ _ _
      simp only [hi, bind, Except.bind, pure, Except.pure]
      have ee : pre ++ [t] ++ (h' ++ post) = pre ++ (t :: h' ++ post) := by simp
      rw [ee] at e1
      simp only [List.length_append, List.length_singleton, bind, Except.bind, pure, Except.pure] at e1
      exact e1
    · rw [← e2]; simp [vals]
    · intro hh; rw [e3 hh]; simp

private theorem list2kdictFrom_vals {N : Nat} (ks : List (KDict N)) (hp : NoiseLast ks) (pre h post : List ℝ)
    (hl : h.length = (ks.flatMap vals).length) :
    ∃ ks', list2kdictFrom (pre ++ (h ++ post)) pre.length ks = .ok ks' ∧ ks'.flatMap vals = h ∧
      ks'.map (fun k => (k.features, k.mult, (vals k).length)) = ks.map (fun k => (k.features, k.mult, (vals k).length)) := by
  induction ks generalizing pre h with
  | nil =>
    have : h = [] := by simpa using hl
    subst this
    exact ⟨[], rfl, rfl, rfl⟩
  | cons k ks ih =>
    rw [List.flatMap_cons, List.length_append] at hl
    obtain ⟨h1, h2, rfl, hl1, hl2⟩ : ∃ h1 h2, h = h1 ++ h2 ∧ h1.length = (vals k).length ∧
        h2.length = (ks.flatMap vals).length :=
      ⟨h.take (vals k).length, h.drop (vals k).length, (List.take_append_drop _ _).symm, by rw [List.length_take]; omega, by rw [List.length_drop]; omega⟩
    obtain ⟨k', ki', e1, e2, e3, e4, e5⟩ := setKernel_vals k pre h1 (h2 ++ post) hl1
    rw [List.append_assoc]
    cases ks with
    | nil =>
      have : h2 = [] := by simpa using hl2
      subst this
      refine ⟨[k'], ?_, by simp [e2], by simp [e2, e3, e4, hl1]⟩
      simp only [list2kdictFrom, e1, bind, Except.bind, pure, Except.pure]
    | cons k2 ks =>
      obtain ⟨ks', f1, f2, f3⟩ := ih hp.2 (pre ++ h1) h2 hl2
      rw [List.append_assoc, ← e5 hp.1] at f1
      refine ⟨k' :: ks', ?_, by rw [List.flatMap_cons, e2, f2], by rw [List.map_cons, f3]; simp [e2, e3, e4, hl1]⟩
      rw [list2kdictFrom]
      simp only [e1, bind, Except.bind, f1, pure, Except.pure]

/-- C45 (`_partial`: noise kernels only at the end of the kernel list): `list2kdict` spreads a list of numbers over
the kernels, quadratic ones included, in order and without gap or overlap: each kernel gets as many numbers as it had,
its features and operation stay, and together the kernels hold exactly the numbers given. -/
theorem C45_spread_partial {N : Nat} (ks : List (KDict N)) (hp : NoiseLast ks) (θ extra : List ℝ)
    (hl : θ.length = (ks.flatMap vals).length) :
    ∃ ks', list2kdict (θ ++ extra) ks = .ok ks' ∧ ks'.flatMap vals = θ ∧
      ks'.map (fun k => (k.features, k.mult, (vals k).length)) =
        ks.map (fun k => (k.features, k.mult, (vals k).length)) :=
  list2kdictFrom_vals ks hp [] θ extra hl

example : NoiseLast (N := 2) [⟨.quadratic [1, 2] 3 true, none, some 3, false⟩, ⟨.gaussian [1, 2], none, none, false⟩,
    ⟨.noiseMulti [1, 2], none, none, false⟩] ∧
    ([4, 5, 6, 7, 8, 9, 10, 11] : List ℝ).length =
      (([⟨.quadratic [1, 2] 3 true, none, some 3, false⟩, ⟨.gaussian [1, 2], none, none, false⟩,
        ⟨.noiseMulti [1, 2], none, none, false⟩] : List (KDict 2)).flatMap vals).length := by
  simp [NoiseLast, vals]

/-- C45 fails when a noise kernel is followed by another kernel: the position in the list is not advanced, so that the
next kernel gets the hyperparameters of the noise kernel, whatever the list contains. -/
theorem C45_noise_first_violated {N : Nat} (a b c n1 n2 w : ℝ) :
    list2kdict (N := N) [a, b, c] [⟨.noiseMulti [n1, n2], none, none, false⟩, ⟨.gaussian [w], none, none, false⟩] =
      .ok [⟨.noiseMulti [a, b], none, none, false⟩, ⟨.gaussian [a], none, none, false⟩] ∧
    kdicts2list (N := N) [⟨.noiseMulti [a, b], none, none, false⟩, ⟨.gaussian [a], none, none, false⟩] =
      .ok [a, b, a] ∧ (a ≠ c → [a, b, a] ≠ [a, b, c]) := by
  refine ⟨rfl, rfl, ?_⟩
  intro h h2
  simp at h2
  exact h h2

/-- C45 fails for every quadratic kernel: after its hyperparameters were set from a list they cannot be read again. -/
theorem C45_quadratic_violated {N : Nat} (s : List ℝ) (d : ℝ) (θ : List ℝ) (hθ : θ.length = s.length + 1) :
    ∃ ks' : List (KDict N), list2kdict θ [⟨.quadratic s d false, none, none, false⟩] = .ok ks' ∧
      kdicts2list (N := N) [⟨.quadratic s d false, none, none, false⟩] = .ok (s ++ [d]) ∧
      kdicts2list ks' = .error .value := by
  have hi : item θ (0 + s.length) = .ok (θ[s.length]'(by omega)) := by
    unfold item
    rw [Nat.zero_add, List.getElem?_eq_getElem (by omega)]
  refine ⟨[⟨.quadratic (slice θ 0 s.length) (θ[s.length]'(by omega)) true, none, none, false⟩], ?_, ?_, ?_⟩
  · simp only [list2kdict, list2kdictFrom, setKernel, pure, Except.pure, bind, Except.bind, hi]
  · simp [kdicts2list, kdict2list, bind, Except.bind, pure, Except.pure]
  · simp [kdicts2list, kdict2list, bind, Except.bind]

example : ([1, 2, 3] : List ℝ).length = ([1, 2] : List ℝ).length + 1 := rfl

end CatLearn.Kernel
