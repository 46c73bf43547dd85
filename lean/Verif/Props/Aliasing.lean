import Verif.Model.Aliasing
import Verif.Props.GPBuild

/-!
C125: models do not influence one another.
-/

namespace CatLearn.Aliasing

open CatLearn CatLearn.Kernel CatLearn.Proc

/-! ### Models with dictionaries of their own -/

/-- What the user expects of one step: models are values, a new model starts from the kernels the user wrote down. -/
noncomputable def expect {N : ℕ} (d : Heap N) (l : List (GP N)) : Op N → List (GP N)
  | .make refs fp t reg log sd =>
    match init fp t (refs.map d) reg log sd with
    | .error _ => l
    | .ok gp => l ++ [gp]
  | .update i fp t flag =>
    match l[i]? with
    | none => l
    | some gp =>
      match updateData gp fp t flag with
      | .error _ => l
      | .ok gp' => l.set i gp'
  | .optimize i m =>
    match l[i]? with
    | none => l
    | some gp =>
      match Proc.optimize m gp with
      | .error _ => l
      | .ok gp' => l.set i gp'
  | .abort _ _ => l

/-- The dictionaries an operation hands to a new model. -/
def refsOf {N : ℕ} : Op N → List ℕ
  | .make refs _ _ _ _ _ => refs
  | _ => []

/-- No optimisation raises. -/
def calm {N : ℕ} : Op N → Prop
  | .abort _ _ => False
  | _ => True

theorem writeBack_other {N : ℕ} (rs : List ℕ) (ks : List (KDict N)) (d : Heap N) (r : ℕ) (h : r ∉ rs) :
    writeBack rs ks d r = d r := by
  induction rs generalizing ks d with
  | nil => rfl
  | cons a rs ih =>
    cases ks with
    | nil => rfl
    | cons k ks =>
      simp only [List.mem_cons, not_or] at h
      simp only [writeBack]
      rw [ih _ _ h.2, Function.update_of_ne h.1]

theorem writeBack_map {N : ℕ} (rs : List ℕ) (ks : List (KDict N)) (d : Heap N) (h : rs.Nodup) (hl : ks.length = rs.length) :
    rs.map (writeBack rs ks d) = ks := by
  induction rs generalizing ks d with
  | nil => exact (List.eq_nil_of_length_eq_zero hl).symm
  | cons a rs ih =>
    cases ks with
    | nil => simp at hl
    | cons k ks =>
      rw [List.nodup_cons] at h
      simp only [List.map_cons, writeBack]
      rw [writeBack_other _ _ _ _ h.1, Function.update_self, ih _ _ h.2 (by simpa using hl)]

theorem setKernels_length {N : ℕ} {θ : List ℝ} {ki : ℕ} {ks ks' : List (KDict N)} (h : list2kdictFrom θ ki ks = .ok ks') :
    ks'.length = ks.length := by
  induction ks generalizing ki ks' with
  | nil => simp only [list2kdictFrom, Except.ok.injEq] at h; subst h; rfl
  | cons k ks ih =>
    unfold list2kdictFrom at h
    cases h1 : setKernel θ ki k with
    | error e => simp [h1, bind, Except.bind] at h
    | ok p =>
      cases h2 : list2kdictFrom θ p.2 ks with
      | error e => simp [h1, h2, bind, Except.bind] at h
      | ok l =>
        simp only [h1, h2, bind, Except.bind, pure, Except.pure, Except.ok.injEq] at h
        subst h
        simp [ih h2]

theorem updateLml_length {N : ℕ} {gp gp' : GP N} (h : updateLml gp = .ok gp') : gp'.kernels.length = gp.kernels.length := by
  unfold updateLml at h
  cases h1 : kdicts2list gp.kernels with
  | error e => simp [h1, bind, Except.bind] at h
  | ok θ =>
    cases h2 : list2kdict (θ ++ gp.reg.toList) gp.kernels with
    | error e => simp [h1, h2, bind, Except.bind] at h
    | ok ks =>
      simp only [h1, h2, bind, Except.bind, pure, Except.pure, throw, throwThe, MonadExceptOf.throw] at h
      split at h
      · simp at h
      · split at h
        · simp at h
        · simp only [Except.ok.injEq] at h
          subst h
          exact setKernels_length h2

theorem updateData_length {N : ℕ} {gp gp' : GP N} {fp : List (Fin N → ℝ)} {t : Option (List ℝ)} {flag : Bool}
    (h : updateData gp fp t flag = .ok gp') : gp'.kernels.length = gp.kernels.length := by
  unfold updateData at h
  simp only [bind, Except.bind, pure, Except.pure, throw, throwThe, MonadExceptOf.throw] at h
  split at h
  · simp at h
  · cases h1 : store gp fp t with
    | error e => simp [h1] at h
    | ok st =>
      cases h2 : invGram gp.kernels flag gp.reg st.fp with
      | error e => simp [h1, h2] at h
      | ok ci =>
        simp only [h1, h2] at h
        cases t with
        | none =>
          simp only [Except.ok.injEq] at h
          subst h
          rfl
        | some t => exact (updateLml_length h : gp'.kernels.length = _)

theorem optimize_length {N : ℕ} {gp gp' : GP N} {m : List ℝ → List ℝ × ℝ} (h : Proc.optimize m gp = .ok gp') :
    gp'.kernels.length = gp.kernels.length := by
  obtain ⟨θ, r, ks, r', ci, -, -, h3, -, -, rfl⟩ := optimize_ok h
  exact setKernels_length h3

theorem init_length {N : ℕ} {gp : GP N} {fp : List (Fin N → ℝ)} {t : List ℝ} {ks : List (KDict N)} {reg : Option ℝ} {log sd : Bool}
    (h : init fp t ks reg log sd = .ok gp) : gp.kernels.length = ks.length := by
  unfold init at h
  simp only [bind, Except.bind, pure, Except.pure, throw, throwThe, MonadExceptOf.throw] at h
  split at h
  · simp at h
  · exact updateData_length h

/-- The invariant: the models see what the user expects, and dictionaries no model holds are as the user wrote them. -/
structure Inv {N : ℕ} (d : Heap N) (w : World N) (l : List (GP N)) : Prop where
  views : w.objs.map (Obj.view w.dicts) = l
  nodup : (w.objs.flatMap Obj.refs).Nodup
  free : ∀ r, r ∉ w.objs.flatMap Obj.refs → w.dicts r = d r

theorem view_self {N : ℕ} (d : Heap N) (refs : List ℕ) (gp : GP N) (hn : refs.Nodup) (hl : gp.kernels.length = refs.length) :
    Obj.view (writeBack refs gp.kernels d) ⟨refs, gp⟩ = gp := by
  simp only [Obj.view, writeBack_map _ _ _ hn hl]

theorem view_other {N : ℕ} (d : Heap N) (refs : List ℕ) (ks : List (KDict N)) (o : Obj N) (h : ∀ r ∈ o.refs, r ∉ refs) :
    o.view (writeBack refs ks d) = o.view d := by
  have : o.refs.map (writeBack refs ks d) = o.refs.map d := List.map_congr_left fun r hr => writeBack_other _ _ _ _ (h r hr)
  simp only [Obj.view, this]

theorem disjoint_of {N : ℕ} (l : List (Obj N)) (h : (l.flatMap Obj.refs).Nodup) (i j : ℕ) (hij : i ≠ j) (hi : i < l.length)
    (hj : j < l.length) : ∀ r ∈ l[i].refs, r ∉ l[j].refs := by
  intro r h1 h2
  rw [List.nodup_flatMap] at h
  have hp := List.pairwise_iff_getElem.1 h.2
  rcases Nat.lt_or_gt_of_ne hij with hlt | hlt
  · exact hp i j hi hj hlt h1 h2
  · exact hp j i hj hi hlt h2 h1

theorem call_inv {N : ℕ} {d : Heap N} {w : World N} {l : List (GP N)} (h : Inv d w l) (i : ℕ) (f : GP N → Except PyErr (GP N))
    (hf : ∀ gp gp', f gp = .ok gp' → gp'.kernels.length = gp.kernels.length) :
    Inv d (w.call i f) (match l[i]? with
      | none => l
      | some gp =>
        match f gp with
        | .error _ => l
        | .ok gp' => l.set i gp') ∧ (w.call i f).objs.flatMap Obj.refs = w.objs.flatMap Obj.refs := by
  have hv := h.views
  cases ho : w.objs[i]? with
  | none =>
    have : l[i]? = none := by rw [← hv]; simp [ho]
    simp only [World.call, ho, this]
    exact ⟨h, trivial⟩
  | some o =>
    have hl : l[i]? = some (o.view w.dicts) := by rw [← hv]; simp [ho]
    simp only [World.call, ho, hl]
    cases hg : f (o.view w.dicts) with
    | error e => exact ⟨h, rfl⟩
    | ok gp =>
      simp only
      obtain ⟨hi, hio⟩ := List.getElem?_eq_some_iff.1 ho
      have hlen : gp.kernels.length = o.refs.length := by simpa [Obj.view] using hf _ _ hg
      have hrefs : (w.objs.set i ⟨o.refs, gp⟩).flatMap Obj.refs = w.objs.flatMap Obj.refs := by
        rw [List.flatMap_def, List.flatMap_def]
        congr 1
        rw [List.map_set]
        apply List.ext_getElem
        · simp
        · intro n h1 h2
          rw [List.getElem_set]
          split
          · rename_i hn; subst hn; simp [hio]
          · rfl
      refine ⟨⟨?_, ?_, ?_⟩, hrefs⟩
      · apply List.ext_getElem
        · rw [← hv]; simp
        · intro n h1 h2
          simp only [List.length_map, List.length_set] at h1
          simp only [List.getElem_map, List.getElem_set]
          by_cases hn : i = n
          · subst hn
            simp only [if_true]
            refine view_self _ _ _ ?_ hlen
            have := (List.nodup_flatMap.1 h.nodup).1 _ (List.getElem_mem hi)
            rwa [hio] at this
          · simp only [if_neg hn]
            rw [view_other]
            · simp [← hv]
            · have := disjoint_of w.objs h.nodup n i (Ne.symm hn) h1 hi
              rwa [hio] at this
      · show ((w.objs.set i ⟨o.refs, gp⟩).flatMap Obj.refs).Nodup
        rw [hrefs]; exact h.nodup
      · intro r hr
        have hr' : r ∉ w.objs.flatMap Obj.refs := by
          show r ∉ _
          rw [← hrefs]; exact hr
        show writeBack o.refs gp.kernels w.dicts r = d r
        rw [writeBack_other, h.free r hr']
        intro hm
        exact hr' (List.mem_flatMap.2 ⟨o, List.mem_of_getElem? ho, hm⟩)

theorem run_inv {N : ℕ} (d : Heap N) (ops : List (Op N)) : ∀ (w : World N) (l : List (GP N)), Inv d w l →
    (w.objs.flatMap Obj.refs ++ ops.flatMap refsOf).Nodup → (∀ o ∈ ops, calm o) → Inv d (run w ops) (ops.foldl (expect d) l) := by
  induction ops with
  | nil => intro w l h _ _; exact h
  | cons o ops ih =>
    intro w l h hn hc
    have hc' : ∀ o ∈ ops, calm o := fun x hx => hc x (List.mem_cons_of_mem _ hx)
    rw [List.flatMap_cons] at hn
    cases o with
    | make refs fp t reg log sd =>
      simp only [run, List.foldl_cons, step, expect]
      simp only [refsOf] at hn
      have hd : refs.map w.dicts = refs.map d := by
        refine List.map_congr_left fun r hr => h.free r fun hm => ?_
        rw [List.nodup_append] at hn
        exact hn.2.2 r hm r (List.mem_append_left _ hr) rfl
      rw [hd]
      cases hg : init fp t (refs.map d) reg log sd with
      | error e =>
        refine ih w l h ?_ hc'
        rw [List.nodup_append] at hn ⊢
        rw [List.nodup_append] at hn
        exact ⟨hn.1, hn.2.1.2.1, fun a ha b hb => hn.2.2 a ha b (List.mem_append_right _ hb)⟩
      | ok gp =>
        have hlen : gp.kernels.length = refs.length := by simpa using init_length hg
        refine ih _ _ ⟨?_, ?_, ?_⟩ ?_ hc'
        · simp only [List.map_append, List.map_cons, List.map_nil]
          rw [view_self _ _ _ (by rw [List.nodup_append, List.nodup_append] at hn; exact hn.2.1.1) hlen, ← h.views]
          congr 1
          refine List.map_congr_left fun o ho => view_other _ _ _ _ fun r h1 h2 => ?_
          rw [List.nodup_append] at hn
          exact hn.2.2 r (List.mem_flatMap.2 ⟨o, ho, h1⟩) r (List.mem_append_left _ h2) rfl
        · simp only [List.flatMap_append, List.flatMap_cons, List.flatMap_nil, List.append_nil]
          rw [← List.append_assoc] at hn
          exact (List.nodup_append.1 hn).1
        · intro r hr
          simp only [List.flatMap_append, List.flatMap_cons, List.flatMap_nil, List.append_nil, List.mem_append, not_or] at hr
          show writeBack refs gp.kernels w.dicts r = d r
          rw [writeBack_other _ _ _ _ hr.2, h.free r hr.1]
        · simp only [List.flatMap_append, List.flatMap_cons, List.flatMap_nil, List.append_nil]
          rw [List.append_assoc]
          exact hn
    | update i fp t flag =>
      obtain ⟨h1, h2⟩ := call_inv h i (fun gp => updateData gp fp t flag) fun _ _ hh => updateData_length hh
      simp only [run, List.foldl_cons, step, expect]
      refine ih _ _ h1 ?_ hc'
      rw [h2]
      simpa [refsOf] using hn
    | optimize i m =>
      obtain ⟨h1, h2⟩ := call_inv h i (Proc.optimize m) fun _ _ hh => optimize_length hh
      simp only [run, List.foldl_cons, step, expect]
      refine ih _ _ h1 ?_ hc'
      rw [h2]
      simpa [refsOf] using hn
    | abort i θ => exact (hc _ (List.mem_cons_self ..)).elim

/-- C125 (`_partial`: if no two models are made with the same dictionary, and no optimisation raises): whatever is made, updated
and optimised, in any order, every model predicts what it would predict if models were values of their own, and dictionaries that
belong to no model are unchanged. -/
theorem C125_own_dictionaries_partial {N : ℕ} (d : Heap N) (ops : List (Op N)) (hn : (ops.flatMap refsOf).Nodup)
    (hc : ∀ o ∈ ops, calm o) :
    (∀ i test unc, (run ⟨d, []⟩ ops).predict i test unc = (ops.foldl (expect d) [])[i]?.map fun gp => Proc.predict gp test unc) ∧
      ∀ r, r ∉ ops.flatMap refsOf → (run ⟨d, []⟩ ops).dicts r = d r := by
  have h := run_inv d ops ⟨d, []⟩ [] ⟨rfl, by simp, fun _ _ => rfl⟩ (by simpa using hn) hc
  refine ⟨fun i test unc => ?_, fun r hr => h.free r fun hm => hr ?_⟩
  · rw [← h.views]
    simp [World.predict, Function.comp_def]
  · have key : ∀ (ops : List (Op N)) (w : World N), r ∈ (run w ops).objs.flatMap Obj.refs →
        r ∈ w.objs.flatMap Obj.refs ∨ r ∈ ops.flatMap refsOf := by
      intro ops
      induction ops with
      | nil => intro w h; exact Or.inl h
      | cons o ops ih =>
        intro w h
        have hs : r ∈ (step w o).objs.flatMap Obj.refs → r ∈ w.objs.flatMap Obj.refs ∨ r ∈ refsOf o := by
          have hcall : ∀ i f, r ∈ (w.call i f).objs.flatMap Obj.refs → r ∈ w.objs.flatMap Obj.refs := by
            intro i f hm
            unfold World.call at hm
            split at hm
            · exact hm
            · rename_i o ho
              split at hm
              · exact hm
              · obtain ⟨a, ha, hr⟩ := List.mem_flatMap.1 hm
                rcases List.mem_or_eq_of_mem_set ha with ha | ha
                · exact List.mem_flatMap.2 ⟨a, ha, hr⟩
                · subst ha
                  exact List.mem_flatMap.2 ⟨o, List.mem_of_getElem? ho, hr⟩
          cases o with
          | make refs fp t reg log sd =>
            intro hm
            simp only [step] at hm
            split at hm
            · exact Or.inl hm
            · simp only [List.flatMap_append, List.flatMap_cons, List.flatMap_nil, List.append_nil, List.mem_append] at hm
              exact hm
          | update i fp t flag => exact fun hm => Or.inl (hcall _ _ hm)
          | optimize i m => exact fun hm => Or.inl (hcall _ _ hm)
          | abort i θ => exact fun hm => Or.inl (hcall _ _ hm)
        rw [List.flatMap_cons, List.mem_append]
        rcases ih (step w o) h with h1 | h1
        · rcases hs h1 with h2 | h2
          · exact Or.inl h2
          · exact Or.inr (Or.inl h2)
        · exact Or.inr (Or.inr h1)
    rcases key ops ⟨d, []⟩ hm with h1 | h1
    · simp at h1
    · exact h1

/-! ### Shared dictionaries -/

/-- A Gaussian kernel of one feature. -/
def gaussD (w : ℝ) : KDict 1 := ⟨.gaussian [w], none, none, false⟩

theorem gaussD_cov (w x z : ℝ) (s : Bool) : covEntry [gaussD w] false ![z] ![x] s = Real.exp (-0.5 * (z / w - x / w) ^ 2) := by
  simp [covEntry, gaussD, scaleFactor, entry, unlog, colSum, columns, pick]

theorem gaussD_kOne (w r x : ℝ) : kOne [gaussD w] false r ![x] = 1 + r ^ 2 := by
  simp [kOne, gaussD_cov, unlog]

theorem gaussD_packs (w : ℝ) : PacksList [gaussD w] := by
  intro s d b h
  simp [gaussD] at h

theorem gaussD_optimize (w w' r r' v x t c : ℝ) (l : Option ℝ) :
    Proc.optimize (fun _ => ([w', r'], v)) (one [gaussD w] r false ![x] t c l) =
      .ok (one [gaussD w'] r' false ![x] t (1 + r' ^ 2)⁻¹ (some (-v))) := by
  have hk : (kOne [gaussD w'] false r' ![x]) ≠ 0 := by rw [gaussD_kOne]; positivity
  have h1 : kdicts2list [gaussD w] = .ok [w] := by
    simp [kdicts2list, kdict2list, gaussD, bind, Except.bind, pure, Except.pure]
  have h2 : list2kdict [w'] [gaussD w] = .ok [gaussD w'] := by
    simp [list2kdict, list2kdictFrom, setKernel, gaussD, slice, bind, Except.bind, pure, Except.pure]
  have h3 : invGram [gaussD w'] false (some r') [![x]] = .ok ⟨1, Matrix.of fun _ _ => (1 + r' ^ 2)⁻¹⟩ := by
    rw [invGram_of (by simp) (by rw [gram_single_det]; exact hk.isUnit), gram_single_inv _ _ _ _ hk, gaussD_kOne]
    rfl
  unfold Proc.optimize
  simp only [one, h1, bind, Except.bind, pure, Except.pure, List.dropLast, h2, List.getLast?, h3, List.getLast]

/-- C125 is violated by two models made with the same kernel dictionary, also if their data are different: optimising the second
changes what the first predicts, at every point but its training point, and the dictionary of the user. -/
theorem C125_shared_violated (d : Heap 1) (w w' : ℝ) (hd : d 0 = gaussD w) (hw : 0 < w) (hw' : 0 < w') (hne : w ≠ w')
    (r x t r2 x2 t2 r' v z : ℝ) (hz : z ≠ x) (ht : t ≠ 0) :
    ∃ p p' : ℝ, p ≠ p' ∧
      (run ⟨d, []⟩ [.make [0] [![x]] [t] (some r) false false, .make [0] [![x2]] [t2] (some r2) false false]).predict 0 [![z]] false =
        some (.ok ⟨[some p], none⟩) ∧
      (run ⟨d, []⟩ [.make [0] [![x]] [t] (some r) false false, .make [0] [![x2]] [t2] (some r2) false false,
        .optimize 1 fun _ => ([w', r'], v)]).predict 0 [![z]] false = some (.ok ⟨[some p'], none⟩) ∧
      (run ⟨d, []⟩ [.make [0] [![x]] [t] (some r) false false, .make [0] [![x2]] [t2] (some r2) false false,
        .optimize 1 fun _ => ([w', r'], v)]).dicts 0 = gaussD w' := by
  have mk : ∀ r x t : ℝ, ∃ l, init [![x]] [t] [gaussD w] (some r) false false =
      .ok (one [gaussD w] r false ![x] t (1 + r ^ 2)⁻¹ l) := by
    intro r x t
    have := init_single [gaussD w] (gaussD_packs w) (by simp) r false ![x] t (by rw [gaussD_kOne]; positivity)
    rwa [gaussD_kOne] at this
  obtain ⟨l, h1⟩ := mk r x t
  obtain ⟨l2, h2⟩ := mk r2 x2 t2
  have e1 : Function.update d 0 (gaussD w) = d := by rw [← hd]; exact Function.update_eq_self 0 d
  have s2 : run ⟨d, []⟩ [.make [0] [![x]] [t] (some r) false false, .make [0] [![x2]] [t2] (some r2) false false] =
      ⟨d, [⟨[0], one [gaussD w] r false ![x] t (1 + r ^ 2)⁻¹ l⟩, ⟨[0], one [gaussD w] r2 false ![x2] t2 (1 + r2 ^ 2)⁻¹ l2⟩]⟩ := by
    have e2 : ∀ (r x t c : ℝ) l, (one [gaussD w] r false ![x] t c l).kernels = [gaussD w] := fun _ _ _ _ _ => rfl
    simp only [run, List.foldl_cons, List.foldl_nil, step, List.map_cons, List.map_nil, hd, h1, h2, writeBack, e2, e1, List.nil_append,
      List.cons_append]
  have s3 : run ⟨d, []⟩ [.make [0] [![x]] [t] (some r) false false, .make [0] [![x2]] [t2] (some r2) false false,
      .optimize 1 fun _ => ([w', r'], v)] = ⟨Function.update d 0 (gaussD w'), [⟨[0], one [gaussD w] r false ![x] t (1 + r ^ 2)⁻¹ l⟩,
        ⟨[0], one [gaussD w'] r' false ![x2] t2 (1 + r' ^ 2)⁻¹ (some (-v))⟩]⟩ := by
    have : run ⟨d, []⟩ [.make [0] [![x]] [t] (some r) false false, .make [0] [![x2]] [t2] (some r2) false false,
      .optimize 1 fun _ => ([w', r'], v)] = step (run ⟨d, []⟩ [.make [0] [![x]] [t] (some r) false false,
        .make [0] [![x2]] [t2] (some r2) false false]) (.optimize 1 fun _ => ([w', r'], v)) := rfl
    rw [this, s2]
    have hv : Obj.view d ⟨[0], one [gaussD w] r2 false ![x2] t2 (1 + r2 ^ 2)⁻¹ l2⟩ =
        one [gaussD w] r2 false ![x2] t2 (1 + r2 ^ 2)⁻¹ l2 := by
      simp only [Obj.view, List.map_cons, List.map_nil, hd]; rfl
    simp only [step, World.call, List.getElem?_cons_succ, List.getElem?_cons_zero, hv, gaussD_optimize, List.set]
    rfl
  refine ⟨Real.exp (-0.5 * (z / w - x / w) ^ 2) * ((1 + r ^ 2)⁻¹ * t), Real.exp (-0.5 * (z / w' - x / w') ^ 2) * ((1 + r ^ 2)⁻¹ * t),
    ?_, ?_, ?_, ?_⟩
  · intro h
    have hc : (1 + r ^ 2)⁻¹ * t ≠ 0 := mul_ne_zero (by positivity) ht
    have h3 := Real.exp_injective (mul_right_cancel₀ hc h)
    have h4 : ((z - x) / w) ^ 2 = ((z - x) / w') ^ 2 := by
      rw [sub_div, sub_div]
      linarith
    rw [div_pow, div_pow] at h4
    have hzx : (z - x) ^ 2 ≠ 0 := pow_ne_zero _ (sub_ne_zero.2 hz)
    have h5 : w ^ 2 = w' ^ 2 := by
      field_simp at h4
      exact h4.symm
    exact hne (by nlinarith [sq_nonneg (w - w'), mul_pos hw hw'])
  · rw [s2]
    simp only [World.predict, List.getElem?_cons_zero, Option.map_some, Obj.view, List.map_cons, List.map_nil, hd]
    have := predict_one [gaussD w] r false ![x] t (1 + r ^ 2)⁻¹ l ![z]
    rw [gaussD_cov] at this
    exact congrArg some this
  · rw [s3]
    simp only [World.predict, List.getElem?_cons_zero, Option.map_some, Obj.view, List.map_cons, List.map_nil, Function.update_self]
    have := predict_one [gaussD w'] r false ![x] t (1 + r ^ 2)⁻¹ l ![z]
    rw [gaussD_cov] at this
    exact congrArg some this
  · rw [s3]
    simp

/-- A constant kernel. -/
def constD (c : ℝ) : KDict 1 := ⟨.constant c, none, none, false⟩

theorem constD_cov (c x z : ℝ) (s : Bool) : covEntry [constD c] false ![z] ![x] s = c := by
  simp [covEntry, constD, scaleFactor, entry, unlog]

theorem constD_kOne (c r x : ℝ) : kOne [constD c] false r ![x] = c + r ^ 2 := by
  simp [kOne, constD_cov, unlog]

/-- C125 is violated when an optimisation raises because the likelihood cannot be computed for hyperparameters it tries: the model
keeps those hyperparameters together with the inverse covariance of the old ones.  A model of one point and a constant kernel with
positive constant predicts with the constant that was tried. -/
theorem C125_failed_violated (d : Heap 1) (c c' : ℝ) (hd : d 0 = constD c) (hc : 0 < c) (r r' : ℝ) (hr : c' + r' ^ 2 ≤ 0) (x t z : ℝ)
    (ht : t ≠ 0) :
    (∃ e, lossValue [c', r'] [![x]] [t] [constD c] false = .error e) ∧ ∃ p p' : ℝ, p ≠ p' ∧
      (run ⟨d, []⟩ [.make [0] [![x]] [t] (some r) false false]).predict 0 [![z]] false = some (.ok ⟨[some p], none⟩) ∧
      (run ⟨d, []⟩ [.make [0] [![x]] [t] (some r) false false, .abort 0 [c', r']]).predict 0 [![z]] false =
        some (.ok ⟨[some p'], none⟩) := by
  have hp : PacksList [constD c] := by intro s d b h; simp [constD] at h
  obtain ⟨l, h1⟩ := init_single [constD c] hp (by simp) r false ![x] t (by rw [constD_kOne]; positivity)
  rw [constD_kOne] at h1
  have h2 : list2kdict [c', r'] [constD c] = .ok [constD c'] := by
    simp [list2kdict, list2kdictFrom, setKernel, constD, item, bind, Except.bind, pure, Except.pure]
  have h3 : lossValue [c', r'] [![x]] [t] [constD c] false = .error .linalg := by
    have : ¬ (gram [constD c'] false (some r') [![x]]).PosDef := by
      intro h
      have := h.det_pos
      rw [gram_single_det, constD_kOne] at this
      linarith
    simp [lossValue, h2, this, bind, Except.bind, throw, throwThe, MonadExceptOf.throw]
  refine ⟨⟨_, h3⟩, c * ((c + r ^ 2)⁻¹ * t), c' * ((c + r ^ 2)⁻¹ * t), ?_, ?_, ?_⟩
  · intro h
    have : c = c' := mul_right_cancel₀ (mul_ne_zero (by positivity) ht) h
    nlinarith [sq_nonneg r']
  · simp only [run, List.foldl_cons, List.foldl_nil, step, List.map_cons, List.map_nil, hd, h1, World.predict, List.nil_append,
      List.getElem?_cons_zero, Option.map_some, Obj.view]
    have := predict_one [constD c] r false ![x] t (c + r ^ 2)⁻¹ l ![z]
    rw [constD_cov] at this
    exact congrArg some this
  · have e1 : Function.update d 0 (constD c) = d := by rw [← hd]; exact Function.update_eq_self 0 d
    have s1 : run ⟨d, []⟩ [.make [0] [![x]] [t] (some r) false false] = ⟨d, [⟨[0], one [constD c] r false ![x] t (c + r ^ 2)⁻¹ l⟩]⟩ := by
      have e2 : (one [constD c] r false ![x] t (c + r ^ 2)⁻¹ l).kernels = [constD c] := rfl
      simp only [run, List.foldl_cons, List.foldl_nil, step, List.map_cons, List.map_nil, hd, h1, writeBack, e2, e1, List.nil_append]
    have hv : Obj.view d ⟨[0], one [constD c] r false ![x] t (c + r ^ 2)⁻¹ l⟩ = one [constD c] r false ![x] t (c + r ^ 2)⁻¹ l := by
      simp only [Obj.view, List.map_cons, List.map_nil, hd]; rfl
    have : run ⟨d, []⟩ [.make [0] [![x]] [t] (some r) false false, .abort 0 [c', r']] =
      step (run ⟨d, []⟩ [.make [0] [![x]] [t] (some r) false false]) (.abort 0 [c', r']) := rfl
    rw [this, s1]
    have h2' : list2kdict [c', r'] (one [constD c] r false ![x] t (c + r ^ 2)⁻¹ l).kernels = .ok [constD c'] := h2
    have h3' : lossValue [c', r'] (one [constD c] r false ![x] t (c + r ^ 2)⁻¹ l).fp (one [constD c] r false ![x] t (c + r ^ 2)⁻¹ l).target
      (one [constD c] r false ![x] t (c + r ^ 2)⁻¹ l).kernels (one [constD c] r false ![x] t (c + r ^ 2)⁻¹ l).log = .error .linalg := h3
    simp only [step, World.call, List.getElem?_cons_zero, hv, h2', h3', List.set, writeBack]
    simp only [World.predict, List.getElem?_cons_zero, Option.map_some, Obj.view, List.map_cons, List.map_nil, Function.update_self]
    have := predict_one [constD c'] r false ![x] t (c + r ^ 2)⁻¹ l ![z]
    rw [constD_cov] at this
    exact congrArg some this

/-- Two models with dictionaries of their own, the second one optimised. -/
example (d : Heap 1) : (([.make [0] [![1]] [1] (some 1) false false, .make [1] [![2]] [1] (some 1) false false,
    .optimize 1 fun _ => ([2, 1], 0)] : List (Op 1)).flatMap refsOf).Nodup := by decide

/-- Such a dictionary, and hyperparameters for which the covariance is zero. -/
example : (fun _ => constD 1 : Heap 1) 0 = constD 1 ∧ (0 : ℝ) + 0 ^ 2 ≤ 0 ∧ (fun _ => gaussD 1 : Heap 1) 0 = gaussD 1 :=
  ⟨rfl, by norm_num, rfl⟩

end CatLearn.Aliasing
