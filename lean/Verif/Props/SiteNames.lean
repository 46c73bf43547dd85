import Verif.Model.SiteNames
import Mathlib.Tactic.IntervalCases
import Mathlib.Data.List.Count
import Mathlib.Data.Nat.Digits.Lemmas

/-!
C294, C295: the names of compositions and the dictionary of reference energies, site_stability.py L50-76.
-/

namespace CatLearn.SiteNames

open CatLearn

/-- The symbol of an element: a capital letter followed by small letters. -/
def IsSymbol (s : List Char) : Prop := ∃ c r, s = c :: r ∧ c.isUpper = true ∧ ∀ x ∈ r, x.isLower = true

/-- What `list(set(symbols))` can be: every symbol once, in any order. -/
def IsSetOf (order syms : List (List Char)) : Prop := order.Nodup ∧ ∀ e, e ∈ order ↔ e ∈ syms

/-! ### Reading names back -/

/-- A capital letter followed by other characters. -/
def IsToken (t : List Char) : Prop := ∃ c r, t = c :: r ∧ c.isUpper = true ∧ ∀ x ∈ r, x.isUpper = false

theorem takeWhile_token (r rest : List Char) (hr : ∀ x ∈ r, x.isUpper = false) (h : ∀ x ∈ rest.head?, x.isUpper = true) :
    (r ++ rest).takeWhile (fun x => !x.isUpper) = r := by
  rw [List.takeWhile_append_of_pos (by intro a ha; simp [hr a ha])]
  cases rest with
  | nil => simp
  | cons a t => simp [h a (by simp)]

theorem head_flatten (l : List (List Char)) (h : ∀ t ∈ l, IsToken t) : ∀ x ∈ l.flatten.head?, x.isUpper = true := by
  cases l with
  | nil => simp
  | cons t l =>
    obtain ⟨c, r, rfl, hc, -⟩ := h t (by simp)
    simp [hc]

theorem flatten_inj : ∀ l l' : List (List Char), (∀ t ∈ l, IsToken t) → (∀ t ∈ l', IsToken t) → l.flatten = l'.flatten → l = l'
  | [], [], _, _, _ => rfl
  | [], t :: l', _, h', e => by
    obtain ⟨c, r, rfl, -, -⟩ := h' t (by simp)
    simp at e
  | t :: l, [], h, _, e => by
    obtain ⟨c, r, rfl, -, -⟩ := h t (by simp)
    simp at e
  | t :: l, t' :: l', h, h', e => by
    obtain ⟨c, r, rfl, hc, hr⟩ := h t (by simp)
    obtain ⟨c', r', rfl, hc', hr'⟩ := h' t' (by simp)
    simp only [List.flatten_cons, List.cons_append, List.cons.injEq] at e
    obtain ⟨rfl, e⟩ := e
    have hl := fun t ht => h t (List.mem_cons_of_mem _ ht)
    have hl' := fun t ht => h' t (List.mem_cons_of_mem _ ht)
    have hrr : r = r' := by
      rw [← takeWhile_token r l.flatten hr (head_flatten l hl), e, takeWhile_token r' l'.flatten hr' (head_flatten l' hl')]
    subst hrr
    rw [flatten_inj l l' hl hl' (List.append_cancel_left e)]

theorem digitChar_digit : ∀ d < 10, (Nat.digitChar d).isDigit = true := by decide

theorem digitChar_inj : ∀ d < 10, ∀ e < 10, Nat.digitChar d = Nat.digitChar e → d = e := by decide

theorem decimal_digit (n : ℕ) : ∀ x ∈ decimal n, x.isDigit = true := by
  intro x hx
  unfold decimal at hx
  split at hx
  · simp only [List.mem_singleton] at hx
    subst hx
    decide
  · simp only [List.mem_reverse, List.mem_map] at hx
    obtain ⟨d, hd, rfl⟩ := hx
    exact digitChar_digit d (Nat.digits_lt_base (by norm_num) hd)

theorem map_digits_inj : ∀ l l' : List ℕ, (∀ d ∈ l, d < 10) → (∀ d ∈ l', d < 10) → l.map Nat.digitChar = l'.map Nat.digitChar → l = l'
  | [], [], _, _, _ => rfl
  | [], _ :: _, _, _, e => by simp at e
  | _ :: _, [], _, _, e => by simp at e
  | d :: l, d' :: l', h, h', e => by
    simp only [List.map_cons, List.cons.injEq] at e
    rw [digitChar_inj d (h d (by simp)) d' (h' d' (by simp)) e.1,
      map_digits_inj l l' (fun x hx => h x (by simp [hx])) (fun x hx => h' x (by simp [hx])) e.2]

theorem decimal_inj {m n : ℕ} (hm : m ≠ 0) (hn : n ≠ 0) (h : decimal m = decimal n) : m = n := by
  unfold decimal at h
  rw [if_neg hm, if_neg hn] at h
  exact Nat.digits.injective 10 (map_digits_inj _ _ (fun d hd => Nat.digits_lt_base (by norm_num) hd)
    (fun d hd => Nat.digits_lt_base (by norm_num) hd) (List.reverse_injective h))

theorem decimal_ne_nil (n : ℕ) : decimal n ≠ [] := by
  unfold decimal
  split
  · simp
  · next h => simpa using Nat.digits_ne_nil_iff_ne_zero.2 h

theorem digit_not_upper {x : Char} (h : x.isDigit = true) : x.isUpper = false := by
  simp only [Char.isDigit, Char.isUpper, Bool.and_eq_true, decide_eq_true_eq] at h ⊢
  rw [← Bool.not_eq_true, decide_eq_true_eq]
  rintro ⟨h2, -⟩
  exact absurd (UInt32.le_trans h2 h.2) (by decide)

theorem lower_not_upper {x : Char} (h : x.isLower = true) : x.isUpper = false := by
  simp only [Char.isLower, Char.isUpper, Bool.and_eq_true, decide_eq_true_eq] at h ⊢
  rw [← Bool.not_eq_true, decide_eq_true_eq]
  rintro ⟨-, h2⟩
  exact absurd (UInt32.le_trans h.1 h2) (by decide)

theorem lower_not_digit {x : Char} (h : x.isLower = true) : x.isDigit = false := by
  simp only [Char.isLower, Char.isDigit, Bool.and_eq_true, decide_eq_true_eq] at h ⊢
  rw [← Bool.not_eq_true, Bool.and_eq_true, decide_eq_true_eq, decide_eq_true_eq]
  rintro ⟨-, h2⟩
  exact absurd (UInt32.le_trans h.1 h2) (by decide)

theorem upper_not_digit {x : Char} (h : x.isUpper = true) : x.isDigit = false := by
  by_contra hd
  rw [Bool.not_eq_false] at hd
  rw [digit_not_upper hd] at h
  cases h

theorem symbol_not_digit {s : List Char} (h : IsSymbol s) : ∀ x ∈ s, x.isDigit = false := by
  obtain ⟨c, r, rfl, hc, hr⟩ := h
  intro x hx
  rcases List.mem_cons.1 hx with rfl | hx
  · exact upper_not_digit hc
  · exact lower_not_digit (hr x hx)

theorem token_of {s d : List Char} (h : IsSymbol s) (hd : ∀ x ∈ d, x.isDigit = true) : IsToken (s ++ d) := by
  obtain ⟨c, r, rfl, hc, hr⟩ := h
  refine ⟨c, r ++ d, rfl, hc, ?_⟩
  intro x hx
  rcases List.mem_append.1 hx with hx | hx
  · exact lower_not_upper (hr x hx)
  · exact digit_not_upper (hd x hx)

theorem token_inj {s s' d d' : List Char} (h : IsSymbol s) (h' : IsSymbol s') (hd : ∀ x ∈ d, x.isDigit = true)
    (hd' : ∀ x ∈ d', x.isDigit = true) (e : s ++ d = s' ++ d') : s = s' ∧ d = d' := by
  have key : ∀ {s d : List Char}, IsSymbol s → (∀ x ∈ d, x.isDigit = true) → (s ++ d).takeWhile (fun x => !x.isDigit) = s := by
    intro s d h hd
    rw [List.takeWhile_append_of_pos (by intro a ha; simp [symbol_not_digit h a ha])]
    cases d with
    | nil => simp
    | cons a t => simp [hd a (by simp)]
  have hs : s = s' := by rw [← key h hd, e, key h' hd']
  subst hs
  exact ⟨rfl, List.append_cancel_left e⟩

/-- Lists of symbols with numbers are told by the text of both, if the text of a number tells the number. -/
theorem text_inj (w : ℕ → List Char) (hw : ∀ n, ∀ x ∈ w n, x.isDigit = true) (hi : ∀ m n, m ≠ 0 → n ≠ 0 → w m = w n → m = n)
    (l l' : List (List Char × ℕ)) (h : ∀ p ∈ l, IsSymbol p.1 ∧ p.2 ≠ 0) (h' : ∀ p ∈ l', IsSymbol p.1 ∧ p.2 ≠ 0)
    (e : l.flatMap (fun p => p.1 ++ w p.2) = l'.flatMap (fun p => p.1 ++ w p.2)) : l = l' := by
  rw [List.flatMap_def, List.flatMap_def] at e
  have e := flatten_inj _ _ (by
    intro t ht
    obtain ⟨p, hp, rfl⟩ := List.mem_map.1 ht
    exact token_of (h p hp).1 (hw _)) (by
    intro t ht
    obtain ⟨p, hp, rfl⟩ := List.mem_map.1 ht
    exact token_of (h' p hp).1 (hw _)) e
  clear * - e h h' hw hi
  induction l generalizing l' with
  | nil => cases l' with
    | nil => rfl
    | cons p t => simp at e
  | cons p l ih => cases l' with
    | nil => simp at e
    | cons p' l' =>
      simp only [List.map_cons, List.cons.injEq] at e
      obtain ⟨h1, h2⟩ := token_inj (h p (by simp)).1 (h' p' (by simp)).1 (hw _) (hw _) e.1
      rw [ih l' (fun q hq => h q (by simp [hq])) (fun q hq => h' q (by simp [hq])) e.2,
        Prod.ext h1 (hi _ _ (h p (by simp)).2 (h' p' (by simp)).2 h2)]

/-! ### C294: the names of compositions -/

theorem count_eq (a : List Char) (l : List (List Char)) : @List.count _ instBEqOfDecidableEq a l = @List.count _ List.instBEq a l := by
  unfold List.count
  congr 1
  funext x
  rw [Bool.eq_iff_iff, @beq_iff_eq _ instBEqOfDecidableEq _, @beq_iff_eq _ List.instBEq _]

theorem names_inj (order order' syms syms' : List (List Char)) (hs : ∀ s ∈ syms, IsSymbol s) (hs' : ∀ s ∈ syms', IsSymbol s)
    (ho : IsSetOf order syms) (ho' : IsSetOf order' syms') (h : compositionName order syms = compositionName order' syms') :
    order = order' ∧ syms.Perm syms' := by
  have mem : ∀ {order syms : List (List Char)}, (∀ s ∈ syms, IsSymbol s) → IsSetOf order syms →
      ∀ p ∈ SystemFeatures.stoichiometry order syms, IsSymbol p.1 ∧ p.2 ≠ 0 := by
    intro order syms hs ho p hp
    obtain ⟨e, he, rfl⟩ := List.mem_map.1 hp
    have := (ho.2 e).1 he
    exact ⟨hs e this, by rw [count_eq]; exact (List.count_pos_iff.2 this).ne'⟩
  have e := text_inj decimal decimal_digit (fun m n hm hn => decimal_inj hm hn) _ _ (mem hs ho) (mem hs' ho') h
  have eo : order = order' := by
    have := congrArg (List.map Prod.fst) e
    simpa [SystemFeatures.stoichiometry, Function.comp_def] using this
  subst eo
  refine ⟨rfl, List.perm_iff_count.2 fun a => ?_⟩
  by_cases ha : a ∈ order
  · have := (List.map_inj_left.1 e) a ha
    rw [Prod.mk.injEq, count_eq, count_eq] at this
    exact this.2
  · rw [List.count_eq_zero_of_not_mem (fun hm => ha ((ho.2 a).2 hm)), List.count_eq_zero_of_not_mem (fun hm => ha ((ho'.2 a).2 hm))]

/-- Two structures with one name have the same number of atoms of every element, however the sets of their symbols are ordered. -/
theorem C294_name (order order' syms syms' : List (List Char)) (hs : ∀ s ∈ syms, IsSymbol s) (hs' : ∀ s ∈ syms', IsSymbol s)
    (ho : IsSetOf order syms) (ho' : IsSetOf order' syms') (h : compositionName order syms = compositionName order' syms') :
    ∀ e, syms.count e = syms'.count e := fun e => ((names_inj order order' syms syms' hs hs' ho ho' h).2).count_eq e

/-- The name of a structure from which an atom was taken is not that of the whole. -/
theorem C294_defect (order order' syms : List (List Char)) (i : ℕ) (hi : i < syms.length) (hs : ∀ s ∈ syms, IsSymbol s)
    (ho : IsSetOf order syms) (ho' : IsSetOf order' (syms.eraseIdx i)) :
    compositionName order' (syms.eraseIdx i) ≠ compositionName order syms := by
  intro h
  have := (names_inj _ _ _ _ (fun s hm => hs s (List.mem_of_mem_eraseIdx hm)) hs ho' ho h).2.length_eq
  rw [List.length_eraseIdx_of_lt hi] at this
  omega

/-- Structures of one composition have one name if the sets of their symbols are listed in one order. -/
theorem C294_same_partial (order syms syms' : List (List Char)) (h : syms.Perm syms') :
    compositionName order syms = compositionName order syms' := by
  have : SystemFeatures.stoichiometry order syms = SystemFeatures.stoichiometry order syms' :=
    List.map_congr_left fun e _ => by rw [count_eq, count_eq, h.count_eq]
  unfold compositionName
  rw [this]

/-- **Violation.** The elements come in the order of a set of strings, which differs from one run of Python to the next: every structure of two or more
elements has, whatever the name given to it, another name it can be given as well. -/
theorem C294_same_violated (order syms : List (List Char)) (hs : ∀ s ∈ syms, IsSymbol s) (ho : IsSetOf order syms)
    (h2 : ∃ a ∈ syms, ∃ b ∈ syms, a ≠ b) :
    ∃ order', IsSetOf order' syms ∧ compositionName order' syms ≠ compositionName order syms := by
  refine ⟨order.reverse, ⟨List.nodup_reverse.2 ho.1, fun e => by rw [List.mem_reverse]; exact ho.2 e⟩, fun h => ?_⟩
  have e := (names_inj _ _ _ _ hs hs ⟨List.nodup_reverse.2 ho.1, fun e => by rw [List.mem_reverse]; exact ho.2 e⟩ ho h).1
  obtain ⟨a, ha, b, hb, hab⟩ := h2
  rw [← ho.2] at ha hb
  match order, ho.1, ha, hb, e with
  | [], _, ha, _, _ => simp at ha
  | [x], _, ha, hb, _ =>
    simp only [List.mem_singleton] at ha hb
    exact hab (ha.trans hb.symm)
  | x :: y :: t, hn, _, _, e =>
    have h1 := congrArg List.head? e
    rw [List.head?_reverse, List.getLast?_cons_cons] at h1
    have : x ∈ y :: t := List.mem_of_getLast? (by simpa using h1)
    exact (List.nodup_cons.1 hn).1 this

/-- A structure of one element has one name. -/
theorem C294_element (order order' syms : List (List Char)) (a : List Char) (hs : ∀ s ∈ syms, s = a) (hn : syms ≠ [])
    (ho : IsSetOf order syms) (ho' : IsSetOf order' syms) :
    compositionName order syms = a ++ decimal syms.length ∧ compositionName order' syms = compositionName order syms := by
  have key : ∀ order, IsSetOf order syms → order = [a] := by
    intro order ho
    have hmem : ∀ e ∈ order, e = a := fun e he => hs e ((ho.2 e).1 he)
    match order, ho, hmem with
    | [], ho, _ =>
      obtain ⟨s, hs'⟩ := List.exists_mem_of_ne_nil syms hn
      exact absurd ((ho.2 s).2 hs') (by simp)
    | [x], _, hm => rw [hm x (by simp)]
    | x :: y :: t, ho, hm =>
      have := ho.1
      rw [hm x (by simp), hm y (by simp)] at this
      simp at this
  have hc : syms.count a = syms.length := List.count_eq_length.2 fun b hb => (hs b hb).symm
  rw [key order ho, key order' ho']
  exact ⟨by simp [compositionName, SystemFeatures.stoichiometry, count_eq, hc], rfl⟩

/-- Pt₁₂Ni₄ is named `Pt12Ni4` or `Ni4Pt12`. -/
example : compositionName ["Pt".toList, "Ni".toList] (List.replicate 12 "Pt".toList ++ List.replicate 4 "Ni".toList) = "Pt12Ni4".toList ∧
    compositionName ["Ni".toList, "Pt".toList] (List.replicate 12 "Pt".toList ++ List.replicate 4 "Ni".toList) = "Ni4Pt12".toList := by
  constructor <;> decide +kernel

example : IsSymbol "Pt".toList ∧ IsSetOf ["Pt".toList, "Ni".toList] ["Pt".toList, "Ni".toList, "Pt".toList] := by
  refine ⟨⟨'P', ['t'], by decide, by decide, by simp⟩, by decide, fun e => ?_⟩
  simp only [List.mem_cons, List.not_mem_nil, or_false]
  tauto

/-! ### C295: the dictionary of reference energies -/

theorem runs_symbol (syms : List (List Char)) (hs : ∀ s ∈ syms, IsSymbol s) : ∀ p ∈ runs syms, IsSymbol p.1 ∧ p.2 ≠ 0 := by
  induction syms with
  | nil => simp [runs]
  | cons s l ih =>
    have ih := ih fun s hm => hs s (by simp [hm])
    have h0 := hs s (by simp)
    unfold runs
    split
    · simp [h0]
    · next s' n t heq =>
      rw [heq] at ih
      split
      · intro p hp
        rcases List.mem_cons.1 hp with rfl | hp
        · exact ⟨h0, by simp⟩
        · exact ih p (by simp [hp])
      · intro p hp
        rcases List.mem_cons.1 hp with rfl | hp
        · exact ⟨h0, by simp⟩
        · exact ih p hp

theorem runs_expand (syms : List (List Char)) : (runs syms).flatMap (fun p => List.replicate p.2 p.1) = syms := by
  induction syms with
  | nil => simp [runs]
  | cons s l ih =>
    unfold runs
    split
    · next heq =>
      rw [heq] at ih
      simpa using ih
    · next s' n t heq =>
      rw [heq] at ih
      split
      · next hss =>
        subst hss
        rw [List.flatMap_cons] at ih ⊢
        simp only [List.replicate_succ, List.cons_append]
        rw [← ih]
      · rw [List.flatMap_cons]
        simp only [List.replicate_one, List.singleton_append]
        rw [ih]

/-- Two structures have one key exactly if they have the same symbols in the same order. -/
theorem C295_key (syms syms' : List (List Char)) (hs : ∀ s ∈ syms, IsSymbol s) (hs' : ∀ s ∈ syms', IsSymbol s) :
    strSymbols syms = strSymbols syms' ↔ syms = syms' := by
  refine ⟨fun h => ?_, fun h => by rw [h]⟩
  have e := text_inj (fun n => if n = 1 then [] else decimal n) (by
    intro n x hx
    split at hx
    · simp at hx
    · exact decimal_digit n x hx) (by
    intro m n hm hn e
    split at e <;> split at e
    · omega
    · exact absurd e.symm (decimal_ne_nil _)
    · exact absurd e (decimal_ne_nil _)
    · exact decimal_inj hm hn e) _ _ (runs_symbol syms hs) (runs_symbol syms' hs') h
  rw [← runs_expand syms, e, runs_expand]

theorem getItem_setItem (d : List (List Char × ℝ)) (k k' : List Char) (v : ℝ) :
    getItem (setItem d k v) k' = if k' = k then .ok v else getItem d k' := by
  unfold setItem
  split
  · next hany =>
    induction d with
    | nil => simp at hany
    | cons p d ih =>
      unfold getItem at ih ⊢
      by_cases hp : p.1 = k
      · by_cases hk : k' = k
        · subst hk
          simp [hp]
        · have hk2 : ¬ k = k' := fun h => hk h.symm
          have hk3 : ¬ p.1 = k' := fun h => hk (h ▸ hp)
          simp only [List.map_cons, hp, if_true, hk2, decide_false, hk, if_false, List.find?_cons, hk3]
          clear * - hk hk2
          induction d with
          | nil => simp
          | cons q d ih =>
            by_cases hq : q.1 = k
            · simpa [hq, hk2, -List.find?_map] using ih
            · by_cases hq2 : q.1 = k'
              · simp [hq, hq2, hk, -List.find?_map]
              · simpa [hq, hq2, -List.find?_map] using ih
      · have hany : d.any (fun p => decide (p.1 = k)) = true := by simpa [hp] using hany
        have ih := ih hany
        by_cases hp2 : p.1 = k'
        · have hk : ¬ k' = k := fun h => hp (hp2.trans h)
          simp [hp, hp2, hk, -List.find?_map]
        · simpa [hp, hp2, -List.find?_map] using ih
  · next hany =>
    simp only [List.any_eq_true, decide_eq_true_eq, not_exists, not_and] at hany
    unfold getItem
    rw [List.find?_append]
    by_cases hk : k' = k
    · subst hk
      rw [List.find?_eq_none.2 (by simpa using hany)]
      simp
    · have hk2 : ¬ k = k' := fun h => hk h.symm
      simp only [List.find?_cons, hk2, decide_false, List.find?_nil, Option.or_none, if_neg hk]

/-- What the loop makes of one more file. -/
def readFile (d : List (List Char × ℝ)) (f : List Char × Except PyErr Content) : Except PyErr (List (List Char × ℝ)) :=
  if isReference f.1 then
    match f.2 with
    | .error e => .error e
    | .ok c => .ok (setItem d (strSymbols c.1) c.2)
  else .ok d

theorem referenceDict_eq (files : List (List Char × Except PyErr Content)) : referenceDict files = files.foldlM readFile [] := rfl

theorem readFile_cons (f : List Char × Except PyErr Content) (l : List (List Char × Except PyErr Content)) (d : List (List Char × ℝ)) :
    (f :: l).foldlM readFile d = match readFile d f with
      | .error e => .error e
      | .ok d' => l.foldlM readFile d' := by
  rw [List.foldlM_cons]
  cases readFile d f <;> rfl

theorem foldlM_get (files : List (List Char × Except PyErr Content)) : ∀ (d d' : List (List Char × ℝ)) (k : List Char),
    files.foldlM readFile d = .ok d' → (∀ f ∈ files, isReference f.1 = true → ∀ c, f.2 = .ok c → strSymbols c.1 ≠ k) →
    getItem d' k = getItem d k := by
  induction files with
  | nil =>
    intro d d' k h _
    cases h
    rfl
  | cons f l ih =>
    intro d d' k h hk
    rw [readFile_cons] at h
    cases hr : readFile d f with
    | error e => rw [hr] at h; cases h
    | ok d2 =>
      rw [hr] at h
      rw [ih d2 d' k h fun g hg => hk g (by simp [hg])]
      unfold readFile at hr
      split at hr
      · next hf =>
        split at hr
        · cases hr
        · next c hc =>
          cases hr
          rw [getItem_setItem, if_neg (fun h => hk f (by simp) hf c hc h.symm)]
      · cases hr
        rfl

/-- Under a key stands the energy of the file of this key that was listed last. -/
theorem C295_last (pre post : List (List Char × Except PyErr Content)) (name : List Char) (c : Content) (d : List (List Char × ℝ))
    (hn : isReference name = true) (h : referenceDict (pre ++ (name, .ok c) :: post) = .ok d)
    (hl : ∀ f ∈ post, isReference f.1 = true → ∀ c', f.2 = .ok c' → strSymbols c'.1 ≠ strSymbols c.1) :
    getItem d (strSymbols c.1) = .ok c.2 := by
  rw [referenceDict_eq, List.foldlM_append] at h
  cases hp : pre.foldlM readFile [] with
  | error e => rw [hp] at h; cases h
  | ok d1 =>
    rw [hp] at h
    replace h : ((name, Except.ok c) :: post).foldlM readFile d1 = .ok d := h
    rw [readFile_cons] at h
    have hr : readFile d1 (name, .ok c) = .ok (setItem d1 (strSymbols c.1) c.2) := by
      unfold readFile
      rw [if_pos hn]
    rw [hr] at h
    rw [foldlM_get post _ d _ h hl, getItem_setItem, if_pos rfl]

/-- If the files of one sequence of symbols agree on the energy, then the energy in every file is found under the key of its atoms. -/
theorem C295_found_partial (files : List (List Char × Except PyErr Content)) (d : List (List Char × ℝ)) (h : referenceDict files = .ok d)
    (hs : ∀ f ∈ files, ∀ c, f.2 = .ok c → ∀ s ∈ c.1, IsSymbol s)
    (hu : ∀ f ∈ files, ∀ g ∈ files, ∀ c c', f.2 = .ok c → g.2 = .ok c' → c.1 = c'.1 → c.2 = c'.2)
    (f : List Char × Except PyErr Content) (hf : f ∈ files) (hr : isReference f.1 = true) (c : Content) (hc : f.2 = .ok c) :
    getItem d (strSymbols c.1) = .ok c.2 := by
  classical
  -- the last file of this key
  have key : ∀ l : List (List Char × Except PyErr Content),
      (∃ g ∈ l, isReference g.1 = true ∧ ∃ c', g.2 = .ok c' ∧ strSymbols c'.1 = strSymbols c.1) →
      ∃ pre name c' post, l = pre ++ (name, .ok c') :: post ∧ isReference name = true ∧ strSymbols c'.1 = strSymbols c.1 ∧
        ∀ g ∈ post, isReference g.1 = true → ∀ c'', g.2 = .ok c'' → strSymbols c''.1 ≠ strSymbols c.1 := by
    intro l
    induction l with
    | nil => rintro ⟨g, hg, -⟩; simp at hg
    | cons a l ih =>
      intro hex
      by_cases hl : ∃ g ∈ l, isReference g.1 = true ∧ ∃ c', g.2 = .ok c' ∧ strSymbols c'.1 = strSymbols c.1
      · obtain ⟨pre, name, c', post, e, h1, h2, h3⟩ := ih hl
        exact ⟨a :: pre, name, c', post, by rw [e]; rfl, h1, h2, h3⟩
      · obtain ⟨g, hg, h1, c', h2, h3⟩ := hex
        rcases List.mem_cons.1 hg with rfl | hg
        · refine ⟨[], g.1, c', l, ?_, h1, h3, ?_⟩
          · rw [← h2]; rfl
          · intro g' hg' h1' c'' h2' h3'
            exact hl ⟨g', hg', h1', c'', h2', h3'⟩
        · exact absurd ⟨g, hg, h1, c', h2, h3⟩ hl
  obtain ⟨pre, name, c', post, e, h1, h2, h3⟩ := key files ⟨f, hf, hr, c, hc, rfl⟩
  have hm : (name, Except.ok c') ∈ files := by rw [e]; simp
  have hcc : c'.1 = c.1 := (C295_key _ _ (hs _ hm c' rfl) (hs f hf c hc)).1 h2
  have := C295_last pre post name c' d h1 (by rw [← e]; exact h) (by rw [h2]; exact h3)
  rw [h2, hu _ hm f hf c' c rfl hc hcc] at this
  exact this

/-- **Violation.** Of two files with the same symbols and unlike energies (two arrangements of one surface, say) one is silently lost: which one
depends on the order in which the system lists the folder. -/
theorem C295_found_violated (n n' : List Char) (hn : isReference n = true) (hn' : isReference n' = true) (s : List (List Char)) (e e' : ℝ)
    (hne : e ≠ e') : ∃ d d', referenceDict [(n, .ok (s, e)), (n', .ok (s, e'))] = .ok d ∧ referenceDict [(n', .ok (s, e')), (n, .ok (s, e))] = .ok d' ∧
      getItem d (strSymbols s) = .ok e' ∧ getItem d' (strSymbols s) = .ok e ∧ getItem d (strSymbols s) ≠ getItem d' (strSymbols s) ∧
      d.length = 1 ∧ d'.length = 1 := by
  refine ⟨[(strSymbols s, e')], [(strSymbols s, e)], ?_, ?_, ?_, ?_, ?_, rfl, rfl⟩
  · rw [referenceDict_eq, readFile_cons]
    simp [readFile, hn, hn', setItem, pure, Except.pure, bind, Except.bind]
  · rw [referenceDict_eq, readFile_cons]
    simp [readFile, hn, hn', setItem, pure, Except.pure, bind, Except.bind]
  · simp [getItem]
  · simp [getItem]
  · simp [getItem, hne.symm]

/-- Under a key that no file has there is nothing: a bulk of several atoms does not stand under the symbol of its element, nor a molecule under its
formula if its atoms come in another order. -/
theorem C295_missing (files : List (List Char × Except PyErr Content)) (d : List (List Char × ℝ)) (h : referenceDict files = .ok d)
    (hs : ∀ f ∈ files, ∀ c, f.2 = .ok c → ∀ s ∈ c.1, IsSymbol s) (syms : List (List Char)) (hsym : ∀ s ∈ syms, IsSymbol s)
    (hno : ∀ f ∈ files, isReference f.1 = true → ∀ c, f.2 = .ok c → c.1 ≠ syms) : getItem d (strSymbols syms) = .error .key := by
  rw [referenceDict_eq] at h
  rw [foldlM_get files [] d _ h fun f hf hr c hc he => hno f hf hr c hc ((C295_key _ _ (hs f hf c hc) hsym).1 he)]
  rfl

/-- Files of other names are not read. -/
theorem C295_ignored (files : List (List Char × Except PyErr Content)) :
    referenceDict files = referenceDict (files.filter fun f => isReference f.1) := by
  rw [referenceDict_eq, referenceDict_eq]
  generalize ([] : List (List Char × ℝ)) = d
  induction files generalizing d with
  | nil => rfl
  | cons f l ih =>
    by_cases hf : isReference f.1 = true
    · rw [List.filter_cons, if_pos hf, readFile_cons, readFile_cons]
      cases readFile d f with
      | error e => rfl
      | ok d' => exact ih d'
    · rw [List.filter_cons, if_neg hf, readFile_cons]
      have : readFile d f = .ok d := by unfold readFile; rw [if_neg hf]
      rw [this]
      exact ih d

/-- A dictionary is made exactly if every file that is read can be read. -/
theorem C295_fails (files : List (List Char × Except PyErr Content)) :
    (∃ d, referenceDict files = .ok d) ↔ ∀ f ∈ files, isReference f.1 = true → ∃ c, f.2 = .ok c := by
  rw [referenceDict_eq]
  generalize ([] : List (List Char × ℝ)) = d
  induction files generalizing d with
  | nil => exact ⟨fun _ => by simp, fun _ => ⟨d, rfl⟩⟩
  | cons f l ih =>
    rw [readFile_cons]
    by_cases hf : isReference f.1 = true
    · cases hc : f.2 with
      | error e =>
        have : readFile d f = .error e := by unfold readFile; rw [if_pos hf, hc]
        rw [this]
        constructor
        · rintro ⟨d', hd'⟩; cases hd'
        · intro hall
          obtain ⟨c, hc'⟩ := hall f (by simp) hf
          rw [hc] at hc'
          cases hc'
      | ok c =>
        have : readFile d f = .ok (setItem d (strSymbols c.1) c.2) := by unfold readFile; rw [if_pos hf, hc]
        rw [this]
        show (∃ d', l.foldlM readFile _ = .ok d') ↔ _
        rw [ih]
        simp only [List.mem_cons, forall_eq_or_imp]
        exact ⟨fun h => ⟨fun _ => ⟨c, hc⟩, h⟩, fun h => h.2⟩
    · have : readFile d f = .ok d := by unfold readFile; rw [if_neg hf]
      rw [this]
      show (∃ d', l.foldlM readFile _ = .ok d') ↔ _
      rw [ih]
      simp only [List.mem_cons, forall_eq_or_imp]
      exact ⟨fun h => ⟨fun h' => absurd h' hf, h⟩, fun h => h.2⟩

/-- Water is `H2O`, `OH2` or `HOH`, by the order of the atoms; the bulk of four platinum atoms is `Pt4`. -/
example : strSymbols ["H".toList, "H".toList, "O".toList] = "H2O".toList ∧ strSymbols ["H".toList, "O".toList, "H".toList] = "HOH".toList ∧
    strSymbols (List.replicate 4 "Pt".toList) = "Pt4".toList ∧ isReference "pt.traj".toList = true ∧ isReference "notes.txt".toList = false := by
  refine ⟨?_, ?_, ?_, ?_, ?_⟩ <;> decide +kernel

end CatLearn.SiteNames
