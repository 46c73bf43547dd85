import Verif.Model.Magpie
import Mathlib.Data.List.Basic
import Mathlib.Data.List.Nodup
import Mathlib.Data.Char

/-!
C288: Voronoi fingerprints from Magpie.  C289: prototype fingerprints from Magpie.
-/

namespace CatLearn.Magpie

open CatLearn

/-! ### Lemmas -/

private theorem hyphen {c : Char} {i : ℕ} (h : c ∈ Nat.toDigits 10 i) : c ≠ '-' := by
  have := Nat.isDigit_of_mem_toDigits (by decide) (by decide) h
  rintro rfl
  exact absurd this (by decide)

private theorem name_inj (a b : List Char) (f g : List Char) (ha : ∀ c ∈ a, c ≠ '-') (hb : ∀ c ∈ b, c ≠ '-')
    (h : a ++ '-' :: f = b ++ '-' :: g) : a = b := by
  induction a generalizing b with
  | nil =>
    cases b with
    | nil => rfl
    | cons c b => simp only [List.nil_append, List.cons_append, List.cons.injEq] at h; exact absurd h.1.symm (hb c (by simp))
  | cons c a ih =>
    cases b with
    | nil => simp only [List.nil_append, List.cons_append, List.cons.injEq] at h; exact absurd h.1 (ha c (by simp))
    | cons c' b =>
      simp only [List.cons_append, List.cons.injEq] at h
      rw [h.1, ih b (fun x hx => ha x (by simp [hx])) (fun x hx => hb x (by simp [hx])) h.2]

private def nm (i : ℕ) (f : List Char) : List Char := Nat.toDigits 10 i ++ '-' :: f

private theorem nm_inj {i j : ℕ} {f g : List Char} (h : nm i f = nm j g) : i = j := by
  have := congrArg (Nat.ofDigitChars 10 · 0) (name_inj _ _ f g (fun _ hc => hyphen hc) (fun _ hc => hyphen hc) h)
  simpa [Nat.ofDigitChars_ten_toDigits] using this

private theorem write_loop {α : Type} (formula : α → List Char) (atoms : List α) (i : ℕ) (files : List (List Char × α)) (table : List Entry)
    (h : ∀ f ∈ files, ∀ j ≥ i, ∀ s, f.1 ≠ nm j s) :
    atoms.foldl (writeOne formula) (i, files, table) =
      (i + atoms.length, files ++ (atoms.zipIdx i).map (fun p => (nm p.2 (formula p.1), p.1)),
        table ++ (atoms.zipIdx i).map fun p => ⟨nm p.2 (formula p.1), p.2, formula p.1⟩) := by
  induction atoms generalizing i files table with
  | nil => simp
  | cons a rest ih =>
    rw [List.foldl_cons]
    have hw : writeOne formula (i, files, table) a =
        (i + 1, files ++ [(nm i (formula a), a)], table ++ [⟨nm i (formula a), i, formula a⟩]) := by
      unfold writeOne writeFile
      simp only [Prod.mk.injEq, true_and]
      refine ⟨?_, rfl⟩
      rw [List.filter_eq_self.mpr]
      · rfl
      · intro f hf
        simpa [nm] using h f hf i (le_refl _) (formula a)
    rw [hw, ih]
    · simp only [List.zipIdx_cons, List.map_cons, List.append_assoc, List.singleton_append, List.length_cons, Prod.mk.injEq,
        and_true]
      omega
    · intro f hf j hj s
      rcases List.mem_append.mp hf with hf | hf
      · exact h f hf j (by omega) s
      · rw [List.mem_singleton] at hf
        subst hf
        intro he
        have := nm_inj he
        omega

private theorem write_eq {α β : Type} (formula : α → List Char) (atoms : List α) (disk : Option (Dir α β)) :
    writeVoro formula atoms disk = ⟨atoms.zipIdx.map (fun p => (nm p.2 (formula p.1), p.1)),
      atoms.zipIdx.map (fun p => ⟨nm p.2 (formula p.1), p.2, formula p.1⟩), none⟩ := by
  have hf : fresh disk = (⟨[], [], none⟩ : Dir α β) := by cases disk <;> rfl
  unfold writeVoro
  rw [hf]
  simp only
  rw [write_loop formula atoms 0 [] [] (by simp)]
  simp

private theorem lookup_eq {α : Type} (formula : α → List Char) (atoms : List α) (i : ℕ) (p : α × ℕ) (hp : p ∈ atoms.zipIdx i) :
    ((atoms.zipIdx i).map fun q => (nm q.2 (formula q.1), q.1)).lookup (nm p.2 (formula p.1)) = some p.1 := by
  induction atoms generalizing i with
  | nil => simp at hp
  | cons a rest ih =>
    rw [List.zipIdx_cons] at hp ⊢
    rw [List.map_cons]
    rcases List.mem_cons.mp hp with rfl | hp'
    · simp
    · have hlt : i < p.2 := by
        have := List.le_snd_of_mem_zipIdx hp'
        omega
      have hne : (nm p.2 (formula p.1) == nm i (formula a)) = false := by
        rw [beq_eq_false_iff_ne]
        intro h
        have := nm_inj h
        omega
      rw [List.lookup_cons, hne]
      exact ih (i + 1) hp'

private theorem ids {α β : Type} (g : α → Option β) (atoms : List α) (i : ℕ) (p : α × ℕ) (hp : p ∈ atoms.zipIdx i) :
    ((atoms.zipIdx i).filterMap fun q => (g q.1).map fun y => (q.2, y)).filter (fun r => r.1 = p.2) =
      ((g p.1).map fun y => (p.2, y)).toList := by
  induction atoms generalizing i with
  | nil => simp at hp
  | cons a rest ih =>
    rw [List.zipIdx_cons] at hp ⊢
    have hsplit : ((a, i) :: rest.zipIdx (i + 1)).filterMap (fun q => (g q.1).map fun y => (q.2, y)) =
        ((g a).map fun y => (i, y)).toList ++ (rest.zipIdx (i + 1)).filterMap (fun q => (g q.1).map fun y => (q.2, y)) := by
      rw [List.filterMap_cons]
      cases g a <;> simp
    rw [hsplit, List.filter_append]
    rcases List.mem_cons.mp hp with rfl | hp'
    · have : ((rest.zipIdx (i + 1)).filterMap fun q => (g q.1).map fun y => (q.2, y)).filter (fun r => r.1 = i) = [] := by
        rw [List.filter_eq_nil_iff]
        intro r hr
        obtain ⟨q, hq, hqr⟩ := List.mem_filterMap.mp hr
        have := List.le_snd_of_mem_zipIdx hq
        cases hg : g q.1 with
        | none => rw [hg] at hqr; simp at hqr
        | some y =>
          rw [hg] at hqr
          simp only [Option.map_some, Option.some.injEq] at hqr
          subst hqr
          simp only [decide_eq_true_eq]
          omega
      rw [this]
      cases g a <;> simp
    · rw [ih (i + 1) hp']
      have := List.le_snd_of_mem_zipIdx hp'
      cases hg : g a with
      | none => simp
      | some y =>
        simp only [Option.map_some, Option.toList_some]
        rw [List.filter_cons_of_neg, List.filter_nil, List.nil_append]
        simp only [decide_eq_true_eq]
        omega

private theorem perm_short {γ : Type} (o : Option γ) (l : List γ) (h : l.Perm o.toList) : l = o.toList := by
  cases o with
  | none => exact List.perm_nil.mp h
  | some x => exact List.perm_singleton.mp h

private theorem merge_rows {α β γ : Type} (u : α × ℕ → γ) (g : α → Option β) (atoms : List α) (rows : List (ℕ × β))
    (h : rows.Perm (atoms.zipIdx.filterMap fun q => (g q.1).map fun y => (q.2, y))) :
    merge (atoms.zipIdx.map fun p => (p.2, u p)) rows =
      atoms.zipIdx.filterMap fun p => (g p.1).map fun y => (p.2, u p, y) := by
  unfold merge
  rw [List.flatMap_map]
  have hp : ∀ p ∈ atoms.zipIdx, (rows.filter fun r => r.1 = p.2).map (fun r => (p.2, u p, r.2)) =
      ((g p.1).map fun y => (p.2, u p, y)).toList := by
    intro p hp
    have := perm_short ((g p.1).map fun y => (p.2, y)) _ ((ids g atoms 0 p hp) ▸ h.filter fun r : ℕ × β => r.1 = p.2)
    rw [this]
    cases g p.1 <;> rfl
  clear h
  generalize atoms.zipIdx = L at hp
  induction L with
  | nil => rfl
  | cons p L ih =>
    rw [List.flatMap_cons, hp p (by simp), ih (fun q hq => hp q (by simp [hq])), List.filterMap_cons]
    cases g p.1 <;> rfl

private theorem map_zipIdx {α β : Type} (g : α → Option β) (atoms : List α) (i : ℕ) :
    (atoms.zipIdx i).filterMap (fun p => g p.1) = atoms.filterMap g := by
  induction atoms generalizing i with
  | nil => rfl
  | cons a rest ih => rw [List.zipIdx_cons, List.filterMap_cons, List.filterMap_cons, ih]

/-! ### C288 -/

/-- The files handed to Magpie: one for each structure, under a name of its own, and a row that says which.  Nothing of a former
calculation in the same directory is left. -/
theorem C288_files {α β : Type} (formula : α → List Char) (atoms : List α) (disk : Option (Dir α β)) :
    (writeVoro formula atoms disk).files.length = atoms.length ∧ (writeVoro formula atoms disk).table.length = atoms.length ∧
      ((writeVoro formula atoms disk).table.map fun e => e.filename).Nodup ∧ (writeVoro formula atoms disk).csv = none ∧
      ∀ k (hk : k < atoms.length), ∃ e, (writeVoro formula atoms disk).table[k]? = some e ∧ e.id = k ∧
        e.formula = formula atoms[k] ∧ (writeVoro formula atoms disk).files.lookup e.filename = some atoms[k] := by
  rw [write_eq]
  refine ⟨by simp, by simp, ?_, rfl, fun k hk => ⟨⟨nm k (formula atoms[k]), k, formula atoms[k]⟩, ?_, rfl, rfl, ?_⟩⟩
  · simp only [List.map_map]
    rw [List.nodup_iff_getElem?_ne_getElem?]
    intro i j hij hj
    simp only [List.length_map, List.length_zipIdx] at hj
    simp only [List.getElem?_map, List.getElem?_zipIdx]
    rw [List.getElem?_eq_getElem hj, List.getElem?_eq_getElem (by omega : i < atoms.length)]
    simp only [Option.map_some, Function.comp_apply, ne_eq, Option.some.injEq, Nat.zero_add]
    intro h
    have := nm_inj h
    omega
  · simp [hk]
  · have hm : (atoms[k], k) ∈ atoms.zipIdx := by
      rw [List.mem_zipIdx_iff_getElem?]
      exact List.getElem?_eq_getElem hk
    exact lookup_eq formula atoms 0 _ hm

/-- Magpie reads the file named in each row of the table and computes `g` from it; it may leave structures out and may write the
rows in any order. -/
def Computes {α β : Type} (magpie : List (List Char × α) → List Entry → Option (List (ℕ × β))) (g : α → Option β) : Prop :=
  ∀ files table, ∃ rows, magpie files table = some rows ∧
    rows.Perm (table.filterMap fun e => ((files.lookup e.filename).bind g).map fun y => (e.id, y))

/-- The rows of the table are those of the structures Magpie can do, in their order. -/
theorem C288_rows_partial {α β : Type} (formula : α → List Char)
    (magpie : List (List Char × α) → List Entry → Option (List (ℕ × β))) (g : α → Option β) (hm : Computes magpie g)
    (deleteTemp : Bool) (atoms : List α) (disk : Option (Dir α β)) :
    (voroGenerate formula magpie deleteTemp atoms disk).2 = .ok (atoms.filterMap g) := by
  unfold voroGenerate
  rw [write_eq]
  simp only
  obtain ⟨rows, h1, h2⟩ := hm (atoms.zipIdx.map fun p => (nm p.2 (formula p.1), p.1))
    (atoms.zipIdx.map fun p => ⟨nm p.2 (formula p.1), p.2, formula p.1⟩)
  rw [h1]
  simp only [List.map_map]
  have h3 : rows.Perm (atoms.zipIdx.filterMap fun q => (g q.1).map fun y => (q.2, y)) := by
    refine h2.trans (List.Perm.of_eq ?_)
    rw [List.filterMap_map]
    refine List.filterMap_congr fun p hp => ?_
    simp only [Function.comp_apply]
    rw [lookup_eq formula atoms 0 p hp]
    rfl
  have := merge_rows (fun p => (⟨nm p.2 (formula p.1), p.2, formula p.1⟩ : Entry)) g atoms rows h3
  simp only [Function.comp_def]
  rw [this, List.map_filterMap, ← map_zipIdx g atoms 0]
  congr 1
  refine List.filterMap_congr fun p _ => ?_
  cases g p.1 <;> rfl

/-- If Magpie can do all structures, row `k` of the table belongs to structure `k`. -/
theorem C288_rows {α β : Type} (formula : α → List Char)
    (magpie : List (List Char × α) → List Entry → Option (List (ℕ × β))) (g : α → β) (hm : Computes magpie fun a => some (g a))
    (deleteTemp : Bool) (atoms : List α) (disk : Option (Dir α β)) :
    (voroGenerate formula magpie deleteTemp atoms disk).2 = .ok (atoms.map g) := by
  rw [C288_rows_partial formula magpie _ hm]
  congr 1
  induction atoms with
  | nil => rfl
  | cons a t ih => rw [List.filterMap_cons, List.map_cons, ih]

/-- A program that computes something from each structure and writes the rows backwards. -/
example (g : ℕ → ℕ) : Computes (fun files table =>
    some ((table.filterMap fun e => ((files.lookup e.filename).bind fun a => some (g a)).map fun y => (e.id, y)).reverse)) fun a => some (g a) :=
  fun _ _ => ⟨_, rfl, List.reverse_perm _⟩

/-- If Magpie leaves a structure out, the rows that follow move up, and the column that would tell is dropped: the first row
belongs to the second structure, and the table is the same as that of the second structure alone. -/
theorem C288_rows_violated {α β : Type} (formula : α → List Char)
    (magpie : List (List Char × α) → List Entry → Option (List (ℕ × β))) (g : α → Option β) (hm : Computes magpie g)
    (a b : α) (y : β) (ha : g a = none) (hb : g b = some y) (deleteTemp : Bool) (disk : Option (Dir α β)) :
    (voroGenerate formula magpie deleteTemp [a, b] disk).2 = .ok [y] ∧
      (voroGenerate formula magpie deleteTemp [a, b] disk).2 = (voroGenerate formula magpie deleteTemp [b] disk).2 := by
  rw [C288_rows_partial formula magpie g hm, C288_rows_partial formula magpie g hm]
  simp [ha, hb]

/-- A program that leaves out odd structures. -/
example : Computes (fun files table => some (table.filterMap fun e =>
      ((files.lookup e.filename).bind fun a : ℕ => if a % 2 = 0 then some a else none).map fun y => (e.id, y)))
    (fun a => if a % 2 = 0 then some a else none) ∧
    (if 3 % 2 = 0 then some 3 else none : Option ℕ) = none ∧ (if 4 % 2 = 0 then some 4 else none : Option ℕ) = some 4 :=
  ⟨fun _ _ => ⟨_, rfl, List.Perm.refl _⟩, by decide, by decide⟩

/-- If Magpie cannot be run, an error is raised, whatever a former calculation has left in the directory; the input stays for
inspection.  The result never depends on what was in the directory. -/
theorem C288_directory {α β : Type} (formula : α → List Char)
    (magpie : List (List Char × α) → List Entry → Option (List (ℕ × β))) (deleteTemp : Bool) (atoms : List α)
    (disk disk' : Option (Dir α β)) :
    voroGenerate formula magpie deleteTemp atoms disk = voroGenerate formula magpie deleteTemp atoms disk' ∧
      ((∀ files table, magpie files table = none) →
        voroGenerate formula magpie deleteTemp atoms disk = (some (writeVoro formula atoms none), .error .other)) ∧
      ((∀ files table, magpie files table ≠ none) →
        ((voroGenerate formula magpie deleteTemp atoms disk).1 = none ↔ deleteTemp = true) ∧
        (voroGenerate formula magpie deleteTemp atoms disk).2.isOk = true) := by
  have hd : writeVoro formula atoms disk = writeVoro formula atoms disk' := by rw [write_eq, write_eq]
  refine ⟨?_, fun h => ?_, fun h => ?_⟩
  · unfold voroGenerate
    rw [hd]
  · unfold voroGenerate
    simp only
    rw [h, write_eq, write_eq]
  · unfold voroGenerate
    simp only
    cases hm : magpie (writeVoro formula atoms disk).files (writeVoro formula atoms disk).table with
    | none => exact absurd hm (h _ _)
    | some rows => cases deleteTemp <;> simp [Except.isOk, Except.toBool]

/-- A former calculation has left fingerprints in the directory. -/
example : voroGenerate (fun _ : ℕ => "H".toList) (fun _ _ => none) true [5] (some ⟨[], [], some [(0, "old")]⟩) =
    (some (writeVoro (fun _ : ℕ => "H".toList) [5] none), .error .other) := (C288_directory _ _ _ _ _ none).2.1 fun _ _ => rfl

/-! ### C289 -/

section
variable {κ : Type} [LinearOrder κ]

private theorem sorted_sites (sites : List (κ × ℕ × List (List Char))) :
    ∃ l : List (κ × ℕ × List (List Char)), l.Perm sites ∧ (l.map fun s => s.1).Pairwise (· ≤ ·) ∧ siteList false sites = .ok (l.map fun s => s.1) := by
  have ht : Std.Total fun a b : κ × ℕ × List (List Char) => a.1 ≤ b.1 := ⟨fun a b => le_total a.1 b.1⟩
  have htr : IsTrans (κ × ℕ × List (List Char)) fun a b => a.1 ≤ b.1 := ⟨fun _ _ _ h1 h2 => le_trans h1 h2⟩
  have h1 := List.perm_insertionSort (fun a b : κ × ℕ × List (List Char) => a.1 ≤ b.1) sites
  have h2 := List.pairwise_insertionSort (fun a b : κ × ℕ × List (List Char) => a.1 ≤ b.1) sites
  refine ⟨_, h1, List.pairwise_map.mpr h2, ?_⟩
  unfold siteList
  simp only [Bool.false_eq_true, if_false, Except.ok.injEq]
  exact List.Perm.eq_of_pairwise (fun a b _ _ => le_antisymm) (List.pairwise_insertionSort _ _) (List.pairwise_map.mpr h2)
    ((List.perm_insertionSort _ _).trans (h1.map _).symm)

private theorem lookup_site (sites : List (κ × ℕ × List (List Char))) (hd : (sites.map fun s => s.1).Nodup)
    (s : κ × ℕ × List (List Char)) (hs' : s ∈ sites) : sites.lookup s.1 = some s.2 := by
  induction sites with
  | nil => simp at hs'
  | cons t rest ih =>
    obtain ⟨k, v⟩ := t
    rw [List.map_cons, List.nodup_cons] at hd
    rw [List.lookup_cons]
    rcases List.mem_cons.mp hs' with rfl | h
    · simp
    · have hne : (s.1 == k) = false := by
        rw [beq_eq_false_iff_ne]
        rintro rfl
        exact hd.1 (List.mem_map.mpr ⟨s, h, rfl⟩)
      rw [hne]
      exact ih hd.2 h

/-- In Python 2 the sites are taken in the order of their names, each once. -/
theorem C289_sites_partial (sites : List (κ × ℕ × List (List Char))) :
    ∃ l, siteList false sites = .ok l ∧ l.Pairwise (· ≤ ·) ∧ l.Perm (sites.map fun s => s.1) :=
  ⟨_, rfl, List.pairwise_insertionSort _ _, List.perm_insertionSort _ _⟩

/-- In Python 3 no description of the sites can be made, not even the default one. -/
theorem C289_sites_violated {α β : Type} (attr : α → κ → Option (List Char)) (sites : List (κ × ℕ × List (List Char)))
    (properties : List κ) (magpie : List (ℕ × Row) → List Char → Option (List (ℕ × β))) (atoms : List α) :
    siteList true sites = .error .attribute ∧
      generateAll true attr sites properties magpie atoms = .error .attribute := ⟨rfl, rfl⟩

/-- The line of each site in `site-info.txt`, in the order of `siteList`. -/
theorem C289_lines (sites : List (κ × ℕ × List (List Char))) (hd : (sites.map fun s => s.1).Nodup) (l : List (κ × ℕ × List (List Char)))
    (hl : l.Perm sites) :
    siteStr sites (l.map fun s => s.1) = ['\n'].intercalate (l.map fun s => [' '].intercalate (Nat.toDigits 10 s.2.1 :: s.2.2)) := by
  unfold siteStr
  rw [List.map_map]
  congr 1
  refine List.map_congr_left fun s hs => ?_
  have := lookup_site sites hd s (hl.mem_iff.mp hs)
  simp only [Function.comp_apply]
  rw [this]

example : siteStr [('B', 1, []), ('A', 1, []), ('C', 3, ["-omit".toList])] ['A', 'B', 'C'] = "1\n1\n3 -omit".toList := by decide

private theorem atName_ok {α : Type} (attr : α → κ → Option (List Char)) (sites : List (κ × ℕ × List (List Char)))
    (hd : (sites.map fun s => s.1).Nodup) (a : α) (h : ∀ s ∈ sites, attr a s.1 ≠ none) (l : List (κ × ℕ × List (List Char)))
    (hl : ∀ s ∈ l, s ∈ sites) :
    atName attr sites (l.map fun s => s.1) a = .ok (Catmap.formula (l.map fun s => ((attr a s.1).getD [], s.2.1))) := by
  unfold atName
  suffices hs : (l.map fun s => s.1).mapM (sitePart attr sites a) = .ok (l.map fun s => ((attr a s.1).getD [], s.2.1)) by
    rw [hs]; rfl
  induction l with
  | nil => rfl
  | cons s l ih =>
    rw [List.map_cons, List.mapM_cons, ih fun x hx => hl x (by simp [hx]), sitePart, lookup_site sites hd s (hl s (by simp))]
    cases ha : attr a s.1 with
    | none => exact absurd ha (h s (hl s (by simp)))
    | some v => simp [ha, bind, Except.bind, pure, Except.pure]

private theorem atName_missing {α : Type} (attr : α → κ → Option (List Char)) (sites : List (κ × ℕ × List (List Char)))
    (hd : (sites.map fun s => s.1).Nodup) (a : α) (l : List (κ × ℕ × List (List Char)))
    (hl : ∀ s ∈ l, s ∈ sites) (h : ∃ s ∈ l, attr a s.1 = none) :
    atName attr sites (l.map fun s => s.1) a = .error .attribute := by
  unfold atName
  suffices hs : (l.map fun s => s.1).mapM (sitePart attr sites a) = .error .attribute by
    rw [hs]; rfl
  induction l with
  | nil => obtain ⟨s, hs, -⟩ := h; simp at hs
  | cons s l ih =>
    rw [List.map_cons, List.mapM_cons, sitePart, lookup_site sites hd s (hl s (by simp))]
    cases ha : attr a s.1 with
    | none => rfl
    | some v =>
      rw [ih (fun x hx => hl x (by simp [hx]))]
      · rfl
      · obtain ⟨x, hx, hn⟩ := h
        rcases List.mem_cons.mp hx with rfl | hx
        · rw [ha] at hn; cases hn
        · exact ⟨x, hx, hn⟩

/-- In Python 2, if the properties include the sites and all structures have them, row `k` of the table of `generate_all`
consists of the number, the formula and the properties of structure `k` and of the fingerprint Magpie computed from them, in
whatever order Magpie wrote them.  The formula names the elements on the sites in the order of the names of the sites; a property that
a structure does not have is empty. -/
theorem C289_rows_partial {α β : Type} (attr : α → κ → Option (List Char)) (sites : List (κ × ℕ × List (List Char)))
    (hd : (sites.map fun s => s.1).Nodup) (properties : List κ) (hp : properties.Nodup) (hs : ∀ s ∈ sites, s.1 ∈ properties)
    (magpie : List (ℕ × Row) → List Char → Option (List (ℕ × β))) (g : Row → β)
    (hm : ∀ input str, ∃ rows, magpie input str = some rows ∧ rows.Perm (input.map fun r => (r.1, g r.2)))
    (atoms : List α) (ha : ∀ a ∈ atoms, ∀ s ∈ sites, attr a s.1 ≠ none) :
    ∃ l : List (κ × ℕ × List (List Char)), l.Perm sites ∧ (l.map fun s => s.1).Pairwise (· ≤ ·) ∧ ∃ result,
      generateAll false attr sites properties magpie atoms = .ok result ∧ result.length = atoms.length ∧
      ∀ k (hk : k < atoms.length), ∃ row, result[k]? = some (k, row, g row) ∧
        row.formula = Catmap.formula (l.map fun s => ((attr atoms[k] s.1).getD [], s.2.1)) ∧
        row.cells = properties.map (attr atoms[k]) := by
  obtain ⟨l, h1, h2, h3⟩ := sorted_sites sites
  have hl : ∀ s ∈ l, s ∈ sites := fun s h => h1.mem_iff.mp h
  set row : α → Row := fun a => ⟨Catmap.formula (l.map fun s => ((attr a s.1).getD [], s.2.1)), properties.map (attr a)⟩ with hrow
  have hrows : ∀ (atoms : List α) (i : ℕ), (∀ a ∈ atoms, ∀ s ∈ sites, attr a s.1 ≠ none) →
      protoRows attr sites (l.map fun s => s.1) properties atoms i = .ok ((atoms.zipIdx i).map fun p => (p.2, row p.1)) := by
    intro atoms
    induction atoms with
    | nil => intros; rfl
    | cons a rest ih =>
      intro i ha
      rw [protoRows, atName_ok attr sites hd a (ha a (by simp)) l hl, ih (i + 1) fun b hb => ha b (by simp [hb])]
      simp only [bind, Except.bind, pure, Except.pure, List.zipIdx_cons, List.map_cons, hrow]
  have hw : writeProto attr sites (l.map fun s => s.1) properties atoms = .ok (atoms.zipIdx.map fun p => (p.2, row p.1)) := by
    unfold writeProto
    rw [if_neg, hrows atoms 0 ha]
    · simp only [bind, Except.bind, pure, Except.pure, hp, not_true_eq_false, and_false, if_false]
    · simp only [List.any_map, List.any_eq_true, not_exists, not_and, Function.comp_apply, Bool.not_eq_true',
        Bool.not_eq_false, List.contains_iff_mem]
      exact fun s h => by simpa using hs s (hl s h)
  obtain ⟨rows, hr1, hr2⟩ := hm (atoms.zipIdx.map fun p => (p.2, row p.1)) (siteStr sites (l.map fun s => s.1))
  refine ⟨l, h1, h2, atoms.zipIdx.map fun p => (p.2, row p.1, g (row p.1)), ?_, by simp, fun k hk => ⟨row atoms[k], ?_, rfl, rfl⟩⟩
  · unfold generateAll
    rw [h3]
    simp only [bind, Except.bind]
    rw [hw]
    simp only [hr1, pure, Except.pure]
    have := merge_rows (fun p => row p.1) (fun a => some (g (row a))) atoms rows (hr2.trans (List.Perm.of_eq (by
      rw [List.map_map]
      exact (List.filterMap_eq_map' (f := fun p : α × ℕ => (p.2, g (row p.1)))).symm ▸ rfl)))
    rw [this]
    congr 1
    exact List.filterMap_eq_map' (f := fun p : α × ℕ => (p.2, row p.1, g (row p.1))) ▸ rfl
  · simp [hk]

/-- Perovskites. -/
example : ([('A', 1, []), ('B', 1, []), ('C', 3, ["-omit".toList])].map fun s : Char × ℕ × List (List Char) => s.1).Nodup ∧
    generateAll (α := Unit) (β := ℕ) false (fun _ k => if k = 'A' then some "Ba".toList else if k = 'B' then some "Ti".toList else if k = 'C' then some "O".toList else none)
      [('B', 1, []), ('A', 1, []), ('C', 3, ["-omit".toList])] ['C', 'B', 'A', 'x']
      (fun input _ => some (input.map fun r => (r.1, r.2.formula.length))) [()] =
    .ok [(0, ⟨"BaTiO3".toList, [some "O".toList, some "Ti".toList, some "Ba".toList, none]⟩, 6)] := by decide

/-- A site that is not among the properties is refused. -/
theorem C289_unlisted {α β : Type} (attr : α → κ → Option (List Char)) (sites : List (κ × ℕ × List (List Char)))
    (properties : List κ) (h : ∃ s ∈ sites, s.1 ∉ properties)
    (magpie : List (ℕ × Row) → List Char → Option (List (ℕ × β))) (atoms : List α) :
    generateAll false attr sites properties magpie atoms = .error .value := by
  obtain ⟨l, h1, h2, h3⟩ := sorted_sites sites
  unfold generateAll
  rw [h3]
  simp only [bind, Except.bind]
  unfold writeProto
  obtain ⟨s, hs, hn⟩ := h
  rw [if_pos]
  · rfl
  · rw [List.any_eq_true]
    exact ⟨s.1, List.mem_map.mpr ⟨s, h1.mem_iff.mpr hs, rfl⟩, by simpa using hn⟩

example : ∃ s ∈ [('A', 1, ([] : List (List Char)))], s.1 ∉ ['B'] := ⟨_, List.mem_singleton.mpr rfl, by decide⟩

/-- With the default `properties=[]` no table is made, whatever the sites are, unless there are none. -/
theorem C289_default_violated {α β : Type} (attr : α → κ → Option (List Char)) (sites : List (κ × ℕ × List (List Char))) (h : sites ≠ [])
    (magpie : List (ℕ × Row) → List Char → Option (List (ℕ × β))) (atoms : List α) :
    generateAll false attr sites [] magpie atoms = .error .value := by
  obtain ⟨s, hs⟩ := List.exists_mem_of_ne_nil sites h
  exact C289_unlisted attr sites [] ⟨s, hs, by simp⟩ magpie atoms

/-- A structure that lacks the element of a site is refused. -/
theorem C289_missing {α β : Type} (attr : α → κ → Option (List Char)) (sites : List (κ × ℕ × List (List Char)))
    (hd : (sites.map fun s => s.1).Nodup) (properties : List κ) (hs : ∀ s ∈ sites, s.1 ∈ properties)
    (magpie : List (ℕ × Row) → List Char → Option (List (ℕ × β))) (atoms : List α)
    (h : ∃ a ∈ atoms, ∃ s ∈ sites, attr a s.1 = none) :
    generateAll false attr sites properties magpie atoms = .error .attribute := by
  obtain ⟨l, h1, h2, h3⟩ := sorted_sites sites
  have hl : ∀ s ∈ l, s ∈ sites := fun s h => h1.mem_iff.mp h
  have hrows : ∀ (atoms : List α) (i : ℕ), (∃ a ∈ atoms, ∃ s ∈ sites, attr a s.1 = none) →
      protoRows attr sites (l.map fun s => s.1) properties atoms i = .error .attribute := by
    intro atoms
    induction atoms with
    | nil => rintro i ⟨a, ha, -⟩; simp at ha
    | cons a rest ih =>
      intro i h
      rw [protoRows]
      by_cases hb : ∃ s ∈ sites, attr a s.1 = none
      · obtain ⟨s, hs, hn⟩ := hb
        rw [atName_missing attr sites hd a l hl ⟨s, h1.mem_iff.mpr hs, hn⟩]
        rfl
      · rw [atName_ok attr sites hd a (fun s hs hn => hb ⟨s, hs, hn⟩) l hl, ih (i + 1)]
        · rfl
        · obtain ⟨b, hb', hc⟩ := h
          rcases List.mem_cons.mp hb' with rfl | hb'
          · exact absurd hc hb
          · exact ⟨b, hb', hc⟩
  unfold generateAll
  rw [h3]
  simp only [bind, Except.bind]
  unfold writeProto
  rw [if_neg, hrows atoms 0 h]
  · rfl
  · simp only [List.any_map, List.any_eq_true, not_exists, not_and, Function.comp_apply]
    exact fun s h => by simpa using hs s (hl s h)

example : ∃ a ∈ [()], ∃ s ∈ [('A', 1, ([] : List (List Char)))], (fun (_ : Unit) (_ : Char) => (none : Option (List Char))) a s.1 = none :=
  ⟨(), List.mem_singleton.mpr rfl, _, List.mem_singleton.mpr rfl, rfl⟩

end

end CatLearn.Magpie
