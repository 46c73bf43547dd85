import Verif.Model.SiteGeom

/-!
# A `Material` that is asked repeatedly, catlearn/featurize/site_stability.py L162-440

The connection matrix and the coordination numbers are computed once, in `__init__`; the properties `site_angles` and `site_distances` assign to a row of the
matrix, which is a view.  The positions are read from the `atoms` object at every call.
-/

namespace CatLearn.SiteGeom

open CatLearn CatLearn.Nb

variable {n : ℕ}

/-- The attributes of a `Material` on which later calls depend: `self.atoms` (numbers and positions), `self.cm`, `self.cn_list` and `self.site_index`.  `np.sum(cm, axis=1)`
raises an error for no atoms, so `n` is not 0 for an object that exists. -/
structure Material (n : ℕ) where
  z : Fin n → ℕ
  p : Fin n → Fin 3 → ℝ
  cm : Mat n ℝ
  cn : Fin n → ℝ
  site : Option (Fin n)

/-- `__init__`, L165-219. -/
noncomputable def Material.new (radius : ℕ → ℝ) (z : Fin n → ℕ) (p : Fin n → Fin 3 → ℝ) : Material n :=
  ⟨z, p, SiteGeom.cm radius z p, cnList radius z p, none⟩

/-- `cm_site = self.cm[self.site_index]; cm_site[self.site_index] = 0`, L337-338 and L381-382: the row is a view, so the matrix is changed.  `self.cm[None]` is a view on
the whole matrix with another axis in front, and assigning at `None` assigns everywhere. -/
noncomputable def Material.clearDiag (s : Material n) : Material n :=
  match s.site with
  | some i => { s with cm := Function.update s.cm i (Function.update (s.cm i) i 0) }
  | none => { s with cm := fun _ _ => 0 }

/-- `site_angles`, L331-373: the returned angles (NaN for none; an empty list here).  Without a site the loop over `cm_site` meets a matrix `x`; the truth value of
`x == 1` raises ValueError unless it has one entry. -/
noncomputable def Material.siteAngles (s : Material n) : Except PyErr (List ℝ) × Material n :=
  let s' := s.clearDiag
  match s.site with
  | some i =>
    let nb := (List.finRange n).filter fun j => s'.cm i j = 1
    (.ok ((pairs nb).filterMap fun q => angle (s.p q.1) (s.p i) (s.p q.2)), s')
  | none => (if n = 1 then .ok [] else .error .value, s')

/-- `site_distances`, L375-399: `np.min` of no distances raises ValueError; without a site as in `siteAngles`. -/
noncomputable def Material.siteDistances (s : Material n) : Except PyErr (List ℝ) × Material n :=
  let s' := s.clearDiag
  match s.site with
  | some i =>
    let nb := (List.finRange n).filter fun j => s'.cm i j = 1
    let dists := nb.map fun j => Nb.distance (s.p j) (s.p i)
    (if dists = [] then .error .value else .ok dists, s')
  | none => (.error .value, s')

/-- `get_site_features(site_index)`, L262-329: the neighbours' statistics are taken before the diagonal is cleared, then `site_angles` and `site_distances` are read. -/
noncomputable def Material.getSiteFeatures (valence : ℕ → ℕ) (s : Material n) (i : Fin n) : Except PyErr (Features n) × Material n :=
  let s0 := { s with site := some i }
  let a := s0.siteAngles
  let d := a.2.siteDistances
  match a.1, d.1 with
  | .ok angles, .ok dists => (.ok {
      index := i
      number := s.z i
      valence := valence (s.z i)
      cn := s.cn i
      neighborCn := stats (masked (s.cm i) s.cn)
      neighborNumber := stats (masked (s.cm i) fun j => (s.z j : ℝ))
      distance := stats dists
      angle := stats angles }, d.2)
  | .error e, _ => (.error e, a.2)
  | _, .error e => (.error e, d.2)

/-- What a user can do with a `Material` and its atoms: the three questions, `create_defect` (L430-439, which also sets the site) and moving the atoms. -/
inductive Call (n : ℕ) where
  | features (i : Fin n)
  | angles
  | distances
  | defect (i : Fin n)
  | move (p : Fin n → Fin 3 → ℝ)

/-- What a call returns (`create_defect` and moving return nothing of interest here). -/
inductive Answer (n : ℕ) where
  | features (r : Except PyErr (Features n))
  | list (r : Except PyErr (List ℝ))
  | done

/-- One call. -/
noncomputable def Material.call (valence : ℕ → ℕ) (s : Material n) : Call n → Answer n × Material n
  | .features i => ((.features (s.getSiteFeatures valence i).1), (s.getSiteFeatures valence i).2)
  | .angles => (.list s.siteAngles.1, s.siteAngles.2)
  | .distances => (.list s.siteDistances.1, s.siteDistances.2)
  | .defect i => (.done, { s with site := some i })
  | .move p => (.done, { s with p := p })

/-- The state after calls. -/
noncomputable def Material.after (valence : ℕ → ℕ) (s : Material n) (l : List (Call n)) : Material n := l.foldl (fun s c => (s.call valence c).2) s

end CatLearn.SiteGeom
