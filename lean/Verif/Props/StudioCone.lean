import Verif.Props.StudioField

/-!
**C140** The cone field of a light against the directions that the light emits in.
-/

namespace PV.Studio
open PV PV.Doc
variable {α : Type} [Field α] [LinearOrder α] [FloorRing α]

theorem truth_dset (d : List (String × Yaml α)) (k : String) (v : Yaml α) : truth (.map (dset d k v)) = true := by
  have h := lookup_dset_self d k v
  cases e : dset d k v with
  | nil => rw [e] at h; cases h
  | cons a t => simp [truth]

theorem truth_of_lookup {d : List (String × Yaml α)} {k : String} {v : Yaml α} (h : d.lookup k = some v) : truth (.map d) = true := by
  cases d with
  | nil => cases h
  | cons a t => simp [truth]

theorem has_dset (d : List (String × Yaml α)) {k j : String} (hj : j ≠ k) (v : Yaml α) : has (dset d k v) j = has d j := by
  unfold has; rw [lookup_dset_ne d hj]

/-- The direction of the light is not given in two ways: the schema of scene files allows only one. -/
def OnlyCone (d : List (String × Yaml α)) : Prop :=
  ∀ md dd, dictAt d "mask" = some md → dictAt md "direction" = some dd → has dd "isotropic" = false ∧ has dd "lambertian" = false

/-- The reader on a direction with a cone. -/
theorem direction_cone {F : Files α} {dd cd : List (String × Yaml α)} {v : Yaml α} {q : α} (h1 : has dd "isotropic" = false)
    (h2 : has dd "lambertian" = false) (h3 : dd.lookup "cone" = some (.map cd)) (h4 : cd.lookup "half-angle" = some v)
    (h5 : asFloat F v = .ok q) : parseDirection F (.map dd) = .ok (.cone q) := by
  have h6 : has dd "cone" = true := by unfold has; rw [h3]; rfl
  simp [parseDirection, isIn, h1, h2, h6, item, Yaml.dict, dget, h3, h4, h5]

/-- **C140** The field shows the half-angle of the cone that the light emits into. -/
theorem cone_shows {F : Files α} {d : List (String × Yaml α)} (ho : OnlyCone d) {q : α} (hq : shownCone d = some q) {name : String}
    {l : LightDef α} (h : parseLight F name (.map d) = .ok l) : l.direction = some (.cone q) := by
  unfold shownCone at hq
  have hx : ∃ v, (coneAt d).bind (·.lookup "half-angle") = some v ∧ asFloat F v = .ok q := by
    split at hq
    · next e => cases hq; exact ⟨_, e, rfl⟩
    · next e => cases hq; exact ⟨_, e, rfl⟩
    · cases hq
  obtain ⟨v, h1, h2⟩ := hx
  unfold coneAt at h1
  simp only [Option.bind_eq_some_iff] at h1
  obtain ⟨cd, ⟨dd, ⟨md, k1, k2⟩, k3⟩, k4⟩ := h1
  obtain ⟨n1, n2⟩ := ho md dd k1 k2
  have hd := direction_cone n1 n2 (dictAt_eq k3) k4 h2
  have hp : maskPart (parseDirection F) md "direction" = .ok (some (.cone q)) := by
    unfold maskPart
    rw [dictAt_eq k2]
    dsimp only
    rw [if_pos (truth_of_lookup (dictAt_eq k3)), hd]
  unfold parseLight at h
  have ht := truth_of_lookup (dictAt_eq k2)
  simp only [Yaml.dict, dictAt_eq k1, ht, ↓reduceIte, hp] at h
  split at h
  · cases h
  · split at h
    · cases h
    · split at h
      · cases h
      · cases h; rfl

/-- **C140** Committing the cone field makes the number the half-angle of the cone of the light, an empty field 0; the field then shows it,
and nothing else of the light changes. -/
theorem cone_sets {F : Files α} {doc d : List (String × Yaml α)} {name : String} (hd : lightAt doc name = some d) (ho : OnlyCone d)
    (hs : (shownCone d).isSome) {l : LightDef α} (h : parseLight F name (.map d) = .ok l) (typed : Option α) :
    ∃ doc' d', commitCone name typed (.map doc) = .ok (.map doc') ∧ lightAt doc' name = some d' ∧
      shownCone d' = some (committed typed) ∧ parseLight F name (.map d') = .ok { l with direction := some (.cone (committed typed)) } := by
  have hx : ∃ cd, coneAt d = some cd := by
    unfold shownCone at hs
    cases e : coneAt d with
    | none => rw [e] at hs; cases hs
    | some cd => exact ⟨cd, rfl⟩
  obtain ⟨cd, hc⟩ := hx
  unfold coneAt at hc
  simp only [Option.bind_eq_some_iff] at hc
  obtain ⟨dd, ⟨md, k1, k2⟩, k3⟩ := hc
  unfold lightAt at hd
  simp only [Option.bind_eq_some_iff] at hd
  obtain ⟨nd, ⟨nodes, j1, j2⟩, j3⟩ := hd
  obtain ⟨n1, n2⟩ := ho md dd k1 k2
  set cd' := dset cd "half-angle" (.num (committed typed)) with ecd
  set dd' := dset dd "cone" (.map cd') with edd
  set md' := dset md "direction" (.map dd') with emd
  set d' := dset d "mask" (.map md') with ed
  refine ⟨dset doc "nodes" (.map (dset nodes name (.map (dset nd "light" (.map d'))))), d', ?_, ?_, ?_, ?_⟩
  · simp [commitCone, setPath, dictAt_eq j1, dictAt_eq j2, dictAt_eq j3, dictAt_eq k1, dictAt_eq k2, dictAt_eq k3, ed, emd, edd, ecd]
  · simp [lightAt, dictAt, lookup_dset_self]
  · simp [shownCone, coneAt, dictAt, lookup_dset_self, ed, emd, edd, ecd]
  · have hp : maskPart (parseDirection F) md' "direction" = .ok (some (.cone (committed typed))) := by
      unfold maskPart
      rw [emd, lookup_dset_self]
      dsimp only
      rw [if_pos (by rw [edd]; exact truth_dset _ _ _), direction_cone (v := .num (committed typed)) (cd := cd') (by rw [edd, has_dset _ (by decide)]; exact n1)
        (by rw [edd, has_dset _ (by decide)]; exact n2) (by rw [edd, lookup_dset_self]) (by rw [ecd, lookup_dset_self]) rfl]
    have hw : maskPart (parseWavelength F) md' "wavelength" = maskPart (parseWavelength F) md "wavelength" := by
      unfold maskPart; rw [emd, lookup_dset_ne md (by decide)]
    have hq : maskPart parsePosition md' "position" = maskPart parsePosition md "position" := by
      unfold maskPart; rw [emd, lookup_dset_ne md (by decide)]
    have hl : defaultColour d' = defaultColour d := by
      unfold defaultColour; rw [ed, lookup_dset_ne d (by decide)]
    have hm : d'.lookup "mask" = some (.map md') := by rw [ed, lookup_dset_self]
    have ht : truth (.map md') = true := by rw [emd]; exact truth_dset _ _ _
    unfold parseLight at h ⊢
    have ht' := truth_of_lookup (dictAt_eq k2)
    simp only [Yaml.dict, dictAt_eq k1, ht', ↓reduceIte] at h
    simp only [Yaml.dict, hm, ht, ↓reduceIte, hl, hw, hq, hp]
    split at h
    · cases h
    · split at h
      · cases h
      · split at h
        · cases h
        · split at h
          · cases h
          · cases h; rfl

/-- A light with a cone, as new lights of the studio have it. -/
def spot : List (String × Yaml ℚ) :=
  [("wavelength", .num 555), ("mask", .map [("direction", .map [("cone", .map [("half-angle", .int 20)])])])]

/-- The hypotheses are met by a new light. -/
example (F : Files ℚ) : lightAt [("nodes", .map [("lamp", .map [("light", .map spot)])])] "lamp" = some spot ∧ OnlyCone spot ∧
    shownCone spot = some 20 ∧ parseLight F "lamp" (.map spot) = .ok ⟨some (.constant 555), none, some (.cone 20), "lamp"⟩ := by
  refine ⟨rfl, ?_, rfl, ?_⟩
  · intro md dd h1 h2
    have e1 : dictAt spot "mask" = some [("direction", .map [("cone", .map [("half-angle", .int 20)])])] := rfl
    rw [e1] at h1
    cases h1
    cases h2
    exact ⟨rfl, rfl⟩
  · simp [parseLight, spot, Yaml.dict, defaultColour, List.lookup, truth, maskPart, parseDirection, isIn, item, asFloat, has, dget,
      Yaml.number]

end PV.Studio
