import Verif.Model.StudioField
import Verif.Props.Studio
import Verif.Model.FileScene

/-!
**C139** The wavelength field of a light against the light that the scene emits.
-/

namespace PV.Studio
open PV PV.Doc
variable {α : Type} [Field α] [LinearOrder α] [FloorRing α]

theorem dictAt_eq {doc : List (String × Yaml α)} {k : String} {d : List (String × Yaml α)} (h : dictAt doc k = some d) :
    doc.lookup k = some (.map d) := by
  unfold dictAt at h
  split at h
  · cases h; assumption
  · cases h

/-- Committing the field of a light writes the number into its section. -/
theorem commit_light {doc d : List (String × Yaml α)} {name : String} (h : lightAt doc name = some d) (typed : Option α) :
    ∃ doc', commitWavelength name typed (.map doc) = .ok (.map doc') ∧
      lightAt doc' name = some (dset d "wavelength" (.num (committed typed))) := by
  unfold lightAt at h
  simp only [Option.bind_eq_some_iff] at h
  obtain ⟨nd, ⟨nodes, h1, h2⟩, h3⟩ := h
  refine ⟨dset doc "nodes" (.map (dset nodes name (.map (dset nd "light" (.map (dset d "wavelength" (.num (committed typed)))))))), ?_, ?_⟩
  · simp [commitWavelength, setPath, dictAt_eq h1, dictAt_eq h2, dictAt_eq h3]
  · simp [lightAt, dictAt, lookup_dset_self]

/-- The light has no wavelength of its own in its mask. -/
def Unmasked (d : List (String × Yaml α)) : Prop :=
  ∀ md v, d.lookup "mask" = some (.map md) → md.lookup "wavelength" = some v → truth v = false

theorem unmasked_part {β : Type} {f : Yaml α → Except DErr β} {d md : List (String × Yaml α)} (h : Unmasked d)
    (hm : d.lookup "mask" = some (.map md)) : maskPart f md "wavelength" = .ok none := by
  unfold maskPart
  split
  · rfl
  · next v hv => rw [if_neg (by rw [h md v hm hv]; simp)]

theorem dict_map {v : Yaml α} {d : List (String × Yaml α)} (h : v.dict = .ok d) : v = .map d := by
  cases v <;> simp [Yaml.dict] at h
  rw [h]

/-- What the parser makes of a light without a wavelength in its mask: the default, and the rest. -/
theorem parse_unmasked {F : Files α} {name : String} {d : List (String × Yaml α)} (hu : Unmasked d) {l : LightDef α}
    (h : parseLight F name (.map d) = .ok l) : defaultColour d = .ok l.wavelength := by
  unfold parseLight at h
  simp only [Yaml.dict] at h
  cases hc : defaultColour d with
  | error e => rw [hc] at h; cases h
  | ok w =>
    rw [hc] at h
    dsimp only at h
    split at h
    · cases h; rfl
    · next m hm =>
      split_ifs at h with ht
      · split at h
        · cases h
        · next md hd =>
          rw [dict_map hd] at hm
          rw [unmasked_part hu hm] at h
          dsimp only at h
          split at h
          · cases h
          · split at h
            · cases h
            · cases h; rfl
      · cases h; rfl

theorem default_set (d : List (String × Yaml α)) (q : α) :
    defaultColour (dset d "wavelength" (.num q)) = .ok (some (if q ≠ 0 then .constant q else .number q)) := by
  unfold defaultColour
  rw [lookup_dset_self]
  by_cases h : q = 0 <;> simp [Yaml.number, truth, h]

/-- The parser after a commit: only the default wavelength can change. -/
theorem parse_set {F : Files α} {name : String} {d : List (String × Yaml α)} {l : LightDef α}
    (h : parseLight F name (.map d) = .ok l) (q : α) :
    parseLight F name (.map (dset d "wavelength" (.num q))) = .ok l ∧
        (∃ md v, d.lookup "mask" = some (.map md) ∧ md.lookup "wavelength" = some v ∧ truth v = true) ∨
      parseLight F name (.map (dset d "wavelength" (.num q))) =
        .ok { l with wavelength := some (if q ≠ 0 then .constant q else .number q) } ∧ Unmasked d := by
  unfold parseLight at h ⊢
  simp only [Yaml.dict] at h ⊢
  rw [default_set, lookup_dset_ne d (by decide)]
  generalize (if q ≠ 0 then Colour.constant q else Colour.number q) = c₀
  dsimp only
  cases hc : defaultColour d with
  | error e => rw [hc] at h; cases h
  | ok w =>
    rw [hc] at h
    dsimp only at h
    cases hm : d.lookup "mask" with
    | none =>
      rw [hm] at h
      cases h
      exact .inr ⟨rfl, fun md v h => by rw [hm] at h; cases h⟩
    | some m =>
      rw [hm] at h
      dsimp only at h ⊢
      split_ifs at h ⊢ with ht
      · split at h
        · cases h
        · next md hd =>
          have hmd := dict_map hd
          subst hmd
          simp only at hd ⊢
          cases hv : md.lookup "wavelength" with
          | none =>
            have hn : maskPart (parseWavelength F) md "wavelength" = .ok none := by unfold maskPart; rw [hv]
            rw [hn] at h ⊢
            dsimp only at h ⊢
            cases hp : maskPart parsePosition md "position" with
            | error e => rw [hp] at h; cases h
            | ok p =>
              rw [hp] at h
              dsimp only at h ⊢
              cases hq : maskPart (parseDirection F) md "direction" with
              | error e => rw [hq] at h; cases h
              | ok q' =>
                rw [hq] at h
                cases h
                refine .inr ⟨rfl, fun md' v h h' => ?_⟩
                rw [hm] at h
                cases h
                rw [hv] at h'
                cases h'
          | some v =>
            cases htv : truth v with
            | false =>
              have hn : maskPart (parseWavelength F) md "wavelength" = .ok none := by
                unfold maskPart; rw [hv]; dsimp only; rw [htv]; simp
              rw [hn] at h ⊢
              dsimp only at h ⊢
              cases hp : maskPart parsePosition md "position" with
              | error e => rw [hp] at h; cases h
              | ok p =>
                rw [hp] at h
                dsimp only at h ⊢
                cases hq : maskPart (parseDirection F) md "direction" with
                | error e => rw [hq] at h; cases h
                | ok q' =>
                  rw [hq] at h
                  cases h
                  refine .inr ⟨rfl, fun md' v' h h' => ?_⟩
                  rw [hm] at h
                  cases h
                  rw [hv] at h'
                  cases h'
                  exact htv
            | true =>
              left
              refine ⟨?_, md, v, rfl, hv, htv⟩
              cases hw : maskPart (parseWavelength F) md "wavelength" with
              | error e => rw [hw] at h; cases h
              | ok w' =>
                have hs : ∃ c, w' = some c := by
                  unfold maskPart at hw
                  rw [hv] at hw
                  dsimp only at hw
                  rw [if_pos htv] at hw
                  split at hw
                  · cases hw
                  · cases hw; exact ⟨_, rfl⟩
                obtain ⟨c, rfl⟩ := hs
                rw [hw] at h
                dsimp only at h ⊢
                exact h
      · cases h
        refine .inr ⟨rfl, fun md v h h' => ?_⟩
        rw [hm] at h
        cases h
        cases md with
        | nil => cases h'
        | cons a md => simp [truth] at ht

/-- **C139**, the part that holds. Without a wavelength in the mask of the light, committing a number other than 0 makes that the wavelength
of the light, the field then shows it, and nothing else of the light changes. -/
theorem field_sets_partial {F : Files α} {doc d : List (String × Yaml α)} {name : String} (hd : lightAt doc name = some d)
    (hu : Unmasked d) {l : LightDef α} (h : parseLight F name (.map d) = .ok l) {q : α} (hq : q ≠ 0) :
    ∃ doc' d', commitWavelength name (some q) (.map doc) = .ok (.map doc') ∧ lightAt doc' name = some d' ∧ shownWavelength d' = .num q ∧
      parseLight F name (.map d') = .ok { l with wavelength := some (.constant q) } := by
  obtain ⟨doc', h1, h2⟩ := commit_light hd (some q)
  refine ⟨doc', _, h1, h2, by simp [shownWavelength, lookup_dset_self, committed], ?_⟩
  rcases parse_set h q with ⟨-, md, v, a, b, c⟩ | ⟨e, -⟩
  · rw [hu md v a b] at c
    cases c
  · rw [show committed (some q) = q from rfl, e, if_pos hq]

/-- **C139** fails for a light with a wavelength in its mask: whatever is committed, the field shows it, and the light stays as it was. -/
theorem field_idle {F : Files α} {doc d md : List (String × Yaml α)} {v : Yaml α} {name : String} (hd : lightAt doc name = some d)
    (hm : d.lookup "mask" = some (.map md)) (hv : md.lookup "wavelength" = some v) (ht : truth v = true) {l : LightDef α}
    (h : parseLight F name (.map d) = .ok l) (typed : Option α) :
    ∃ doc' d', commitWavelength name typed (.map doc) = .ok (.map doc') ∧ lightAt doc' name = some d' ∧
      shownWavelength d' = .num (committed typed) ∧ parseLight F name (.map d') = .ok l := by
  obtain ⟨doc', h1, h2⟩ := commit_light hd typed
  refine ⟨doc', _, h1, h2, by simp [shownWavelength, lookup_dset_self], ?_⟩
  rcases parse_set h (committed typed) with ⟨e, -⟩ | ⟨-, hu⟩
  · exact e
  · rw [hu md v hm hv] at ht
    cases ht

/-- **C139**, the part that holds. Without a wavelength in the mask the field shows the wavelength of the light: if it shows a number other
than 0, that is what every ray of the light gets. -/
theorem field_shows_partial {F : Files ℝ} {d : List (String × Yaml ℝ)} (hu : Unmasked d) {name : String} {l : LightDef ℝ}
    (h : parseLight F name (.map d) = .ok l) {q : ℝ} (hq : (shownWavelength d).number = .ok q) (h0 : q ≠ 0) (s : Light.Draws) :
    (Colour.wave l.wavelength).call s = .ok (some q, s) := by
  have hp := parse_unmasked hu h
  unfold defaultColour at hp
  unfold shownWavelength at hq
  cases hl : d.lookup "wavelength" with
  | none =>
    rw [hl] at hp hq
    simp only [Yaml.number, Except.ok.injEq] at hp hq
    rw [← hp, ← hq]
    rfl
  | some v =>
    rw [hl] at hp hq
    cases v with
    | null =>
      simp only [Yaml.number, Except.ok.injEq] at hp hq
      rw [← hp, ← hq]
      rfl
    | num r =>
      simp only [Yaml.number, Except.ok.injEq] at hp hq
      subst hq
      rw [← hp, if_pos (by simpa [truth] using h0)]
      rfl
    | int z =>
      simp only [Yaml.number, Except.ok.injEq] at hp hq
      subst hq
      rw [← hp, if_pos (by simpa [truth] using h0)]
      rfl
    | bool b => simp [Yaml.number] at hq
    | str t => simp [Yaml.number] at hq
    | seq t => simp [Yaml.number] at hq
    | map t => simp [Yaml.number] at hq

/-- **C139** fails for an empty field: it commits 0, and no ray of the light can be made. -/
theorem cleared_raises {F : Files ℝ} {doc d : List (String × Yaml ℝ)} {name : String} (hd : lightAt doc name = some d)
    (hu : Unmasked d) {l : LightDef ℝ} (h : parseLight F name (.map d) = .ok l) :
    ∃ doc' d' l', commitWavelength name none (.map doc) = .ok (.map doc') ∧ lightAt doc' name = some d' ∧
      parseLight F name (.map d') = .ok l' ∧ ∀ s, (Colour.wave l'.wavelength).call s = .error .attributeError := by
  obtain ⟨doc', h1, h2⟩ := commit_light hd none
  rcases parse_set h (committed none) with ⟨-, md, v, a, b, c⟩ | ⟨e, -⟩
  · rw [hu md v a b] at c
    cases c
  · refine ⟨doc', _, _, h1, h2, e, fun s => ?_⟩
    rw [if_neg (by simp [committed])]
    rfl

/-- A lamp of 600 nm and one whose mask says 700 nm. -/
def lamps : List (String × Yaml ℝ) :=
  [("nodes", .map [("a", .map [("light", .map [("wavelength", .num 600)])]),
    ("b", .map [("light", .map [("mask", .map [("wavelength", .map [("nanometers", .num 700)])])])])])]

/-- The hypotheses are met by the first lamp. -/
example (F : Files ℝ) : lightAt lamps "a" = some [("wavelength", .num 600)] ∧ Unmasked [("wavelength", (.num 600 : Yaml ℝ))] ∧
    parseLight F "a" (.map [("wavelength", .num 600)]) = .ok ⟨some (.constant 600), none, none, "a"⟩ := by
  refine ⟨rfl, fun md v h => by simp [List.lookup] at h, ?_⟩
  simp [parseLight, Yaml.dict, defaultColour, List.lookup, Yaml.number, truth]

/-- The second lamp: the field shows 555, the light has 700 nm. -/
example (F : Files ℝ) : ∃ d, lightAt lamps "b" = some d ∧ shownWavelength d = .num 555 ∧
    parseLight F "b" (.map d) = .ok ⟨some (.constant 700), none, none, "b"⟩ := by
  refine ⟨[("mask", .map [("wavelength", .map [("nanometers", .num 700)])])], rfl, ?_, ?_⟩
  · simp [shownWavelength, List.lookup]
  · simp [parseLight, Yaml.dict, defaultColour, List.lookup, truth, maskPart, parseWavelength, isIn, item, asFloat, has, dget]

end PV.Studio
