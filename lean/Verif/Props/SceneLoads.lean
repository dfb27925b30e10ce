import Verif.Props.SceneFile
import Verif.Lemmas.SceneRecorders

/-!
Which scene files load (C79).
-/

namespace PV.SceneFile
open PV PV.Doc PV.Spec
variable {α : Type} [Field α] [LinearOrder α] [FloorRing α]
set_option linter.unusedSectionVars false

theorem schema_sections {doc : List (String × Yaml α)} (h : Schema.document (.map doc) = true) :
    (∀ w, doc.lookup "nodes" = some w → Schema.named Schema.node ["world"] w = true) ∧
    (∀ w, doc.lookup "components" = some w → Schema.named Schema.component [] w = true) ∧
    ∀ w, doc.lookup "recorders" = some w → Schema.named Schema.recorder [] w = true := by
  obtain ⟨d, hd, -, hp⟩ := object_spec h
  injection hd with hd
  subst hd
  refine ⟨fun w hw => hp _ w hw _ rfl, fun w hw => ?_, fun w hw => hp _ w hw _ rfl⟩
  have := hp _ w hw _ rfl
  simp only [Schema.both, Bool.and_eq_true] at this
  exact this.1

/-- **C79** for files that are `FileReady`: a document that passes the schema loads if it has version
1.0 and nodes, coefficients are not 0 and come with a spectrum except in absorbers, the spectra named
are usable, masks are mappings, lists have the right lengths, histograms have a range, recorded boxes a
size, references exist and parents are not in a circle. -/
theorem loads_partial [IsStrictOrderedRing α] {F : Files α} {v : Yaml α} (hs : Schema.document v = true)
    (hr : FileReady F v) : ∃ s, parseFile F v = .ok s := by
  obtain ⟨doc, rfl, -⟩ := object_spec hs
  obtain ⟨hsn, hsc, hsr⟩ := schema_sections hs
  have hver := hr.version
  rw [under_map] at hver
  have hnodes := hr.nodes
  rw [under_map] at hnodes
  obtain ⟨w, hw⟩ := Option.ne_none_iff_exists'.1 hnodes
  obtain ⟨ns, rfl, hworld, hnode⟩ := named_spec (hsn w hw)
  have hen : entries "nodes" (.map doc) = ns := entries_map hw
  obtain ⟨cs, hcs, hcsok⟩ : ∃ cs, optDict doc "components" = .ok cs ∧ ∀ e ∈ cs, Schema.component e.2 = true := by
    unfold optDict
    cases hl : doc.lookup "components" with
    | none => exact ⟨[], rfl, by simp⟩
    | some w =>
      obtain ⟨cs, rfl, -, h⟩ := named_spec (hsc w hl)
      exact ⟨cs, rfl, h⟩
  have hec : entries "components" (.map doc) = cs := entries_opt hcs
  have h1 := hr.component
  have h2 := hr.node
  obtain ⟨rank, h3⟩ := hr.tree
  have h4 := hr.recorder
  have h5 := hr.recorded
  rw [hec] at h1 h2
  rw [hen] at h2 h3 h4 h5
  obtain ⟨comps, hcomps, hkeys⟩ := components_load hcsok h1
  rw [← hkeys] at h2
  obtain ⟨ps, hps, hf⟩ := nodes_load hnode h2
  have hwm : "world" ∈ ns.map (·.1) := by
    obtain ⟨x, hx⟩ := hworld "world" (by simp)
    exact List.mem_map_of_mem (f := (·.1)) (lookup_mem hx)
  obtain ⟨placed, hplaced⟩ := place_loads (parents := []) hwm hf hnode (fun e he => (h2 e he).location)
    (fun e he => (h2 e he).direction) h3 (by simp)
  obtain ⟨R, hR⟩ : ∃ R, sceneRecorders doc = .ok R := by
    unfold sceneRecorders
    rw [hw]
    dsimp only
    rw [show (Yaml.map ns).dict = .ok ns from rfl]
    dsimp only
    have key : ∀ declared : List (String × Yaml α), Parsable (ns.map (·.1)) declared →
        ∃ R, (match withAuto declared ns with
          | .error e => .error e
          | .ok recs => parseRecorders (ns.map (·.1)) recs) = Except.ok (ε := DErr) R := by
      intro declared hd
      obtain ⟨recs, hrecs, hp⟩ := withAuto_loads (F := F) (l := ns) (fun e he => List.mem_map_of_mem he) hnode h2 h5 hd
      rw [hrecs]
      exact recorders_load hp
    cases hl : doc.lookup "recorders" with
    | none => exact key [] (by intro e he; cases he)
    | some w =>
      obtain ⟨rs, rfl, -, hrs⟩ := named_spec (hsr w hl)
      have her : entries "recorders" (.map doc) = rs := entries_map hl
      rw [her] at h4
      dsimp only
      cases ht : truth (Yaml.map rs) with
      | false => exact key [] (by intro e he; cases he)
      | true => exact key rs (fun e he => recorder_loads (hrs e he) (h4 e he))
  refine ⟨⟨placed, R⟩, ?_⟩
  unfold parseFile
  rw [if_neg (not_not.2 hs), show (Yaml.map doc).dict = .ok doc from rfl]
  dsimp only
  rw [dget_iff.2 hver]
  change parseScene F doc = _
  unfold parseScene
  rw [hcs]
  dsimp only
  rw [hcomps]
  dsimp only
  rw [dget_iff.2 hw]
  dsimp only
  rw [show (Yaml.map ns).dict = .ok ns from rfl]
  dsimp only
  rw [hps]
  dsimp only
  rw [hplaced]
  dsimp only
  rw [hR]
  dsimp only
  rw [if_pos hwm]

/-! ### The example file is ready -/

theorem ready_dye : ComponentReady disk dyeEntry.2 := by
  refine .luminophore (v := .map [
    ("absorption", .map [("coefficient", .num (1/2)), ("spectrum", spectrumFile "dye.csv")]),
    ("emission", .map [("quantum-yield", .num (9/10)), ("spectrum", .map [("name", .str "fluro-red"),
      ("range", .map [("min", .num 0), ("max", .num 10), ("spacing", .num 4)])])])]) rfl rfl rfl
    ⟨1/2, rfl, by norm_num⟩ ⟨_, rfl, .file (f := "dye.csv") (t := ⟨false, [(400, 1), (500, 4), (600, 2)]⟩) rfl rfl ?_⟩
    ⟨_, rfl, .named (n := "fluro-red") (lo := 0) (hi := 10) (step := 4) (x := [0, 4, 8, 12])
      (curve := (·.map fun _ => 1)) rfl rfl rfl rfl rfl (by norm_num) ?_ ?_⟩ (by intro p hp; cases hp)
  · exact ⟨by decide, by decide +kernel, by decide +kernel, by decide +kernel⟩
  · intro i
    match i with
    | 0 => decide +kernel
    | 1 => decide +kernel
    | 2 => decide +kernel
    | 3 => decide +kernel
    | i + 4 =>
      rw [if_neg]
      · rfl
      · push_cast
        have : (0 : ℚ) ≤ i := Nat.cast_nonneg i
        intro h
        nlinarith
  · exact ⟨by decide, by decide +kernel, by decide +kernel, by decide +kernel⟩

theorem ready_background : ComponentReady disk (.map [("absorber", .map [("coefficient", .num (1/10))])]) :=
  .absorber rfl ⟨1/10, rfl, by norm_num⟩ (Or.inl rfl)

theorem good_ready : FileReady disk good where
  version := rfl
  nodes := by intro h; cases h
  component := by
    intro e he
    rcases List.mem_cons.1 he with rfl | he
    · exact ready_dye
    · rcases List.mem_cons.1 he with rfl | he
      · exact ready_background
      · cases he
  node := by
    intro e he
    rcases List.mem_cons.1 he with rfl | he
    · refine ⟨?_, ?_, ?_, ?_, Or.inl rfl, Or.inl rfl⟩
      · intro w hw; cases hw
      · intro w hw; cases hw
      · intro kind l hl
        by_cases hk : kind = "sphere"
        · subst hk; cases hl
        · simp [worldEntry, under, List.lookup_cons, beq_false_of_ne hk] at hl
      · intro w hw; cases hw
    · rcases List.mem_cons.1 he with rfl | he
      · refine ⟨?_, ?_, ?_, ?_, Or.inr ⟨0, 0, 1, by decide +kernel⟩, Or.inl rfl⟩
        · intro w hw; cases hw; exact ⟨1, 2, 3, rfl⟩
        · intro w hw; cases hw
        · intro kind l hl name hname
          by_cases hk : kind = "box"
          · subst hk
            cases hl
            change Yaml.str name ∈ [Yaml.str "dye", Yaml.str "background"] at hname
            change name ∈ ["dye", "background"]
            simpa using hname
          · by_cases hk' : kind = "location"
            · subst hk'; cases hl
            · simp [under, List.lookup_cons, beq_false_of_ne hk, beq_false_of_ne hk'] at hl
        · intro w hw; cases hw
      · rcases List.mem_cons.1 he with rfl | he
        · refine ⟨?_, ?_, ?_, ?_, Or.inl rfl, Or.inl rfl⟩
          · intro w hw; cases hw
          · intro w hw; cases hw
          · intro kind l hl
            by_cases hk : kind = "light"
            · subst hk; cases hl
            · by_cases hk' : kind = "parent"
              · subst hk'; cases hl
              · simp [lampEntry, under, List.lookup_cons, beq_false_of_ne hk, beq_false_of_ne hk'] at hl
          · intro w hw
            cases hw
            refine ⟨?_, ?_, ?_⟩
            · intro w hw; cases hw
            · intro w hw
              cases hw
              refine ⟨⟨_, rfl⟩, ?_, ?_⟩
              · intro r hr; cases hr; exact ⟨1, 1, rfl⟩
              · intro r hr; cases hr
            · intro w hw
              cases hw
              refine ⟨⟨_, rfl⟩, ?_⟩
              intro s hs
              cases hs
              rfl
        · cases he
  tree := by
    refine ⟨fun n => if n = "world" then 0 else if n = "slab" then 1 else 2, ?_⟩
    intro e he p hp
    rcases List.mem_cons.1 he with rfl | he
    · cases hp
    · rcases List.mem_cons.1 he with rfl | he
      · cases hp; exact ⟨by decide, by decide⟩
      · rcases List.mem_cons.1 he with rfl | he
        · cases hp; exact ⟨by decide, by decide⟩
        · cases he
  recorder := by intro e he; cases he
  recorded := by
    intro e he hrec
    rcases List.mem_cons.1 he with rfl | he
    · cases hrec
    · rcases List.mem_cons.1 he with rfl | he
      · cases hrec
      · rcases List.mem_cons.1 he with rfl | he
        · cases hrec
        · cases he

example : ∃ s, parseFile disk good = .ok s := loads_partial (by decide +kernel) good_ready

end PV.SceneFile
