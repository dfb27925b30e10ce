import Verif.Props.Studio
import Verif.Props.SceneFile

/-!
C120: what the buttons of the studio add to a document can be loaded.
-/

set_option linter.unusedSectionVars false

namespace PV.StudioAdd
open PV PV.Doc PV.Studio PV.Spec PV.SceneFile
variable {α : Type} [Field α] [LinearOrder α] [IsStrictOrderedRing α] [FloorRing α]

/-! ### The schema -/

/-- A name of the schema. -/
def Plain (s : String) : Prop :=
  s.toList ≠ [] ∧ ∀ c ∈ s.toList, (c.isAlphanum || c = '.' || c = '_' || c = '-') = true

theorem plain_iff {s : String} : (!s.toList.isEmpty &&
    s.toList.all (fun c => c.isAlphanum || c = '.' || c = '_' || c = '-')) = true ↔ Plain s := by
  simp [Plain]

theorem plain_number (n : ℕ) : ∀ c ∈ (Nat.repr n).toList, (c.isAlphanum || c = '.' || c = '_' || c = '-') = true := by
  intro c hc
  have h : c.isDigit = true := by
    refine Nat.isDigit_of_mem_toDigits (b := 10) (n := n) (by norm_num) (by norm_num) ?_
    simpa [Nat.repr] using hc
  simp [Char.isAlphanum, h]

theorem plain_append {s t : String} (hs : Plain s) (ht : ∀ c ∈ t.toList, (c.isAlphanum || c = '.' || c = '_' || c = '-') = true) :
    Plain (s ++ t) := by
  refine ⟨by simp [hs.1], ?_⟩
  intro c hc
  rw [String.toList_append, List.mem_append] at hc
  exact hc.elim (hs.2 c) (ht c)

theorem plain_unique {β : Type} {stem : String} (hs : Plain stem) (ex : List (String × β)) : Plain (uniqueName ex stem) := by
  obtain ⟨-, k, e, -⟩ := unique_fresh ex stem
  rw [e]
  exact plain_append (plain_append hs (by decide)) (plain_number _)

theorem all_dset {β : Type} {p : String × β → Bool} {d : List (String × β)} (h : d.all p = true) {k : String} {v : β}
    (hv : p (k, v) = true) : (dset d k v).all p = true := by
  rw [List.all_eq_true] at h ⊢
  unfold dset
  split
  · intro e he
    obtain ⟨e', he', rfl⟩ := List.mem_map.1 he
    split
    · rename_i hk
      rw [hk]; exact hv
    · exact h _ he'
  · intro e he
    rcases List.mem_append.1 he with he | he
    · exact h e he
    · rw [List.mem_singleton] at he
      subst he; exact hv

theorem has_dset {β : Type} {d : List (String × β)} {k j : String} {v : β} (h : has d j = true) : has (dset d k v) j = true := by
  unfold has at h ⊢
  by_cases e : j = k
  · subst e; rw [lookup_dset_self]; rfl
  · rw [lookup_dset_ne d e]; exact h

theorem lookup_all {β : Type} {p : String × β → Bool} {d : List (String × β)} (h : d.all p = true) {k : String} {v : β}
    (hv : d.lookup k = some v) : p (k, v) = true := List.all_eq_true.1 h _ (lookup_mem hv)

/-- A section of a valid document replaced by a valid one. -/
theorem document_dset {data : List (String × Yaml α)} (h : Schema.document (.map data) = true) {k : String} {v : Yaml α}
    (hk : (k = "nodes" ∧ Schema.named Schema.node ["world"] v = true) ∨
      (k = "recorders" ∧ Schema.named Schema.recorder [] v = true) ∨
      (k = "components" ∧ Schema.named Schema.component [] v = true ∧ ∀ d, v = .map d → has d "builtin" = false)) :
    Schema.document (.map (dset data k v)) = true := by
  unfold Schema.document Schema.object at h ⊢
  simp only [List.all_nil, Bool.true_and] at h ⊢
  refine all_dset h ?_
  rcases hk with ⟨rfl, hv⟩ | ⟨rfl, hv⟩ | ⟨rfl, hv, hb⟩
  · simpa [List.lookup] using hv
  · simpa [List.lookup] using hv
  · simp only [List.lookup]
    cases v with
    | map d => simp [Schema.both, hv, hb d rfl]
    | _ => simp [Schema.named] at hv

theorem named_append {p : Schema.Check α} {req : List String} {old : List (String × Yaml α)} {name : String} {v : Yaml α}
    (h : Schema.named p req (.map old) = true) (hn : Plain name) (hv : p v = true) :
    Schema.named p req (.map (old ++ [(name, v)])) = true := by
  unfold Schema.named at h ⊢
  simp only [Bool.and_eq_true, List.all_eq_true] at h ⊢
  refine ⟨fun k hk => ?_, ?_⟩
  · have := h.1 k hk
    unfold has at this ⊢
    rw [lookup_append]
    cases e : old.lookup k with
    | none => rw [e] at this; cases this
    | some w => simp
  · intro e he
    rcases List.mem_append.1 he with he | he
    · exact h.2 e he
    · rw [List.mem_singleton] at he
      subst he
      have := plain_iff.2 hn
      simp only [Bool.and_eq_true, List.all_eq_true] at this
      exact ⟨this, hv⟩

/-! ### Nodes -/

/-- What the button puts into the scene. -/
def made (name : String) : String → Option (NodeDef α)
  | "box" => some ⟨name, .geometry (.box ⟨1, 1, 1⟩) ⟨1.5, []⟩, some "world", some ⟨0, 0, 0⟩, none⟩
  | "sphere" => some ⟨name, .geometry (.sphere 0.5) ⟨1.5, []⟩, some "world", some ⟨0, 0, 0⟩, none⟩
  | "cylinder" => some ⟨name, .geometry (.cylinder 1 0.5) ⟨1.5, []⟩, some "world", some ⟨0, 0, 0⟩, none⟩
  | "light" => some ⟨name, .light ⟨some (.constant 555), none, some (.cone 20), name⟩, some "world", some ⟨0, 0, 2⟩, some ⟨0, 0, -1⟩⟩
  | _ => none

theorem snippet_valid {kind : String} {s : Yaml α} (h : snippet kind = some s) : Schema.node s = true ∧ Plain kind := by
  unfold snippet at h
  split at h
  all_goals cases h
  all_goals refine ⟨?_, by unfold Plain; decide +kernel⟩
  all_goals simp [Schema.node, Schema.both, Schema.object, Schema.oneOf, Schema.required, Schema.array, Schema.pointLike,
    Schema.number, Schema.atLeast, Schema.material, Schema.mask, Schema.directionMask, has, nums, List.lookup_cons]
  all_goals first | done | norm_num
  all_goals simp [List.filter_cons, Schema.both, Schema.object, Schema.oneOf, Schema.number, Schema.string, Schema.required, has, List.lookup_cons]

theorem snippet_made (F : Files α) (comps : List (String × CompDef α)) (name : String) {kind : String} {s : Yaml α}
    (h : snippet kind = some s) : ∃ d c loc dir, s = .map d ∧ parseContent F comps name d = .ok c ∧ d.lookup "parent" = none ∧
      d.lookup "record" = none ∧ optTriple d "location" = .ok loc ∧ optTriple d "direction" = .ok dir ∧
      made name kind = some ⟨name, c, some "world", loc, dir⟩ := by
  unfold snippet at h
  split at h
  all_goals cases h
  · exact ⟨_, .geometry (.box ⟨1, 1, 1⟩) ⟨1.5, []⟩, some ⟨0, 0, 0⟩, none, rfl, rfl, rfl, rfl, rfl, rfl, rfl⟩
  · exact ⟨_, .geometry (.sphere 0.5) ⟨1.5, []⟩, some ⟨0, 0, 0⟩, none, rfl, rfl, rfl, rfl, rfl, rfl, rfl⟩
  · exact ⟨_, .geometry (.cylinder 1 0.5) ⟨1.5, []⟩, some ⟨0, 0, 0⟩, none, rfl, rfl, rfl, rfl, rfl, rfl, rfl⟩
  · refine ⟨_, .light ⟨some (.constant 555), none, some (.cone 20), name⟩, some ⟨0, 0, 2⟩, some ⟨0, 0, -1⟩, rfl, ?_, rfl, rfl, rfl, rfl, rfl⟩
    simp [parseContent, parseLight, defaultColour, maskPart, parseDirection, isIn, item, asFloat, dget, has, Yaml.dict, Yaml.number,
      truth, List.lookup_cons]

theorem parseNodes_append {F : Files α} {comps : List (String × CompDef α)} {name : String} {d : List (String × Yaml α)} {c : Content α}
    (hc : parseContent F comps name d = .ok c) : ∀ {ns : List (String × Yaml α)} {ps : List (String × List (String × Yaml α) × Content α)},
    parseNodes F comps ns = .ok ps → parseNodes F comps (ns ++ [(name, .map d)]) = .ok (ps ++ [(name, d, c)])
  | [], ps, h => by
    cases h
    simp [parseNodes, Yaml.dict, hc]
  | (k, v) :: ns, ps, h => by
    unfold parseNodes at h
    rw [List.cons_append]
    unfold parseNodes
    cases hv : v.dict with
    | error e => rw [hv] at h; cases h
    | ok dv =>
      rw [hv] at h
      dsimp only at h ⊢
      cases hp : parseContent F comps k dv with
      | error e => rw [hp] at h; cases h
      | ok cv =>
        rw [hp] at h
        dsimp only at h ⊢
        cases hr : parseNodes F comps ns with
        | error e => rw [hr] at h; cases h
        | ok qs =>
          rw [hr] at h
          cases h
          rw [parseNodes_append hc hr]
          rfl

theorem parentOf_more {names : List String} {k : String} {d : List (String × Yaml α)} {p : Option String} (name : String)
    (h : Doc.parentOf names k d = .ok p) : Doc.parentOf (names ++ [name]) k d = .ok p := by
  unfold Doc.parentOf at h ⊢
  by_cases hk : k = "world"
  · rw [if_pos hk] at h ⊢
    exact h
  rw [if_neg hk] at h ⊢
  split at h
  · split_ifs at h with hw
    rw [if_pos (by simp [hw])]
    exact h
  · split_ifs at h with hw
    rw [if_pos (by simp [hw])]
    exact h
  · rename_i q _ _
    cases hq : q.string with
    | error e => rw [hq] at h; cases h
    | ok q' =>
      rw [hq] at h
      dsimp only at h ⊢
      split_ifs at h with hw
      rw [if_pos (by simp [hw])]
      exact h

/-- The world never gets a parent. -/
theorem attach_world {parents parents' : List (String × String)} {names : List String} {k : String} {d : List (String × Yaml α)}
    {p : Option String} (hp : Doc.parentOf names k d = .ok p) (h : attach parents k p = .ok parents')
    (hw : parents.lookup "world" = none) : parents'.lookup "world" = none := by
  unfold attach at h
  cases p with
  | none => cases h; exact hw
  | some p =>
    dsimp only at h
    split_ifs at h
    cases h
    have hk : k ≠ "world" := by
      rintro rfl
      simp [Doc.parentOf] at hp
    rw [List.lookup_cons, beq_eq_false_iff_ne.2 (Ne.symm hk)]
    exact hw

theorem placeNodes_append {names : List String} {name : String} (hw : "world" ∈ names) (hne : name ≠ "world")
    {d : List (String × Yaml α)} {c : Content α} {loc dir : Option (Vec3 α)} (hp : d.lookup "parent" = none)
    (hl : optTriple d "location" = .ok loc) (hd : optTriple d "direction" = .ok dir) :
    ∀ {ps : List (String × List (String × Yaml α) × Content α)} {parents : List (String × String)} {ns : List (NodeDef α)},
      parents.lookup "world" = none → placeNodes names parents ps = .ok ns →
      placeNodes (names ++ [name]) parents (ps ++ [(name, d, c)]) = .ok (ns ++ [⟨name, c, some "world", loc, dir⟩])
  | [], parents, ns, h0, h => by
    cases h
    have h1 : Doc.parentOf (names ++ [name]) name d = .ok (some "world") := by
      simp [Doc.parentOf, hne, hp, hw]
    have h2 : climb parents parents.length "world" = ["world"] := by
      cases parents with
      | nil => rfl
      | cons e l => rw [List.length_cons]; unfold climb; rw [h0]
    have h3 : attach parents name (some "world") = .ok ((name, "world") :: parents) := by
      unfold attach
      dsimp only
      rw [h2, if_neg (by simpa using hne)]
    simp [placeNodes, h1, h3, hl, hd]
  | (k, e, f) :: ps, parents, ns, h0, h => by
    obtain ⟨p, parents', loc', dir', ns', h1, h2, h3, h4, h5, rfl⟩ := placeNodes_cons h
    have ih := placeNodes_append hw hne hp hl hd (c := c) (attach_world h1 h2 h0) h5
    rw [List.cons_append]
    unfold placeNodes
    rw [parentOf_more name h1]
    dsimp only
    rw [h2]
    dsimp only
    rw [h3]
    dsimp only
    rw [h4]
    dsimp only
    rw [ih]
    rfl

/-- Reading a file, put together from its stages. -/
theorem parseFile_ok {F : Files α} {doc : List (String × Yaml α)} (hs : Schema.document (.map doc) = true)
    (hv : doc.lookup "version" = some (.str "1.0")) : parseFile F (.map doc) = parseScene F doc := by
  simp [parseFile, hs, Yaml.dict, dget, hv]

theorem parseScene_ok {F : Files α} {doc : List (String × Yaml α)} {cs ns : List (String × Yaml α)} {comps : List (String × CompDef α)}
    {parsed : List (String × List (String × Yaml α) × Content α)} {placed : List (NodeDef α)} {recs : List (String × Recorder α)}
    (h1 : optDict doc "components" = .ok cs) (h2 : parseComponents F cs = .ok comps) (h3 : doc.lookup "nodes" = some (.map ns))
    (h4 : parseNodes F comps ns = .ok parsed) (h5 : placeNodes (ns.map (·.1)) [] parsed = .ok placed)
    (h6 : sceneRecorders doc = .ok recs) (h7 : "world" ∈ ns.map (·.1)) : parseScene F doc = .ok ⟨placed, recs⟩ := by
  unfold parseScene
  rw [h1]
  dsimp only
  rw [h2]
  simp only [dget, h3, Yaml.dict, h4, h5, h6, if_pos h7]

theorem withAuto_more {name : String} {d : List (String × Yaml α)} (hd : d.lookup "record" = none) :
    ∀ {nodes declared recs : List (String × Yaml α)}, withAuto declared nodes = .ok recs →
      withAuto declared (nodes ++ [(name, .map d)]) = .ok recs
  | [], declared, recs, h => by
    cases h
    simp [withAuto, Yaml.dict, hd, truth]
  | (k, v) :: nodes, declared, recs, h => by
    unfold withAuto at h
    rw [List.cons_append]
    unfold withAuto
    split at h
    · cases h
    · split at h
      · rename_i ht
        rw [if_pos ht]
        split at h
        · cases h
        · exact withAuto_more hd h
      · rename_i ht
        rw [if_neg ht]
        exact withAuto_more hd h

theorem parseRecorder_more {names : List String} {k : String} {v : Yaml α} {r : String × Recorder α} (more : List String)
    (h : parseRecorder names k v = .ok r) : parseRecorder (names ++ more) k v = .ok r := by
  unfold parseRecorder at h ⊢
  cases h1 : v.dict with
  | error e => rw [h1] at h; cases h
  | ok d =>
    rw [h1] at h
    dsimp only at h ⊢
    cases h2 : dget d "node" with
    | error e => rw [h2] at h; cases h
    | ok n =>
      rw [h2] at h
      dsimp only at h ⊢
      cases h3 : n.string with
      | error e => rw [h3] at h; cases h
      | ok n =>
        rw [h3] at h
        dsimp only at h ⊢
        split at h
        · cases h
        · rename_i hn
          rw [if_neg (by simp only [not_not] at hn ⊢; exact List.mem_append_left _ hn)]
          exact h

theorem parseRecorders_more {names : List String} (more : List String) : ∀ {l : List (String × Yaml α)} {rs : List (String × Recorder α)},
    parseRecorders names l = .ok rs → parseRecorders (names ++ more) l = .ok rs
  | [], _, h => h
  | (k, v) :: l, rs, h => by
    unfold parseRecorders at h ⊢
    split at h
    · cases h
    · rename_i r hr
      rw [parseRecorder_more more hr]
      dsimp only
      split at h
      · cases h
      · rename_i rs' hrs
        rw [parseRecorders_more more hrs]
        exact h

theorem recorders_stages {doc : List (String × Yaml α)} {rs : List (String × Recorder α)} {ns : List (String × Yaml α)}
    (hn : doc.lookup "nodes" = some (.map ns)) (h : sceneRecorders doc = .ok rs) :
    ∃ declared recs, (match doc.lookup "recorders" with
        | none => Except.ok []
        | some v => if truth v then v.dict else .ok []) = .ok declared ∧ withAuto declared ns = .ok recs ∧
      parseRecorders (ns.map (·.1)) recs = .ok rs := by
  unfold sceneRecorders at h
  rw [hn] at h
  have e : (Yaml.map ns : Yaml α).dict = .ok ns := rfl
  dsimp only at h
  rw [e] at h
  dsimp only at h
  split at h
  · cases h
  · rename_i declared hd
    split at h
    · cases h
    · rename_i recs hr
      exact ⟨declared, recs, hd, hr, h⟩

theorem recorders_ok {doc : List (String × Yaml α)} {rs : List (String × Recorder α)} {ns declared recs : List (String × Yaml α)}
    (hn : doc.lookup "nodes" = some (.map ns)) (hd : (match doc.lookup "recorders" with
        | none => Except.ok []
        | some v => if truth v then v.dict else .ok []) = .ok declared) (hw : withAuto declared ns = .ok recs)
    (hp : parseRecorders (ns.map (·.1)) recs = .ok rs) : sceneRecorders doc = .ok rs := by
  unfold sceneRecorders
  rw [hn]
  have e : (Yaml.map ns : Yaml α).dict = .ok ns := rfl
  dsimp only
  rw [e]
  dsimp only
  cases hl : doc.lookup "recorders" with
  | none =>
    rw [hl] at hd
    cases hd
    dsimp only
    rw [hw]
    exact hp
  | some v =>
    rw [hl] at hd
    dsimp only at hd ⊢
    rw [hd]
    dsimp only
    rw [hw]
    exact hp

variable {Text Scene : Type}

/-- C120: the buttons for a box, a sphere, a cylinder and a light leave a document that loads, with what was there and, last, the new
node. -/
theorem node_added {F : Files α} (B : Backend α Text Scene) (sc : Option Scene) {data data' : List (String × Yaml α)} {s : SceneDef α}
    (hs : parseFile F (.map data) = .ok s) {kind : String} (h : edit B sc data (.addNode kind) = .ok data') :
    ∃ name new, name ∉ s.nodes.map (·.name) ∧ made name kind = some new ∧
      parseFile F (.map data') = .ok ⟨s.nodes ++ [new], s.recorders⟩ := by
  obtain ⟨doc, hdoc, hvalid, hversion, hscene⟩ := parseFile_stages hs
  cases hdoc
  obtain ⟨cs, comps, ns, parsed, h1, h2, h3, h4, h5, h6, h7⟩ := parseScene_stages hscene
  simp only [edit] at h
  split at h
  · cases h
  rename_i v hv
  split at h
  · cases h
  rename_i nodes hnodes
  have hsec := section_ok hnodes
  rw [h3] at hsec
  cases hsec
  obtain ⟨hfresh, -⟩ := unique_fresh ns kind
  generalize hname : uniqueName ns kind = name at h hfresh
  rw [dset_fresh hfresh] at h
  cases h
  obtain ⟨hv1, hv2⟩ := snippet_valid hv
  obtain ⟨d, c, loc, dir, rfl, hc, hp, hrec, hl, hd, hm⟩ := snippet_made F comps name hv
  have hplain : Plain name := hname ▸ plain_unique hv2 ns
  have hnot : name ∉ ns.map (·.1) := by
    intro hmem
    have := lookup_none.1 (by unfold has at hfresh; exact Option.isSome_eq_false_iff.1 hfresh |> Option.isNone_iff_eq_none.1)
    exact this hmem
  have hworld : name ≠ "world" := fun e => hnot (e ▸ h7)
  have hsn : s.nodes.map (·.name) = ns.map (·.1) := by
    rw [placeNodes_names h5, parseNodes_names h4]
  refine ⟨name, _, by rw [hsn]; exact hnot, hm, ?_⟩
  have hnodes' : Schema.named Schema.node ["world"] (.map ns) = true := by
    unfold Schema.document Schema.object at hvalid
    simp only [List.all_nil, Bool.true_and] at hvalid
    have := lookup_all hvalid h3
    simpa [List.lookup] using this
  rw [parseFile_ok (document_dset hvalid (.inl ⟨rfl, named_append hnodes' hplain hv1⟩))
    (by rw [lookup_dset_ne data (by decide)]; exact hversion)]
  refine parseScene_ok (cs := cs) (comps := comps) (ns := ns ++ [(name, .map d)]) (parsed := parsed ++ [(name, d, c)])
    ?_ h2 (lookup_dset_self ..) (parseNodes_append hc h4) ?_ ?_ ?_
  · unfold optDict at h1 ⊢
    rw [lookup_dset_ne data (by decide)]
    exact h1
  · rw [List.map_append]
    exact placeNodes_append h7 hworld hp hl hd rfl h5
  · obtain ⟨declared, recs, g1, g2, g3⟩ := recorders_stages h3 h6
    refine recorders_ok (lookup_dset_self ..) (declared := declared) (recs := recs) ?_ (withAuto_more hrec g2) ?_
    · rw [lookup_dset_ne data (by decide)]
      exact g1
    · rw [List.map_append]
      exact parseRecorders_more _ g3
  · rw [List.map_append]
    exact List.mem_append_left _ h7

/-! ### Components -/

theorem parseComponents_append {F : Files α} {name : String} {v : Yaml α} {c : CompDef α} (hc : parseComponent F name v = .ok c) :
    ∀ {l : List (String × Yaml α)} {cs : List (String × CompDef α)}, parseComponents F l = .ok cs →
      parseComponents F (l ++ [(name, v)]) = .ok (cs ++ [(name, c)])
  | [], cs, h => by
    cases h
    simp [parseComponents, hc]
  | (k, w) :: l, cs, h => by
    unfold parseComponents at h
    rw [List.cons_append]
    unfold parseComponents
    cases hk : parseComponent F k w with
    | error e => rw [hk] at h; cases h
    | ok d =>
      rw [hk] at h
      dsimp only at h ⊢
      cases hl : parseComponents F l with
      | error e => rw [hl] at h; cases h
      | ok ds =>
        rw [hl] at h
        cases h
        rw [parseComponents_append hc hl]
        rfl

theorem parseComponents_names {F : Files α} : ∀ {l : List (String × Yaml α)} {cs : List (String × CompDef α)},
    parseComponents F l = .ok cs → cs.map (·.1) = l.map (·.1)
  | [], cs, h => by cases h; rfl
  | (k, w) :: l, cs, h => by
    unfold parseComponents at h
    split at h
    · cases h
    · split at h
      · cases h
      · rename_i hl
        cases h
        simp [parseComponents_names hl]

theorem pick_more {comps : List (String × CompDef α)} (e : String × CompDef α) : ∀ {keys : List (Yaml α)} {cs : List (CompDef α)},
    pickComponents comps keys = .ok cs → pickComponents (comps ++ [e]) keys = .ok cs
  | [], cs, h => h
  | k :: ks, cs, h => by
    cases k with
    | str q =>
      unfold pickComponents at h ⊢
      dsimp only at h ⊢
      rw [lookup_append]
      cases hl : comps.lookup q with
      | none => rw [hl] at h; cases h
      | some c =>
        rw [hl] at h
        dsimp only [Option.or] at h ⊢
        cases hp : pickComponents comps ks with
        | error x => rw [hp] at h; cases h
        | ok ds =>
          rw [hp] at h
          rw [pick_more e hp]
          exact h
    | _ => cases h

theorem material_more {comps : List (String × CompDef α)} (e : String × CompDef α) {v : Yaml α} {m : MatDef α}
    (h : parseMaterial comps v = .ok m) : parseMaterial (comps ++ [e]) v = .ok m := by
  unfold parseMaterial at h ⊢
  cases h1 : v.dict with
  | error x => rw [h1] at h; cases h
  | ok d =>
    rw [h1] at h
    dsimp only at h ⊢
    cases h2 : componentKeys d with
    | error x => rw [h2] at h; cases h
    | ok keys =>
      rw [h2] at h
      dsimp only at h ⊢
      cases h3 : pickComponents comps keys with
      | error x => rw [h3] at h; cases h
      | ok cs =>
        rw [h3] at h
        rw [pick_more e h3]
        exact h

theorem geometry_more {F : Files α} {comps : List (String × CompDef α)} (e : String × CompDef α) {kind : String} {v : Yaml α} {c : Content α}
    (h : parseGeometry F comps kind v = .ok c) : parseGeometry F (comps ++ [e]) kind v = .ok c := by
  unfold parseGeometry at h ⊢
  cases h1 : v.dict with
  | error x => rw [h1] at h; cases h
  | ok d =>
    rw [h1] at h
    dsimp only at h ⊢
    cases h2 : parseShape F kind d with
    | error x => rw [h2] at h; cases h
    | ok sh =>
      rw [h2] at h
      dsimp only at h ⊢
      cases h3 : dget d "material" with
      | error x => rw [h3] at h; cases h
      | ok mv =>
        rw [h3] at h
        dsimp only at h ⊢
        cases h4 : parseMaterial comps mv with
        | error x => rw [h4] at h; cases h
        | ok m =>
          rw [h4] at h
          rw [material_more e h4]
          exact h

theorem content_more {F : Files α} {comps : List (String × CompDef α)} (e : String × CompDef α) {name : String} {d : List (String × Yaml α)}
    {c : Content α} (h : parseContent F comps name d = .ok c) : parseContent F (comps ++ [e]) name d = .ok c := by
  unfold parseContent at h ⊢
  cases h1 : ["box", "cylinder", "sphere", "mesh"].find? (has d) with
  | none => rw [h1] at h; exact h
  | some kind =>
    rw [h1] at h
    dsimp only at h ⊢
    cases h2 : dget d kind with
    | error x => rw [h2] at h; cases h
    | ok v =>
      rw [h2] at h
      exact geometry_more e h

theorem parseNodes_more {F : Files α} {comps : List (String × CompDef α)} (e : String × CompDef α) : ∀ {ns : List (String × Yaml α)}
    {ps : List (String × List (String × Yaml α) × Content α)}, parseNodes F comps ns = .ok ps → parseNodes F (comps ++ [e]) ns = .ok ps
  | [], ps, h => h
  | (k, v) :: ns, ps, h => by
    unfold parseNodes at h ⊢
    cases h1 : v.dict with
    | error x => rw [h1] at h; cases h
    | ok d =>
      rw [h1] at h
      dsimp only at h ⊢
      cases h2 : parseContent F comps k d with
      | error x => rw [h2] at h; cases h
      | ok c =>
        rw [h2] at h
        rw [content_more e h2]
        dsimp only at h ⊢
        cases h3 : parseNodes F comps ns with
        | error x => rw [h3] at h; cases h
        | ok qs =>
          rw [h3] at h
          rw [parseNodes_more e h3]
          exact h

/-- The entry of the button for a component. -/
theorem absorber_made (F : Files α) (name : String) : parseComponent F name (.map [("absorber", .map [("coefficient", .num 1)])]) =
    .ok { name := name, kind := .absorber, dist := some (.const 1), qy := 0, phase := .isotropic } := by
  simp [parseComponent, parseAbsorber, Yaml.dict, List.lookup_cons, optSpectrum, absorptionOf, truth, constOf]

theorem absorber_valid : Schema.component (.map [("absorber", .map [("coefficient", .num 1)])] : Yaml α) = true := by
  simp [Schema.component, Schema.both, Schema.object, Schema.oneOf, Schema.required, Schema.absorber, Schema.atLeast, has,
    List.lookup_cons]

/-- C120: the button for a component leaves a document that loads to the same nodes and recorders; the new component is there to be
used: a material may name it. -/
theorem component_added {F : Files α} (B : Backend α Text Scene) (sc : Option Scene) {data data' : List (String × Yaml α)} {s : SceneDef α}
    (hs : parseFile F (.map data) = .ok s) (h : edit B sc data .addComponent = .ok data') :
    parseFile F (.map data') = .ok s ∧ ∃ name cs, optDict data' "components" = .ok cs ∧ ∃ comps, parseComponents F cs = .ok comps ∧
      comps.lookup name = some { name := name, kind := .absorber, dist := some (.const 1), qy := 0, phase := .isotropic } := by
  obtain ⟨doc, hdoc, hvalid, hversion, hscene⟩ := parseFile_stages hs
  cases hdoc
  obtain ⟨cs, comps, ns, parsed, h1, h2, h3, h4, h5, h6, h7⟩ := parseScene_stages hscene
  simp only [edit] at h
  split at h
  · cases h
  rename_i cs' hcs
  have hcs' : cs' = cs := by
    unfold sectionD at hcs
    unfold optDict at h1
    cases hl : data.lookup "components" with
    | none => rw [hl] at hcs h1; cases hcs; cases h1; rfl
    | some v => rw [hl] at hcs h1; dsimp only at hcs h1; rw [h1] at hcs; cases hcs; rfl
  subst hcs'
  obtain ⟨hfresh, k, hk, -⟩ := unique_fresh cs' "absorber"
  have hplain : Plain (uniqueName cs' "absorber") := plain_unique (by unfold Plain; decide +kernel) cs'
  generalize hname : uniqueName cs' "absorber" = name at h hfresh hk hplain
  rw [dset_fresh hfresh] at h
  cases h
  have hnb : name ≠ "builtin" := by
    rw [hk]
    intro e
    have := congrArg (fun t => t.toList.head?) e
    simp at this
  have hvalid' : Schema.named Schema.component [] (.map cs') = true ∧ has cs' "builtin" = false := by
    cases hl : data.lookup "components" with
    | none =>
      unfold optDict at h1
      rw [hl] at h1
      cases h1
      simp [Schema.named, has]
    | some v =>
      have ev : v = .map cs' := by
        unfold optDict at h1
        rw [hl] at h1
        exact dict_iff.1 h1
      subst ev
      unfold Schema.document Schema.object at hvalid
      simp only [List.all_nil, Bool.true_and] at hvalid
      have := lookup_all hvalid hl
      simpa [List.lookup, Schema.both] using this
  have hopt : optDict (dset data "components" (.map (cs' ++ [(name, .map [("absorber", .map [("coefficient", .num 1)])])]))) "components" =
      .ok (cs' ++ [(name, .map [("absorber", .map [("coefficient", .num 1)])])]) := by
    unfold optDict
    rw [lookup_dset_self]
    rfl
  have hcomps := parseComponents_append (absorber_made F name) h2
  refine ⟨?_, name, _, hopt, _, hcomps, ?_⟩
  · rw [parseFile_ok (document_dset hvalid (.inr (.inr ⟨rfl, named_append hvalid'.1 hplain absorber_valid, ?_⟩)))
      (by rw [lookup_dset_ne data (by decide)]; exact hversion)]
    · refine parseScene_ok hopt hcomps (by rw [lookup_dset_ne data (by decide)]; exact h3) (parseNodes_more _ h4) h5 ?_ h7
      unfold sceneRecorders at h6 ⊢
      rw [lookup_dset_ne data (by decide), lookup_dset_ne data (by decide)]
      exact h6
    · rintro d hd
      cases hd
      have hb := hvalid'.2
      unfold has at hb ⊢
      rw [lookup_append]
      rw [Option.isSome_eq_false_iff, Option.isNone_iff_eq_none] at hb
      rw [hb]
      simp [List.lookup_cons, beq_eq_false_iff_ne.2 (Ne.symm hnb)]
  · rw [lookup_append]
    have : comps.lookup name = none := by
      rw [lookup_none]
      rw [parseComponents_names h2]
      rw [← lookup_none]
      unfold has at hfresh
      exact Option.isNone_iff_eq_none.1 (Option.isSome_eq_false_iff.1 hfresh)
    rw [this]
    simp

/-! ### Recorders -/

theorem dsetdefault_insert {a b : List (String × Yaml α)} {e : String × Yaml α} {k : String} {v : Yaml α} (hk : k ≠ e.1) :
    ∃ b', dsetdefault (a ++ b) k v = a ++ b' ∧ dsetdefault (a ++ e :: b) k v = a ++ e :: b' ∧ ∀ x ∈ b', x ∈ b ∨ x.1 ≠ e.1 := by
  have hhas : has (a ++ e :: b) k = has (a ++ b) k := by
    unfold has
    rw [lookup_append, lookup_append]
    obtain ⟨ek, ev⟩ := e
    rw [List.lookup_cons, beq_eq_false_iff_ne.2 hk]
  unfold dsetdefault
  rw [hhas]
  split
  · exact ⟨b, rfl, rfl, fun x hx => .inl hx⟩
  · refine ⟨b ++ [(k, v)], by simp, by simp, ?_⟩
    intro x hx
    rcases List.mem_append.1 hx with hx | hx
    · exact .inl hx
    · rw [List.mem_singleton] at hx
      subst hx
      exact .inr hk

theorem addDefaults_insert {e : String × Yaml α} : ∀ {rs a b : List (String × Yaml α)}, (∀ r ∈ rs, r.1 ≠ e.1) →
    ∃ b', addDefaults (a ++ b) rs = a ++ b' ∧ addDefaults (a ++ e :: b) rs = a ++ e :: b' ∧ ∀ x ∈ b', x ∈ b ∨ x.1 ≠ e.1
  | [], a, b, _ => ⟨b, rfl, rfl, fun x hx => .inl hx⟩
  | r :: rs, a, b, h => by
    obtain ⟨b', e1, e2, e3⟩ := dsetdefault_insert (a := a) (b := b) (v := r.2) (h r (by simp))
    unfold addDefaults
    rw [e1, e2]
    obtain ⟨b'', f1, f2, f3⟩ := addDefaults_insert (e := e) (a := a) (b := b') (rs := rs) fun x hx => h x (by simp [hx])
    exact ⟨b'', f1, f2, fun x hx => (f3 x hx).elim (e3 x) .inr⟩

theorem withAuto_insert {e : String × Yaml α} (he : ∀ node, ∀ l ∈ labels, node ++ "-" ++ l ≠ e.1) :
    ∀ {ns a b recs : List (String × Yaml α)}, withAuto (a ++ b) ns = .ok recs →
      ∃ b', recs = a ++ b' ∧ withAuto (a ++ e :: b) ns = .ok (a ++ e :: b') ∧ ∀ x ∈ b', x ∈ b ∨ x.1 ≠ e.1
  | [], a, b, recs, h => by
    cases h
    exact ⟨b, rfl, rfl, fun x hx => .inl hx⟩
  | (k, v) :: ns, a, b, recs, h => by
    unfold withAuto at h ⊢
    cases h1 : v.dict with
    | error x => rw [h1] at h; cases h
    | ok d =>
      rw [h1] at h
      dsimp only at h ⊢
      split at h
      · rename_i ht
        rw [if_pos ht]
        cases h2 : autoRecorders k d with
        | error x => rw [h2] at h; cases h
        | ok rs =>
          rw [h2] at h
          dsimp only at h ⊢
          obtain ⟨b', e1, e2, e3⟩ := addDefaults_insert (e := e) (a := a) (b := b) (rs := rs) (by
            intro r hr
            obtain ⟨l, hl, er⟩ := (auto_names h2).1 r hr
            rw [er]
            exact he k l hl)
          rw [e1] at h
          rw [e2]
          obtain ⟨b'', f1, f2, f3⟩ := withAuto_insert he h
          exact ⟨b'', f1, f2, fun x hx => (f3 x hx).elim (e3 x) .inr⟩
      · rename_i ht
        rw [if_neg ht]
        exact withAuto_insert he h

theorem parseRecorders_insert {names : List String} {e : String × Yaml α} {r : String × Recorder α} (hr : parseRecorder names e.1 e.2 = .ok r) :
    ∀ {a b : List (String × Yaml α)} {rs : List (String × Recorder α)}, parseRecorders names (a ++ b) = .ok rs →
      ∃ ra rb, rs = ra ++ rb ∧ ra.length = a.length ∧ parseRecorders names (a ++ e :: b) = .ok (ra ++ r :: rb)
  | [], b, rs, h => by
    refine ⟨[], rs, rfl, rfl, ?_⟩
    rw [List.nil_append] at h ⊢
    obtain ⟨k, v⟩ := e
    unfold parseRecorders
    rw [hr]
    dsimp only
    rw [h]
    rfl
  | (k, v) :: a, b, rs, h => by
    rw [List.cons_append] at h ⊢
    unfold parseRecorders at h ⊢
    cases h1 : parseRecorder names k v with
    | error x => rw [h1] at h; cases h
    | ok q =>
      rw [h1] at h
      dsimp only at h ⊢
      cases h2 : parseRecorders names (a ++ b) with
      | error x => rw [h2] at h; cases h
      | ok qs =>
        rw [h2] at h
        cases h
        obtain ⟨ra, rb, e1, e2, e3⟩ := parseRecorders_insert hr h2
        refine ⟨q :: ra, rb, by rw [e1]; rfl, by simp [e2], ?_⟩
        rw [e3]
        rfl

theorem escaping_made {names : List String} {node name : String} (hn : node ∈ names) :
    parseRecorder names name (escapingEntry node : Yaml α) =
      .ok (node, ⟨name, .escaping, none, 1e-6, [.one ⟨.wavelength, 400, 900, 80⟩]⟩) := by
  have ht : (truncZ (80 : α)).toNat = 80 := by
    have : truncZ (80 : α) = 80 := by exact_mod_cast truncZ_int (α := α) 80
    rw [this]
    rfl
  simp [parseRecorder, escapingEntry, Yaml.dict, dget, List.lookup_cons, Yaml.string, hn, histEntries, truth, parseHists, parseHist,
    parseAxis, nums, Yaml.list, floats, Yaml.number, propOf, parseFacet, parseAtol, eventOf, ht]
  norm_num

theorem escaping_valid (node : String) : Schema.recorder (escapingEntry node : Yaml α) = true := by
  simp [Schema.recorder, escapingEntry, Schema.object, Schema.string, Schema.enum, Schema.array, has, nums, List.lookup_cons]

theorem parseRecorders_names {names : List String} : ∀ {l : List (String × Yaml α)} {rs : List (String × Recorder α)},
    parseRecorders names l = .ok rs → rs.map (·.2.name) = l.map (·.1)
  | [], rs, h => by cases h; rfl
  | (k, v) :: l, rs, h => by
    unfold parseRecorders at h
    split at h
    · cases h
    · rename_i r hr
      split at h
      · cases h
      · rename_i rs' hrs
        cases h
        have : r.2.name = k := by
          unfold parseRecorder at hr
          repeat' split at hr
          all_goals first | (cases hr; done) | skip
          cases hr
          rfl
        simp [parseRecorders_names hrs, this]

/-- No automatic recorder is called as the button calls its recorder. -/
theorem numbered_not_auto (stem : String) (k : ℕ) : ∀ node, ∀ l ∈ labels, node ++ "-" ++ l ≠ stem ++ "-" ++ Nat.repr k := by
  intro node l hl h
  have hd : ∀ c ∈ (Nat.repr k).toList, c.isDigit = true := by
    intro c hc
    refine Nat.isDigit_of_mem_toDigits (b := 10) (n := k) (by norm_num) (by norm_num) ?_
    simpa [Nat.repr] using hc
  obtain ⟨-, e⟩ := name_split (labels_plain l hl) (by
    intro hm
    have := hd _ hm
    exact absurd this (by decide)) h
  have : ∀ l ∈ labels, ∃ c ∈ l.toList, c.isDigit = false := by decide +kernel
  obtain ⟨c, hc, hcd⟩ := this l hl
  rw [e] at hc
  rw [hd c hc] at hcd
  cases hcd

/-- C120: the button for a recorder leaves a document that loads to the same nodes, with one more recorder, after the declared ones: it
counts the rays that leave the node, with a histogram of their wavelengths. -/
theorem recorder_added {F : Files α} (B : Backend α Text Scene) (sc : Option Scene) {data data' : List (String × Yaml α)} {s : SceneDef α}
    (hs : parseFile F (.map data) = .ok s) {node : String} (h : edit B sc data (.addRecorder node) = .ok data') :
    ∃ name before after, s.recorders = before ++ after ∧ name ∉ s.recorders.map (·.2.name) ∧
      parseFile F (.map data') = .ok ⟨s.nodes,
        before ++ (node, ⟨name, .escaping, none, 1e-6, [.one ⟨.wavelength, 400, 900, 80⟩]⟩) :: after⟩ := by
  obtain ⟨doc, hdoc, hvalid, hversion, hscene⟩ := parseFile_stages hs
  cases hdoc
  obtain ⟨cs, comps, ns, parsed, h1, h2, h3, h4, h5, h6, h7⟩ := parseScene_stages hscene
  obtain ⟨declared, recs, g1, g2, g3⟩ := recorders_stages h3 h6
  simp only [edit] at h
  split at h
  · cases h
  rename_i nodes hnodes
  have hnodes' : nodes = ns := by
    unfold sectionD at hnodes
    rw [h3] at hnodes
    cases hnodes
    rfl
  subst hnodes'
  split at h
  · cases h
  rename_i hnode
  split at h
  · cases h
  rename_i old hold
  have hdecl : declared = old := by
    unfold sectionD at hold
    cases hl : data.lookup "recorders" with
    | none => rw [hl] at hold g1; cases hold; cases g1; rfl
    | some v =>
      rw [hl] at hold g1
      dsimp only at hold g1
      have ev := dict_iff.1 hold
      subst ev
      cases old with
      | nil => simp [truth] at g1; exact g1
      | cons x l => simp [truth, Yaml.dict] at g1; exact g1.symm
  subst hdecl
  have hmem : node ∈ nodes.map (·.1) := by
    by_contra hc
    have := lookup_none.2 hc
    simp [has, this] at hnode
  obtain ⟨hfresh, k, hk, -⟩ := unique_fresh declared (node ++ "-escaping")
  have hvn : Schema.named Schema.node ["world"] (.map nodes) = true := by
    unfold Schema.document Schema.object at hvalid
    simp only [List.all_nil, Bool.true_and] at hvalid
    have := lookup_all hvalid h3
    simpa [List.lookup] using this
  have hpn : Plain node := by
    obtain ⟨e, he, rfl⟩ := List.mem_map.1 hmem
    unfold Schema.named at hvn
    simp only [Bool.and_eq_true, List.all_eq_true] at hvn
    have := (hvn.2 e he).1
    rw [← plain_iff]
    simpa using this
  have hplain : Plain (uniqueName declared (node ++ "-escaping")) := plain_unique (plain_append hpn (by decide)) declared
  generalize hname : uniqueName declared (node ++ "-escaping") = name at h hfresh hk hplain
  rw [dset_fresh hfresh] at h
  cases h
  have hvr : Schema.named Schema.recorder [] (.map declared) = true := by
    cases hl : data.lookup "recorders" with
    | none =>
      rw [hl] at g1
      cases g1
      simp [Schema.named]
    | some v =>
      have ev : v = .map declared := by
        unfold sectionD at hold
        rw [hl] at hold
        exact dict_iff.1 hold
      subst ev
      unfold Schema.document Schema.object at hvalid
      simp only [List.all_nil, Bool.true_and] at hvalid
      have := lookup_all hvalid hl
      simpa [List.lookup] using this
  obtain ⟨b', e1, e2, e3⟩ := withAuto_insert (e := (name, (escapingEntry node : Yaml α)))
    (by rw [hk]; exact numbered_not_auto _ _) (a := declared) (b := []) (by rw [List.append_nil]; exact g2)
  subst e1
  obtain ⟨ra, rb, f1, f2, f3⟩ := parseRecorders_insert (e := (name, (escapingEntry node : Yaml α))) (escaping_made (name := name) hmem) g3
  refine ⟨name, ra, rb, f1, ?_, ?_⟩
  · rw [parseRecorders_names g3, List.map_append, List.mem_append]
    rintro (hm | hm)
    · exact lookup_none.1 (Option.isNone_iff_eq_none.1 (Option.isSome_eq_false_iff.1 hfresh)) hm
    · obtain ⟨x, hx, hxe⟩ := List.mem_map.1 hm
      exact (e3 x hx).elim (by simp) (fun hne => hne hxe)
  · rw [parseFile_ok (document_dset hvalid (.inr (.inl ⟨rfl, named_append hvr hplain (escaping_valid node)⟩)))
      (by rw [lookup_dset_ne data (by decide)]; exact hversion)]
    refine parseScene_ok (cs := cs) ?_ h2 (by rw [lookup_dset_ne data (by decide)]; exact h3) h4 h5 ?_ h7
    · unfold optDict at h1 ⊢
      rw [lookup_dset_ne data (by decide)]
      exact h1
    · refine recorders_ok (by rw [lookup_dset_ne data (by decide)]; exact h3) (declared := declared ++ [(name, escapingEntry node)]) ?_ e2 f3
      rw [lookup_dset_self]
      simp [truth, Yaml.dict]

/-! ### A document -/

/-- The scene file of the examples, as the dictionary the studio edits. -/
def goodData : List (String × Yaml ℚ) := match good with | .map d => d | _ => []

theorem good_is : Yaml.map goodData = good := rfl

/-- All four buttons, the button for a component and the button for a recorder at `slab` work on it; a node that is not there has no
recorder. -/
theorem buttons (B : Backend ℚ Text Scene) (sc : Option Scene) :
    (∀ kind ∈ ["box", "sphere", "cylinder", "light"], ∃ data', edit B sc goodData (.addNode kind) = .ok data') ∧
    (∃ data', edit B sc goodData .addComponent = .ok data') ∧ (∃ data', edit B sc goodData (.addRecorder "slab") = .ok data') := by
  have h : section? goodData "nodes" = .ok (entries "nodes" good) := rfl
  have h' : sectionD goodData "nodes" = .ok (entries "nodes" good) := rfl
  refine ⟨?_, ⟨_, rfl⟩, ?_⟩
  · intro kind hk
    have : ∃ v, snippet (α := ℚ) kind = some v := by
      simp only [List.mem_cons, List.not_mem_nil, or_false] at hk
      rcases hk with rfl | rfl | rfl | rfl <;> exact ⟨_, rfl⟩
    obtain ⟨v, hv⟩ := this
    simp only [edit, hv, h]
    exact ⟨_, rfl⟩
  · simp only [edit, h']
    rw [if_neg (by decide +kernel)]
    exact ⟨_, rfl⟩

/-- The hypotheses of the theorems hold for it: a light is added, and the scene has it. -/
example (B : Backend ℚ Text Scene) (sc : Option Scene) : ∃ data' s name, parseFile disk (.map data') = .ok s ∧
    s.nodes.getLast? = some ⟨name, .light ⟨some (.constant 555), none, some (.cone 20), name⟩, some "world", some ⟨0, 0, 2⟩,
      some ⟨0, 0, -1⟩⟩ := by
  obtain ⟨s, hs⟩ := good_loads
  obtain ⟨data', h⟩ := (buttons B sc).1 "light" (by simp)
  obtain ⟨name, new, -, hm, hp⟩ := node_added B sc hs h
  cases hm
  exact ⟨data', _, name, hp, by simp⟩

example (B : Backend ℚ Text Scene) (sc : Option Scene) : ∃ data' s, parseFile disk (.map data') = .ok s ∧
    ∃ r ∈ s.recorders, r.1 = "slab" ∧ r.2.event = .escaping := by
  obtain ⟨s, hs⟩ := good_loads
  obtain ⟨data', h⟩ := (buttons B sc).2.2
  obtain ⟨name, a, b, -, -, hp⟩ := recorder_added B sc hs h
  exact ⟨data', _, hp, _, List.mem_append_right _ (List.mem_cons_self ..), rfl, rfl⟩

example (B : Backend ℚ Text Scene) (sc : Option Scene) : ∃ data' s, data' ≠ goodData ∧ parseFile disk (.map data') = .ok s ∧
    parseFile disk good = .ok s := by
  obtain ⟨s, hs⟩ := good_loads
  obtain ⟨data', h⟩ := (buttons B sc).2.1
  refine ⟨data', s, ?_, (component_added B sc hs h).1, hs⟩
  rintro rfl
  have : (match edit B sc goodData .addComponent with | .ok d => (entries "components" (.map d)).length | _ => 0) = 3 := rfl
  rw [h] at this
  exact absurd this (by decide)

end PV.StudioAdd
