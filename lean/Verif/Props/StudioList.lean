import Verif.Model.StudioList
import Verif.Props.StudioDelete

/-!
C124: the list of recorders in the studio.
-/

set_option linter.unusedSectionVars false

namespace PV.StudioList
open PV PV.Doc PV.View PV.Studio PV.Spec PV.SceneFile
variable {α : Type} [Field α] [LinearOrder α] [IsStrictOrderedRing α] [FloorRing α]

/-- Sorting a list into the classes of its elements. -/
theorem classes {β : Type} (f : β → String) : ∀ (l : List String) (R : List β), l.Nodup → (∀ r ∈ R, f r ∈ l) →
    (l.flatMap fun n => R.filter fun r => f r = n).Perm R
  | [], R, _, h => by
    cases R with
    | nil => exact List.Perm.refl _
    | cons r R => cases h r List.mem_cons_self
  | n :: l, R, hl, h => by
    rw [List.nodup_cons] at hl
    rw [List.flatMap_cons]
    have e : (l.flatMap fun m => R.filter fun r => f r = m) =
        l.flatMap fun m => (R.filter fun r => !decide (f r = n)).filter fun r => f r = m := by
      refine List.flatMap_congr fun m hm => ?_
      rw [List.filter_filter]
      refine List.filter_congr fun r _ => ?_
      by_cases hr : f r = m
      · have : m ≠ n := fun e => hl.1 (e ▸ hm)
        simp [hr, this]
      · simp [hr]
    rw [e]
    refine ((classes f l _ hl.2 fun r hr => ?_).append_left _).trans (List.filter_append_perm _ R)
    obtain ⟨h1, h2⟩ := List.mem_filter.1 hr
    rcases List.mem_cons.1 (h r h1) with e | e
    · simp [e] at h2
    · exact e

theorem auto_ok {nodes : List (String × Yaml α)} : ∀ {declared recs : List (String × Yaml α)},
    withAuto declared nodes = .ok recs → ∀ e ∈ nodes, ∃ d, e.2.dict = .ok d ∧
      (truth ((d.lookup "record").getD .null) = true → ∃ rs, autoRecorders e.1 d = .ok rs) := by
  induction nodes with
  | nil => intro _ _ _ e he; cases he
  | cons n nodes ih =>
    intro declared recs h e he
    obtain ⟨k, v⟩ := n
    unfold withAuto at h
    cases hd : v.dict with
    | error x => rw [hd] at h; cases h
    | ok d =>
      rw [hd] at h
      dsimp only at h
      by_cases ht : truth ((d.lookup "record").getD .null) = true
      · rw [if_pos ht] at h
        cases ha : autoRecorders k d with
        | error x => rw [ha] at h; cases h
        | ok rs =>
          rw [ha] at h
          rcases List.mem_cons.1 he with rfl | he
          · exact ⟨d, hd, fun _ => ⟨rs, ha⟩⟩
          · exact ih h e he
      · rw [if_neg ht] at h
        rcases List.mem_cons.1 he with rfl | he
        · exact ⟨d, hd, fun h => absurd h ht⟩
        · exact ih h e he

theorem list_ok {doc specs : List (String × Yaml α)} {s : SceneDef α} {g : String × Recorder α → RecorderEntry α} :
    ∀ {l : List String}, (∀ n ∈ l, nodeRecorders doc specs s n =
        .ok ((s.recorders.filter fun r => r.1 = n).map g)) →
      listRecorders doc specs s l = .ok ((l.flatMap fun n => s.recorders.filter fun r => r.1 = n).map g)
  | [], _ => rfl
  | n :: l, h => by
    unfold listRecorders
    rw [h n List.mem_cons_self]
    dsimp only
    rw [list_ok fun m hm => h m (List.mem_cons_of_mem _ hm)]
    simp

theorem parsed_from {names : List String} : ∀ {l : List (String × Yaml α)} {rs : List (String × Recorder α)},
    parseRecorders names l = .ok rs → ∀ r ∈ rs, ∃ v, (r.2.name, v) ∈ l ∧ parseRecorder names r.2.name v = .ok r
  | [], rs, h, r, hr => by cases h; cases hr
  | (k, v) :: l, rs, h, r, hr => by
    unfold parseRecorders at h
    cases h1 : parseRecorder names k v with
    | error e => rw [h1] at h; cases h
    | ok x =>
      rw [h1] at h
      dsimp only at h
      cases h2 : parseRecorders names l with
      | error e => rw [h2] at h; cases h
      | ok xs =>
        rw [h2] at h
        cases h
        rcases List.mem_cons.1 hr with rfl | hr
        · have e := (parseRecorder_name h1).1
          exact ⟨v, by simp [e], by rw [e]; exact h1⟩
        · obtain ⟨w, hw, hp⟩ := parsed_from h2 r hr
          exact ⟨w, List.mem_cons_of_mem _ hw, hp⟩

theorem explicit_entries {doc declared : List (String × Yaml α)}
    (h : (match doc.lookup "recorders" with
        | none => Except.ok []
        | some v => if truth v then v.dict else .ok []) = .ok declared) :
    explicit doc = .ok (declared.map (·.1)) ∧
      (declared.map (·.1)) = (entries "recorders" (.map doc)).map (·.1) := by
  unfold explicit entries
  rw [under_map]
  cases hl : doc.lookup "recorders" with
  | none => rw [hl] at h; cases h; exact ⟨rfl, rfl⟩
  | some v =>
    rw [hl] at h
    dsimp only at h ⊢
    by_cases ht : truth v = true
    · rw [if_pos ht] at h ⊢
      rw [h, dict_iff.1 h]
      exact ⟨rfl, rfl⟩
    · rw [if_neg ht] at h ⊢
      cases h
      refine ⟨rfl, ?_⟩
      cases v with
      | map d =>
        cases d with
        | nil => rfl
        | cons a d => simp [truth] at ht
      | _ => rfl

/-- **C124.** The page lists every recorder of the scene once, with its node, event, face and the ranges
of its histograms, and marks as automatic exactly those the document does not declare. -/
theorem recorders_listed {F : Files α} {data : List (String × Yaml α)} {s : SceneDef α}
    (h : parseFile F (.map data) = .ok s) (hn : ((entries "nodes" (.map data)).map (·.1)).Nodup)
    (hr : ((entries "recorders" (.map data)).map (·.1)).Nodup) :
    ∃ es, payloadRecorders data s = .ok es ∧
      es.Perm (s.recorders.map fun r => ⟨r.2.name, r.1, r.2.event, r.2.facet, r.2.hists.map histEntry,
        decide (r.2.name ∉ (entries "recorders" (.map data)).map (·.1))⟩) := by
  have hvis := scene_nodes h hn
  obtain ⟨doc, hdoc, hvalid, hversion, hscene⟩ := parseFile_stages h
  cases hdoc
  obtain ⟨cs, comps, ns, parsed, h1, h2, h3, h4, h5, h6, h7⟩ := parseScene_stages hscene
  obtain ⟨declared, recs, g1, g2, g3⟩ := StudioAdd.recorders_stages h3 h6
  obtain ⟨x1, x2⟩ := explicit_entries g1
  rw [entries_map h3] at hn hvis
  rw [← x2] at hr ⊢
  have hnode : ∀ n ∈ s.visited, nodeRecorders data ns s n =
      .ok ((s.recorders.filter fun r => r.1 = n).map fun r => ⟨r.2.name, r.1, r.2.event, r.2.facet,
        r.2.hists.map histEntry, decide (r.2.name ∉ declared.map (·.1))⟩) := by
    intro n hm
    obtain ⟨e, he, rfl⟩ := List.mem_map.1 (hvis.mem_iff.1 hm)
    obtain ⟨d, hd, ha⟩ := auto_ok g2 e he
    have hl : ns.lookup e.1 = some e.2 := mem_lookup hn he
    obtain ⟨auto, hauto, hin⟩ : ∃ auto, autoNames ns e.1 = .ok auto ∧
        ∀ rs, truth ((d.lookup "record").getD .null) = true → autoRecorders e.1 d = .ok rs → auto = rs.map (·.1) := by
      unfold autoNames
      rw [hl, Option.getD_some, hd]
      dsimp only
      by_cases ht : truth ((d.lookup "record").getD .null) = true
      · obtain ⟨rs, hrs⟩ := ha ht
        rw [if_pos ht, hrs]
        exact ⟨_, rfl, fun rs' _ h => by cases h; rfl⟩
      · rw [if_neg ht]
        exact ⟨_, rfl, fun rs' h => absurd h ht⟩
    unfold nodeRecorders
    rw [hauto]
    dsimp only
    rw [x1]
    dsimp only
    congr 1
    refine List.map_congr_left fun r hrm => ?_
    obtain ⟨hrs, hre⟩ := List.mem_filter.1 hrm
    simp only [decide_eq_true_eq] at hre
    rw [hre]
    congr 1
    by_cases hx : r.2.name ∈ declared.map (·.1)
    · simp [hx]
    · suffices r.2.name ∈ auto by simp only [this, hx, decide_true, not_false_eq_true, Bool.and_self]
      obtain ⟨v, hv, hp⟩ := parsed_from g3 r hrs
      have hlk := mem_lookup (withAuto_nodup g2 hr) hv
      rcases nothing_else g2 hlk with hlk | ⟨node, rs, ⟨d', hd', ht', ha'⟩, hmem⟩
      · exact absurd (List.mem_map_of_mem (lookup_mem hlk)) hx
      · have h8 := StudioDelete.auto_onNode (name := r.1) ha' _ hmem
        rw [StudioDelete.onNode_iff hp] at h8
        have h9 : node = e.1 := by
          have : node = r.1 := by simpa using h8
          rw [this, hre]
        subst h9
        have h10 := mem_lookup hn hd'
        rw [hl] at h10
        have h11 : e.2 = .map d' := Option.some.inj h10
        rw [h11] at hd
        cases hd
        rw [hin rs ht' ha']
        exact List.mem_map_of_mem hmem
  refine ⟨(s.visited.flatMap fun n => s.recorders.filter fun r => r.1 = n).map fun r =>
    ⟨r.2.name, r.1, r.2.event, r.2.facet, r.2.hists.map histEntry,
      decide (r.2.name ∉ declared.map (·.1))⟩, ?_, ?_⟩
  · unfold payloadRecorders
    rw [h3, Option.getD_some]
    have e : (Yaml.map ns : Yaml α).dict = .ok ns := rfl
    rw [e]
    dsimp only
    exact list_ok hnode
  · refine List.Perm.map _ (classes (fun r : String × Recorder α => r.1) _ _ (hvis.nodup_iff.2 hn) fun r hrm => ?_)
    exact hvis.mem_iff.2 ((parseRecorders_names g3).2 r hrm)

variable {Text Scene : Type}

theorem delete_edit (B : Backend α Text Scene) (sc : Option Scene) {data declared : List (String × Yaml α)}
    (h : (match data.lookup "recorders" with
        | none => Except.ok []
        | some v => if truth v then v.dict else .ok []) = .ok declared) (name : String) :
    (∃ data', edit B sc data (.deleteRecorder name) = .ok data') ↔ name ∈ declared.map (·.1) := by
  simp only [edit, sectionD]
  have hmem : ∀ d : List (String × Yaml α), has d name = true ↔ name ∈ d.map (·.1) := by
    intro d
    constructor
    · intro hd
      unfold has at hd
      obtain ⟨v, hv⟩ := Option.isSome_iff_exists.1 hd
      exact List.mem_map_of_mem (lookup_mem hv)
    · intro hd
      obtain ⟨e, he, rfl⟩ := List.mem_map.1 hd
      exact StudioDelete.lookup_some_of_mem he
  cases hl : data.lookup "recorders" with
  | none => rw [hl] at h; cases h; simp [has]
  | some v =>
    rw [hl] at h
    dsimp only at h ⊢
    by_cases ht : truth v = true
    · rw [if_pos ht] at h
      rw [h]
      dsimp only
      rw [← hmem]
      by_cases hh : has declared name = true
      · rw [if_pos hh]; exact ⟨fun _ => hh, fun _ => ⟨_, rfl⟩⟩
      · rw [if_neg hh]
        refine ⟨?_, fun h => absurd h hh⟩
        rintro ⟨_, hx⟩
        cases hx
    · rw [if_neg ht] at h
      cases h
      refine ⟨?_, fun h => by cases h⟩
      rintro ⟨_, hx⟩
      cases v with
      | map d =>
        cases d with
        | nil => simp [Yaml.dict, has] at hx
        | cons a d => simp [truth] at ht
      | _ => simp [Yaml.dict] at hx

/-- **C124.** The page offers to delete a recorder exactly when the document declares it, which is exactly
when deleting it is not refused. -/
theorem delete_button {F : Files α} (B : Backend α Text Scene) (sc : Option Scene) {data : List (String × Yaml α)}
    {s : SceneDef α} (h : parseFile F (.map data) = .ok s) (hn : ((entries "nodes" (.map data)).map (·.1)).Nodup)
    (hr : ((entries "recorders" (.map data)).map (·.1)).Nodup) :
    ∃ es, payloadRecorders data s = .ok es ∧ ∀ name,
      (deleteButton es name = true ↔ name ∈ (entries "recorders" (.map data)).map (·.1)) ∧
      (deleteButton es name = true ↔ ∃ data', edit B sc data (.deleteRecorder name) = .ok data') := by
  obtain ⟨es, h1, hp⟩ := recorders_listed h hn hr
  obtain ⟨doc, hdoc, hvalid, hversion, hscene⟩ := parseFile_stages h
  cases hdoc
  obtain ⟨cs, comps, ns, parsed, -, -, h3, -, -, h6, -⟩ := parseScene_stages hscene
  obtain ⟨declared, recs, g1, g2, g3⟩ := StudioAdd.recorders_stages h3 h6
  obtain ⟨-, x2⟩ := explicit_entries g1
  rw [← x2] at hr hp
  refine ⟨es, h1, fun name => ?_⟩
  rw [← x2, delete_edit B sc g1]
  suffices deleteButton es name = true ↔ name ∈ declared.map (·.1) from ⟨this, this⟩
  have hnd : (es.map (·.name)).Nodup := by
    rw [(hp.map _).nodup_iff, List.map_map]
    have := (Doc.parseRecorders_names g3).1
    rw [show ((fun e : RecorderEntry α => e.name) ∘ fun r : String × Recorder α => (⟨r.2.name, r.1, r.2.event, r.2.facet, r.2.hists.map histEntry, decide (r.2.name ∉ declared.map (·.1))⟩ : RecorderEntry α)) = fun r => r.2.name from rfl, this]
    exact withAuto_nodup g2 hr
  unfold deleteButton selected
  constructor
  · intro hb
    cases hf : es.find? fun e => e.name = name with
    | none => rw [hf] at hb; cases hb
    | some e =>
      rw [hf] at hb
      dsimp only at hb
      have he := List.mem_of_find?_eq_some hf
      have hname : e.name = name := by simpa using List.find?_some hf
      obtain ⟨r, hrm, rfl⟩ := List.mem_map.1 (hp.mem_iff.1 he)
      dsimp only at hb hname
      rw [hname] at hb
      by_contra hx
      simp [hx] at hb
  · intro hd
    obtain ⟨d, hdm, rfl⟩ := List.mem_map.1 hd
    have hlk := declared_kept g2 (mem_lookup hr hdm)
    have hin : d.1 ∈ recs.map (·.1) := List.mem_map_of_mem (lookup_mem hlk)
    rw [← (Doc.parseRecorders_names g3).1] at hin
    obtain ⟨r, hrm, hrn⟩ := List.mem_map.1 hin
    have hall : ∀ e ∈ es, e.name = d.1 → e.auto = false := by
      intro e he hen
      obtain ⟨r', -, rfl⟩ := List.mem_map.1 (hp.mem_iff.1 he)
      dsimp only at hen ⊢
      rw [hen]
      simpa using hd
    cases hf : es.find? fun e => e.name = d.1 with
    | none =>
      rw [List.find?_eq_none] at hf
      have := hf _ (hp.mem_iff.2 (List.mem_map_of_mem hrm))
      simp [hrn] at this
    | some e =>
      dsimp only
      rw [hall e (List.mem_of_find?_eq_some hf) (by simpa using List.find?_some hf)]
      rfl

/-- A recorded slab, one of whose automatic recorders is declared. -/
def twoKinds : List (String × Yaml ℚ) := [("version", .str "1.0"), ("nodes", .map [
  ("world", .map [("sphere", .map [("radius", .num 10), ("material", .map [("refractive-index", .num 1)])])]),
  ("slab", .map [("box", .map [("size", nums [5, 5, 1]), ("material", .map [("refractive-index", .num 2)])]), ("record", .bool true)])]),
  ("recorders", .map [("slab-top", .map [("node", .str "slab"), ("event", .str "entering")])])]

example : (((parseFile disk (.map twoKinds)).toOption.bind fun s => (payloadRecorders twoKinds s).toOption).map fun es =>
      es.map fun e => (e.name, e.node, e.auto)) = some
    [("slab-top", "slab", false), ("slab-lost", "slab", true), ("slab-bottom", "slab", true), ("slab-east", "slab", true),
      ("slab-west", "slab", true), ("slab-north", "slab", true), ("slab-south", "slab", true)] := by
  decide +kernel

example : ((entries "nodes" (.map twoKinds)).map (·.1)).Nodup ∧ ((entries "recorders" (.map twoKinds)).map (·.1)).Nodup := by
  decide +kernel

end PV.StudioList
