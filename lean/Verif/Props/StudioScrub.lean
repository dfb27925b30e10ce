import Verif.Props.StudioDelete

/-!
C122: deleting a component in the studio takes it out of every material, and the document still loads.
-/

set_option linter.unusedSectionVars false

namespace PV.StudioDelete
open PV PV.Doc PV.Studio PV.Spec PV.SceneFile PV.StudioAdd
variable {α : Type} [Field α] [LinearOrder α] [IsStrictOrderedRing α] [FloorRing α]

/-! ### Components -/

theorem component_name {F : Files α} {k : String} {v : Yaml α} {c : CompDef α} (h : parseComponent F k v = .ok c) : c.name = k := by
  unfold parseComponent parseAbsorber parseScatterer parseLuminophore at h
  repeat' split at h
  all_goals first | (cases h; done) | skip
  all_goals cases h
  all_goals rfl

theorem components_named {F : Files α} : ∀ {l : List (String × Yaml α)} {cs : List (String × CompDef α)},
    parseComponents F l = .ok cs → ∀ e ∈ cs, e.2.name = e.1
  | [], cs, h => by cases h; simp
  | (k, w) :: l, cs, h => by
    unfold parseComponents at h
    split at h
    · cases h
    · rename_i c hc
      split at h
      · cases h
      · rename_i hl
        cases h
        intro e he
        rcases List.mem_cons.1 he with rfl | he
        · exact component_name hc
        · exact components_named hl e he

theorem parseComponents_filter {F : Files α} (p : String → Bool) : ∀ {l : List (String × Yaml α)} {cs : List (String × CompDef α)},
    parseComponents F l = .ok cs → parseComponents F (l.filter fun e => p e.1) = .ok (cs.filter fun e => p e.1)
  | [], cs, h => by cases h; rfl
  | (k, w) :: l, cs, h => by
    unfold parseComponents at h
    split at h
    · cases h
    · rename_i c hc
      split at h
      · cases h
      · rename_i hl
        cases h
        have ih := parseComponents_filter p hl
        cases hk : p k with
        | true =>
          rw [List.filter_cons_of_pos (by simpa using hk), List.filter_cons_of_pos (by simpa using hk)]
          unfold parseComponents
          rw [hc]
          dsimp only
          rw [ih]
        | false =>
          rw [List.filter_cons_of_neg (by simpa using hk), List.filter_cons_of_neg (by simpa using hk)]
          exact ih

/-- A material without a component. -/
def _root_.PV.Doc.MatDef.without (m : MatDef α) (name : String) : MatDef α := ⟨m.index, m.comps.filter fun c => c.name ≠ name⟩

/-- What hangs on a node, without a component. -/
def _root_.PV.Doc.Content.without (name : String) : Content α → Content α
  | .geometry s m => .geometry s (m.without name)
  | .light l => .light l

/-- A node without a component. -/
def _root_.PV.Doc.NodeDef.without (n : NodeDef α) (name : String) : NodeDef α := { n with content := n.content.without name }

theorem pick_without {comps : List (String × CompDef α)} {name : String} (hc : ∀ e ∈ comps, e.2.name = e.1) :
    ∀ {keys : List (Yaml α)} {cs : List (CompDef α)}, pickComponents comps keys = .ok cs →
      pickComponents (comps.filter fun e => e.1 ≠ name) (keys.filter fun c => ¬ isName name c) = .ok (cs.filter fun c => c.name ≠ name)
  | [], cs, h => by cases h; rfl
  | k :: ks, cs, h => by
    cases k with
    | str q =>
      unfold pickComponents at h
      dsimp only at h
      cases hl : comps.lookup q with
      | none => rw [hl] at h; cases h
      | some c =>
        rw [hl] at h
        dsimp only at h
        cases hp : pickComponents comps ks with
        | error x => rw [hp] at h; cases h
        | ok ds =>
          rw [hp] at h
          cases h
          have ih := pick_without (name := name) hc hp
          have hn : c.name = q := hc _ (lookup_mem hl)
          by_cases hq : q = name
          · rw [List.filter_cons_of_neg (by simp [isName, hq]), List.filter_cons_of_neg (by simp [hn, hq])]
            exact ih
          · rw [List.filter_cons_of_pos (by simp [isName, hq]), List.filter_cons_of_pos (by simp [hn, hq])]
            unfold pickComponents
            dsimp only
            rw [has_filter (by intro e _ he; simpa [he] using hq), hl]
            dsimp only
            rw [ih]
    | _ => cases h

/-- Scrubbing a material, seen from its entries. -/
theorem scrubMaterial_lookup {name : String} {md md' : List (String × Yaml α)} (h : scrubMaterial name md = .ok md') :
    (∀ k ≠ "components", md'.lookup k = md.lookup k) ∧
      ∀ keys, componentKeys md = .ok keys → componentKeys md' = .ok (keys.filter fun c => ¬ isName name c) := by
  unfold scrubMaterial at h
  unfold componentKeys
  split at h
  · rename_i hl
    cases h
    refine ⟨fun _ _ => rfl, ?_⟩
    rw [hl]
    intro keys hk
    cases hk
    rfl
  · rename_i v hv
    split at h
    · split at h
      · cases h
      · rename_i l hl
        split at h
        · cases h
          refine ⟨fun k hk => lookup_dset_ne _ hk _, ?_⟩
          rw [lookup_dset_self, hv]
          intro keys hk
          dsimp only at hk ⊢
          rw [hl] at hk
          cases hk
          rfl
        · rename_i hany
          cases h
          refine ⟨fun _ _ => rfl, ?_⟩
          rw [hv]
          intro keys hk
          dsimp only at hk ⊢
          rw [hl] at hk
          cases hk
          rw [hl]
          congr 1
          symm
          rw [List.filter_eq_self]
          intro c hc
          simp only [List.any_eq_true, not_exists, not_and] at hany
          simpa using hany c hc
    · rename_i ht
      cases h
      refine ⟨fun _ _ => rfl, ?_⟩
      rw [hv]
      intro keys hk
      dsimp only at hk ⊢
      cases v with
      | seq l =>
        cases hk
        have : keys = [] := by simpa [truth] using ht
        subst this
        rfl
      | _ => cases hk

theorem material_without {comps : List (String × CompDef α)} {name : String} (hc : ∀ e ∈ comps, e.2.name = e.1)
    {md md' : List (String × Yaml α)} {m : MatDef α} (h : parseMaterial comps (.map md) = .ok m) (hs : scrubMaterial name md = .ok md') :
    parseMaterial (comps.filter fun e => e.1 ≠ name) (.map md') = .ok (m.without name) := by
  obtain ⟨s1, s2⟩ := scrubMaterial_lookup hs
  unfold parseMaterial at h ⊢
  simp only [Yaml.dict] at h ⊢
  cases h2 : componentKeys md with
  | error x => rw [h2] at h; cases h
  | ok keys =>
    rw [h2] at h
    rw [s2 keys h2]
    dsimp only at h ⊢
    cases h3 : pickComponents comps keys with
    | error x => rw [h3] at h; cases h
    | ok cs =>
      rw [h3] at h
      rw [pick_without hc h3]
      dsimp only at h ⊢
      have e : dget md' "refractive-index" = dget md "refractive-index" := by
        unfold dget
        rw [s1 _ (by decide)]
      rw [e]
      split at h
      · cases h
      · split at h
        · cases h
        · cases h
          rfl

/-! ### Geometry -/

/-- What scrubbing does to the entry of a geometry. -/
inductive ScrubbedTo (name : String) : Option (Yaml α) → Option (Yaml α) → Prop
  | none : ScrubbedTo name none none
  | plain (gd : List (String × Yaml α)) : gd.lookup "material" = .none → ScrubbedTo name (some (.map gd)) (some (.map gd))
  | material (gd md md' : List (String × Yaml α)) : gd.lookup "material" = some (.map md) → scrubMaterial name md = .ok md' →
      ScrubbedTo name (some (.map gd)) (some (.map (dset gd "material" (.map md'))))

theorem scrubGeom_to {name g : String} {d d' : List (String × Yaml α)} (h : scrubGeom name g d = .ok d') :
    ScrubbedTo name (d.lookup g) (d'.lookup g) ∧ (∀ j ≠ g, d'.lookup j = d.lookup j) ∧
      (d' = d ∨ ∃ w, d'.lookup g = some w ∧ d' = dset d g w) := by
  unfold scrubGeom at h
  split at h
  · rename_i hl
    cases h
    rw [hl]
    exact ⟨.none, fun _ _ => rfl, .inl rfl⟩
  · rename_i gv hg
    split at h
    · cases h
    · rename_i gd hgd
      have := dict_map hgd
      subst this
      split at h
      · rename_i hm
        cases h
        rw [hg]
        exact ⟨.plain gd hm, fun _ _ => rfl, .inl rfl⟩
      · rename_i m hm
        split at h
        · cases h
        · rename_i md hmd
          have := dict_map hmd
          subst this
          split at h
          · cases h
          · rename_i md' hmd'
            cases h
            rw [hg, lookup_dset_self]
            exact ⟨.material gd md md' hm hmd', fun j hj => lookup_dset_ne _ hj _, .inr ⟨_, rfl, rfl⟩⟩

theorem scrubGeoms_to {name : String} : ∀ {gs : List String} (_ : gs.Nodup) {d d' : List (String × Yaml α)},
    scrubGeoms name gs d = .ok d' → (∀ g ∈ gs, ScrubbedTo name (d.lookup g) (d'.lookup g)) ∧ ∀ g ∉ gs, d'.lookup g = d.lookup g
  | [], _, d, d', h => by cases h; simp
  | g :: gs, hn, d, d', h => by
    unfold scrubGeoms at h
    rw [List.nodup_cons] at hn
    split at h
    · cases h
    · rename_i d1 h1
      obtain ⟨a1, a2, -⟩ := scrubGeom_to h1
      obtain ⟨b1, b2⟩ := scrubGeoms_to hn.2 h
      refine ⟨?_, ?_⟩
      · intro k hk
        rcases List.mem_cons.1 hk with rfl | hk'
        · rw [b2 k hn.1]; exact a1
        · have := b1 k hk'
          rwa [a2 k (by rintro rfl; exact hn.1 hk')] at this
      · intro k hk
        rw [List.mem_cons, not_or] at hk
        rw [b2 k hk.2, a2 k hk.1]

theorem scrubbed_has {name g : String} {d d' : List (String × Yaml α)} (h : ScrubbedTo name (d.lookup g) (d'.lookup g)) :
    has d' g = has d g := by
  unfold has
  generalize d.lookup g = a at h
  generalize d'.lookup g = b at h
  cases h <;> rfl

theorem shape_dset {F : Files α} {kind : String} {gd : List (String × Yaml α)} {w : Yaml α} :
    parseShape F kind (dset gd "material" w) = parseShape F kind gd := by
  unfold parseShape dget
  rw [lookup_dset_ne gd (by decide : "size" ≠ "material"), lookup_dset_ne gd (by decide : "length" ≠ "material"),
    lookup_dset_ne gd (by decide : "radius" ≠ "material"), lookup_dset_ne gd (by decide : "file" ≠ "material")]

theorem geometry_without {F : Files α} {comps : List (String × CompDef α)} {name kind : String} (hc : ∀ e ∈ comps, e.2.name = e.1)
    {v w : Yaml α} {c : Content α} (hs : ScrubbedTo name (some v) (some w)) (h : parseGeometry F comps kind v = .ok c) :
    parseGeometry F (comps.filter fun e => e.1 ≠ name) kind w = .ok (c.without name) := by
  cases hs with
  | plain gd hm =>
    unfold parseGeometry at h
    simp only [Yaml.dict, dget, hm] at h
    split at h <;> cases h
  | material gd md md' hm hs =>
    unfold parseGeometry at h ⊢
    simp only [Yaml.dict, dget, hm] at h
    simp only [Yaml.dict, dget, lookup_dset_self, shape_dset]
    split at h
    · cases h
    · rename_i sh hsh
      split at h
      · cases h
      · rename_i m hpm
        cases h
        rw [material_without hc hpm hs]
        rfl

theorem content_without {F : Files α} {comps : List (String × CompDef α)} {name k : String} (hc : ∀ e ∈ comps, e.2.name = e.1)
    {d d' : List (String × Yaml α)} {c : Content α} (hs : scrubGeoms name geomKeys d = .ok d') (h : parseContent F comps k d = .ok c) :
    parseContent F (comps.filter fun e => e.1 ≠ name) k d' = .ok (c.without name) := by
  obtain ⟨s1, s2⟩ := scrubGeoms_to (by decide) hs
  have hhas : ∀ g ∈ geomKeys, has d' g = has d g := fun g hg => scrubbed_has (s1 g hg)
  have hfind : ["box", "cylinder", "sphere", "mesh"].find? (has d') = ["box", "cylinder", "sphere", "mesh"].find? (has d) := by
    simp only [List.find?_cons, hhas "box" (by decide), hhas "cylinder" (by decide), hhas "sphere" (by decide), hhas "mesh" (by decide), List.find?_nil]
  unfold parseContent at h ⊢
  rw [hfind]
  cases h1 : ["box", "cylinder", "sphere", "mesh"].find? (has d) with
  | none =>
    rw [h1] at h
    dsimp only at h ⊢
    rw [s2 "light" (by decide)]
    split at h
    · split at h
      · cases h
      · cases h
        rfl
    · cases h
  | some kind =>
    rw [h1] at h
    dsimp only at h ⊢
    have hk : kind ∈ geomKeys := by
      have := List.mem_of_find?_eq_some h1
      simp only [List.mem_cons, List.not_mem_nil, or_false] at this
      rcases this with rfl | rfl | rfl | rfl <;> decide
    have hto := s1 kind hk
    unfold dget at h ⊢
    cases h2 : d.lookup kind with
    | none => rw [h2] at h; cases h
    | some v =>
      rw [h2] at h hto
      cases h3 : d'.lookup kind with
      | none => rw [h3] at hto; cases hto
      | some w =>
        rw [h3] at hto
        exact geometry_without hc hto h

theorem parseNodes_without {F : Files α} {comps : List (String × CompDef α)} {name : String} (hc : ∀ e ∈ comps, e.2.name = e.1) :
    ∀ {ns ns' : List (String × Yaml α)} {ps : List (String × List (String × Yaml α) × Content α)},
    scrubNodes name ns = .ok ns' → parseNodes F comps ns = .ok ps →
    ∃ ps', parseNodes F (comps.filter fun e => e.1 ≠ name) ns' = .ok ps' ∧
      List.Forall₂ (fun e e' => e'.1 = e.1 ∧ (∀ g ∉ geomKeys, e'.2.1.lookup g = e.2.1.lookup g) ∧ e'.2.2 = e.2.2.without name) ps ps'
  | [], ns', ps, hs, h => by
    cases hs
    cases h
    exact ⟨[], rfl, .nil⟩
  | (k, v) :: ns, ns', ps, hs, h => by
    unfold parseNodes at h
    unfold scrubNodes at hs
    cases hv : v.dict with
    | error e => rw [hv] at h; cases h
    | ok d =>
      rw [hv] at h hs
      dsimp only at h hs
      split at hs
      · cases hs
      rename_i d' hd'
      split at hs
      · cases hs
      rename_i ns'' hns
      cases hs
      split at h
      · cases h
      rename_i c hcont
      split at h
      · cases h
      rename_i qs hqs
      cases h
      obtain ⟨ps', i1, i2⟩ := parseNodes_without hc hns hqs
      refine ⟨(k, d', c.without name) :: ps', ?_, .cons ⟨rfl, (scrubGeoms_to (by decide) hd').2, rfl⟩ i2⟩
      unfold parseNodes
      simp only [Yaml.dict]
      rw [content_without hc hd' hcont]
      dsimp only
      rw [i1]

theorem scrubNodes_names {name : String} : ∀ {ns ns' : List (String × Yaml α)}, scrubNodes name ns = .ok ns' →
    ns'.map (·.1) = ns.map (·.1)
  | [], ns', h => by cases h; rfl
  | (k, v) :: ns, ns', h => by
    unfold scrubNodes at h
    repeat' split at h
    all_goals first | (cases h; done) | skip
    rename_i hr
    cases h
    simp [scrubNodes_names hr]

theorem placeNodes_without {names : List String} {name : String} :
    ∀ {ps ps' : List (String × List (String × Yaml α) × Content α)} {parents : List (String × String)} {ns : List (NodeDef α)},
      List.Forall₂ (fun e e' => e'.1 = e.1 ∧ (∀ g ∉ geomKeys, e'.2.1.lookup g = e.2.1.lookup g) ∧ e'.2.2 = e.2.2.without name) ps ps' →
      placeNodes names parents ps = .ok ns → placeNodes names parents ps' = .ok (ns.map fun n => n.without name)
  | [], _, parents, ns, hp, h => by cases hp; cases h; rfl
  | (k, d, c) :: ps, _, parents, ns, hp, h => by
    cases hp with
    | @cons _ e' _ ps' hh ht =>
      obtain ⟨k', d', c'⟩ := e'
      obtain ⟨hk, hd, hc⟩ := hh
      dsimp only at hk hd hc
      subst hk hc
      obtain ⟨p, parents', loc, dir, ns', h1, h2, h3, h4, h5, rfl⟩ := placeNodes_cons h
      have ih := placeNodes_without ht h5
      have e1 : Doc.parentOf names k' d' = .ok p := by
        unfold Doc.parentOf at h1 ⊢
        rw [hd "parent" (by decide)]
        exact h1
      have e3 : optTriple d' "location" = .ok loc := by
        unfold optTriple at h3 ⊢
        rw [hd "location" (by decide)]
        exact h3
      have e4 : optTriple d' "direction" = .ok dir := by
        unfold optTriple at h4 ⊢
        rw [hd "direction" (by decide)]
        exact h4
      unfold placeNodes
      rw [e1]
      dsimp only
      rw [h2]
      dsimp only
      rw [e3]
      dsimp only
      rw [e4]
      dsimp only
      rw [ih]
      rfl

/-! ### Automatic recorders -/

theorem auto_scrubbed {name k : String} {d d' : List (String × Yaml α)} (hs : scrubGeoms name geomKeys d = .ok d') :
    autoRecorders k d' = autoRecorders k d := by
  have hto := (scrubGeoms_to (by decide) hs).1 "box" (by decide)
  unfold autoRecorders
  generalize d.lookup "box" = a at hto
  generalize d'.lookup "box" = b at hto
  cases hto with
  | none => rfl
  | plain => rfl
  | material gd md md' hm hs =>
    dsimp only
    have : getIn (.map (dset gd "material" (.map md'))) "size" = getIn (.map gd) "size" := by
      simp only [getIn, Yaml.dict]
      rw [lookup_dset_ne gd (by decide)]
    rw [this]

theorem withAuto_scrubbed {name : String} : ∀ {ns ns' D recs : List (String × Yaml α)}, scrubNodes name ns = .ok ns' →
    withAuto D ns = .ok recs → withAuto D ns' = .ok recs
  | [], ns', D, recs, hs, h => by cases hs; exact h
  | (k, v) :: ns, ns', D, recs, hs, h => by
    unfold scrubNodes at hs
    unfold withAuto at h
    cases hv : v.dict with
    | error e => rw [hv] at h; cases h
    | ok d =>
      rw [hv] at h hs
      dsimp only at h hs
      split at hs
      · cases hs
      rename_i d' hd'
      split at hs
      · cases hs
      rename_i ns'' hns
      cases hs
      unfold withAuto
      simp only [Yaml.dict]
      rw [(scrubGeoms_to (by decide) hd').2 "record" (by decide), auto_scrubbed hd']
      by_cases ht : truth ((d.lookup "record").getD .null) = true
      · rw [if_pos ht] at h ⊢
        split at h
        · cases h
        exact withAuto_scrubbed hns h
      · rw [if_neg ht] at h ⊢
        exact withAuto_scrubbed hns h

/-! ### The schema -/

theorem object_dset {props : List (String × Schema.Check α)} {req : List String} {closed : Bool} {d : List (String × Yaml α)}
    {k : String} {p : Schema.Check α} {w : Yaml α} (hk : props.lookup k = some p) (hw : p w = true)
    (h : Schema.object props req closed (.map d) = true) : Schema.object props req closed (.map (dset d k w)) = true := by
  unfold Schema.object at h ⊢
  rw [Bool.and_eq_true] at h ⊢
  refine ⟨?_, all_dset h.2 (by dsimp only; rw [hk]; exact hw)⟩
  rw [List.all_eq_true] at h ⊢
  exact fun j hj => has_dset (h.1 j hj)

theorem object_entry {props : List (String × Schema.Check α)} {req : List String} {closed : Bool} {d : List (String × Yaml α)}
    {k : String} {p : Schema.Check α} {w : Yaml α} (hk : props.lookup k = some p)
    (h : Schema.object props req closed (.map d) = true) (hd : d.lookup k = some w) : p w = true := by
  unfold Schema.object at h
  rw [Bool.and_eq_true] at h
  have := lookup_all h.2 hd
  dsimp only at this
  rwa [hk] at this

theorem material_scrubbed {name : String} {md md' : List (String × Yaml α)} (h : Schema.material (.map md) = true)
    (hs : scrubMaterial name md = .ok md') : Schema.material (.map md') = true := by
  unfold scrubMaterial at hs
  split at hs
  · cases hs; exact h
  · rename_i v hv
    split at hs
    · split at hs
      · cases hs
      · rename_i l hl
        split at hs
        · cases hs
          unfold Schema.material at h ⊢
          refine object_dset rfl ?_ h
          have := object_entry rfl h hv
          cases v with
          | seq l' =>
            cases hl
            simp only [Schema.array, Bool.and_true, Bool.and_eq_true, List.all_eq_true] at this ⊢
            exact ⟨fun x hx => this.1 x (List.mem_filter.1 hx).1, by simp⟩
          | _ => cases hl
        · cases hs; exact h
    · cases hs; exact h

theorem node_scrubbed {name g : String} (hg : g ∈ geomKeys) {d d' : List (String × Yaml α)} (h : Schema.node (.map d) = true)
    (hs : scrubGeom name g d = .ok d') : Schema.node (.map d') = true := by
  obtain ⟨s1, s2, s3⟩ := scrubGeom_to hs
  rcases s3 with rfl | ⟨w, hw, rfl⟩
  · exact h
  rw [hw] at s1
  have hhas : ∀ j, has (dset d g w) j = has d j := by
    intro j
    by_cases hj : j = g
    · subst hj
      refine scrubbed_has (name := name) ?_
      rw [hw]; exact s1
    · unfold has
      rw [s2 j hj]
  unfold Schema.node Schema.both at h ⊢
  rw [Bool.and_eq_true] at h ⊢
  refine ⟨?_, ?_⟩
  · -- the object
    cases hd : d.lookup g with
    | none => rw [hd] at s1; cases s1
    | some v =>
      rw [hd] at s1
      have key : ∀ (shape : List (String × Schema.Check α)) (req : List String), shape.lookup "material" = some Schema.material →
          Schema.object shape req false v = true → Schema.object shape req false w = true := by
        intro shape req hm hv
        cases s1 with
        | plain gd _ => exact hv
        | material gd md md' hmat hscrub =>
          exact object_dset hm (material_scrubbed (object_entry hm hv hmat) hscrub) hv
      simp only [geomKeys, List.mem_cons, List.not_mem_nil, or_false] at hg
      rcases hg with rfl | rfl | rfl | rfl
      all_goals exact object_dset rfl (key _ _ rfl (object_entry rfl h.1 hd)) h.1
  · have := h.2
    have e : ∀ ks, Schema.required ks (.map (dset d g w)) = Schema.required ks (.map d) := by
      intro ks
      unfold Schema.required
      exact congrArg (fun f : String → Bool => ks.all f) (funext hhas)
    unfold Schema.oneOf at this ⊢
    rw [show List.filter (fun c : Schema.Check α => c (.map (dset d g w))) _ = _ from List.filter_congr (q := fun c => c (.map d)) ?_]
    · exact this
    · intro c hc
      simp only [List.mem_cons, List.not_mem_nil, or_false] at hc
      rcases hc with rfl | rfl | rfl | rfl | rfl <;> exact e _

theorem node_scrubbed_all {name : String} : ∀ {gs : List String} (_ : ∀ g ∈ gs, g ∈ geomKeys) {d d' : List (String × Yaml α)},
    Schema.node (.map d) = true → scrubGeoms name gs d = .ok d' → Schema.node (.map d') = true
  | [], _, d, d', h, hs => by cases hs; exact h
  | g :: gs, hg, d, d', h, hs => by
    unfold scrubGeoms at hs
    split at hs
    · cases hs
    · rename_i d1 h1
      exact node_scrubbed_all (fun x hx => hg x (List.mem_cons_of_mem _ hx)) (node_scrubbed (hg g (List.mem_cons_self ..)) h h1) hs

theorem nodes_scrubbed {name : String} {ns ns' : List (String × Yaml α)} (h : Schema.named Schema.node ["world"] (.map ns) = true)
    (hs : scrubNodes name ns = .ok ns') : Schema.named Schema.node ["world"] (.map ns') = true := by
  have hnames := scrubNodes_names hs
  have hall : ∀ {ns ns' : List (String × Yaml α)}, scrubNodes name ns = .ok ns' → ∀ e' ∈ ns', ∃ e ∈ ns, e'.1 = e.1 ∧
      (Schema.node e.2 = true → Schema.node e'.2 = true) := by
    intro ns
    induction ns with
    | nil => intro ns' h; cases h; simp
    | cons e ns ih =>
      intro ns' h
      unfold scrubNodes at h
      split at h
      · cases h
      rename_i d hd
      split at h
      · cases h
      rename_i d' hd'
      split at h
      · cases h
      rename_i ns'' hns
      cases h
      intro e' he'
      rcases List.mem_cons.1 he' with rfl | he'
      · refine ⟨e, List.mem_cons_self .., rfl, ?_⟩
        intro hv
        have := dict_map hd
        rw [this] at hv
        exact node_scrubbed_all (fun _ h => h) hv hd'
      · obtain ⟨x, hx, h1, h2⟩ := ih hns e' he'
        exact ⟨x, List.mem_cons_of_mem _ hx, h1, h2⟩
  unfold Schema.named at h ⊢
  simp only [Bool.and_eq_true, List.all_eq_true] at h ⊢
  refine ⟨?_, ?_⟩
  · intro k hk
    have := h.1 k hk
    unfold has at this ⊢
    cases hl : ns'.lookup k with
    | some _ => rfl
    | none =>
      have h1 := lookup_none.1 hl
      rw [hnames] at h1
      rw [lookup_none.2 h1] at this
      cases this
  · intro e' he'
    obtain ⟨e, he, h1, h2⟩ := hall hs e' he'
    have := h.2 e he
    rw [h1]
    exact ⟨this.1, h2 this.2⟩

/-! ### The button -/
variable {Text Scene : Type}

/-- **C122**. Deleting a component leaves a document that loads. Every material has lost the component, and nothing else has changed. -/
theorem component_removed {F : Files α} (B : Backend α Text Scene) (sc : Option Scene) {data data' : List (String × Yaml α)}
    {s : SceneDef α} (hs : parseFile F (.map data) = .ok s) {name : String} (h : edit B sc data (.deleteComponent name) = .ok data') :
    parseFile F (.map data') = .ok ⟨s.nodes.map fun n => n.without name, s.recorders⟩ := by
  obtain ⟨doc, hdoc, hvalid, hversion, hscene⟩ := parseFile_stages hs
  cases hdoc
  obtain ⟨cs, comps, ns, parsed, h1, h2, h3, h4, h5, h6, h7⟩ := parseScene_stages hscene
  obtain ⟨declared, recs, g1, g2, g3⟩ := recorders_stages h3 h6
  simp only [edit] at h
  split at h
  · cases h
  rename_i cs' hcs
  have hlook := section_ok hcs
  have : cs' = cs := by
    unfold optDict at h1
    rw [hlook] at h1
    cases h1
    rfl
  subst this
  split at h
  · cases h
  have hsec : sectionD data "nodes" = .ok ns := by simp [sectionD, h3, Yaml.dict]
  rw [hsec] at h
  dsimp only at h
  split at h
  · cases h
  rename_i ns' hns
  rw [if_pos (by unfold has; rw [lookup_dset_ne data (by decide), h3]; rfl)] at h
  cases h
  have hnames := scrubNodes_names hns
  have hall := hvalid
  unfold Schema.document Schema.object at hall
  simp only [List.all_nil, Bool.true_and] at hall
  have hnodes : Schema.named Schema.node ["world"] (.map ns) = true := by
    have := lookup_all hall h3
    simpa [List.lookup] using this
  have hcomps : Schema.named Schema.component [] (.map cs') = true ∧ has cs' "builtin" = false := by
    have := lookup_all hall hlook
    simpa [List.lookup, Schema.both] using this
  have hv1 : Schema.document (.map (dset data "components" (.map (ddel cs' name)))) = true := by
    refine document_dset hvalid (.inr (.inr ⟨rfl, named_filter hcomps.1 (by simp), ?_⟩))
    intro d hd
    cases hd
    unfold has
    by_cases hb : "builtin" = name
    · rw [← hb, lookup_ddel_self]; rfl
    · rw [lookup_ddel_ne _ hb]; exact hcomps.2
  have hv2 := document_dset hv1 (k := "nodes") (v := .map ns') (.inl ⟨rfl, nodes_scrubbed hnodes hns⟩)
  obtain ⟨ps', e1, e2⟩ := parseNodes_without (components_named h2) hns h4
  rw [parseFile_ok hv2 (by rw [lookup_dset_ne _ (by decide), lookup_dset_ne data (by decide)]; exact hversion)]
  refine parseScene_ok (cs := ddel cs' name) (parseComponents_filter (fun k => decide (k ≠ name)) h2 |> fun _ => ?_)
    (parseComponents_filter (fun k => decide (k ≠ name)) h2) (lookup_dset_self ..) e1 ?_ ?_ (by rw [hnames]; exact h7)
  · unfold optDict
    rw [lookup_dset_ne _ (by decide), lookup_dset_self]
    rfl
  · rw [hnames]
    exact placeNodes_without e2 h5
  · refine recorders_ok (lookup_dset_self ..) (declared := declared) ?_ (withAuto_scrubbed hns g2) (by rw [hnames]; exact g3)
    rw [lookup_dset_ne _ (by decide), lookup_dset_ne data (by decide)]
    exact g1

/-! ### A document -/

theorem good_nodes : ∀ s, parseFile disk good = .ok s → s.nodes.map (fun n => (n.name, n.parent)) =
    [("world", none), ("slab", some "world"), ("lamp", some "slab")] ∧ s.recorders = [] := by
  intro s h
  have : (match parseFile disk good with | .ok s => (s.nodes.map (fun n => (n.name, n.parent)), s.recorders) | .error _ => ([], [])) =
      ([("world", none), ("slab", some "world"), ("lamp", some "slab")], []) := by decide +kernel
  rw [h] at this
  exact Prod.mk.inj this

/-- The buttons work on the scene file of the examples. -/
theorem delete_buttons (B : Backend ℚ Text Scene) (sc : Option Scene) :
    (∀ name ∈ ["world", "slab", "lamp"], ∃ data', edit B sc goodData (.deleteNode name) = .ok data') ∧
    ∃ data', edit B sc goodData (.deleteComponent "dye") = .ok data' := by
  refine ⟨?_, ?_⟩
  · intro name hn
    have h : section? goodData "nodes" = .ok (entries "nodes" good) := rfl
    simp only [List.mem_cons, List.not_mem_nil, or_false] at hn
    simp only [edit, h]
    rw [if_neg (by rcases hn with rfl | rfl | rfl <;> decide +kernel)]
    exact ⟨_, rfl⟩
  · exact ⟨_, rfl⟩

/-- The lamp can be deleted. -/
example (B : Backend ℚ Text Scene) (sc : Option Scene) : ∃ data' s, parseFile disk (.map data') = .ok s ∧
    s.nodes.map (·.name) = ["world", "slab"] := by
  obtain ⟨s, hs⟩ := good_loads
  obtain ⟨hn, hr⟩ := good_nodes s hs
  obtain ⟨data', h⟩ := (delete_buttons B sc).1 "lamp" (by simp)
  have := node_removed_partial B sc hs (by decide) (fun n hm hp => by
    have : (n.name, n.parent) ∈ s.nodes.map (fun n => (n.name, n.parent)) := List.mem_map.2 ⟨n, hm, rfl⟩
    rw [hn, hp] at this
    simp at this) (fun r hm => by rw [hr] at hm; cases hm) h
  refine ⟨data', _, this, ?_⟩
  have e := congrArg (fun l => (l.map (·.1)).filter (· ≠ "lamp")) hn
  simp only [List.map_map, List.filter_map] at e
  simpa [Function.comp_def] using e

/-- The slab holds the lamp: deleting it leaves a document that cannot be loaded, and so does deleting the world. The studio then keeps
the old document (C51). -/
theorem deletion_refused (B : Backend ℚ Text Scene) (sc : Option Scene) : ∃ s, parseFile disk (.map goodData) = .ok s ∧
    (∃ data', edit B sc goodData (.deleteNode "slab") = .ok data' ∧ parseFile disk (.map data') = .error .key) ∧
    ∃ data', edit B sc goodData (.deleteNode "world") = .ok data' ∧ parseFile disk (.map data') = .error .invalid := by
  obtain ⟨s, hs⟩ := good_loads
  obtain ⟨hn, -⟩ := good_nodes s hs
  obtain ⟨d1, h1⟩ := (delete_buttons B sc).1 "slab" (by simp)
  obtain ⟨d2, h2⟩ := (delete_buttons B sc).1 "world" (by simp)
  refine ⟨s, hs, ⟨d1, h1, parent_removed B sc hs (by decide) ?_ h1⟩, d2, h2, world_removed B sc hs h2⟩
  have : ("lamp", some "slab") ∈ s.nodes.map (fun n => (n.name, n.parent)) := by rw [hn]; simp
  obtain ⟨n, hm, e⟩ := List.mem_map.1 this
  obtain ⟨e1, e2⟩ := Prod.mk.inj e
  exact ⟨n, hm, by rw [e1]; decide, e2⟩

/-- The names of the components in the materials of a scene. -/
def compNames (s : SceneDef ℚ) : List (List String) := s.nodes.map fun n => match n.content with
  | .geometry _ m => m.comps.map (·.name)
  | .light _ => []

/-- The dye can be deleted; the slab keeps the background. -/
example (B : Backend ℚ Text Scene) (sc : Option Scene) : ∃ data' s s', parseFile disk (.map goodData) = .ok s ∧
    parseFile disk (.map data') = .ok s' ∧ compNames s = [[], ["dye", "background"], []] ∧ compNames s' = [[], ["background"], []] := by
  obtain ⟨s, hs⟩ := good_loads
  obtain ⟨data', h⟩ := (delete_buttons B sc).2
  have e : compNames s = [[], ["dye", "background"], []] := by
    have : (match parseFile disk good with | .ok s => compNames s | .error _ => []) = [[], ["dye", "background"], []] := by decide +kernel
    rw [hs] at this
    exact this
  refine ⟨data', s, _, hs, component_removed B sc hs h, e, ?_⟩
  have key : ∀ l : List (NodeDef ℚ), compNames ⟨l.map fun n => n.without "dye", s.recorders⟩ =
      (compNames ⟨l, s.recorders⟩).map fun l => l.filter (· ≠ "dye") := by
    intro l
    simp only [compNames, List.map_map]
    refine List.map_congr_left fun n _ => ?_
    obtain ⟨nm, c, p, loc, dir⟩ := n
    cases c with
    | light l => rfl
    | geometry g m =>
      simp only [NodeDef.without, Content.without, MatDef.without, Function.comp, List.filter_map]
      rfl
  rw [key]
  have e' : compNames ⟨s.nodes, s.recorders⟩ = [[], ["dye", "background"], []] := e
  rw [e']
  rfl

/-- A box that is recorded, and a ball on which a declared recorder has taken the name of one of the box's automatic recorders. -/
def hidden : List (String × Yaml ℚ) := [("version", .str "1.0"),
  ("nodes", .map [worldEntry,
    ("rod", .map [("record", .bool true), ("cylinder", .map [("length", .num 1), ("radius", .num 1),
      ("material", .map [("refractive-index", .num (3/2))])])]),
    ("ball", .map [("sphere", .map [("radius", .num 1), ("material", .map [("refractive-index", .num (3/2))])])])]),
  ("recorders", .map [("rod-lost", .map [("node", .str "ball"), ("event", .str "lost")]),
    ("inside", .map [("node", .str "ball"), ("event", .str "entering")])])]

/-- The recorders of a document, by node and name. -/
def recorded (d : List (String × Yaml ℚ)) : Option (List (String × String)) :=
  match parseFile disk (.map d) with
  | .ok s => some (s.recorders.map fun r => (r.1, r.2.name))
  | .error _ => none

/-- **C122, violated**. Deleting the ball, or only the recorder on it, adds a recorder to the rod. -/
theorem hidden_appears (B : Backend ℚ Text Scene) (sc : Option Scene) :
    recorded hidden = some [("ball", "rod-lost"), ("ball", "inside"), ("rod", "rod-escaping")] ∧
    (∃ data', edit B sc hidden (.deleteNode "ball") = .ok data' ∧ recorded data' = some [("rod", "rod-lost"), ("rod", "rod-escaping")]) ∧
    ∃ data', edit B sc hidden (.deleteRecorder "rod-lost") = .ok data' ∧
      recorded data' = some [("ball", "inside"), ("rod", "rod-lost"), ("rod", "rod-escaping")] := by
  refine ⟨by decide +kernel, ⟨_, rfl, by decide +kernel⟩, ⟨_, rfl, by decide +kernel⟩⟩

/-- A recorder nothing hides behind can be deleted. -/
example (B : Backend ℚ Text Scene) (sc : Option Scene) : ∃ data' s s', parseFile disk (.map hidden) = .ok s ∧
    edit B sc hidden (.deleteRecorder "inside") = .ok data' ∧ parseFile disk (.map data') = .ok s' ∧ s'.recorders.length = 2 := by
  obtain ⟨s, hs⟩ : ∃ s, parseFile disk (.map hidden) = .ok s := loads_of (by decide +kernel)
  have h : ∃ data', edit B sc hidden (.deleteRecorder "inside") = .ok data' := ⟨_, rfl⟩
  obtain ⟨data', h⟩ := h
  have e : s.nodes.map (·.name) = ["world", "rod", "ball"] ∧ s.recorders.map (·.2.name) = ["rod-lost", "inside", "rod-escaping"] := by
    have : (match parseFile disk (.map hidden) with | .ok s => (s.nodes.map (·.name), s.recorders.map (·.2.name)) | .error _ => ([], [])) =
      (["world", "rod", "ball"], ["rod-lost", "inside", "rod-escaping"]) := by decide +kernel
    rw [hs] at this
    exact Prod.mk.inj this
  refine ⟨data', s, _, hs, h, recorder_removed_partial B sc hs ?_ h, ?_⟩
  · intro n hn
    have : n.name ∈ s.nodes.map (·.name) := List.mem_map.2 ⟨n, hn, rfl⟩
    rw [e.1] at this
    simp only [List.mem_cons, List.not_mem_nil, or_false] at this
    rcases this with h | h | h <;> rw [h] <;> decide +kernel
  · have := congrArg (fun l => (l.filter (· ≠ "inside")).length) e.2
    simp only [List.filter_map, List.length_map] at this
    exact this

end PV.StudioDelete
