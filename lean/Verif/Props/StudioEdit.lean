import Verif.Props.Studio

/-!
C77: an edit in the studio has exactly the effect asked for, and an edit of something that does not
exist is refused.
-/

namespace PV.Studio
open PV PV.Doc
variable {α : Type} [Field α] [LinearOrder α] [FloorRing α] {Text Scene : Type}

/-- The value at a path of keys. -/
def at? : List String → Yaml α → Option (Yaml α)
  | [], v => some v
  | k :: rest, .map d =>
    match d.lookup k with
    | none => none
    | some v => at? rest v
  | _ :: _, _ => none

/-- Neither path leads through the other. -/
def Apart (p q : List String) : Prop := ¬ p <+: q ∧ ¬ q <+: p

/-- Of two documents, the second has `v` at `path` and is otherwise as the first. -/
def Replaced (data data' : List (String × Yaml α)) (path : List String) (v : Yaml α) : Prop :=
  at? path (.map data') = some v ∧
  ∀ q, Apart path q → at? q (.map data') = at? q (.map data)

theorem apart_cons {k : String} {p q : List String} : Apart (k :: p) (k :: q) ↔ Apart p q := by
  simp [Apart, List.cons_prefix_cons]

theorem at_cons (k : String) (q : List String) (d : List (String × Yaml α)) :
    at? (k :: q) (.map d) = (d.lookup k).bind (at? q) := by
  rw [at?]
  cases d.lookup k <;> rfl

theorem at_dset_self (d : List (String × Yaml α)) (k : String) (v : Yaml α) (q : List String) :
    at? (k :: q) (.map (dset d k v)) = at? q v := by
  rw [at_cons, lookup_dset_self, Option.bind_some]

theorem at_dset_ne (d : List (String × Yaml α)) {k j : String} (hj : j ≠ k) (v : Yaml α)
    (q : List String) : at? (j :: q) (.map (dset d k v)) = at? (j :: q) (.map d) := by
  rw [at_cons, at_cons, lookup_dset_ne d hj]

/-- Replacing in an entry that is, or would be made, a dictionary. -/
theorem replaced_cons {d inner inner' : List (String × Yaml α)} {k : String} {p : List String}
    {v : Yaml α} (hp : p ≠ []) (hd : d.lookup k = some (.map inner) ∨ (d.lookup k = none ∧ inner = []))
    (h : Replaced inner inner' p v) : Replaced d (dset d k (.map inner')) (k :: p) v := by
  refine ⟨by rw [at_dset_self]; exact h.1, ?_⟩
  intro q hq
  cases q with
  | nil => exact absurd (List.nil_prefix) hq.2
  | cons j q =>
    by_cases hj : j = k
    · subst hj
      rw [apart_cons] at hq
      rw [at_dset_self, at_cons, h.2 q hq]
      rcases hd with hd | ⟨hd, rfl⟩
      · rw [hd, Option.bind_some]
      · rw [hd, Option.bind_none]
        cases q with
        | nil => exact absurd (List.nil_prefix) hq.2
        | cons => rw [at_cons]; rfl
    · exact at_dset_ne d hj _ q

theorem replaced_one (d : List (String × Yaml α)) (k : String) (v : Yaml α) :
    Replaced d (dset d k v) [k] v := by
  refine ⟨by rw [at_dset_self]; rfl, ?_⟩
  intro q hq
  cases q with
  | nil => exact absurd (List.nil_prefix) hq.2
  | cons j q =>
    by_cases hj : j = k
    · subst hj
      exact absurd (List.cons_prefix_cons.2 ⟨rfl, List.nil_prefix⟩) hq.1
    · exact at_dset_ne d hj _ q

theorem setPath_replaced {value : Yaml α} : ∀ {path : List String} {v v' : Yaml α},
    setPath value path v = .ok v' →
    ∃ d d', v = .map d ∧ v' = .map d' ∧ Replaced d d' path value
  | [], v, v', h => by simp [setPath] at h
  | [k], v, v', h => by
    cases v with
    | map d =>
      simp only [setPath, Except.ok.injEq] at h
      exact ⟨d, _, rfl, h.symm, replaced_one d k value⟩
    | _ => simp [setPath] at h
  | k :: j :: rest, v, v', h => by
    cases v with
    | map d =>
      rw [setPath] at h
      · split at h
        · cases h
        · rename_i c hc
          obtain ⟨e, e', he, rfl, hr⟩ := setPath_replaced hc
          simp only [Except.ok.injEq] at h
          refine ⟨d, _, rfl, h.symm, replaced_cons (by simp) ?_ hr⟩
          cases hl : d.lookup k with
          | none =>
            rw [hl] at he
            exact .inr ⟨rfl, by simpa using he.symm⟩
          | some w =>
            rw [hl] at he
            exact .inl (by simpa using he)
      · simp
    | _ => simp [setPath] at h

/-- **C77**. `set` puts the value at the path named and changes nothing anywhere else. -/
theorem set_exact (B : Backend α Text Scene) (sc : Option Scene) {data data' : List (String × Yaml α)}
    {path : List String} {value : Yaml α} (h : edit B sc data (.set path value) = .ok data') :
    Replaced data data' path value := by
  unfold edit at h
  dsimp only at h
  split at h
  · cases h
  · rename_i v hv
    obtain ⟨d, d', hd, rfl, hr⟩ := setPath_replaced hv
    cases hd
    cases h
    exact hr

/-- **C77**. Moving a node writes its local position to its `location` and changes nothing else. -/
theorem move_exact (B : Backend α Text Scene) (sc : Option Scene) {data data' : List (String × Yaml α)}
    {node : String} {world : Vec3 α} (h : edit B sc data (.move node world) = .ok data') :
    ∃ scene loc, sc = some scene ∧ B.localOf scene node world = .ok loc ∧
      Replaced data data' ["nodes", node, "location"] (nums loc) ∧
      at? ["nodes", node] (.map data) ≠ none := by
  unfold edit at h
  dsimp only at h
  split at h
  · cases h
  · rename_i scene
    split at h
    · cases h
    · rename_i loc hl
      split at h
      · cases h
      · rename_i nodes hn
        split at h
        · cases h
        · rename_i spec hs
          split at h
          · cases h
          · rename_i d hd
            cases h
            have hs' : nodes.lookup node = some (.map d) := by
              unfold dget at hs
              split at hs
              · rename_i w hw
                cases hs
                rw [hw, dict_map hd]
              · cases hs
            refine ⟨scene, loc, rfl, hl, replaced_cons (by simp) (.inl (section_ok hn))
              (replaced_cons (by simp) (.inl hs') (replaced_one d "location" _)), ?_⟩
            rw [at_cons, section_ok hn, Option.bind_some, at_cons, hs', Option.bind_some]
            simp [at?]

/-- **C77**. What an accepted edit of something named requires: that it is there. -/
theorem unknown_refused (B : Backend α Text Scene) (sc : Option Scene)
    {data data' : List (String × Yaml α)} :
    (∀ name, edit B sc data (.deleteNode name) = .ok data' → at? ["nodes", name] (.map data) ≠ none) ∧
    (∀ name, edit B sc data (.deleteRecorder name) = .ok data' →
      at? ["recorders", name] (.map data) ≠ none) ∧
    (∀ name, edit B sc data (.deleteComponent name) = .ok data' →
      at? ["components", name] (.map data) ≠ none) ∧
    (∀ node, edit B sc data (.addRecorder node) = .ok data' → at? ["nodes", node] (.map data) ≠ none) ∧
    (∀ node, edit B sc data (.addFaceRecorders node) = .ok data' →
      at? ["nodes", node, "box", "size"] (.map data) ≠ none) ∧
    (∀ name changes, edit B sc data (.updateRecorder name changes) = .ok data' →
      (at? ["recorders", name] (.map data) ≠ none ∨
        ∃ scene, sc = some scene ∧ ∃ r ∈ B.recorders scene, r.2.name = name) ∧
      ∀ c ∈ changes, c.1 = "event" ∨ c.1 = "facet" ∨ c.1 = "atol") := by
  have key : ∀ {d : List (String × Yaml α)} {s n : String}, data.lookup s = some (.map d) →
      has d n = true → at? [s, n] (.map data) ≠ none := by
    intro d s n hd hn
    rw [at_cons, hd, Option.bind_some, at_cons]
    unfold has at hn
    cases hl : d.lookup n with
    | none => rw [hl] at hn; simp at hn
    | some v => simp [at?]
  have keyD : ∀ {d : List (String × Yaml α)} {s n : String}, sectionD data s = .ok d →
      has d n = true → at? [s, n] (.map data) ≠ none := by
    intro d s n hd hn
    rcases sectionD_ok hd with hd | ⟨_, rfl⟩
    · exact key hd hn
    · simp [has] at hn
  refine ⟨?_, ?_, ?_, ?_, ?_, ?_⟩
  · intro name h
    unfold edit at h
    dsimp only at h
    split at h
    · cases h
    · rename_i nodes hn
      by_cases hh : has nodes name = true
      · exact key (section_ok hn) hh
      · rw [if_pos hh] at h; cases h
  · intro name h
    unfold edit at h
    dsimp only at h
    split at h
    · cases h
    · rename_i recs hr
      by_cases hh : has recs name = true
      · exact keyD hr hh
      · rw [if_neg hh] at h; cases h
  · intro name h
    unfold edit at h
    dsimp only at h
    split at h
    · cases h
    · rename_i comps hn
      by_cases hh : has comps name = true
      · exact key (section_ok hn) hh
      · rw [if_pos hh] at h; cases h
  · intro node h
    unfold edit at h
    dsimp only at h
    split at h
    · cases h
    · rename_i nodes hn
      by_cases hh : has nodes node = true
      · exact keyD hn hh
      · rw [if_pos hh] at h; cases h
  · intro node h
    unfold edit at h
    dsimp only at h
    split at h
    · cases h
    · rename_i nodes hn
      split at h
      · cases h
      · rename_i spec hs
        by_cases ht : truth spec = true
        swap
        · rw [if_pos ht] at h; cases h
        rw [if_neg (not_not.2 ht)] at h
        split at h
        · cases h
        · rename_i d hd
          split at h
          · cases h
          · rename_i box hb
            split at h
            · cases h
            · cases h
            · rename_i s hsz
              have e1 : data.lookup "nodes" = some (.map nodes) := by
                rcases sectionD_ok hn with e | ⟨_, rfl⟩
                · exact e
                · cases hs
              cases box with
              | map bd =>
                have : bd.lookup "size" = some s := by
                  simpa [getIn, Yaml.dict] using hsz
                rw [at_cons, e1, Option.bind_some, at_cons, hs, Option.bind_some, dict_map hd, at_cons,
                  hb, Option.bind_some, at_cons, this]
                simp [at?]
              | _ => simp [getIn, Yaml.dict] at hsz
  · intro name changes h
    have applied : ∀ {cs d d' : List (String × Yaml α)}, applyChanges cs d = .ok d' →
        ∀ c ∈ cs, c.1 = "event" ∨ c.1 = "facet" ∨ c.1 = "atol" := by
      intro cs
      induction cs with
      | nil => simp
      | cons c cs ih =>
        intro d d' h
        unfold applyChanges at h
        split at h
        · cases h
        · rename_i hk
          intro c' hc'
          rcases List.mem_cons.1 hc' with rfl | hc'
          · simp only [List.mem_cons, List.not_mem_nil, or_false, not_not] at hk
            exact hk
          · exact ih h c' hc'
    unfold edit at h
    dsimp only at h
    split at h
    · cases h
    · rename_i recs hr
      split at h
      · cases h
      · rename_i v hv
        refine ⟨?_, ?_⟩
        · unfold specFor at hv
          split at hv
          · rename_i w hw
            exact .inl (keyD hr (by simp [has, hw]))
          · split at hv
            · cases hv
            · rename_i scene
              refine .inr ⟨scene, rfl, ?_⟩
              unfold recorderToSpec at hv
              split at hv
              · rename_i r hf
                exact ⟨r, List.mem_of_find?_eq_some hf, by simpa using List.find?_some hf⟩
              · cases hv
        · by_cases hc : changes.isEmpty = true
          · intro c hcm
            rw [List.isEmpty_iff.1 hc] at hcm
            cases hcm
          · rw [if_neg hc] at h
            split at h
            · cases h
            · split at h
              · cases h
              · rename_i d' hd'
                exact applied hd'

/-- **C77**. Deleting a recorder takes out its entry and nothing else. -/
theorem recorder_deleted (B : Backend α Text Scene) (sc : Option Scene)
    {data data' : List (String × Yaml α)} {name : String}
    (h : edit B sc data (.deleteRecorder name) = .ok data') :
    at? ["recorders", name] (.map data') = none ∧
    ∀ q, Apart ["recorders", name] q → at? q (.map data') = at? q (.map data) := by
  unfold edit at h
  dsimp only at h
  split at h
  · cases h
  · rename_i recs hr
    split at h
    · rename_i hh
      cases h
      have e1 : data.lookup "recorders" = some (.map recs) := by
        rcases sectionD_ok hr with e | ⟨_, rfl⟩
        · exact e
        · simp [has] at hh
      refine ⟨by rw [at_dset_self, at_cons, lookup_ddel_self]; rfl, ?_⟩
      intro q hq
      cases q with
      | nil => exact absurd (List.nil_prefix) hq.2
      | cons j q =>
        by_cases hj : j = "recorders"
        · subst hj
          rw [apart_cons] at hq
          rw [at_dset_self, at_cons, e1, Option.bind_some]
          cases q with
          | nil => exact absurd (List.nil_prefix) hq.2
          | cons i q =>
            have hi : i ≠ name := by
              rintro rfl
              exact hq.1 (List.cons_prefix_cons.2 ⟨rfl, List.nil_prefix⟩)
            rw [at_cons, at_cons, lookup_ddel_ne _ hi]
        · exact at_dset_ne data hj _ q
    · cases h

/-! ### Instances -/

/-- A small document. -/
def tiny : List (String × Yaml ℚ) :=
  [("nodes", .map [("slab", .map [("location", nums [0, 0, 0]),
      ("box", .map [("size", nums [1, 1, 1])])])]),
    ("recorders", .map [("all", .map [("node", .str "slab")])])]

example : (edit plain (some ()) tiny (.set ["nodes", "slab", "box", "size"] (nums [2, 2, 2]))).toOption.isSome ∧
    (edit plain (some ()) tiny (.deleteRecorder "all")).toOption.isSome ∧
    (edit plain (some ()) tiny (.addRecorder "slab")).toOption.isSome ∧
    (edit plain (some ()) tiny (.addFaceRecorders "slab")).toOption.isSome ∧
    (edit plain (some ()) tiny (.deleteNode "slab")).toOption.isSome ∧
    (edit plain (some ()) tiny (.updateRecorder "all" [("event", .str "lost")])).toOption.isSome ∧
    (edit plain (some ()) tiny (.addRecorder "other")).toOption.isSome = false := by
  decide +kernel

example : Apart ["nodes", "slab", "location"] ["nodes", "slab", "box", "size"] := by
  unfold Apart; decide

end PV.Studio
