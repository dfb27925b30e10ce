import Verif.Model.Studio
import Verif.Props.Document
import Std.Data.String.ToNat
import Mathlib.Data.List.Perm.Subperm
import Mathlib.Data.List.Nodup

/-!
C51 edits of the studio document, C68 editing an automatic recorder.
-/

set_option linter.unusedSectionVars false

namespace PV.Studio
open PV PV.Doc

section
variable {β : Type}

theorem lookup_dset_self (d : List (String × β)) (k : String) (v : β) :
    (dset d k v).lookup k = some v := by
  unfold dset
  split
  · rename_i h
    induction d with
    | nil => simp [has] at h
    | cons a d ih =>
      rw [List.map_cons, List.lookup_cons]
      by_cases e : a.1 = k
      · simp [e]
      · rw [if_neg e, beq_eq_false_iff_ne.2 (Ne.symm e)]
        apply ih
        unfold has at h ⊢
        rw [List.lookup_cons, beq_eq_false_iff_ne.2 (Ne.symm e)] at h
        exact h
  · rename_i h
    rw [lookup_append]
    cases e : d.lookup k with
    | none => simp
    | some w => rw [has, e] at h; simp at h

theorem lookup_dset_ne (d : List (String × β)) {k j : String} (hj : j ≠ k) (v : β) :
    (dset d k v).lookup j = d.lookup j := by
  unfold dset
  split
  · rename_i h
    clear h
    induction d with
    | nil => rfl
    | cons a d ih =>
      rw [List.map_cons, List.lookup_cons, List.lookup_cons, ih]
      by_cases e : a.1 = k
      · rw [if_pos e, e, beq_eq_false_iff_ne.2 hj]
      · rw [if_neg e]
  · rw [lookup_append]
    have : List.lookup j [(k, v)] = none := by
      rw [List.lookup_cons, beq_eq_false_iff_ne.2 hj]; rfl
    rw [this]
    simp

theorem dset_fresh {d : List (String × β)} {k : String} (h : has d k = false) (v : β) :
    dset d k v = d ++ [(k, v)] := by
  simp [dset, h]

theorem dset_nodup {d : List (String × β)} (hd : (d.map (·.1)).Nodup) (k : String) (v : β) :
    ((dset d k v).map (·.1)).Nodup := by
  unfold dset
  split
  · have : (d.map fun e => if e.1 = k then (e.1, v) else e).map (·.1) = d.map (·.1) := by
      rw [List.map_map]
      apply List.map_congr_left
      intro e _
      dsimp only [Function.comp]
      split <;> rfl
    rw [this]
    exact hd
  · rename_i h
    have := dsetdefault_nodup hd k v
    rw [dsetdefault, if_neg h] at this
    exact this

theorem lookup_ddel_self (d : List (String × β)) (k : String) : (ddel d k).lookup k = none := by
  rw [lookup_none]
  intro h
  obtain ⟨e, he, rfl⟩ := List.mem_map.1 h
  simp [ddel] at he

theorem lookup_ddel_ne (d : List (String × β)) {k j : String} (hj : j ≠ k) :
    (ddel d k).lookup j = d.lookup j := by
  unfold ddel
  induction d with
  | nil => rfl
  | cons a d ih =>
    by_cases e : a.1 = k
    · rw [List.filter_cons_of_neg (by simp [e]), ih, List.lookup_cons, e, beq_eq_false_iff_ne.2 hj]
    · rw [List.filter_cons_of_pos (by simp [e]), List.lookup_cons, List.lookup_cons, ih]

/-! ### Fresh names -/

/-- The numbered names. -/
def numbered (stem : String) (i : ℕ) : String := stem ++ "-" ++ Nat.repr i

theorem numbered_injective (stem : String) : Function.Injective (numbered stem) := by
  intro i j h
  unfold numbered at h
  have h' := congrArg String.toList h
  simp only [String.toList_append, List.append_assoc, List.append_cancel_left_eq] at h'
  exact Nat.repr_injective (String.toList_injective h')

theorem uniqueFrom_spec (ex : List (String × β)) (stem : String) : ∀ fuel i,
    ∃ k, k ≤ fuel ∧ uniqueFrom ex stem fuel i = numbered stem (i + k) ∧
      (∀ j < k, has ex (numbered stem (i + j)) = true) ∧
      (k < fuel → has ex (numbered stem (i + k)) = false)
  | 0, i => ⟨0, le_refl _, rfl, by simp, by simp⟩
  | fuel + 1, i => by
    unfold uniqueFrom
    split
    · rename_i h
      obtain ⟨k, hk, e, h1, h2⟩ := uniqueFrom_spec ex stem fuel (i + 1)
      refine ⟨k + 1, by omega, by rw [e]; congr 1; omega, ?_, ?_⟩
      · intro j hj
        rcases j with _ | j
        · exact h
        · have := h1 j (by omega)
          rwa [show i + 1 + j = i + (j + 1) by omega] at this
      · intro hk'
        have := h2 (by omega)
        rwa [show i + 1 + k = i + (k + 1) by omega] at this
    · rename_i h
      exact ⟨0, by omega, rfl, by simp, fun _ => by simpa [numbered] using h⟩

/-- **C51**. The name made for a new entry is not in use, and it has the lowest number possible. -/
theorem unique_fresh (ex : List (String × β)) (stem : String) :
    has ex (uniqueName ex stem) = false ∧
    ∃ k, uniqueName ex stem = stem ++ "-" ++ Nat.repr (k + 1) ∧
      ∀ j < k, has ex (stem ++ "-" ++ Nat.repr (j + 1)) = true := by
  obtain ⟨k, hk, e, h1, h2⟩ := uniqueFrom_spec ex stem ex.length 1
  have hfresh : has ex (numbered stem (1 + k)) = false := by
    rcases hk.lt_or_eq with h | h
    · exact h2 h
    · by_contra hc
      have hc : has ex (numbered stem (1 + k)) = true := by simpa using hc
      have hall : ∀ j < k + 1, has ex (numbered stem (1 + j)) = true := by
        intro j hj
        rcases Nat.lt_succ_iff_lt_or_eq.1 hj with h | rfl
        · exact h1 j h
        · exact hc
      have hsub : ((List.range (k + 1)).map fun j => numbered stem (1 + j)) ⊆ ex.map (·.1) := by
        intro x hx
        obtain ⟨j, hj, rfl⟩ := List.mem_map.1 hx
        have := hall j (List.mem_range.1 hj)
        unfold has at this
        by_contra hn
        rw [lookup_none.2 hn] at this
        simp at this
      have hnd : ((List.range (k + 1)).map fun j => numbered stem (1 + j)).Nodup := by
        apply List.Nodup.map _ List.nodup_range
        intro a b hab
        have := numbered_injective stem hab
        omega
      have := (List.subperm_of_subset hnd hsub).length_le
      simp only [List.length_map, List.length_range] at this
      omega
  refine ⟨by rw [uniqueName, e]; exact hfresh, k, ?_, ?_⟩
  · rw [uniqueName, e, numbered, show 1 + k = k + 1 by omega]
  · intro j hj
    have := h1 j hj
    rwa [numbered, show 1 + j = j + 1 by omega] at this

end

variable {α : Type} [Field α] [LinearOrder α] [FloorRing α] {Text Scene : Type}

/-! ### Additions -/

theorem section_ok {data nodes : List (String × Yaml α)} {key : String}
    (h : section? data key = .ok nodes) : data.lookup key = some (.map nodes) := by
  unfold section? dget at h
  split at h
  · cases h
  · rename_i v hv
    split at hv
    · rename_i w hw
      cases hv
      rw [hw, dict_map h]
    · cases hv

theorem sectionD_ok {data nodes : List (String × Yaml α)} {key : String}
    (h : sectionD data key = .ok nodes) :
    data.lookup key = some (.map nodes) ∨ (data.lookup key = none ∧ nodes = []) := by
  unfold sectionD at h
  split at h
  · rename_i hn
    cases h
    exact .inr ⟨hn, rfl⟩
  · rename_i v hv
    rw [hv, dict_map h]
    exact .inl rfl

/-- The edit appends one entry with a new name to section `key` and changes nothing else. -/
def Appends (data data' : List (String × Yaml α)) (key name : String) (v : Yaml α) : Prop :=
  ∃ old, (data.lookup key = some (.map old) ∨ (data.lookup key = none ∧ old = [])) ∧
    old.lookup name = none ∧ data'.lookup key = some (.map (old ++ [(name, v)])) ∧
    ∀ k ≠ key, data'.lookup k = data.lookup k

theorem has_false {β : Type} {d : List (String × β)} {k : String} (h : has d k = false) :
    d.lookup k = none := by
  unfold has at h
  cases e : d.lookup k with
  | none => rfl
  | some _ => rw [e] at h; simp at h

theorem appends_of {data old : List (String × Yaml α)} {key stem : String} (v : Yaml α)
    (h : data.lookup key = some (.map old) ∨ (data.lookup key = none ∧ old = [])) :
    Appends data (dset data key (.map (dset old (uniqueName old stem) v))) key
      (uniqueName old stem) v := by
  have hf := (unique_fresh old stem).1
  refine ⟨old, h, has_false hf, ?_, fun k hk => lookup_dset_ne data hk _⟩
  rw [lookup_dset_self, dset_fresh hf]

/-- **C51**. Adding a node, recorder or component adds one entry under an unused name; every other
entry of the document stays as it is. -/
theorem additions (B : Backend α Text Scene) (sc : Option Scene) (data data' : List (String × Yaml α)) :
    (∀ kind, edit B sc data (.addNode kind) = .ok data' →
      ∃ name s, snippet kind = some s ∧ Appends data data' "nodes" name s) ∧
    (∀ node, edit B sc data (.addRecorder node) = .ok data' →
      ∃ name, Appends data data' "recorders" name (escapingEntry node)) ∧
    (edit B sc data .addComponent = .ok data' →
      ∃ name, Appends data data' "components" name
        (.map [("absorber", .map [("coefficient", .num 1)])])) := by
  refine ⟨?_, ?_, ?_⟩
  · intro kind h
    unfold edit at h
    dsimp only at h
    split at h
    · cases h
    · rename_i s hs
      split at h
      · cases h
      · rename_i nodes hn
        cases h
        exact ⟨_, s, hs, appends_of s (.inl (section_ok hn))⟩
  · intro node h
    unfold edit at h
    dsimp only at h
    split at h
    · cases h
    · split at h
      · cases h
      · split at h
        · cases h
        · rename_i recs hr
          cases h
          exact ⟨_, appends_of _ (sectionD_ok hr)⟩
  · intro h
    unfold edit at h
    dsimp only at h
    split at h
    · cases h
    · rename_i comps hc
      cases h
      exact ⟨_, appends_of _ (sectionD_ok hc)⟩

theorem addFaces_spec {node : String} {size : List α} : ∀ {fs : List (String × (ℤ × ℤ × ℤ))}
    {recs recs' : List (String × Yaml α)}, addFaces node size fs recs = .ok recs' →
    (∀ k v, recs.lookup k = some v → recs'.lookup k = some v) ∧
    (∀ f ∈ fs, (recs'.lookup (node ++ "-" ++ f.1)).isSome) ∧
    ∀ k, recs.lookup k = none → (recs'.lookup k).isSome → ∃ f ∈ fs, k = node ++ "-" ++ f.1
  | [], recs, recs', h => by
    cases h
    refine ⟨fun _ _ h => h, by simp, ?_⟩
    intro k h h'
    rw [h] at h'
    simp at h'
  | f :: fs, recs, recs', h => by
    unfold addFaces at h
    split at h
    · rename_i hhas
      obtain ⟨h1, h2, h3⟩ := addFaces_spec h
      refine ⟨h1, ?_, ?_⟩
      · intro g hg
        rcases List.mem_cons.1 hg with rfl | hg
        · unfold has at hhas
          obtain ⟨v, hv⟩ := Option.isSome_iff_exists.1 hhas
          rw [h1 _ _ hv]; rfl
        · exact h2 g hg
      · intro k hk hk'
        obtain ⟨g, hg, e⟩ := h3 k hk hk'
        exact ⟨g, List.mem_cons_of_mem _ hg, e⟩
    · rename_i hhas
      split at h
      · cases h
      · rename_i v hv
        obtain ⟨h1, h2, h3⟩ := addFaces_spec h
        have hno : recs.lookup (node ++ "-" ++ f.1) = none := has_false (by simpa using hhas)
        refine ⟨?_, ?_, ?_⟩
        · intro k w hw
          apply h1
          rw [lookup_dset_ne _ _ _, hw]
          rintro rfl
          rw [hno] at hw
          cases hw
        · intro g hg
          rcases List.mem_cons.1 hg with rfl | hg
          · rw [h1 _ _ (lookup_dset_self _ _ _)]; rfl
          · exact h2 g hg
        · intro k hk hk'
          by_cases e : k = node ++ "-" ++ f.1
          · exact ⟨f, by simp, e⟩
          · obtain ⟨g, hg, e⟩ := h3 k (by rw [lookup_dset_ne _ e]; exact hk) hk'
            exact ⟨g, List.mem_cons_of_mem _ hg, e⟩

/-- **C51**. Adding face recorders leaves every declared recorder as it is and ends with one for each
face; nothing else is added. -/
theorem face_recorders (B : Backend α Text Scene) (sc : Option Scene)
    {data data' : List (String × Yaml α)} {node : String}
    (h : edit B sc data (.addFaceRecorders node) = .ok data') :
    ∃ recs recs', (data.lookup "recorders" = some (.map recs) ∨
        (data.lookup "recorders" = none ∧ recs = [])) ∧
      data'.lookup "recorders" = some (.map recs') ∧
      (∀ k v, recs.lookup k = some v → recs'.lookup k = some v) ∧
      (∀ f ∈ faces, (recs'.lookup (node ++ "-" ++ f.1)).isSome) ∧
      (∀ k, recs.lookup k = none → (recs'.lookup k).isSome → ∃ f ∈ faces, k = node ++ "-" ++ f.1) ∧
      ∀ k ≠ "recorders", data'.lookup k = data.lookup k := by
  unfold edit at h
  dsimp only at h
  repeat' split at h
  all_goals first | (cases h; done) | skip
  rename_i recs hr _ recs' hr'
  cases h
  obtain ⟨h1, h2, h3⟩ := addFaces_spec hr'
  exact ⟨recs, recs', sectionD_ok hr, lookup_dset_self _ _ _, h1, h2, h3,
    fun k hk => lookup_dset_ne _ hk _⟩

/-! ### Deletions -/

/-- The components listed in the material of geometry key `g` of a node. -/
def compsAt (d : List (String × Yaml α)) (g : String) : Option (List (Yaml α)) :=
  match d.lookup g with
  | some (.map gd) =>
    match gd.lookup "material" with
    | some (.map md) =>
      match md.lookup "components" with
      | some (.seq l) => some l
      | _ => none
    | _ => none
  | _ => none

/-- Some node of the document uses component `c`. -/
def Uses (nodes : List (String × Yaml α)) (c : String) : Prop :=
  ∃ n d, (n, .map d) ∈ nodes ∧ ∃ g ∈ ["box", "sphere", "cylinder", "mesh"], ∃ l,
    compsAt d g = some l ∧ .str c ∈ l

theorem isName_iff {name : String} {v : Yaml α} : isName name v = true ↔ v = .str name := by
  cases v <;> simp [isName]

theorem scrubMaterial_comps {name : String} {md md' : List (String × Yaml α)}
    (h : scrubMaterial name md = .ok md') :
    (match md'.lookup "components" with | some (.seq l) => some l | _ => none) =
      (match md.lookup "components" with | some (.seq l) => some l | _ => none).map
        (fun l : List (Yaml α) => l.filter fun c => ¬ isName name c) := by
  unfold scrubMaterial at h
  split at h
  · rename_i hl
    cases h
    rw [hl]; rfl
  · rename_i v hv
    split at h
    · split at h
      · cases h
      · rename_i l hl
        have : v = .seq l := by
          cases v <;> simp [Yaml.list] at hl
          rw [hl]
        subst this
        split at h
        · cases h
          rw [lookup_dset_self, hv]
          rfl
        · rename_i hany
          cases h
          rw [hv]
          simp only [Option.map_some, Option.some.injEq]
          symm
          rw [List.filter_eq_self]
          intro c hc
          simp only [List.any_eq_true, not_exists, not_and] at hany
          simpa using hany c hc
    · rename_i ht
      cases h
      rw [hv]
      cases v <;> simp [truth] at ht ⊢
      simp [ht]

theorem scrubGeom_comps {name g : String} {d d' : List (String × Yaml α)}
    (h : scrubGeom name g d = .ok d') :
    compsAt d' g = (compsAt d g).map (fun l => l.filter fun c => ¬ isName name c) ∧
    ∀ g' ≠ g, d'.lookup g' = d.lookup g' := by
  unfold scrubGeom at h
  split at h
  · rename_i hl
    cases h
    refine ⟨?_, fun _ _ => rfl⟩
    simp [compsAt, hl]
  · rename_i gv hg
    split at h
    · cases h
    · rename_i gd hgd
      have := dict_map hgd
      subst this
      split at h
      · rename_i hm
        cases h
        refine ⟨?_, fun _ _ => rfl⟩
        simp [compsAt, hg, hm]
      · rename_i m hm
        split at h
        · cases h
        · rename_i md hmd
          have := dict_map hmd
          subst this
          split at h
          · cases h
          · rename_i md' hmd'
            cases h
            refine ⟨?_, fun g' hg' => lookup_dset_ne _ hg' _⟩
            have := scrubMaterial_comps hmd'
            simp only [compsAt, lookup_dset_self, hg, hm]
            exact this

theorem compsAt_congr {d d' : List (String × Yaml α)} {g : String} (h : d'.lookup g = d.lookup g) :
    compsAt d' g = compsAt d g := by
  unfold compsAt
  rw [h]

theorem scrubGeoms_comps {name : String} : ∀ {gs : List String} (_ : gs.Nodup)
    {d d' : List (String × Yaml α)}, scrubGeoms name gs d = .ok d' →
    (∀ g ∈ gs, compsAt d' g = (compsAt d g).map (fun l => l.filter fun c => ¬ isName name c)) ∧
    ∀ g ∉ gs, d'.lookup g = d.lookup g
  | [], _, d, d', h => by cases h; simp
  | g :: gs, hn, d, d', h => by
    unfold scrubGeoms at h
    rw [List.nodup_cons] at hn
    split at h
    · cases h
    · rename_i d1 h1
      obtain ⟨a1, a2⟩ := scrubGeom_comps h1
      obtain ⟨b1, b2⟩ := scrubGeoms_comps hn.2 h
      refine ⟨?_, ?_⟩
      · intro k hk
        rcases List.mem_cons.1 hk with rfl | hk'
        · rw [compsAt_congr (b2 k hn.1), a1]
        · rw [b1 k hk', compsAt_congr (a2 k _)]
          rintro rfl
          exact hn.1 hk'
      · intro k hk
        rw [List.mem_cons, not_or] at hk
        rw [b2 k hk.2, a2 k hk.1]

theorem scrubNodes_uses {name : String} : ∀ {nodes nodes' : List (String × Yaml α)},
    scrubNodes name nodes = .ok nodes' → ∀ c, Uses nodes' c ↔ Uses nodes c ∧ c ≠ name
  | [], nodes', h => by cases h; simp [Uses]
  | (n, spec) :: rest, nodes', h => by
    unfold scrubNodes at h
    split at h
    · cases h
    · rename_i d hd
      have := dict_map hd
      subst this
      split at h
      · cases h
      · rename_i d' hd'
        split at h
        · cases h
        · rename_i rest' hr
          cases h
          intro c
          have ih := scrubNodes_uses hr c
          obtain ⟨s1, _⟩ := scrubGeoms_comps (by decide) hd'
          have split_use : ∀ (m : String) (e : List (String × Yaml α)) (l : List (String × Yaml α)),
              Uses ((m, .map e) :: l) c ↔
                (∃ g ∈ geomKeys, ∃ l, compsAt e g = some l ∧ .str c ∈ l) ∨ Uses l c := by
            intro m e l
            constructor
            · rintro ⟨n', e', hm, hg⟩
              rcases List.mem_cons.1 hm with h | h
              · cases h
                exact .inl hg
              · exact .inr ⟨n', e', h, hg⟩
            · rintro (hg | ⟨n', e', hm, hg⟩)
              · exact ⟨m, e, by simp, hg⟩
              · exact ⟨n', e', List.mem_cons_of_mem _ hm, hg⟩
          rw [split_use, split_use, ih]
          constructor
          · rintro (⟨g, hg, l, hl, hc⟩ | ⟨h1, h2⟩)
            · rw [s1 g hg] at hl
              obtain ⟨l0, h0, rfl⟩ := Option.map_eq_some_iff.1 hl
              rw [List.mem_filter] at hc
              refine ⟨.inl ⟨g, hg, l0, h0, hc.1⟩, ?_⟩
              rintro rfl
              have := hc.2
              rw [isName_iff.2 rfl] at this
              simp at this
            · exact ⟨.inr h1, h2⟩
          · rintro ⟨⟨g, hg, l, hl, hc⟩ | h1, h2⟩
            · refine .inl ⟨g, hg, _, by rw [s1 g hg, hl]; rfl, ?_⟩
              rw [List.mem_filter]
              refine ⟨hc, ?_⟩
              have : isName name (.str c : Yaml α) ≠ true := by
                rw [Ne, isName_iff]
                simpa using h2
              simpa using this
            · exact .inr ⟨h1, h2⟩

/-- **C51**. Deleting a component removes its entry and every use of it; other entries and other uses
stay. -/
theorem component_deleted (B : Backend α Text Scene) (sc : Option Scene)
    {data data' nodes : List (String × Yaml α)} {name : String}
    (hn : data.lookup "nodes" = some (.map nodes))
    (h : edit B sc data (.deleteComponent name) = .ok data') :
    ∃ comps comps' nodes', data.lookup "components" = some (.map comps) ∧
      data'.lookup "components" = some (.map comps') ∧ data'.lookup "nodes" = some (.map nodes') ∧
      comps'.lookup name = none ∧ (∀ k ≠ name, comps'.lookup k = comps.lookup k) ∧
      (∀ c, Uses nodes' c ↔ Uses nodes c ∧ c ≠ name) ∧
      ∀ k, k ≠ "nodes" → k ≠ "components" → data'.lookup k = data.lookup k := by
  unfold edit at h
  dsimp only at h
  split at h
  · cases h
  · rename_i comps hc
    split at h
    · cases h
    · split at h
      · cases h
      · rename_i ns hns
        have hns' : ns = nodes := by
          rcases sectionD_ok hns with h | ⟨h, _⟩ <;> rw [hn] at h
          · cases h; rfl
          · cases h
        subst hns'
        split at h
        · cases h
        · rename_i nodes' hs
          have hhas : has (dset data "components" (.map (ddel comps name))) "nodes" = true := by
            unfold has
            rw [lookup_dset_ne _ (by decide), hn]
            rfl
          rw [if_pos hhas] at h
          cases h
          refine ⟨comps, ddel comps name, nodes', section_ok hc, ?_, lookup_dset_self _ _ _,
            lookup_ddel_self _ _, fun k hk => lookup_ddel_ne _ hk, scrubNodes_uses hs, ?_⟩
          · rw [lookup_dset_ne _ (by decide), lookup_dset_self]
          · intro k h1 h2
            rw [lookup_dset_ne _ h1, lookup_dset_ne _ h2]

theorem dropRecorders_mem {node : String} : ∀ {recs recs' : List (String × Yaml α)},
    dropRecorders node recs = .ok recs' → ∀ r, r ∈ recs' ↔
      r ∈ recs ∧ ∀ d, r.2 = .map d → d.lookup "node" ≠ some (.str node)
  | [], recs', h => by cases h; simp
  | (n, spec) :: rest, recs', h => by
    unfold dropRecorders at h
    split at h
    · cases h
    · rename_i d hd
      have := dict_map hd
      subst this
      split at h
      · cases h
      · rename_i rest' hr
        have ih := dropRecorders_mem hr
        have key : ((d.lookup "node").map (isName node)).getD false = true ↔
            d.lookup "node" = some (.str node) := by
          cases d.lookup "node" with
          | none => simp
          | some v => simp [isName_iff]
        intro r
        split at h
        · rename_i hk
          cases h
          rw [ih r, List.mem_cons]
          constructor
          · rintro ⟨h1, h2⟩; exact ⟨.inr h1, h2⟩
          · rintro ⟨rfl | h1, h2⟩
            · exact absurd (key.1 hk) (h2 d rfl)
            · exact ⟨h1, h2⟩
        · rename_i hk
          cases h
          rw [List.mem_cons, List.mem_cons, ih r]
          constructor
          · rintro (rfl | ⟨h1, h2⟩)
            · refine ⟨.inl rfl, ?_⟩
              intro e he
              cases he
              exact fun hc => hk (key.2 hc)
            · exact ⟨.inr h1, h2⟩
          · rintro ⟨rfl | h1, h2⟩
            · exact .inl rfl
            · exact .inr ⟨h1, h2⟩

/-- **C51**. Deleting a node removes it and exactly the declared recorders on it. -/
theorem node_deleted (B : Backend α Text Scene) (sc : Option Scene)
    {data data' nodes recs : List (String × Yaml α)} {name : String}
    (hn : data.lookup "nodes" = some (.map nodes))
    (hr : data.lookup "recorders" = some (.map recs))
    (h : edit B sc data (.deleteNode name) = .ok data') :
    ∃ nodes' recs', data'.lookup "nodes" = some (.map nodes') ∧
      data'.lookup "recorders" = some (.map recs') ∧
      nodes'.lookup name = none ∧ (∀ k ≠ name, nodes'.lookup k = nodes.lookup k) ∧
      ∀ r, r ∈ recs' ↔ r ∈ recs ∧ ∀ d, r.2 = .map d → d.lookup "node" ≠ some (.str name) := by
  unfold edit at h
  dsimp only at h
  split at h
  · cases h
  · rename_i ns hns
    have := section_ok hns
    rw [hn] at this
    cases this
    split at h
    · cases h
    · have hr' : (dset data "nodes" (.map (ddel nodes name))).lookup "recorders" =
          some (.map recs) := by
        rw [lookup_dset_ne _ (by decide), hr]
      rw [hr'] at h
      dsimp only at h
      split at h
      · simp only [Yaml.dict] at h
        split at h
        · cases h
        · rename_i recs' hrs
          cases h
          refine ⟨ddel nodes name, recs', ?_, lookup_dset_self _ _ _, lookup_ddel_self _ _,
            fun k hk => lookup_ddel_ne _ hk, dropRecorders_mem hrs⟩
          rw [lookup_dset_ne _ (by decide), lookup_dset_self]
      · rename_i ht
        cases h
        refine ⟨ddel nodes name, recs, lookup_dset_self _ _ _, hr', lookup_ddel_self _ _,
          fun k hk => lookup_ddel_ne _ hk, ?_⟩
        have : recs = [] := by simpa [truth] using ht
        subst this
        simp

/-! ### Failure leaves the scene -/

/-- **C51**. A request that cannot be patched, parsed or compiled changes nothing. If the payload of every
compiled scene can be made, every request answered with an error changes nothing. -/
theorem failure_atomic (B : Backend α Text Scene) (hp : ∀ sc, ∃ u, B.payload sc = .ok u)
    (st : State Text Scene) (r : Request α Text) {e : DErr} (h : (handle B st r).2 = some e) :
    (handle B st r).1 = st := by
  have ha : ∀ text, (apply B st text).2 = some e → (apply B st text).1 = st := by
    intro text h
    unfold apply at h ⊢
    split at h
    · rfl
    · rename_i sc hsc
      obtain ⟨u, hu⟩ := hp sc
      rw [hu] at h
      cases h
  cases r with
  | put text => exact ha text h
  | patch op =>
    unfold handle at h ⊢
    dsimp only at h ⊢
    split at h
    · rfl
    · exact ha _ h

/-- The scene is the one of the document. -/
def InStep (B : Backend α Text Scene) (st : State Text Scene) : Prop :=
  ∀ sc, st.scene = some sc → B.parse st.document = .ok sc

theorem apply_inStep (B : Backend α Text Scene) {st : State Text Scene} (h : InStep B st) (text : Text) :
    InStep B (apply B st text).1 := by
  unfold apply
  split
  · exact h
  · rename_i sc hsc
    split <;> (intro s hs; cases hs; exact hsc)

/-- **C51**. After any sequence of requests the scene that is simulated is the one the current document
describes. -/
theorem scene_in_step (B : Backend α Text Scene) (text : Text) (rs : List (Request α Text)) :
    InStep B (handleAll B (start B text) rs) := by
  have key : ∀ (rs : List (Request α Text)) (st : State Text Scene), InStep B st →
      InStep B (handleAll B st rs) := by
    intro rs
    induction rs with
    | nil => intro st h; exact h
    | cons r rs ih =>
      intro st h
      refine ih _ ?_
      cases r with
      | put text => exact apply_inStep B h text
      | patch op =>
        unfold handle
        dsimp only
        split
        · exact h
        · exact apply_inStep B h _
  refine key rs _ (apply_inStep B ?_ text)
  intro sc hsc
  cases hsc

/-! ### Automatic recorders -/

variable [IsStrictOrderedRing α]

theorem propOf_name (p : RayProp) : propOf (propName p) = some p := by cases p <;> rfl
theorem eventOf_name (e : Selector) : eventOf (eventName e) = some e := by cases e <;> rfl
theorem propName_ne (p : RayProp) : propName p ≠ "position" := by cases p <;> decide

theorem parseAxis_name {a : Axis α} (ha : a.Valid) :
    parseAxis (propName a.prop) (nums [a.start, a.stop, (a.bins : α)]) = .ok a := by
  have h2 : ¬ ((a.bins : ℕ) : α) < 1 := by
    have : ((1 : ℕ) : α) ≤ (a.bins : α) := by exact_mod_cast ha.2
    rw [not_lt]
    simpa only [Nat.cast_one] using this
  have h3 : truncZ ((a.bins : ℕ) : α) = (a.bins : ℤ) := by
    have := truncZ_int (α := α) (a.bins : ℤ)
    exact_mod_cast this
  simp only [parseAxis, nums, Yaml.list, List.map_cons, List.map_nil, floats, Yaml.number,
    propOf_name, ha.1, h2, not_true, if_false, h3, Int.toNat_natCast]

theorem parseHist_entry {h : Hist α} (hv : h.Valid) :
    parseHist (histEntry h).1 (histEntry h).2 = .ok h := by
  cases h with
  | one a =>
    simp only [histEntry, parseHist, if_neg (propName_ne a.prop), parseAxis_name hv]
  | heat a b =>
    simp only [histEntry, parseHist, if_true, Yaml.list, Yaml.string, parseAxis_name hv.1,
      parseAxis_name hv.2]

theorem histDict_eq : ∀ (hs : List (Hist α)) (d : List (String × Yaml α)),
    (hs.map fun h => (histEntry h).1).Nodup → (∀ h ∈ hs, d.lookup (histEntry h).1 = none) →
    histDict hs d = d ++ hs.map histEntry
  | [], d, _, _ => by simp [histDict]
  | h :: hs, d, hn, hd => by
    rw [List.map_cons, List.nodup_cons] at hn
    have h0 := hd h (by simp)
    have hf : has d (histEntry h).1 = false := by simp [has, h0]
    rw [histDict, dset_fresh hf, histDict_eq hs _ hn.2]
    · simp
    · intro g hg
      rw [lookup_append, hd g (by simp [hg]), Option.none_or, List.lookup_cons,
        beq_eq_false_iff_ne.2]
      · rfl
      · intro e
        exact hn.1 (List.mem_map.2 ⟨g, hg, e⟩)

theorem parseHists_entries : ∀ {hs : List (Hist α)}, (∀ h ∈ hs, h.Valid) →
    parseHists (hs.map histEntry) = .ok hs
  | [], _ => rfl
  | h :: hs, hv => by
    rw [List.map_cons, show histEntry h = ((histEntry h).1, (histEntry h).2) from rfl]
    have ih := parseHists_entries (hs := hs) fun g hg => hv g (List.mem_cons_of_mem _ hg)
    simp only [parseHists, parseHist_entry (hv h (by simp)), ih]

/-- **C68**. A recorder of the running scene written into the document is read back as the same recorder
on the same node (with the standard facet tolerance), so that editing an automatic recorder
changes nothing but what is edited. -/
theorem materialised {node : String} {nodes : List String} (hn : node ∈ nodes) {r : Recorder α}
    (hv : ∀ h ∈ r.hists, h.Valid) (hk : (r.hists.map fun h => (histEntry h).1).Nodup) :
    parseRecorder nodes r.name (recSpec node r) = .ok (node, { r with atol := 1e-6 }) := by
  have e3 : parseHists (histDict r.hists []) = .ok r.hists := by
    rw [histDict_eq r.hists [] hk (by simp), List.nil_append]
    exact parseHists_entries hv
  have e4 : (if truth (.map (histDict r.hists []) : Yaml α) then
      (Except.ok (histDict r.hists []) : Except DErr _) else .ok []) = .ok (histDict r.hists []) := by
    split
    · rfl
    · rename_i ht
      have : histDict r.hists [] = [] := by simpa [truth] using ht
      rw [this]
  obtain ⟨name, event, facet, atol, hists⟩ := r
  cases facet with
  | none =>
    simp only [recSpec, parseRecorder, Yaml.dict, dget, List.cons_append, List.nil_append,
      List.append_nil, List.lookup_cons, String.reduceBEq, beq_self_eq_true, Yaml.string, hn, not_true,
      if_false, histEntries, e4, e3, parseFacet, parseAtol, eventOf_name, List.lookup_nil]
  | some f =>
    simp only [recSpec, parseRecorder, Yaml.dict, dget, List.cons_append, List.nil_append,
      List.append_nil, List.lookup_cons, String.reduceBEq, beq_self_eq_true, Yaml.string, hn, not_true,
      if_false, histEntries, e4, e3, parseFacet, parseAtol, eventOf_name, List.lookup_nil, nums,
      Yaml.list, List.map_cons, List.map_nil, floats, Yaml.number]

/-- The automatic recorders of a box meet the hypotheses of `materialised`. -/
theorem face_materialised {node : String} {nodes : List String} (hn : node ∈ nodes) {a b c : α}
    (ha : 0 < a) (hb : 0 < b) (hc : 0 < c) {r : Recorder α} (hr : r ∈ faceSpecs node a b c) :
    parseRecorder nodes r.name (recSpec node r) = .ok (node, r) := by
  have hbins : ∀ s : α, 1 ≤ (faceBins s).toNat := by
    intro s
    have : (10 : ℤ) ≤ faceBins s := le_max_left _ _
    omega
  have w : (300 : α) < 1000 := by norm_num
  have t : (0 : α) < 1.5708 := by norm_num
  have m : r.atol = 1e-6 := by
    simp only [faceSpecs, List.mem_cons, List.not_mem_nil, or_false] at hr
    rcases hr with rfl | rfl | rfl | rfl | rfl | rfl <;> rfl
  have := materialised hn (r := r) ?_ ?_
  · rw [this, ← m]
  · simp only [faceSpecs, List.mem_cons, List.not_mem_nil, or_false] at hr
    rcases hr with rfl | rfl | rfl | rfl | rfl | rfl <;>
      simp only [List.mem_cons, List.not_mem_nil, or_false] <;>
      (rintro h (rfl | rfl | rfl) <;> simp only [Hist.Valid, Axis.Valid, hbins, w, t, and_true] <;>
        first | (constructor <;> linarith) | norm_num)
  · simp only [faceSpecs, List.mem_cons, List.not_mem_nil, or_false] at hr
    rcases hr with rfl | rfl | rfl | rfl | rfl | rfl <;>
      simp only [List.map_cons, List.map_nil, histEntry, propName] <;> decide

/-- **C68**. Changing a recorder touches no other entry of the document. -/
theorem update_local_partial (B : Backend α Text Scene) (sc : Option Scene)
    {data data' : List (String × Yaml α)} {name : String} {changes : List (String × Yaml α)}
    (h : edit B sc data (.updateRecorder name changes) = .ok data') :
    ∃ recs recs', (data.lookup "recorders" = some (.map recs) ∨
        (data.lookup "recorders" = none ∧ recs = [])) ∧
      data'.lookup "recorders" = some (.map recs') ∧
      (∀ k ≠ name, recs'.lookup k = recs.lookup k) ∧
      ∀ k ≠ "recorders", data'.lookup k = data.lookup k := by
  unfold edit at h
  dsimp only at h
  split at h
  · cases h
  · rename_i recs hr
    split at h
    · cases h
    · split at h
      · cases h
        exact ⟨recs, _, sectionD_ok hr, lookup_dset_self _ _ _, fun k hk => lookup_dset_ne _ hk _,
          fun k hk => lookup_dset_ne _ hk _⟩
      · split at h
        · cases h
        · split at h
          · cases h
          · cases h
            exact ⟨recs, _, sectionD_ok hr, lookup_dset_self _ _ _, fun k hk => lookup_dset_ne _ hk _,
              fun k hk => lookup_dset_ne _ hk _⟩

theorem applyChanges_lookup : ∀ {changes d d' : List (String × Yaml α)},
    applyChanges changes d = .ok d' →
    (∀ k, k ∉ changes.map (·.1) → d'.lookup k = d.lookup k) ∧
    ((changes.map (·.1)).Nodup → ∀ k v, (k, v) ∈ changes → d'.lookup k = some v)
  | [], d, d', h => by cases h; simp
  | (k0, v0) :: rest, d, d', h => by
    unfold applyChanges at h
    split at h
    · cases h
    · obtain ⟨h1, h2⟩ := applyChanges_lookup h
      refine ⟨?_, ?_⟩
      · intro k hk
        rw [List.map_cons, List.mem_cons, not_or] at hk
        rw [h1 k hk.2, lookup_dset_ne _ hk.1]
      · intro hn k v hkv
        rw [List.map_cons, List.nodup_cons] at hn
        rcases List.mem_cons.1 hkv with e | hkv
        · cases e
          rw [h1 _ hn.1, lookup_dset_self]
        · exact h2 hn.2 k v hkv

/-- **C68**. The entry edited has the changes, and otherwise what it had or what the recorder of the
scene is described by. -/
theorem update_applies (B : Backend α Text Scene) (sc : Option Scene)
    {data data' recs : List (String × Yaml α)} {name : String} {changes : List (String × Yaml α)}
    (hr : data.lookup "recorders" = some (.map recs))
    (hc : changes ≠ []) (hn : (changes.map (·.1)).Nodup)
    (h : edit B sc data (.updateRecorder name changes) = .ok data') :
    ∃ old new recs', specFor B sc recs name = .ok (.map old) ∧
      data'.lookup "recorders" = some (.map recs') ∧ recs'.lookup name = some (.map new) ∧
      (∀ k v, (k, v) ∈ changes → new.lookup k = some v) ∧
      ∀ k, k ∉ changes.map (·.1) → new.lookup k = old.lookup k := by
  have hce : changes.isEmpty = false := by
    cases changes with
    | nil => exact absurd rfl hc
    | cons _ _ => rfl
  unfold edit at h
  dsimp only at h
  split at h
  · cases h
  · rename_i recs0 hr0
    have : recs0 = recs := by
      rcases sectionD_ok hr0 with h | ⟨h, _⟩ <;> rw [hr] at h
      · cases h; rfl
      · cases h
    subst this
    split at h
    · cases h
    · rename_i v hv
      rw [hce] at h
      simp only [Bool.false_eq_true, if_false] at h
      split at h
      · cases h
      · rename_i old hold
        split at h
        · cases h
        · rename_i new hnew
          cases h
          obtain ⟨h1, h2⟩ := applyChanges_lookup hnew
          refine ⟨old, new, _, ?_, lookup_dset_self _ _ _, lookup_dset_self _ _ _, h2 hn, h1⟩
          rw [hv, dict_map hold]

/-! ### Examples and violations -/

/-- A backend that keeps loaded data as text. -/
def plain : Backend ℚ (List (String × Yaml ℚ)) Unit where
  load := .ok
  dump := id
  parse _ := .ok ()
  payload _ := .ok ()
  localOf _ _ _ := .ok []
  recorders _ := []

/-- Names and event selectors of the recorders after an edit of the demo document. -/
def after (op : Op ℚ) : Except DErr (List (String × Nat)) :=
  match edit plain none demo op with
  | .error e => .error e
  | .ok d => (sceneRecorders d).map fun R => R.map fun r => (r.2.name, r.2.hists.length)

/-- **C68, violated**. Deleting a declared recorder on a node with `record: true` brings the automatic
recorder of that name back: the recorder is still there. -/
theorem deleted_recorder_returns : (after (.deleteRecorder "slab-top")).map
    (fun l => l.map (·.1)) = .ok ["slab-lost", "slab-top", "slab-bottom", "slab-east", "slab-west",
      "slab-north", "slab-south", "ball-lost", "ball-escaping"] := by decide +kernel

/-- **C68, violated**. Adding face recorders to a node with `record: true` replaces its automatic
recorders by declared ones with a heatmap only: the spectra and angles they had are gone. -/
theorem face_recorders_drop_histograms :
    after (.addFaceRecorders "slab") = .ok [("slab-top", 0), ("slab-bottom", 1), ("slab-east", 1),
      ("slab-west", 1), ("slab-north", 1), ("slab-south", 1), ("slab-lost", 1), ("ball-lost", 1),
      ("ball-escaping", 2)] := by decide +kernel

example : uniqueName [("box-1", ()), ("box-2", ()), ("sphere-1", ())] "box" = "box-3" := by
  decide +kernel

example : (after (.addRecorder "ball")).map (fun l => (l.map (·.1)).take 2) =
    .ok ["slab-top", "ball-escaping-1"] := by decide +kernel

example : (after (.deleteNode "slab")).map (fun l => l.map (·.1)) =
    .ok ["ball-lost", "ball-escaping"] := by decide +kernel

example : ∀ sc, ∃ u, plain.payload sc = .ok u := fun _ => ⟨(), rfl⟩

end PV.Studio
