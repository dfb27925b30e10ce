import Verif.Props.StudioEdit
import Verif.Props.StudioLive
import Verif.Props.StudioView

/-!
C94: a node dropped in the viewport of the studio is where it was dropped.
-/

namespace PV.View
open PV PV.Doc PV.Spec PV.Studio PV.SceneFile PV.FileScene

section
variable {α : Type} [Field α] [LinearOrder α] [FloorRing α]
set_option linter.unusedSectionVars false

/-! ### The changed document -/

/-- An entry of the nodes with a new location. -/
def moveEntry (node : String) (v : Yaml α) (e : String × Yaml α) : String × Yaml α :=
  if e.1 = node then (e.1, match e.2 with
    | .map d => .map (dset d "location" v)
    | w => w) else e

/-- A node read from a file with a new location. -/
def moveNode (node : String) (p : Vec3 α) (n : NodeDef α) : NodeDef α :=
  if n.name = node then { n with location := some p } else n

/-- The scene with one node moved. -/
def moveScene (node : String) (p : Vec3 α) (s : SceneDef α) : SceneDef α :=
  { s with nodes := s.nodes.map (moveNode node p) }

theorem dset_entries {nodes : List (String × Yaml α)} (hn : (nodes.map (·.1)).Nodup) {node : String}
    {d : List (String × Yaml α)} (h : nodes.lookup node = some (.map d)) (v : Yaml α) :
    dset nodes node (.map (dset d "location" v)) = nodes.map (moveEntry node v) := by
  unfold dset
  rw [if_pos (by rw [has, h]; rfl)]
  refine List.map_congr_left fun e he => ?_
  unfold moveEntry
  by_cases hk : e.1 = node
  · rw [if_pos hk, if_pos hk]
    have : e.2 = .map d := by
      have h2 : nodes.lookup e.1 = some e.2 := mem_lookup hn he
      rw [hk, h] at h2
      exact (Option.some.inj h2).symm
    rw [this]
    rfl
  · rw [if_neg hk, if_neg hk]

theorem has_dset (d : List (String × Yaml α)) {k j : String} (hj : j ≠ k) (v : Yaml α) :
    has (dset d k v) j = has d j := by
  unfold has; rw [lookup_dset_ne d hj]

theorem parseContent_move (F : Files α) (comps : List (String × CompDef α)) (k : String)
    (d : List (String × Yaml α)) (v : Yaml α) :
    parseContent F comps k (dset d "location" v) = parseContent F comps k d := by
  unfold parseContent
  have hf : ["box", "cylinder", "sphere", "mesh"].find? (has (dset d "location" v)) =
      ["box", "cylinder", "sphere", "mesh"].find? (has d) := by
    simp only [List.find?_cons, has_dset d (show "box" ≠ "location" by decide),
      has_dset d (show "cylinder" ≠ "location" by decide), has_dset d (show "sphere" ≠ "location" by decide),
      has_dset d (show "mesh" ≠ "location" by decide), List.find?_nil]
  rw [hf, lookup_dset_ne d (show "light" ≠ "location" by decide)]
  cases hk : ["box", "cylinder", "sphere", "mesh"].find? (has d) with
  | none => rfl
  | some kind =>
    have hm := List.mem_of_find?_eq_some hk
    have hne : kind ≠ "location" := by
      rintro rfl
      simp at hm
    dsimp only
    unfold dget
    rw [lookup_dset_ne d hne]

/-- A node read, with a new location in its entry. -/
def moveParsed (node : String) (v : Yaml α) (x : String × List (String × Yaml α) × Content α) :
    String × List (String × Yaml α) × Content α :=
  (x.1, if x.1 = node then dset x.2.1 "location" v else x.2.1, x.2.2)

theorem parseNodes_move {F : Files α} {comps : List (String × CompDef α)} (node : String) (v : Yaml α) :
    ∀ {l : List (String × Yaml α)} {ps : List (String × List (String × Yaml α) × Content α)},
    parseNodes F comps l = .ok ps →
    parseNodes F comps (l.map (moveEntry node v)) = .ok (ps.map (moveParsed node v))
  | [], ps, h => by cases h; rfl
  | (k, w) :: l, ps, h => by
    obtain ⟨d, c, ps', rfl, h1, h2, rfl⟩ := parseNodes_cons h
    have ih := parseNodes_move node v h2
    have e : moveEntry node v (k, Yaml.map d) = (k, .map (if k = node then dset d "location" v else d)) := by
      unfold moveEntry
      by_cases hk : k = node
      · simp [hk]
      · simp [hk]
    have hc : parseContent F comps k (if k = node then dset d "location" v else d) = .ok c := by
      split
      · rw [parseContent_move, h1]
      · exact h1
    rw [List.map_cons, e, parseNodes]
    rw [show (Yaml.map (if k = node then dset d "location" v else d)).dict =
      .ok (if k = node then dset d "location" v else d) from rfl]
    dsimp only
    rw [hc]
    dsimp only
    rw [ih]
    rfl

theorem optTriple_nums (d : List (String × Yaml α)) (p : Vec3 α) :
    optTriple (dset d "location" (nums [p.x, p.y, p.z])) "location" = .ok (some p) := by
  unfold optTriple
  rw [lookup_dset_self]
  simp [nums, truth, triple, Yaml.list, args, floats, Yaml.number]

theorem placeNodes_move (names : List String) (node : String) (p : Vec3 α) :
    ∀ {parsed : List (String × List (String × Yaml α) × Content α)} {parents : List (String × String)}
      {ns : List (NodeDef α)}, placeNodes names parents parsed = .ok ns →
    placeNodes names parents (parsed.map (moveParsed node (nums [p.x, p.y, p.z]))) =
      .ok (ns.map (moveNode node p))
  | [], parents, ns, h => by
    rw [placeNodes] at h
    cases h
    rfl
  | (k, d, c) :: rest, parents, ns, h => by
    rw [placeNodes] at h
    rw [List.map_cons, moveParsed, placeNodes]
    dsimp only at h ⊢
    have hp : Doc.parentOf names k (if k = node then dset d "location" (nums [p.x, p.y, p.z]) else d) =
        Doc.parentOf names k d := by
      split
      · unfold Doc.parentOf
        rw [lookup_dset_ne d (show "parent" ≠ "location" by decide)]
      · rfl
    have hdir : optTriple (if k = node then dset d "location" (nums [p.x, p.y, p.z]) else d) "direction" =
        optTriple d "direction" := by
      split
      · unfold optTriple
        rw [lookup_dset_ne d (show "direction" ≠ "location" by decide)]
      · rfl
    rw [hp, hdir]
    cases h1 : Doc.parentOf names k d with
    | error e => rw [h1] at h; cases h
    | ok par =>
      rw [h1] at h
      dsimp only at h ⊢
      cases h2 : attach parents k par with
      | error e => rw [h2] at h; cases h
      | ok parents' =>
        rw [h2] at h
        dsimp only at h ⊢
        cases h3 : optTriple d "location" with
        | error e => rw [h3] at h; cases h
        | ok loc =>
          rw [h3] at h
          dsimp only at h
          cases h4 : optTriple d "direction" with
          | error e => rw [h4] at h; cases h
          | ok dir =>
            rw [h4] at h
            dsimp only at h
            cases h5 : placeNodes names parents' rest with
            | error e => rw [h5] at h; cases h
            | ok ns' =>
              rw [h5] at h
              dsimp only at h
              cases h
              have ih := placeNodes_move names node p h5
              by_cases hk : k = node
              · rw [if_pos hk, optTriple_nums]
                dsimp only
                rw [ih]
                simp [moveNode, hk]
              · rw [if_neg hk, h3]
                dsimp only
                rw [ih]
                simp [moveNode, hk]

theorem withAuto_move (node : String) (v : Yaml α) : ∀ (l recs : List (String × Yaml α)),
    withAuto recs (l.map (moveEntry node v)) = withAuto recs l
  | [], _ => rfl
  | (k, w) :: l, recs => by
    rw [List.map_cons]
    cases w with
    | map d =>
      have e : moveEntry node v (k, Yaml.map d) =
          (k, .map (if k = node then dset d "location" v else d)) := by
        unfold moveEntry
        by_cases hk : k = node
        · simp [hk]
        · simp [hk]
      rw [e, withAuto, withAuto]
      rw [show (Yaml.map (if k = node then dset d "location" v else d)).dict =
        .ok (if k = node then dset d "location" v else d) from rfl, show (Yaml.map d).dict = .ok d from rfl]
      dsimp only
      have h1 : (if k = node then dset d "location" v else d).lookup "record" = d.lookup "record" := by
        split
        · rw [lookup_dset_ne d (show "record" ≠ "location" by decide)]
        · rfl
      have h2 : autoRecorders k (if k = node then dset d "location" v else d) = autoRecorders k d := by
        split
        · unfold autoRecorders
          rw [lookup_dset_ne d (show "box" ≠ "location" by decide)]
        · rfl
      rw [h1, h2]
      split
      · cases autoRecorders k d with
        | error e => rfl
        | ok rs => exact withAuto_move node v l _
      · exact withAuto_move node v l _
    | _ =>
      unfold moveEntry
      split <;> simp [withAuto, Yaml.dict]

theorem move_names (node : String) (v : Yaml α) (l : List (String × Yaml α)) :
    (l.map (moveEntry node v)).map (·.1) = l.map (·.1) := by
  rw [List.map_map]
  refine List.map_congr_left fun e _ => ?_
  unfold moveEntry
  dsimp only [Function.comp]
  split <;> rfl

theorem object_dset {props : List (String × Schema.Check α)} {req : List String} {closed : Bool}
    {d : List (String × Yaml α)} {k : String} {v : Yaml α} {p : Schema.Check α}
    (h : Schema.object props req closed (.map d) = true) (hp : props.lookup k = some p) (hv : p v = true) :
    Schema.object props req closed (.map (dset d k v)) = true := by
  unfold Schema.object at h ⊢
  rw [Bool.and_eq_true, List.all_eq_true, List.all_eq_true] at h ⊢
  obtain ⟨h1, h2⟩ := h
  constructor
  · intro j hj
    by_cases e : j = k
    · rw [e, has, lookup_dset_self]; rfl
    · rw [has_dset d e]; exact h1 j hj
  · intro e he
    unfold dset at he
    split at he
    · obtain ⟨x, hx, rfl⟩ := List.mem_map.1 he
      by_cases hk : x.1 = k
      · rw [if_pos hk, hk, hp]; exact hv
      · rw [if_neg hk]; exact h2 x hx
    · rcases List.mem_append.1 he with hm | hm
      · exact h2 e hm
      · rw [List.mem_singleton] at hm
        rw [hm, hp]; exact hv

theorem node_move {d : List (String × Yaml α)} (h : Schema.node (.map d) = true) (l : List α) :
    Schema.node (.map (dset d "location" (nums l))) = true := by
  unfold Schema.node Schema.both at h ⊢
  rw [Bool.and_eq_true] at h ⊢
  refine ⟨object_dset h.1 (p := Schema.array Schema.number 0 none) (by simp [List.lookup_cons]) ?_, ?_⟩
  · simp [Schema.array, nums, Schema.number]
  · have := h.2
    unfold Schema.oneOf at this ⊢
    simp only [List.filter_cons, Schema.required, List.all_cons, List.all_nil, Bool.and_true] at this ⊢
    rw [has_dset d (show "box" ≠ "location" by decide), has_dset d (show "cylinder" ≠ "location" by decide),
      has_dset d (show "sphere" ≠ "location" by decide), has_dset d (show "mesh" ≠ "location" by decide),
      has_dset d (show "light" ≠ "location" by decide)]
    exact this

theorem document_move {data nodes d : List (String × Yaml α)} {node : String}
    (h : Schema.document (.map data) = true) (hl : data.lookup "nodes" = some (.map nodes))
    (hd : nodes.lookup node = some (.map d)) (l : List α) :
    Schema.document (.map (dset data "nodes" (.map (dset nodes node (.map (dset d "location" (nums l))))))) =
      true := by
  have hn : Schema.named Schema.node ["world"] (.map nodes) = true := by
    have hm := lookup_mem hl
    unfold Schema.document Schema.object at h
    rw [Bool.and_eq_true, List.all_eq_true, List.all_eq_true] at h
    have := h.2 _ hm
    simpa [List.lookup_cons] using this
  unfold Schema.document at h ⊢
  refine object_dset h (p := Schema.named Schema.node ["world"]) (by simp [List.lookup_cons]) ?_
  unfold Schema.named at hn ⊢
  rw [Bool.and_eq_true, List.all_eq_true, List.all_eq_true] at hn ⊢
  obtain ⟨h1, h2⟩ := hn
  constructor
  · intro j hj
    by_cases e : j = node
    · rw [e, has, lookup_dset_self]; rfl
    · rw [has_dset nodes e]; exact h1 j hj
  · intro e he
    unfold dset at he
    rw [if_pos (by rw [has, hd]; rfl)] at he
    obtain ⟨x, hx, rfl⟩ := List.mem_map.1 he
    by_cases hk : x.1 = node
    · rw [if_pos hk]
      have h3 := h2 _ (lookup_mem hd)
      rw [Bool.and_eq_true] at h3 ⊢
      exact ⟨by rw [hk]; exact h3.1, node_move h3.2 l⟩
    · rw [if_neg hk]; exact h2 x hx

/-- A file with a new location for one node loads, and gives the same scene with that node moved. -/
theorem move_loads {F : Files α} {data nodes d : List (String × Yaml α)} {s : SceneDef α} {node : String}
    (h : parseFile F (.map data) = .ok s) (hl : data.lookup "nodes" = some (.map nodes))
    (hn : (nodes.map (·.1)).Nodup) (hd : nodes.lookup node = some (.map d)) (p : Vec3 α) :
    parseFile F (.map (dset data "nodes" (.map (dset nodes node
      (.map (dset d "location" (nums [p.x, p.y, p.z]))))))) = .ok (moveScene node p s) := by
  obtain ⟨doc, e, hv, hver, hs⟩ := parseFile_stages h
  cases e
  obtain ⟨cs, comps, ns, parsed, h1, h2, h3, h4, h5, h6, hw⟩ := parseScene_stages hs
  rw [hl] at h3
  cases h3
  unfold parseFile
  rw [if_neg (by rw [document_move hv hl hd]; simp)]
  rw [show (Yaml.map (dset data "nodes" (.map (dset nodes node
      (.map (dset d "location" (nums [p.x, p.y, p.z]))))))).dict = .ok _ from rfl]
  dsimp only
  unfold dget
  rw [lookup_dset_ne data (show "version" ≠ "nodes" by decide), hver]
  dsimp only
  unfold parseScene
  have e1 : optDict (dset data "nodes" (.map (dset nodes node
      (.map (dset d "location" (nums [p.x, p.y, p.z])))))) "components" = .ok cs := by
    unfold optDict at h1 ⊢
    rw [lookup_dset_ne data (show "components" ≠ "nodes" by decide)]
    exact h1
  rw [e1]
  dsimp only
  rw [h2]
  dsimp only
  unfold dget
  rw [lookup_dset_self]
  dsimp only
  rw [show (Yaml.map (dset nodes node (.map (dset d "location" (nums [p.x, p.y, p.z]))))).dict = .ok _ from rfl]
  dsimp only
  rw [dset_entries hn hd, parseNodes_move node _ h4]
  dsimp only
  rw [move_names, placeNodes_move _ node p h5]
  dsimp only
  have e2 : sceneRecorders (dset data "nodes" (.map (nodes.map (moveEntry node (nums [p.x, p.y, p.z]))))) =
      .ok s.recorders := by
    rw [← h6]
    unfold sceneRecorders
    rw [lookup_dset_self, lookup_dset_ne data (show "recorders" ≠ "nodes" by decide), hl]
    dsimp only [Yaml.dict]
    split
    · rfl
    · rw [withAuto_move, move_names]
  rw [e2]
  dsimp only
  rw [if_pos hw]
  rfl

end

/-! ### Where the nodes are -/

variable {axis : Affine ℝ → Vec3 ℝ}

theorem rigidTest_of {m : Affine ℝ} (h : m.Rigid) : rigidTest m := by
  obtain ⟨h1, h2, h3, h4, h5, h6⟩ := h
  unfold rigidTest
  rw [h1, h2, h3, h4, h5, h6]
  norm_num

/-- The way down undoes the way up. -/
theorem multiDot_undo : ∀ l : List (Affine ℝ), (∀ m ∈ l, m.Rigid) → ∀ p,
    (multiDot l.reverse).point ((multiDot (l.map Affine.inv)).point p) = p
  | [], _, p => by simp [multiDot, PV.Node.one_point]
  | m :: l, h, p => by
    have e : multiDot ((m :: l).map Affine.inv) = m.inv.comp (multiDot (l.map Affine.inv)) := rfl
    rw [e, List.reverse_cons, PV.Node.multiDot_append, Affine.comp_point, Affine.comp_point]
    have e2 : multiDot [m] = m := by simp [multiDot, PV.Node.comp_one]
    rw [e2, (PV.Compile.transforms_undo (rigidTest_of (h m (by simp))) _).2.1]
    exact multiDot_undo l (fun k hk => h k (by simp [hk])) p

theorem fromWorld_undo (ha : FileScene.Proper axis) (s : SceneDef ℝ) (name : String) (p : Vec3 ℝ) :
    (s.toWorld axis name).point ((fromWorld axis s name).point p) = p := by
  unfold SceneDef.toWorld fromWorld
  have := multiDot_undo ((s.way s.nodes.length name).map (·.pose axis)) (by
    intro m hm
    obtain ⟨n, -, rfl⟩ := List.mem_map.1 hm
    exact (pose_rigid ha n).1) p
  rw [List.map_map] at this
  exact this

/-- The pose of a node with another location differs in its translation only. -/
theorem pose_located (ha : FileScene.Proper axis) (n : NodeDef ℝ) (p : Vec3 ℝ) :
    ({ n with location := some p } : NodeDef ℝ).pose axis = { n.pose axis with t := p } := by
  have ht := (pose_rigid ha ({ n with location := some p } : NodeDef ℝ)).2
  simp only [Option.getD_some] at ht
  have hl : ∀ q : Vec3 ℝ, ∃ t : Tf, ({ n with location := some q } : NodeDef ℝ).located = .ok t ∧
      t.pose = translationMatrix q := fun q => ⟨_, rfl, rfl⟩
  have hrot : ∀ (m : Tf) (q : Vec3 ℝ) (angle : ℝ) (ax : Vec3 ℝ), m.pose = translationMatrix q →
      ∃ t', m.apply (.rotate angle ax) = .ok t' ∧
        t'.pose.r0 = (rotationMatrix angle ax 0).r0 ∧ t'.pose.r1 = (rotationMatrix angle ax 0).r1 ∧
        t'.pose.r2 = (rotationMatrix angle ax 0).r2 := by
    intro m q angle ax hm
    refine ⟨_, rfl, ?_, ?_, ?_⟩ <;>
      · dsimp only [Affine.comp]
        rw [hm]
        ext <;> simp [translationMatrix, Affine.c0, Affine.c1, Affine.c2, Vec3.dot, rotationMatrix]
  have key : ∀ m m' : NodeDef ℝ, m.direction = m'.direction →
      (∃ t q, m.located = .ok t ∧ t.pose = translationMatrix q) →
      (∃ t q, m'.located = .ok t ∧ t.pose = translationMatrix q) →
      (m.pose axis).r0 = (m'.pose axis).r0 ∧ (m.pose axis).r1 = (m'.pose axis).r1 ∧
      (m.pose axis).r2 = (m'.pose axis).r2 := by
    intro m m' hd ⟨t, q, h1, h2⟩ ⟨t', q', h1', h2'⟩
    unfold NodeDef.pose NodeDef.transform
    rw [h1, h1', hd]
    dsimp only
    cases m'.direction with
    | none => dsimp only; rw [h2, h2']; exact ⟨rfl, rfl, rfl⟩
    | some b =>
      dsimp only
      unfold Tf.lookAt
      dsimp only
      by_cases hc : isclose ((⟨0, 0, 1⟩ : Vec3 ℝ).dot b) (-1)
      · rw [if_pos hc, if_pos hc]
        obtain ⟨u, e, e0, e1, e2⟩ := hrot t q Real.pi ⟨0, 1, 0⟩ h2
        obtain ⟨u', e', e0', e1', e2'⟩ := hrot t' q' Real.pi ⟨0, 1, 0⟩ h2'
        rw [e, e', e0, e1, e2, e0', e1', e2']
        exact ⟨rfl, rfl, rfl⟩
      · rw [if_neg hc, if_neg hc]
        obtain ⟨u, e, e0, e1, e2⟩ := hrot t q (rotationAngle (lookAtMatrix b) (axis (lookAtMatrix b)))
          (axis (lookAtMatrix b)) h2
        obtain ⟨u', e', e0', e1', e2'⟩ := hrot t' q' (rotationAngle (lookAtMatrix b) (axis (lookAtMatrix b)))
          (axis (lookAtMatrix b)) h2'
        rw [e, e', e0, e1, e2, e0', e1', e2']
        exact ⟨rfl, rfl, rfl⟩
  have hn : ∃ t q, n.located = .ok t ∧ t.pose = translationMatrix q := by
    unfold NodeDef.located
    cases n.location with
    | none => exact ⟨_, _, rfl, rfl⟩
    | some v => exact ⟨_, v, rfl, rfl⟩
  obtain ⟨k0, k1, k2⟩ := key { n with location := some p } n rfl
    (by obtain ⟨t, h1, h2⟩ := hl p; exact ⟨t, p, h1, h2⟩) hn
  exact Affine.ext k0 k1 k2 ht

/-- The node and all nodes below it. -/
inductive Under (s : SceneDef ℝ) (node : String) : String → Prop
  | self : Under s node node
  | child {n : NodeDef ℝ} {p : String} : n ∈ s.nodes → n.parent = some p → Under s node p → Under s node n.name

/-- The same orientation, `δ` further. -/
def shifted (δ : Vec3 ℝ) (m : Affine ℝ) : Affine ℝ := { m with t := m.t + δ }

theorem shifted_comp (δ : Vec3 ℝ) (m n : Affine ℝ) : (shifted δ m).comp n = shifted δ (m.comp n) := by
  unfold shifted Affine.comp Affine.point Affine.vec
  ext <;> simp [add_assoc]

theorem relocated_comp (m n : Affine ℝ) (p : Vec3 ℝ) :
    m.comp { n with t := p } = shifted (m.vec (p - n.t)) (m.comp n) := by
  unfold shifted Affine.comp Affine.point Affine.vec
  ext <;> simp [Affine.c0, Affine.c1, Affine.c2, Vec3.dot] <;> ring

/-- With another location of one node, it and all nodes below it are shifted by the same vector and
all others stay. -/
theorem moved_places (ha : FileScene.Proper axis) {s : SceneDef ℝ} (ht : Tree s) {n : NodeDef ℝ} (hn : n ∈ s.nodes)
    {q : String} (hq : n.parent = some q) (p : Vec3 ℝ)
    (hp : s.toWorld axis "world" = Affine.one ∧
      ∀ n ∈ s.nodes, n.name ≠ "world" → ∃ p ∈ s.nodes, n.parent = some p.name ∧
        s.toWorld axis n.name = (s.toWorld axis p.name).comp (n.pose axis))
    (hp' : (moveScene n.name p s).toWorld axis "world" = Affine.one ∧
      ∀ m ∈ (moveScene n.name p s).nodes, m.name ≠ "world" → ∃ p' ∈ (moveScene n.name p s).nodes,
        m.parent = some p'.name ∧ (moveScene n.name p s).toWorld axis m.name =
          ((moveScene n.name p s).toWorld axis p'.name).comp (m.pose axis)) :
    ∀ m ∈ s.nodes, (Under s n.name m.name → (moveScene n.name p s).toWorld axis m.name =
        shifted ((s.toWorld axis q).vec (p - (n.pose axis).t)) (s.toWorld axis m.name)) ∧
      (¬ Under s n.name m.name → (moveScene n.name p s).toWorld axis m.name = s.toWorld axis m.name) := by
  obtain ⟨d, hd⟩ := ht.ranked
  have hrank : ∀ m ∈ s.nodes, ∀ k, m.parent = some k → d m.name = d k + 1 := fun m hm k hk =>
    hd _ _ ((lookup_edges ht.names).2 ⟨m, hm, rfl, hk⟩)
  have under_rank : ∀ x, Under s n.name x → d n.name ≤ d x := by
    intro x hx
    induction hx with
    | self => exact le_refl _
    | child hm hk _ ih => rw [hrank _ hm _ hk]; omega
  have mname : ∀ m : NodeDef ℝ, (moveNode n.name p m).name = m.name := by
    intro m; unfold moveNode; split <;> rfl
  have mparent : ∀ m : NodeDef ℝ, (moveNode n.name p m).parent = m.parent := by
    intro m; unfold moveNode; split <;> rfl
  have hroot : n.name ≠ "world" := by
    intro e
    rcases ht.parents n hn with ⟨-, h⟩ | ⟨h, -⟩
    · rw [h] at hq; cases hq
    · exact h e
  suffices H : ∀ k, ∀ m ∈ s.nodes, d m.name = k →
      (Under s n.name m.name → (moveScene n.name p s).toWorld axis m.name =
        shifted ((s.toWorld axis q).vec (p - (n.pose axis).t)) (s.toWorld axis m.name)) ∧
      (¬ Under s n.name m.name → (moveScene n.name p s).toWorld axis m.name = s.toWorld axis m.name) from
    fun m hm => H _ m hm rfl
  intro k
  induction k with
  | zero =>
    intro m hm hk
    by_cases hw : m.name = "world"
    · constructor
      · intro hu
        exfalso
        have := under_rank _ hu
        rw [hk] at this
        rw [hrank n hn q hq] at this
        omega
      · intro _; rw [hw, hp.1, hp'.1]
    · obtain ⟨r, -, hr, -⟩ := hp.2 m hm hw
      rw [hrank m hm _ hr] at hk
      omega
  | succ k ih =>
    intro m hm hk
    by_cases hw : m.name = "world"
    · obtain ⟨r, hr⟩ : ∃ r, m.parent = none := by
        rcases ht.parents m hm with ⟨-, h⟩ | ⟨h, -⟩
        · exact ⟨(), h⟩
        · exact absurd hw h
      constructor
      · intro hu
        exfalso
        rw [hw] at hu
        generalize hx : "world" = x at hu
        cases hu with
        | self => exact hroot hx.symm
        | child hm' hk' _ =>
          rcases ht.parents _ hm' with ⟨-, h⟩ | ⟨h, -⟩
          · rw [h] at hk'; cases hk'
          · exact h hx.symm
      · intro _; rw [hw, hp.1, hp'.1]
    · obtain ⟨r, hrm, hr, e⟩ := hp.2 m hm hw
      obtain ⟨r', hrm', hr', e'⟩ := hp'.2 (moveNode n.name p m)
        (List.mem_map.2 ⟨m, hm, rfl⟩) (by rw [mname]; exact hw)
      rw [mparent, hr] at hr'
      have hrr : r'.name = r.name := (Option.some.inj hr').symm
      rw [mname, hrr] at e'
      obtain ⟨i1, i2⟩ := ih r hrm (by have := hrank m hm _ hr; omega)
      by_cases hmn : m.name = n.name
      · have hmn' : m = n := List.inj_on_of_nodup_map ht.names hm hn hmn
        subst hmn'
        rw [hr] at hq
        have hrq := Option.some.inj hq
        have hnu : ¬ Under s m.name r.name := by
          intro hu
          have h1 := under_rank _ hu
          have h2 := hrank m hm _ hr
          omega
        have hpose : (moveNode m.name p m).pose axis = { m.pose axis with t := p } := by
          unfold moveNode
          rw [if_pos rfl]
          exact pose_located ha m p
        constructor
        · intro _
          rw [e', i2 hnu, hpose, relocated_comp, e, hrq]
        · intro hu; exact absurd Under.self hu
      · have hpose : moveNode n.name p m = m := by unfold moveNode; rw [if_neg hmn]
        have hiff : Under s n.name m.name ↔ Under s n.name r.name := by
          constructor
          · intro hu
            generalize hx : m.name = x at hu
            cases hu with
            | self => exact absurd hx hmn
            | child hm' hk' hu' =>
              have := List.inj_on_of_nodup_map ht.names hm hm' hx
              subst this
              rw [hr] at hk'
              cases hk'
              exact hu'
          · intro hu; exact .child hm hr hu
        constructor
        · intro hu
          rw [e', i1 (hiff.1 hu), hpose, shifted_comp, e]
        · intro hu
          rw [e', i2 (fun h => hu (hiff.2 h)), hpose, e]

/-- Two scenes that differ at most in the location of one node. -/
structure SameBut (node : String) (s s' : SceneDef ℝ) : Prop where
  nodes : List.Forall₂ (fun n n' : NodeDef ℝ => n'.name = n.name ∧ n'.content = n.content ∧
    n'.parent = n.parent ∧ n'.direction = n.direction ∧ (n.name ≠ node → n'.location = n.location))
    s.nodes s'.nodes
  recorders : s'.recorders = s.recorders

theorem moveScene_same (node : String) (p : Vec3 ℝ) (s : SceneDef ℝ) : SameBut node s (moveScene node p s) where
  nodes := by
    unfold moveScene
    rw [List.forall₂_map_right_iff]
    refine List.forall₂_same.2 fun n _ => ?_
    unfold moveNode
    split
    · rename_i h; exact ⟨rfl, rfl, rfl, rfl, fun h' => absurd h h'⟩
    · exact ⟨rfl, rfl, rfl, rfl, fun _ => rfl⟩
  recorders := rfl

/-- **C94.** A node dropped at a point of the scene: the changed document loads and describes the same
scene but for the location of this node. The node is where it was dropped, up to half a millionth along
each axis of its parent, it and all nodes below it are shifted by the same vector without being turned,
and no other node moves. -/
theorem dropped_there {Text : Type} (ha : FileScene.Proper axis) (B : Backend ℝ Text (SceneDef ℝ))
    (hB : ∀ s node w, B.localOf s node w = dropped axis s node w) {F : Files ℝ}
    {data data' : List (String × Yaml ℝ)} {s : SceneDef ℝ} {node : String} {world : Vec3 ℝ}
    (h : parseFile F (.map data) = .ok s) (hn : ((entries "nodes" (.map data)).map (·.1)).Nodup)
    (he : edit B (some s) data (.move node world) = .ok data') :
    ∃ s' δ, parseFile F (.map data') = .ok s' ∧ SameBut node s s' ∧
      ((s'.toWorld axis node).t - world).dot ((s'.toWorld axis node).t - world) ≤ 3 * (1 / (2 * 10 ^ 6)) ^ 2 ∧
      ∀ m ∈ s.nodes,
        (Under s node m.name → s'.toWorld axis m.name = shifted δ (s.toWorld axis m.name)) ∧
        (¬ Under s node m.name → s'.toWorld axis m.name = s.toWorld axis m.name) := by
  have ht := tree h hn
  -- the document
  unfold edit at he
  dsimp only at he
  rw [hB] at he
  cases hl : dropped axis s node world with
  | error e => rw [hl] at he; cases he
  | ok loc =>
  rw [hl] at he
  dsimp only at he
  cases hs : section? data "nodes" with
  | error e => rw [hs] at he; cases he
  | ok nodes =>
  rw [hs] at he
  dsimp only at he
  have hlk := section_ok hs
  cases hg : dget nodes node with
  | error e => rw [hg] at he; cases he
  | ok spec =>
  rw [hg] at he
  dsimp only at he
  cases hd : spec.dict with
  | error e => rw [hd] at he; cases he
  | ok d =>
  rw [hd] at he
  dsimp only at he
  cases he
  have hspec : nodes.lookup node = some (.map d) := by
    rw [dget_iff.1 hg, dict_iff.1 hd]
  -- the node
  unfold dropped at hl
  cases hf : s.find node with
  | none => rw [hf] at hl; cases hl
  | some n =>
  rw [hf] at hl
  dsimp only at hl
  cases hq : n.parent with
  | none => rw [hq] at hl; cases hl
  | some q =>
  rw [hq] at hl
  dsimp only at hl
  cases hl
  have hnm := List.mem_of_find?_eq_some hf
  have hnn : n.name = node := by simpa using List.find?_some hf
  subst hnn
  set p := Live.roundVec 6 ((fromWorld axis s q).point world) with hp
  rw [entries_map hlk] at hn
  have h' := move_loads h hlk hn hspec p
  have hn' : ((entries "nodes" (.map (dset data "nodes" (.map (dset nodes n.name
      (.map (dset d "location" (nums [p.x, p.y, p.z])))))))).map (·.1)).Nodup := by
    rw [entries_map (lookup_dset_self data "nodes" _), dset_entries hn hspec, move_names]
    exact hn
  have hpl := placed ha h (by rw [entries_map hlk]; exact hn)
  have hpl' := placed ha h' hn'
  have key := moved_places ha ht hnm hq p
    ⟨hpl.1, fun m hm hw => by obtain ⟨r, h1, h2, h3, -⟩ := hpl.2 m hm hw; exact ⟨r, h1, h2, h3⟩⟩
    ⟨hpl'.1, fun m hm hw => by obtain ⟨r, h1, h2, h3, -⟩ := hpl'.2 m hm hw; exact ⟨r, h1, h2, h3⟩⟩
  refine ⟨moveScene n.name p s, _, h', moveScene_same _ _ _, ?_, key⟩
  -- its place
  have hroot : n.name ≠ "world" := by
    intro e
    rcases ht.parents n hnm with ⟨-, h⟩ | ⟨h, -⟩
    · rw [h] at hq; cases hq
    · exact h e
  obtain ⟨r, -, hr, e, -⟩ := hpl.2 n hnm hroot
  rw [hq] at hr
  cases hr
  rw [(key n hnm).1 .self, e, ← relocated_comp]
  have e2 : ((s.toWorld axis r.name).comp { n.pose axis with t := p }).t = (s.toWorld axis r.name).point p := rfl
  rw [e2]
  have e3 : (s.toWorld axis r.name).point p - world =
      (s.toWorld axis r.name).vec (p - (fromWorld axis s r.name).point world) := by
    conv_lhs => rw [← fromWorld_undo ha s r.name world]
    generalize (fromWorld axis s r.name).point world = u
    unfold Affine.point Affine.vec
    ext <;> simp [Vec3.dot] <;> ring
  rw [e3, Affine.Rigid.dot_vec (toWorld_rigid ha s r.name), hp]
  generalize (fromWorld axis s r.name).point world = u
  have hx := Live.npRound_close (α := ℝ) 6 u.x
  have hy := Live.npRound_close (α := ℝ) 6 u.y
  have hz := Live.npRound_close (α := ℝ) 6 u.z
  have sq : ∀ {a b : ℝ}, |a| ≤ b → a * a ≤ b ^ 2 := fun {a b} hab => by
    have := mul_self_le_mul_self (abs_nonneg a) hab
    rw [abs_mul_abs_self] at this
    nlinarith
  have := sq hx; have := sq hy; have := sq hz
  simp only [Vec3.dot, Live.roundVec, Vec3.sub_x, Vec3.sub_y, Vec3.sub_z]
  linarith

/-- **C94.** Every node of the file but `world` can be dropped anywhere; `world` and unknown nodes
cannot. -/
theorem drop_accepted {Text : Type} (B : Backend ℝ Text (SceneDef ℝ))
    (hB : ∀ s node w, B.localOf s node w = dropped axis s node w) {F : Files ℝ}
    {data : List (String × Yaml ℝ)} {s : SceneDef ℝ} (h : parseFile F (.map data) = .ok s)
    (hn : ((entries "nodes" (.map data)).map (·.1)).Nodup) (node : String) (world : Vec3 ℝ) :
    (∃ data', edit B (some s) data (.move node world) = .ok data') ↔
      node ∈ (entries "nodes" (.map data)).map (·.1) ∧ node ≠ "world" := by
  have ht := tree h hn
  obtain ⟨doc, e, hv, -, hsc⟩ := parseFile_stages h
  cases e
  obtain ⟨cs, comps, ns, parsed, -, -, h3, h4, h5, -, -⟩ := parseScene_stages hsc
  rw [entries_map h3]
  have hnames : s.nodes.map (·.name) = ns.map (·.1) := by
    rw [placeNodes_names h5, parseNodes_names h4]
  rw [← hnames]
  constructor
  · rintro ⟨data', he⟩
    unfold edit at he
    dsimp only at he
    rw [hB] at he
    cases hl : dropped axis s node world with
    | error e => rw [hl] at he; cases he
    | ok loc =>
      unfold dropped at hl
      cases hf : s.find node with
      | none => rw [hf] at hl; cases hl
      | some n =>
        rw [hf] at hl
        dsimp only at hl
        cases hq : n.parent with
        | none => rw [hq] at hl; cases hl
        | some q =>
          have hnm := List.mem_of_find?_eq_some hf
          have hnn : n.name = node := by simpa using List.find?_some hf
          subst hnn
          refine ⟨List.mem_map.2 ⟨n, hnm, rfl⟩, fun e => ?_⟩
          rcases ht.parents n hnm with ⟨-, h⟩ | ⟨h, -⟩
          · rw [h] at hq; cases hq
          · exact h e
  · rintro ⟨hm, hw⟩
    obtain ⟨n, hnm, rfl⟩ := List.mem_map.1 hm
    obtain ⟨q, hq⟩ : ∃ q, n.parent = some q := by
      rcases ht.parents n hnm with ⟨h, -⟩ | ⟨-, q, -, h⟩
      · exact absurd h hw
      · exact ⟨q, h⟩
    have hl : ∃ loc, dropped axis s n.name world = .ok loc := by
      unfold dropped
      rw [find_of_mem ht.names hnm]
      dsimp only
      rw [hq]
      exact ⟨_, rfl⟩
    obtain ⟨loc, hl⟩ := hl
    obtain ⟨v, hvm⟩ : ∃ v, (n.name, v) ∈ ns := by
      rw [hnames] at hm
      obtain ⟨x, hx, hxn⟩ := List.mem_map.1 hm
      exact ⟨x.2, by rw [← hxn]; exact hx⟩
    have hlook : ns.lookup n.name = some v := mem_lookup (by rw [entries_map h3] at hn; exact hn) hvm
    have hsec : section? data "nodes" = .ok ns := by
      unfold section? dget
      rw [h3]
      rfl
    obtain ⟨d, hd⟩ : ∃ d, v.dict = .ok d := by
      clear hlook hsec h5 hnames hn h3
      induction ns generalizing parsed with
      | nil => cases hvm
      | cons x ns ih =>
        obtain ⟨d, c, ps, e1, -, e3, -⟩ := parseNodes_cons (k := x.1) (v := x.2) h4
        rcases List.mem_cons.1 hvm with hx | hx
        · rw [← hx] at e1
          exact ⟨d, by rw [show v = Yaml.map d from e1]; rfl⟩
        · exact ih _ e3 hx
    unfold edit
    dsimp only
    rw [hB, hl]
    dsimp only
    rw [hsec]
    dsimp only
    rw [dget_iff.2 hlook]
    dsimp only
    rw [hd]
    exact ⟨_, rfl⟩

/-! ### Example -/

/-- A studio whose scenes are read from files. -/
noncomputable def fileBackend : Backend ℝ (List (String × Yaml ℝ)) (SceneDef ℝ) where
  load := .ok
  dump := id
  parse t := parseFile nothing (.map t)
  payload _ := .ok ()
  localOf := dropped fun _ => ⟨0, 0, 1⟩
  recorders _ := []

/-- Non-vacuity: the ball of the example can be dropped at (4, 5, 6); the lamp, which is attached to it,
is shifted with it, the world stays. -/
example : ∃ data data' s' δ, ballFile = .map data ∧
    edit fileBackend (some ballDef) data (.move "ball" ⟨4, 5, 6⟩) = .ok data' ∧
    parseFile nothing (.map data') = .ok s' ∧
    s'.toWorld (fun _ => ⟨0, 0, 1⟩) "lamp" = shifted δ (ballDef.toWorld (fun _ => ⟨0, 0, 1⟩) "lamp") ∧
    s'.toWorld (fun _ => ⟨0, 0, 1⟩) "world" = ballDef.toWorld (fun _ => ⟨0, 0, 1⟩) "world" := by
  have ha : FileScene.Proper fun _ => ⟨0, 0, 1⟩ := fun _ h => by simpa using congrArg Vec3.z h
  obtain ⟨data, hd⟩ : ∃ data, ballFile = .map data := ⟨_, rfl⟩
  have hl := ball_loads
  have hn := ball_names
  rw [hd] at hl hn
  obtain ⟨data', he⟩ := (drop_accepted (axis := fun _ => ⟨0, 0, 1⟩) fileBackend (fun _ _ _ => rfl) hl hn "ball" ⟨4, 5, 6⟩).2
    ⟨by rw [← hd]; simp [entries, ballFile, under, List.lookup_cons], by simp⟩
  obtain ⟨s', δ, h1, -, -, h2⟩ := dropped_there ha fileBackend (fun _ _ _ => rfl) hl hn he
  refine ⟨data, data', s', δ, hd, he, h1, ?_, ?_⟩
  · exact (h2 ⟨"lamp", .light ⟨some (.constant 555), none, none, "lamp"⟩, some "ball", none, none⟩
      (by simp [ballDef])).1 (.child (by simp [ballDef]) rfl .self)
  · obtain ⟨w, hw, hwn⟩ : ∃ w ∈ ballDef.nodes, w.name = "world" ∧ w.parent = none := by
      simp [ballDef]
    have hno : ∀ name, Under ballDef "ball" name → name ≠ "world" := by
      intro name hu
      induction hu with
      | self => simp
      | child hm hp _ _ =>
        simp only [ballDef, List.mem_cons, List.not_mem_nil, or_false] at hm
        rcases hm with rfl | rfl | rfl <;> simp_all
    have := (h2 w hw).2 fun hu => hno _ hu hwn.1
    rwa [hwn.1] at this

end PV.View
