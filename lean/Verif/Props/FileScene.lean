import Verif.Spec.FileScene
import Verif.Props.SceneFile
import Verif.Props.Compile
import Verif.Props.Transformable
import Verif.Props.Node

/-!
C85. Scenes read from files run in the engine.
-/

namespace PV.FileScene
open PV PV.Doc PV.Spec PV.SceneFile PV.Compile
noncomputable section
open Classical

/-- The eigenvectors found are not zero. -/
def Proper (axis : Affine ℝ → Vec3 ℝ) : Prop := ∀ m, axis m ≠ 0

/-- Positions and directions never fail, and the pose of a node is rigid. -/
theorem transform_ok {axis : Affine ℝ → Vec3 ℝ} (ha : Proper axis) (n : NodeDef ℝ) :
    ∃ t, n.transform axis = .ok t ∧ t.pose.Rigid ∧ t.pose.t = n.location.getD 0 := by
  have htr : ∀ v, (translationMatrix v).Rigid := fun v => by
    simp [translationMatrix, Affine.Rigid, Vec3.dot]
  have start : ∃ t : Tf, n.located = .ok t ∧ t.pose.Rigid ∧
      t.pose.t = n.location.getD 0 ∧ t.location = t.pose.t := by
    unfold NodeDef.located
    cases n.location with
    | none => exact ⟨_, rfl, htr _, rfl, rfl⟩
    | some v => exact ⟨_, rfl, htr v, rfl, rfl⟩
  obtain ⟨t, h1, h2, h3, h4⟩ := start
  unfold NodeDef.transform
  rw [h1]
  dsimp only
  have key : ∀ angle ax, ax ≠ 0 → ∃ t', t.apply (.rotate angle ax) = .ok t' ∧ t'.pose.Rigid ∧
      t'.pose.t = n.location.getD 0 := by
    intro angle ax hax
    obtain ⟨t', e1, -, e3⟩ := PV.Pose.rotate_keeps_location h4 angle ax
    refine ⟨t', e1, ?_, by rw [e3, h3]⟩
    simp only [Tf.apply, Except.ok.injEq] at e1
    subst e1
    exact PV.Pose.rigid_comp (PV.Pose.rotation_rotationMatrix hax).1 h2
  cases n.direction with
  | none => exact ⟨t, rfl, h2, h3⟩
  | some b =>
    dsimp only
    unfold Tf.lookAt
    dsimp only
    split
    · exact key _ _ fun h => by simpa using congrArg Vec3.y h
    · exact key _ _ (ha _)

theorem pose_rigid {axis : Affine ℝ → Vec3 ℝ} (ha : Proper axis) (n : NodeDef ℝ) :
    (n.pose axis).Rigid ∧ (n.pose axis).t = n.location.getD 0 := by
  obtain ⟨t, h, h'⟩ := transform_ok ha n
  unfold NodeDef.pose
  rw [h]
  exact h'

/-- **C85.** A node with a unit vector as direction looks along it (in the frame of its parent); without
direction it is not rotated. The exceptions are those of `look_at`. -/
theorem aimed {axis : Affine ℝ → Vec3 ℝ} (n : NodeDef ℝ) :
    (n.direction = none → ∀ u, (n.pose axis).vec u = u) ∧
    ∀ b, n.direction = some b → b.dot b = 1 → (b = ⟨0, 0, -1⟩ ∨ ¬ isclose b.z (-1)) →
      PV.Pose.EigAxis axis b → (n.pose axis).vec ⟨0, 0, 1⟩ = b := by
  have htr : ∀ v u, (translationMatrix v).vec u = u := fun v u => by
    ext <;> simp [translationMatrix, Affine.vec, Vec3.dot]
  obtain ⟨t, h1, h2, h4⟩ : ∃ t : Tf, n.located = .ok t ∧ PV.Pose.Unrotated t ∧ t.location = t.pose.t := by
    unfold NodeDef.located
    cases n.location with
    | none => exact ⟨_, rfl, htr _, rfl⟩
    | some v => exact ⟨_, rfl, htr v, rfl⟩
  unfold NodeDef.pose NodeDef.transform
  rw [h1]
  constructor
  · intro h u
    rw [h]
    exact h2 u
  · intro b h hb hz hax
    rw [h]
    obtain ⟨s', e, e', -⟩ := PV.Pose.look_at_partial h2 h4 hb hz hax
    dsimp only
    rw [e]
    exact e'

theorem rigid_one : (Affine.one : Affine ℝ).Rigid := by simp [Affine.one, Affine.Rigid, Vec3.dot]

theorem rigid_multiDot : ∀ l : List (Affine ℝ), (∀ m ∈ l, m.Rigid) → (multiDot l).Rigid
  | [], _ => rigid_one
  | m :: l, h => PV.Pose.rigid_comp (h m (by simp)) (rigid_multiDot l fun k hk => h k (by simp [hk]))

theorem toWorld_rigid {axis : Affine ℝ → Vec3 ℝ} (ha : Proper axis) (s : SceneDef ℝ) (name : String) :
    (s.toWorld axis name).Rigid := by
  refine rigid_multiDot _ fun m hm => ?_
  simp only [List.mem_reverse, List.mem_map] at hm
  obtain ⟨n, -, rfl⟩ := hm
  exact (pose_rigid ha n).1

/-! ### The nodes of a loaded file -/

/-- What loading establishes: distinct names, one tree below `world`. -/
structure Tree (s : SceneDef ℝ) : Prop where
  names : (s.nodes.map (·.name)).Nodup
  ranked : Ranked (edges s.nodes).reverse
  world : "world" ∈ s.nodes.map (·.name)
  parents : ∀ n ∈ s.nodes, (n.name = "world" ∧ n.parent = none) ∨
    (n.name ≠ "world" ∧ ∃ p ∈ s.nodes.map (·.name), n.parent = some p)

theorem tree {F : Files ℝ} {v : Yaml ℝ} {s : SceneDef ℝ} (h : parseFile F v = .ok s)
    (hn : ((entries "nodes" v).map (·.1)).Nodup) : Tree s := by
  obtain ⟨doc, rfl, _, _, hs⟩ := parseFile_stages h
  obtain ⟨cs, comps, ns, parsed, _, _, h3, h4, h5, _, hw⟩ := parseScene_stages hs
  rw [entries_map h3] at hn
  have hnames : s.nodes.map (·.name) = ns.map (·.1) := by
    rw [placeNodes_names h5, parseNodes_names h4]
  rw [← hnames] at hn hw
  refine ⟨hn, ?_, hw, ?_⟩
  · have := placeNodes_ranked h5 ⟨fun _ => 0, by simp⟩ (by
      rw [parseNodes_names h4, ← hnames]; exact hn) (by simp)
    simpa using this
  · rw [hnames]; exact placeNodes_parents h5

theorem find_of_mem {s : SceneDef ℝ} (h : (s.nodes.map (·.name)).Nodup) {n : NodeDef ℝ}
    (hm : n ∈ s.nodes) : s.find n.name = some n := by
  unfold SceneDef.find
  cases hf : s.nodes.find? (fun m => m.name = n.name) with
  | none =>
    have := List.find?_eq_none.1 hf n hm
    simp at this
  | some m =>
    have h1 := List.mem_of_find?_eq_some hf
    have h2 := List.find?_some hf
    simp only [decide_eq_true_eq] at h2
    rw [List.inj_on_of_nodup_map h h1 hm h2]

/-- The object made of a node. -/
def object (axis : Affine ℝ → Vec3 ℝ) (s : SceneDef ℝ) (n : NodeDef ℝ) : PyNode :=
  ⟨n.name, n.content.geometry?, s.toWorld axis n.name⟩

theorem objects_perm {axis : Affine ℝ → Vec3 ℝ} {s : SceneDef ℝ} (h : Tree s) :
    (s.objects axis).Perm (s.nodes.map (object axis s)) := by
  have hp := perm_of_tree h.names h.ranked h.world h.parents
  refine (hp.filterMap _).trans ?_
  rw [List.filterMap_map]
  have : ∀ l : List (NodeDef ℝ), (∀ n ∈ l, n ∈ s.nodes) →
      l.filterMap ((fun name => (s.find name).map fun n =>
        (⟨n.name, n.content.geometry?, s.toWorld axis n.name⟩ : PyNode)) ∘ fun n => n.name) =
      l.map (object axis s) := by
    intro l
    induction l with
    | nil => intro _; rfl
    | cons n l ih =>
      intro hl
      have hf := find_of_mem h.names (hl n (by simp))
      rw [List.filterMap_cons_some (b := object axis s n) (by simp [hf, object]),
        ih fun m hm => hl m (by simp [hm])]
      rfl
  rw [this _ fun _ h => h]

theorem objects_head {axis : Affine ℝ → Vec3 ℝ} {s : SceneDef ℝ} (h : Tree s) :
    ∃ n ∈ s.nodes, n.name = "world" ∧ (s.objects axis).head? = some (object axis s n) := by
  obtain ⟨n, hm, hn⟩ := List.mem_map.1 h.world
  refine ⟨n, hm, hn, ?_⟩
  have hl : s.nodes.length = (s.nodes.length - 1) + 1 := by
    have := List.length_pos_of_mem hm; omega
  unfold SceneDef.objects SceneDef.visited
  rw [hl]
  unfold SceneDef.preorder
  rw [List.filterMap_cons_some (b := object axis s n)]
  · rfl
  · rw [← hn, find_of_mem h.names hm]; rfl

theorem geometryNodes_perm {axis : Affine ℝ → Vec3 ℝ} {s : SceneDef ℝ} (h : Tree s) :
    (geometryNodes (s.objects axis)).Perm (s.nodes.filterMap fun n =>
      n.content.geometry?.map fun g => (n.name, s.toWorld axis n.name, g)) := by
  refine ((objects_perm h).filterMap _).trans ?_
  rw [List.filterMap_map]
  rfl

theorem length_solid (axis : Affine ℝ → Vec3 ℝ) (s : SceneDef ℝ) (l : List (NodeDef ℝ)) :
    (l.filterMap fun n => n.content.geometry?.map fun g => (n.name, s.toWorld axis n.name, g)).length =
      (l.filter fun n => solid n.content).length := by
  induction l with
  | nil => rfl
  | cons n l ih =>
    cases hc : n.content with
    | geometry sh m =>
      rw [List.filterMap_cons_some (by rw [hc]; rfl), List.filter_cons_of_pos (by rw [hc]; rfl)]
      simp [ih]
    | light li =>
      rw [List.filterMap_cons_none (by rw [hc]; rfl), List.filter_cons_of_neg (by rw [hc]; simp [solid])]
      exact ih

theorem object_ok (c : CompDef ℝ) (hk : c.kind ≠ .other) : CompOk c.object ↔ CompTraceable c := by
  constructor
  · intro h
    refine ⟨fun e => h.phase (by simp [CompDef.object, e, Aiming.phase]), ?_, fun hk => ?_⟩
    · have h1 := h.coefficient
      simp only [CompDef.object, Option.isSome_iff_exists] at h1
      obtain ⟨d, hd⟩ := h1
      cases d with
      | const q =>
        left
        exact ⟨q, hd, h.constant q (by simp [CompDef.object, hd])⟩
      | table T hist =>
        right
        have := h.absorption T hist (by simp [CompDef.object, hd])
        subst this
        exact ⟨T, hd⟩
    · obtain ⟨T, hT⟩ := h.emission hk
      simp only [CompDef.object] at hT
      cases he : c.emission with
      | none => rw [he] at hT; cases hT
      | some d => rw [he] at hT; exact ⟨T, congrArg some hT⟩
  · intro h
    refine ⟨hk, ?_, ?_, ?_, ?_, fun hk => ?_⟩
    · intro e
      refine h.phase ?_
      cases hp : c.phase <;> simp [CompDef.object, hp, Aiming.phase] at e ⊢
    · rcases h.coefficient with ⟨q, hd, -⟩ | ⟨T, hd⟩ <;> simp [CompDef.object, hd]
    · intro T hist e
      rcases h.coefficient with ⟨q, hd, -⟩ | ⟨T', hd⟩ <;> simp [CompDef.object, hd] at e
      exact e.2
    · intro y e
      rcases h.coefficient with ⟨q, hd, hc⟩ | ⟨T', hd⟩
      · exact hc
      · simp [CompDef.object, hd] at e
    · obtain ⟨T, hT⟩ := h.emission hk
      exact ⟨T, by simp [CompDef.object, hT]⟩

/-! ### Components as the parser builds them -/

/-- Tables are not empty, the emission of a luminophore is a table, and the class is known. -/
structure WellMade (c : CompDef ℝ) : Prop where
  kind : c.kind ≠ .other
  absorption : ∀ T h, c.dist = some (.table T h) → 1 ≤ T.n
  emission : c.kind = .luminophore → ∃ T h, c.emission = some (.table T h) ∧ 1 ≤ T.n

theorem distOf_table {l : List (ℝ × ℝ)} {hist : Bool} {D : Dist ℝ} (h : distOf l hist = .ok D) :
    ∃ T, D = .table T hist ∧ 1 ≤ T.n := by
  obtain ⟨e, hl⟩ := distOf_ok h
  exact ⟨_, e, by show 1 ≤ l.length; omega⟩

theorem absorptionOf_table {hist : Bool} {c : Option (Yaml ℝ)} {sp : Option (Columns ℝ)}
    {d : Option (Dist ℝ)} {ch : Bool} (h : absorptionOf hist c sp = .ok (d, ch)) :
    ∀ T k, d = some (.table T k) → 1 ≤ T.n := by
  intro T k hd
  subst hd
  unfold absorptionOf at h
  cases c with
  | none => cases sp <;> cases h
  | some c =>
    cases sp with
    | none =>
      dsimp only at h
      split at h
      · simp only [Except.ok.injEq, Prod.mk.injEq] at h
        cases c <;> simp [constOf] at h
      · cases h
    | some t =>
      dsimp only at h
      repeat' split at h
      all_goals first | (cases h; done) | skip
      rename_i D hD
      obtain ⟨T', e, hT⟩ := distOf_table hD
      subst e
      simp only [Except.ok.injEq, Prod.mk.injEq, Option.some.injEq, Dist.table.injEq] at h
      rw [← h.1.1]; exact hT

theorem component_made {F : Files ℝ} {k : String} {v : Yaml ℝ} {c : CompDef ℝ}
    (h : parseComponent F k v = .ok c) : WellMade c := by
  unfold parseComponent at h
  repeat' split at h
  all_goals first | (cases h; done) | skip
  · unfold parseAbsorber at h
    repeat' split at h
    all_goals first | (cases h; done) | skip
    rename_i hd
    cases h
    exact ⟨by simp, absorptionOf_table hd, fun hk => by cases hk⟩
  · unfold parseScatterer at h
    repeat' split at h
    all_goals first | (cases h; done) | skip
    rename_i hd
    cases h
    exact ⟨by simp, absorptionOf_table hd, fun hk => by cases hk⟩
  · unfold parseLuminophore at h
    repeat' split at h
    all_goals first | (cases h; done) | skip
    rename_i hd _ _ he
    cases h
    obtain ⟨T, e, hT⟩ := distOf_table he
    exact ⟨by simp, absorptionOf_table hd, fun _ => ⟨T, _, by rw [e], hT⟩⟩

theorem components_made {F : Files ℝ} : ∀ {l : List (String × Yaml ℝ)} {cs : List (String × CompDef ℝ)},
    parseComponents F l = .ok cs → ∀ c ∈ cs, WellMade c.2
  | [], cs, h => by cases h; simp
  | (k, v) :: l, cs, h => by
    unfold parseComponents at h
    repeat' split at h
    all_goals first | (cases h; done) | skip
    rename_i hc _ cs' hcs
    cases h
    intro c hm
    rcases List.mem_cons.1 hm with rfl | hm
    · exact component_made hc
    · exact components_made hcs c hm

theorem file_made {F : Files ℝ} {v : Yaml ℝ} {s : SceneDef ℝ} (h : parseFile F v = .ok s) :
    ∀ n ∈ s.nodes, ∀ sh m, n.content = .geometry sh m → ∀ c ∈ m.comps, WellMade c := by
  obtain ⟨doc, rfl, _, _, hs⟩ := parseFile_stages h
  obtain ⟨cs, comps, ns, parsed, h1, h2, h3, h4, h5, _, _⟩ := parseScene_stages hs
  have hN := placed_are h4 h5
  intro n hn sh m hc c hm
  obtain ⟨e, -, hr⟩ := forall₂_right hN hn
  rcases hr.content with ⟨sh', m', hc', hg⟩ | ⟨_, _, hc', _⟩
  · rw [hc] at hc'; cases hc'
    obtain ⟨w, -, hw⟩ := hg.material
    rcases hw.components with ⟨-, h0⟩ | ⟨names, -, hmap⟩
    · rw [h0] at hm; cases hm
    · have : some c ∈ names.map fun k => comps.lookup k := by
        rw [hmap]; exact List.mem_map_of_mem hm
      obtain ⟨k, -, hk⟩ := List.mem_map.1 this
      have hmem : ∀ (l : List (String × CompDef ℝ)), l.lookup k = some c → ∃ x ∈ l, x.2 = c := by
        intro l
        induction l with
        | nil => intro h; cases h
        | cons x l ih =>
          intro h
          rw [List.lookup_cons] at h
          cases hb : k == x.1 with
          | true => rw [hb] at h; cases h; exact ⟨x, by simp, rfl⟩
          | false =>
            rw [hb] at h
            obtain ⟨y, hy, e⟩ := ih h
            exact ⟨y, by simp [hy], e⟩
      obtain ⟨x, hx, rfl⟩ := hmem _ hk
      exact components_made h2 x hx
  · rw [hc] at hc'; cases hc'

/-! ### C85 -/

theorem shape_known (sh : ShapeDef ℝ) : (∃ g, sh.object = .known g) ↔ ∀ f, sh ≠ .mesh f := by
  cases sh <;> simp [ShapeDef.object]

theorem phase_made (a : Aiming ℝ) : PhaseMade a a.phase := by
  cases a with
  | cone q => exact .cone (by ring)
  | isotropic => exact .isotropic
  | lambertian => exact .lambertian
  | henyeyGreenstein g => exact .henyeyGreenstein

theorem comp_made (c : CompDef ℝ) : CompMade c c.object where
  name := rfl
  kind := rfl
  coefficient d h := by simp [CompDef.object, h]
  emission d h := by simp [CompDef.object, h]
  yield := rfl
  phase := phase_made _
  prompt := ⟨rfl, by by_cases h : c.kind = .absorber <;> simp [CompDef.object, h]⟩
  plain := rfl

theorem geometry_made (s : ShapeDef ℝ) (m : MatDef ℝ) :
    ∃ g, (Content.geometry s m).geometry? = some g ∧ GeometryMade s m g := by
  refine ⟨_, rfl, ?_, _, rfl, rfl, rfl, ?_⟩
  · cases s with
    | box s => exact .box
    | cylinder l r => exact .cylinder
    | sphere r => exact .sphere
    | mesh f => exact .mesh
  · show List.Forall₂ _ m.comps (m.comps.map _)
    induction m.comps with
    | nil => exact .nil
    | cons c l ih => exact .cons (comp_made c) ih

/-- **C85.** Every entry of the file becomes a node of the scene of its name, with the shape, the sizes,
the refractive index and the components the entry describes; lights have no shape. -/
theorem file_objects {axis : Affine ℝ → Vec3 ℝ} {F : Files ℝ} {v : Yaml ℝ}
    {s : SceneDef ℝ} (h : parseFile F v = .ok s) (hn : ((entries "nodes" v).map (·.1)).Nodup) :
    (s.objects axis).length = (entries "nodes" v).length ∧
    ∃ comps : List (String × CompDef ℝ),
      List.Forall₂ (fun e c => c.1 = e.1 ∧ ComponentIs F e c.2) (entries "components" v) comps ∧
      ∀ e ∈ entries "nodes" v, ∃ o ∈ s.objects axis, o.name = e.1 ∧
        ((∃ sh m g, GeometryIs (fun k => comps.lookup k) e.2 sh m ∧ o.geometry = some g ∧
            GeometryMade sh m g) ∨
          ((under ["light"] e.2).isSome ∧ o.geometry = none)) := by
  have ht := tree h hn
  obtain ⟨comps, hc, hnodes⟩ := file_describes_partial h
  have hp := objects_perm (axis := axis) ht
  refine ⟨by rw [hp.length_eq, List.length_map, hnodes.length_eq], comps, hc, ?_⟩
  intro e he
  obtain ⟨n, hmem, hi⟩ := forall₂_left hnodes he
  refine ⟨object axis s n, hp.mem_iff.2 (List.mem_map_of_mem hmem), hi.name, ?_⟩
  rcases hi.content with ⟨sh, m, e1, e2⟩ | ⟨l, w, e1, e2, -⟩
  · obtain ⟨g, hg, hm⟩ := geometry_made sh m
    exact .inl ⟨sh, m, g, e2, by simp only [object, e1]; exact hg, hm⟩
  · exact .inr ⟨by simp [e2], by simp [object, e1, Content.geometry?]⟩

/-- **C85.** The engine traces a scene read from a file exactly when `world` has a shape, no shape is a
mesh, no component has a Lambertian phase function, a histogram spectrum or a coefficient that was not
read, and there are at most 128 shapes. Positions, directions and the way nodes are nested never
matter. -/
theorem file_accepted {axis : Affine ℝ → Vec3 ℝ} (ha : Proper axis) {F : Files ℝ} {v : Yaml ℝ}
    {s : SceneDef ℝ} (h : parseFile F v = .ok s) (hn : ((entries "nodes" v).map (·.1)).Nodup) :
    (∃ T, engineAccepts (s.objects axis) = .ok T) ↔ EngineReady s := by
  have ht := tree h hn
  have hmade := file_made h
  have hgp := geometryNodes_perm (axis := axis) ht
  rw [accepts_iff, hgp.length_eq, length_solid]
  have hnode : ∀ n ∈ s.nodes, ∀ sh m, n.content = .geometry sh m →
      (NodeOk (s.toWorld axis n.name) ⟨sh.object, some m.object, false⟩ ↔ NodeTraceable n.content) := by
    intro n hnm sh m hc
    have hcomps : (∀ c ∈ m.object.comps, CompOk c) ↔ ∀ c ∈ m.comps, CompTraceable c := by
      simp only [MatDef.object, List.mem_map, forall_exists_index, and_imp, forall_apply_eq_imp_iff₂]
      exact forall₂_congr fun c hcm => object_ok c (hmade n hnm sh m hc c hcm).kind
    have hr := toWorld_rigid ha s n.name
    obtain ⟨r0, r1, r2, r3, r4, r5⟩ := hr
    constructor
    · intro ok
      obtain ⟨m', e, -, hcs⟩ := ok.material
      cases e
      have hs := (shape_known sh).1 ok.shape
      rw [hc]
      cases sh with
      | mesh f => exact hs f rfl
      | _ => exact hcomps.1 hcs
    · intro nt
      rw [hc] at nt
      refine ⟨(shape_known sh).2 ?_, rigid_passes r0 r1 r2 r3 r4 r5, _, rfl, by simp [MatDef.object], ?_⟩
      · rintro f rfl; exact nt
      · refine hcomps.2 ?_
        cases sh with
        | mesh f => exact nt.elim
        | _ => exact nt
  constructor
  · rintro ⟨ok, hl⟩
    refine ⟨?_, ?_, hl⟩
    · obtain ⟨v, g, hv, hg⟩ := ok.root
      obtain ⟨n, hm, hw, hh⟩ := objects_head (axis := axis) ht
      rw [hh] at hv
      cases hv
      refine ⟨n, hm, hw, ?_⟩
      cases hc : n.content with
      | geometry sh m => rfl
      | light l => simp [object, hc, Content.geometry?] at hg
    · intro n hm
      cases hc : n.content with
      | light l => trivial
      | geometry sh m =>
        rw [← hc, ← hnode n hm sh m hc]
        refine ok.nodes (n.name, s.toWorld axis n.name, _) (hgp.mem_iff.2 ?_)
        exact List.mem_filterMap.2 ⟨n, hm, by rw [hc]; rfl⟩
  · rintro ⟨⟨w, hw, hwn, hws⟩, hnodes, hl⟩
    refine ⟨⟨?_, ?_⟩, hl⟩
    · obtain ⟨n, hm, hn', hh⟩ := objects_head (axis := axis) ht
      have : w = n := List.inj_on_of_nodup_map ht.names hw hm (hwn.trans hn'.symm)
      subst this
      cases hc : w.content with
      | light l => rw [hc] at hws; cases hws
      | geometry sh m => exact ⟨_, ⟨sh.object, some m.object, false⟩, hh, by simp [object, hc, Content.geometry?]⟩
    · intro x hx
      obtain ⟨n, hm, e⟩ := List.mem_filterMap.1 (hgp.mem_iff.1 hx)
      cases hc : n.content with
      | light l => rw [hc] at e; cases e
      | geometry sh m =>
        rw [hc] at e
        simp only [Content.geometry?, Option.map_some, Option.some.injEq] at e
        subst e
        exact (hnode n hm sh m hc).2 (hnodes n hm)

/-! ### Placement -/

theorem find_none {s : SceneDef ℝ} {x : String} (h : x ∉ s.nodes.map (·.name)) : s.find x = none := by
  unfold SceneDef.find
  rw [List.find?_eq_none]
  intro m hm e
  exact h (List.mem_map.2 ⟨m, hm, by simpa using e⟩)

theorem way_stop {s : SceneDef ℝ} (h : Tree s) {f : ℕ} {x : String}
    (hs : steps (edges s.nodes).reverse f x = none) : s.way (f + 1) x = s.way f x := by
  induction f generalizing x with
  | zero => cases hs
  | succ f ih =>
    rw [SceneDef.way, SceneDef.way]
    cases hf : s.find x with
    | none => rfl
    | some n =>
      dsimp only
      cases hp : n.parent with
      | none => rfl
      | some p =>
        dsimp only
        have hm := List.mem_of_find?_eq_some hf
        have hx := List.find?_some hf
        simp only [decide_eq_true_eq] at hx
        have hl : (edges s.nodes).reverse.lookup x = some p :=
          (lookup_edges h.names).2 ⟨n, hm, hx, hp⟩
        unfold steps at hs
        rw [hl] at hs
        rw [ih hs]

/-- There are fewer edges than nodes. -/
theorem edges_lt {s : SceneDef ℝ} (h : Tree s) : (edges s.nodes).length < s.nodes.length := by
  obtain ⟨w, hw, hwn⟩ := List.mem_map.1 h.world
  have hp : w.parent = none := by
    rcases h.parents w hw with ⟨-, e⟩ | ⟨e, -⟩
    · exact e
    · exact absurd hwn e
  have : ∀ l : List (NodeDef ℝ), w ∈ l → (edges l).length < l.length := by
    intro l
    unfold edges
    intro hm
    rw [List.length_filterMap_eq_countP]
    refine lt_of_le_of_ne List.countP_le_length fun e => ?_
    have := List.countP_eq_length.1 e w hm
    simp [hp] at this
  exact this _ hw

/-- No way to the root is longer than the number of nodes. -/
theorem way_full {s : SceneDef ℝ} (h : Tree s) {f : ℕ} (hf : s.nodes.length ≤ f + 1) (x : String) :
    s.way (f + 1) x = s.way s.nodes.length x := by
  have key : ∀ g, s.nodes.length ≤ g → s.way (g + 1) x = s.way g x := by
    intro g hg
    refine way_stop h ?_
    cases hs : steps (edges s.nodes).reverse g x with
    | none => rfl
    | some a =>
      have := steps_le h.ranked hs
      have h2 := edges_lt h
      simp only [List.length_reverse] at this
      omega
  obtain ⟨k, hk⟩ := Nat.exists_eq_add_of_le hf
  rw [hk]
  clear hk hf
  induction k with
  | zero => rfl
  | succ k ih => rw [← Nat.add_assoc, key _ (by omega), ih]

/-- **C85.** Nodes are placed relative to their parents: the transformation of `world` to itself is the
identity, that of any other node is its pose followed by the transformation of its parent. The pose
is rigid, and puts the node at its location. -/
theorem placed {axis : Affine ℝ → Vec3 ℝ} (ha : Proper axis) {F : Files ℝ} {v : Yaml ℝ}
    {s : SceneDef ℝ} (h : parseFile F v = .ok s) (hn : ((entries "nodes" v).map (·.1)).Nodup) :
    s.toWorld axis "world" = Affine.one ∧
    ∀ n ∈ s.nodes, n.name ≠ "world" → ∃ p ∈ s.nodes, n.parent = some p.name ∧
      s.toWorld axis n.name = (s.toWorld axis p.name).comp (n.pose axis) ∧ (n.pose axis).Rigid ∧
      (n.pose axis).t = n.location.getD 0 := by
  have ht := tree h hn
  constructor
  · obtain ⟨w, hw, hwn⟩ := List.mem_map.1 ht.world
    have hp : w.parent = none := by
      rcases ht.parents w hw with ⟨-, e⟩ | ⟨e, -⟩
      · exact e
      · exact absurd hwn e
    unfold SceneDef.toWorld
    cases hl : s.nodes.length with
    | zero => rfl
    | succ f =>
      rw [SceneDef.way, ← hwn, find_of_mem ht.names hw]
      simp [hp, multiDot]
  · intro n hm hne
    rcases ht.parents n hm with ⟨e, -⟩ | ⟨-, p, hp, hpar⟩
    · exact absurd e hne
    obtain ⟨q, hq, rfl⟩ := List.mem_map.1 hp
    refine ⟨q, hq, hpar, ?_, pose_rigid ha n⟩
    unfold SceneDef.toWorld
    have hl : s.nodes.length = (s.nodes.length - 1) + 1 := by
      have := List.length_pos_of_mem hm; omega
    have e1 : s.way s.nodes.length n.name = n :: s.way s.nodes.length q.name := by
      rw [← way_full ht (f := s.nodes.length) (by omega) n.name, SceneDef.way, find_of_mem ht.names hm]
      simp only [hpar]
    rw [e1, List.map_cons, List.reverse_cons, PV.Node.multiDot_append]
    simp [multiDot, PV.Node.comp_one]

/-! ### Runs -/

theorem file_built {axis : Affine ℝ → Vec3 ℝ} {F : Files ℝ} {v : Yaml ℝ}
    {s : SceneDef ℝ} (h : parseFile F v = .ok s) (hn : ((entries "nodes" v).map (·.1)).Nodup) :
    Built (s.objects axis) := by
  have ht := tree h hn
  intro x hx m hm c hc
  obtain ⟨n, hnm, e⟩ := List.mem_filterMap.1 ((geometryNodes_perm ht).mem_iff.1 hx)
  cases hcon : n.content with
  | light l => rw [hcon] at e; cases e
  | geometry sh md =>
    rw [hcon] at e
    simp only [Content.geometry?, Option.map_some, Option.some.injEq] at e
    subst e
    simp only [Option.some.injEq] at hm
    subst hm
    simp only [MatDef.object, List.mem_map] at hc
    obtain ⟨d, hd, rfl⟩ := hc
    have hw := file_made h n hnm sh md hcon d hd
    constructor
    · intro T k e
      simp only [CompDef.object] at e
      cases hdist : d.dist with
      | none => rw [hdist] at e; cases e
      | some D => rw [hdist] at e; exact hw.absorption T k (by rw [hdist]; exact congrArg some e)
    · intro hk
      obtain ⟨T, k, e, hT⟩ := hw.emission hk
      exact ⟨T, k, by simp [CompDef.object, e], hT⟩

/-- An accepted scene has a description as objects. -/
theorem exists_described {scene : List PyNode} {T : Tables} (hc : compileScene scene = .ok T) :
    ∃ (n : ℕ) (S : LScene n), Describes scene S := by
  have ok := (compiles_iff _).1 ⟨T, hc⟩
  have hsome : ∀ x ∈ geometryNodes scene, (objectOf x).isSome := by
    intro x hx
    obtain ⟨⟨g, hg⟩, -, m, hm, hd, -⟩ := ok.nodes x hx
    unfold objectOf
    rw [hg, hm]
    dsimp only
    cases hdel : m.delegate with
    | custom => exact absurd hdel hd
    | fresnel => rfl
    | null => rfl
  have hne : geometryNodes scene ≠ [] := by
    obtain ⟨v, g, hv, hg⟩ := ok.root
    intro e
    have hvm := List.mem_of_mem_head? hv
    have : (v.name, v.l2w, g) ∈ geometryNodes scene :=
      List.mem_filterMap.2 ⟨v, hvm, by rw [hg]; rfl⟩
    rw [e] at this; cases this
  obtain ⟨n, hlen⟩ : ∃ n, (geometryNodes scene).length = n + 1 :=
    Nat.exists_eq_succ_of_ne_zero (by simpa using hne)
  let S : LScene n := ⟨fun i => (objectOf ((geometryNodes scene)[i.1]'(by omega))).get
    (hsome _ (List.getElem_mem _))⟩
  refine ⟨n, S, ?_⟩
  unfold Describes
  apply List.ext_getElem
  · simp [hlen]
  · intro i h1 h2
    simp [S]

/-- **C85.** A scene file the engine can trace describes a scene of solids (its nodes with a shape in
the order of the tree), and the run of the engine on its tables gives the same histories and
recorder results as a run that reads the objects themselves. -/
theorem file_same_run {σ : Type} {axis : Affine ℝ → Vec3 ℝ} (ha : Proper axis) {F : Files ℝ} {v : Yaml ℝ}
    {s : SceneDef ℝ} (h : parseFile F v = .ok s) (hn : ((entries "nodes" v).map (·.1)).Nodup)
    (hr : EngineReady s) : ∃ (n : ℕ) (S : LScene n) (T : Tables),
    compileScene (s.objects axis) = .ok T ∧ Describes (s.objects axis) S ∧
    ∀ (R : Rand σ) (method : EmitMethod)
    (recs : RecTables ℝ (Fin (n + 1))) (maxsteps maxEvents recordEvery : ℕ)
    (bundle : List (Launch ℝ Empty σ)) (sources : List (Option String))
    (_ : sources.length = bundle.length) (threads threads' : ℕ)
    (es : List (Tagged ℝ (Row ℝ ℕ ℕ))) (es' : List (Tagged ℝ (Row ℝ (Fin (n + 1)) Comp)))
    (_ : Execution bundle.length threads (kRay (T.ops R method) (recs.map Fin.val) maxsteps maxEvents
      recordEvery (bundle.map (Launch.mapC Empty.elim))) es)
    (_ : Execution bundle.length threads' (kRay (kOps S R method) recs maxsteps maxEvents
      recordEvery (bundle.map (Launch.mapC Empty.elim))) es'),
    histories T.names (Mem.exec es) recordEvery maxEvents sources =
      histories (PV.Library.names S) (Mem.exec es') recordEvery maxEvents sources ∧
    (Mem.exec es).merged threads = (Mem.exec es').merged threads' := by
  obtain ⟨T, hT⟩ := (file_accepted ha h hn).2 hr
  have hc : compileScene (s.objects axis) = .ok T := by
    unfold engineAccepts at hT
    cases hc : compileScene (s.objects axis) with
    | error e => rw [hc] at hT; cases hT
    | ok T' =>
      rw [hc] at hT
      dsimp only at hT
      split at hT
      · cases hT
      · exact hT
  obtain ⟨n, S, hd⟩ := exists_described hc
  exact ⟨n, S, T, hc, hd, fun R method recs a b c bundle sources hs t t' es es' he he' =>
    same_run hc hd (file_built h hn) R method recs a b c bundle sources hs t t' es es' he he'⟩

/-! ### A file -/

/-- A disk without files. -/
def nothing : Files ℝ := ⟨fun _ => .error .key, fun _ => none, fun _ => none, fun _ => .error .key, fun _ => none⟩

/-- A world with a dyed ball, placed and turned, and a lamp on the ball. -/
def ballFile : Yaml ℝ := .map [("version", .str "1.0"),
  ("components", .map [("tint", .map [("absorber", .map [("coefficient", .num 2)])])]),
  ("nodes", .map [
  ("world", .map [("sphere", .map [("radius", .num 10), ("material", .map [("refractive-index", .num 1)])])]),
  ("ball", .map [("location", .seq [.num 1, .num 2, .num 3]), ("direction", .seq [.num 1, .num 0, .num 0]), ("sphere", .map [("radius", .num 1), ("material", .map [("refractive-index", .num 2), ("components", .seq [.str "tint"])])])]),
  ("lamp", .map [("light", .map [("wavelength", .num 555)]), ("parent", .str "ball")])])]

theorem ball_valid : Schema.document ballFile = true := by
  simp [Schema.document, ballFile, Schema.object, Schema.both, Schema.named, Schema.node, Schema.oneOf, Schema.required, has, Schema.component, Schema.string, Schema.material, Schema.atLeast, Schema.absorber, List.lookup_cons, Schema.array, Schema.number]
  rfl

/-- What it describes. -/
def ballDef : SceneDef ℝ := ⟨[
  ⟨"world", .geometry (.sphere 10) ⟨1, []⟩, none, none, none⟩,
  ⟨"ball", .geometry (.sphere 1) ⟨2, [{ name := "tint", kind := .absorber, dist := some (.const 2), qy := 0, phase := .isotropic }]⟩, some "world", some ⟨1, 2, 3⟩, some ⟨1, 0, 0⟩⟩,
  ⟨"lamp", .light ⟨some (.constant 555), none, none, "lamp"⟩, some "ball", none, none⟩], []⟩

theorem ball_loads : parseFile nothing ballFile = .ok ballDef := by
  unfold parseFile
  rw [if_neg (by simp [ball_valid])]
  simp [parseScene, ballFile, Yaml.dict, dget, List.lookup_cons, optDict, parseComponents, parseComponent, parseAbsorber, optSpectrum, absorptionOf, truth, constOf, histOf, parseNodes, parseContent, has, parseGeometry, parseShape, Yaml.number, parseMaterial, componentKeys, pickComponents, Yaml.list, parseLight, defaultColour, placeNodes, Doc.parentOf, attach, climb, Yaml.string, optTriple, triple, args, floats, sceneRecorders, withAuto, parseRecorders, ballDef]

theorem ball_names : ((entries "nodes" ballFile).map (·.1)).Nodup := by
  simp [entries, ballFile, under, List.lookup_cons]

theorem ball_ready : EngineReady ballDef where
  world := ⟨_, List.mem_cons_self, rfl, rfl⟩
  nodes := by
    intro n hn
    simp only [ballDef, List.mem_cons, List.not_mem_nil, or_false] at hn
    rcases hn with rfl | rfl | rfl
    · intro c hc; cases hc
    · intro c hc
      simp only [List.mem_cons, List.not_mem_nil, or_false] at hc
      subst hc
      exact ⟨by simp, .inl ⟨2, rfl, rfl⟩, fun h => by cases h⟩
    · trivial
  few := by simp [ballDef, solid]

/-- Non-vacuity: a file with a dyed ball, placed and turned, and a lamp in it loads and is traced. -/
example : parseFile nothing ballFile = .ok ballDef ∧ EngineReady ballDef ∧
    ∃ T, engineAccepts (ballDef.objects fun _ => ⟨0, 1, 0⟩) = .ok T :=
  ⟨ball_loads, ball_ready, (file_accepted (fun _ h => by simpa using congrArg Vec3.y h) ball_loads
    ball_names).2 ball_ready⟩

/-- Non-vacuity: the lamp is a child of the ball and stands where the ball stands. -/
example : (ballDef.toWorld (fun _ => ⟨0, 1, 0⟩) "lamp").t = ⟨1, 2, 3⟩ := by
  obtain ⟨hw, h⟩ := placed (axis := fun _ => ⟨0, 1, 0⟩) (fun _ h => by simpa using congrArg Vec3.y h)
    ball_loads ball_names
  obtain ⟨p, hp, e, h1, -, h2⟩ := h ⟨"lamp", .light ⟨some (.constant 555), none, none, "lamp"⟩, some "ball", none, none⟩
    (by simp [ballDef]) (by simp)
  simp only [Option.some.injEq] at e
  rw [h1, ← e]
  obtain ⟨q, hq, e', h3, -, h4⟩ := h ⟨"ball", .geometry (.sphere 1) ⟨2, [{ name := "tint", kind := .absorber, dist := some (.const 2), qy := 0, phase := .isotropic }]⟩, some "world", some ⟨1, 2, 3⟩, some ⟨1, 0, 0⟩⟩
    (by simp [ballDef]) (by simp)
  simp only [Option.some.injEq] at e'
  rw [← e', hw] at h3
  dsimp only at h3
  rw [h3]
  simp only [Affine.comp, h4, h2]
  ext <;> simp [Affine.point, Affine.vec, Affine.one, Vec3.dot]

end
end PV.FileScene
