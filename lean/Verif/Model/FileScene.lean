import Verif.Model.SceneFile
import Verif.Model.Transformable
import Verif.Model.Node
import Verif.Model.Compile
import Verif.Model.Light

/-!
From the nodes read from a scene file to the objects of the scene: constructors called by
`/repo/pvtrace/cli/parse.py` and the poses of the nodes, `/repo/pvtrace/cli/parse.py:440-457`.

Simplification: `axis` stands for the eigenvector found by `numpy.linalg.eig`, as in `Tf.lookAt`.
-/

namespace PV.Doc
noncomputable section

/-- The phase function objects, `/repo/pvtrace/cli/parse.py:152-175`; `np.radians` of the half
angle. -/
def Aiming.phase : Aiming ℝ → Phase
  | .isotropic => .isotropic
  | .lambertian => .lambertian
  | .cone q => .cone (q * (Real.pi / 180))
  | .henyeyGreenstein g => .henyeyGreenstein g

/-- The component object, `/repo/pvtrace/cli/parse.py:245-385`,
`/repo/pvtrace/material/component.py:105-140,215-224`. Scene files set no lifetimes; `Absorber` passes
`tau_rad=0.0`. -/
def CompDef.object (c : CompDef ℝ) : PyComp where
  comp := ⟨c.name, c.kind, c.dist.getD (.const 0), c.emission.getD (.const 0), c.qy,
    if c.kind = .absorber then some 0 else none, none, c.phase.phase⟩
  hasDist := c.dist.isSome
  constHist := c.constHist

/-- `Material(refractive_index, components=...)`, with the default surface
(`/repo/pvtrace/material/material.py:12-24`). -/
def MatDef.object (m : MatDef ℝ) : PyMaterial := ⟨m.index, .fresnel, m.comps.map (·.object)⟩

/-- The shape object, `/repo/pvtrace/cli/parse.py:114-138`. -/
def ShapeDef.object : ShapeDef ℝ → Shape
  | .box s => .known (.box s)
  | .cylinder l r => .known (.cylinder l r)
  | .sphere r => .known (.sphere r)
  | .mesh _ => .other

/-- `node.geometry`. -/
def Content.geometry? : Content ℝ → Option PyGeom
  | .geometry s m => some ⟨s.object, some m.object, false⟩
  | .light _ => none

/-- `if location: node.location = location`, `/repo/pvtrace/cli/parse.py:451-453`. -/
def NodeDef.located (n : NodeDef ℝ) : Except Err Tf :=
  match n.location with
  | none => .ok (Tf.init none)
  | some v => (Tf.init none).apply (.setLocation v false)

/-- The pose given to a node, `/repo/pvtrace/cli/parse.py:451-457`: first the location, then
`look_at`. Whether the location has integers makes no difference here: the pose is a float array. -/
def NodeDef.transform (axis : Affine ℝ → Vec3 ℝ) (n : NodeDef ℝ) : Except Err Tf :=
  match n.located with
  | .error e => .error e
  | .ok s =>
    match n.direction with
    | none => .ok s
    | some b => s.lookAt axis b

/-- `node.pose`; there is no error (`PV.FileScene.transform_ok`). -/
def NodeDef.pose (axis : Affine ℝ → Vec3 ℝ) (n : NodeDef ℝ) : Affine ℝ :=
  match n.transform axis with
  | .ok s => s.pose
  | .error _ => Affine.one

/-- The node of a name, `nodes[name]`. -/
def SceneDef.find (s : SceneDef ℝ) (name : String) : Option (NodeDef ℝ) :=
  s.nodes.find? fun n => n.name = name

/-- The nodes from one of them up to, but without, the root: the first part of
`Walker().walk(node, root)`. No way is longer than the number of nodes
(`PV.FileScene.way_full`). -/
def SceneDef.way (s : SceneDef ℝ) : ℕ → String → List (NodeDef ℝ)
  | 0, _ => []
  | fuel + 1, name =>
    match s.find name with
    | none => []
    | some n =>
      match n.parent with
      | none => []
      | some p => n :: s.way fuel p

/-- `node.transformation_to(root)`, `/repo/pvtrace/scene/node.py:73-95`. -/
def SceneDef.toWorld (axis : Affine ℝ → Vec3 ℝ) (s : SceneDef ℝ) (name : String) : Affine ℝ :=
  multiDot ((s.way s.nodes.length name).map (·.pose axis)).reverse

/-- The nodes of the scene in the order of `PreOrderIter`. -/
def SceneDef.objects (axis : Affine ℝ → Vec3 ℝ) (s : SceneDef ℝ) : List PyNode :=
  s.visited.filterMap fun name => (s.find name).map fun n =>
    ⟨n.name, n.content.geometry?, s.toWorld axis n.name⟩

/-- `LevelOrderIter`, from one level of the tree on and at most `fuel` levels. -/
def SceneDef.levels (s : SceneDef ℝ) : ℕ → List String → List String
  | 0, _ => []
  | fuel + 1, level => level ++ s.levels fuel (level.flatMap s.children)

/-- The names of the nodes in the order of `LevelOrderIter(root)`; no node is deeper than there are
nodes (`PV.LightOrder.byLevel_perm`). -/
def SceneDef.byLevel (s : SceneDef ℝ) : List String := s.levels s.nodes.length ["world"]

/-- `self.wavelength`, `/repo/pvtrace/light/light.py:229`. Calling the number of `wavelength: 0`
raises (a `TypeError` in Python), and `emit_bundle` falls back on calling it
(`/repo/pvtrace/engine/emit.py:113-116`). -/
def Colour.wave : Option (Colour ℝ) → Light.Wave
  | none => .default
  | some (.constant nm) => .constant nm
  | some (.spectrum D) => .spectrum D
  | some (.number _) => .custom fun _ => .error .attributeError

/-- `self.position`, `/repo/pvtrace/light/light.py:230`. -/
def Spot.place : Option (Spot ℝ) → Light.Place
  | none => .default
  | some (.rect x y) => .rect x y
  | some (.cube x y z) => .cube x y z
  | some (.circle r) => .circle r

/-- `self.direction`, `/repo/pvtrace/light/light.py:231`. -/
def Aiming.aim : Option (Aiming ℝ) → Light.Aim
  | none => .default
  | some a => .phase a.phase

/-- The light object of a node, with the node's transformation to the root. -/
def LightDef.lamp (l : LightDef ℝ) (toRoot : Affine ℝ) : Light.Lamp :=
  ⟨Colour.wave l.wavelength, Spot.place l.position, Aiming.aim l.direction, l.name, toRoot⟩

/-- `node.light`. -/
def SceneDef.lampAt (axis : Affine ℝ → Vec3 ℝ) (s : SceneDef ℝ) (n : NodeDef ℝ) : Option Light.Lamp :=
  match n.content with
  | .geometry _ _ => none
  | .light l => some (l.lamp (s.toWorld axis n.name))

/-- `Scene.light_nodes`, `/repo/pvtrace/scene/scene.py:120-128`. -/
def SceneDef.lamps (axis : Affine ℝ → Vec3 ℝ) (s : SceneDef ℝ) : List Light.Lamp :=
  s.byLevel.filterMap fun name => (s.find name).bind (s.lampAt axis)

/-- The components of a node's material. -/
def Content.comps : Content ℝ → List (CompDef ℝ)
  | .geometry _ m => m.comps
  | .light _ => []

/-- `Scene.component_nodes`, `/repo/pvtrace/scene/scene.py:130-139`. -/
def SceneDef.components (s : SceneDef ℝ) : List (CompDef ℝ) :=
  s.byLevel.flatMap fun name => ((s.find name).map (·.content.comps)).getD []

end
end PV.Doc
