import Verif.Model.Node
import Verif.Spec.Solid

/-!
How `MeshcatRenderer` shows the objects of a scene, `/repo/pvtrace/scene/renderer.py:50-105`. The
meshcat server is modelled as a tree of named places, each with an object and a matrix; the position of
an object on the screen is the product of the matrices on the way to it (this is the behaviour the comment
in `/repo/pvtrace/scene/renderer.py:59-61` describes). Materials and opacity are left out.
-/

namespace PV.Meshcat
noncomputable section

/-- Exceptions: `TypeError` of `" | ".join` for a node without a name, `NotImplementedError`. -/
inductive MErr
  | typeError | notImplemented
deriving DecidableEq, Repr

/-- The geometries `add_geometry` distinguishes. `Box` is a subclass of `Mesh`,
`/repo/pvtrace/geometry/box.py:22`; a mesh is given by the points it encloses. -/
inductive Shown
  | sphere (radius : ℝ)
  | cylinder (length radius : ℝ)
  | mesh (points : Set (Vec3 ℝ))
  | other

/-- A scene graph with its node names. -/
structure Graph where
  tree : SNode ℝ Shown
  name : Addr → Option String

/-- A place in meshcat's tree. -/
abbrev Place := List (List Char)

/-- The server. -/
structure Server where
  objects : Place → Option (Set (Vec3 ℝ)) := fun _ => none
  matrices : Place → Option (Affine ℝ) := fun _ => none

/-- `vis[path]`: meshcat's `Path.append` splits at `/`; an empty part returns to the top. The
visualiser's own place is `/meshcat`. -/
def place (path : List Char) : Place :=
  (path.splitOn '/').foldl (fun e x => if x = [] then [] else e ++ [x]) ["meshcat".toList]

/-- The matrix that meshcat applies to an object: its own after those of the places above it. -/
def Server.matrix (V : Server) (p : Place) : Affine ℝ :=
  multiDot (p.inits.map (fun q => (V.matrices q).getD Affine.one))

/-- The points of the screen (in world coordinates) covered by the object at a place. -/
def Server.shown (V : Server) (p : Place) : Set (Vec3 ℝ) :=
  match V.objects p with
  | none => ∅
  | some S => (V.matrix p).point '' S

/-- `vis[pathname].set_object(...)` and `vis[pathname].set_transform(...)`. -/
def Server.set (V : Server) (p : Place) (S : Set (Vec3 ℝ)) (m : Affine ℝ) : Server where
  objects q := if q = p then some S else V.objects q
  matrices q := if q = p then some m else V.matrices q

/-- `g.Sphere(radius)`. -/
def gSphere (radius : ℝ) : Set (Vec3 ℝ) := {p | p.x ^ 2 + p.y ^ 2 + p.z ^ 2 ≤ radius ^ 2}

/-- `g.Cylinder(height, radius)`: around the y axis, `/repo/pvtrace/scene/renderer.py:86-87`. -/
def gCylinder (height radius : ℝ) : Set (Vec3 ℝ) := {p | p.x ^ 2 + p.z ^ 2 ≤ radius ^ 2 ∧ |p.y| ≤ height / 2}

/-- `transform[:, [1, 2]] = transform[:, [2, 1]]`, `/repo/pvtrace/scene/renderer.py:90`. -/
def swapColumns (m : Affine ℝ) : Affine ℝ :=
  ⟨⟨m.r0.x, m.r0.z, m.r0.y⟩, ⟨m.r1.x, m.r1.z, m.r1.y⟩, ⟨m.r2.x, m.r2.z, m.r2.y⟩, m.t⟩

/-- `add_geometry`, `/repo/pvtrace/scene/renderer.py:69-101`. -/
def Server.addGeometry (V : Server) (g : Shown) (path : List Char) (transform : Affine ℝ) :
    Server × Option MErr :=
  match g with
  | .sphere r => (V.set (place path) (gSphere r) transform, none)
  | .cylinder l r => (V.set (place path) (gCylinder l r) (swapColumns transform), none)
  | .mesh S => (V.set (place path) S transform, none)
  | .other => (V, some .notImplemented)

/-- `" | ".join([x.name for x in node.path])`, `/repo/pvtrace/scene/renderer.py:62`; `none` is the
`TypeError` for a node without a name. -/
def pathname (G : Graph) (a : Addr) : Option (List Char) :=
  ((nodePath a).mapM G.name).map (fun names => " | ".toList.intercalate (names.map String.toList))

/-- `add_node`, `/repo/pvtrace/scene/renderer.py:58-67`. -/
def Server.addNode (V : Server) (G : Graph) (a : Addr) : Server × Option MErr :=
  match pathname G a with
  | none => (V, some .typeError)
  | some path =>
    match (G.tree.get? a).bind SNode.geometry with
    | none => (V, none)
    | some g => V.addGeometry g path (G.tree.poses.transformationTo a [])

/-- The addresses of the children of a node. -/
def kids (n : SNode ℝ Shown) (a : Addr) : List Addr :=
  match n.get? a with
  | none => []
  | some c => (List.range c.children.length).map (fun i => a ++ [i])

/-- One level after the other: `LevelOrderIter` of anytree. `k` bounds the number of levels. -/
def levelOrder (n : SNode ℝ Shown) : ℕ → List Addr → List Addr
  | 0, _ => []
  | k + 1, front => front ++ levelOrder n k (front.flatMap (kids n))

mutual
/-- The number of levels. -/
def height : SNode ℝ Shown → ℕ
  | .mk _ _ _ cs => 1 + heights cs
def heights : List (SNode ℝ Shown) → ℕ
  | [] => 0
  | c :: cs => max (height c) (heights cs)
end

/-- The loop of `render`: an exception ends it. -/
def Server.addAll (V : Server) (G : Graph) : List Addr → Server × Option MErr
  | [] => (V, none)
  | a :: as =>
    if a = [] then V.addAll G as
    else
      match V.addNode G a with
      | (V', some e) => (V', some e)
      | (V', none) => V'.addAll G as

/-- `render(scene, show_root)`, `/repo/pvtrace/scene/renderer.py:50-56`. -/
def Server.render (V : Server) (G : Graph) (_showRoot : Bool) : Server × Option MErr :=
  V.addAll G (levelOrder G.tree (height G.tree) [[]])

/-- `remove(scene)`, `/repo/pvtrace/scene/renderer.py:103-105`: `vis.delete()` removes everything
below the visualiser's own place. -/
def Server.remove (V : Server) : Server where
  objects p := if ["meshcat".toList] <+: p then none else V.objects p
  matrices p := if ["meshcat".toList] <+: p then none else V.matrices p

end
end PV.Meshcat
