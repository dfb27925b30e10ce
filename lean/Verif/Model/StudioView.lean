import Verif.Model.Compile
import Verif.Model.FileScene
import Verif.Model.StudioLive
import Mathlib.Analysis.SpecialFunctions.Trigonometric.Basic

/-!
The viewport of the studio: the description of the scene sent to the page
(`/repo/pvtrace/studio/server.py:76-101`), how the page draws it
(`/repo/pvtrace/studio/static/app.js:144-152,228-287`) with the parts of three.js used for it
(`/repo/pvtrace/studio/static/vendor/three.module.js`), and where a dragged node is put
(`/repo/pvtrace/studio/server.py:345-359`).

Simplifications: arithmetic is exact; a mesh with many faces stands for the solid it approximates (the
page draws circles with 48 sides); the camera is not modelled.
-/

namespace PV.View
open PV PV.Doc
noncomputable section
open Classical

/-! ### The description sent to the page -/

/-- One entry of `nodes`, `/repo/pvtrace/studio/server.py:83-94`, without its `spec`. -/
structure NodeEntry where
  name : String
  type : String
  params : List ℝ
  matrix : List ℝ
  root : Bool
  index : ℝ

/-- One entry of `lights`, `/repo/pvtrace/studio/server.py:98-101`, without its `spec`. -/
structure LightEntry where
  name : String
  matrix : List ℝ

/-- `GEOM_NAMES`, `/repo/pvtrace/studio/server.py:27`. -/
def geomName : ℕ → Option String
  | 0 => some "box"
  | 1 => some "sphere"
  | 2 => some "cylinder"
  | _ => none

/-- `local_to_world[i].T.ravel()`: the numbers of one 4 x 4 matrix in column order. -/
def columns (m : List ℝ) (i : ℕ) : List ℝ :=
  (List.range 16).map fun k => m.getD (i * 16 + (k % 4 * 4 + k / 4)) 0

/-- The entry of row `i`, `/repo/pvtrace/studio/server.py:82-94`; an unknown type number is a
`KeyError`. `root_id` is 0. -/
def nodeEntry (T : Tables) (i : ℕ) (name : String) : Except DErr NodeEntry :=
  match geomName (T.nodes.geomType.getD i 0) with
  | none => .error .key
  | some type => .ok {
      name := name
      type := type
      params := (List.range 4).map fun k => T.nodes.geomParams.getD (i * 4 + k) 0
      matrix := columns T.nodes.l2w i
      root := i = 0
      index := T.nodes.nidx.getD i 0 }

/-- The loop over `enumerate(compiled.node_names)`. -/
def nodeEntries (T : Tables) : ℕ → List String → Except DErr (List NodeEntry)
  | _, [] => .ok []
  | i, name :: rest =>
    match nodeEntry T i name with
    | .error e => .error e
    | .ok v =>
      match nodeEntries T (i + 1) rest with
      | .error e => .error e
      | .ok vs => .ok (v :: vs)

/-- `nodes` of the payload. -/
def payloadNodes (T : Tables) : Except DErr (List NodeEntry) := nodeEntries T 0 T.nodes.names

/-- `lights` of the payload, `/repo/pvtrace/studio/server.py:96-101`, for a scene read from a file. -/
def payloadLights (axis : Affine ℝ → Vec3 ℝ) (s : SceneDef ℝ) : List LightEntry :=
  s.visited.filterMap fun name =>
    match s.find name with
    | some ⟨name, .light _, _, _, _⟩ => some ⟨name, columns (s.toWorld axis name).flat 0⟩
    | _ => none

/-! ### three.js -/

/-- `Quaternion`. -/
structure Quat where
  w : ℝ
  x : ℝ
  y : ℝ
  z : ℝ

/-- An object with its position, rotation and scale. -/
structure Object3D where
  position : Vec3 ℝ
  quaternion : Quat
  scale : Vec3 ℝ

/-- `elements[k]` of a `Matrix4`. -/
abbrev el (te : List ℝ) (k : ℕ) : ℝ := te.getD k 0

/-- `Vector3.length`, `/repo/pvtrace/studio/static/vendor/three.module.js`. -/
def length3 (x y z : ℝ) : ℝ := Real.sqrt (x * x + y * y + z * z)

/-- `Matrix4.determinant`, `/repo/pvtrace/studio/static/vendor/three.module.js:6277-6323`. -/
def determinant (te : List ℝ) : ℝ :=
  let n11 := el te 0; let n12 := el te 4; let n13 := el te 8; let n14 := el te 12
  let n21 := el te 1; let n22 := el te 5; let n23 := el te 9; let n24 := el te 13
  let n31 := el te 2; let n32 := el te 6; let n33 := el te 10; let n34 := el te 14
  let n41 := el te 3; let n42 := el te 7; let n43 := el te 11; let n44 := el te 15
  n41 * (n14 * n23 * n32 - n13 * n24 * n32 - n14 * n22 * n33 + n12 * n24 * n33 + n13 * n22 * n34 -
      n12 * n23 * n34) +
    n42 * (n11 * n23 * n34 - n11 * n24 * n33 + n14 * n21 * n33 - n13 * n21 * n34 + n13 * n24 * n31 -
      n14 * n23 * n31) +
    n43 * (n11 * n24 * n32 - n11 * n22 * n34 - n14 * n21 * n32 + n12 * n21 * n34 + n14 * n22 * n31 -
      n12 * n24 * n31) +
    n44 * (-(n13 * n22 * n31) - n11 * n23 * n32 + n11 * n22 * n33 + n13 * n21 * n32 - n12 * n21 * n33 +
      n12 * n23 * n31)

/-- `Quaternion.setFromRotationMatrix`,
`/repo/pvtrace/studio/static/vendor/three.module.js:3506-3562`. -/
def fromRotation (m11 m12 m13 m21 m22 m23 m31 m32 m33 : ℝ) : Quat :=
  let trace := m11 + m22 + m33
  if 0 < trace then
    let s := 0.5 / Real.sqrt (trace + 1)
    ⟨0.25 / s, (m32 - m23) * s, (m13 - m31) * s, (m21 - m12) * s⟩
  else if m11 > m22 ∧ m11 > m33 then
    let s := 2 * Real.sqrt (1 + m11 - m22 - m33)
    ⟨(m32 - m23) / s, 0.25 * s, (m12 + m21) / s, (m13 + m31) / s⟩
  else if m22 > m33 then
    let s := 2 * Real.sqrt (1 + m22 - m11 - m33)
    ⟨(m13 - m31) / s, (m12 + m21) / s, 0.25 * s, (m23 + m32) / s⟩
  else
    let s := 2 * Real.sqrt (1 + m33 - m11 - m22)
    ⟨(m21 - m12) / s, (m13 + m31) / s, (m23 + m32) / s, 0.25 * s⟩

/-- `Matrix4.decompose`, `/repo/pvtrace/studio/static/vendor/three.module.js:6607-6650`. -/
def decompose (te : List ℝ) : Object3D :=
  let sx0 := length3 (el te 0) (el te 1) (el te 2)
  let sy := length3 (el te 4) (el te 5) (el te 6)
  let sz := length3 (el te 8) (el te 9) (el te 10)
  let sx := if determinant te < 0 then -sx0 else sx0
  let ix := 1 / sx
  let iy := 1 / sy
  let iz := 1 / sz
  ⟨⟨el te 12, el te 13, el te 14⟩,
    fromRotation (el te 0 * ix) (el te 4 * iy) (el te 8 * iz) (el te 1 * ix) (el te 5 * iy) (el te 9 * iz)
      (el te 2 * ix) (el te 6 * iy) (el te 10 * iz),
    ⟨sx, sy, sz⟩⟩

/-- `Matrix4.compose`, `/repo/pvtrace/studio/static/vendor/three.module.js:6571-6605`, called by
`Object3D.updateMatrix` before an object is drawn. -/
def compose (o : Object3D) : List ℝ :=
  let x := o.quaternion.x; let y := o.quaternion.y; let z := o.quaternion.z; let w := o.quaternion.w
  let x2 := x + x; let y2 := y + y; let z2 := z + z
  let xx := x * x2; let xy := x * y2; let xz := x * z2
  let yy := y * y2; let yz := y * z2; let zz := z * z2
  let wx := w * x2; let wy := w * y2; let wz := w * z2
  let sx := o.scale.x; let sy := o.scale.y; let sz := o.scale.z
  [(1 - (yy + zz)) * sx, (xy + wz) * sx, (xz - wy) * sx, 0,
   (xy - wz) * sy, (1 - (xx + zz)) * sy, (yz + wx) * sy, 0,
   (xz + wy) * sz, (yz - wx) * sz, (1 - (xx + yy)) * sz, 0,
   o.position.x, o.position.y, o.position.z, 1]

/-- `Vector3.applyMatrix4`, `/repo/pvtrace/studio/static/vendor/three.module.js:4130-4143`. -/
def applyMatrix (te : List ℝ) (p : Vec3 ℝ) : Vec3 ℝ :=
  let w := 1 / (el te 3 * p.x + el te 7 * p.y + el te 11 * p.z + el te 15)
  ⟨(el te 0 * p.x + el te 4 * p.y + el te 8 * p.z + el te 12) * w,
    (el te 1 * p.x + el te 5 * p.y + el te 9 * p.z + el te 13) * w,
    (el te 2 * p.x + el te 6 * p.y + el te 10 * p.z + el te 14) * w⟩

/-- `Matrix4.makeRotationX`, `/repo/pvtrace/studio/static/vendor/three.module.js:6467-6482`, in column
order. -/
def rotationX (theta : ℝ) : List ℝ :=
  let c := Real.cos theta
  let s := Real.sin theta
  [1, 0, 0, 0, 0, c, s, 0, 0, -s, c, 0, 0, 0, 0, 1]

/-! ### Drawing -/

/-- `buildGeometry`, `/repo/pvtrace/studio/static/app.js:144-152`, as the points of the solid:
`BoxGeometry(width, height, depth)`, `SphereGeometry(radius)` and `CylinderGeometry(top, bottom, height)`
around the y axis, all centred, the last turned around x. -/
def buildGeometry (type : String) (params : List ℝ) : Set (Vec3 ℝ) :=
  let a := params.getD 0 0
  let b := params.getD 1 0
  let c := params.getD 2 0
  if type = "box" then {p | |p.x| ≤ a / 2 ∧ |p.y| ≤ b / 2 ∧ |p.z| ≤ c / 2}
  else if type = "sphere" then {p | p.x ^ 2 + p.y ^ 2 + p.z ^ 2 ≤ a ^ 2}
  else {p | ∃ q : Vec3 ℝ, (q.x ^ 2 + q.z ^ 2 ≤ b ^ 2 ∧ |q.y| ≤ a / 2) ∧
    applyMatrix (rotationX (Real.pi / 2)) q = p}

/-- The points of the mesh of a node on the screen, in scene coordinates: the matrix is split into
position, rotation and scale (`/repo/pvtrace/studio/static/app.js:263-265`) and put together again when
the mesh is drawn. -/
def drawn (v : NodeEntry) : Set (Vec3 ℝ) :=
  applyMatrix (compose (decompose v.matrix)) '' buildGeometry v.type v.params

/-- The arrow of a light, `/repo/pvtrace/studio/static/app.js:279-283`: origin and direction. -/
def arrow (v : LightEntry) : Vec3 ℝ × Vec3 ℝ :=
  (⟨el v.matrix 12, el v.matrix 13, el v.matrix 14⟩, ⟨el v.matrix 8, el v.matrix 9, el v.matrix 10⟩)

/-- The place of the marker of a light, `/repo/pvtrace/studio/static/app.js:271-277`. -/
def marker (v : LightEntry) : Vec3 ℝ := (decompose v.matrix).position

/-! ### Dropping -/

/-- `root.transformation_to(node)`, `/repo/pvtrace/scene/node.py:73-95`: the inverse poses on the way
down. -/
def fromWorld (axis : Affine ℝ → Vec3 ℝ) (s : SceneDef ℝ) (name : String) : Affine ℝ :=
  multiDot ((s.way s.nodes.length name).map fun n => (n.pose axis).inv)

/-- The position written for a node dropped at a point of the scene,
`/repo/pvtrace/studio/server.py:350-359`. -/
def dropped (axis : Affine ℝ → Vec3 ℝ) (s : SceneDef ℝ) (node : String) (world : Vec3 ℝ) :
    Except DErr (List ℝ) :=
  match s.find node with
  | none => .error .key
  | some n =>
    match n.parent with
    | none => .error .value
    | some p =>
      let v := Live.roundVec 6 ((fromWorld axis s p).point world)
      .ok [v.x, v.y, v.z]

end
end PV.View
