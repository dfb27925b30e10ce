import Verif.Model.NextHit
import Verif.Model.Phase
import Mathlib.Analysis.SpecialFunctions.Pow.NNReal

/-!
Shapes: `/repo/pvtrace/geometry/{box,sphere,cylinder}.py`, `ray_z_cylinder` of
`/repo/pvtrace/geometry/utils.py:131-350`, and `/repo/pvtrace/engine/_kernel.pyx:245-400`.

All functions work in the frame of the shape, with centre at the origin. Reported intersections are
given by the parameter `t` of the point `origin + t * direction`.
-/

namespace PV
noncomputable section
open Classical

/-- `Box(size)`, `Sphere(radius)`, `Cylinder(length, radius)`; the geometry tags and `geom_params` of
`/repo/pvtrace/engine/compiler.py:208-223`. -/
inductive Geom
  | box (size : Vec3 ℝ)
  | sphere (radius : ℝ)
  | cylinder (length radius : ℝ)

/-! ### Engine -/

/-- The threshold `1e-300` below which `intersect_box` and `intersect_cylinder` take a component of
the direction for zero, `/repo/pvtrace/engine/_kernel.pyx:253,313,329`. -/
def tiny : ℝ := 1 / 10 ^ 300

/-- One axis of `intersect_box`, `/repo/pvtrace/engine/_kernel.pyx:250-267`. The state is
`(tmin, tmax)`, `none` for `-INFINITY` and `INFINITY`; the result `none` is `return 0`. -/
def kSlab (size o d : ℝ) (acc : Option ℝ × Option ℝ) : Option (Option ℝ × Option ℝ) :=
  let lo := -0.5 * size
  let hi := 0.5 * size
  if |d| < tiny then
    if o < lo ∨ o > hi then none else some acc
  else
    let inv := 1 / d
    let t1 := (lo - o) * inv
    let t2 := (hi - o) * inv
    let (t1, t2) := if t1 > t2 then (t2, t1) else (t1, t2)
    let tmin := match acc.1 with
      | none => t1
      | some m => if t1 > m then t1 else m
    let tmax := match acc.2 with
      | none => t2
      | some m => if t2 < m then t2 else m
    some (some tmin, some tmax)

/-- `intersect_box`, `/repo/pvtrace/engine/_kernel.pyx:245-276`. If all components of the direction
are below 1e-300 the code reports `INFINITY`; that is not represented. -/
def kBox (size o d : Vec3 ℝ) : List ℝ :=
  match ((kSlab size.x o.x d.x (none, none)).bind (kSlab size.y o.y d.y)).bind
      (kSlab size.z o.z d.z) with
  | some (some tmin, some tmax) =>
    if tmax < tmin then [] else [tmin, tmax].filter (fun t => t > epsZero)
  | _ => []

/-- `intersect_sphere`, `/repo/pvtrace/engine/_kernel.pyx:279-298`. -/
def kSphere (radius : ℝ) (o d : Vec3 ℝ) : List ℝ :=
  let a := d.dot d
  let b := 2 * d.dot o
  let c := o.dot o - radius * radius
  let disc := b * b - 4 * a * c
  if disc < 0 then []
  else
    let sq := Real.sqrt disc
    [(-b - sq) / (2 * a), (-b + sq) / (2 * a)].filter (fun t => t > epsZero)

/-- `intersect_cylinder`, `/repo/pvtrace/engine/_kernel.pyx:301-345`. -/
def kCylinder (length radius : ℝ) (o d : Vec3 ℝ) : List ℝ :=
  let half := 0.5 * length
  let a := d.x * d.x + d.y * d.y
  let side :=
    if a > tiny then
      let b := 2 * (o.x * d.x + o.y * d.y)
      let c := o.x * o.x + o.y * o.y - radius * radius
      let disc := b * b - 4 * a * c
      if disc ≥ 0 then
        let sq := Real.sqrt disc
        [(-b - sq) / (2 * a), (-b + sq) / (2 * a)].filter
          (fun t => o.z + t * d.z > -half ∧ o.z + t * d.z < half)
      else []
    else []
  let caps :=
    if |d.z| > tiny then
      [(-half - o.z) / d.z, (half - o.z) / d.z].filter
        (fun t => (o.x + t * d.x) * (o.x + t * d.x) + (o.y + t * d.y) * (o.y + t * d.y) ≤
          radius * radius)
    else []
  (side ++ caps).filter (fun t => t > epsZero)

/-- `intersect_node`, `/repo/pvtrace/engine/_kernel.pyx:348-356`. -/
def kIntersect : Geom → Vec3 ℝ → Vec3 ℝ → List ℝ
  | .box size => kBox size
  | .sphere radius => kSphere radius
  | .cylinder length radius => kCylinder length radius

/-- Unit vector along an axis with a sign, `/repo/pvtrace/engine/_kernel.pyx:375-378`. -/
def axisNormal (axis : Fin 3) (sign : ℝ) : Vec3 ℝ :=
  match axis with
  | 0 => ⟨sign, 0, 0⟩
  | 1 => ⟨0, sign, 0⟩
  | 2 => ⟨0, 0, sign⟩

/-- The order in which `local_normal` visits the faces of a box. -/
def faces : List (Fin 3 × ℝ) := [(0, -1), (0, 1), (1, -1), (1, 1), (2, -1), (2, 1)]

/-- `local_normal`, `/repo/pvtrace/engine/_kernel.pyx:359-400`. -/
def kNormal : Geom → Vec3 ℝ → Vec3 ℝ
  | .box size, p =>
    let best := faces.foldl (fun best f =>
      let dist := |p.get f.1 - f.2 * 0.5 * size.get f.1|
      match best with
      | none => some (dist, f)
      | some b => if dist < b.1 then some (dist, f) else some b) (none : Option (ℝ × Fin 3 × ℝ))
    match best with
    | none => axisNormal 0 1
    | some b => axisNormal b.2.1 b.2.2
  | .sphere _, p =>
    let mag := Real.sqrt (p.dot p)
    ⟨p.x / mag, p.y / mag, p.z / mag⟩
  | .cylinder length _, p =>
    let half := 0.5 * length
    if |p.z + half| ≤ 1e-8 + 1e-5 * |half| then ⟨0, 0, -1⟩
    else if |p.z - half| ≤ 1e-8 + 1e-5 * |half| then ⟨0, 0, 1⟩
    else
      let r := Real.sqrt (p.x * p.x + p.y * p.y)
      ⟨p.x / r, p.y / r, 0⟩

/-! ### Python -/

/-- `Sphere.intersections`, `/repo/pvtrace/geometry/sphere.py:35-66`. `np.isclose(disc, 0.0)` is
`|disc| <= 1e-8`. -/
def pySphere (radius : ℝ) (o d : Vec3 ℝ) : List ℝ :=
  let a := d.dot d
  let b := 2 * d.dot o
  let c := o.dot o - radius ^ 2
  let disc := b ^ 2 - 4 * a * c
  if disc < 0 then []
  else
    let t := if |disc| ≤ 1e-8 then [-b / (2 * a)]
      else [(-b - Real.sqrt disc) / (2 * a), (-b + Real.sqrt disc) / (2 * a)]
    (sortedBy id t).filter (fun t => t ≥ 0)

/-- The real roots of `a t^2 + b t + c`, as `np.roots([a, b, c])` followed by the selection of finite
real values does it: leading zeros are stripped, a double root is returned twice. With `a = 0` the
ray is parallel to the axis, `b = 0` too and there is no root. Simplification: the order of the two
roots is unspecified in NumPy and irrelevant, because the result is sorted. -/
def npRoots (a b c : ℝ) : List ℝ :=
  if a = 0 then (if b = 0 then [] else [-c / b])
  else if b ^ 2 - 4 * a * c < 0 then []
  else [(-b - Real.sqrt (b ^ 2 - 4 * a * c)) / (2 * a),
    (-b + Real.sqrt (b ^ 2 - 4 * a * c)) / (2 * a)]

/-- `ray_z_cylinder`, `/repo/pvtrace/geometry/utils.py:300-350`. Division by a zero `d.z` gives `inf`
or `nan`, which `np.isfinite` rejects. -/
def rayZCylinder (length radius : ℝ) (o d : Vec3 ℝ) : List ℝ :=
  let a := d.x ^ 2 + d.y ^ 2
  let b := 2 * (o.x * d.x + o.y * d.y)
  let c := o.x ^ 2 + o.y ^ 2 - radius ^ 2
  let tcyl := (npRoots a b c).filter (fun t => t ≥ 0)
  let ttopcap := (0.5 * length - o.z) / d.z
  let tbotcap := ((-0.5 * length - o.z) * (-1)) / (d.z * (-1))
  let tcap := if d.z = 0 then [] else [tbotcap, ttopcap].filter (fun t => t ≥ 0)
  let caps := tcap.filter
    (fun t => Real.sqrt ((o.x + t * d.x) ^ 2 + (o.y + t * d.y) ^ 2) < radius)
  let cyls := tcyl.filter
    (fun t => o.z + t * d.z > -0.5 * length ∧ o.z + t * d.z < 0.5 * length)
  sortedBy id (cyls ++ caps)

/-- `geometry.intersections` of the Python shapes, as parameters of the ray:
`/repo/pvtrace/geometry/sphere.py:35-66`, `/repo/pvtrace/geometry/cylinder.py:48-50`. For a box the
answer is trimesh's (`/repo/pvtrace/geometry/mesh.py:45-63`), given as `box`. -/
def pyIntersect (box : List ℝ) : Geom → Vec3 ℝ → Vec3 ℝ → List ℝ
  | .box _, _, _ => box
  | .sphere r, o, d => pySphere r o d
  | .cylinder l r, o, d => rayZCylinder l r o d

/-- `on_aabb_surface(size, point, atol=2 * EPS_ZERO)`, `/repo/pvtrace/geometry/utils.py:15-62` as
called in `/repo/pvtrace/geometry/box.py:46-53`: the indices of the planes nearer than `atol / 2`.
The point and its projection differ in one coordinate, so their distance is the absolute
difference. -/
def boxSurfaces (size p : Vec3 ℝ) : List ℕ :=
  let lo : Vec3 ℝ := ⟨0 - 0.5 * size.x, 0 - 0.5 * size.y, 0 - 0.5 * size.z⟩
  let hi : Vec3 ℝ := ⟨0 + 0.5 * size.x, 0 + 0.5 * size.y, 0 + 0.5 * size.z⟩
  let dists := [|p.x - lo.x|, |p.x - hi.x|, |p.y - lo.y|, |p.y - hi.y|, |p.z - lo.z|, |p.z - hi.z|]
  (dists.zipIdx.filter (fun e => |e.1| < 2 * epsZero / 2)).map (·.2)

/-- `NORMALS`, `/repo/pvtrace/geometry/box.py:19`. -/
def boxNormals : List (Vec3 ℝ) :=
  [⟨-1, 0, 0⟩, ⟨1, 0, 0⟩, ⟨0, -1, 0⟩, ⟨0, 1, 0⟩, ⟨0, 0, -1⟩, ⟨0, 0, 1⟩]

/-- `np.isclose(a, b)` with its default tolerances. -/
def isclose (a b : ℝ) : Prop := |a - b| ≤ 1e-8 + 1e-5 * |b|

/-- `normal`: `/repo/pvtrace/geometry/box.py:50-66`, `/repo/pvtrace/geometry/sphere.py:68-74`,
`/repo/pvtrace/geometry/cylinder.py:52-65`. The centre of a sphere gives `nan`; not represented. -/
def pyNormal : Geom → Vec3 ℝ → Except Err (Vec3 ℝ)
  | .box size, p =>
    match boxSurfaces size p with
    | [i] => match boxNormals[i]? with
      | some n => .ok n
      | none => .error .indexError
    | _ => .error .geometryError
  | .sphere _, p =>
    let mag := Real.sqrt (p.dot p)
    .ok ⟨p.x / mag, p.y / mag, p.z / mag⟩
  | .cylinder length radius, p =>
    if isclose p.z (-0.5 * length) then .ok ⟨0, 0, -1⟩
    else if isclose p.z (0.5 * length) then .ok ⟨0, 0, 1⟩
    else if isclose radius (Real.sqrt (p.x ^ 2 + p.y ^ 2)) then
      let v : Vec3 ℝ := ⟨p.x - 0, p.y - 0, p.z - p.z⟩
      let n := Real.sqrt (v.dot v)
      .ok ⟨v.x / n, v.y / n, v.z / n⟩
    else .error .geometryError

/-- `is_on_surface`: `/repo/pvtrace/geometry/box.py:46-48`, `/repo/pvtrace/geometry/sphere.py:27-29`,
`/repo/pvtrace/geometry/cylinder.py:29-39`. -/
def pyOnSurface : Geom → Vec3 ℝ → Bool
  | .box size, p => decide (boxSurfaces size p ≠ [])
  | .sphere radius, p => decide (|Real.sqrt (p.dot p) - radius| < epsZero)
  | .cylinder length radius, p =>
    let k := 1 / Real.sqrt 3
    match rayZCylinder length radius p ⟨k, k, k⟩ with
    | [] => false
    | t :: _ => decide (|t| < epsZero)

/-- `contains`: `/repo/pvtrace/geometry/sphere.py:31-33`, `/repo/pvtrace/geometry/cylinder.py:41-46`.
`Box.contains` is `trimesh.contains`, taken to be membership of the open box. -/
def pyContains : Geom → Vec3 ℝ → Bool
  | .box size, p =>
    decide (|p.x| < 0.5 * size.x ∧ |p.y| < 0.5 * size.y ∧ |p.z| < 0.5 * size.z)
  | .sphere radius, p => decide (radius - (Real.sqrt (p.dot p) + epsZero) > 0)
  | .cylinder length radius, p =>
    decide (p.z > -0.5 * length ∧ p.z < 0.5 * length ∧ Real.sqrt (p.x ^ 2 + p.y ^ 2) < radius)

/-- `is_entering`: `/repo/pvtrace/geometry/sphere.py:76-86`,
`/repo/pvtrace/geometry/cylinder.py:67-77`, and for boxes the inherited
`/repo/pvtrace/geometry/mesh.py:84-93`, which calls `Box.normal`. -/
def pyIsEntering (g : Geom) (p d : Vec3 ℝ) : Except Err Bool :=
  let test := match pyNormal g p with
    | .error e => .error e
    | .ok n => .ok (decide (n.dot d < 0))
  match g with
  | .box _ => test
  | .sphere _ => if pyOnSurface g p then test else .error .valueError
  | .cylinder _ _ => if pyOnSurface g p then test else .error .geometryError

end
end PV
