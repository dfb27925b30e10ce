import Verif.Model.Geometry
import Verif.Model.NextHit

/-!
`Mesh`, `/repo/pvtrace/geometry/mesh.py:11-93`, the wrapper around a `trimesh.Trimesh`.

The queries of the trimesh library are not part of the repository; they are the fields of `TriLib`.
-/

namespace PV
noncomputable section
open Classical

/-- A `trimesh.Trimesh`: its vertices, and its faces as indices of vertices. -/
@[ext] structure Tri where
  vertices : List (Vec3 ℝ)
  faces : List (ℕ × ℕ × ℕ)

/-- What `mesh.py` calls in trimesh. -/
structure TriLib where
  /-- `trimesh.center_mass` -/
  centreMass : Tri → Vec3 ℝ
  /-- `mesh.ray.intersects_location` for one ray -/
  hits : Tri → Vec3 ℝ → Vec3 ℝ → List (Vec3 ℝ)
  /-- `mesh.nearest.on_surface` for one point: rows of closest points, distances and faces -/
  onSurface : Tri → Vec3 ℝ → List (Vec3 ℝ × ℝ × ℕ)
  /-- `mesh.face_normals[i]`; `none` is `IndexError` -/
  faceNormal : Tri → ℕ → Option (Vec3 ℝ)

/-- `Mesh.__init__`, `/repo/pvtrace/geometry/mesh.py:15-19`: `trimesh.vertices -= ...` changes the
object in place, so this is both the mesh that is kept and the caller's object afterwards. -/
def meshInit (L : TriLib) (m : Tri) : Tri :=
  { m with vertices := m.vertices.map (· - L.centreMass m) }

/-- `np.linalg.norm` -/
def vnorm (v : Vec3 ℝ) : ℝ := Real.sqrt (v.dot v)

/-- `Mesh.intersections`, `/repo/pvtrace/geometry/mesh.py:45-63`. -/
def meshIntersections (L : TriLib) (m : Tri) (position direction : Vec3 ℝ) : List (Vec3 ℝ) :=
  let locations := L.hits m position direction
  if locations.length = 0 then []
  else sortedBy (fun i => vnorm (i - position)) locations

/-- `Mesh.is_on_surface`, `/repo/pvtrace/geometry/mesh.py:34-43`. -/
def meshOnSurface (L : TriLib) (m : Tri) (point : Vec3 ℝ) : Bool :=
  (L.onSurface m point).any fun row => decide (|row.2.1| < epsZero)

/-- `Mesh.normal`, `/repo/pvtrace/geometry/mesh.py:65-85`. -/
def meshNormal (L : TriLib) (m : Tri) (point : Vec3 ℝ) : Except Err (Vec3 ℝ) :=
  match L.onSurface m point with
  | [(_, distance, triangle)] =>
    if ¬ |distance| < epsZero then .error .geometryError
    else match L.faceNormal m triangle with
      | some n => .ok n
      | none => .error .indexError
  | _ => .error .geometryError

/-- `Mesh.is_entering`, `/repo/pvtrace/geometry/mesh.py:87-93`. -/
def meshIsEntering (L : TriLib) (m : Tri) (point direction : Vec3 ℝ) : Except Err Bool :=
  match meshNormal L m point with
  | .error e => .error e
  | .ok n => if n.dot direction < 0 then .ok true else .ok false

end
end PV
