import Verif.Model.Mesh
import Verif.Lemmas.Vec

/-!
Triangles in space, what the trimesh library is trusted with, and the inside of a convex mesh.
-/

namespace PV.Spec
open PV

/-- Face `f` of the mesh has the corners `a`, `b`, `c`, in this order. -/
def Face (m : Tri) (f : ℕ) (a b c : Vec3 ℝ) : Prop :=
  ∃ i j k, m.faces[f]? = some (i, j, k) ∧ m.vertices[i]? = some a ∧ m.vertices[j]? = some b ∧
    m.vertices[k]? = some c

/-- The outward side of a face with corners `a`, `b`, `c`: counterclockwise seen from outside. -/
def outward (a b c : Vec3 ℝ) : Vec3 ℝ := (b - a).cross (c - a)

/-- The point lies on face `f`. -/
def InFace (m : Tri) (f : ℕ) (q : Vec3 ℝ) : Prop :=
  ∃ a b c, Face m f a b c ∧ ∃ u v w : ℝ, 0 ≤ u ∧ 0 ≤ v ∧ 0 ≤ w ∧ u + v + w = 1 ∧
    q = u • a + v • b + w • c

/-- What trimesh is trusted with, for one mesh. Intersections are points of the mesh ahead of the
ray, and no face that the ray crosses is missed. A point on the mesh is found at distance zero on a
face it lies on. The normal of a face is the unit vector on its outward side. The centre of mass
moves with the mesh. -/
structure Trusted (L : TriLib) (m : Tri) : Prop where
  sound : ∀ o d q, q ∈ L.hits m o d → ∃ t : ℝ, 0 ≤ t ∧ q = o + t • d ∧ ∃ f, InFace m f q
  complete : ∀ o d f a b c, ∀ t : ℝ, Face m f a b c → (outward a b c).dot d ≠ 0 → 0 ≤ t →
    InFace m f (o + t • d) → o + t • d ∈ L.hits m o d
  nearest : ∀ q f, InFace m f q → ∃ g, L.onSurface m q = [(q, 0, g)] ∧ InFace m g q
  normal : ∀ f a b c, Face m f a b c → ∃ n, ∃ k : ℝ, L.faceNormal m f = some n ∧ n.dot n = 1 ∧
    0 < k ∧ n = k • outward a b c
  centre : ∀ v, L.centreMass { m with vertices := m.vertices.map (· + v) } = L.centreMass m + v

/-- The point is strictly behind every face: the inside of a convex mesh. (Of another mesh, the part
of the inside from which all of the surface is seen.) -/
def WithinMesh (m : Tri) (q : Vec3 ℝ) : Prop :=
  ∀ f a b c, Face m f a b c → (outward a b c).dot (q - a) < 0

/-- No face is degenerate. -/
def ProperMesh (m : Tri) : Prop := ∀ f a b c, Face m f a b c → outward a b c ≠ 0

end PV.Spec
