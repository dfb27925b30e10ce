import Mathlib.Algebra.Order.Field.Basic
import Mathlib.Tactic.Ring
import Mathlib.Tactic.LinearCombination

/-!
Three-vectors and affine maps, as used by `/repo/pvtrace/scene/node.py:97-130`
(`point_to_node`, `vector_to_node`) and `/repo/pvtrace/engine/_kernel.pyx:203-216`
(`dot3`, `transform_point`, `transform_vector`).

Simplification: a 4x4 homogeneous matrix is represented by its first three rows
(a 3x3 linear part and a translation). Both codes only ever read these rows when
they apply a matrix to a point or a vector.
-/

namespace PV

/-- A tuple `(x, y, z)`; positions, directions and normals of
`/repo/pvtrace/light/ray.py:38-39`. -/
@[ext] structure Vec3 (α : Type) where
  x : α
  y : α
  z : α
deriving DecidableEq, Repr

namespace Vec3
variable {α : Type}

instance [Zero α] : Zero (Vec3 α) := ⟨⟨0, 0, 0⟩⟩
instance [Add α] : Add (Vec3 α) := ⟨fun a b => ⟨a.x + b.x, a.y + b.y, a.z + b.z⟩⟩
instance [Sub α] : Sub (Vec3 α) := ⟨fun a b => ⟨a.x - b.x, a.y - b.y, a.z - b.z⟩⟩
instance [Neg α] : Neg (Vec3 α) := ⟨fun a => ⟨-a.x, -a.y, -a.z⟩⟩
instance [Mul α] : SMul α (Vec3 α) := ⟨fun k a => ⟨k * a.x, k * a.y, k * a.z⟩⟩

/-- `np.dot` of two 3-tuples; `dot3`, `/repo/pvtrace/engine/_kernel.pyx:203-204`. -/
def dot [Add α] [Mul α] (a b : Vec3 α) : α := a.x * b.x + a.y * b.y + a.z * b.z

/-- Component by index, as in `p[axis]`. -/
def get (a : Vec3 α) : Fin 3 → α
  | 0 => a.x
  | 1 => a.y
  | 2 => a.z

@[simp] theorem zero_x [Zero α] : (0 : Vec3 α).x = 0 := rfl
@[simp] theorem zero_y [Zero α] : (0 : Vec3 α).y = 0 := rfl
@[simp] theorem zero_z [Zero α] : (0 : Vec3 α).z = 0 := rfl
@[simp] theorem add_x [Add α] (a b : Vec3 α) : (a + b).x = a.x + b.x := rfl
@[simp] theorem add_y [Add α] (a b : Vec3 α) : (a + b).y = a.y + b.y := rfl
@[simp] theorem add_z [Add α] (a b : Vec3 α) : (a + b).z = a.z + b.z := rfl
@[simp] theorem sub_x [Sub α] (a b : Vec3 α) : (a - b).x = a.x - b.x := rfl
@[simp] theorem sub_y [Sub α] (a b : Vec3 α) : (a - b).y = a.y - b.y := rfl
@[simp] theorem sub_z [Sub α] (a b : Vec3 α) : (a - b).z = a.z - b.z := rfl
@[simp] theorem neg_x [Neg α] (a : Vec3 α) : (-a).x = -a.x := rfl
@[simp] theorem neg_y [Neg α] (a : Vec3 α) : (-a).y = -a.y := rfl
@[simp] theorem neg_z [Neg α] (a : Vec3 α) : (-a).z = -a.z := rfl
@[simp] theorem smul_x [Mul α] (k : α) (a : Vec3 α) : (k • a).x = k * a.x := rfl
@[simp] theorem smul_y [Mul α] (k : α) (a : Vec3 α) : (k • a).y = k * a.y := rfl
@[simp] theorem smul_z [Mul α] (k : α) (a : Vec3 α) : (k • a).z = k * a.z := rfl

end Vec3

/-- The first three rows of a homogeneous matrix: rows `r0 r1 r2` of the 3x3 part
and the translation column `t` (`node.pose`, `/repo/pvtrace/geometry/transformable.py`). -/
@[ext] structure Affine (α : Type) where
  r0 : Vec3 α
  r1 : Vec3 α
  r2 : Vec3 α
  t : Vec3 α
deriving DecidableEq, Repr

namespace Affine
variable {α : Type} [Add α] [Mul α]

/-- `np.dot(mat[0:3, 0:3], vector)`: `/repo/pvtrace/scene/node.py:128-130`,
`transform_vector` `/repo/pvtrace/engine/_kernel.pyx:213-216`. -/
def vec (m : Affine α) (v : Vec3 α) : Vec3 α := ⟨m.r0.dot v, m.r1.dot v, m.r2.dot v⟩

/-- `np.dot(mat, [x, y, z, 1])[0:3]`: `/repo/pvtrace/scene/node.py:109-114`,
`transform_point` `/repo/pvtrace/engine/_kernel.pyx:207-210`. -/
def point (m : Affine α) (p : Vec3 α) : Vec3 α := m.vec p + m.t

/-- Columns of the 3x3 part. -/
def c0 (m : Affine α) : Vec3 α := ⟨m.r0.x, m.r1.x, m.r2.x⟩
def c1 (m : Affine α) : Vec3 α := ⟨m.r0.y, m.r1.y, m.r2.y⟩
def c2 (m : Affine α) : Vec3 α := ⟨m.r0.z, m.r1.z, m.r2.z⟩

/-- Matrix product of two homogeneous matrices (`np.linalg.multi_dot`,
`/repo/pvtrace/scene/node.py:94`). -/
def comp (a b : Affine α) : Affine α where
  r0 := ⟨a.r0.dot b.c0, a.r0.dot b.c1, a.r0.dot b.c2⟩
  r1 := ⟨a.r1.dot b.c0, a.r1.dot b.c1, a.r1.dot b.c2⟩
  r2 := ⟨a.r2.dot b.c0, a.r2.dot b.c1, a.r2.dot b.c2⟩
  t := a.point b.t

/-- `np.identity(4)`. -/
def one [Zero α] [One α] : Affine α := ⟨⟨1, 0, 0⟩, ⟨0, 1, 0⟩, ⟨0, 0, 1⟩, ⟨0, 0, 0⟩⟩

/-- The 3x3 part is orthogonal: `rotation @ rotation.T = I`, the test of
`/repo/pvtrace/engine/compiler.py:227-231` (exactly, without its 1e-9 tolerance). -/
def Rigid [Zero α] [One α] (m : Affine α) : Prop :=
  m.r0.dot m.r0 = 1 ∧ m.r1.dot m.r1 = 1 ∧ m.r2.dot m.r2 = 1 ∧
  m.r0.dot m.r1 = 0 ∧ m.r0.dot m.r2 = 0 ∧ m.r1.dot m.r2 = 0

/-- `b` undoes `a` on points and on vectors (the effect of `np.linalg.inv`,
`/repo/pvtrace/engine/compiler.py:233`, `/repo/pvtrace/scene/node.py:90`). -/
def Inverse (a b : Affine α) : Prop :=
  (∀ p, b.point (a.point p) = p) ∧ (∀ v, b.vec (a.vec v) = v)

end Affine
end PV
