import Verif.Model.Geometry

/-!
The solids meant by `Box(size)`, `Sphere(radius)` and `Cylinder(length, radius)`, as sets of points,
and what it means for a list of distances to be the crossings of a line with a solid.
-/

namespace PV.Solid

/-- Sizes are positive. -/
def Proper : Geom → Prop
  | .box s => 0 < s.x ∧ 0 < s.y ∧ 0 < s.z
  | .sphere r => 0 < r
  | .cylinder l r => 0 < l ∧ 0 < r

/-- The closed solid. -/
def Closed : Geom → Vec3 ℝ → Prop
  | .box s, p => |p.x| ≤ s.x / 2 ∧ |p.y| ≤ s.y / 2 ∧ |p.z| ≤ s.z / 2
  | .sphere r, p => p.x ^ 2 + p.y ^ 2 + p.z ^ 2 ≤ r ^ 2
  | .cylinder l r, p => p.x ^ 2 + p.y ^ 2 ≤ r ^ 2 ∧ |p.z| ≤ l / 2

/-- Its interior. -/
def Inner : Geom → Vec3 ℝ → Prop
  | .box s, p => |p.x| < s.x / 2 ∧ |p.y| < s.y / 2 ∧ |p.z| < s.z / 2
  | .sphere r, p => p.x ^ 2 + p.y ^ 2 + p.z ^ 2 < r ^ 2
  | .cylinder l r, p => p.x ^ 2 + p.y ^ 2 < r ^ 2 ∧ |p.z| < l / 2

/-- Its surface. -/
def Surface (g : Geom) (p : Vec3 ℝ) : Prop := Closed g p ∧ ¬ Inner g p

/-- The line `o + t d` is in the closed solid exactly for `a ≤ t ≤ b`, and in the interior exactly
for `a < t < b`. -/
def Span (g : Geom) (o d : Vec3 ℝ) (a b : ℝ) : Prop :=
  ∀ t : ℝ, (Closed g (o + t • d) ↔ a ≤ t ∧ t ≤ b) ∧ (Inner g (o + t • d) ↔ a < t ∧ t < b)

/-- `n` is the outward unit normal at the point `p` of the surface, off edges: it has length 1, and a
direction leads into the interior exactly when it has a negative component along `n`. -/
def Outward (g : Geom) (p n : Vec3 ℝ) : Prop :=
  n.dot n = 1 ∧ ∀ d : Vec3 ℝ,
    n.dot d < 0 ↔ ∃ δ > 0, ∀ t : ℝ, 0 < t → t < δ → Inner g (p + t • d)

end PV.Solid
