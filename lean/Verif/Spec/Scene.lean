import Verif.Spec.Solid
import Verif.Model.Library

/-!
What is asked of a scene made of the library's own parts.
-/

namespace PV.Library
variable {n : ℕ}

/-- A distribution that a component can hold: a non-negative constant, or a table accepted by the
constructor. -/
def GoodDist (D : Dist ℝ) : Prop :=
  (∃ y, 0 ≤ y ∧ D = .const y) ∨ ∃ T hist, mkDist T hist = .ok D

/-- A component whose coefficient data are accepted and whose lifetimes are not negative. -/
structure GoodComp (c : Comp) : Prop where
  absDist : GoodDist c.absDist
  tauRad : ∀ t, c.tauRad = some t → 0 ≤ t
  tauNr : ∀ t, c.tauNr = some t → 0 ≤ t

/-- A physically meaningful scene: positive refractive indices, rotations and translations only,
good components. Nothing is asked of shapes, sizes, overlap or surfaces. -/
structure Sound (S : LScene n) : Prop where
  index_pos : ∀ v, 0 < (S.node v).index
  rigid : ∀ v, (S.node v).l2w.Rigid
  inverse : ∀ v, (S.node v).l2w.Inverse (S.node v).w2l
  comps : ∀ v, ∀ c ∈ (S.node v).comps, GoodComp c

/-- On the surface of a shape. A sphere that is touched almost tangentially is allowed a squared
distance error of 2.5e-9 (`PV.Geometry.near_tangent`). -/
def OnSurface (g : Geom) (p : Vec3 ℝ) : Prop :=
  Solid.Surface g p ∨ ∃ r, g = .sphere r ∧ r ^ 2 - 2.5e-9 ≤ p.x ^ 2 + p.y ^ 2 + p.z ^ 2 ∧
    p.x ^ 2 + p.y ^ 2 + p.z ^ 2 ≤ r ^ 2

/-- What is assumed of `trimesh`: reported points are on the surface of the box. -/
def TrimeshSound (B : Trimesh) : Prop :=
  ∀ s o d, d.dot d = 1 → ∀ t ∈ B s o d, Solid.Surface (.box s) (o + t • d)

/-- Round shapes are larger than the absolute tolerance 1e-8 used in the code. -/
def Visible : Geom → Prop
  | .box _ => True
  | .sphere r => 1e-8 < r ^ 2
  | .cylinder l r => 0 < l ∧ 1e-8 < r

end PV.Library
