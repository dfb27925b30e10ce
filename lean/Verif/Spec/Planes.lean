import Verif.Model.Vec
import Mathlib.Data.Real.Basic

/-!
Planes, mirror images and view volumes, in coordinates and without matrices.
-/

namespace PV.Spec
open PV

/-- `X` lies in the plane through `point` with the given normal. -/
def OnPlane (point normal X : Vec3 ℝ) : Prop := normal.dot (X - point) = 0

/-- `v` is a multiple of `d`. -/
def Along (v d : Vec3 ℝ) : Prop := ∃ k : ℝ, v = k • d

/-- `Y` is the mirror image of `X`: the line from `X` to `Y` is perpendicular to the plane and its middle
lies in the plane. -/
def MirrorImage (point normal X Y : Vec3 ℝ) : Prop :=
  Along (Y - X) normal ∧ OnPlane point normal ((1 / 2 : ℝ) • (X + Y))

/-- Square of the distance. -/
def distSq (X Y : Vec3 ℝ) : ℝ := (X - Y).dot (X - Y)

/-- A box-shaped view volume. -/
def InBox (left right bottom top near far : ℝ) (X : Vec3 ℝ) : Prop :=
  (left ≤ X.x ∧ X.x ≤ right) ∧ (bottom ≤ X.y ∧ X.y ≤ top) ∧ (near ≤ X.z ∧ X.z ≤ far)

/-- A truncated pyramid with its tip at the origin, opening along `z`, whose near face at `z = near` is the
given rectangle: `X` lies in it if the line from the origin to `X` goes through the near face and `X` is
between the near and the far plane. -/
def InPyramid (left right bottom top near far : ℝ) (X : Vec3 ℝ) : Prop :=
  (near ≤ X.z ∧ X.z ≤ far) ∧ ∃ F : Vec3 ℝ, F.z = near ∧ Along X F ∧
    (left ≤ F.x ∧ F.x ≤ right) ∧ (bottom ≤ F.y ∧ F.y ≤ top)

/-- Normalised device coordinates. -/
def InCube (X : Vec3 ℝ) : Prop := InBox (-1) 1 (-1) 1 (-1) 1 X

end PV.Spec
