import Verif.Model.FileScene

/-!
Where the light of a node starts, and which lights can shine.
-/

namespace PV.Spec
open PV PV.Doc

/-- A place inside the aperture of a light, in the coordinates of its node: the origin unless a mask
is given, a rectangle or a circle in the plane `z = 0`, or a cuboid. The numbers of a mask are
half widths. -/
def Within : Option (Spot ℝ) → Vec3 ℝ → Prop
  | none, p => p = ⟨0, 0, 0⟩
  | some (.rect x y), p => |p.x| ≤ |x| ∧ |p.y| ≤ |y| ∧ p.z = 0
  | some (.circle r), p => p.x ^ 2 + p.y ^ 2 ≤ r ^ 2 ∧ p.z = 0
  | some (.cube x y z), p => |p.x| ≤ |x| ∧ |p.y| ≤ |y| ∧ |p.z| ≤ |z|

/-- A wavelength of a light: 555 nm unless one is given, or one drawn from a spectrum. -/
def Coloured : Option (Colour ℝ) → ℝ → Prop
  | none, w => w = 555
  | some (.constant nm), w => w = nm
  | some (.spectrum D), w => ∃ p, (0 ≤ p ∧ p < 1) ∧ D.sample p = .ok (some w)
  | some (.number _), _ => False

/-- A direction of a beam, in the coordinates of the node of the light: along `z` unless a mask is
given; a cone has its half angle in degrees. -/
def Aimed : Option (Aiming ℝ) → Vec3 ℝ → Prop
  | none, d => d = ⟨0, 0, 1⟩
  | some .isotropic, d => d.dot d = 1
  | some .lambertian, d => d.dot d = 1 ∧ 0 ≤ d.z
  | some (.cone a), d => d.dot d = 1 ∧ (0 < a → Real.cos (a * (Real.pi / 180)) ≤ d.z)
  | some (.henyeyGreenstein _), d => d.dot d = 1

/-- A light that can shine: the wavelength is not the number 0, a spectrum is not zero everywhere,
the half angle of a cone is above 0 and at most 90 degrees, and the asymmetry of a
Henyey-Greenstein beam is neither 0 nor 1 in size or more. -/
structure Shines (l : LightDef ℝ) : Prop where
  colour : ∀ q, l.wavelength ≠ some (.number q)
  spectrum : ∀ D, l.wavelength = some (.spectrum D) → ∀ p, 0 ≤ p → p < 1 → ∃ w, D.sample p = .ok (some w)
  cone : ∀ a, l.direction = some (.cone a) → 1 / 1000000 < a ∧ a ≤ 90
  beam : ∀ g, l.direction = some (.henyeyGreenstein g) → g ≠ 0 ∧ |g| < 1

end PV.Spec
