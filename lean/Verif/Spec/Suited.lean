import Verif.Spec.Arranged

/-!
Materials that can deal with every wavelength that occurs, and the four ends of a ray.
-/

namespace PV.Library
open Solid
variable {n : ℕ}

/-- The ends of a ray: it leaves the world, is lost in a material, is used up in a reaction, or the limit of
steps or of path length is reached. -/
def Ends : Event → Prop
  | .exit | .nonradiative | .react | .kill => True
  | _ => False

/-- A phase function with admissible parameters. -/
def Drawable : Phase → Prop
  | .isotropic | .lambertian => True
  | .henyeyGreenstein g => g ≠ 0 ∧ |g| < 1
  | .cone t => 1e-8 < |t| ∧ t ≤ Real.pi / 2

/-- Every material has a coefficient at every wavelength of `W`, and luminophores that absorb at a wavelength of
`W` emit at one. -/
structure Suited (S : LScene n) (method : EmitMethod) (W : Set ℝ) : Prop where
  known : ∀ v, ∀ c ∈ (S.node v).comps, c.kind ≠ .other
  coefficient : ∀ v, ∀ c ∈ (S.node v).comps, ∀ w ∈ W, ∃ y, 0 ≤ y ∧ c.absDist.call w = .ok (some y)
  phase : ∀ v, ∀ c ∈ (S.node v).comps, Reemits c → Drawable c.phase
  emission : ∀ v, ∀ c ∈ (S.node v).comps, c.kind = .luminophore → ∀ w ∈ W, ∀ u : ℝ, 0 ≤ u → u < 1 →
    ∃ w' ∈ W, emitWavelength c.emsDist method w u = .ok w'

/-- A spectrum of absorption coefficients for the wavelengths from `a` to `b`. -/
def Covers (D : Dist ℝ) (a b : ℝ) : Prop :=
  (∃ y, 0 ≤ y ∧ D = .const y) ∨ ∃ T, mkDist T false = .ok D ∧ T.x 0 ≤ a ∧ b ≤ T.x (T.n - 1)

/-- An emission spectrum, not zero everywhere, that suits the way of choosing the emitted wavelength: it lies
between `a` and `b` ("full"); it ends at `b` and includes `a` ("redshift"); it ends at `b`, is zero up to a knot
not below `a`, and includes `a` less the thermal shift ("kT"). -/
def Emits (D : Dist ℝ) (method : EmitMethod) (a b : ℝ) : Prop :=
  ∃ T, mkDist T false = .ok D ∧ (∃ i < T.n, 0 < T.y i) ∧ match method with
    | .full => a ≤ T.x 0 ∧ T.x (T.n - 1) ≤ b
    | .redshift => T.x 0 ≤ a ∧ T.x (T.n - 1) = b
    | .kT => 0 < a ∧ T.x 0 ≤ thermalShift a ∧ T.x (T.n - 1) = b ∧ ∃ k < T.n, a ≤ T.x k ∧ ∀ i ≤ k, T.y i = 0
    | _ => False

/-- A ray in general position that does not hit a box at an edge. -/
structure Smoothly (S : LScene n) (B : Trimesh) (ray : Ray ℝ) : Prop extends General S B ray where
  edge : ∀ h, nextHit epsZero (distanceBetween ray.position)
      (S.intersections B ray.position ray.direction) = .ok (some h) → h.hit ≠ 0 →
    ∀ size, (S.node h.hit).geom = .box size →
      Geometry.Smooth epsZero (.box size) ((S.node h.hit).w2l.point (ray.position + h.dist • ray.direction))

end PV.Library
