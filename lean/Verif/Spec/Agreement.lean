import Verif.Spec.Scene
import Verif.Spec.EventLog
import Verif.Props.Shapes
import Verif.Props.Normals

/-!
When the compiled engine and the Python tracer are compared: which scenes, and which states of a
ray.
-/

namespace PV.Library
noncomputable section
open Solid
variable {σ : Type} {n : ℕ}

/-- Components that re-emit. -/
def Reemits (c : Comp) : Prop := c.kind = .scatterer ∨ c.kind = .luminophore

/-- Scenes the engine accepts: proper shapes, spectra that are constants or interpolated tables, phase
functions known to the engine. -/
structure Accepted (S : LScene n) : Prop extends Sound S where
  proper : ∀ v, Proper (S.node v).geom
  ratio : ∀ v w, (S.node v).index ≤ 10000 * (S.node w).index
  absorbs : ∀ v, ∀ c ∈ (S.node v).comps,
    (∃ y, c.absDist = .const y) ∨ ∃ T, mkDist T false = .ok c.absDist
  emits : ∀ v, ∀ c ∈ (S.node v).comps, c.kind = .luminophore →
    ∃ T, mkDist T false = .ok c.emsDist ∧ ∃ i < T.n, 0 < T.y i
  phase : ∀ v, ∀ c ∈ (S.node v).comps, Reemits c → c.phase.tag.isSome ∧
    ∀ g, c.phase = .henyeyGreenstein g → epsZero ≤ |g|

/-- Scenes the engine accepts and does not treat differently: no node that re-emits is rotated
(`PV.Phase.emission_differs`). -/
structure Supported (S : LScene n) : Prop extends Accepted S where
  upright : ∀ v, (∃ c ∈ (S.node v).comps, Reemits c) → ∀ u, (S.node v).l2w.vec u = u

/-- Lines on which the intersection routines of both codes agree: not nearly tangent to a sphere,
not through the rim of a cylinder, and answered by trimesh like by the slab test of the engine. -/
def RegularLine (B : Trimesh) : Geom → Vec3 ℝ → Vec3 ℝ → Prop
  | .box s, o, d => ((B s o d).filter (fun t => decide (epsZero < t))).Perm (kBox s o d)
  | .sphere r, o, d => Geometry.disc r o d < 0 ∨ 1e-8 < Geometry.disc r o d
  | .cylinder l r, o, d => Geometry.NoRim l r o d

/-- Angles of incidence on a Fresnel surface at which both codes compute the same reflectivity: not
grazing, and either exactly normal or beyond the tolerance of `angle_between`. -/
def RegularAngle (normal d : Vec3 ℝ) : Prop :=
  normal.dot d ≠ 0 ∧ (along normal d = d ∨ ¬ allclose (along normal d) d)

/-- Rays for which both codes are expected to find the same interface. Each condition excludes a
recorded disagreement or a ray outside the world. -/
structure RegularRay (S : LScene n) (B : Trimesh) (ray : Ray ℝ) : Prop where
  clear : ∀ v, Geometry.ClearDir (S.node v).geom ((S.node v).localDir ray.direction)
  line : ∀ v, RegularLine B (S.node v).geom ((S.node v).localOrigin ray.position)
    ((S.node v).localDir ray.direction)
  inside : Solid.Inner (S.node 0).geom ((S.node 0).localOrigin ray.position)
  off : ∀ t : ℝ, 0 ≤ t → t ≤ epsZero → ¬ Surface (S.node 0).geom
    ((S.node 0).localOrigin ray.position + t • (S.node 0).localDir ray.direction)

/-- A state of the ray (with the state of the random numbers) in which both codes are expected to
do the same next. -/
structure RegularState (S : LScene n) (B : Trimesh) (R : Rand σ) (ray : Ray ℝ) (s : σ) : Prop
    extends RegularRay S B ray where
  /-- The second number drawn from here does not fall exactly between two components. -/
  pick : ∀ v cs, coefficients (S.node v).comps ray.wavelength = .ok cs → 0 < cs.sum →
    ∀ k ≤ cs.length, (R.next (R.next s).2).1 * cs.sum ≠ (cs.take k).sum
  surface : ∀ h, nextHit epsZero (distanceBetween ray.position)
      (S.intersections B ray.position ray.direction) = .ok (some h) → h.hit ≠ 0 →
    Geometry.Smooth epsZero (S.node h.hit).geom ((S.node h.hit).w2l.point h.point) ∧
    ((S.node h.hit).surface = .fresnel →
      RegularAngle (kNormal (S.node h.hit).geom ((S.node h.hit).w2l.point h.point))
        ((S.node h.hit).w2l.vec ray.direction))

/-- The states of the ray at the beginning of each pass of the loop of the Python tracer. -/
inductive Visited (S : LScene n) (B : Trimesh) (R : Rand σ) (method : EmitMethod) (maxsteps : ℕ)
    (ray : Ray ℝ) (s : σ) : ℕ → Ray ℝ → σ → Prop
  | start : Visited S B R method maxsteps ray s 0 ray s
  | next {count ray' s' ray'' s''} (h : Visited S B R method maxsteps ray s count ray' s')
      (hb : (body (pyOps S B R method) maxsteps none (count + 1) ray' s').2 = .cont ray'' s'') :
      Visited S B R method maxsteps ray s (count + 1) ray'' s''

/-- Names used by `histories()`. -/
def names (S : LScene n) : KNames (Fin (n + 1)) Comp := ⟨fun v => (S.node v).name, Comp.name⟩

end
end PV.Library
