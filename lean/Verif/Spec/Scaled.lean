import Verif.Spec.Agreement

/-!
The same apparatus in another unit of length: every length and every lifetime is multiplied by `k`, every
absorption coefficient divided by `k`.
-/

namespace PV
noncomputable section
variable {n : ℕ} {ν σ : Type}

def Geom.scaled (k : ℝ) : Geom → Geom
  | .box s => .box (k • s)
  | .sphere r => .sphere (k * r)
  | .cylinder l r => .cylinder (k * l) (k * r)

def Affine.scaled (k : ℝ) (m : Affine ℝ) : Affine ℝ := { m with t := k • m.t }

/-- The spectrum with its values divided by `k`. -/
def Dist.thinned (k : ℝ) : Dist ℝ → Dist ℝ
  | .const y => .const (y / k)
  | .table T hist => .table { T with y := fun i => T.y i / k } hist

def Comp.scaled (k : ℝ) (c : Comp) : Comp :=
  { c with absDist := c.absDist.thinned k, tauRad := c.tauRad.map (k * ·), tauNr := c.tauNr.map (k * ·) }

def LNode.scaled (k : ℝ) (N : LNode) : LNode :=
  { N with geom := N.geom.scaled k, l2w := N.l2w.scaled k, w2l := N.w2l.scaled k, comps := N.comps.map (·.scaled k) }

def LScene.scaled (k : ℝ) (S : LScene n) : LScene n := ⟨fun v => (S.node v).scaled k⟩

/-- Position, distance travelled and time are multiplied; direction and wavelength stay. -/
def Ray.scaled (k : ℝ) (r : Ray ℝ) : Ray ℝ :=
  { r with position := k • r.position, travelled := k * r.travelled, duration := k * r.duration }

def Step.scaled (k : ℝ) (a : Step ℝ) : Step ℝ := { a with ray := a.ray.scaled k }

/-- The same for a ray of the engine. -/
def KRay.scaled (k : ℝ) (r : KRay ℝ Comp) : KRay ℝ Comp :=
  { r with position := k • r.position, travelled := k * r.travelled, duration := k * r.duration,
           source := r.source.map (·.scaled k) }

/-- A row of the engine's event log. -/
def Row.scaled (k : ℝ) (a : Row ℝ ν Comp) : Row ℝ ν Comp :=
  { a with component := a.component.map (·.scaled k), ray := a.ray.scaled k }

/-- A call of the recorders: what is handed to them in the other unit. -/
def TallyCall.scaled (k : ℝ) (c : TallyCall ℝ ν) : TallyCall ℝ ν :=
  { c with values := { c.values with duration := k * c.values.duration, pathlength := k * c.values.pathlength,
                                     position := k • c.values.position } }

/-- The states of the ray at the beginning of each pass of the loop of the engine. -/
inductive KReached (K : KOps ℝ ν Comp σ) [DecidableEq ν] (maxsteps : ℕ) (ray : KRay ℝ Comp) (s : σ) :
    ℕ → KRay ℝ Comp → σ → Prop
  | start : KReached K maxsteps ray s 0 ray s
  | next {count ray' s' ray'' s''} (h : KReached K maxsteps ray s count ray' s')
      (hb : (kBody K maxsteps (count + 1) ray' s').2 = .cont ray'' s'') :
      KReached K maxsteps ray s (count + 1) ray'' s''

/-- The three absolute tolerances of the engine decide alike before and after the change of unit: `EPS = 2.2e-13`
for distances, `1e-8` for the caps of a cylinder and `1e-8` for the absorption coefficient. -/
structure Steady (S : LScene n) (k : ℝ) (ray : KRay ℝ Comp) : Prop where
  clear : ∀ v, Geometry.ClearDir (S.node v).geom ((S.node v).w2l.vec ray.direction)
  ahead : ∀ v t, Solid.Surface (S.node v).geom ((S.node v).w2l.point (ray.position + t • ray.direction)) →
    (epsZero < t ↔ epsZero < k * t)
  cap : ∀ v l r t, (S.node v).geom = .cylinder l r → epsZero < t → ∀ p, 
    p = (S.node v).w2l.point (ray.position + t • ray.direction) → Solid.Surface (.cylinder l r) p →
    ∀ z, z = -0.5 * l ∨ z = 0.5 * l →
      (|p.z - z| ≤ 1e-8 + 1e-5 * |z| ↔ k * |p.z - z| ≤ 1e-8 + k * (1e-5 * |z|))
  absorbs : ∀ v, 1e-8 < ((S.node v).kCoefs ray.wavelength).sum ↔
    1e-8 < ((S.node v).kCoefs ray.wavelength).sum / k

end
end PV
