import Verif.Spec.Arranged
import Verif.Spec.Chance
import Verif.Props.Normals

/-!
Paths of light in a scene as geometric optics has them: straight legs, each in one medium, that meet at
surfaces according to the laws of reflection and refraction. Nothing here is directed: a path run
backwards is a path.
-/

namespace PV.Reverse
open PV PV.Library PV.Geometry
variable {n : ℕ}

/-- A straight piece of a path in one medium. -/
structure Leg (n : ℕ) where
  start : Vec3 ℝ
  dir : Vec3 ℝ
  len : ℝ
  medium : Fin (n + 1)

/-- The point at distance `t` from the start. -/
noncomputable def Leg.pos (L : Leg n) (t : ℝ) : Vec3 ℝ := L.start + t • L.dir

/-- The other end. -/
noncomputable def Leg.finish (L : Leg n) : Vec3 ℝ := L.pos L.len

/-- The leg run backwards. -/
noncomputable def Leg.back (L : Leg n) : Leg n := ⟨L.finish, -L.dir, L.len, L.medium⟩

/-- Objects one in another, like the layers of an onion, the world outermost. -/
structure Shells (S : LScene n) : Prop where
  proper : ∀ v, Solid.Proper (S.node v).geom
  nested : ∀ u v, u ≠ v → Within (S.node u) (S.node v) ∨ Within (S.node v) (S.node u)
  world : ∀ v, v ≠ 0 → Within (S.node v) (S.node 0)

/-- Between its ends the leg meets no surface and runs in the innermost object `medium`. Its line is in general
position: not nearly parallel to a face and not touching an object without going through it. -/
structure Free (S : LScene n) (L : Leg n) : Prop where
  unit : L.dir.dot L.dir = 1
  long : epsZero < L.len
  clear : ∀ v, ClearDir (S.node v).geom ((S.node v).w2l.vec L.dir)
  through : ∀ v, (∃ t, HasInner (S.node v) (L.pos t)) ∨ ∀ t, ¬ Has (S.node v) (L.pos t)
  between : ∀ v t, 0 < t → t < L.len → ¬ Solid.Surface (S.node v).geom ((S.node v).w2l.point (L.pos t))
  inside : ∀ t, 0 < t → t < L.len → HasInner (S.node L.medium) (L.pos t) ∧
    ∀ w, HasInner (S.node w) (L.pos t) → w = L.medium ∨ Within (S.node L.medium) (S.node w)

/-- `m` is the smallest object around `h`. -/
def Around (S : LScene n) (h m : Fin (n + 1)) : Prop :=
  Within (S.node h) (S.node m) ∧ ∀ w, Within (S.node h) (S.node w) → w = m ∨ Within (S.node m) (S.node w)

/-- `c` and `m` are the media on the two sides of the surface of `h`. -/
def Sides (S : LScene n) (h c m : Fin (n + 1)) : Prop := (c = h ∧ Around S h m) ∨ (Around S h c ∧ m = h)

/-- The legs meet on the surface of `h`, off its edges, where `nrm` is the outward normal and `m` the medium on the
other side. -/
structure Corner (S : LScene n) (L L' : Leg n) (h m : Fin (n + 1)) (nrm : Vec3 ℝ) : Prop where
  place : L'.start = L.finish
  object : h ≠ 0
  surface : Solid.Surface (S.node h).geom ((S.node h).w2l.point L.finish)
  smooth : Smooth 0 (S.node h).geom ((S.node h).w2l.point L.finish)
  normal : Solid.Outward (S.node h).geom ((S.node h).w2l.point L.finish) ((S.node h).w2l.vec nrm)
  sides : Sides S h L.medium m

/-- The component along the surface. -/
def along (d nrm : Vec3 ℝ) : Vec3 ℝ := d - (d.dot nrm) • nrm

/-- The laws of reflection and refraction, and the probability with which light turns that way. -/
inductive Turn (S : LScene n) : Leg n → Leg n → ℝ → Prop
  | reflected {L L' : Leg n} {h m : Fin (n + 1)} {nrm : Vec3 ℝ} {r : ℝ} (c : Corner S L L' h m nrm)
      (kind : (S.node h).surface = .fresnel) (graze : L.dir.dot nrm ≠ 0) (medium : L'.medium = L.medium)
      (mirror : L'.dir = L.dir - (2 * L.dir.dot nrm) • nrm)
      (chance : fresnelR (Real.arccos |L.dir.dot nrm|) (S.node L.medium).index (S.node m).index = some r) : Turn S L L' r
  | refracted {L L' : Leg n} {h m : Fin (n + 1)} {nrm : Vec3 ℝ} {r : ℝ} (c : Corner S L L' h m nrm)
      (kind : (S.node h).surface = .fresnel) (medium : L'.medium = m)
      (snell : (S.node L.medium).index • along L.dir nrm = (S.node m).index • along L'.dir nrm)
      (across : 0 < L.dir.dot nrm * L'.dir.dot nrm)
      (chance : fresnelR (Real.arccos |L.dir.dot nrm|) (S.node L.medium).index (S.node m).index = some r) :
      Turn S L L' (1 - r)
  | passed {L L' : Leg n} {h m : Fin (n + 1)} {nrm : Vec3 ℝ} (c : Corner S L L' h m nrm)
      (kind : (S.node h).surface = .null) (medium : L'.medium = m) (straight : L'.dir = L.dir) : Turn S L L' 1

/-- The part of the light that is not absorbed on the leg. Media with a coefficient up to 1e-8 count as clear. -/
noncomputable def survival (S : LScene n) (w : ℝ) (L : Leg n) : ℝ :=
  if ((S.node L.medium).kCoefs w).sum > 1e-8 then Real.exp (-(((S.node L.medium).kCoefs w).sum * L.len)) else 1

/-- Light that runs along the leg does not leave the scene through an absorbing world. -/
def Kept (S : LScene n) (w : ℝ) (L : Leg n) : Prop :=
  ((S.node 0).kCoefs w).sum ≤ 1e-8 ∨
    ∃ v ≠ 0, ∃ t, epsZero < t ∧ Solid.Surface (S.node v).geom ((S.node v).w2l.point (L.pos t))

/-- A path of light of wavelength `w` and the probability with which light follows it from end to end. -/
inductive Path (S : LScene n) (w : ℝ) : List (Leg n) → ℝ → Prop
  | last {L : Leg n} (free : Free S L) : Path S w [L] (survival S w L)
  | turn {L L' : Leg n} {Ls : List (Leg n)} {r q : ℝ} (free : Free S L) (turn : Turn S L L' r)
      (next : Path S w (L' :: Ls) q) : Path S w (L :: L' :: Ls) (survival S w L * r * q)

/-- The path run backwards. -/
noncomputable def reversed (legs : List (Leg n)) : List (Leg n) := (legs.map Leg.back).reverse

/-- The rows of a history show that the ray went along the legs: an event of the right kind where two legs meet,
travelling in the right object, and the last leg covered to its end. -/
def Follows : List (Leg n) → List (Row ℝ (Fin (n + 1)) Comp) → Prop
  | [L], r :: r' :: _ => r'.container = some L.medium ∧ L.len ≤ r'.ray.travelled - r.ray.travelled
  | L :: L' :: Ls, _ :: r' :: rs =>
    r'.kind = (if L'.medium = L.medium then .reflect else .transmit) ∧ r'.container = some L.medium ∧
      r'.ray.position = L'.start ∧ Follows (L' :: Ls) (r' :: rs)
  | _, _ => False

end PV.Reverse
