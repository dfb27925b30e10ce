import Verif.Spec.Chance
import Verif.Model.Tracer

/-!
Light caught in one object: what a run looks like, and what the surroundings of a ray have to be for
it to be reflected to and fro inside an object.
-/

namespace PV.Spec
open PV
noncomputable section
variable {ν κ : Type} [DecidableEq ν]

/-- The run with these numbers is complete and has exactly these events. -/
def History (O : Ops ℝ ν κ Numbers) (maxsteps : ℕ) (ray : Ray ℝ) (events : List Event) (s : Numbers) :
    Prop :=
  ∃ l, follow O maxsteps none ray s = .ok l ∧ l.map (·.2) = events

/-- The run with these numbers ends with this event, in this direction. -/
def Ends (O : Ops ℝ ν κ Numbers) (maxsteps : ℕ) (ray : Ray ℝ) (event : Event) (d : Vec3 ℝ)
    (s : Numbers) : Prop :=
  ∃ l last, follow O maxsteps none ray s = .ok l ∧ l.getLast? = some (last, event) ∧ last.direction = d

/-- The run with these numbers ends with an absorption. -/
def Lost (O : Ops ℝ ν κ Numbers) (maxsteps : ℕ) (ray : Ray ℝ) (s : Numbers) : Prop :=
  ∃ l last event, follow O maxsteps none ray s = .ok l ∧ l.getLast? = some (last, event) ∧
    (event = .nonradiative ∨ event = .react)

/-- From the point `p` in direction `d` the tracer finds the interface `h`. -/
def Meets (O : Ops ℝ ν κ Numbers) (p d : Vec3 ℝ) (h : HitInfo ν ℝ) : Prop :=
  ∃ xs, O.intersections p d = .ok xs ∧ nextHit O.eps (O.distBetween p) xs = .ok (some h)

/-- At the point `p` of the interface `h`, light travelling along `d` is reflected into the direction
`back` if the next number is below `r`, and transmitted into the direction `on` otherwise. -/
structure Splits (O : Ops ℝ ν κ Numbers) (h : HitInfo ν ℝ) (p d back on : Vec3 ℝ) (r : ℝ) : Prop where
  inner : h.hit ≠ O.root
  other : h.adjacent ≠ none
  normal : ∃ m, O.normal h.hit p = .ok m
  decides : ∀ ray : Ray ℝ, ray.position = p → ray.direction = d → ∀ s,
    O.isReflected h.hit h.container h.adjacent ray s = .ok (decide (s 0 < r), fun i => s (i + 1))
  reflects : ∀ ray : Ray ℝ, ray.position = p → ray.direction = d → ∀ s,
    O.reflect h.hit h.container h.adjacent ray s = .ok ({ ray with direction := back }, s)
  transmits : ∀ ray : Ray ℝ, ray.position = p → ray.direction = d → ∀ s,
    O.transmit h.hit h.container h.adjacent ray s = .ok ({ ray with direction := on }, s)

/-- Light of wavelength `w` in the node `c` is absorbed for good, with attenuation `a` per unit of
length. -/
structure Attenuates (O : Ops ℝ ν κ Numbers) (c : ν) (w a : ℝ) : Prop where
  depth : ∀ s, O.penetrationDepth c w s = .ok (some (-Real.log (1 - s 0) / a), fun i => s (i + 1))
  ends : ∀ (ray : Ray ℝ) (d : ℝ) (s : Numbers), ray.wavelength = w → (∀ i, 0 ≤ s i ∧ s i < 1) →
    ∃ e e', absorbBody O c ray d s = ([e, e'], .stop) ∧ e.event = .absorb ∧
      (e'.event = .nonradiative ∨ e'.event = .react)

/-- Light of wavelength `w` goes through the node `c` freely. -/
def Clear (O : Ops ℝ ν κ Numbers) (c : ν) (w : ℝ) : Prop :=
  ∀ s, O.penetrationDepth c w s = .ok (none, s)

/-- The places `pos i` and directions `dir i` of a ray inside the object `v` after `i` reflections, at
its surface, with equal chords of length `L` and equal reflectivity `r`; when it is transmitted
instead, it travels along `out i` and only the edge of the scene is ahead of it. -/
structure Caught (O : Ops ℝ ν κ Numbers) (v : ν) (L r : ℝ) (pos dir out : ℕ → Vec3 ℝ) : Prop where
  next : ∀ i, pos (i + 1) = pos i + L • dir i
  inside : ∀ i, ∃ h, Meets O (pos i) (dir i) h ∧ h.container = v ∧ h.dist = L ∧
    Splits O h (pos (i + 1)) (dir i) (dir (i + 1)) (out i) r
  outside : ∀ i, ∃ h, Meets O (pos (i + 1)) (out i) h ∧ h.hit = O.root

/-- A ray that meets the object from outside at the first of these places: it is reflected into the
direction `back`, where only the edge of the scene is ahead of it, or enters. -/
structure Enters (O : Ops ℝ ν κ Numbers) (r : ℝ) (w : ℝ) (ray : Ray ℝ) (p d back : Vec3 ℝ) : Prop where
  wave : ray.wavelength = w
  front : ∃ h, Meets O ray.position ray.direction h ∧ Clear O h.container w ∧
    p = ray.position + h.dist • ray.direction ∧ Splits O h p ray.direction back d r
  outside : ∃ h, Meets O p back h ∧ h.hit = O.root

end
end PV.Spec
