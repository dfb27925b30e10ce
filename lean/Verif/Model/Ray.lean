import Verif.Model.Vec

/-!
Rays, events and exceptions: `/repo/pvtrace/light/ray.py`, `/repo/pvtrace/light/event.py`.
-/

namespace PV

/-- `Event` of `/repo/pvtrace/light/event.py:4-16`. -/
inductive Event
  | generate | reflect | transmit | absorb | scatter | emit | exit | nonradiative | react | kill
deriving DecidableEq, Repr

/-- Exceptions as values. The message text is not modelled. -/
inductive Err
  | valueError | attributeError | notImplemented | geometryError | indexError | zeroDivision
  | casting | unboundLocal
deriving DecidableEq, Repr

/-- `Ray`, `/repo/pvtrace/light/ray.py:15-43`. Simplification: `wavelength` is a number,
never `None`. -/
@[ext] structure Ray (α : Type) where
  position : Vec3 α
  direction : Vec3 α
  wavelength : α
  travelled : α
  duration : α
  source : Option String
deriving DecidableEq, Repr

/-- `speed_of_light_cm_per_s`, `/repo/pvtrace/light/ray.py:12`;
`C_CM_PER_S`, `/repo/pvtrace/engine/_kernel.pyx:33`. -/
def lightSpeed {α : Type} [Field α] : α := 29979245800

/-- `Ray.propagate`, `/repo/pvtrace/light/ray.py:52-75`. At distance 0 the code divides by a
NumPy zero, which gives `inf` and then a time of 0; `x / 0 = 0` in a field gives the same 0. -/
def Ray.propagate {α : Type} [Field α] (r : Ray α) (distance refractiveIndex : α) : Ray α :=
  { r with
    position := r.position + distance • r.direction
    travelled := r.travelled + distance
    duration := r.duration + 1 / (lightSpeed / refractiveIndex / distance) }

/-- `Ray.representation`, `/repo/pvtrace/light/ray.py:77-95`, with `m` the matrix
`from_node.transformation_to(to_node)`. -/
def Ray.representation {α : Type} [Add α] [Mul α] (r : Ray α) (m : Affine α) : Ray α :=
  { r with position := m.point r.position, direction := m.vec r.direction }

/-- Metadata dictionary yielded with each event
(`/repo/pvtrace/algorithm/photon_tracer.py:154-273`). Simplification: the echo of
`maxsteps`, `maxpathlength` and `emit_method` is left out. -/
@[ext] structure Meta (α : Type) where
  hit : Option String := none
  container : Option String := none
  adjacent : Option String := none
  component : Option String := none
  normal : Option (Vec3 α) := none
deriving DecidableEq, Repr

/-- One item yielded by `step_forward`: `(ray, event, metadata)`. -/
@[ext] structure Step (α : Type) where
  ray : Ray α
  event : Event
  info : Meta α
deriving DecidableEq, Repr

end PV
