import Verif.Model.Tracer
import Verif.Model.Library

/-!
Rays that are on their way, and rays with another clock, for C128.
-/

namespace PV

/-- The ray with its path length and its clock set forward. -/
noncomputable def Ray.started (x t : ℝ) (r : Ray ℝ) : Ray ℝ := { r with travelled := x + r.travelled, duration := t + r.duration }

/-- The event with path length and clock set forward. -/
noncomputable def Step.started (x t : ℝ) (e : Step ℝ) : Step ℝ := { e with ray := e.ray.started x t }

/-- Events after which the ray travels on. -/
def Event.travels : Event → Bool
  | .reflect | .transmit | .emit | .scatter => true
  | _ => false

/-- How many times the ray has set out again. -/
def trips {α : Type} (l : List (Step α)) : ℕ := l.countP fun e => e.event.travels

end PV
