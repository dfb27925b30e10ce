import Verif.Model.EngineResult
import Verif.Lemmas.Kernel
import Verif.Spec.Grammar

/-!
What the event log is meant to say.
-/

namespace PV.Spec
variable {α ν κ : Type}

/-- The event a recorded row stands for: same kind and ray, ids replaced by names, the light's name
as source unless the ray was re-emitted by a component, and a normal for surface events only. -/
def eventOf [Zero α] (N : KNames ν κ) (source : Option String) (row : Row α ν κ) : Step α where
  ray := ⟨row.ray.position, row.ray.direction, row.ray.wavelength, row.ray.travelled,
    row.ray.duration, (row.ray.source.map N.component).or source⟩
  event := row.kind
  info := ⟨row.hit.map N.node, row.container.map N.node, row.adjacent.map N.node,
    row.component.map N.component,
    if row.kind = .reflect ∨ row.kind = .transmit then some (row.normal.getD ⟨0, 0, 0⟩) else none⟩

/-- The rows a ray writes to the log, in order. -/
def loggedRows {ρ : Type} (es : List (Effect α ρ)) : List ρ := (writesOf es).map (·.2)

end PV.Spec
