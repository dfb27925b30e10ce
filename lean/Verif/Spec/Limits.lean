import Verif.Spec.Chance
import Verif.Model.Tracer

/-!
Limits of length, and rays that reach a limit, for C129.
-/

namespace PV.Spec
open PV

/-- The second limit of length is the same or higher; `none` is no limit. -/
def Laxer {α : Type} [LE α] : Option α → Option α → Prop
  | _, none => True
  | none, some _ => False
  | some a, some b => a ≤ b

/-- The history contains a kill event. -/
def Killed {α : Type} (l : List (Step α)) : Prop := ∃ e ∈ l, e.event = .kill

end PV.Spec
