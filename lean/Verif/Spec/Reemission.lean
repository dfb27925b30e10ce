import Verif.Model.Tracer
import Verif.Spec.Chance

/-!
C112. How often light is taken up and given off again on its way.
-/

namespace PV.Spec

/-- How many events of a history are of a kind. -/
def often (e : Event) (h : List (Ray ℝ × Event)) : ℕ := (h.filter fun x => x.2 = e).length

open MeasureTheory in
/-- The mean number of events of a kind, of a program that follows a ray; an exception counts as none. -/
noncomputable def meanOf {ε : Type} (e : Event) (f : Numbers → Except ε (List (Ray ℝ × Event) × Numbers)) : ENNReal :=
  ∫⁻ s, (match f s with | .ok (h, _) => (often e h : ENNReal) | .error _ => 0) ∂independent

end PV.Spec
