import Verif.Model.Kernel
import Verif.Spec.Chance

/-!
C114. How often the engine logs light being taken up and given off again.
-/

namespace PV.Spec
variable {α ν κ : Type}

/-- How many rows of a log are events of a kind. -/
def oftenIn (e : Event) (h : List (Row α ν κ)) : ℕ := (h.filter fun r => r.kind = e).length

open MeasureTheory in
/-- The mean of a number that depends on the random numbers. -/
noncomputable def meanCount (N : Numbers → ℕ) : ENNReal := ∫⁻ s, (N s : ENNReal) ∂independent

end PV.Spec
