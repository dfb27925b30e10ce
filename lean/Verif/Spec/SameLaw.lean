import Verif.Spec.Agreement
import Verif.Spec.Chance

/-!
Scenes in which a rotation of an object cannot be seen in its re-emission, and Borel conditions on complete histories:
for every sequence of events, sources, names and present normals, the condition is a Borel condition on the numbers.
-/

namespace PV.Library
variable {n : ℕ}

/-- Scenes the engine accepts whose re-emission is isotropic, or about the z axis of an object which still points the same
way in the world. -/
structure Turnable (S : LScene n) : Prop extends Accepted S where
  turned : ∀ v, ∀ c ∈ (S.node v).comps, Reemits c →
    c.phase = .isotropic ∨ (S.node v).l2w.vec ⟨0, 0, 1⟩ = ⟨0, 0, 1⟩

end PV.Library

namespace PV.Spec
open MeasureTheory

/-- An event without its numbers; `facing` says whether there is a normal. -/
structure StepForm where
  event : Event
  source : Option String
  hit : Option String
  container : Option String
  adjacent : Option String
  component : Option String
  facing : Bool

/-- The event with given numbers. -/
def stepAt (f : StepForm) (v : Fin 12 → ℝ) : Step ℝ :=
  ⟨⟨⟨v 0, v 1, v 2⟩, ⟨v 3, v 4, v 5⟩, v 6, v 7, v 8, f.source⟩, f.event,
    ⟨f.hit, f.container, f.adjacent, f.component, if f.facing then some ⟨v 9, v 10, v 11⟩ else none⟩⟩

/-- The history of which event `i` has the numbers `v i`. -/
def stepsAt (fs : List StepForm) (v : ℕ → Fin 12 → ℝ) : List (Step ℝ) :=
  fs.zipIdx.map fun f => stepAt f.1 (v f.2)

/-- A Borel condition on complete histories. -/
def BorelSteps (E : List (Step ℝ) → Prop) : Prop :=
  ∀ fs, MeasurableSet {v : ℕ → Fin 12 → ℝ | E (stepsAt fs v)}

end PV.Spec
