import Verif.Model.Library
import Mathlib.MeasureTheory.Constructions.BorelSpace.Real

/-!
Borel conditions on histories: for every sequence of events and sources, the condition is a Borel condition on the
numbers of the rays. And Borel answers of a mesh.
-/

namespace PV.Spec
open MeasureTheory

/-- The ray with nine given numbers. -/
def rayAt (source : Option String) (v : Fin 9 → ℝ) : Ray ℝ :=
  ⟨⟨v 0, v 1, v 2⟩, ⟨v 3, v 4, v 5⟩, v 6, v 7, v 8, source⟩

/-- The history with given events and sources whose ray `i` has the numbers `v i`. -/
def storyAt (kinds : List (Event × Option String)) (v : ℕ → Fin 9 → ℝ) : List (Ray ℝ × Event) :=
  kinds.zipIdx.map fun k => (rayAt k.1.2 (v k.2), k.1.1)

/-- A Borel condition on histories. -/
def Borel (E : List (Ray ℝ × Event) → Prop) : Prop :=
  ∀ kinds, MeasurableSet {v : ℕ → Fin 9 → ℝ | E (storyAt kinds v)}

/-- A mesh whose answers depend on the ray in a Borel way: the number of hits, and each of them. -/
def BorelMesh (B : Trimesh) : Prop :=
  ∀ size : Vec3 ℝ,
    (∀ k, MeasurableSet {v : Fin 6 → ℝ | (B size ⟨v 0, v 1, v 2⟩ ⟨v 3, v 4, v 5⟩).length = k}) ∧
    ∀ i, Measurable fun v : Fin 6 → ℝ => (B size ⟨v 0, v 1, v 2⟩ ⟨v 3, v 4, v 5⟩).getD i 0

end PV.Spec
