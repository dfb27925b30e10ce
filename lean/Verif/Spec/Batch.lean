import Verif.Spec.Chance

/-!
Many rays, each with its own sequence of independent numbers, and the number of rays of a batch for
which something happens.
-/

namespace PV.Spec
open MeasureTheory Set
noncomputable section

/-- The numbers of all rays of a simulation: sequence `i` belongs to ray `i`. -/
abbrev Sequences := ℕ → Numbers

/-- Independent rays. -/
def batch : Measure Sequences := Measure.infinitePi fun _ => independent

instance : IsProbabilityMeasure batch := by unfold batch; infer_instance

open Classical in
/-- The number of rays among the first `n` for which `P` happens. -/
def count (P : Numbers → Prop) (n : ℕ) (ω : Sequences) : ℕ :=
  ((Finset.range n).filter fun i => P (ω i)).card

/-- What happens to a ray has a chance: it is decided by the numbers up to a null set. -/
def Decided (P : Numbers → Prop) : Prop := NullMeasurableSet {s | P s} independent

end
end PV.Spec
