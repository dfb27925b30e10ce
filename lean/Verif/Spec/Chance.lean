import Verif.Model.Phase
import Mathlib.Probability.ProductMeasure
import Mathlib.MeasureTheory.Measure.Lebesgue.Basic

/-!
Chances of what happens in a whole run: the tracer reads its random numbers from an infinite
sequence, and the sequences carry the product of the uniform measures on `[0, 1)`.
-/

namespace PV.Spec
open MeasureTheory Set
noncomputable section

/-- The random numbers of a run, drawn one after the other. -/
abbrev Numbers := ℕ → ℝ

/-- Reading a sequence of numbers. -/
def reader : Rand Numbers := ⟨fun s => (s 0, fun i => s (i + 1))⟩

/-- One number: uniform on `[0, 1)`. -/
def uniform : Measure ℝ := volume.restrict (Ico 0 1)

instance : IsProbabilityMeasure uniform :=
  ⟨by rw [uniform, Measure.restrict_apply_univ, Real.volume_Ico]; simp⟩

/-- Independent numbers. -/
def independent : Measure Numbers := Measure.infinitePi fun _ => uniform

instance : IsProbabilityMeasure independent := by unfold independent; infer_instance

/-- The chance that a run does something, as a property of the numbers it reads. -/
def chance (P : Numbers → Prop) : ENNReal := independent {s | P s}

end
end PV.Spec
