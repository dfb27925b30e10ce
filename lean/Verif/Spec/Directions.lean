import Verif.Model.Vec
import Mathlib.MeasureTheory.Measure.Lebesgue.Basic
import Mathlib.MeasureTheory.Integral.Lebesgue.Basic
import Mathlib.Analysis.SpecialFunctions.Trigonometric.Inverse

/-!
Specification of direction laws. Uniform random numbers are points of `[0, 1]` with length as
probability. A law of directions is given by its density per solid angle, a function of the polar
angle; the solid-angle element is `sin θ dθ dφ`.
-/

namespace PV.Spec
open MeasureTheory Set
open scoped ENNReal

noncomputable section

/-- The point of the unit sphere with polar angle `θ` from the z-axis and azimuth `φ`. -/
def onSphere (θ φ : ℝ) : Vec3 ℝ :=
  ⟨Real.sin θ * Real.cos φ, Real.sin θ * Real.sin φ, Real.cos θ⟩

/-- The mean of `f` over two independent uniform numbers. -/
def mean (f : ℝ → ℝ → ℝ≥0∞) : ℝ≥0∞ := ∫⁻ u in Icc (0 : ℝ) 1, ∫⁻ v in Icc (0 : ℝ) 1, f u v

/-- The mean of `f` over directions with density `w θ` per solid angle on the cap `θ ≤ Θ`. -/
def capMean (Θ : ℝ) (w : ℝ → ℝ) (f : Vec3 ℝ → ℝ≥0∞) : ℝ≥0∞ :=
  ∫⁻ φ in Icc (0 : ℝ) (2 * Real.pi), ∫⁻ θ in Icc (0 : ℝ) Θ,
    ENNReal.ofReal (w θ * Real.sin θ) * f (onSphere θ φ)

/-- The Henyey–Greenstein phase function: density per solid angle at angle `θ` from the axis. -/
def hgDensity (g θ : ℝ) : ℝ :=
  1 / (4 * Real.pi) * ((1 - g ^ 2) / (√(1 + g ^ 2 - 2 * g * Real.cos θ)) ^ 3)

end
end PV.Spec
