import Verif.Model.Component

/-!
Which arguments describe a component.
-/

namespace PV.Spec
open PV.Component

/-- A table of values over wavelengths: two or more rows, ascending, no negative value. -/
structure Curve (rows : List (ℝ × ℝ)) : Prop where
  long : 2 ≤ rows.length
  ascending : (rows.map (·.1)).Pairwise (· < ·)
  nonneg : ∀ r ∈ rows, 0 ≤ r.2

/-- The sum of some functions at each of some wavelengths. -/
noncomputable def summed (fs : List (ℝ → ℝ)) (x : List ℝ) : List (ℝ × ℝ) := x.map fun w => (w, (fs.map fun f => f w).sum)

/-- The argument describes an absorption coefficient. -/
def IsCoefficient (x : Option (List ℝ)) : Arg → Prop
  | .missing => False
  | .float _ => True
  | .int _ => True
  | .array rows => Curve rows
  | .functions fs => ∃ l, x = some l ∧ Curve (summed fs l)

/-- The argument describes an emission spectrum. -/
def IsEmission (x : Option (List ℝ)) : Arg → Prop
  | .missing => ∃ l, x = some l ∧ 2 ≤ l.length ∧ l.Pairwise (· < ·)
  | .float _ => False
  | .int _ => False
  | .array rows => Curve rows
  | .functions fs => ∃ l, x = some l ∧ Curve (summed fs l)

/-- The quantum yield that follows from the arguments: `tau_nr / (tau_nr + tau_rad)` if both lifetimes are given. -/
inductive QuantumYieldIs : Option ℝ → Option ℝ → Option ℝ → ℝ → Prop
  | lifetimes (q : Option ℝ) {rad nr : ℝ} : nr + rad ≠ 0 → QuantumYieldIs q (some rad) (some nr) (nr / (nr + rad))
  | given (q : ℝ) {rad nr : Option ℝ} : (rad = none ∨ nr = none) → QuantumYieldIs (some q) rad nr q

/-- The coefficient an argument gives at a wavelength it mentions. -/
inductive CoefficientAt (x : Option (List ℝ)) : Arg → ℝ → ℝ → Prop
  | float (q w : ℝ) : CoefficientAt x (.float q) w q
  | array {rows : List (ℝ × ℝ)} {w y : ℝ} : (w, y) ∈ rows → CoefficientAt x (.array rows) w y
  | functions {fs : List (ℝ → ℝ)} {l : List ℝ} {w : ℝ} : x = some l → w ∈ l →
      CoefficientAt x (.functions fs) w (fs.map fun f => f w).sum

end PV.Spec
