import Mathlib.Data.Real.Basic
import Mathlib.Algebra.Order.Field.Basic

/-!
The colours of wavelengths on the studio page.
-/

namespace PV.Plot
noncomputable section

/-- The cases of `wavelengthToColor`, `/repo/pvtrace/studio/static/app.js:28-33`. -/
def hue (nm : ℝ) : ℝ × ℝ × ℝ :=
  if nm < 440 then (-(nm - 440) / 60, 0, 1)
  else if nm < 490 then (0, (nm - 440) / 50, 1)
  else if nm < 510 then (0, 1, -(nm - 510) / 20)
  else if nm < 580 then ((nm - 510) / 70, 1, 0)
  else if nm < 645 then (1, -(nm - 645) / 65, 0)
  else (1, 0, 0)

/-- `nm` brought into the visible range, `/repo/pvtrace/studio/static/app.js:26-27`. -/
def visible (nm : ℝ) : ℝ :=
  let nm := if nm < 380 then 380 else nm
  if nm > 780 then 780 else nm

/-- `wavelengthToColor`, `/repo/pvtrace/studio/static/app.js:24-36`. Simplification: real numbers; `nan`, for which every comparison is
false and the colour red, is not represented. -/
def wavelengthToColor (nm floor : ℝ) : ℝ × ℝ × ℝ :=
  let c := hue (visible nm)
  (floor + (1 - floor) * c.1, floor + (1 - floor) * c.2.1, floor + (1 - floor) * c.2.2)

end
end PV.Plot
