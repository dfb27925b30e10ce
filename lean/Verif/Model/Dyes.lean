import Verif.Model.SceneFile
import Mathlib.Analysis.SpecialFunctions.Gaussian.GaussianIntegral

/-!
The spectra of the built-in dyes, `/repo/pvtrace/data/lumogen_f_red_305.py` and
`/repo/pvtrace/data/fluro_red.py`, over the reals.
-/

namespace PV.Dyes

/-- `a * np.exp(-(((p - x) / w) ** 2))` for `(a, p, w)`. -/
noncomputable def gaussian (g : ℝ × ℝ × ℝ) (x : ℝ) : ℝ := g.1 * Real.exp (-((g.2.1 - x) / g.2.2) ^ 2)

/-- A sum of Gaussians. -/
noncomputable def mixture (l : List (ℝ × ℝ × ℝ)) (x : ℝ) : ℝ := (l.map fun g => gaussian g x).sum

/-- The five Gaussians of `/repo/pvtrace/data/lumogen_f_red_305.py:31-42`. -/
noncomputable def lumogenPeaks : List (ℝ × ℝ × ℝ) :=
  [(0.9454846839252642, 578.6167306868869, 22.69760939870020),
   (0.6430326869158796, 535.1850303736512, 28.63029894331116),
   (0.1243340609168971, 494.5721783546976, 13.98438275367119),
   (0.3651471532322375, 440.4679754085741, 34.91923613222621),
   (0.7042787252835550, 336.0548556730901, 34.24136755250487)]

/-- The four Gaussians of `/repo/pvtrace/data/fluro_red.py:31-51`. -/
noncomputable def fluroPeaks : List (ℝ × ℝ × ℝ) :=
  [(439.06754804626956, 549.06438843562137, 24.298601639828647),
   (85.177292848284353, 379.48645797468572, 13.513987279089216),
   (660.1731296017241, 519.58858977131513, 38.263352007649125),
   (511.11501615291041, 490.05625608592726, 52.213294432464529)]

/-- `np.max` of `a :: l`. -/
noncomputable def largest (a : ℝ) (l : List ℝ) : ℝ := l.foldl max a

/-- `spec / np.max(spec)`, `/repo/pvtrace/data/lumogen_f_red_305.py:43`,
`/repo/pvtrace/data/fluro_red.py:52`. Simplification: of an empty array `np.max` is a `ValueError`;
here the result is empty, and no distribution can be made of it (`mkDist`). -/
noncomputable def normalise : List ℝ → List ℝ
  | [] => []
  | a :: l => (a :: l).map (· / largest a l)

/-- `lumogen_f_red_305.absorption`, `/repo/pvtrace/data/lumogen_f_red_305.py:4-44`. -/
noncomputable def lumogenAbsorption (x : List ℝ) : List ℝ := normalise (x.map (mixture lumogenPeaks))

/-- `lumogen_f_red_305.emission`, `/repo/pvtrace/data/lumogen_f_red_305.py:47-75`. -/
noncomputable def lumogenEmission (x : List ℝ) : List ℝ := x.map (gaussian (1, 600, 38.60))

/-- `fluro_red.absorption`, `/repo/pvtrace/data/fluro_red.py:4-53`. -/
noncomputable def fluroAbsorption (x : List ℝ) : List ℝ := normalise (x.map (mixture fluroPeaks))

/-- `scipy.special.erf`. -/
noncomputable def erf (x : ℝ) : ℝ := 2 / √Real.pi * ∫ t in (0 : ℝ)..x, Real.exp (-t ^ 2)

/-- `emg`, `/repo/pvtrace/data/fluro_red.py:84-88`. -/
noncomputable def emg (x a b c d : ℝ) : ℝ :=
  a * c * √(2 * Real.pi) / (2 * d) * Real.exp ((c ^ 2 / (2 * d ^ 2)) - ((x - b) / d)) *
    (d / |d| + erf ((x - b) / (√2 * c) - c / (√2 * d)))

/-- `fluro_red.emission`, `/repo/pvtrace/data/fluro_red.py:56-95`. -/
noncomputable def fluroEmission (x : List ℝ) : List ℝ :=
  x.map fun x => emg x 1.1477763237584664 592.06478874548839 19.981040318195117 12.723704058786568

/-- `SPECTRUM_MODULES`, `/repo/pvtrace/cli/parse.py:55`: absorption of the named dyes. -/
noncomputable def absorption (name : String) : Option (List ℝ → List ℝ) :=
  if name = "lumogen-f-red-305" then some lumogenAbsorption
  else if name = "fluro-red" then some fluroAbsorption
  else none

/-- Emission of the named dyes. -/
noncomputable def emission (name : String) : Option (List ℝ → List ℝ) :=
  if name = "lumogen-f-red-305" then some lumogenEmission
  else if name = "fluro-red" then some fluroEmission
  else none

end PV.Dyes
