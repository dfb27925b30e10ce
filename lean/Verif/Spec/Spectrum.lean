import Mathlib.Analysis.SpecialFunctions.Exp

/-!
C110. What a spectrum converted to photon energies, and the emission spectrum that belongs to an absorption spectrum, should be.
-/

namespace PV.Spec
noncomputable section

/-- The energy in electron volts of a photon of the wavelength `w` in nanometres: `h c / (q w)`. -/
def photonEnergy (w : ℝ) : ℝ := 6.62607015e-34 * 299792458 / (1.60217662e-19 * (w * 1e-9))

/-- `k T` in electron volts. -/
def thermal (T : ℝ) : ℝ := 1.38064852e-23 * T / 1.60217662e-19

/-- Emission over absorption at the photon energy `E`, up to a constant: the Bose–Einstein law with the chemical potential `mu`. -/
def emissivity (T mu E : ℝ) : ℝ := E ^ 2 / (Real.exp ((E - mu) / thermal T) - 1)

/-- `out` is the emission that belongs to the absorption `rows`: the same wavelengths in the same order, absorption times the
law above times one constant, and the peak 1. -/
structure Emission (T mu : ℝ) (rows out : List (ℝ × ℝ)) : Prop where
  wavelengths : out.map Prod.fst = rows.map Prod.fst
  law : ∃ k > 0, ∀ i : ℕ, (out[i]?).map Prod.snd = (rows[i]?).map fun r => k * (r.2 * emissivity T mu (photonEnergy r.1))
  range : ∀ r ∈ out, 0 ≤ r.2 ∧ r.2 ≤ 1
  peak : ∃ r ∈ out, r.2 = 1

end
end PV.Spec
