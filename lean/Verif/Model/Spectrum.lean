import Verif.Model.Dyes

/-!
The conversion of spectra, `/repo/pvtrace/material/utils.py:55-85`.
-/

namespace PV.Spectrum
noncomputable section

/-- The constants of `/repo/pvtrace/material/utils.py:61-63,73-76`. -/
def h : ℝ := 6.62607015e-34
def c : ℝ := 299792458
def q : ℝ := 1.60217662e-19
def kb : ℝ := 1.38064852e-23

/-- `conversion_constant`, `/repo/pvtrace/material/utils.py:65,77`. -/
def conversion : ℝ := h * c / q * 1e9

/-- An array with two columns. A numpy array has one type of entries. -/
inductive Columns
  | floats (rows : List (ℝ × ℝ))
  | ints (rows : List (ℤ × ℤ))

/-- Assigning a float to an entry of an integer array. -/
def truncate (r : ℝ) : ℤ := if 0 ≤ r then ⌊r⌋ else ⌈r⌉

/-- `bandgap`, `/repo/pvtrace/material/utils.py:55-56`; `np.heaviside(0, 0.5)` is 0.5. -/
def bandgap (x cutoff alpha : ℝ) : ℝ :=
  (1 - if x - cutoff < 0 then 0 else if x - cutoff = 0 then 0.5 else 1) * alpha

/-- `simple_convert_spectum`, `/repo/pvtrace/material/utils.py:59-69`. The copy keeps the type of the entries, so energies are
cut off in an integer array. `none`: an entry is not finite. -/
def convert : Columns → Option Columns
  | .floats rows => if ∃ r ∈ rows, r.1 = 0 then none else some (.floats (rows.map fun r => (conversion / r.1, r.2)))
  | .ints rows => if ∃ r ∈ rows, r.1 = 0 then none else some (.ints (rows.map fun r => (truncate (conversion / r.1), r.2)))

/-- The two columns as numbers. -/
def Columns.rows : Columns → List (ℝ × ℝ)
  | .floats rows => rows
  | .ints rows => rows.map fun r => (r.1, r.2)

/-- The entry of `ems_energy` before the division by the largest, `/repo/pvtrace/material/utils.py:80-82`. -/
def radiated (T mu : ℝ) (r : ℝ × ℝ) : ℝ :=
  r.2 * 2 * r.1 ^ 2 / (c ^ 2 * (h / q) ^ 3) / (Real.exp ((r.1 - mu) / (kb / q * T)) - 1)

/-- `thermodynamic_emission` after the conversion to energies, `/repo/pvtrace/material/utils.py:79-85`. `none`: an entry is not
finite (`expm1` of 0, division by a largest entry 0), or the array is empty (`ValueError`). -/
def emitted (T mu : ℝ) (rows : List (ℝ × ℝ)) : Option Columns :=
  if T = 0 ∨ ∃ r ∈ rows, r.1 = mu then none
  else match rows.map (radiated T mu) with
    | [] => none
    | a :: l =>
      if Dyes.largest a l = 0 then none
      else convert (.floats (List.zip (rows.map Prod.fst) ((a :: l).map (· / Dyes.largest a l))))

/-- `thermodynamic_emission`, `/repo/pvtrace/material/utils.py:72-85`. -/
def emission (spec : Columns) (T mu : ℝ) : Option Columns :=
  match convert spec with
  | none => none
  | some energies => emitted T mu energies.rows

end
end PV.Spectrum
