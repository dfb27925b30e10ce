import Verif.Model.Material

/-!
The constructors of components, `/repo/pvtrace/material/component.py`, and
`Distribution.from_functions`, `/repo/pvtrace/material/distribution.py:183-193`.
Simplification: real numbers, so nothing is `nan` or infinite.
-/

namespace PV.Component
noncomputable section
open Classical PV

/-- What is passed as `coefficient` or `emission`. -/
inductive Arg
  | missing
  | float (q : ℝ)
  /-- an `int`, or anything else that is neither a float, an array nor a list -/
  | int (n : ℤ)
  /-- a NumPy array with two columns -/
  | array (rows : List (ℝ × ℝ))
  /-- a list or tuple of functions -/
  | functions (fs : List (ℝ → ℝ))

/-- `coefficient[:, 0]`, `coefficient[:, 1]`. -/
def tableOf (rows : List (ℝ × ℝ)) : Table ℝ :=
  ⟨rows.length, fun i => (rows.getD i (0, 0)).1, fun i => (rows.getD i (0, 0)).2⟩

/-- `Distribution.from_functions`, `/repo/pvtrace/material/distribution.py:183-193`: of `None` the
array has no dimension, a `ValueError`. -/
def fromFunctions (x : Option (List ℝ)) (fs : List (ℝ → ℝ)) (hist : Bool) : Except Err (Dist ℝ) :=
  match x with
  | none => .error .valueError
  | some x => mkDist (tableOf (x.map fun w => (w, fs.foldl (fun y f => y + f w) 0))) hist

/-- The absorption part of `Scatterer.__init__`, `/repo/pvtrace/material/component.py:107-119`.
`none` is an object without `_abs_dist`. -/
def absorption (coefficient : Arg) (x : Option (List ℝ)) (hist : Bool) : Except Err (Option (Dist ℝ)) :=
  match coefficient with
  | .missing => .error .valueError
  | .float q => .ok (some (.const q))
  | .array rows =>
    match mkDist (tableOf rows) hist with
    | .error e => .error e
    | .ok d => .ok (some d)
  | .functions fs =>
    if x = none then .error .valueError
    else
      match fromFunctions x fs hist with
      | .error e => .error e
      | .ok d => .ok (some d)
  | .int _ => .ok none

/-- `gaussian(x, 1.0, 600.0, 40.0)`, `/repo/pvtrace/material/utils.py:51-52`. -/
def defaultEmission (x : ℝ) : ℝ := 1 * Real.exp (-(((600 - x) / 40) ^ 2))

/-- The emission part of `Luminophore.__init__`, `/repo/pvtrace/material/component.py:365-379`. -/
def emission (e : Arg) (x : Option (List ℝ)) (hist : Bool) : Except Err (Dist ℝ) :=
  match e with
  | .missing => fromFunctions x [defaultEmission] hist
  | .array rows => mkDist (tableOf rows) hist
  | .functions fs => if x = none then .error .valueError else fromFunctions x fs hist
  | .float _ => .error .valueError
  | .int _ => .error .valueError

/-- The keyword arguments shared by the constructors. -/
structure Args where
  coefficient : Arg
  x : Option (List ℝ) := none
  quantumYield : Option ℝ := some 1
  tauRad : Option ℝ := none
  tauNr : Option ℝ := none
  phase : Option Phase := none
  hist : Bool := false
  name : String

/-- A component as constructed. -/
structure Made where
  name : String
  kind : CompKind
  absDist : Option (Dist ℝ)
  emsDist : Option (Dist ℝ) := none
  qy : ℝ
  tauRad : Option ℝ
  tauNr : Option ℝ
  phase : Phase

/-- `Scatterer.__init__`, `/repo/pvtrace/material/component.py:52-139`. -/
def scatterer (a : Args) (kind : CompKind := .scatterer) : Except Err Made :=
  match absorption a.coefficient a.x a.hist with
  | .error e => .error e
  | .ok d =>
    match mkYield a.quantumYield a.tauRad a.tauNr with
    | .error e => .error e
    | .ok qy => .ok ⟨a.name, kind, d, none, qy, a.tauRad, a.tauNr, a.phase.getD .isotropic⟩

/-- `Absorber.__init__`, `/repo/pvtrace/material/component.py:191-224`. -/
def absorber (coefficient : Arg) (x : Option (List ℝ)) (tauNr : Option ℝ) (name : String) (hist : Bool)
    (kind : CompKind := .absorber) : Except Err Made :=
  scatterer ⟨coefficient, x, some 0, some 0, tauNr, none, hist, name⟩ kind

/-- `Reactor.__init__`, `/repo/pvtrace/material/component.py:242-269`. -/
def reactor (coefficient : Arg) (x : Option (List ℝ)) (name : String) (hist : Bool) : Except Err Made :=
  absorber coefficient x none name hist .reactor

/-- `Luminophore.__init__`, `/repo/pvtrace/material/component.py:304-379`. -/
def luminophore (a : Args) (e : Arg) : Except Err Made :=
  match scatterer a .luminophore with
  | .error err => .error err
  | .ok m =>
    match emission e a.x a.hist with
    | .error err => .error err
    | .ok d => .ok { m with emsDist := some d }

/-- `component.coefficient(wavelength)`, `/repo/pvtrace/material/component.py:141-145`. -/
def Made.coefficient (m : Made) (w : ℝ) : Except Err (Option ℝ) :=
  match m.absDist with
  | none => .error .attributeError
  | some d => d.call w

end
end PV.Component
