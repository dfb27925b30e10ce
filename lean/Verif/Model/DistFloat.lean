import Verif.Model.Ray
import Mathlib.Algebra.Order.Field.Basic

/-!
`Distribution.__init__` for tables with entries that are not numbers: what pandas makes of an empty cell of a file, and infinities.
-/

namespace PV
variable {α : Type} [Field α] [LinearOrder α]

/-- A value of a numpy array of floats. Simplification: finite values are exact. -/
inductive Fl (α : Type)
  | fin (x : α)
  | inf
  | ninf
  | nan
deriving DecidableEq

namespace Fl

/-- `np.isfinite`. -/
def isFin : Fl α → Bool
  | fin _ => true
  | _ => false

/-- `a < b`. Comparisons with `nan` are false. -/
def lt : Fl α → Fl α → Bool
  | fin a, fin b => decide (a < b)
  | ninf, fin _ | ninf, inf | fin _, inf => true
  | _, _ => false

def neg : Fl α → Fl α
  | fin a => fin (-a)
  | inf => ninf
  | ninf => inf
  | nan => nan

/-- `a + b`. -/
def add : Fl α → Fl α → Fl α
  | fin a, fin b => fin (a + b)
  | nan, _ | _, nan | inf, ninf | ninf, inf => nan
  | inf, _ | _, inf => inf
  | ninf, _ | _, ninf => ninf

/-- `a * b`. -/
def mul : Fl α → Fl α → Fl α
  | fin a, fin b => fin (a * b)
  | nan, _ | _, nan => nan
  | fin a, inf | inf, fin a => if a = 0 then nan else if 0 < a then inf else ninf
  | fin a, ninf | ninf, fin a => if a = 0 then nan else if 0 < a then ninf else inf
  | inf, inf | ninf, ninf => inf
  | inf, ninf | ninf, inf => ninf

/-- `1 / a`. The sign of zero is not modelled. -/
def recip : Fl α → Fl α
  | fin a => if a = 0 then inf else fin (1 / a)
  | inf | ninf => fin 0
  | nan => nan

/-- `a / b`. -/
def div (a b : Fl α) : Fl α := a.mul b.recip

/-- `np.diff(x)`. -/
def diffs (x : List (Fl α)) : List (Fl α) := List.zipWith (fun b a => b.add a.neg) x.tail x

/-- `np.cumsum`. -/
def cumsum : Fl α → List (Fl α) → List (Fl α)
  | _, [] => []
  | acc, t :: ts => acc.add t :: cumsum (acc.add t) ts

/-- `np.max`: `nan` if there is one. -/
def maxOf (c : List (Fl α)) : Fl α :=
  if nan ∈ c then nan else c.foldl (fun m v => if m.lt v then v else m) ninf

/-- The tests of `Distribution.__init__` and the failures that follow from too short tables, `/repo/pvtrace/material/distribution.py:36-57`. -/
def tests (x y : List (Fl α)) (hist : Bool) : Except Err Unit :=
  if ¬ (diffs x).all (fun d => (fin 0).lt d) then .error .valueError
  else if ¬ y.any isFin then .error .valueError
  else if y.any (fun v => v.lt (fin 0)) then .error .valueError
  else if x.length = 0 then .error .valueError
  else if x.length = 1 then (if hist then .error .indexError else .error .valueError)
  else .ok ()

/-- `(y[:-1] + y[1:]) * 0.5`. -/
def trapezoids (y : List (Fl α)) : List (Fl α) := List.zipWith (fun a b => (a.add b).mul (fin (1 / 2))) y y.tail

/-- `self._cdf`, `/repo/pvtrace/material/distribution.py:48-57`. For a table of zeros `1 / 0` times zero is `nan`, as zero by zero is. -/
def cdfOf (y : List (Fl α)) (hist : Bool) : List (Fl α) :=
  if hist then
    let c := cumsum (fin 0) y
    c.map fun v => v.mul (c.getLastD nan).recip
  else
    let c := cumsum (fin 0) (trapezoids y)
    fin 0 :: c.map fun v => v.div (maxOf c)

end Fl
end PV
