import Verif.Model.Interp
import Verif.Model.Ray
import Mathlib.Algebra.BigOperators.Group.Finset.Basic

/-!
`Distribution`, `/repo/pvtrace/material/distribution.py`.
Simplifications: values are scalars (one wavelength at a time) and numbers are exact, so the
finiteness test `np.isfinite(y).any()` always succeeds on a non-empty table.
-/

namespace PV
variable {α : Type} [Field α] [LinearOrder α]

/-- Scatter data `(x, y)` of length `n`. -/
structure Table (α : Type) where
  n : ℕ
  x : ℕ → α
  y : ℕ → α

/-- A constructed `Distribution`: a constant, or a table with its `hist` flag. -/
inductive Dist (α : Type)
  | const (y : α)
  | table (T : Table α) (hist : Bool)

/-- `Distribution.__init__` for table data, `/repo/pvtrace/material/distribution.py:32-57`. A table
of one entry fails too: `x[-2]` is an `IndexError` for histograms, and `np.max` of an empty array
a `ValueError` otherwise. -/
def mkDist (T : Table α) (hist : Bool) : Except Err (Dist α) :=
  if ¬ ∀ i < T.n - 1, T.x i < T.x (i + 1) then .error .valueError
  else if T.n = 0 then .error .valueError
  else if ∃ i < T.n, T.y i < 0 then .error .valueError
  else if T.n = 1 then (if hist then .error .indexError else .error .valueError)
  else .ok (.table T hist)

namespace Table

/-- `np.cumsum((y[:-1] + y[1:]) * 0.5)` with a leading zero: sum of the first `k` trapezoids. -/
def cum (T : Table α) (k : ℕ) : α := ∑ i ∈ Finset.range k, (T.y i + T.y (i + 1)) * (1 / 2)

/-- `np.max(cdf)` over the `n - 1` cumulative sums. -/
def maxCum (T : Table α) : α :=
  (List.range (T.n - 1)).foldl (fun m k => max m (T.cum (k + 1))) (T.cum 1)

/-- `self._cdf` for interpolated data, `/repo/pvtrace/material/distribution.py:53-57`.
Simplification: for a table of zeros the code divides zero by zero and holds NaN, the model 0; the
theorems on sampling ask for a positive value. -/
def cdf (T : Table α) (k : ℕ) : α := if k = 0 then 0 else T.cum k / T.maxCum

/-- `np.cumsum(y)`: sum of the first `k + 1` values. -/
def hsum (T : Table α) (k : ℕ) : α := ∑ i ∈ Finset.range (k + 1), T.y i

/-- `self._cdf` for histograms, `/repo/pvtrace/material/distribution.py:49-50`.
Simplification for a table of zeros as in `cdf`. -/
def hcdf (T : Table α) (k : ℕ) : α := T.hsum k * (1 / T.hsum (T.n - 1))

end Table

/-- `np.searchsorted(a, v)` (side `left`) for a non-decreasing array: the number of entries
smaller than `v`. -/
def searchLeft (a : ℕ → α) (n : ℕ) (v : α) : ℕ := ((List.range n).filter (fun i => a i < v)).length

/-- The range test of `/repo/pvtrace/geometry/utils.py:368-381` against `(min x, max x)`, which is
`(x[0], x[n-1])` for ascending data. -/
def Table.inRange (T : Table α) (x : α) : Prop := ¬ (x < T.x 0 ∨ T.x (T.n - 1) < x)

instance (T : Table α) (x : α) : Decidable (T.inRange x) := inferInstanceAs (Decidable (¬ _))

/-- `Distribution.__call__`, `/repo/pvtrace/material/distribution.py:59-87`.
`self._edges[:-1]` is `x`. -/
def Dist.call (D : Dist α) (x : α) : Except Err (Option α) :=
  match D with
  | .const y => .ok (some y)
  | .table T hist =>
    if ¬ T.inRange x then .error .valueError
    else if hist then .ok (some (T.y (searchLeft T.x T.n x)))
    else .ok (npInterp T.x T.y T.n x)

/-- `Distribution.lookup`, `/repo/pvtrace/material/distribution.py:89-134`. A constant has no
`_x_range`: `AttributeError`. -/
def Dist.lookup (D : Dist α) (x : α) : Except Err (Option α) :=
  match D with
  | .const _ => .error .attributeError
  | .table T hist =>
    if ¬ T.inRange x then .error .valueError
    else if hist then .ok (some (T.hcdf (searchLeft T.x T.n x)))
    else .ok (npInterp T.x T.cdf T.n x)

/-- `Distribution.sample`, `/repo/pvtrace/material/distribution.py:136-181`. -/
def Dist.sample (D : Dist α) (p : α) : Except Err (Option α) :=
  if p < 0 ∨ 1 < p then .error .valueError
  else
    match D with
    | .const _ => .error .attributeError
    | .table T hist =>
      if hist then
        let idx := searchLeft T.hcdf T.n p
        .ok (some (if idx < T.n then T.x idx else T.x (T.n - 1)))
      else .ok (npInterp T.cdf T.x T.n p)

end PV
