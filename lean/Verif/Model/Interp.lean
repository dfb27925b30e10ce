import Mathlib.Algebra.Order.Field.Basic
import Mathlib.Data.Nat.Find

/-!
Table interpolation: `numpy.interp` as used by `Distribution`, and `interp_clamped` of the engine.
Tables are given by index functions `ℕ → α` together with their length `n`.
-/

namespace PV
variable {α : Type} [Field α] [LinearOrder α]

/-- The segment found by NumPy's binary search: the greatest index `j < n` with `xs j ≤ x`. -/
def segIdx (xs : ℕ → α) (n : ℕ) (x : α) : ℕ := Nat.findGreatest (fun j => xs j ≤ x) (n - 1)

/-- `np.interp(x, xs, ys, left=np.nan, right=np.nan)` for non-decreasing `xs` of length `n ≥ 1`,
as used in `/repo/pvtrace/material/distribution.py:84,130,178`; `none` is `nan`. -/
def npInterp (xs ys : ℕ → α) (n : ℕ) (x : α) : Option α :=
  if x < xs 0 then none
  else if xs (n - 1) < x then none
  else
    let j := segIdx xs n x
    if j = n - 1 then some (ys j)
    else if xs j = x then some (ys j)
    else some ((ys (j + 1) - ys j) / (xs (j + 1) - xs j) * (x - xs j) + ys j)

/-- The loop `while hi - lo > 1`, `/repo/pvtrace/engine/_kernel.pyx:230-235`. Reading outside the
table gives `none`; `none` is also returned when the fuel runs out (`PV.Dist.kInterp_total`
shows that neither happens). -/
def kBisect (xs : ℕ → Option α) (x : α) : ℕ → ℕ → ℕ → Option (ℕ × ℕ)
  | 0, _, _ => none
  | fuel + 1, lo, hi =>
    if hi - lo > 1 then
      let mid := (lo + hi) / 2
      match xs mid with
      | none => none
      | some m => if m ≤ x then kBisect xs x fuel mid hi else kBisect xs x fuel lo mid
    else some (lo, hi)

/-- `interp_clamped`, `/repo/pvtrace/engine/_kernel.pyx:219-238`. `xs i`, `ys i` are the memory
reads `xs[i]`, `ys[i]`, `none` outside the table. -/
def kInterp (x : α) (xs ys : ℕ → Option α) (n : ℕ) : Option α :=
  if n = 1 then ys 0
  else
    match xs 0 with
    | none => none
    | some x0 =>
      if x ≤ x0 then ys 0
      else
        match xs (n - 1) with
        | none => none
        | some xn =>
          if x ≥ xn then ys (n - 1)
          else
            match kBisect xs x n 0 (n - 1) with
            | none => none
            | some (lo, hi) =>
              match xs hi, xs lo, ys lo, ys hi with
              | some xhi, some xlo, some ylo, some yhi =>
                if xhi = xlo then some ylo
                else some (ylo + (yhi - ylo) * (x - xlo) / (xhi - xlo))
              | _, _, _, _ => none

end PV
