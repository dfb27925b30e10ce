import Mathlib.LinearAlgebra.Matrix.Determinant.Basic
import Mathlib.LinearAlgebra.Matrix.Notation
import Mathlib.Analysis.SpecialFunctions.Trigonometric.Basic
import Mathlib.Algebra.Quaternion

/-!
C111. Rotations, said without the library: the turn about a coordinate axis, the names of the Euler conventions, and the rotation
that belongs to a quaternion.
-/

namespace PV.Spec
noncomputable section

/-- A rotation: lengths, angles and handedness are kept. -/
def Rotation (M : Matrix (Fin 3) (Fin 3) ℝ) : Prop := M * M.transpose = 1 ∧ M.det = 1

/-- The turn by the angle `θ` about a coordinate axis, anticlockwise seen from its tip. -/
def turnAbout (axis : Char) (θ : ℝ) : Matrix (Fin 3) (Fin 3) ℝ :=
  if axis = 'x' then !![1, 0, 0; 0, Real.cos θ, -Real.sin θ; 0, Real.sin θ, Real.cos θ]
  else if axis = 'y' then !![Real.cos θ, 0, Real.sin θ; 0, 1, 0; -Real.sin θ, 0, Real.cos θ]
  else !![Real.cos θ, -Real.sin θ, 0; Real.sin θ, Real.cos θ, 0; 0, 0, 1]

/-- Three turns one after another, first by `a` about `x`, then by `b` about `y`, then by `c` about `z`: about fixed axes if the
name begins with `s`, and about axes that turn along if it begins with `r`. -/
def turns (name : List Char) (a b c : ℝ) : Option (Matrix (Fin 3) (Fin 3) ℝ) :=
  match name with
  | ['s', x, y, z] => some (turnAbout z c * turnAbout y b * turnAbout x a)
  | ['r', x, y, z] => some (turnAbout x a * turnAbout y b * turnAbout z c)
  | _ => none

/-- An array of four numbers as a quaternion. -/
def quaternion (q : Fin 4 → ℝ) : Quaternion ℝ := ⟨q 0, q 1, q 2, q 3⟩

/-- A vector as a quaternion without real part. -/
def pure (v : Fin 3 → ℝ) : Quaternion ℝ := ⟨0, v 0, v 1, v 2⟩

end
end PV.Spec
