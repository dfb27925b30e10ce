import Verif.Model.Transformable
import Verif.Model.Rotations
import Mathlib.Analysis.SpecialFunctions.Trigonometric.Arctan

/-!
Mirror, scaling, projection, clipping and shear matrices, angles, concatenation and comparison:
`/repo/pvtrace/geometry/transformations.py:236-300`, `392-728`, `870-897` and `1726-1921`.
-/

namespace PV.Matrices
noncomputable section
open Classical PV

/-- A 4 x 4 matrix: the first three rows, the first three entries of the last row and its last entry. -/
@[ext] structure Homog where
  top : Affine ℝ
  row : Vec3 ℝ
  w : ℝ

/-- `numpy.dot(M, [x, y, z, 1])`. -/
def Homog.apply (M : Homog) (p : Vec3 ℝ) : Vec3 ℝ × ℝ := (M.top.point p, M.row.dot p + M.w)

/-- Dehomogenised: the first three coordinates divided by the last. -/
def Homog.image (M : Homog) (p : Vec3 ℝ) : Vec3 ℝ := (1 / (M.apply p).2) • (M.apply p).1

/-- The matrix with last row `0, 0, 0, 1`. -/
def Homog.affine (m : Affine ℝ) : Homog := ⟨m, 0, 1⟩

/-- `numpy.dot` of two 4 x 4 matrices. -/
def Homog.mul (a b : Homog) : Homog where
  top :=
    { r0 := ⟨a.top.r0.dot b.top.c0 + a.top.t.x * b.row.x, a.top.r0.dot b.top.c1 + a.top.t.x * b.row.y,
        a.top.r0.dot b.top.c2 + a.top.t.x * b.row.z⟩
      r1 := ⟨a.top.r1.dot b.top.c0 + a.top.t.y * b.row.x, a.top.r1.dot b.top.c1 + a.top.t.y * b.row.y,
        a.top.r1.dot b.top.c2 + a.top.t.y * b.row.z⟩
      r2 := ⟨a.top.r2.dot b.top.c0 + a.top.t.z * b.row.x, a.top.r2.dot b.top.c1 + a.top.t.z * b.row.y,
        a.top.r2.dot b.top.c2 + a.top.t.z * b.row.z⟩
      t := a.top.vec b.top.t + b.w • a.top.t }
  row := ⟨a.row.dot b.top.c0 + a.w * b.row.x, a.row.dot b.top.c1 + a.w * b.row.y,
    a.row.dot b.top.c2 + a.w * b.row.z⟩
  w := a.row.dot b.top.t + a.w * b.w

/-- `numpy.identity(4)`. -/
def Homog.one : Homog := Homog.affine Affine.one

/-- `k * I - f * numpy.outer(a, b)` as rows, with the translation `t`. -/
def outerRows (k f : ℝ) (a b t : Vec3 ℝ) : Affine ℝ where
  r0 := ⟨k - f * (a.x * b.x), 0 - f * (a.x * b.y), 0 - f * (a.x * b.z)⟩
  r1 := ⟨0 - f * (a.y * b.x), k - f * (a.y * b.y), 0 - f * (a.y * b.z)⟩
  r2 := ⟨0 - f * (a.z * b.x), 0 - f * (a.z * b.y), k - f * (a.z * b.z)⟩
  t := t

/-- `translation_from_matrix`, `/repo/pvtrace/geometry/transformations.py:236-245`. -/
def translationFromMatrix (M : Affine ℝ) : Vec3 ℝ := M.t

/-- `reflection_matrix`, `/repo/pvtrace/geometry/transformations.py:248-271`. -/
def reflectionMatrix (point normal : Vec3 ℝ) : Affine ℝ :=
  let normal := unitVector normal
  outerRows 1 2 normal normal ((2 * point.dot normal) • normal)

/-- `scale_matrix`, `/repo/pvtrace/geometry/transformations.py:392-423`. -/
def scaleMatrix (factor : ℝ) (origin direction : Option (Vec3 ℝ)) : Affine ℝ :=
  match direction with
  | none =>
    { r0 := ⟨factor, 0, 0⟩, r1 := ⟨0, factor, 0⟩, r2 := ⟨0, 0, factor⟩
      t := match origin with
        | none => 0
        | some o => (1 - factor) • o }
  | some d =>
    let direction := unitVector d
    let factor := 1 - factor
    outerRows 1 factor direction direction (match origin with
      | none => 0
      | some o => (factor * o.dot direction) • direction)

/-- `projection_matrix`, `/repo/pvtrace/geometry/transformations.py:467-524`. A given perspective point
wins over a given direction. -/
def projectionMatrix (point normal : Vec3 ℝ) (direction perspective : Option (Vec3 ℝ)) (pseudo : Bool) :
    Homog :=
  let normal := unitVector normal
  match perspective with
  | some p =>
    let k := (p - point).dot normal
    let M := outerRows k 1 p normal ((point.dot normal) • p)
    let M := if pseudo then
        let N := outerRows 0 1 normal normal 0
        ⟨M.r0 + N.r0, M.r1 + N.r1, M.r2 + N.r2, (point.dot normal) • (p + normal)⟩
      else M
    ⟨M, -normal, p.dot normal⟩
  | none => match direction with
    | some d =>
      let scale := d.dot normal
      .affine (outerRows 1 (1 / scale) d normal ((point.dot normal / scale) • d))
    | none => .affine (outerRows 1 1 normal normal ((point.dot normal) • normal))

/-- `clip_matrix`, `/repo/pvtrace/geometry/transformations.py:599-652`. -/
def clipMatrix (left right bottom top near far : ℝ) (perspective : Bool) : Except Err Homog :=
  if left ≥ right ∨ bottom ≥ top ∨ near ≥ far then .error .valueError
  else if perspective then
    if near ≤ Rotations.eps then .error .valueError
    else
      let t := 2 * near
      .ok ⟨⟨⟨t / (left - right), 0, (right + left) / (right - left)⟩,
          ⟨0, t / (bottom - top), (top + bottom) / (top - bottom)⟩,
          ⟨0, 0, (far + near) / (near - far)⟩, ⟨0, 0, t * far / (far - near)⟩⟩, ⟨0, 0, -1⟩, 0⟩
  else
    .ok ⟨⟨⟨2 / (right - left), 0, 0⟩, ⟨0, 2 / (top - bottom), 0⟩, ⟨0, 0, 2 / (far - near)⟩,
      ⟨(right + left) / (left - right), (top + bottom) / (bottom - top), (far + near) / (near - far)⟩⟩, 0, 1⟩

/-- `shear_matrix`, `/repo/pvtrace/geometry/transformations.py:655-683`. -/
def shearMatrix (angle : ℝ) (direction point normal : Vec3 ℝ) : Except Err (Affine ℝ) :=
  let normal := unitVector normal
  let direction := unitVector direction
  if |normal.dot direction| > 1e-6 then .error .valueError
  else
    let angle := Real.tan angle
    .ok (outerRows 1 (-angle) direction normal ((-angle * point.dot normal) • direction))

/-- `orthogonalization_matrix`, `/repo/pvtrace/geometry/transformations.py:870-897`. -/
def orthogonalizationMatrix (lengths angles : Vec3 ℝ) : Affine ℝ :=
  let rad (x : ℝ) : ℝ := x * (Real.pi / 180)
  let sina := Real.sin (rad angles.x)
  let sinb := Real.sin (rad angles.y)
  let cosa := Real.cos (rad angles.x)
  let cosb := Real.cos (rad angles.y)
  let cosg := Real.cos (rad angles.z)
  let co := (cosa * cosb - cosg) / (sina * sinb)
  { r0 := ⟨lengths.x * sinb * Real.sqrt (1 - co * co), 0, 0⟩
    r1 := ⟨-lengths.x * sinb * co, lengths.y * sina, 0⟩
    r2 := ⟨lengths.x * cosb, lengths.y * cosa, lengths.z⟩
    t := 0 }

/-- `reflection_from_matrix`, `/repo/pvtrace/geometry/transformations.py:274-300`, given the eigenvectors found
by `numpy.linalg.eig`: `v` of the 3 x 3 part for the eigenvalue -1 and `q` of the matrix for the eigenvalue 1.
Returns the point and the normal. -/
def reflectionFromMatrix (v : Vec3 ℝ) (q : Vec3 ℝ × ℝ) : Vec3 ℝ × Vec3 ℝ := ((1 / q.2) • q.1, v)

/-- `scale_from_matrix`, `/repo/pvtrace/geometry/transformations.py:426-464`, given what `numpy.linalg.eig`
finds: `v` an eigenvector of the 3 x 3 part whose eigenvalue is that computed for the factor, if there is one,
and `q` for the eigenvalue 1 of the matrix. Returns factor, origin and direction. -/
def scaleFromMatrix (M : Affine ℝ) (v : Option (Vec3 ℝ)) (q : Vec3 ℝ × ℝ) : ℝ × Vec3 ℝ × Option (Vec3 ℝ) :=
  let factor := M.r0.x + M.r1.y + M.r2.z - 2
  match v with
  | some v => (factor, (1 / q.2) • q.1, some (unitVector v))
  | none => ((factor + 2) / 3, (1 / q.2) • q.1, none)

/-- `mu` is an eigenvalue of the matrix. -/
def Homog.Eigen (M : Homog) (mu : ℝ) : Prop :=
  ∃ x : Vec3 ℝ, ∃ w : ℝ, ¬ (x = 0 ∧ w = 0) ∧ M.top.vec x + w • M.top.t = mu • x ∧ M.row.dot x + M.w * w = mu * w

/-- `mu` is an eigenvalue of the 3 x 3 part. -/
def Eigen3 (M : Affine ℝ) (mu : ℝ) : Prop := ∃ x : Vec3 ℝ, x ≠ 0 ∧ M.vec x = mu • x

/-- What `projection_from_matrix` takes a matrix for. -/
inductive Projected
  | parallel
  | perspective
deriving DecidableEq

/-- The branches of `projection_from_matrix`, `/repo/pvtrace/geometry/transformations.py:556-596`. Eigenvalues
are real here; the code looks at the real parts. -/
def projectionKind (M : Homog) (pseudo : Bool) : Except Err Projected :=
  if pseudo = false ∧ ∃ mu, |mu - 1| < 1e-8 ∧ M.Eigen mu then
    if ∃ mu, |mu| < 1e-8 ∧ Eigen3 M.top mu then .ok .parallel else .error .valueError
  else if ∃ mu, |mu| > 1e-8 ∧ M.Eigen mu then .ok .perspective else .error .valueError

/-- What `projection_from_matrix` returns for a parallel projection,
`/repo/pvtrace/geometry/transformations.py:560-583`, given what `numpy.linalg.eig` finds: `q` for the eigenvalue 1
of the matrix, `d` for the eigenvalue 0 of the 3 x 3 part and `n` for the eigenvalue 0 of its transpose. Returns
point, normal and direction. -/
def projectionFromMatrix (q : Vec3 ℝ × ℝ) (d n : Vec3 ℝ) : Vec3 ℝ × Vec3 ℝ × Vec3 ℝ :=
  ((1 / q.2) • q.1, unitVector n, unitVector d)

/-- The perspective case, `/repo/pvtrace/geometry/transformations.py:584-596`: `q` is an eigenvector for an
eigenvalue that is not 0. Returns point, normal and perspective point; `none` stands for the division by zero,
which gives `nan`. -/
def perspectiveFromMatrix (M : Homog) (q : Vec3 ℝ × ℝ) (pseudo : Bool) : Option (Vec3 ℝ × Vec3 ℝ × Vec3 ℝ) :=
  let point := (1 / q.2) • q.1
  let normal := -M.row
  if point.dot normal = 0 then none
  else
    let perspective := (1 / point.dot normal) • M.top.t
    some (point, normal, if pseudo then perspective - normal else perspective)

/-- `shear_from_matrix`, `/repo/pvtrace/geometry/transformations.py:686-728`, given the unit normal found from
the eigenvectors of the 3 x 3 part for the eigenvalue 1, and `q` for the eigenvalue 1 of the matrix. Returns
angle, direction, point and normal; `none` stands for the division by zero, which gives `nan`. -/
def shearFromMatrix (M : Affine ℝ) (normal : Vec3 ℝ) (q : Vec3 ℝ × ℝ) : Option (ℝ × Vec3 ℝ × Vec3 ℝ × Vec3 ℝ) :=
  let direction := M.vec normal - normal
  let angle := Real.sqrt (direction.dot direction)
  if angle = 0 then none
  else some (Real.arctan angle, (1 / angle) • direction, (1 / q.2) • q.1, normal)

/-- `vector_norm` of one vector, `/repo/pvtrace/geometry/transformations.py:1726-1762`. -/
def vectorNorm (v : Vec3 ℝ) : ℝ := Real.sqrt (v.dot v)

/-- `vector_product`, `/repo/pvtrace/geometry/transformations.py:1824-1842`. -/
def vectorProduct (a b : Vec3 ℝ) : Vec3 ℝ :=
  ⟨a.y * b.z - a.z * b.y, a.z * b.x - a.x * b.z, a.x * b.y - a.y * b.x⟩

/-- `angle_between_vectors` of two vectors, `/repo/pvtrace/geometry/transformations.py:1845-1873`. -/
def angleBetweenVectors (a b : Vec3 ℝ) (directed : Bool) : ℝ :=
  let dot := a.dot b / (vectorNorm a * vectorNorm b)
  Real.arccos (if directed then dot else |dot|)

/-- `concatenate_matrices`, `/repo/pvtrace/geometry/transformations.py:1892-1905`. -/
def concatenateMatrices (ms : List Homog) : Homog := ms.foldl Homog.mul .one

/-- The sixteen entries, row by row. -/
def Homog.entries (M : Homog) : List ℝ :=
  [M.top.r0.x, M.top.r0.y, M.top.r0.z, M.top.t.x, M.top.r1.x, M.top.r1.y, M.top.r1.z, M.top.t.y,
    M.top.r2.x, M.top.r2.y, M.top.r2.z, M.top.t.z, M.row.x, M.row.y, M.row.z, M.w]

/-- `is_same_transform`, `/repo/pvtrace/geometry/transformations.py:1908-1921`; both matrices are divided
by their last entry. -/
def isSameTransform (A B : Homog) : Prop :=
  List.Forall₂ (fun a b => isclose (a / A.w) (b / B.w)) A.entries B.entries

end
end PV.Matrices
