import Verif.Model.Geometry
import Mathlib.Analysis.SpecialFunctions.Complex.Arg

/-!
Poses of nodes: `/repo/pvtrace/geometry/transformable.py`, `translation_matrix`, `rotation_matrix` and
`rotation_from_matrix` of `/repo/pvtrace/geometry/transformations.py`, `Node.look_at` of
`/repo/pvtrace/scene/node.py:38-69`.
-/

namespace PV
noncomputable section
open Classical

/-- State of a `Transformable`, `/repo/pvtrace/geometry/transformable.py:46-50`. `locationInt` and
`poseInt` say that the NumPy array has an integer type (it was built from Python integers). -/
structure Tf where
  location : Vec3 ℝ
  locationInt : Bool
  pose : Affine ℝ
  poseInt : Bool

/-- `translation_matrix`, `/repo/pvtrace/geometry/transformations.py:223-233`. -/
def translationMatrix (v : Vec3 ℝ) : Affine ℝ := ⟨⟨1, 0, 0⟩, ⟨0, 1, 0⟩, ⟨0, 0, 1⟩, v⟩

/-- `unit_vector` of `transformations.py`; the zero vector, which gives `nan`, is mapped to zero. -/
def unitVector (v : Vec3 ℝ) : Vec3 ℝ := (1 / Real.sqrt (v.dot v)) • v

/-- `rotation_matrix`, `/repo/pvtrace/geometry/transformations.py:303-348`. -/
def rotationMatrix (angle : ℝ) (direction point : Vec3 ℝ) : Affine ℝ :=
  let sina := Real.sin angle
  let cosa := Real.cos angle
  let u := unitVector direction
  let k := 1 - cosa
  let r : Affine ℝ :=
    ⟨⟨cosa + u.x * u.x * k + 0, u.x * u.y * k - u.z * sina, u.x * u.z * k + u.y * sina⟩,
      ⟨u.y * u.x * k + u.z * sina, cosa + u.y * u.y * k + 0, u.y * u.z * k - u.x * sina⟩,
      ⟨u.z * u.x * k - u.y * sina, u.z * u.y * k + u.x * sina, cosa + u.z * u.z * k + 0⟩, 0⟩
  { r with t := point - r.vec point }

/-- `Transformable.__init__`, `/repo/pvtrace/geometry/transformable.py:25-50`. -/
def Tf.init (location : Option (Vec3 ℝ × Bool)) : Tf :=
  match location with
  | none => ⟨0, false, translationMatrix 0, false⟩
  | some (v, isInt) => ⟨v, isInt, translationMatrix v, false⟩

/-- Truncation towards zero, the conversion of a float stored in an integer array. -/
def trunc (x : ℝ) : ℝ := if 0 ≤ x then (⌊x⌋ : ℝ) else (⌈x⌉ : ℝ)

/-- A change of a `Transformable`; the flags say that all entries are integers. -/
inductive TfOp
  | setPose (m : Affine ℝ) (isInt : Bool)
  | setLocation (v : Vec3 ℝ) (isInt : Bool)
  | translate (v : Vec3 ℝ) (isInt : Bool)
  | rotate (angle : ℝ) (axis : Vec3 ℝ)

/-- The `pose` and `location` setters, `translate` and `rotate`,
`/repo/pvtrace/geometry/transformable.py:62-93`. Adding floats in place to an integer array raises
`UFuncTypeError`. -/
def Tf.apply (s : Tf) : TfOp → Except Err Tf
  | .setPose m isInt => .ok ⟨m.t, isInt, m, isInt⟩
  | .setLocation v isInt =>
    .ok { s with
      location := v
      locationInt := isInt
      pose := { s.pose with t := if s.poseInt then ⟨trunc v.x, trunc v.y, trunc v.z⟩ else v } }
  | .translate v isInt =>
    if s.locationInt && !isInt then .error .casting
    else .ok { s with
      location := s.location + v
      pose := (translationMatrix v).comp s.pose
      poseInt := false }
  | .rotate angle axis =>
    .ok { s with
      pose := (rotationMatrix angle axis s.location).comp s.pose
      poseInt := false }

/-- A sequence of changes. -/
def Tf.run (s : Tf) : List TfOp → Except Err Tf
  | [] => .ok s
  | op :: ops => match s.apply op with
    | .error e => .error e
    | .ok s => s.run ops

/-- The rotation computed in `Node.look_at`, `/repo/pvtrace/scene/node.py:52-67`. -/
def lookAtMatrix (b : Vec3 ℝ) : Affine ℝ :=
  let a : Vec3 ℝ := ⟨0, 0, 1⟩
  let c := a.dot b
  let v : Vec3 ℝ := ⟨a.y * b.z - a.z * b.y, a.z * b.x - a.x * b.z, a.x * b.y - a.y * b.x⟩
  let k := 1 / (1 + c)
  let vx : Affine ℝ := ⟨⟨0, -v.z, v.y⟩, ⟨v.z, 0, -v.x⟩, ⟨-v.y, v.x, 0⟩, 0⟩
  let vx2 := vx.comp vx
  ⟨⟨1, 0, 0⟩ + vx.r0 + k • vx2.r0, ⟨0, 1, 0⟩ + vx.r1 + k • vx2.r1,
    ⟨0, 0, 1⟩ + vx.r2 + k • vx2.r2, 0⟩

/-- `rotation_from_matrix`, `/repo/pvtrace/geometry/transformations.py:351-390`, given the `direction`
found by `numpy.linalg.eig`. `math.atan2(s, c)` is the argument of `c + i s`. -/
def rotationAngle (R : Affine ℝ) (direction : Vec3 ℝ) : ℝ :=
  let cosa := (R.r0.x + R.r1.y + R.r2.z - 1) / 2
  let sina :=
    if |direction.z| > 1e-8 then
      (R.r1.x + (cosa - 1) * direction.x * direction.y) / direction.z
    else if |direction.y| > 1e-8 then
      (R.r0.z + (cosa - 1) * direction.x * direction.z) / direction.y
    else (R.r2.y + (cosa - 1) * direction.y * direction.z) / direction.x
  Complex.arg ⟨cosa, sina⟩

/-- `Node.look_at`, `/repo/pvtrace/scene/node.py:38-69`. `axis` stands for the eigenvector chosen by
`rotation_from_matrix`. -/
def Tf.lookAt (axis : Affine ℝ → Vec3 ℝ) (s : Tf) (b : Vec3 ℝ) : Except Err Tf :=
  let c := (⟨0, 0, 1⟩ : Vec3 ℝ).dot b
  if isclose c (-1) then s.apply (.rotate Real.pi ⟨0, 1, 0⟩)
  else
    let R := lookAtMatrix b
    let direction := axis R
    s.apply (.rotate (rotationAngle R direction) direction)

end
end PV
