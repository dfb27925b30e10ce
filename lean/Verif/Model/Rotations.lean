import Verif.Model.Transformable
import Mathlib.LinearAlgebra.Matrix.Notation
import Mathlib.Data.Matrix.Mul

/-!
Rotations as matrices, Euler angles and quaternions: `/repo/pvtrace/geometry/transformations.py`. A matrix stands for the upper
left 3 x 3 block; the rest is that of the identity in all these functions.
-/

namespace PV.Rotations
noncomputable section
open Classical

abbrev Mat := Matrix (Fin 3) (Fin 3) ℝ

/-- An array of four numbers. -/
abbrev Quat := Fin 4 → ℝ

/-- `_EPS`, `/repo/pvtrace/geometry/transformations.py:1691`: four times 2^-52. -/
def eps : ℝ := 4 * 2⁻¹ ^ 52

/-- `_NEXT_AXIS`, `/repo/pvtrace/geometry/transformations.py:1694`. -/
def nextAxis (i : ℕ) : Fin 3 := ([1, 2, 0, 1] : List (Fin 3)).getD i 0

/-- The tuples of `_AXES2TUPLE`: first axis, parity, repetition, frame. -/
structure Axes where
  first : Fin 3
  parity : Bool
  repetition : Bool
  frame : Bool

/-- `_AXES2TUPLE`, `/repo/pvtrace/geometry/transformations.py:1697-1722`; names as lists of letters. -/
def table : List (List Char × Axes) :=
  [(['s', 'x', 'y', 'z'], ⟨0, false, false, false⟩), (['s', 'x', 'y', 'x'], ⟨0, false, true, false⟩),
    (['s', 'x', 'z', 'y'], ⟨0, true, false, false⟩), (['s', 'x', 'z', 'x'], ⟨0, true, true, false⟩),
    (['s', 'y', 'z', 'x'], ⟨1, false, false, false⟩), (['s', 'y', 'z', 'y'], ⟨1, false, true, false⟩),
    (['s', 'y', 'x', 'z'], ⟨1, true, false, false⟩), (['s', 'y', 'x', 'y'], ⟨1, true, true, false⟩),
    (['s', 'z', 'x', 'y'], ⟨2, false, false, false⟩), (['s', 'z', 'x', 'z'], ⟨2, false, true, false⟩),
    (['s', 'z', 'y', 'x'], ⟨2, true, false, false⟩), (['s', 'z', 'y', 'z'], ⟨2, true, true, false⟩),
    (['r', 'z', 'y', 'x'], ⟨0, false, false, true⟩), (['r', 'x', 'y', 'x'], ⟨0, false, true, true⟩),
    (['r', 'y', 'z', 'x'], ⟨0, true, false, true⟩), (['r', 'x', 'z', 'x'], ⟨0, true, true, true⟩),
    (['r', 'x', 'z', 'y'], ⟨1, false, false, true⟩), (['r', 'y', 'z', 'y'], ⟨1, false, true, true⟩),
    (['r', 'z', 'x', 'y'], ⟨1, true, false, true⟩), (['r', 'y', 'x', 'y'], ⟨1, true, true, true⟩),
    (['r', 'y', 'x', 'z'], ⟨2, false, false, true⟩), (['r', 'z', 'x', 'z'], ⟨2, false, true, true⟩),
    (['r', 'x', 'y', 'z'], ⟨2, true, false, true⟩), (['r', 'z', 'y', 'z'], ⟨2, true, true, true⟩)]

/-- The axes `i`, `j`, `k`, `/repo/pvtrace/geometry/transformations.py:1085-1087`. -/
def Axes.i (a : Axes) : Fin 3 := a.first
def Axes.j (a : Axes) : Fin 3 := nextAxis (a.first.val + a.parity.toNat)
def Axes.k (a : Axes) : Fin 3 := nextAxis (a.first.val + 1 - a.parity.toNat)

/-- The assignments `M[i, i] = …`, …, `M[k, k] = …`: the entries of `m` in the order `i`, `j`, `k`. -/
def place (i j k : Fin 3) (m : Mat) : Mat :=
  let s : Fin 3 → Fin 3 := fun a => if a = i then 0 else if a = j then 1 else if a = k then 2 else 0
  Matrix.of fun a b => m (s a) (s b)

/-- `euler_matrix`, `/repo/pvtrace/geometry/transformations.py:1061-1121`, for a tuple of axes. -/
def eulerMatrix (ai aj ak : ℝ) (axes : Axes) : Mat :=
  let (ai, ak) := if axes.frame then (ak, ai) else (ai, ak)
  let (ai, aj, ak) := if axes.parity then (-ai, -aj, -ak) else (ai, aj, ak)
  let si := Real.sin ai
  let sj := Real.sin aj
  let sk := Real.sin ak
  let ci := Real.cos ai
  let cj := Real.cos aj
  let ck := Real.cos ak
  let cc := ci * ck
  let cs := ci * sk
  let sc := si * ck
  let ss := si * sk
  place axes.i axes.j axes.k
    (if axes.repetition then
      !![cj, sj * si, sj * ci;
         sj * sk, -cj * ss + cc, -cj * cs - sc;
         -sj * ck, cj * sc + cs, cj * cc - ss]
    else
      !![cj * ck, sj * sc - cs, sj * cc + ss;
         cj * sk, sj * ss + cc, sj * cs - sc;
         -sj, cj * si, cj * ci])

/-- `math.atan2`. -/
def atan2 (y x : ℝ) : ℝ := Complex.arg ⟨x, y⟩

/-- `euler_from_matrix`, `/repo/pvtrace/geometry/transformations.py:1124-1179`. -/
def eulerFromMatrix (M : Mat) (axes : Axes) : ℝ × ℝ × ℝ :=
  let i := axes.i
  let j := axes.j
  let k := axes.k
  let (ax, ay, az) :=
    if axes.repetition then
      let sy := Real.sqrt (M i j * M i j + M i k * M i k)
      if sy > eps then (atan2 (M i j) (M i k), atan2 sy (M i i), atan2 (M j i) (-M k i))
      else (atan2 (-M j k) (M j j), atan2 sy (M i i), 0)
    else
      let cy := Real.sqrt (M i i * M i i + M j i * M j i)
      if cy > eps then (atan2 (M k j) (M k k), atan2 (-M k i) cy, atan2 (M j i) (M i i))
      else (atan2 (-M j k) (M j j), atan2 (-M k i) cy, 0)
  let (ax, ay, az) := if axes.parity then (-ax, -ay, -az) else (ax, ay, az)
  if axes.frame then (az, ay, ax) else (ax, ay, az)

/-- `quaternion_from_euler`, `/repo/pvtrace/geometry/transformations.py:1193-1247`. -/
def quaternionFromEuler (ai aj ak : ℝ) (axes : Axes) : Quat :=
  let (ai, ak) := if axes.frame then (ak, ai) else (ai, ak)
  let aj := if axes.parity then -aj else aj
  let ci := Real.cos (ai / 2)
  let si := Real.sin (ai / 2)
  let cj := Real.cos (aj / 2)
  let sj := Real.sin (aj / 2)
  let ck := Real.cos (ak / 2)
  let sk := Real.sin (ak / 2)
  let cc := ci * ck
  let cs := ci * sk
  let sc := si * ck
  let ss := si * sk
  let (q0, qi, qj, qk) :=
    if axes.repetition then (cj * (cc - ss), cj * (cs + sc), sj * (cc + ss), sj * (cs - sc))
    else (cj * cc + sj * ss, cj * sc - sj * cs, cj * ss + sj * cc, cj * cs - sj * sc)
  let qj := if axes.parity then qj * -1 else qj
  fun a => if a = 0 then q0 else if a = axes.i.succ then qi else if a = axes.j.succ then qj else qk

/-- `numpy.dot(q, q)`. -/
def normSq (q : Quat) : ℝ := q 0 * q 0 + q 1 * q 1 + q 2 * q 2 + q 3 * q 3

/-- `quaternion_about_axis`, `/repo/pvtrace/geometry/transformations.py:1250-1263`. -/
def quaternionAboutAxis (angle : ℝ) (axis : Vec3 ℝ) : Quat :=
  let qlen := Real.sqrt (normSq ![0, axis.x, axis.y, axis.z])
  let s := if qlen > eps then Real.sin (angle / 2) / qlen else 1
  ![Real.cos (angle / 2), axis.x * s, axis.y * s, axis.z * s]

/-- `quaternion_matrix`, `/repo/pvtrace/geometry/transformations.py:1266-1293`. -/
def quaternionMatrix (q : Quat) : Mat :=
  let n := normSq q
  if n < eps then 1
  else
    let p : Quat := fun a => q a * Real.sqrt (2 / n)
    let o : Fin 4 → Fin 4 → ℝ := fun a b => p a * p b
    !![1 - o 2 2 - o 3 3, o 1 2 - o 3 0, o 1 3 + o 2 0;
       o 1 2 + o 3 0, 1 - o 1 1 - o 3 3, o 2 3 - o 1 0;
       o 1 3 - o 2 0, o 2 3 + o 1 0, 1 - o 1 1 - o 2 2]

/-- The 4 x 4 matrix of a rotation, as `quaternion_from_matrix` indexes it. -/
def full (M : Mat) : Fin 4 → Fin 4 → ℝ := fun a b =>
  if h : a.val < 3 ∧ b.val < 3 then M ⟨a, h.1⟩ ⟨b, h.2⟩ else if a = b then 1 else 0

/-- `quaternion_from_matrix(M, isprecise=True)`, `/repo/pvtrace/geometry/transformations.py:1330-1351,1376-1378`. `junk` is what
`numpy.empty` leaves in the array; `none` is the `ZeroDivisionError` or `ValueError` of `0.5 / math.sqrt(t * M[3, 3])`. -/
def quaternionFromMatrixPrecise (junk : Quat) (M' : Mat) : Option Quat :=
  let M := full M'
  let t := M 0 0 + M 1 1 + M 2 2 + M 3 3
  let (q, t) : Quat × ℝ :=
    if t > M 3 3 then (![t, M 2 1 - M 1 2, M 0 2 - M 2 0, M 1 0 - M 0 1], t)
    else
      let ijk : Fin 4 × Fin 4 × Fin 4 := if M 1 1 > M 0 0 then (2, 3, 1) else (1, 2, 3)
      let ijk : Fin 4 × Fin 4 × Fin 4 := if M 2 2 > M ijk.1 ijk.1 then (3, 1, 2) else ijk
      let i := ijk.1
      let j := ijk.2.1
      let k := ijk.2.2
      let t := M i i - (M j j + M k k) + M 3 3
      let q := Function.update junk i t
      let q := Function.update q j (M i j + M j i)
      let q := Function.update q k (M k i + M i k)
      let q := Function.update q 3 (M k j - M j k)
      (q, t)
  if t * M 3 3 ≤ 0 then none
  else
    let q : Quat := fun a => q a * (0.5 / Real.sqrt (t * M 3 3))
    some (if q 0 < 0 then -q else q)

/-- The symmetric matrix `K` (of which `eigh` reads the lower half), `/repo/pvtrace/geometry/transformations.py:1362-1371`. -/
def kMatrix (M : Mat) : Matrix (Fin 4) (Fin 4) ℝ :=
  let a := M 0 1 + M 1 0
  let b := M 0 2 + M 2 0
  let c := M 1 2 + M 2 1
  let d := M 2 1 - M 1 2
  let e := M 0 2 - M 2 0
  let f := M 1 0 - M 0 1
  !![(M 0 0 - M 1 1 - M 2 2) / 3, a / 3, b / 3, d / 3;
     a / 3, (M 1 1 - M 0 0 - M 2 2) / 3, c / 3, e / 3;
     b / 3, c / 3, (M 2 2 - M 0 0 - M 1 1) / 3, f / 3;
     d / 3, e / 3, f / 3, (M 0 0 + M 1 1 + M 2 2) / 3]

/-- `quaternion_from_matrix(M)`, `/repo/pvtrace/geometry/transformations.py:1372-1378`, given the eigenvector `v` that
`numpy.linalg.eigh` returns for the largest eigenvalue of `K`. -/
def quaternionFromMatrix (v : Quat) : Quat :=
  let q : Quat := ![v 3, v 0, v 1, v 2]
  if q 0 < 0 then -q else q

/-- `quaternion_multiply`, `/repo/pvtrace/geometry/transformations.py:1381-1399`. -/
def quaternionMultiply (q1 q0 : Quat) : Quat :=
  ![-q1 1 * q0 1 - q1 2 * q0 2 - q1 3 * q0 3 + q1 0 * q0 0,
    q1 1 * q0 0 + q1 2 * q0 3 - q1 3 * q0 2 + q1 0 * q0 1,
    -q1 1 * q0 3 + q1 2 * q0 0 + q1 3 * q0 1 + q1 0 * q0 2,
    q1 1 * q0 2 - q1 2 * q0 1 + q1 3 * q0 0 + q1 0 * q0 3]

/-- `quaternion_conjugate`, `/repo/pvtrace/geometry/transformations.py:1402-1413`. -/
def quaternionConjugate (q : Quat) : Quat := ![q 0, -q 1, -q 2, -q 3]

/-- `quaternion_inverse`, `/repo/pvtrace/geometry/transformations.py:1416-1427`. -/
def quaternionInverse (q : Quat) : Quat :=
  let p := quaternionConjugate q
  fun a => p a / normSq p

/-- `unit_vector` of four numbers; four zeros, which give `nan`, are mapped to zeros. -/
def unitQuat (q : Quat) : Quat := fun a => q a / Real.sqrt (normSq q)

/-- `quaternion_slerp`, `/repo/pvtrace/geometry/transformations.py:1450-1488`. -/
def quaternionSlerp (quat0 quat1 : Quat) (fraction : ℝ) (spin : ℤ) (shortest : Bool) : Quat :=
  let q0 := unitQuat quat0
  let q1 := unitQuat quat1
  if fraction = 0 then q0
  else if fraction = 1 then q1
  else
    let d := q0 0 * q1 0 + q0 1 * q1 1 + q0 2 * q1 2 + q0 3 * q1 3
    if |(|d| - 1)| < eps then q0
    else
      let (d, q1) := if shortest ∧ d < 0 then (-d, -q1) else (d, q1)
      let angle := Real.arccos d + spin * Real.pi
      if |angle| < eps then q0
      else
        let isin := 1 / Real.sin angle
        fun a => q0 a * (Real.sin ((1 - fraction) * angle) * isin) + q1 a * (Real.sin (fraction * angle) * isin)

/-- `random_quaternion`, `/repo/pvtrace/geometry/transformations.py:1491-1517`, given its three random numbers. -/
def randomQuaternion (a b c : ℝ) : Quat :=
  let r1 := Real.sqrt (1 - a)
  let r2 := Real.sqrt a
  let t1 := Real.pi * 2 * b
  let t2 := Real.pi * 2 * c
  ![Real.cos t2 * r2, Real.sin t1 * r1, Real.cos t1 * r1, Real.sin t2 * r2]

/-- What `decompose_matrix` returns; the perspective is that of the identity for the matrices of positions and directions. -/
structure Parts where
  scale : Fin 3 → ℝ
  shear : Fin 3 → ℝ
  angles : Fin 3 → ℝ
  translate : Fin 3 → ℝ

/-- `numpy.dot` of two rows. -/
def dot3 (a b : Fin 3 → ℝ) : ℝ := a 0 * b 0 + a 1 * b 1 + a 2 * b 2

/-- `numpy.cross`. -/
def cross3 (a b : Fin 3 → ℝ) : Fin 3 → ℝ := ![a 1 * b 2 - a 2 * b 1, a 2 * b 0 - a 0 * b 2, a 0 * b 1 - a 1 * b 0]

/-- `decompose_matrix`, `/repo/pvtrace/geometry/transformations.py:731-813`, for a matrix whose last row is 0, 0, 0, 1: `A` is the
3 x 3 block and `t` the last column. `none` is the `ValueError` for a singular matrix. The test `if math.cos(angles[1])` is true
for every float: the cosine of the float next to pi / 2 is 6.1e-17, so the branch for the cosine 0 is never taken. -/
def decomposeMatrix (A : Mat) (t : Fin 3 → ℝ) : Option Parts :=
  let M := A.transpose
  if dot3 (M 0) (cross3 (M 1) (M 2)) = 0 then none
  else
    let s0 := Real.sqrt (dot3 (M 0) (M 0))
    let r0 : Fin 3 → ℝ := fun a => M 0 a / s0
    let h0 := dot3 r0 (M 1)
    let r1 : Fin 3 → ℝ := fun a => M 1 a - r0 a * h0
    let s1 := Real.sqrt (dot3 r1 r1)
    let r1 : Fin 3 → ℝ := fun a => r1 a / s1
    let h0 := h0 / s1
    let h1 := dot3 r0 (M 2)
    let r2 : Fin 3 → ℝ := fun a => M 2 a - r0 a * h1
    let h2 := dot3 r1 r2
    let r2 : Fin 3 → ℝ := fun a => r2 a - r1 a * h2
    let s2 := Real.sqrt (dot3 r2 r2)
    let r2 : Fin 3 → ℝ := fun a => r2 a / s2
    let h1 := h1 / s2
    let h2 := h2 / s2
    let flip := dot3 r0 (cross3 r1 r2) < 0
    let scale : Fin 3 → ℝ := if flip then ![-s0, -s1, -s2] else ![s0, s1, s2]
    let row : Fin 3 → Fin 3 → ℝ := if flip then ![-r0, -r1, -r2] else ![r0, r1, r2]
    let a1 := Real.arcsin (-row 0 2)
    some ⟨scale, ![h0, h1, h2], ![atan2 (row 1 2) (row 2 2), a1, atan2 (row 0 1) (row 0 0)], t⟩

/-- `compose_matrix`, `/repo/pvtrace/geometry/transformations.py:816-867`, without perspective: the 3 x 3 block and the last
column. -/
def composeMatrix (p : Parts) : Mat × (Fin 3 → ℝ) :=
  let R := eulerMatrix (p.angles 0) (p.angles 1) (p.angles 2) ⟨0, false, false, false⟩
  let Z : Mat := !![1, p.shear 0, p.shear 1; 0, 1, p.shear 2; 0, 0, 1]
  let S : Mat := !![p.scale 0, 0, 0; 0, p.scale 1, 0; 0, 0, p.scale 2]
  (R * Z * S, p.translate)

end
end PV.Rotations
