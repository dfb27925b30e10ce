import Verif.Model.Vec
import Mathlib.Analysis.SpecialFunctions.Trigonometric.Inverse

/-!
Fresnel optics: `/repo/pvtrace/material/utils.py:8-45`, the surface delegates of
`/repo/pvtrace/material/surface.py:79-177`, and their counterparts in
`/repo/pvtrace/engine/_kernel.pyx:406-446`. `none` stands for `nan`.
-/

namespace PV
noncomputable section
open Classical in
/-- `fresnel_reflectivity`, `/repo/pvtrace/material/utils.py:8-22`. -/
def fresnelR (angle n1 n2 : ℝ) : Option ℝ :=
  if n2 < n1 ∧ angle > Real.arcsin (n2 / n1) then some 1
  else
    let c := Real.cos angle
    let s := Real.sin angle
    let q := 1 - (n1 / n2 * s) ^ 2
    if q < 0 then none
    else
      let k := Real.sqrt q
      let rs1 := n1 * c - n2 * k
      let rs2 := n1 * c + n2 * k
      let rp1 := n1 * k - n2 * c
      let rp2 := n1 * k + n2 * c
      if rs2 = 0 ∨ rp2 = 0 then none
      else some (0.5 * ((rs1 / rs2) ^ 2 + (rp1 / rp2) ^ 2))

open Classical in
/-- The normal flipped to point along the ray: `/repo/pvtrace/material/surface.py:126-128,173-175`,
`/repo/pvtrace/material/utils.py:28-29`. -/
def along (normal direction : Vec3 ℝ) : Vec3 ℝ :=
  if normal.dot direction < 0 then -normal else normal

/-- `specular_reflection`, `/repo/pvtrace/material/utils.py:25-32`. -/
def specular (direction normal : Vec3 ℝ) : Vec3 ℝ :=
  let normal := along normal direction
  let d := normal.dot direction
  direction - (2 * d) • normal

open Classical in
/-- `fresnel_refraction`, `/repo/pvtrace/material/utils.py:35-45`. -/
def refract (direction normal : Vec3 ℝ) (n1 n2 : ℝ) : Option (Vec3 ℝ) :=
  let n := n1 / n2
  let dot := direction.dot normal
  let q := 1 - n ^ 2 * (1 - dot ^ 2)
  if q < 0 then none
  else
    let c := Real.sqrt q
    let sign : ℝ := if dot < 0 then -1 else 1
    some (n • direction + (sign * (c - sign * n * dot)) • normal)

/-- `np.allclose(a, b)` for two 3-tuples: `|a - b| <= atol + rtol * |b|` with `rtol = 1e-5`,
`atol = 1e-8`. -/
def allclose (a b : Vec3 ℝ) : Prop :=
  |a.x - b.x| ≤ 1e-8 + 1e-5 * |b.x| ∧ |a.y - b.y| ≤ 1e-8 + 1e-5 * |b.y| ∧
    |a.z - b.z| ≤ 1e-8 + 1e-5 * |b.z|

open Classical in
/-- `angle_between`, `/repo/pvtrace/geometry/utils.py:399-407`. -/
def angleBetween (normal vector : Vec3 ℝ) : ℝ :=
  if allclose normal vector then 0
  else if allclose (-normal) vector then Real.pi
  else Real.arccos (normal.dot vector)

/-- `FresnelSurfaceDelegate.reflectivity`, `/repo/pvtrace/material/surface.py:122-131`. -/
def pyReflectivity (normal direction : Vec3 ℝ) (n1 n2 : ℝ) : Option ℝ :=
  fresnelR (angleBetween (along normal direction) direction) n1 n2

/-- `FresnelSurfaceDelegate.transmitted_direction`,
`/repo/pvtrace/material/surface.py:170-177`. -/
def pyTransmit (normal direction : Vec3 ℝ) (n1 n2 : ℝ) : Option (Vec3 ℝ) :=
  refract direction (along normal direction) n1 n2

open Classical in
/-- `Surface.is_reflected`, `/repo/pvtrace/material/surface.py:231-240`, given the reflectivity
(`none` is `nan`) and the number `u` drawn if one is needed. The second component tells whether a
number is drawn: `nan == 0.0` is false, so it is for `nan`. -/
def isReflected (r : Option ℝ) (u : ℝ) : Bool × Bool :=
  match r with
  | none => (false, true)
  | some r => if r = 0 then (false, false) else (decide (u < r), true)

open Classical in
/-- C `fresnel_reflectivity`, `/repo/pvtrace/engine/_kernel.pyx:406-419`. -/
def kFresnelR (angle n1 n2 : ℝ) : Option ℝ :=
  if n2 < n1 ∧ angle > Real.arcsin (n2 / n1) then some 1
  else
    let c := Real.cos angle
    let s := Real.sin angle
    let q := 1 - (n1 / n2 * s) ^ 2
    if q < 0 then none
    else
      let k := Real.sqrt q
      let rs1 := n1 * c - n2 * k
      let rs2 := n1 * c + n2 * k
      let rp1 := n1 * k - n2 * c
      let rp2 := n1 * k + n2 * c
      if rs2 = 0 ∨ rp2 = 0 then none
      else some (0.5 * ((rs1 / rs2) ^ 2 + (rp1 / rp2) ^ 2))

open Classical in
/-- `specular_reflect`, `/repo/pvtrace/engine/_kernel.pyx:422-433`. -/
def kSpecular (d normal : Vec3 ℝ) : Vec3 ℝ :=
  let n := if normal.dot d < 0 then -normal else normal
  let dd := n.dot d
  ⟨d.x - 2 * dd * n.x, d.y - 2 * dd * n.y, d.z - 2 * dd * n.z⟩

open Classical in
/-- `fresnel_refract`, `/repo/pvtrace/engine/_kernel.pyx:436-446`. -/
def kRefract (d normal : Vec3 ℝ) (n1 n2 : ℝ) : Option (Vec3 ℝ) :=
  let n := n1 / n2
  let dd := d.dot normal
  let q := 1 - n * n * (1 - dd * dd)
  if q < 0 then none
  else
    let c := Real.sqrt q
    let sign : ℝ := if dd < 0 then -1 else 1
    let k := sign * (c - sign * n * dd)
    some ⟨n * d.x + k * normal.x, n * d.y + k * normal.y, n * d.z + k * normal.z⟩

open Classical in
/-- Normal flipped along the ray, `/repo/pvtrace/engine/_kernel.pyx:853-857`. -/
def kFlip (normal direction : Vec3 ℝ) : Vec3 ℝ :=
  if normal.dot direction < 0 then -normal else normal

open Classical in
/-- Incidence angle in the engine, `/repo/pvtrace/engine/_kernel.pyx:853-863`. -/
def kAngle (normal direction : Vec3 ℝ) : ℝ :=
  let ddot := (kFlip normal direction).dot direction
  Real.arccos (if ddot > 1 then 1 else if ddot < -1 then -1 else ddot)

/-- Reflectivity of a Fresnel surface in the engine, `/repo/pvtrace/engine/_kernel.pyx:866-869`. -/
def kReflectivity (normal direction : Vec3 ℝ) (n1 n2 : ℝ) : Option ℝ :=
  kFresnelR (kAngle normal direction) n1 n2

/-- Transmitted direction of a Fresnel surface in the engine,
`/repo/pvtrace/engine/_kernel.pyx:886-887`. -/
def kTransmit (normal direction : Vec3 ℝ) (n1 n2 : ℝ) : Option (Vec3 ℝ) :=
  kRefract direction (kFlip normal direction) n1 n2

open Classical in
/-- `u = 1.0; if r > 0.0: u = rng_uniform(...)`, then `u < r`,
`/repo/pvtrace/engine/_kernel.pyx:871-874`. Comparisons with `nan` are false. -/
def kIsReflected (r : Option ℝ) (u : ℝ) : Bool × Bool :=
  match r with
  | none => (false, false)
  | some r => if 0 < r then (decide (u < r), true) else (decide (1 < r), false)

end
end PV
