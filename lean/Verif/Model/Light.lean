import Verif.Model.Dist
import Verif.Model.Phase
import Verif.Model.Recorder
import Mathlib.Data.Nat.Digits.Defs

/-!
Lights and colours: `/repo/pvtrace/light/light.py`, `/repo/pvtrace/light/utils.py` and the vectorised
emission of `/repo/pvtrace/engine/emit.py`.
-/

namespace PV.Light

/-! ### Colours -/

section Colour
variable {α : Type} [Field α] [LinearOrder α] [FloorRing α]

/-- The colour before the intensity correction, `/repo/pvtrace/light/utils.py:27-40`. -/
def hue (w : ℤ) : α × α × α :=
  if w ≥ 380 ∧ w < 440 then (-((w : α) - 440) / (440 - 350), 0, 1)
  else if w ≥ 440 ∧ w < 490 then (0, ((w : α) - 440) / (490 - 440), 1)
  else if w ≥ 490 ∧ w < 510 then (0, 1, -((w : α) - 510) / (510 - 490))
  else if w ≥ 510 ∧ w < 580 then (((w : α) - 510) / (580 - 510), 1, 0)
  else if w ≥ 580 ∧ w < 645 then (1, -((w : α) - 645) / (645 - 580), 0)
  else if w ≥ 645 ∧ w ≤ 780 then (1, 0, 0)
  else (0, 0, 0)

/-- The intensity correction, `/repo/pvtrace/light/utils.py:42-51`. -/
def intensity (w : ℤ) : α :=
  let s : α :=
    if w ≥ 380 ∧ w < 420 then 3 / 10 + 7 / 10 * ((w : α) - 350) / (420 - 350)
    else if w ≥ 420 ∧ w ≤ 700 then 1
    else if w > 700 ∧ w ≤ 780 then 3 / 10 + 7 / 10 * (780 - (w : α)) / (780 - 700)
    else 0
  s * 255

/-- `wavelength_to_rgb`, `/repo/pvtrace/light/utils.py:7-53`. Simplification: exact arithmetic. -/
def wavelengthToRgb (nanometers : α) : ℤ × ℤ × ℤ :=
  let w := truncZ nanometers
  let c : α × α × α := hue w
  let s : α := intensity w
  (truncZ (s * c.1), truncZ (s * c.2.1), truncZ (s * c.2.2))

/-- `clamp`, `/repo/pvtrace/light/utils.py:79-80`. -/
def clamp (x : ℤ) : ℤ := max 0 (min x 255)

/-- The digits of `"{:02x}".format(n)`: hexadecimal digits, padded with zeros to two places. -/
def hexDigits (n : ℕ) : List ℕ :=
  let d := (Nat.digits 16 n).reverse
  List.replicate (2 - d.length) 0 ++ d

/-- `rgb_to_hex_int`, `/repo/pvtrace/light/utils.py:56-84`: the digits of the three clamped channels
are written one after the other and read back as one hexadecimal number. -/
def rgbToHexInt (rgb : ℤ × ℤ × ℤ) : ℕ :=
  (hexDigits (clamp rgb.1).toNat ++ hexDigits (clamp rgb.2.1).toNat ++
    hexDigits (clamp rgb.2.2).toNat).foldl (fun n d => 16 * n + d) 0

/-- `wavelength_to_hex_int`, `/repo/pvtrace/light/utils.py:87-88`. -/
def wavelengthToHexInt (nanometers : α) : ℕ := rgbToHexInt (wavelengthToRgb nanometers)

end Colour

/-! ### Emission, one ray at a time -/

noncomputable section

/-- The numbers `np.random` is going to return, each in `[0, 1)` before scaling. -/
abbrev Draws := ℕ → ℝ

/-- The next number of a sequence. -/
def draws : Rand Draws := ⟨fun s => (s 0, fun k => s (k + 1))⟩

/-- `np.random.uniform(low, high)`. -/
def uniform (low high : ℝ) (s : Draws) : ℝ × Draws :=
  let (u, s) := draws.next s
  (low + (high - low) * u, s)

/-- `rectangular_mask`, `/repo/pvtrace/light/light.py:60-61`. -/
def rectangularMask (X Y : ℝ) (s : Draws) : Vec3 ℝ × Draws :=
  let (x, s) := uniform (-X) X s
  let (y, s) := uniform (-Y) Y s
  (⟨x, y, 0⟩, s)

/-- `circular_mask`, `/repo/pvtrace/light/light.py:64-69`. -/
def circularMask (radius : ℝ) (s : Draws) : Vec3 ℝ × Draws :=
  let (rads, s) := uniform 0 (2 * Real.pi) s
  let (u, s) := uniform 0 1 s
  let r := Real.sqrt u * radius
  (⟨r * Real.cos rads, r * Real.sin rads, 0⟩, s)

/-- `cube_mask`, `/repo/pvtrace/light/light.py:72-77`. -/
def cubeMask (X Y Z : ℝ) (s : Draws) : Vec3 ℝ × Draws :=
  let (x, s) := uniform (-X) X s
  let (y, s) := uniform (-Y) Y s
  let (z, s) := uniform (-Z) Z s
  (⟨x, y, z⟩, s)

/-- Wavelength delegates, `/repo/pvtrace/light/light.py:48-49, 80-118`. A wavelength `none` is
`nan`. -/
inductive Wave
  | default
  | constant (nanometers : ℝ)
  | spectrum (D : Dist ℝ)
  | custom (f : Draws → Except Err (Option ℝ × Draws))

/-- Position delegates, `/repo/pvtrace/light/light.py:52-77, 87-92, 121-157`. -/
inductive Place
  | default
  | rect (x y : ℝ)
  | circle (radius : ℝ)
  | cube (x y z : ℝ)
  | custom (f : Draws → Except Err (Vec3 ℝ × Draws))

/-- Direction delegates, `/repo/pvtrace/light/light.py:56-57, 94-98` and the phase functions. -/
inductive Aim
  | default
  | phase (P : Phase)
  | custom (f : Draws → Except Err (Vec3 ℝ × Draws))

/-- `self.wavelength()`. -/
def Wave.call (s : Draws) : Wave → Except Err (Option ℝ × Draws)
  | .default => .ok (some 555, s)
  | .constant nm => .ok (some nm, s)
  | .spectrum D =>
    let (p, s) := uniform 0 1 s
    match D.sample p with
    | .error e => .error e
    | .ok nm => .ok (nm, s)
  | .custom f => f s

/-- `self.position()`. -/
def Place.call (s : Draws) : Place → Except Err (Vec3 ℝ × Draws)
  | .default => .ok (⟨0, 0, 0⟩, s)
  | .rect x y => .ok (rectangularMask x y s)
  | .circle r => .ok (circularMask r s)
  | .cube x y z => .ok (cubeMask x y z s)
  | .custom f => f s

/-- `self.direction()`. -/
def Aim.call (s : Draws) : Aim → Except Err (Vec3 ℝ × Draws)
  | .default => .ok (⟨0, 0, 1⟩, s)
  | .phase P => P.draw draws s
  | .custom f => f s

/-- `Light`, `/repo/pvtrace/light/light.py:196-229`, with the transformation from its node to the
root. -/
structure Lamp where
  wavelength : Wave
  position : Place
  direction : Aim
  name : String
  toRoot : Affine ℝ

/-- A new ray: wavelength, position, direction and source. -/
structure Emitted where
  wavelength : Option ℝ
  position : Vec3 ℝ
  direction : Vec3 ℝ
  source : String

/-- One ray of `Light.emit` in the frame of the light, `/repo/pvtrace/light/light.py:248-255`. -/
def Lamp.one (L : Lamp) (s : Draws) : Except Err (Emitted × Draws) :=
  match L.wavelength.call s with
  | .error e => .error e
  | .ok (nm, s) =>
    match L.position.call s with
    | .error e => .error e
    | .ok (p, s) =>
      match L.direction.call s with
      | .error e => .error e
      | .ok (d, s) => .ok (⟨nm, p, d, L.name⟩, s)

/-- `ray.representation(node, scene.root)`, `/repo/pvtrace/light/ray.py:75-95`. -/
def Emitted.representation (r : Emitted) (m : Affine ℝ) : Emitted :=
  { r with position := m.point r.position, direction := m.vec r.direction }

/-- The loop of `Light.emit`, `/repo/pvtrace/light/light.py:241-262`. -/
def emitLoop {ρ σ : Type} (one : σ → Except Err (ρ × σ)) (numRays count : ℤ) (s : σ) :
    Except Err (List ρ × σ) :=
  if count + 1 > numRays then .ok ([], s)
  else
    match one s with
    | .error e => .error e
    | .ok (ray, s) =>
      match emitLoop one numRays (count + 1) s with
      | .error e => .error e
      | .ok (rays, s) => .ok (ray :: rays, s)
termination_by (numRays - count).toNat
decreasing_by omega

/-- `Light.emit(num_rays)` read to its end, `/repo/pvtrace/light/light.py:231-262`. -/
def emit {ρ σ : Type} (one : σ → Except Err (ρ × σ)) (numRays : Option ℤ) (s : σ) :
    Except Err (List ρ × σ) :=
  match numRays with
  | none => .ok ([], s)
  | some n => if n = 0 then .ok ([], s) else emitLoop one n 0 s

/-! ### Emission of a bundle -/

/-- `np.random.uniform(low, high, n)`. -/
def uniformN (low high : ℝ) (n : ℕ) (s : Draws) : (ℕ → ℝ) × Draws :=
  (fun k => low + (high - low) * s k, fun k => s (k + n))

/-- One value per row; the first row that fails raises. -/
def rowsM {β : Type} (n : ℕ) (f : ℕ → Except Err β) : Except Err (List β) := (List.range n).mapM f

/-- `_sample_wavelengths`, `/repo/pvtrace/engine/emit.py:22-34`; `none` is Python's `None`. -/
def sampleWavelengths (n : ℕ) (s : Draws) : Wave → Option (Except Err (List (Option ℝ) × Draws))
  | .default => some (.ok (List.replicate n (some 555), s))
  | .constant nm => some (.ok (List.replicate n (some nm), s))
  | .spectrum D =>
    let (p, s) := uniformN 0 1 n s
    some <| match rowsM n (fun k => D.sample (p k)) with
      | .error e => .error e
      | .ok nms => .ok (nms, s)
  | .custom _ => none

/-- `_sample_positions`, `/repo/pvtrace/engine/emit.py:37-61`. -/
def samplePositions (n : ℕ) (s : Draws) : Place → Option (List (Vec3 ℝ) × Draws)
  | .default => some (List.replicate n ⟨0, 0, 0⟩, s)
  | .rect X Y =>
    let (x, s) := uniformN (-X) X n s
    let (y, s) := uniformN (-Y) Y n s
    some ((List.range n).map fun k => ⟨x k, y k, 0⟩, s)
  | .circle R =>
    let (angle, s) := uniformN 0 (2 * Real.pi) n s
    let (u, s) := uniformN 0 1 n s
    let radius := fun k => Real.sqrt (u k) * R
    some ((List.range n).map fun k =>
      ⟨radius k * Real.cos (angle k), radius k * Real.sin (angle k), 0⟩, s)
  | .cube X Y Z =>
    let (x, s) := uniformN (-X) X n s
    let (y, s) := uniformN (-Y) Y n s
    let (z, s) := uniformN (-Z) Z n s
    some ((List.range n).map fun k => ⟨x k, y k, z k⟩, s)
  | .custom _ => none

/-- `_sphere_directions`, `/repo/pvtrace/engine/emit.py:15-19`. -/
def sphereDirections (n : ℕ) (theta phi : ℕ → ℝ) : List (Vec3 ℝ) :=
  (List.range n).map fun k =>
    ⟨Real.sin (theta k) * Real.cos (phi k), Real.sin (theta k) * Real.sin (phi k),
      Real.cos (theta k)⟩

/-- The branch `delegate is isotropic`, `/repo/pvtrace/engine/emit.py:74-77`. -/
def sampleIsotropic (n : ℕ) (s : Draws) : List (Vec3 ℝ) × Draws :=
  let (u, s) := uniformN 0 1 n s
  let (v, s) := uniformN 0 1 n s
  (sphereDirections n (fun k => Real.arccos (2 * v k - 1)) (fun k => 2 * Real.pi * u k), s)

open Classical in
/-- `_sample_directions`, `/repo/pvtrace/engine/emit.py:64-91`. Simplification: a cosine outside
`[-1, 1]` or a division by zero (`|g| ≥ 1`) gives `nan` in numpy; that value is not represented. -/
def sampleDirections (n : ℕ) (s : Draws) : Aim → Option (List (Vec3 ℝ) × Draws)
  | .default => some (List.replicate n ⟨0, 0, 1⟩, s)
  | .phase (.cone t) =>
    let (u, s) := uniformN 0 1 n s
    let (v, s) := uniformN 0 1 n s
    some (sphereDirections n (fun k => Real.arcsin (Real.sqrt (u k) * Real.sin t))
      (fun k => 2 * Real.pi * v k), s)
  | .phase .isotropic => some (sampleIsotropic n s)
  | .phase .lambertian =>
    let (u, s) := uniformN 0 1 n s
    let (v, s) := uniformN 0 1 n s
    some (sphereDirections n (fun k => Real.arcsin (Real.sqrt (u k)))
      (fun k => 2 * Real.pi * v k), s)
  | .phase (.henyeyGreenstein g) =>
    if |g| < 1e-12 then some (sampleIsotropic n s)
    else
      let (u, s) := uniformN 0 1 n s
      let z := fun k => 2 * u k - 1
      let mu := fun k => (1 + g * g - ((1 - g * g) / (1 + g * z k)) ^ 2) / (2 * g)
      let (v, s) := uniformN 0 1 n s
      some (sphereDirections n (fun k => Real.arccos (mu k)) (fun k => 2 * Real.pi * v k), s)
  | .custom _ => none

/-- The rows of one light in `emit_bundle`, `/repo/pvtrace/engine/emit.py:105-134`, in the frame of
the root. -/
def Lamp.bundle (L : Lamp) (n : ℕ) (s : Draws) : Except Err (List Emitted × Draws) :=
  if n = 0 then .ok ([], s)
  else
    match sampleWavelengths n s L.wavelength with
    | some (.error e) => .error e
    | wav =>
      let s1 := match wav with | some (.ok w) => w.2 | _ => s
      let pos := samplePositions n s1 L.position
      let s2 := match pos with | some p => p.2 | none => s1
      let dir := sampleDirections n s2 L.direction
      let s3 := match dir with | some d => d.2 | none => s2
      match wav, pos, dir with
      | some (.ok w), some p, some d =>
        .ok ((List.zipWith (fun nm (pd : Vec3 ℝ × Vec3 ℝ) =>
          ⟨nm, L.toRoot.point pd.1, L.toRoot.vec pd.2, L.name⟩) w.1 (p.1.zip d.1)), s3)
      | _, _, _ =>
        match emit L.one (some n) s3 with
        | .error e => .error e
        | .ok (rays, s) => .ok (rays.map fun r => r.representation L.toRoot, s)

end

end PV.Light
