import Verif.Model.Tracer
import Mathlib.Algebra.Order.Field.Rat

/-!
`/repo/tests/test_refractored_tracer.py`, run against the model of the tracer: boxes one unit wide in a
world of radius 10, a ray on the `z` axis and the numbers `np.random.seed(0)` gives. Along the axis all
geometry is known, so the functions handed to the tracer are written down with rational values.
-/

namespace PV.Tests
open PV

/-- Numbers of `np.random.uniform()` after `np.random.seed(0)`. -/
def seed0 : List ℚ :=
  [0.5488135039273248, 0.7151893663724195, 0.6027633760716439, 0.5448831829968969, 0.4236547993389047,
   0.6458941130666561]

/-- A scene on the `z` axis: node 0 is the world sphere, node `i + 1` a box of height 1 about the height
`i` with the given refractive index. -/
structure Axis where
  glass : List ℚ
  /-- Absorption length for the first number, when the boxes hold an absorber or reactor of coefficient
  10: `-log(1 - u) / 10` with `u = 0.7151893663724195`. -/
  depth : Option ℚ := none
  kind : CompKind := .absorber

/-- Where the axis meets each object, lowest first; touching boxes give two intersections at one height. -/
def Axis.faces (A : Axis) : List (ℕ × ℚ) :=
  ((0, -10) :: (List.range A.glass.length).flatMap fun i : ℕ =>
    [(i + 1, (i : ℚ) - 1 / 2), (i + 1, (i : ℚ) + 1 / 2)]) ++ [(0, 10)]

/-- `scene.intersections` for a ray on the axis. -/
def Axis.intersections (A : Axis) (p d : Vec3 ℚ) : List (Inter ℕ ℚ) :=
  sortedBy (·.dist) ((A.faces.map fun f => (⟨f.1, ⟨0, 0, f.2⟩, d.z * (f.2 - p.z)⟩ : Inter ℕ ℚ)).filter
    fun x => 0 ≤ x.dist)

def Axis.index (A : Axis) : ℕ → ℚ
  | 0 => 1
  | i + 1 => A.glass.getD i 1

/-- The next number. -/
def draw : List ℚ → ℚ × List ℚ
  | [] => (0, [])
  | u :: us => (u, us)

def Axis.ops (A : Axis) : Ops ℚ ℕ Unit (List ℚ) where
  root := 0
  name := fun _ => ""
  eps := 1 / 10 ^ 9
  distBetween p q := |p.z - q.z|
  intersections p d := .ok (A.intersections p d)
  refractiveIndex := A.index
  penetrationDepth v _ s :=
    if v = 0 then .ok (none, s) else match A.depth with
      | none => .ok (none, s)
      | some d => .ok (some d, (draw s).2)
  component _ _ s := .ok ((), (draw s).2)
  compName _ := ""
  compKind _ := A.kind
  isRadiative _ _ s := .ok (false, s)
  emit _ _ r s := .ok (r, s)
  nonradiativeAbsorb _ r s := .ok (r, s)
  normal _ _ := .ok ⟨0, 0, 1⟩
  isReflected _ c a _ s :=
    let r := ((A.index c - A.index (a.getD 0)) / (A.index c + A.index (a.getD 0))) ^ 2
    if r = 0 then .ok (false, s) else .ok (decide ((draw s).1 < r), (draw s).2)
  reflect _ _ _ r s := .ok ({ r with direction := ⟨0, 0, -r.direction.z⟩ }, s)
  transmit _ _ _ r s := .ok (r, s)

def start : Ray ℚ := ⟨⟨0, 0, -1⟩, ⟨0, 0, 1⟩, 555, 0, 0, none⟩

/-- Heights and events of `photon_tracer.follow(scene, ray)`, with its default `maxsteps`. -/
def heights (A : Axis) : Option (List (ℚ × Event)) :=
  match follow A.ops 1000 none start seed0 with
  | .ok l => some (l.map fun e => (e.1.position.z, e.2))
  | .error _ => none

theorem follow_embedded_scene_1 : heights ⟨[1.5], none, .absorber⟩ =
    some [(-1, .generate), (-0.5, .transmit), (0.5, .transmit), (10, .exit)] := by decide +kernel

theorem follow_embedded_scene_2 : heights ⟨[100], none, .absorber⟩ =
    some [(-1, .generate), (-0.5, .reflect), (-10, .exit)] := by decide +kernel

theorem follow_lossy_embedded_scene_1 : heights ⟨[1.5], some 0.1255930762965882, .absorber⟩ =
    some [(-1, .generate), (-0.5, .transmit), (-0.3744069237034118, .absorb),
      (-0.3744069237034118, .nonradiative)] := by decide +kernel

theorem follow_lossy_embedded_scene_w_reactor : heights ⟨[1.5], some 0.1255930762965882, .reactor⟩ =
    some [(-1, .generate), (-0.5, .transmit), (-0.3744069237034118, .absorb),
      (-0.3744069237034118, .react)] := by decide +kernel

/-- Three touching boxes: each pair of faces at one height counts once. -/
theorem follow_touching_scene : heights ⟨[1.5, 1.5, 1.5], none, .absorber⟩ =
    some [(-1, .generate), (-0.5, .transmit), (0.5, .transmit), (1.5, .transmit), (2.5, .transmit),
      (10, .exit)] := by decide +kernel

theorem touching_scene_intersections :
    ((⟨[1.5, 1.5, 1.5], none, .absorber⟩ : Axis).intersections ⟨0, 0, -1⟩ ⟨0, 0, 1⟩).map (·.hit) =
      [1, 1, 2, 2, 3, 3, 0] := by decide +kernel

/-- `find_container` for an upward ray at the height `z`. -/
def containerAt (A : Axis) (z : ℚ) : Option ℕ :=
  match findContainer (A.intersections ⟨0, 0, z⟩ ⟨0, 0, 1⟩) with
  | .ok v => some v
  | .error _ => none

theorem find_container_embedded_scene :
    [-1, -0.4, 0.6].map (containerAt ⟨[1.5], none, .absorber⟩) = [some 0, some 1, some 0] := by
  decide +kernel

theorem find_container_touching_scene :
    [-1, -0.4, 0.6, 1.6, 2.6].map (containerAt ⟨[1.5, 1.5, 1.5], none, .absorber⟩) =
      [some 0, some 1, some 2, some 3, some 0] := by decide +kernel

end PV.Tests
