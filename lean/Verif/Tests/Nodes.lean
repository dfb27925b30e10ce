import Verif.Model.Transformable
import Verif.Model.Node
import Verif.Model.Simulate
import Mathlib.Algebra.Order.Field.Rat

/-!
`/repo/tests/test_node.py`, `test_scene.py`, `test_transformable.py`, run against the model.
-/

namespace PV.Tests
open PV
noncomputable section

/-! ### test_node.py -/

/-- A node moved and then turned by a right angle, as in `test_coodinate_system_conversions`. -/
def placed (v axis : Vec3 ℝ) : Except Err Tf :=
  (Tf.init none).run [.translate v true, .rotate (0.5 * Real.pi) axis]

/-- The same pose with rational entries. -/
def cast (m : Affine ℚ) : Affine ℝ :=
  ⟨⟨m.r0.x, m.r0.y, m.r0.z⟩, ⟨m.r1.x, m.r1.y, m.r1.z⟩, ⟨m.r2.x, m.r2.y, m.r2.z⟩, ⟨m.t.x, m.t.y, m.t.z⟩⟩

def poseB : Affine ℚ := ⟨⟨0, -1, 0⟩, ⟨1, 0, 0⟩, ⟨0, 0, 1⟩, ⟨1, 1, 1⟩⟩
def poseC : Affine ℚ := ⟨⟨1, 0, 0⟩, ⟨0, 0, -1⟩, ⟨0, 1, 0⟩, ⟨0, 1, 1⟩⟩
def poseD : Affine ℚ := ⟨⟨0, 0, 1⟩, ⟨0, 1, 0⟩, ⟨-1, 0, 0⟩, ⟨-1, -1, -1⟩⟩

theorem half_pi : Real.sin (0.5 * Real.pi) = 1 ∧ Real.cos (0.5 * Real.pi) = 0 := by
  rw [show (0.5 : ℝ) * Real.pi = Real.pi / 2 by ring]
  exact ⟨Real.sin_pi_div_two, Real.cos_pi_div_two⟩

local macro "pose" : tactic => `(tactic| (
  refine ⟨_, rfl, ?_⟩
  simp only [Tf.init, rotationMatrix, half_pi.1, half_pi.2, translationMatrix, cast, poseB, poseC, poseD]
  norm_num [Affine.comp, Affine.c0, Affine.c1, Affine.c2, Affine.point, Affine.vec, Vec3.dot, unitVector, Vec3.ext_iff]))

theorem pose_b : ∃ s, placed ⟨1, 1, 1⟩ ⟨0, 0, 1⟩ = .ok s ∧ s.pose = cast poseB := by pose

theorem pose_c : ∃ s, placed ⟨0, 1, 1⟩ ⟨1, 0, 0⟩ = .ok s ∧ s.pose = cast poseC := by pose

theorem pose_d : ∃ s, placed ⟨-1, -1, -1⟩ ⟨0, 1, 0⟩ = .ok s ∧ s.pose = cast poseD := by pose

end

/-- Inverses of the three poses. -/
def invB : Affine ℚ := ⟨⟨0, 1, 0⟩, ⟨-1, 0, 0⟩, ⟨0, 0, 1⟩, ⟨-1, 1, -1⟩⟩
def invC : Affine ℚ := ⟨⟨1, 0, 0⟩, ⟨0, 0, 1⟩, ⟨0, -1, 0⟩, ⟨0, -1, 1⟩⟩
def invD : Affine ℚ := ⟨⟨0, 0, -1⟩, ⟨0, 1, 0⟩, ⟨1, 0, 0⟩, ⟨-1, 1, 1⟩⟩

theorem inverses : poseB.comp invB = .one ∧ poseC.comp invC = .one ∧ poseD.comp invD = .one ∧
    invB.comp poseB = .one ∧ invC.comp poseC = .one ∧ invD.comp poseD = .one := by decide +kernel

/-- `a` is the root with the children `b` and `d`; `c` is the child of `b`. -/
def tree : SNode ℚ Unit :=
  .mk .one .one none [.mk poseB invB none [.mk poseC invC none []], .mk poseD invD none []]

def a : Addr := []
def b : Addr := [0]
def c : Addr := [0, 0]
def d : Addr := [1]

theorem coordinate_system_conversions :
    tree.poses.pointToNode d a ⟨0, 0, 0⟩ = ⟨-1, -1, -1⟩ ∧
    tree.poses.pointToNode d a ⟨1, 1, 1⟩ = ⟨0, 0, -2⟩ ∧
    tree.poses.vectorToNode d a ⟨1, 0, 0⟩ = ⟨0, 0, -1⟩ ∧
    tree.poses.vectorToNode d a ⟨0, 1, 0⟩ = ⟨0, 1, 0⟩ ∧
    tree.poses.vectorToNode d a ⟨0, 0, 1⟩ = ⟨1, 0, 0⟩ ∧
    tree.poses.pointToNode c d ⟨0, 0, 0⟩ = ⟨-3, 2, 1⟩ ∧
    tree.poses.pointToNode c d ⟨1, 1, 1⟩ = ⟨-4, 3, 2⟩ ∧
    tree.poses.vectorToNode c d ⟨1, 0, 0⟩ = ⟨0, 1, 0⟩ ∧
    tree.poses.vectorToNode c d ⟨0, 1, 0⟩ = ⟨-1, 0, 0⟩ ∧
    tree.poses.vectorToNode c d ⟨0, 0, 1⟩ = ⟨0, 0, 1⟩ := by decide +kernel

/-- Where the unit sphere meets a ray on the `x` axis. -/
def unitSphere (_ : Unit) (o d : Vec3 ℚ) : List ℚ :=
  [d.x * (-o.x) - 1, d.x * (-o.x) + 1].filter (0 ≤ ·)

/-- Points in the frame of the root of all intersections of a ray. -/
def points (n : SNode ℚ Unit) (o v : Vec3 ℚ) : List (Vec3 ℚ) :=
  (n.intersections unitSphere [] o v).map fun f =>
    n.poses.pointToNode f.hit [] (f.origin + f.t • f.direction)

def shift (x : ℚ) : Affine ℚ := ⟨⟨1, 0, 0⟩, ⟨0, 1, 0⟩, ⟨0, 0, 1⟩, ⟨x, 0, 0⟩⟩

theorem intersection_when_on_surface : points (.mk .one .one (some ()) []) ⟨-1, 0, 0⟩ ⟨1, 0, 0⟩ =
    [⟨-1, 0, 0⟩, ⟨1, 0, 0⟩] := by decide +kernel

theorem intersection_with_translation :
    points (.mk .one .one none [.mk (shift 1) (shift (-1)) (some ()) []]) ⟨-2, 0, 0⟩ ⟨1, 0, 0⟩ =
      [⟨0, 0, 0⟩, ⟨2, 0, 0⟩] := by decide +kernel

/-! ### test_scene.py -/

theorem scene_intersection :
    points (.mk .one .one none [.mk (shift 1) (shift (-1)) none [.mk .one .one (some ()) []]]) ⟨-2, 0, 0⟩
      ⟨1, 0, 0⟩ = [⟨0, 0, 0⟩, ⟨2, 0, 0⟩] := by decide +kernel

open PV.Simulate in
/-- A seed with several workers is refused, whatever the scene. -/
theorem simulate_with_constant_seed_multiple_cpus {ℓ ρ η σ : Type} (P : Stage ℓ ρ η σ) (cpus : ℕ) (h : 2 ≤ cpus)
    (s : σ) (seeds : ℕ → ℕ) :
    simulate P cpus (max 16 cpus) (some cpus) (some 1) s seeds = .error .valueError := by
  unfold simulate workerCount
  simp only [Option.getD_some]
  rw [if_neg (by omega), if_neg (by omega), if_neg]
  rw [Nat.div_eq_zero_iff]
  omega

/-! ### test_transformable.py -/

theorem transformable_init : (Tf.init none).location = 0 ∧
    (Tf.init (some (⟨1, 1, 1⟩, true))).location = ⟨1, 1, 1⟩ := ⟨rfl, rfl⟩

end PV.Tests
