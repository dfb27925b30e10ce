import Verif.Props.Rotations
import Mathlib.LinearAlgebra.Matrix.NonsingularInverse

/-!
C111, second part: quaternions.
-/

namespace PV.Rotations
open PV.Spec

theorem Rotation.mul {A B : Mat} (hA : Rotation A) (hB : Rotation B) : Rotation (A * B) := by
  refine ⟨?_, by rw [Matrix.det_mul, hA.2, hB.2, one_mul]⟩
  rw [Matrix.transpose_mul, Matrix.mul_assoc, ← Matrix.mul_assoc B, hB.1, Matrix.one_mul, hA.1]

theorem one_lit : (1 : Mat) = !![1, 0, 0; 0, 1, 0; 0, 0, 1] := by
  ext p r
  fin_cases p <;> fin_cases r <;> rfl

theorem transpose_lit (a b c d e f g h i : ℝ) :
    (!![a, b, c; d, e, f; g, h, i] : Mat).transpose = !![a, d, g; b, e, h; c, f, i] := by
  ext p r
  fin_cases p <;> fin_cases r <;> rfl

theorem turn_rotation (axis : Char) (θ : ℝ) : Rotation (turnAbout axis θ) := by
  have h := Real.sin_sq_add_cos_sq θ
  unfold turnAbout Rotation
  split_ifs
  all_goals
    refine ⟨?_, ?_⟩
    · rw [transpose_lit, Matrix.mul_fin_three, one_lit]
      refine lit ?_ ?_ ?_ ?_ ?_ ?_ ?_ ?_ ?_ <;> grind
    · rw [Matrix.det_fin_three]
      simp
      grind

/-- **C111.** Euler angles always give a rotation. -/
theorem euler_rotation {name : List Char} {axes : Axes} (h : (name, axes) ∈ table) (a b c : ℝ) :
    Rotation (eulerMatrix a b c axes) := by
  have e := euler_turns h a b c
  unfold turns at e
  split at e
  · rw [← Option.some.inj e]
    exact Rotation.mul (Rotation.mul (turn_rotation _ _) (turn_rotation _ _)) (turn_rotation _ _)
  · rw [← Option.some.inj e]
    exact Rotation.mul (Rotation.mul (turn_rotation _ _) (turn_rotation _ _)) (turn_rotation _ _)
  · simp at e

/-- The turns about the coordinate axes are those of `rotation_matrix`. -/
theorem turn_rotationMatrix (θ : ℝ) (p : Vec3 ℝ) :
    (rotationMatrix θ ⟨1, 0, 0⟩ p).mat = turnAbout 'x' θ ∧ (rotationMatrix θ ⟨0, 1, 0⟩ p).mat = turnAbout 'y' θ ∧
      (rotationMatrix θ ⟨0, 0, 1⟩ p).mat = turnAbout 'z' θ := by
  rw [turn_x, turn_y, turn_z]
  unfold rotationMatrix
  rw [Pose.unitVector_of_unit (v := ⟨1, 0, 0⟩) (by simp [Vec3.dot]), Pose.unitVector_of_unit (v := ⟨0, 1, 0⟩) (by simp [Vec3.dot]),
    Pose.unitVector_of_unit (v := ⟨0, 0, 1⟩) (by simp [Vec3.dot])]
  refine ⟨?_, ?_, ?_⟩ <;> refine lit ?_ ?_ ?_ ?_ ?_ ?_ ?_ ?_ ?_ <;> simp

theorem quaternionMatrix_eq {q : Quat} (h : ¬ normSq q < eps) :
    quaternionMatrix q =
      !![1 - 2 * (q 2 * q 2 + q 3 * q 3) / normSq q, 2 * (q 1 * q 2 - q 3 * q 0) / normSq q, 2 * (q 1 * q 3 + q 2 * q 0) / normSq q;
         2 * (q 1 * q 2 + q 3 * q 0) / normSq q, 1 - 2 * (q 1 * q 1 + q 3 * q 3) / normSq q, 2 * (q 2 * q 3 - q 1 * q 0) / normSq q;
         2 * (q 1 * q 3 - q 2 * q 0) / normSq q, 2 * (q 2 * q 3 + q 1 * q 0) / normSq q, 1 - 2 * (q 1 * q 1 + q 2 * q 2) / normSq q] := by
  have hn : 0 < normSq q := eps_pos.trans_le (not_lt.1 h)
  have hs : Real.sqrt (2 / normSq q) * Real.sqrt (2 / normSq q) = 2 / normSq q := Real.mul_self_sqrt (by positivity)
  unfold quaternionMatrix
  simp only [if_neg h]
  refine lit ?_ ?_ ?_ ?_ ?_ ?_ ?_ ?_ ?_ <;> grind

section parts
variable (q : Quat) (v : Fin 3 → ℝ)
@[simp] theorem q_re : (quaternion q).re = q 0 := rfl
@[simp] theorem q_imI : (quaternion q).imI = q 1 := rfl
@[simp] theorem q_imJ : (quaternion q).imJ = q 2 := rfl
@[simp] theorem q_imK : (quaternion q).imK = q 3 := rfl
@[simp] theorem p_re : (Spec.pure v).re = 0 := rfl
@[simp] theorem p_imI : (Spec.pure v).imI = v 0 := rfl
@[simp] theorem p_imJ : (Spec.pure v).imJ = v 1 := rfl
@[simp] theorem p_imK : (Spec.pure v).imK = v 2 := rfl
end parts

theorem normSq_eq (q : Quat) : Quaternion.normSq (quaternion q) = normSq q := by
  rw [Quaternion.normSq_def']
  simp only [q_re, q_imI, q_imJ, q_imK, normSq]
  ring

/-- The functions on quaternions are those of the algebra of quaternions. -/
theorem multiply_eq (a b : Quat) : quaternion (quaternionMultiply a b) = quaternion a * quaternion b := by
  ext <;> simp [quaternionMultiply] <;> ring

theorem conjugate_eq (a : Quat) : quaternion (quaternionConjugate a) = star (quaternion a) := by
  ext <;> simp [quaternionConjugate]

theorem normSq_conjugate (a : Quat) : normSq (quaternionConjugate a) = normSq a := by simp [normSq, quaternionConjugate]

theorem inverse_eq (a : Quat) : quaternion (quaternionInverse a) = (quaternion a)⁻¹ := by
  rw [Quaternion.inv_def, normSq_eq, ← conjugate_eq]
  ext <;> simp [quaternionInverse, normSq_conjugate] <;> ring

/-- **C111, quaternions.** `quaternion_matrix` turns vectors as the quaternion does: `q v q⁻¹`. -/
theorem quaternion_turns {q : Quat} (h : ¬ normSq q < eps) (v : Fin 3 → ℝ) :
    Spec.pure ((quaternionMatrix q).mulVec v) = quaternion q * Spec.pure v * (quaternion q)⁻¹ := by
  have hn : 0 < normSq q := eps_pos.trans_le (not_lt.1 h)
  rw [← inverse_eq, quaternionMatrix_eq h]
  have hN : normSq q = q 0 * q 0 + q 1 * q 1 + q 2 * q 2 + q 3 * q 3 := rfl
  have i0 : quaternionInverse q 0 = q 0 / normSq q := by
    show quaternionConjugate q 0 / normSq (quaternionConjugate q) = _; rw [normSq_conjugate]; rfl
  have i1 : quaternionInverse q 1 = -q 1 / normSq q := by
    show quaternionConjugate q 1 / normSq (quaternionConjugate q) = _; rw [normSq_conjugate]; rfl
  have i2 : quaternionInverse q 2 = -q 2 / normSq q := by
    show quaternionConjugate q 2 / normSq (quaternionConjugate q) = _; rw [normSq_conjugate]; rfl
  have i3 : quaternionInverse q 3 = -q 3 / normSq q := by
    show quaternionConjugate q 3 / normSq (quaternionConjugate q) = _; rw [normSq_conjugate]; rfl
  ext <;> simp [Matrix.mulVec, dotProduct, Fin.sum_univ_three, i0, i1, i2, i3]
  · field_simp; ring
  · field_simp; rw [hN]; ring
  · field_simp; rw [hN]; ring
  · field_simp; rw [hN]; ring

theorem pure_injective : Function.Injective Spec.pure := by
  intro u v h
  have h1 := congrArg QuaternionAlgebra.imI h
  have h2 := congrArg QuaternionAlgebra.imJ h
  have h3 := congrArg QuaternionAlgebra.imK h
  funext a
  fin_cases a
  · exact h1
  · exact h2
  · exact h3

/-- The matrix of a product is the product of the matrices: the right factor turns first. -/
theorem matrix_multiply {a b : Quat} (ha : ¬ normSq a < eps) (hb : ¬ normSq b < eps)
    (hab : ¬ normSq (quaternionMultiply a b) < eps) :
    quaternionMatrix (quaternionMultiply a b) = quaternionMatrix a * quaternionMatrix b := by
  refine Matrix.toLin'.injective (LinearMap.ext fun v => ?_)
  rw [Matrix.toLin'_apply, Matrix.toLin'_apply, ← Matrix.mulVec_mulVec]
  refine pure_injective ?_
  rw [quaternion_turns hab, quaternion_turns ha, quaternion_turns hb, multiply_eq, mul_inv_rev]
  simp only [mul_assoc]

/-- **C111.** A quaternion gives a rotation. -/
theorem quaternion_rotation (q : Quat) : Rotation (quaternionMatrix q) := by
  by_cases h : normSq q < eps
  · unfold quaternionMatrix
    simp only [if_pos h]
    exact ⟨by simp, by simp⟩
  have hn : 0 < normSq q := eps_pos.trans_le (not_lt.1 h)
  have hN : normSq q = q 0 * q 0 + q 1 * q 1 + q 2 * q 2 + q 3 * q 3 := rfl
  rw [quaternionMatrix_eq h]
  generalize normSq q = n at *
  refine ⟨?_, ?_⟩
  · rw [transpose_lit, Matrix.mul_fin_three, one_lit]
    refine lit ?_ ?_ ?_ ?_ ?_ ?_ ?_ ?_ ?_ <;> field_simp <;> rw [hN] <;> ring
  · rw [Matrix.det_fin_three]
    simp
    field_simp
    rw [hN]
    ring

/-- **C111.** The quaternion of an angle and an axis gives the matrix of this angle and axis. -/
theorem about_axis {angle : ℝ} {axis p : Vec3 ℝ} (h : eps ^ 2 < axis.dot axis) :
    quaternionMatrix (quaternionAboutAxis angle axis) = (rotationMatrix angle axis p).mat := by
  have h0 : 0 < axis.dot axis := lt_of_le_of_lt (by positivity) h
  have hl : Real.sqrt (normSq ![0, axis.x, axis.y, axis.z]) = Real.sqrt (axis.dot axis) := by
    congr 1; simp [normSq, Vec3.dot]
  have hgt : Real.sqrt (axis.dot axis) > eps := Real.lt_sqrt_of_sq_lt h
  have hpos : 0 < Real.sqrt (axis.dot axis) := eps_pos.trans hgt
  have hsq : Real.sqrt (axis.dot axis) ^ 2 = axis.dot axis := Real.sq_sqrt h0.le
  have hq : quaternionAboutAxis angle axis = ![Real.cos (angle / 2), (unitVector axis).x * Real.sin (angle / 2),
      (unitVector axis).y * Real.sin (angle / 2), (unitVector axis).z * Real.sin (angle / 2)] := by
    unfold quaternionAboutAxis
    simp only [hl, if_pos hgt, unitVector, Vec3.smul_x, Vec3.smul_y, Vec3.smul_z]
    funext a
    fin_cases a <;> simp <;> ring
  have hu : (unitVector axis).x * (unitVector axis).x + (unitVector axis).y * (unitVector axis).y +
      (unitVector axis).z * (unitVector axis).z = 1 := by
    have := Pose.unit_unitVector (v := axis) (by rintro rfl; simp [Vec3.dot] at h0)
    simpa [Vec3.dot] using this
  have hsc := Real.sin_sq_add_cos_sq (angle / 2)
  have hc : Real.cos angle = 1 - 2 * Real.sin (angle / 2) ^ 2 := by
    have := Real.cos_two_mul (angle / 2); rw [mul_div_cancel₀ angle two_ne_zero] at this; linarith
  have hs : Real.sin angle = 2 * Real.sin (angle / 2) * Real.cos (angle / 2) := by
    have := Real.sin_two_mul (angle / 2); rwa [mul_div_cancel₀ angle two_ne_zero] at this
  have hn : normSq (quaternionAboutAxis angle axis) = 1 := by
    rw [hq]; simp [normSq]; grind
  have hne : ¬ normSq (quaternionAboutAxis angle axis) < eps := by
    rw [hn]; unfold eps; norm_num
  rw [quaternionMatrix_eq hne, hn, hq]
  unfold rotationMatrix
  generalize unitVector axis = u at *
  simp only [hc, hs]
  refine lit ?_ ?_ ?_ ?_ ?_ ?_ ?_ ?_ ?_ <;> simp <;> grind

example : quaternionMatrix (quaternionAboutAxis 1 ⟨1, 2, 3⟩) = (rotationMatrix 1 ⟨1, 2, 3⟩ (0 : Vec3 ℝ)).mat :=
  about_axis (by unfold eps; simp [Vec3.dot]; norm_num)

example : quaternionMatrix (quaternionMultiply ![1, 2, 0, 0] ![0, 1, 0, 3]) =
    quaternionMatrix ![1, 2, 0, 0] * quaternionMatrix ![0, 1, 0, 3] :=
  matrix_multiply (by unfold eps; simp [normSq]; norm_num) (by unfold eps; simp [normSq]; norm_num)
    (by unfold eps; simp [normSq, quaternionMultiply]; norm_num)

end PV.Rotations
