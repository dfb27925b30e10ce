import Verif.Props.FromMatrixMore
import Mathlib.Analysis.Real.Pi.Bounds

/-!
C111: interpolation, random rotations, the parts of a matrix, and where the property fails.
-/

namespace PV.Rotations
open PV.Spec

/-- **C111 fails for `isprecise=True`.** A half turn about the z axis comes back as no turn at all, whatever `numpy.empty` left in
the array. -/
theorem precise_half_turn (junk : Quat) : ∃ q, quaternionFromMatrixPrecise junk !![-1, 0, 0; 0, -1, 0; 0, 0, 1] = some q ∧
    quaternionMatrix q = 1 := by
  set M : Mat := !![-1, 0, 0; 0, -1, 0; 0, 0, 1]
  have f33 : full M 3 3 = 1 := rfl
  have f00 : full M 0 0 = -1 := rfl
  have f11 : full M 1 1 = -1 := rfl
  have f22 : full M 2 2 = 1 := rfl
  have f31 : full M 3 1 = 0 := rfl
  have f13 : full M 1 3 = 0 := rfl
  have f23 : full M 2 3 = 0 := rfl
  have f32 : full M 3 2 = 0 := rfl
  have f12 : full M 1 2 = 0 := rfl
  have f21 : full M 2 1 = 0 := rfl
  unfold quaternionFromMatrixPrecise
  have h1 : ¬ (-1 + -1 + 1 + 1 : ℝ) > 1 := by norm_num
  have h2 : ¬ (-1 : ℝ) > -1 := by norm_num
  have h3 : (1 : ℝ) > -1 := by norm_num
  have h4 : ¬ (1 - (-1 + 1) + 1 : ℝ) * 1 ≤ 0 := by norm_num
  simp only [f33, f00, f11, f22, if_neg h1, if_neg h2, if_pos h3, f31, f13, f23, f32, f12, f21, if_neg h4]
  refine ⟨_, rfl, ?_⟩
  have key : ∀ q : Quat, q 1 = 0 → q 2 = 0 → q 3 = 0 → quaternionMatrix q = 1 := fun q h1 h2 h3 => by
    by_cases h : normSq q < eps
    · unfold quaternionMatrix
      simp only [if_pos h]
    · rw [quaternionMatrix_eq h, one_lit]
      refine lit ?_ ?_ ?_ ?_ ?_ ?_ ?_ ?_ ?_ <;> simp [h1, h2, h3]
  split
  · rw [quaternionMatrix_neg]
    exact key _ (by simp) (by simp) (by simp)
  · exact key _ (by simp) (by simp) (by simp)

/-- … and a half turn about the x axis raises. -/
theorem precise_raises (junk : Quat) : quaternionFromMatrixPrecise junk !![1, 0, 0; 0, -1, 0; 0, 0, -1] = none := by
  set M : Mat := !![1, 0, 0; 0, -1, 0; 0, 0, -1]
  have f33 : full M 3 3 = 1 := rfl
  have f00 : full M 0 0 = 1 := rfl
  have f11 : full M 1 1 = -1 := rfl
  have f22 : full M 2 2 = -1 := rfl
  unfold quaternionFromMatrixPrecise
  have h1 : ¬ (1 + -1 + -1 + 1 : ℝ) > 1 := by norm_num
  have h2 : ¬ (-1 : ℝ) > 1 := by norm_num
  have h3 : ¬ (-1 : ℝ) > -1 := by norm_num
  have h4 : (-1 - (-1 + 1) + 1 : ℝ) * 1 ≤ 0 := by norm_num
  simp only [f33, f00, f11, f22, if_neg h1, if_neg h2, if_neg h3, if_pos h4]

/-- Both are rotations, so `quaternion_back` applies to them. -/
theorem half_turns : Rotation !![-1, 0, 0; 0, -1, 0; 0, 0, 1] ∧ Rotation !![1, 0, 0; 0, -1, 0; 0, 0, -1] ∧
    (!![-1, 0, 0; 0, -1, 0; 0, 0, 1] : Mat) ≠ 1 := by
  refine ⟨⟨?_, ?_⟩, ⟨?_, ?_⟩, ?_⟩
  · rw [transpose_lit, Matrix.mul_fin_three, one_lit]
    refine lit ?_ ?_ ?_ ?_ ?_ ?_ ?_ ?_ ?_ <;> norm_num
  · rw [Matrix.det_fin_three]; simp
  · rw [transpose_lit, Matrix.mul_fin_three, one_lit]
    refine lit ?_ ?_ ?_ ?_ ?_ ?_ ?_ ?_ ?_ <;> norm_num
  · rw [Matrix.det_fin_three]; simp
  · intro h
    have := congrFun (congrFun h 0) 0
    simp at this
    norm_num at this

/-- Random quaternions have length 1. -/
theorem random_unit {a b c : ℝ} (h0 : 0 ≤ a) (h1 : a ≤ 1) : normSq (randomQuaternion a b c) = 1 := by
  have s1 := Real.mul_self_sqrt (sub_nonneg.2 h1)
  have s2 := Real.mul_self_sqrt h0
  have c1 := Real.sin_sq_add_cos_sq (Real.pi * 2 * b)
  have c2 := Real.sin_sq_add_cos_sq (Real.pi * 2 * c)
  simp [normSq, randomQuaternion]
  linear_combination s1 + s2 + (1 - a) * c1 + a * c2 + (Real.sin (Real.pi * 2 * b) ^ 2 + Real.cos (Real.pi * 2 * b) ^ 2 - 1) * s1 +
    (Real.sin (Real.pi * 2 * c) ^ 2 + Real.cos (Real.pi * 2 * c) ^ 2 - 1) * s2

/-- The inner product of four numbers. -/
noncomputable def dot4 (a b : Quat) : ℝ := a 0 * b 0 + a 1 * b 1 + a 2 * b 2 + a 3 * b 3

theorem unitQuat_unit {q : Quat} (h : q ≠ 0) : normSq (unitQuat q) = 1 := by
  have hp : 0 < normSq q := by
    obtain ⟨a, ha⟩ := Function.ne_iff.1 h
    replace ha : 0 < q a * q a := mul_self_pos.2 ha
    have p0 := mul_self_nonneg (q 0); have p1 := mul_self_nonneg (q 1)
    have p2 := mul_self_nonneg (q 2); have p3 := mul_self_nonneg (q 3)
    unfold normSq
    fin_cases a <;> simp only [Fin.zero_eta, Fin.mk_one, Fin.reduceFinMk] at ha <;> linarith
  have hs := Real.mul_self_sqrt hp.le
  have hs' := Real.sqrt_pos.2 hp
  have : normSq (unitQuat q) = normSq q / (Real.sqrt (normSq q) * Real.sqrt (normSq q)) := by
    unfold unitQuat
    generalize Real.sqrt (normSq q) = s at hs'
    simp only [normSq]
    field_simp
  rw [this, hs, div_self hp.ne']

/-- **C111, interpolation.** Without spin, between two rotations that are not the same, the quaternion has length 1 and turns
evenly: its angle to the first is the fraction of the angle between the two. The second is taken as `-q1` if that is nearer. -/
theorem slerp_even {a b : Quat} (ha : a ≠ 0) (hb : b ≠ 0) {f : ℝ} (h0 : f ≠ 0) (h1 : f ≠ 1)
    (hd : eps ≤ |(|dot4 (unitQuat a) (unitQuat b)| - 1)|) :
    normSq (quaternionSlerp a b f 0 true) = 1 ∧
      dot4 (unitQuat a) (quaternionSlerp a b f 0 true) = Real.cos (f * Real.arccos |dot4 (unitQuat a) (unitQuat b)|) := by
  have na := unitQuat_unit ha
  have nb := unitQuat_unit hb
  have hd4 : unitQuat a 0 * unitQuat b 0 + unitQuat a 1 * unitQuat b 1 + unitQuat a 2 * unitQuat b 2 +
      unitQuat a 3 * unitQuat b 3 = dot4 (unitQuat a) (unitQuat b) := rfl
  unfold quaternionSlerp
  simp only [if_neg h0, if_neg h1, hd4]
  rw [if_neg (not_lt.2 hd)]
  set p := unitQuat a
  set q := unitQuat b
  have hle : |dot4 p q| ≤ 1 := by
    unfold normSq at na nb
    unfold dot4
    rw [abs_le]
    constructor
    · nlinarith [sq_nonneg (p 0 + q 0), sq_nonneg (p 1 + q 1), sq_nonneg (p 2 + q 2), sq_nonneg (p 3 + q 3)]
    · nlinarith [sq_nonneg (p 0 - q 0), sq_nonneg (p 1 - q 1), sq_nonneg (p 2 - q 2), sq_nonneg (p 3 - q 3)]
  have hx : eps ≤ Real.arccos |dot4 p q| := by
    rw [abs_of_nonpos (by linarith)] at hd
    have c1 := Real.one_sub_sq_div_two_le_cos (x := Real.arccos |dot4 p q|)
    rw [Real.cos_arccos (by linarith [abs_nonneg (dot4 p q)]) hle] at c1
    have c2 := Real.arccos_nonneg |dot4 p q|
    have c3 : eps ≤ 1 := by unfold eps; norm_num
    have c4 := eps_pos
    by_contra hlt
    nlinarith
  have lt1 : |dot4 p q| < 1 := by
    refine lt_of_le_of_ne hle fun e => ?_
    rw [e, sub_self, abs_zero] at hd
    exact absurd eps_pos (not_lt.2 hd)
  have key : ∀ (q' : Quat), normSq q' = 1 → dot4 p q' = |dot4 p q| →
      let r : Quat := fun x => p x * (Real.sin ((1 - f) * (Real.arccos |dot4 p q| + ((0 : ℤ) : ℝ) * Real.pi)) *
          (1 / Real.sin (Real.arccos |dot4 p q| + ((0 : ℤ) : ℝ) * Real.pi))) +
        q' x * (Real.sin (f * (Real.arccos |dot4 p q| + ((0 : ℤ) : ℝ) * Real.pi)) *
          (1 / Real.sin (Real.arccos |dot4 p q| + ((0 : ℤ) : ℝ) * Real.pi)))
      normSq r = 1 ∧ dot4 p r = Real.cos (f * Real.arccos |dot4 p q|) := by
    intro q' hq' hdot
    simp only [Int.cast_zero, zero_mul, add_zero]
    set t := Real.arccos |dot4 p q|
    have ct : Real.cos t = |dot4 p q| := Real.cos_arccos (by linarith [abs_nonneg (dot4 p q)]) hle
    have st : 0 < Real.sin t := Real.sin_pos_of_pos_of_lt_pi (eps_pos.trans_le hx)
      (lt_of_le_of_lt (Real.arccos_le_pi_div_two.2 (abs_nonneg _)) (by linarith [Real.pi_pos]))
    have e : (1 - f) * t = t - f * t := by ring
    rw [e, Real.sin_sub]
    have s1 := Real.sin_sq_add_cos_sq t
    have s2 := Real.sin_sq_add_cos_sq (f * t)
    rw [← ct] at hdot
    unfold dot4 at hdot ⊢
    unfold normSq at na hq' ⊢
    generalize Real.sin t = s at *
    generalize Real.cos t = c at *
    generalize Real.sin (f * t) = u at *
    generalize Real.cos (f * t) = v at *
    set A := (s * v - c * u) * (1 / s) with hA
    set B := u * (1 / s) with hB
    have n2 : A ^ 2 + B ^ 2 + 2 * A * B * c = 1 := by
      rw [hA, hB]; field_simp; grind
    have n1 : A + B * c = v := by rw [hA, hB]; field_simp; ring
    constructor
    · linear_combination n2 + A ^ 2 * na + B ^ 2 * hq' + 2 * A * B * hdot
    · linear_combination n1 + A * na + B * hdot
  by_cases hneg : dot4 p q < 0
  · simp only [hneg, and_self, if_true]
    have e : -dot4 p q = |dot4 p q| := (abs_of_neg hneg).symm
    rw [e, if_neg (by rw [Int.cast_zero, zero_mul, add_zero, abs_of_nonneg (Real.arccos_nonneg _)]; exact not_lt.2 hx)]
    exact key (-q) (by rw [← nb]; simp [normSq]) (by rw [← e]; simp [dot4]; ring)
  · simp only [hneg, and_false, if_false]
    have e : dot4 p q = |dot4 p q| := (abs_of_nonneg (not_lt.1 hneg)).symm
    rw [if_neg (by rw [Int.cast_zero, zero_mul, add_zero, abs_of_nonneg (Real.arccos_nonneg _), e]; exact not_lt.2 hx)]
    have k := key q nb e
    rw [← e] at k ⊢
    exact k

example : normSq (quaternionSlerp ![1, 0, 0, 0] ![0, 2, 0, 0] (1 / 3) 0 true) = 1 := by
  refine (slerp_even (fun h => by simpa using congrFun h 0) (fun h => by simpa using congrFun h 1) (by norm_num) (by norm_num) ?_).1
  have : dot4 (unitQuat ![1, 0, 0, 0]) (unitQuat ![0, 2, 0, 0]) = 0 := by simp [dot4, unitQuat]
  rw [this]
  unfold eps
  norm_num

/-- **C111 fails with an odd spin.** Half way between two quaternions at 60° the result has length √3. -/
theorem slerp_spin_long : normSq (quaternionSlerp ![1, 0, 0, 0] ![1 / 2, Real.sqrt 3 / 2, 0, 0] (1 / 2) 1 true) = 3 := by
  have s3 : Real.sqrt 3 * Real.sqrt 3 = 3 := Real.mul_self_sqrt (by norm_num)
  have n0 : normSq ![1, 0, 0, 0] = 1 := by simp [normSq]
  have n1 : normSq ![1 / 2, Real.sqrt 3 / 2, 0, 0] = 1 := by simp [normSq]; linarith
  have u0 : unitQuat ![1, 0, 0, 0] = ![1, 0, 0, 0] := by unfold unitQuat; rw [n0, Real.sqrt_one]; funext a; simp
  have u1 : unitQuat ![1 / 2, Real.sqrt 3 / 2, 0, 0] = ![1 / 2, Real.sqrt 3 / 2, 0, 0] := by
    unfold unitQuat; rw [n1, Real.sqrt_one]; funext a; simp
  have hac : Real.arccos (1 / 2) = Real.pi / 3 := by
    rw [← Real.cos_pi_div_three, Real.arccos_cos (by positivity) (by linarith [Real.pi_pos])]
  have hp := Real.pi_gt_three
  unfold quaternionSlerp
  rw [u0, u1]
  have d : (![1, 0, 0, 0] : Quat) 0 * ![1 / 2, Real.sqrt 3 / 2, 0, 0] 0 + (![1, 0, 0, 0] : Quat) 1 * ![1 / 2, Real.sqrt 3 / 2, 0, 0] 1 +
      (![1, 0, 0, 0] : Quat) 2 * ![1 / 2, Real.sqrt 3 / 2, 0, 0] 2 + (![1, 0, 0, 0] : Quat) 3 * ![1 / 2, Real.sqrt 3 / 2, 0, 0] 3 = 1 / 2 := by
    simp
  have c1 : ¬ (1 / 2 : ℝ) = 0 := by norm_num
  have c2 : ¬ (1 / 2 : ℝ) = 1 := by norm_num
  have c3 : ¬ |(|(1 / 2 : ℝ)| - 1)| < eps := by
    rw [abs_of_pos (by norm_num : (0 : ℝ) < 1 / 2)]
    norm_num [abs_of_neg, eps]
  have c4 : ¬ (1 / 2 : ℝ) < 0 := by norm_num
  have ang : Real.arccos (1 / 2) + ((1 : ℤ) : ℝ) * Real.pi = Real.pi / 3 + Real.pi := by rw [hac]; push_cast; ring
  have c5 : ¬ |Real.pi / 3 + Real.pi| < eps := by
    rw [abs_of_pos (by positivity), not_lt]
    have : eps ≤ 1 := by unfold eps; norm_num
    linarith
  simp only [d, if_neg c1, if_neg c2, if_neg c3, c4, and_false, if_false, ang, if_neg c5]
  have e1 : Real.sin ((1 - 1 / 2) * (Real.pi / 3 + Real.pi)) = Real.sqrt 3 / 2 := by
    have : (1 - 1 / 2) * (Real.pi / 3 + Real.pi) = Real.pi - Real.pi / 3 := by ring
    rw [this, Real.sin_pi_sub, Real.sin_pi_div_three]
  have e2 : Real.sin (1 / 2 * (Real.pi / 3 + Real.pi)) = Real.sqrt 3 / 2 := by
    have : 1 / 2 * (Real.pi / 3 + Real.pi) = Real.pi - Real.pi / 3 := by ring
    rw [this, Real.sin_pi_sub, Real.sin_pi_div_three]
  have e3 : Real.sin (Real.pi / 3 + Real.pi) = -(Real.sqrt 3 / 2) := by rw [Real.sin_add_pi, Real.sin_pi_div_three]
  rw [e1, e2, e3]
  have h3 : 0 < Real.sqrt 3 := Real.sqrt_pos.2 (by norm_num)
  have e4 : Real.sqrt 3 / 2 * (1 / -(Real.sqrt 3 / 2)) = -1 := by field_simp
  rw [e4]
  simp [normSq]
  linarith

theorem dot3_self_pos {a : Fin 3 → ℝ} (h : a ≠ 0) : 0 < dot3 a a := by
  obtain ⟨x, hx⟩ := Function.ne_iff.1 h
  replace hx : 0 < a x * a x := mul_self_pos.2 hx
  have p0 := mul_self_nonneg (a 0); have p1 := mul_self_nonneg (a 1); have p2 := mul_self_nonneg (a 2)
  unfold dot3
  fin_cases x <;> simp only [Fin.zero_eta, Fin.mk_one, Fin.reduceFinMk] at hx <;> linarith

theorem dot3_unit {u r : Fin 3 → ℝ} {s : ℝ} (h : ∀ x, u x = s * r x) (hs : 0 < s) (hq : s * s = dot3 u u) : dot3 r r = 1 := by
  have e : dot3 u u = s * s * dot3 r r := by unfold dot3; simp only [h]; ring
  have : s * s * dot3 r r = s * s := by rw [← e, hq]
  exact mul_left_cancel₀ (mul_pos hs hs).ne' (by rw [this, mul_one])

theorem dot3_right {u r : Fin 3 → ℝ} {s : ℝ} (h : ∀ x, u x = s * r x) (a : Fin 3 → ℝ) : s * dot3 a r = dot3 a u := by
  unfold dot3; simp only [h]; ring

/-- Euler angles as `decompose_matrix` finds them. -/
theorem sxyz_back {m : Mat} (h : Rotation m) (hg : m 0 0 ≠ 0 ∨ m 1 0 ≠ 0) :
    eulerMatrix (atan2 (m 2 1) (m 2 2)) (Real.arcsin (-m 2 0)) (atan2 (m 1 0) (m 0 0)) ⟨0, false, false, false⟩ = m := by
  have e := entries h
  have hp : 0 < m 0 0 * m 0 0 + m 1 0 * m 1 0 := by
    rcases hg with hg | hg
    · exact add_pos_of_pos_of_nonneg (mul_self_pos.2 hg) (mul_self_nonneg _)
    · exact add_pos_of_nonneg_of_pos (mul_self_nonneg _) (mul_self_pos.2 hg)
  have hsq := Real.mul_self_sqrt hp.le
  have hpos := Real.sqrt_pos.2 hp
  set cy := Real.sqrt (m 0 0 * m 0 0 + m 1 0 * m 1 0) with hcy
  have b := e.c00
  have s2 : Real.sin (Real.arcsin (-m 2 0)) = -m 2 0 := Real.sin_arcsin (by nlinarith) (by nlinarith)
  have c2 : Real.cos (Real.arcsin (-m 2 0)) = cy := by
    rw [Real.cos_arcsin, hcy]; congr 1; linarith
  obtain ⟨c1, s1⟩ := cos_sin_atan2 (x := m 2 2) (y := m 2 1) hpos (by have := e.r22; linarith)
  obtain ⟨c3, s3⟩ := cos_sin_atan2 (x := m 0 0) (y := m 1 0) hpos (by linarith)
  refine (place_012 _).trans ?_
  simp only [c1, s1, c2, s2, c3, s3, Bool.false_eq_true, if_false]
  conv_rhs => rw [mat_lit m]
  clear_value cy
  obtain ⟨⟩ := e
  refine lit ?_ ?_ ?_ ?_ ?_ ?_ ?_ ?_ ?_ <;> simp <;> field_simp <;> grind

/-- Three orthonormal columns with a positive triple product are a rotation. -/
theorem rotation_of_columns {a b c : Fin 3 → ℝ} (aa : dot3 a a = 1) (bb : dot3 b b = 1) (cc : dot3 c c = 1) (ab : dot3 a b = 0)
    (ac : dot3 a c = 0) (bc : dot3 b c = 0) (hp : 0 ≤ dot3 a (cross3 b c)) :
    Rotation !![a 0, b 0, c 0; a 1, b 1, c 1; a 2, b 2, c 2] := by
  have h1 : (!![a 0, b 0, c 0; a 1, b 1, c 1; a 2, b 2, c 2] : Mat).transpose * !![a 0, b 0, c 0; a 1, b 1, c 1; a 2, b 2, c 2] = 1 := by
    rw [transpose_lit, Matrix.mul_fin_three, one_lit]
    unfold dot3 at *
    refine lit ?_ ?_ ?_ ?_ ?_ ?_ ?_ ?_ ?_ <;> linarith
  have h2 := mul_eq_one_comm.1 h1
  refine ⟨h2, ?_⟩
  have h3 := congrArg Matrix.det h2
  rw [Matrix.det_mul, Matrix.det_transpose, Matrix.det_one] at h3
  have h4 : (!![a 0, b 0, c 0; a 1, b 1, c 1; a 2, b 2, c 2] : Mat).det = dot3 a (cross3 b c) := by
    rw [Matrix.det_fin_three]; simp [dot3, cross3]; ring
  rw [h4] at h3 ⊢
  nlinarith

/-- **C111, the parts of a matrix.** Scale, shear, angles and translation of a matrix that is not singular give the matrix back,
unless its first column is parallel to the z axis. -/
theorem decompose_back_partial {A : Mat} {t : Fin 3 → ℝ} (hdet : A.det ≠ 0) (hg : A 0 0 ≠ 0 ∨ A 1 0 ≠ 0) :
    ∃ p, decomposeMatrix A t = some p ∧ composeMatrix p = (A, t) := by
  have hd : dot3 (A.transpose 0) (cross3 (A.transpose 1) (A.transpose 2)) = A.det := by
    rw [Matrix.det_fin_three]; simp [dot3, cross3]; ring
  unfold decomposeMatrix
  simp only [hd, if_neg hdet]
  refine ⟨_, rfl, ?_⟩
  set a0 : Fin 3 → ℝ := A.transpose 0 with ha0
  set a1 : Fin 3 → ℝ := A.transpose 1 with ha1
  set a2 : Fin 3 → ℝ := A.transpose 2 with ha2
  set s0 := Real.sqrt (dot3 a0 a0) with hs0
  set r0 : Fin 3 → ℝ := fun a => a0 a / s0 with hr0
  set h0 := dot3 r0 a1 with hh0
  set u1 : Fin 3 → ℝ := fun a => a1 a - r0 a * h0 with hu1
  set s1 := Real.sqrt (dot3 u1 u1) with hs1
  set r1 : Fin 3 → ℝ := fun a => u1 a / s1 with hr1
  set h1 := dot3 r0 a2 with hh1
  set w2 : Fin 3 → ℝ := fun a => a2 a - r0 a * h1 with hw2
  set h2 := dot3 r1 w2 with hh2
  set u2 : Fin 3 → ℝ := fun a => w2 a - r1 a * h2 with hu2
  set s2 := Real.sqrt (dot3 u2 u2) with hs2
  set r2 : Fin 3 → ℝ := fun a => u2 a / s2 with hr2
  have n0 : 0 < dot3 a0 a0 := dot3_self_pos (by
    intro h
    rcases hg with hg | hg
    · exact hg (congrFun h 0)
    · exact hg (congrFun h 1))
  have p0 : 0 < s0 := Real.sqrt_pos.2 n0
  have q0 : s0 * s0 = dot3 a0 a0 := Real.mul_self_sqrt n0.le
  have b0 : ∀ x, a0 x = s0 * r0 x := fun x => by simp only [hr0]; field_simp
  have rr0 : dot3 r0 r0 = 1 := dot3_unit b0 p0 q0
  have n1 : 0 < dot3 u1 u1 := dot3_self_pos (by
    intro h
    refine hdet ?_
    have b1 : ∀ x, a1 x = r0 x * h0 := fun x => by have := congrFun h x; simp only [hu1, Pi.zero_apply] at this; linarith
    rw [← hd]
    simp only [dot3, cross3, b0, b1]
    simp
    ring)
  have p1 : 0 < s1 := Real.sqrt_pos.2 n1
  have q1 : s1 * s1 = dot3 u1 u1 := Real.mul_self_sqrt n1.le
  have b1 : ∀ x, a1 x = h0 * r0 x + s1 * r1 x := fun x => by simp only [hr1, hu1]; field_simp; ring
  have c1 : ∀ x, u1 x = s1 * r1 x := fun x => by simp only [hr1]; field_simp
  have rr1 : dot3 r1 r1 = 1 := dot3_unit c1 p1 q1
  have r01 : dot3 r0 r1 = 0 := by
    have : s1 * dot3 r0 r1 = 0 := by
      have e : s1 * dot3 r0 r1 = dot3 r0 u1 := dot3_right c1 _
      rw [e]
      have e2 : dot3 r0 u1 = h0 - h0 * dot3 r0 r0 := by simp only [hh0, hu1, dot3]; ring
      rw [e2, rr0]; ring
    exact (mul_eq_zero.1 this).resolve_left p1.ne'
  have n2 : 0 < dot3 u2 u2 := dot3_self_pos (by
    intro h
    refine hdet ?_
    have b2 : ∀ x, a2 x = r0 x * h1 + r1 x * h2 := fun x => by
      have := congrFun h x; simp only [hu2, hw2, Pi.zero_apply] at this; linarith
    rw [← hd]
    simp only [dot3, cross3, b0, b1, b2]
    simp
    ring)
  have p2 : 0 < s2 := Real.sqrt_pos.2 n2
  have q2 : s2 * s2 = dot3 u2 u2 := Real.mul_self_sqrt n2.le
  have b2 : ∀ x, a2 x = h1 * r0 x + h2 * r1 x + s2 * r2 x := fun x => by simp only [hr2, hu2, hw2]; field_simp; ring
  have c2 : ∀ x, u2 x = s2 * r2 x := fun x => by simp only [hr2]; field_simp
  have rr2 : dot3 r2 r2 = 1 := dot3_unit c2 p2 q2
  have w0 : dot3 r0 w2 = 0 := by
    have e2 : dot3 r0 w2 = h1 - h1 * dot3 r0 r0 := by simp only [hh1, hw2, dot3]; ring
    rw [e2, rr0]; ring
  have r02 : dot3 r0 r2 = 0 := by
    have : s2 * dot3 r0 r2 = 0 := by
      have e : s2 * dot3 r0 r2 = dot3 r0 u2 := dot3_right c2 _
      have e2 : dot3 r0 u2 = dot3 r0 w2 - h2 * dot3 r0 r1 := by simp only [hu2, dot3]; ring
      rw [e, e2, w0, r01]; ring
    exact (mul_eq_zero.1 this).resolve_left p2.ne'
  have r12 : dot3 r1 r2 = 0 := by
    have : s2 * dot3 r1 r2 = 0 := by
      have e : s2 * dot3 r1 r2 = dot3 r1 u2 := dot3_right c2 _
      have e2 : dot3 r1 u2 = h2 - h2 * dot3 r1 r1 := by simp only [hh2, hu2, dot3]; ring
      rw [e, e2, rr1]; ring
    exact (mul_eq_zero.1 this).resolve_left p2.ne'
  have A0 : ∀ x, A x 0 = s0 * r0 x := b0
  have A1 : ∀ x, A x 1 = h0 * r0 x + s1 * r1 x := b1
  have A2 : ∀ x, A x 2 = h1 * r0 x + h2 * r1 x + s2 * r2 x := b2
  have g0 : r0 0 ≠ 0 ∨ r0 1 ≠ 0 := by
    rcases hg with hg | hg
    · exact .inl fun h => hg (by rw [A0, h, mul_zero])
    · exact .inr fun h => hg (by rw [A0, h, mul_zero])
  clear_value r0 r1 r2 s0 s1 s2 h0 h1 h2
  unfold composeMatrix
  refine Prod.ext ?_ rfl
  by_cases hf : dot3 r0 (cross3 r1 r2) < 0
  · have rot := rotation_of_columns (a := -r0) (b := -r1) (c := -r2) (by rw [← rr0]; simp [dot3]) (by rw [← rr1]; simp [dot3])
      (by rw [← rr2]; simp [dot3]) (by rw [← r01]; simp [dot3]) (by rw [← r02]; simp [dot3]) (by rw [← r12]; simp [dot3])
      (by simp [dot3, cross3] at hf ⊢; linarith)
    have back := sxyz_back rot (by simpa using g0)
    simp only [if_pos hf]
    refine (congrArg (fun R : Mat => R * _ * _) back).trans ?_
    conv_rhs => rw [mat_lit A]
    simp only [A0, A1, A2]
    rw [Matrix.mul_fin_three, Matrix.mul_fin_three]
    refine lit ?_ ?_ ?_ ?_ ?_ ?_ ?_ ?_ ?_ <;> simp <;> field_simp <;> ring
  · have rot := rotation_of_columns rr0 rr1 rr2 r01 r02 r12 (not_lt.1 hf)
    have back := sxyz_back rot (by simpa using g0)
    simp only [if_neg hf]
    refine (congrArg (fun R : Mat => R * _ * _) back).trans ?_
    conv_rhs => rw [mat_lit A]
    simp only [A0, A1, A2]
    rw [Matrix.mul_fin_three, Matrix.mul_fin_three]
    refine lit ?_ ?_ ?_ ?_ ?_ ?_ ?_ ?_ ?_ <;> simp <;> field_simp <;> ring

example : ∃ p, decomposeMatrix !![2, 1, 0; 0, 3, 0; 1, 0, -1] ![1, 2, 3] = some p ∧
    composeMatrix p = (!![2, 1, 0; 0, 3, 0; 1, 0, -1], ![1, 2, 3]) :=
  decompose_back_partial (by rw [Matrix.det_fin_three]; simp) (.inl (by simp))

/-- **C111 fails in gimbal lock.** For this rotation, whose first column is parallel to the z axis, the parts give another one. -/
theorem decompose_gimbal : Rotation !![0, -1, 0; 0, 0, 1; -1, 0, 0] ∧
    ∃ p, decomposeMatrix !![0, -1, 0; 0, 0, 1; -1, 0, 0] 0 = some p ∧ composeMatrix p = (!![0, 0, 1; 0, 1, 0; -1, 0, 0], 0) := by
  refine ⟨⟨?_, ?_⟩, ?_⟩
  · rw [transpose_lit, Matrix.mul_fin_three, one_lit]
    refine lit ?_ ?_ ?_ ?_ ?_ ?_ ?_ ?_ ?_ <;> norm_num
  · rw [Matrix.det_fin_three]; simp
  · set A : Mat := !![0, -1, 0; 0, 0, 1; -1, 0, 0]
    have t0 : A.transpose 0 = ![0, 0, -1] := by funext x; fin_cases x <;> rfl
    have t1 : A.transpose 1 = ![-1, 0, 0] := by funext x; fin_cases x <;> rfl
    have t2 : A.transpose 2 = ![0, 1, 0] := by funext x; fin_cases x <;> rfl
    have v0 : (fun a => (![0, 0, -1] : Fin 3 → ℝ) a / 1) = ![0, 0, -1] := by funext x; simp
    have d0 : dot3 ![0, 0, -1] ![0, 0, -1] = 1 := by simp [dot3]
    have d01 : dot3 ![0, 0, -1] ![-1, 0, 0] = 0 := by simp [dot3]
    have d02 : dot3 ![0, 0, -1] ![0, 1, 0] = 0 := by simp [dot3]
    have d12 : dot3 ![-1, 0, 0] ![0, 1, 0] = 0 := by simp [dot3]
    have d1 : dot3 ![-1, 0, 0] ![-1, 0, 0] = 1 := by simp [dot3]
    have d2 : dot3 ![0, 1, 0] ![0, 1, 0] = 1 := by simp [dot3]
    have trip : dot3 ![0, 0, -1] (cross3 ![-1, 0, 0] ![0, 1, 0]) = 1 := by simp [dot3, cross3]
    have c1 : ¬ (1 : ℝ) = 0 := one_ne_zero
    have c2 : ¬ (1 : ℝ) < 0 := by norm_num
    have e3 : ∀ v : Fin 3 → ℝ, (fun a => v a) = v := fun v => rfl
    unfold decomposeMatrix
    simp only [t0, t1, t2, trip, if_neg c1, d0, Real.sqrt_one, div_one, e3, d01, mul_zero, sub_zero, d1, d02, d12, d2, if_neg c2]
    refine ⟨_, rfl, ?_⟩
    have z : atan2 0 0 = 0 := by
      unfold atan2
      rw [show (⟨0, 0⟩ : ℂ) = 0 from rfl, Complex.arg_zero]
    unfold composeMatrix
    refine Prod.ext ?_ rfl
    have x1 : (![![0, 0, -1], ![-1, 0, 0], ![0, 1, 0]] : Fin 3 → Fin 3 → ℝ) 1 2 = 0 := rfl
    have x2 : (![![0, 0, -1], ![-1, 0, 0], ![0, 1, 0]] : Fin 3 → Fin 3 → ℝ) 2 2 = 0 := rfl
    have x3 : (![![0, 0, -1], ![-1, 0, 0], ![0, 1, 0]] : Fin 3 → Fin 3 → ℝ) 0 1 = 0 := rfl
    have x4 : (![![0, 0, -1], ![-1, 0, 0], ![0, 1, 0]] : Fin 3 → Fin 3 → ℝ) 0 0 = 0 := rfl
    have x5 : (![![0, 0, -1], ![-1, 0, 0], ![0, 1, 0]] : Fin 3 → Fin 3 → ℝ) 0 2 = -1 := rfl
    simp only [x1, x2, x3, x4, x5, z, neg_neg, Real.arcsin_one]
    have R : eulerMatrix 0 (Real.pi / 2) 0 ⟨0, false, false, false⟩ = !![0, 0, 1; 0, 1, 0; -1, 0, 0] := by
      refine (place_012 _).trans ?_
      refine lit ?_ ?_ ?_ ?_ ?_ ?_ ?_ ?_ ?_ <;> simp
    refine (congrArg (fun R : Mat => R * _ * _) R).trans ?_
    rw [Matrix.mul_fin_three, Matrix.mul_fin_three]
    refine lit ?_ ?_ ?_ ?_ ?_ ?_ ?_ ?_ ?_ <;> simp

end PV.Rotations
