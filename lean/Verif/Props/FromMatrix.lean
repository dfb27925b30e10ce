import Verif.Props.EulerBack
import Mathlib.LinearAlgebra.Matrix.Adjugate

/-!
C111, fourth part: from matrices back to angles and quaternions.
-/

namespace PV.Rotations
open PV.Spec

/-- The equations between the entries of a rotation. -/
structure Entries (m : Mat) : Prop where
  r00 : m 0 0 * m 0 0 + m 0 1 * m 0 1 + m 0 2 * m 0 2 = 1
  r11 : m 1 0 * m 1 0 + m 1 1 * m 1 1 + m 1 2 * m 1 2 = 1
  r22 : m 2 0 * m 2 0 + m 2 1 * m 2 1 + m 2 2 * m 2 2 = 1
  r01 : m 0 0 * m 1 0 + m 0 1 * m 1 1 + m 0 2 * m 1 2 = 0
  r02 : m 0 0 * m 2 0 + m 0 1 * m 2 1 + m 0 2 * m 2 2 = 0
  r12 : m 1 0 * m 2 0 + m 1 1 * m 2 1 + m 1 2 * m 2 2 = 0
  c00 : m 0 0 * m 0 0 + m 1 0 * m 1 0 + m 2 0 * m 2 0 = 1
  c11 : m 0 1 * m 0 1 + m 1 1 * m 1 1 + m 2 1 * m 2 1 = 1
  c22 : m 0 2 * m 0 2 + m 1 2 * m 1 2 + m 2 2 * m 2 2 = 1
  k00 : m 0 0 = m 1 1 * m 2 2 - m 1 2 * m 2 1
  k01 : m 0 1 = m 1 2 * m 2 0 - m 1 0 * m 2 2
  k02 : m 0 2 = m 1 0 * m 2 1 - m 1 1 * m 2 0
  k10 : m 1 0 = m 0 2 * m 2 1 - m 0 1 * m 2 2
  k11 : m 1 1 = m 0 0 * m 2 2 - m 0 2 * m 2 0
  k12 : m 1 2 = m 0 1 * m 2 0 - m 0 0 * m 2 1
  k20 : m 2 0 = m 0 1 * m 1 2 - m 0 2 * m 1 1
  k21 : m 2 1 = m 0 2 * m 1 0 - m 0 0 * m 1 2
  k22 : m 2 2 = m 0 0 * m 1 1 - m 0 1 * m 1 0

theorem entries {m : Mat} (h : Rotation m) : Entries m := by
  have h1 := h.1
  have h2 : m.transpose * m = 1 := mul_eq_one_comm.1 h1
  have h3 : m.transpose = m.adjugate := by
    have := Matrix.mul_adjugate m
    rw [h.2, one_smul] at this
    calc m.transpose = m.transpose * (m * m.adjugate) := by rw [this, Matrix.mul_one]
      _ = m.adjugate := by rw [← Matrix.mul_assoc, h2, Matrix.one_mul]
  have r : ∀ a b, m a 0 * m b 0 + m a 1 * m b 1 + m a 2 * m b 2 = (1 : Mat) a b := fun a b => by
    have := congrFun (congrFun h1 a) b
    simpa [Matrix.mul_apply, Fin.sum_univ_three] using this
  have c : ∀ a b, m 0 a * m 0 b + m 1 a * m 1 b + m 2 a * m 2 b = (1 : Mat) a b := fun a b => by
    have := congrFun (congrFun h2 a) b
    simpa [Matrix.mul_apply, Fin.sum_univ_three] using this
  have k : ∀ a b, m a b = m.adjugate b a := fun a b => congrFun (congrFun h3 b) a
  rw [Matrix.adjugate_fin_three] at k
  refine ⟨r 0 0, r 1 1, r 2 2, r 0 1, r 0 2, r 1 2, c 0 0, c 1 1, c 2 2, ?_, ?_, ?_, ?_, ?_, ?_, ?_, ?_, ?_⟩
  · exact (k 0 0).trans (by simp)
  · exact (k 0 1).trans (by simp; ring)
  · exact (k 0 2).trans (by simp)
  · exact (k 1 0).trans (by simp; ring)
  · exact (k 1 1).trans (by simp)
  · exact (k 1 2).trans (by simp; ring)
  · exact (k 2 0).trans (by simp)
  · exact (k 2 1).trans (by simp; ring)
  · exact (k 2 2).trans (by simp)

theorem cos_sin_atan2 {x y r : ℝ} (hr : 0 < r) (h : x * x + y * y = r * r) :
    Real.cos (atan2 y x) = x / r ∧ Real.sin (atan2 y x) = y / r := by
  have hn : ‖(⟨x, y⟩ : ℂ)‖ = r := by
    have h1 : ‖(⟨x, y⟩ : ℂ)‖ ^ 2 = r ^ 2 := by rw [Complex.sq_norm, Complex.normSq_apply]; simp only; linarith
    exact (pow_left_inj₀ (norm_nonneg _) hr.le two_ne_zero).1 h1
  have h0 : (⟨x, y⟩ : ℂ) ≠ 0 := by rw [← norm_pos_iff, hn]; exact hr
  unfold atan2
  rw [Complex.cos_arg h0, Complex.sin_arg, hn]
  exact ⟨rfl, rfl⟩

/-- The matrix of `euler_matrix` before the axes are put in order. -/
noncomputable def core (rep : Bool) (ai aj ak : ℝ) : Mat :=
  if rep then
    !![Real.cos aj, Real.sin aj * Real.sin ai, Real.sin aj * Real.cos ai;
       Real.sin aj * Real.sin ak, -Real.cos aj * (Real.sin ai * Real.sin ak) + Real.cos ai * Real.cos ak,
         -Real.cos aj * (Real.cos ai * Real.sin ak) - Real.sin ai * Real.cos ak;
       -Real.sin aj * Real.cos ak, Real.cos aj * (Real.sin ai * Real.cos ak) + Real.cos ai * Real.sin ak,
         Real.cos aj * (Real.cos ai * Real.cos ak) - Real.sin ai * Real.sin ak]
  else
    !![Real.cos aj * Real.cos ak, Real.sin aj * (Real.sin ai * Real.cos ak) - Real.cos ai * Real.sin ak,
         Real.sin aj * (Real.cos ai * Real.cos ak) + Real.sin ai * Real.sin ak;
       Real.cos aj * Real.sin ak, Real.sin aj * (Real.sin ai * Real.sin ak) + Real.cos ai * Real.cos ak,
         Real.sin aj * (Real.cos ai * Real.sin ak) - Real.sin ai * Real.cos ak;
       -Real.sin aj, Real.cos aj * Real.sin ai, Real.cos aj * Real.cos ai]

/-- The angles of `euler_from_matrix` before they are put in order. -/
noncomputable def angles (rep : Bool) (m : Mat) : ℝ × ℝ × ℝ :=
  if rep then
    if Real.sqrt (m 0 1 * m 0 1 + m 0 2 * m 0 2) > eps then
      (atan2 (m 0 1) (m 0 2), atan2 (Real.sqrt (m 0 1 * m 0 1 + m 0 2 * m 0 2)) (m 0 0), atan2 (m 1 0) (-m 2 0))
    else (atan2 (-m 1 2) (m 1 1), atan2 (Real.sqrt (m 0 1 * m 0 1 + m 0 2 * m 0 2)) (m 0 0), 0)
  else
    if Real.sqrt (m 0 0 * m 0 0 + m 1 0 * m 1 0) > eps then
      (atan2 (m 2 1) (m 2 2), atan2 (-m 2 0) (Real.sqrt (m 0 0 * m 0 0 + m 1 0 * m 1 0)), atan2 (m 1 0) (m 0 0))
    else (atan2 (-m 1 2) (m 1 1), atan2 (-m 2 0) (Real.sqrt (m 0 0 * m 0 0 + m 1 0 * m 1 0)), 0)

/-- How far the second turn is from the two positions in which the first and the third turn are about the same axis. -/
noncomputable def away (rep : Bool) (m : Mat) : ℝ :=
  if rep then Real.sqrt (m 0 1 * m 0 1 + m 0 2 * m 0 2) else Real.sqrt (m 0 0 * m 0 0 + m 1 0 * m 1 0)

theorem mat_lit (m : Mat) : m = !![m 0 0, m 0 1, m 0 2; m 1 0, m 1 1, m 1 2; m 2 0, m 2 1, m 2 2] := by
  ext p r
  fin_cases p <;> fin_cases r <;> rfl

theorem core_back {rep : Bool} {m : Mat} (h : Rotation m) (ha : away rep m = 0 ∨ eps < away rep m) :
    core rep (angles rep m).1 (angles rep m).2.1 (angles rep m).2.2 = m := by
  have e := entries h
  cases rep
  · simp only [away, Bool.false_eq_true, if_false] at ha
    simp only [core, angles, Bool.false_eq_true, if_false]
    set cy := Real.sqrt (m 0 0 * m 0 0 + m 1 0 * m 1 0) with hcy
    have hsq : cy * cy = m 0 0 * m 0 0 + m 1 0 * m 1 0 :=
      Real.mul_self_sqrt (add_nonneg (mul_self_nonneg _) (mul_self_nonneg _))
    obtain ⟨c2, s2⟩ := cos_sin_atan2 (x := cy) (y := -m 2 0) one_pos (by have := e.c00; linarith)
    rcases ha with ha | ha
    · rw [if_neg (by rw [ha]; exact not_lt.2 eps_pos.le)]
      have z0 : m 0 0 = 0 := by nlinarith [mul_self_nonneg (m 0 0), mul_self_nonneg (m 1 0)]
      have z1 : m 1 0 = 0 := by nlinarith [mul_self_nonneg (m 0 0), mul_self_nonneg (m 1 0)]
      obtain ⟨c1, s1⟩ := cos_sin_atan2 (x := m 1 1) (y := -m 1 2) one_pos (by have := e.r11; rw [z1] at this; linarith)
      simp only [c1, s1, c2, s2, Real.cos_zero, Real.sin_zero, ha]
      conv_rhs => rw [mat_lit m]
      obtain ⟨⟩ := e
      refine lit ?_ ?_ ?_ ?_ ?_ ?_ ?_ ?_ ?_ <;> grind
    · rw [if_pos ha]
      have hpos := eps_pos.trans ha
      obtain ⟨c1, s1⟩ := cos_sin_atan2 (x := m 2 2) (y := m 2 1) hpos (by have := e.r22; have := e.c00; linarith)
      obtain ⟨c3, s3⟩ := cos_sin_atan2 (x := m 0 0) (y := m 1 0) hpos (by linarith)
      simp only [c1, s1, c2, s2, c3, s3]
      conv_rhs => rw [mat_lit m]
      clear_value cy
      obtain ⟨⟩ := e
      refine lit ?_ ?_ ?_ ?_ ?_ ?_ ?_ ?_ ?_ <;> field_simp <;> grind
  · simp only [away, if_true] at ha
    simp only [core, angles, if_true]
    set sy := Real.sqrt (m 0 1 * m 0 1 + m 0 2 * m 0 2) with hsy
    have hsq : sy * sy = m 0 1 * m 0 1 + m 0 2 * m 0 2 :=
      Real.mul_self_sqrt (add_nonneg (mul_self_nonneg _) (mul_self_nonneg _))
    obtain ⟨c2, s2⟩ := cos_sin_atan2 (x := m 0 0) (y := sy) one_pos (by have := e.r00; linarith)
    rcases ha with ha | ha
    · rw [if_neg (by rw [ha]; exact not_lt.2 eps_pos.le)]
      have z0 : m 0 1 = 0 := by nlinarith [mul_self_nonneg (m 0 1), mul_self_nonneg (m 0 2)]
      have z1 : m 0 2 = 0 := by nlinarith [mul_self_nonneg (m 0 1), mul_self_nonneg (m 0 2)]
      have z2 : m 1 0 = 0 := by have := e.c00; have := e.r00; nlinarith [mul_self_nonneg (m 1 0), mul_self_nonneg (m 2 0)]
      have z3 : m 2 0 = 0 := by have := e.c00; have := e.r00; nlinarith [mul_self_nonneg (m 1 0), mul_self_nonneg (m 2 0)]
      obtain ⟨c1, s1⟩ := cos_sin_atan2 (x := m 1 1) (y := -m 1 2) one_pos (by have := e.r11; rw [z2] at this; linarith)
      simp only [c1, s1, c2, s2, Real.cos_zero, Real.sin_zero, ha]
      conv_rhs => rw [mat_lit m]
      obtain ⟨⟩ := e
      refine lit ?_ ?_ ?_ ?_ ?_ ?_ ?_ ?_ ?_ <;> grind
    · rw [if_pos ha]
      have hpos := eps_pos.trans ha
      obtain ⟨c1, s1⟩ := cos_sin_atan2 (x := m 0 2) (y := m 0 1) hpos (by linarith)
      obtain ⟨c3, s3⟩ := cos_sin_atan2 (x := -m 2 0) (y := m 1 0) hpos (by have := e.r00; have := e.c00; linarith)
      simp only [c1, s1, c2, s2, c3, s3]
      conv_rhs => rw [mat_lit m]
      clear_value sy
      obtain ⟨⟩ := e
      refine lit ?_ ?_ ?_ ?_ ?_ ?_ ?_ ?_ ?_ <;> field_simp <;> grind

end PV.Rotations
