import Verif.Model.Optics
import Verif.Lemmas.Vec

/-!
C35: `angle_between` gives the angle between two unit vectors, up to the tolerance of `np.allclose`.
-/

namespace PV.Angle
open PV

/-- Unit vectors that pass `np.allclose` have a scalar product near 1. -/
theorem close_dot (a b : Vec3 ℝ) (ha : a.dot a = 1) (hb : b.dot b = 1) (h : allclose a b) :
    |1 - a.dot b| ≤ 2e-10 := by
  obtain ⟨h1, h2, h3⟩ := h
  have bx : |b.x| ≤ 1 := by
    rw [abs_le_one_iff_mul_self_le_one]
    simp only [Vec3.dot] at hb
    nlinarith [mul_self_nonneg b.y, mul_self_nonneg b.z]
  have by' : |b.y| ≤ 1 := by
    rw [abs_le_one_iff_mul_self_le_one]
    simp only [Vec3.dot] at hb
    nlinarith [mul_self_nonneg b.x, mul_self_nonneg b.z]
  have bz : |b.z| ≤ 1 := by
    rw [abs_le_one_iff_mul_self_le_one]
    simp only [Vec3.dot] at hb
    nlinarith [mul_self_nonneg b.x, mul_self_nonneg b.y]
  have key : ∀ u v : ℝ, |u - v| ≤ 1e-8 + 1e-5 * |v| → |v| ≤ 1 → (u - v) ^ 2 ≤ (1.001e-5) ^ 2 := by
    intro u v h hv
    rw [sq_le_sq, abs_of_pos (by norm_num : (0 : ℝ) < 1.001e-5)]
    calc |u - v| ≤ 1e-8 + 1e-5 * |v| := h
      _ ≤ 1e-8 + 1e-5 * 1 := by gcongr
      _ ≤ 1.001e-5 := by norm_num
  have k1 := key _ _ h1 bx
  have k2 := key _ _ h2 by'
  have k3 := key _ _ h3 bz
  have hid : 1 - a.dot b = ((a.x - b.x) ^ 2 + (a.y - b.y) ^ 2 + (a.z - b.z) ^ 2) / 2 := by
    simp only [Vec3.dot] at ha hb ⊢
    linarith [sq (a.x - b.x)]
  rw [hid, abs_of_nonneg (by positivity)]
  norm_num at k1 k2 k3 ⊢
  linarith

/-- C35: the angle is between 0 and π and its cosine is the scalar product, to 2e-10; exactly, unless
the vectors are so nearly parallel or opposite that `np.allclose` cannot tell. -/
theorem angle_right (n v : Vec3 ℝ) (hn : n.dot n = 1) (hv : v.dot v = 1) :
    0 ≤ angleBetween n v ∧ angleBetween n v ≤ Real.pi ∧
    |Real.cos (angleBetween n v) - n.dot v| ≤ 2e-10 ∧
    (¬ allclose n v → ¬ allclose (-n) v → Real.cos (angleBetween n v) = n.dot v) := by
  unfold angleBetween
  split_ifs with h1 h2
  · refine ⟨le_rfl, Real.pi_pos.le, ?_, fun h => absurd h1 h⟩
    rw [Real.cos_zero]
    exact close_dot n v hn hv h1
  · refine ⟨Real.pi_pos.le, le_rfl, ?_, fun _ h => absurd h2 h⟩
    have hn' : (-n).dot (-n) = 1 := by rw [Vec3.neg_dot, Vec3.dot_neg, neg_neg, hn]
    have := close_dot (-n) v hn' hv h2
    rw [Vec3.neg_dot] at this
    rw [Real.cos_pi, ← abs_neg]
    have e : -(-1 - n.dot v) = 1 - -n.dot v := by ring
    rw [e]
    exact this
  · have hsq : (n.dot v) ^ 2 ≤ 1 := by
      have := Vec3.cross_dot_cross n v
      rw [hn, hv] at this
      have hpos : 0 ≤ (n.cross v).dot (n.cross v) := by
        simp only [Vec3.dot]
        nlinarith [mul_self_nonneg (n.cross v).x, mul_self_nonneg (n.cross v).y,
          mul_self_nonneg (n.cross v).z]
      linarith
    have hb := abs_le.1 ((sq_le_one_iff_abs_le_one _).1 hsq)
    have hc := Real.cos_arccos hb.1 hb.2
    refine ⟨Real.arccos_nonneg _, Real.arccos_le_pi _, ?_, fun _ _ => hc⟩
    rw [hc, sub_self, abs_zero]
    norm_num

/-- The three branches all occur. -/
example : angleBetween ⟨1, 0, 0⟩ ⟨1, 0, 0⟩ = 0 ∧ angleBetween ⟨1, 0, 0⟩ ⟨-1, 0, 0⟩ = Real.pi ∧
    angleBetween ⟨1, 0, 0⟩ ⟨0, 1, 0⟩ = Real.pi / 2 := by
  refine ⟨by norm_num [angleBetween, allclose], by norm_num [angleBetween, allclose], ?_⟩
  unfold angleBetween
  rw [if_neg (by norm_num [allclose]), if_neg (by norm_num [allclose])]
  norm_num [Vec3.dot]

end PV.Angle
