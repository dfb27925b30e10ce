import Verif.Model.Vec
import Mathlib.LinearAlgebra.Matrix.NonsingularInverse
import Mathlib.Data.Matrix.Mul
import Mathlib.LinearAlgebra.Matrix.Notation
import Mathlib.Tactic.LinearCombination

/-! Algebra of three-vectors and rigid maps. -/

namespace PV
set_option linter.unusedSectionVars false
variable {α : Type} [CommRing α]

namespace Vec3

theorem dot_comm (a b : Vec3 α) : a.dot b = b.dot a := by simp only [dot]; ring
theorem dot_add (a b c : Vec3 α) : a.dot (b + c) = a.dot b + a.dot c := by
  simp only [dot, add_x, add_y, add_z]; ring
theorem dot_sub (a b c : Vec3 α) : a.dot (b - c) = a.dot b - a.dot c := by
  simp only [dot, sub_x, sub_y, sub_z]; ring
theorem dot_smul (k : α) (a b : Vec3 α) : a.dot (k • b) = k * a.dot b := by
  simp only [dot, smul_x, smul_y, smul_z]; ring
theorem dot_neg (a b : Vec3 α) : a.dot (-b) = -a.dot b := by
  simp only [dot, neg_x, neg_y, neg_z]; ring
theorem add_dot (a b c : Vec3 α) : (a + b).dot c = a.dot c + b.dot c := by
  simp only [dot, add_x, add_y, add_z]; ring
theorem sub_dot (a b c : Vec3 α) : (a - b).dot c = a.dot c - b.dot c := by
  simp only [dot, sub_x, sub_y, sub_z]; ring
theorem smul_dot (k : α) (a b : Vec3 α) : (k • a).dot b = k * a.dot b := by
  simp only [dot, smul_x, smul_y, smul_z]; ring
theorem neg_dot (a b : Vec3 α) : (-a).dot b = -a.dot b := by
  simp only [dot, neg_x, neg_y, neg_z]; ring

/-- Cross product (specification only). -/
def cross (a b : Vec3 α) : Vec3 α :=
  ⟨a.y * b.z - a.z * b.y, a.z * b.x - a.x * b.z, a.x * b.y - a.y * b.x⟩

/-- Lagrange's identity: `|a × b|² = |a|²|b|² - (a·b)²`. -/
theorem cross_dot_cross (a b : Vec3 α) :
    (a.cross b).dot (a.cross b) = a.dot a * b.dot b - a.dot b ^ 2 := by
  simp only [dot, cross]; ring

end Vec3

namespace Affine

/-- Transposed linear part. -/
def tvec (m : Affine α) (v : Vec3 α) : Vec3 α := ⟨m.c0.dot v, m.c1.dot v, m.c2.dot v⟩

theorem vec_add (m : Affine α) (a b : Vec3 α) : m.vec (a + b) = m.vec a + m.vec b := by
  ext <;> simp only [vec, Vec3.dot_add, Vec3.add_x, Vec3.add_y, Vec3.add_z]
theorem vec_sub (m : Affine α) (a b : Vec3 α) : m.vec (a - b) = m.vec a - m.vec b := by
  ext <;> simp only [vec, Vec3.dot_sub, Vec3.sub_x, Vec3.sub_y, Vec3.sub_z]
theorem vec_smul (m : Affine α) (k : α) (a : Vec3 α) : m.vec (k • a) = k • m.vec a := by
  ext <;> simp only [vec, Vec3.dot_smul, Vec3.smul_x, Vec3.smul_y, Vec3.smul_z]
theorem vec_neg (m : Affine α) (a : Vec3 α) : m.vec (-a) = -m.vec a := by
  ext <;> simp only [vec, Vec3.dot_neg, Vec3.neg_x, Vec3.neg_y, Vec3.neg_z]

theorem point_add_smul (m : Affine α) (p d : Vec3 α) (t : α) :
    m.point (p + t • d) = m.point p + t • m.vec d := by
  ext <;> simp only [point, vec_add, vec_smul, Vec3.add_x, Vec3.add_y, Vec3.add_z,
    Vec3.smul_x, Vec3.smul_y, Vec3.smul_z] <;> ring

theorem point_sub (m : Affine α) (p q : Vec3 α) : m.point p - m.point q = m.vec (p - q) := by
  ext <;> simp only [point, vec_sub, Vec3.add_x, Vec3.add_y, Vec3.add_z,
    Vec3.sub_x, Vec3.sub_y, Vec3.sub_z] <;> ring

theorem comp_vec (a b : Affine α) (v : Vec3 α) : (a.comp b).vec v = a.vec (b.vec v) := by
  ext <;> simp only [vec, comp, Vec3.dot, c0, c1, c2] <;> ring

theorem comp_point (a b : Affine α) (p : Vec3 α) : (a.comp b).point p = a.point (b.point p) := by
  have h : (a.comp b).t = a.point b.t := rfl
  rw [point, comp_vec, h]
  simp only [point, vec_add]
  ext <;> simp only [Vec3.add_x, Vec3.add_y, Vec3.add_z] <;> ring

/-- The linear part as a matrix. -/
def mat (m : Affine α) : Matrix (Fin 3) (Fin 3) α :=
  !![m.r0.x, m.r0.y, m.r0.z; m.r1.x, m.r1.y, m.r1.z; m.r2.x, m.r2.y, m.r2.z]

/-- Rows orthonormal implies columns orthonormal. -/
theorem Rigid.cols {m : Affine α} (h : m.Rigid) :
    m.c0.dot m.c0 = 1 ∧ m.c1.dot m.c1 = 1 ∧ m.c2.dot m.c2 = 1 ∧
    m.c0.dot m.c1 = 0 ∧ m.c0.dot m.c2 = 0 ∧ m.c1.dot m.c2 = 0 := by
  obtain ⟨h00, h11, h22, h01, h02, h12⟩ := h
  have e : m.mat * m.mat.transpose = 1 := by
    ext i j
    rw [Matrix.mul_apply, Fin.sum_univ_three]
    simp only [Vec3.dot] at h00 h11 h22 h01 h02 h12
    fin_cases i <;> fin_cases j <;> simp [mat, Matrix.transpose_apply]
    · linear_combination h00
    · linear_combination h01
    · linear_combination h02
    · linear_combination h01
    · linear_combination h11
    · linear_combination h12
    · linear_combination h02
    · linear_combination h12
    · linear_combination h22
  have e' := mul_eq_one_comm.1 e
  have g : ∀ i j, (m.mat.transpose * m.mat) i j = (1 : Matrix (Fin 3) (Fin 3) α) i j := by
    intro i j; rw [e']
  have k : ∀ i j, m.mat 0 i * m.mat 0 j + m.mat 1 i * m.mat 1 j + m.mat 2 i * m.mat 2 j
      = (1 : Matrix (Fin 3) (Fin 3) α) i j := by
    intro i j
    have := g i j
    rw [Matrix.mul_apply, Fin.sum_univ_three] at this
    simpa [Matrix.transpose_apply] using this
  refine ⟨?_, ?_, ?_, ?_, ?_, ?_⟩
  · simpa [mat, Vec3.dot, c0, c1, c2] using k 0 0
  · simpa [mat, Vec3.dot, c0, c1, c2] using k 1 1
  · simpa [mat, Vec3.dot, c0, c1, c2] using k 2 2
  · simpa [mat, Vec3.dot, c0, c1, c2] using k 0 1
  · simpa [mat, Vec3.dot, c0, c1, c2] using k 0 2
  · simpa [mat, Vec3.dot, c0, c1, c2] using k 1 2

/-- Rigid maps preserve inner products. -/
theorem Rigid.dot_vec {m : Affine α} (h : m.Rigid) (a b : Vec3 α) :
    (m.vec a).dot (m.vec b) = a.dot b := by
  obtain ⟨h00, h11, h22, h01, h02, h12⟩ := h.cols
  simp only [vec, Vec3.dot, c0, c1, c2] at *
  linear_combination a.x * b.x * h00 + a.y * b.y * h11 + a.z * b.z * h22 +
    (a.x * b.y + a.y * b.x) * h01 + (a.x * b.z + a.z * b.x) * h02 + (a.y * b.z + a.z * b.y) * h12

theorem Rigid.vec_tvec {m : Affine α} (h : m.Rigid) (v : Vec3 α) : m.vec (m.tvec v) = v := by
  obtain ⟨h00, h11, h22, h01, h02, h12⟩ := h
  simp only [Vec3.dot] at *
  ext <;> simp only [vec, tvec, Vec3.dot, c0, c1, c2]
  · linear_combination v.x * h00 + v.y * h01 + v.z * h02
  · linear_combination v.x * h01 + v.y * h11 + v.z * h12
  · linear_combination v.x * h02 + v.y * h12 + v.z * h22

theorem Rigid.tvec_vec {m : Affine α} (h : m.Rigid) (v : Vec3 α) : m.tvec (m.vec v) = v := by
  obtain ⟨h00, h11, h22, h01, h02, h12⟩ := h.cols
  simp only [Vec3.dot, c0, c1, c2] at *
  ext <;> simp only [vec, tvec, Vec3.dot, c0, c1, c2]
  · linear_combination v.x * h00 + v.y * h01 + v.z * h02
  · linear_combination v.x * h01 + v.y * h11 + v.z * h12
  · linear_combination v.x * h02 + v.y * h12 + v.z * h22

/-- An inverse of a rigid map acts on vectors as the transpose. -/
theorem Inverse.vec_eq {m w : Affine α} (h : m.Rigid) (hw : m.Inverse w) (v : Vec3 α) :
    w.vec v = m.tvec v := by
  conv_lhs => rw [← h.vec_tvec v]
  exact hw.2 _

theorem Inverse.vec_vec {m w : Affine α} (h : m.Rigid) (hw : m.Inverse w) (v : Vec3 α) :
    m.vec (w.vec v) = v := by
  rw [hw.vec_eq h, h.vec_tvec]

theorem Inverse.point_point {m w : Affine α} (h : m.Rigid) (hw : m.Inverse w) (p : Vec3 α) :
    m.point (w.point p) = p := by
  have e : m.point (m.tvec (p - m.t)) = p := by
    rw [point, h.vec_tvec]
    ext <;> simp only [Vec3.add_x, Vec3.add_y, Vec3.add_z, Vec3.sub_x, Vec3.sub_y, Vec3.sub_z] <;>
      ring
  have : w.point p = m.tvec (p - m.t) := by
    conv_lhs => rw [← e]
    exact hw.1 _
  rw [this, e]

theorem Inverse.dot_vec {m w : Affine α} (h : m.Rigid) (hw : m.Inverse w) (a b : Vec3 α) :
    (w.vec a).dot (w.vec b) = a.dot b := by
  rw [← h.dot_vec, hw.vec_vec h, hw.vec_vec h]

end Affine
end PV
