import Verif.Props.Matrices
import Verif.Model.Transformable

/-!
**C117** The vector of a translation can be read back.
-/

namespace PV.Matrices
open PV

/-- **C117** `translation_matrix` moves every point by the vector. -/
theorem translation_moves (v X : Vec3 ℝ) : (translationMatrix v).point X = X + v := by
  apply Vec3.ext <;> simp [translationMatrix, Affine.point, Affine.vec, Vec3.dot]

/-- **C117** Every matrix that moves all points by `v` is the one `translation_matrix` builds from what `translation_from_matrix` reads,
and that is `v`. -/
theorem translation_back {M : Affine ℝ} {v : Vec3 ℝ} (h : ∀ X, M.point X = X + v) :
    translationFromMatrix M = v ∧ translationMatrix (translationFromMatrix M) = M := by
  have h0 := h ⟨0, 0, 0⟩
  have h1 := h ⟨1, 0, 0⟩
  have h2 := h ⟨0, 1, 0⟩
  have h3 := h ⟨0, 0, 1⟩
  obtain ⟨⟨a, b, c⟩, ⟨d, e, f⟩, ⟨g, i, j⟩, ⟨x, y, z⟩⟩ := M
  obtain ⟨p, q, r⟩ := v
  simp [Affine.point, Affine.vec, Vec3.dot, Vec3.ext_iff] at h0 h1 h2 h3
  obtain ⟨rfl, rfl, rfl⟩ := h0
  simp [translationFromMatrix, translationMatrix, Vec3.ext_iff]
  obtain ⟨k1, k2, k3⟩ := h1
  obtain ⟨l1, l2, l3⟩ := h2
  obtain ⟨m1, m2, m3⟩ := h3
  refine ⟨⟨?_, ?_, ?_⟩, ⟨?_, ?_, ?_⟩, ?_, ?_, ?_⟩ <;> linarith

/-- The hypothesis is met by the matrix of (1, 2, 3). -/
example : translationFromMatrix (translationMatrix ⟨1, 2, 3⟩) = ⟨1, 2, 3⟩ :=
  (translation_back (translation_moves ⟨1, 2, 3⟩)).1

end PV.Matrices
