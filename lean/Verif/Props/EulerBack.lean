import Verif.Props.Quaternions

/-!
C111, third part: from Euler angles to quaternions.
-/

namespace PV.Rotations
open PV.Spec

/-- The quaternion of a turn about a coordinate axis. -/
noncomputable def qturn (axis : Char) (θ : ℝ) : Quat :=
  if axis = 'x' then ![Real.cos (θ / 2), Real.sin (θ / 2), 0, 0]
  else if axis = 'y' then ![Real.cos (θ / 2), 0, Real.sin (θ / 2), 0]
  else ![Real.cos (θ / 2), 0, 0, Real.sin (θ / 2)]

theorem qx (θ : ℝ) : qturn 'x' θ = ![Real.cos (θ / 2), Real.sin (θ / 2), 0, 0] := rfl
theorem qy (θ : ℝ) : qturn 'y' θ = ![Real.cos (θ / 2), 0, Real.sin (θ / 2), 0] := rfl
theorem qz (θ : ℝ) : qturn 'z' θ = ![Real.cos (θ / 2), 0, 0, Real.sin (θ / 2)] := rfl

theorem qturn_norm (axis : Char) (θ : ℝ) : normSq (qturn axis θ) = 1 := by
  have h := Real.sin_sq_add_cos_sq (θ / 2)
  unfold qturn
  split_ifs <;> simp [normSq] <;> linarith

theorem normSq_multiply (a b : Quat) : normSq (quaternionMultiply a b) = normSq a * normSq b := by
  rw [← normSq_eq, multiply_eq, map_mul, normSq_eq, normSq_eq]

theorem not_small {q : Quat} (h : normSq q = 1) : ¬ normSq q < eps := by rw [h]; unfold eps; norm_num

theorem qturn_matrix (axis : Char) (θ : ℝ) : quaternionMatrix (qturn axis θ) = turnAbout axis θ := by
  have hsc := Real.sin_sq_add_cos_sq (θ / 2)
  have hc : Real.cos θ = 1 - 2 * Real.sin (θ / 2) ^ 2 := by
    have := Real.cos_two_mul (θ / 2); rw [mul_div_cancel₀ θ two_ne_zero] at this; linarith
  have hs : Real.sin θ = 2 * Real.sin (θ / 2) * Real.cos (θ / 2) := by
    have := Real.sin_two_mul (θ / 2); rwa [mul_div_cancel₀ θ two_ne_zero] at this
  rw [quaternionMatrix_eq (not_small (qturn_norm _ _)), qturn_norm]
  unfold turnAbout qturn
  split_ifs <;> rw [hc, hs] <;> refine lit ?_ ?_ ?_ ?_ ?_ ?_ ?_ ?_ ?_ <;> simp <;> ring

theorem three_turns (x y z : Char) (a b c : ℝ) :
    quaternionMatrix (quaternionMultiply (quaternionMultiply (qturn x a) (qturn y b)) (qturn z c)) =
      turnAbout x a * turnAbout y b * turnAbout z c := by
  have h1 : normSq (quaternionMultiply (qturn x a) (qturn y b)) = 1 := by
    rw [normSq_multiply, qturn_norm, qturn_norm, one_mul]
  have h2 : normSq (quaternionMultiply (quaternionMultiply (qturn x a) (qturn y b)) (qturn z c)) = 1 := by
    rw [normSq_multiply, h1, qturn_norm, one_mul]
  rw [matrix_multiply (not_small h1) (not_small (qturn_norm _ _)) (not_small h2),
    matrix_multiply (not_small (qturn_norm _ _)) (not_small (qturn_norm _ _)) (not_small h1), qturn_matrix, qturn_matrix, qturn_matrix]

set_option maxHeartbeats 4000000 in
/-- **C111.** The quaternion of Euler angles is the product of the quaternions of the three turns in the name, in all 24
conventions. -/
theorem euler_product {name : List Char} {axes : Axes} (h : (name, axes) ∈ table) (a b c : ℝ) :
    ∃ x y z, (name = ['s', x, y, z] ∧ quaternionFromEuler a b c axes = quaternionMultiply (quaternionMultiply (qturn z c) (qturn y b)) (qturn x a)) ∨
      (name = ['r', x, y, z] ∧ quaternionFromEuler a b c axes = quaternionMultiply (quaternionMultiply (qturn x a) (qturn y b)) (qturn z c)) := by
  have neg2 : ∀ x : ℝ, -x / 2 = -(x / 2) := fun x => by ring
  simp only [table, List.mem_cons, List.not_mem_nil, or_false, Prod.mk.injEq] at h
  rcases h with ⟨rfl, rfl⟩ | ⟨rfl, rfl⟩ | ⟨rfl, rfl⟩ | ⟨rfl, rfl⟩ | ⟨rfl, rfl⟩ | ⟨rfl, rfl⟩ | ⟨rfl, rfl⟩ | ⟨rfl, rfl⟩ |
    ⟨rfl, rfl⟩ | ⟨rfl, rfl⟩ | ⟨rfl, rfl⟩ | ⟨rfl, rfl⟩ | ⟨rfl, rfl⟩ | ⟨rfl, rfl⟩ | ⟨rfl, rfl⟩ | ⟨rfl, rfl⟩ |
    ⟨rfl, rfl⟩ | ⟨rfl, rfl⟩ | ⟨rfl, rfl⟩ | ⟨rfl, rfl⟩ | ⟨rfl, rfl⟩ | ⟨rfl, rfl⟩ | ⟨rfl, rfl⟩ | ⟨rfl, rfl⟩ <;>
  · first
      | refine ⟨_, _, _, .inl ⟨rfl, ?_⟩⟩
      | refine ⟨_, _, _, .inr ⟨rfl, ?_⟩⟩
    simp only [qx, qy, qz]
    funext p
    fin_cases p <;> simp [quaternionFromEuler, quaternionMultiply, Axes.i, Axes.j, Axes.k, nextAxis, neg2] <;> ring

/-- **C111.** The quaternion of Euler angles gives the matrix of these angles. -/
theorem quaternion_euler {name : List Char} {axes : Axes} (h : (name, axes) ∈ table) (a b c : ℝ) :
    quaternionMatrix (quaternionFromEuler a b c axes) = eulerMatrix a b c axes := by
  have e := euler_turns h a b c
  obtain ⟨x, y, z, ⟨rfl, hq⟩ | ⟨rfl, hq⟩⟩ := euler_product h a b c
  · rw [hq, three_turns]
    exact Option.some.inj e
  · rw [hq, three_turns]
    exact Option.some.inj e

end PV.Rotations
