import Verif.Model.Rotations
import Verif.Spec.Rotations
import Verif.Props.Transformable
import Mathlib.Tactic.FinCases
import Mathlib.LinearAlgebra.Matrix.Determinant.Basic

/-!
C111: matrices, Euler angles and quaternions describe the same rotations.
-/

namespace PV.Rotations
open PV.Spec

theorem eps_pos : 0 < eps := by unfold eps; positivity

theorem lit {a b c d e f g h i a' b' c' d' e' f' g' h' i' : ℝ} (h1 : a = a') (h2 : b = b') (h3 : c = c') (h4 : d = d')
    (h5 : e = e') (h6 : f = f') (h7 : g = g') (h8 : h = h') (h9 : i = i') :
    (!![a, b, c; d, e, f; g, h, i] : Mat) = !![a', b', c'; d', e', f'; g', h', i'] := by
  subst h1 h2 h3 h4 h5 h6 h7 h8 h9; rfl

theorem place_012 (m : Mat) : place 0 1 2 m = !![m 0 0, m 0 1, m 0 2; m 1 0, m 1 1, m 1 2; m 2 0, m 2 1, m 2 2] := by
  ext p r
  fin_cases p <;> fin_cases r <;> rfl

theorem place_120 (m : Mat) : place 1 2 0 m = !![m 2 2, m 2 0, m 2 1; m 0 2, m 0 0, m 0 1; m 1 2, m 1 0, m 1 1] := by
  ext p r
  fin_cases p <;> fin_cases r <;> rfl

theorem place_201 (m : Mat) : place 2 0 1 m = !![m 1 1, m 1 2, m 1 0; m 2 1, m 2 2, m 2 0; m 0 1, m 0 2, m 0 0] := by
  ext p r
  fin_cases p <;> fin_cases r <;> rfl

theorem place_021 (m : Mat) : place 0 2 1 m = !![m 0 0, m 0 2, m 0 1; m 2 0, m 2 2, m 2 1; m 1 0, m 1 2, m 1 1] := by
  ext p r
  fin_cases p <;> fin_cases r <;> rfl

theorem place_102 (m : Mat) : place 1 0 2 m = !![m 1 1, m 1 0, m 1 2; m 0 1, m 0 0, m 0 2; m 2 1, m 2 0, m 2 2] := by
  ext p r
  fin_cases p <;> fin_cases r <;> rfl

theorem place_210 (m : Mat) : place 2 1 0 m = !![m 2 2, m 2 1, m 2 0; m 1 2, m 1 1, m 1 0; m 0 2, m 0 1, m 0 0] := by
  ext p r
  fin_cases p <;> fin_cases r <;> rfl

theorem turn_x (θ : ℝ) : turnAbout 'x' θ = !![1, 0, 0; 0, Real.cos θ, -Real.sin θ; 0, Real.sin θ, Real.cos θ] := rfl
theorem turn_y (θ : ℝ) : turnAbout 'y' θ = !![Real.cos θ, 0, Real.sin θ; 0, 1, 0; -Real.sin θ, 0, Real.cos θ] := rfl
theorem turn_z (θ : ℝ) : turnAbout 'z' θ = !![Real.cos θ, -Real.sin θ, 0; Real.sin θ, Real.cos θ, 0; 0, 0, 1] := rfl

set_option maxHeartbeats 4000000 in
/-- **C111, Euler angles.** Each of the 24 conventions turns about the axes in its name, in that order. -/
theorem euler_turns {name : List Char} {axes : Axes} (h : (name, axes) ∈ table) (a b c : ℝ) :
    turns name a b c = some (eulerMatrix a b c axes) := by
  simp only [table, List.mem_cons, List.not_mem_nil, or_false, Prod.mk.injEq] at h
  rcases h with ⟨rfl, rfl⟩ | ⟨rfl, rfl⟩ | ⟨rfl, rfl⟩ | ⟨rfl, rfl⟩ | ⟨rfl, rfl⟩ | ⟨rfl, rfl⟩ | ⟨rfl, rfl⟩ | ⟨rfl, rfl⟩ |
    ⟨rfl, rfl⟩ | ⟨rfl, rfl⟩ | ⟨rfl, rfl⟩ | ⟨rfl, rfl⟩ | ⟨rfl, rfl⟩ | ⟨rfl, rfl⟩ | ⟨rfl, rfl⟩ | ⟨rfl, rfl⟩ |
    ⟨rfl, rfl⟩ | ⟨rfl, rfl⟩ | ⟨rfl, rfl⟩ | ⟨rfl, rfl⟩ | ⟨rfl, rfl⟩ | ⟨rfl, rfl⟩ | ⟨rfl, rfl⟩ | ⟨rfl, rfl⟩ <;>
  · refine congrArg some ?_
    first
      | refine Eq.trans ?_ (place_012 _).symm
      | refine Eq.trans ?_ (place_120 _).symm
      | refine Eq.trans ?_ (place_201 _).symm
      | refine Eq.trans ?_ (place_021 _).symm
      | refine Eq.trans ?_ (place_102 _).symm
      | refine Eq.trans ?_ (place_210 _).symm
    simp only [turn_x, turn_y, turn_z, Matrix.mul_fin_three]
    refine lit ?_ ?_ ?_ ?_ ?_ ?_ ?_ ?_ ?_ <;> simp [Real.sin_neg, Real.cos_neg] <;> ring

/-- The default of `euler_matrix`: a about x, then b about y, then c about z, all fixed. -/
example (a b c : ℝ) : eulerMatrix a b c ⟨0, false, false, false⟩ = turnAbout 'z' c * turnAbout 'y' b * turnAbout 'x' a :=
  (Option.some.inj (euler_turns (name := ['s', 'x', 'y', 'z']) (by simp [table]) a b c)).symm

end PV.Rotations
