import Verif.Lemmas.Sphere
import Verif.Lemmas.Chance
import Verif.Props.Directions

/-!
Isotropic directions have no preferred orientation.
-/

namespace PV.Sphere
open MeasureTheory Set Real PV.Spec
open scoped ENNReal
noncomputable section

/-- Half a turn about z. -/
def half : Affine ℝ := ⟨⟨-1, 0, 0⟩, ⟨0, -1, 0⟩, ⟨0, 0, 1⟩, ⟨0, 0, 0⟩⟩

theorem half_rigid : half.Rigid := by
  refine ⟨?_, ?_, ?_, ?_, ?_, ?_⟩ <;> norm_num [half, Vec3.dot]

theorem cap_sphere {f : Vec3 ℝ → ℝ≥0∞} (hf : MeasurableVec f) :
    capMean π (fun _ => 1 / (4 * π)) f = ENNReal.ofReal (1 / (4 * π)) * sphereMean f := by
  rw [← sphere_turn half_rigid hf]
  unfold capMean sphereMean
  have h1 : ∀ φ : ℝ, ∫⁻ θ in Icc 0 π, ENNReal.ofReal (1 / (4 * π) * sin θ) * f (onSphere θ φ) =
      ENNReal.ofReal (1 / (4 * π)) * ∫⁻ θ in Ioo 0 π, ENNReal.ofReal (sin θ) * f (onSphere θ φ) := by
    intro φ
    rw [setLIntegral_congr Ioo_ae_eq_Icc.symm, ← lintegral_const_mul' _ _ ENNReal.ofReal_ne_top]
    refine lintegral_congr fun θ => ?_
    rw [ENNReal.ofReal_mul (by positivity), mul_assoc]
  simp only [h1]
  rw [lintegral_const_mul' _ _ ENNReal.ofReal_ne_top, setLIntegral_congr Ioo_ae_eq_Icc.symm]
  congr 1
  have h2 := (measurePreserving_add_right (volume : Measure ℝ) π).setLIntegral_comp_preimage_emb
    (measurableEmbedding_addRight π) (fun φ => ∫⁻ θ in Ioo 0 π, ENNReal.ofReal (sin θ) * f (onSphere θ φ)) (Ioo 0 (2 * π))
  rw [← h2]
  have e : (fun x => x + π) ⁻¹' Ioo 0 (2 * π) = Ioo (-π) π := by
    ext x
    simp only [mem_preimage, mem_Ioo]
    constructor <;> rintro ⟨a, b⟩ <;> constructor <;> linarith
  rw [e]
  refine lintegral_congr fun φ => lintegral_congr fun θ => ?_
  congr 2
  simp [onSphere, half, Affine.vec, Vec3.dot, cos_add_pi, sin_add_pi]

theorem turned_measurable {m : Affine ℝ} (hm : m.Rigid) {f : Vec3 ℝ → ℝ≥0∞} (hf : MeasurableVec f) :
    MeasurableVec (fun d => f (m.vec d)) :=
  Measurable.comp (g := fun p => f (toVec p)) hf (turn_preserving hm).measurable

/-- **C81**, **C115**. Isotropic directions are as likely in any orientation: the mean of a quantity over the numbers drawn is the
same if all directions are turned. -/
theorem isotropic_turned {m : Affine ℝ} (hm : m.Rigid) {f : Vec3 ℝ → ℝ≥0∞} (hf : MeasurableVec f) :
    mean (fun u v => f (m.vec (PV.isotropic Directions.script [u, v]).1)) =
      mean (fun u v => f (PV.isotropic Directions.script [u, v]).1) := by
  rw [Directions.isotropic_uniform, Directions.isotropic_uniform (fun d => f (m.vec d)), cap_sphere hf,
    cap_sphere (f := fun d => f (m.vec d)) (turned_measurable hm hf), sphere_turn hm hf]

end
end PV.Sphere
