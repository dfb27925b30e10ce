import Verif.Spec.Directions
import Verif.Lemmas.Vec
import Mathlib.Analysis.SpecialFunctions.PolarCoord
import Mathlib.MeasureTheory.Measure.Lebesgue.EqHaar
import Mathlib.Analysis.SpecialFunctions.Integrals.Basic

/-!
The uniform law on the sphere does not change when the sphere is turned. Solid angles are volumes in the ball.
-/

namespace PV.Sphere
open MeasureTheory Set Real PV.Spec
open scoped ENNReal
noncomputable section

/-- Spherical coordinates, for points `(z, x, y)`. -/
theorem spherical {G : ℝ × ℝ × ℝ → ℝ≥0∞} (hG : Measurable G) :
    ∫⁻ p, G p = ∫⁻ φ in Ioo (-π) π, ∫⁻ w in Ioi (0 : ℝ) ×ˢ Ioo (-π) π,
      ENNReal.ofReal w.1 * (ENNReal.ofReal (w.1 * sin w.2) *
        G (w.1 * cos w.2, w.1 * sin w.2 * cos φ, w.1 * sin w.2 * sin φ)) := by
  have h1 : ∫⁻ p, G p = ∫⁻ z : ℝ, ∫⁻ q in Ioi (0 : ℝ) ×ˢ Ioo (-π) π,
      ENNReal.ofReal q.1 * G (z, q.1 * cos q.2, q.1 * sin q.2) := by
    rw [Measure.volume_eq_prod, lintegral_prod _ hG.aemeasurable]
    refine lintegral_congr fun z => ?_
    rw [← lintegral_comp_polarCoord_symm]
    rfl
  have h2 : ∀ z : ℝ, ∫⁻ q in Ioi (0 : ℝ) ×ˢ Ioo (-π) π, ENNReal.ofReal q.1 * G (z, q.1 * cos q.2, q.1 * sin q.2) =
      ∫⁻ r in Ioi (0 : ℝ), ∫⁻ φ in Ioo (-π) π, ENNReal.ofReal r * G (z, r * cos φ, r * sin φ) := by
    intro z
    rw [Measure.volume_eq_prod, ← Measure.prod_restrict, lintegral_prod]
    exact Measurable.aemeasurable (by fun_prop)
  rw [h1]
  simp only [h2]
  rw [← lintegral_prod (fun w : ℝ × ℝ => ∫⁻ φ in Ioo (-π) π, ENNReal.ofReal w.2 * G (w.1, w.2 * cos φ, w.2 * sin φ))
    (Measurable.aemeasurable (Measurable.lintegral_prod_right' (f := fun x : (ℝ × ℝ) × ℝ =>
      ENNReal.ofReal x.1.2 * G (x.1.1, x.1.2 * cos x.2, x.1.2 * sin x.2)) (by fun_prop)))]
  rw [lintegral_lintegral_swap (Measurable.aemeasurable (by unfold Function.uncurry; fun_prop))]
  refine lintegral_congr fun φ => ?_
  have h3 : ∫⁻ w : ℝ × ℝ, ENNReal.ofReal w.2 * G (w.1, w.2 * cos φ, w.2 * sin φ) ∂(volume.prod (volume.restrict (Ioi 0))) =
      ∫⁻ w : ℝ × ℝ, ENNReal.ofReal w.2 * G (w.1, w.2 * cos φ, w.2 * sin φ) := by
    have : (volume : Measure ℝ).prod (volume.restrict (Ioi (0 : ℝ))) = (volume : Measure (ℝ × ℝ)).restrict (univ ×ˢ Ioi 0) := by
      rw [Measure.volume_eq_prod, ← Measure.prod_restrict, Measure.restrict_univ]
    rw [this, ← lintegral_indicator (MeasurableSet.univ.prod measurableSet_Ioi)]
    refine lintegral_congr fun w => ?_
    by_cases hw : 0 < w.2
    · rw [indicator_of_mem (show w ∈ univ ×ˢ Ioi (0 : ℝ) from ⟨trivial, hw⟩)]
    · rw [indicator_of_notMem (fun h => hw h.2), ENNReal.ofReal_of_nonpos (not_lt.1 hw), zero_mul]
  rw [h3, ← lintegral_comp_polarCoord_symm]
  rfl

/-- Means over the sphere as means over the ball. -/
theorem ball_mean {f : ℝ × ℝ × ℝ → ℝ≥0∞} (hf : Measurable f) (hr : ∀ ρ > (0 : ℝ), ∀ p, f (ρ • p) = f p) :
    ∫⁻ p in {p : ℝ × ℝ × ℝ | p.1 ^ 2 + p.2.1 ^ 2 + p.2.2 ^ 2 < 1}, f p = ENNReal.ofReal (1 / 3) *
      ∫⁻ φ in Ioo (-π) π, ∫⁻ θ in Ioo 0 π, ENNReal.ofReal (sin θ) * f (cos θ, sin θ * cos φ, sin θ * sin φ) := by
  have hB : MeasurableSet {p : ℝ × ℝ × ℝ | p.1 ^ 2 + p.2.1 ^ 2 + p.2.2 ^ 2 < 1} :=
    measurableSet_lt (by fun_prop) measurable_const
  rw [← lintegral_indicator hB, spherical (hf.indicator hB), ← lintegral_const_mul']
  swap
  · exact ENNReal.ofReal_ne_top
  refine lintegral_congr fun φ => ?_
  rw [Measure.volume_eq_prod, ← Measure.prod_restrict, lintegral_prod_symm]
  swap
  · exact Measurable.aemeasurable (by
      have := hf.indicator hB
      fun_prop)
  have hρ : ∫⁻ ρ in Ioo (0 : ℝ) 1, ENNReal.ofReal (ρ ^ 2) = ENNReal.ofReal (1 / 3) := by
    rw [← ofReal_integral_eq_lintegral_ofReal]
    · rw [← integral_Ioc_eq_integral_Ioo, ← intervalIntegral.integral_of_le zero_le_one, integral_pow]
      norm_num
    · exact ((continuous_pow 2).integrableOn_Icc (a := 0) (b := 1)).mono_set Ioo_subset_Icc_self
    · exact Filter.Eventually.of_forall fun ρ => sq_nonneg ρ
  have key : ∀ θ : ℝ, ∫⁻ ρ in Ioi (0 : ℝ), ENNReal.ofReal ρ * (ENNReal.ofReal (ρ * sin θ) *
        indicator {p : ℝ × ℝ × ℝ | p.1 ^ 2 + p.2.1 ^ 2 + p.2.2 ^ 2 < 1} f
          (ρ * cos θ, ρ * sin θ * cos φ, ρ * sin θ * sin φ)) =
      ENNReal.ofReal (1 / 3) * (ENNReal.ofReal (sin θ) * f (cos θ, sin θ * cos φ, sin θ * sin φ)) := by
    intro θ
    rw [← hρ, ← lintegral_mul_const _ (by fun_prop), ← lintegral_indicator measurableSet_Ioi,
      ← lintegral_indicator measurableSet_Ioo]
    refine lintegral_congr fun ρ => ?_
    by_cases h0 : 0 < ρ
    · rw [indicator_of_mem (show ρ ∈ Ioi (0 : ℝ) from h0)]
      have e : (ρ * cos θ) ^ 2 + (ρ * sin θ * cos φ) ^ 2 + (ρ * sin θ * sin φ) ^ 2 = ρ ^ 2 := by
        have h1 := sin_sq_add_cos_sq θ
        have h2 := sin_sq_add_cos_sq φ
        linear_combination ρ ^ 2 * h1 + ρ ^ 2 * sin θ ^ 2 * h2
      by_cases h1 : ρ < 1
      · rw [indicator_of_mem (show ρ ∈ Ioo (0 : ℝ) 1 from ⟨h0, h1⟩), indicator_of_mem (by
          simp only [mem_ofPred_eq]
          rw [e]
          nlinarith)]
        have := hr ρ h0 (cos θ, sin θ * cos φ, sin θ * sin φ)
        rw [show ρ • (cos θ, sin θ * cos φ, sin θ * sin φ) = (ρ * cos θ, ρ * sin θ * cos φ, ρ * sin θ * sin φ) by
          simp [mul_assoc]] at this
        rw [this, ENNReal.ofReal_mul h0.le, pow_two, ENNReal.ofReal_mul h0.le]
        ring
      · rw [indicator_of_notMem (s := Ioo (0 : ℝ) 1) (fun h => h1 h.2), indicator_of_notMem (by
          simp only [mem_ofPred_eq]
          rw [e]
          push Not at h1 ⊢
          nlinarith)]
        simp
    · rw [indicator_of_notMem (s := Ioi (0 : ℝ)) h0, indicator_of_notMem (s := Ioo (0 : ℝ) 1) (fun h => h0 h.1)]
  simp only [key]
  rw [lintegral_const_mul' _ _ ENNReal.ofReal_ne_top, ← lintegral_indicator measurableSet_Ioo,
    ← lintegral_indicator measurableSet_Ioo]
  congr 1
  refine lintegral_congr fun θ => ?_
  by_cases h : θ ∈ Ioo 0 π
  · rw [indicator_of_mem h, indicator_of_mem (show θ ∈ Ioo (-π) π from ⟨by linarith [h.1, pi_pos], h.2⟩)]
  · rw [indicator_of_notMem h]
    by_cases h' : θ ∈ Ioo (-π) π
    · rw [indicator_of_mem h']
      have : θ ≤ 0 := by
        by_contra hc
        exact h ⟨not_le.1 hc, h'.2⟩
      rw [ENNReal.ofReal_of_nonpos (sin_nonpos_of_nonpos_of_neg_pi_le this h'.1.le), zero_mul]
    · rw [indicator_of_notMem h']

/-- The point `(z, x, y)` as a vector. -/
def toVec (p : ℝ × ℝ × ℝ) : Vec3 ℝ := ⟨p.2.1, p.2.2, p.1⟩

/-- The length of a vector. -/
def len (p : ℝ × ℝ × ℝ) : ℝ := √(p.1 ^ 2 + p.2.1 ^ 2 + p.2.2 ^ 2)

/-- A rotation or reflection of space. -/
def turn (m : Affine ℝ) : (ℝ × ℝ × ℝ) →ₗ[ℝ] (ℝ × ℝ × ℝ) where
  toFun p := ((m.vec (toVec p)).z, (m.vec (toVec p)).x, (m.vec (toVec p)).y)
  map_add' p q := by simp [toVec, Affine.vec, Vec3.dot]; refine ⟨?_, ?_, ?_⟩ <;> ring
  map_smul' a p := by simp [toVec, Affine.vec, Vec3.dot]; refine ⟨?_, ?_, ?_⟩ <;> ring

theorem toVec_turn (m : Affine ℝ) (p : ℝ × ℝ × ℝ) : toVec (turn m p) = m.vec (toVec p) := rfl

theorem square_turn {m : Affine ℝ} (hm : m.Rigid) (p : ℝ × ℝ × ℝ) :
    (turn m p).1 ^ 2 + (turn m p).2.1 ^ 2 + (turn m p).2.2 ^ 2 = p.1 ^ 2 + p.2.1 ^ 2 + p.2.2 ^ 2 := by
  have h := hm.dot_vec (toVec p) (toVec p)
  rw [← toVec_turn] at h
  simp only [Vec3.dot, toVec] at h
  linarith

theorem turn_preserving {m : Affine ℝ} (hm : m.Rigid) : MeasurePreserving (turn m) volume volume := by
  have : (volume : Measure (ℝ × ℝ)).IsAddHaarMeasure := by rw [Measure.volume_eq_prod]; infer_instance
  have : (volume : Measure (ℝ × ℝ × ℝ)).IsAddHaarMeasure := by rw [Measure.volume_eq_prod]; infer_instance
  have hinj : Function.Injective (turn m) := by
    rw [← LinearMap.ker_eq_bot, LinearMap.ker_eq_bot']
    intro p hp
    have h := square_turn hm p
    rw [hp] at h
    simp only [Prod.fst_zero, Prod.snd_zero] at h
    have e1 : p.1 = 0 := by nlinarith [sq_nonneg p.1, sq_nonneg p.2.1, sq_nonneg p.2.2]
    have e2 : p.2.1 = 0 := by nlinarith [sq_nonneg p.1, sq_nonneg p.2.1, sq_nonneg p.2.2]
    have e3 : p.2.2 = 0 := by nlinarith [sq_nonneg p.1, sq_nonneg p.2.1, sq_nonneg p.2.2]
    exact Prod.ext e1 (Prod.ext e2 e3)
  have hdet : LinearMap.det (turn m) ≠ 0 := by
    intro h
    have := LinearMap.bot_lt_ker_of_det_eq_zero h
    rw [LinearMap.ker_eq_bot.2 hinj] at this
    exact lt_irrefl _ this
  have hB : MeasurableSet {p : ℝ × ℝ × ℝ | p.1 ^ 2 + p.2.1 ^ 2 + p.2.2 ^ 2 < 1} :=
    measurableSet_lt (by fun_prop) measurable_const
  have hone : ENNReal.ofReal |(LinearMap.det (turn m))⁻¹| = 1 := by
    have h := Measure.addHaar_preimage_linearMap volume hdet {p : ℝ × ℝ × ℝ | p.1 ^ 2 + p.2.1 ^ 2 + p.2.2 ^ 2 < 1}
    have e : turn m ⁻¹' {p : ℝ × ℝ × ℝ | p.1 ^ 2 + p.2.1 ^ 2 + p.2.2 ^ 2 < 1} =
        {p : ℝ × ℝ × ℝ | p.1 ^ 2 + p.2.1 ^ 2 + p.2.2 ^ 2 < 1} := by
      ext p
      simp only [mem_preimage, mem_ofPred_eq, square_turn hm]
    rw [e] at h
    have hpos : volume {p : ℝ × ℝ × ℝ | p.1 ^ 2 + p.2.1 ^ 2 + p.2.2 ^ 2 < 1} ≠ 0 :=
      (IsOpen.measure_pos volume (isOpen_lt (by fun_prop) continuous_const) ⟨0, by simp⟩).ne'
    have hfin : volume {p : ℝ × ℝ × ℝ | p.1 ^ 2 + p.2.1 ^ 2 + p.2.2 ^ 2 < 1} ≠ ⊤ := by
      refine ne_top_of_le_ne_top (b := volume (Metric.closedBall (0 : ℝ × ℝ × ℝ) 1)) measure_closedBall_lt_top.ne
        (measure_mono fun p hp => ?_)
      simp only [mem_ofPred_eq] at hp
      rw [mem_closedBall_zero_iff, Prod.norm_def, Prod.norm_def]
      simp only [sup_le_iff, norm_eq_abs]
      refine ⟨?_, ?_, ?_⟩ <;> rw [← sq_le_one_iff_abs_le_one] <;> nlinarith [sq_nonneg p.1, sq_nonneg p.2.1, sq_nonneg p.2.2]
    have := (ENNReal.mul_left_inj (a := ENNReal.ofReal |(LinearMap.det (turn m))⁻¹|) (b := 1) hpos hfin).1 (by rw [one_mul]; exact h.symm)
    exact this
  refine ⟨(LinearMap.continuous_of_finiteDimensional (turn m)).measurable, ?_⟩
  rw [Measure.map_linearMap_addHaar_eq_smul_addHaar volume hdet, hone, one_smul]

/-- Measurable functions of a vector. -/
def MeasurableVec (f : Vec3 ℝ → ℝ≥0∞) : Prop := Measurable fun p : ℝ × ℝ × ℝ => f (toVec p)

/-- The mean over the sphere, up to a factor. -/
def sphereMean (f : Vec3 ℝ → ℝ≥0∞) : ℝ≥0∞ :=
  ∫⁻ φ in Ioo (-π) π, ∫⁻ θ in Ioo 0 π, ENNReal.ofReal (sin θ) * f (onSphere θ φ)

theorem len_scale {ρ : ℝ} (h : 0 < ρ) (p : ℝ × ℝ × ℝ) : len (ρ • p) = ρ * len p := by
  unfold len
  rw [show (ρ • p).1 ^ 2 + (ρ • p).2.1 ^ 2 + (ρ • p).2.2 ^ 2 = ρ ^ 2 * (p.1 ^ 2 + p.2.1 ^ 2 + p.2.2 ^ 2) by
    simp only [Prod.smul_fst, Prod.smul_snd, smul_eq_mul]; ring, sqrt_mul (sq_nonneg ρ), sqrt_sq h.le]

theorem sphere_ball {f : Vec3 ℝ → ℝ≥0∞} (hf : MeasurableVec f) :
    ∫⁻ p in {p : ℝ × ℝ × ℝ | p.1 ^ 2 + p.2.1 ^ 2 + p.2.2 ^ 2 < 1}, f (toVec ((len p)⁻¹ • p)) =
      ENNReal.ofReal (1 / 3) * sphereMean f := by
  rw [ball_mean (f := fun p => f (toVec ((len p)⁻¹ • p))) (hf.comp (by unfold len; fun_prop))]
  · unfold sphereMean
    congr 1
    refine lintegral_congr fun φ => lintegral_congr fun θ => ?_
    have : len (cos θ, sin θ * cos φ, sin θ * sin φ) = 1 := by
      unfold len
      rw [show cos θ ^ 2 + (sin θ * cos φ) ^ 2 + (sin θ * sin φ) ^ 2 = 1 by
        have h1 := sin_sq_add_cos_sq θ
        have h2 := sin_sq_add_cos_sq φ
        linear_combination h1 + sin θ ^ 2 * h2, sqrt_one]
    rw [this, inv_one, one_smul]
    rfl
  · intro ρ hρ p
    rw [len_scale hρ, smul_smul, mul_inv, mul_comm ρ⁻¹, mul_assoc, inv_mul_cancel₀ hρ.ne', mul_one]

theorem sphere_turn {m : Affine ℝ} (hm : m.Rigid) {f : Vec3 ℝ → ℝ≥0∞} (hf : MeasurableVec f) :
    sphereMean (fun d => f (m.vec d)) = sphereMean f := by
  have hg : MeasurableVec fun d => f (m.vec d) := hf.comp (turn_preserving hm).measurable
  have h1 := sphere_ball hg
  have h2 := sphere_ball hf
  have e : ∀ p, f (m.vec (toVec ((len p)⁻¹ • p))) = f (toVec ((len (turn m p))⁻¹ • turn m p)) := by
    intro p
    rw [← toVec_turn, map_smul]
    unfold len
    rw [square_turn hm]
  have h3 : ∫⁻ p in {p : ℝ × ℝ × ℝ | p.1 ^ 2 + p.2.1 ^ 2 + p.2.2 ^ 2 < 1}, f (m.vec (toVec ((len p)⁻¹ • p))) =
      ∫⁻ p in {p : ℝ × ℝ × ℝ | p.1 ^ 2 + p.2.1 ^ 2 + p.2.2 ^ 2 < 1}, f (toVec ((len p)⁻¹ • p)) := by
    have hB : MeasurableSet {p : ℝ × ℝ × ℝ | p.1 ^ 2 + p.2.1 ^ 2 + p.2.2 ^ 2 < 1} :=
      measurableSet_lt (by fun_prop) measurable_const
    have hm' : Measurable fun p : ℝ × ℝ × ℝ => (len p)⁻¹ • p := by unfold len; fun_prop
    have hF : Measurable fun p : ℝ × ℝ × ℝ => f (toVec ((len p)⁻¹ • p)) := hf.comp hm'
    have h := (turn_preserving hm).setLIntegral_comp_preimage hB hF
    rw [← h]
    have e2 : turn m ⁻¹' {p : ℝ × ℝ × ℝ | p.1 ^ 2 + p.2.1 ^ 2 + p.2.2 ^ 2 < 1} =
        {p : ℝ × ℝ × ℝ | p.1 ^ 2 + p.2.1 ^ 2 + p.2.2 ^ 2 < 1} := by
      ext p
      simp only [mem_preimage, mem_ofPred_eq, square_turn hm]
    rw [e2]
    exact lintegral_congr e
  rw [h1, h2] at h3
  exact (ENNReal.mul_right_inj (by simp) ENNReal.ofReal_ne_top).1 h3

end
end PV.Sphere
