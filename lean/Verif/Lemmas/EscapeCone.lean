import Verif.Props.Directions
import Mathlib.MeasureTheory.Integral.IntervalIntegral.FundThmCalculus
import Mathlib.MeasureTheory.Integral.IntervalIntegral.Periodic
import Mathlib.Analysis.SpecialFunctions.Trigonometric.InverseDeriv
import Mathlib.Analysis.SpecialFunctions.Trigonometric.Deriv
import Mathlib.Analysis.SpecialFunctions.Trigonometric.ArctanDeriv

/-!
The share of uniformly distributed directions near a coordinate axis.
-/

namespace PV.Escape
open PV PV.Spec PV.Directions MeasureTheory Set Real
open scoped ENNReal

noncomputable section

/-- The share of the heights `z` at azimuth `φ` for which the first coordinate is at least `c`. -/
def w (c φ : ℝ) : ℝ := √(cos φ ^ 2 - c ^ 2) / max |cos φ| c

variable {c : ℝ}

theorem w_continuous (h0 : 0 < c) : Continuous (w c) := by
  unfold w
  refine Continuous.div (by fun_prop) (by fun_prop) fun φ => ?_
  exact (lt_of_lt_of_le h0 (le_max_right _ _)).ne'

theorem w_nonneg (h0 : 0 < c) (φ : ℝ) : 0 ≤ w c φ :=
  div_nonneg (sqrt_nonneg _) (h0.le.trans (le_max_right _ _))

theorem w_le_one (h0 : 0 < c) (φ : ℝ) : w c φ ≤ 1 := by
  unfold w
  rw [div_le_one (lt_of_lt_of_le h0 (le_max_right _ _))]
  refine le_trans ?_ (le_max_left _ _)
  rw [← sqrt_sq_eq_abs]
  exact sqrt_le_sqrt (by nlinarith [sq_nonneg c])

theorem w_zero (h0 : 0 < c) {φ : ℝ} (h : |cos φ| ≤ c) : w c φ = 0 := by
  unfold w
  rw [sqrt_eq_zero_of_nonpos, zero_div]
  have := sq_abs (cos φ)
  nlinarith [abs_nonneg (cos φ)]

theorem w_period (φ : ℝ) : w c (φ + π) = w c φ := by
  unfold w; rw [cos_add_pi, neg_sq, abs_neg]

theorem w_even (φ : ℝ) : w c (-φ) = w c φ := by unfold w; rw [cos_neg]

theorem inner (h0 : 0 < c) (h1 : c < 1) : ∫ φ in (0 : ℝ)..arccos c, w c φ = π / 2 * (1 - c) := by
  set a := √(1 - c ^ 2) with ha
  have hcc : 0 < 1 - c ^ 2 := by nlinarith
  have ha0 : 0 < a := sqrt_pos.2 hcc
  have haa : a ^ 2 = 1 - c ^ 2 := sq_sqrt hcc.le
  have hb : 0 ≤ arccos c := arccos_nonneg c
  have hlt : arccos c < π / 2 := by rw [arccos_lt_pi_div_two]; exact h0
  have hcos : ∀ φ ∈ Icc 0 (arccos c), c ≤ cos φ := by
    intro φ hφ
    have := cos_le_cos_of_nonneg_of_le_pi hφ.1 (arccos_le_pi c) hφ.2
    rwa [cos_arccos (by linarith) h1.le] at this
  have key := intervalIntegral.integral_eq_sub_of_hasDerivAt_of_le (a := 0) (b := arccos c)
    (f := fun φ => arcsin (sin φ / a) - c * arcsin (c / a * tan φ)) (f' := w c) hb ?_ ?_
    ((w_continuous h0).intervalIntegrable _ _)
  · rw [key]
    have e1 : sin (arccos c) / a = 1 := by rw [sin_arccos, ← ha, div_self ha0.ne']
    have e2 : c / a * tan (arccos c) = 1 := by
      rw [tan_arccos, ← ha]; field_simp
    rw [e1, e2]
    simp
    ring
  · refine ContinuousOn.sub ?_ ?_
    · exact (continuous_arcsin.comp (by fun_prop : Continuous fun φ => sin φ / a)).continuousOn
    · refine continuousOn_const.mul (continuous_arcsin.comp_continuousOn ?_)
      refine continuousOn_const.mul (continuousOn_tan.mono fun φ hφ => ?_)
      exact (lt_of_lt_of_le h0 (hcos φ hφ)).ne'
  · intro φ hφ
    have hc : c < cos φ := by
      have := cos_lt_cos_of_nonneg_of_le_pi hφ.1.le (arccos_le_pi c) hφ.2
      rwa [cos_arccos (by linarith) h1.le] at this
    have hp : 0 < cos φ := h0.trans hc
    set q := √(cos φ ^ 2 - c ^ 2) with hq
    have hqq : 0 < cos φ ^ 2 - c ^ 2 := by nlinarith
    have hq0 : 0 < q := sqrt_pos.2 hqq
    have hq2 : q ^ 2 = cos φ ^ 2 - c ^ 2 := sq_sqrt hqq.le
    have hsc := sin_sq_add_cos_sq φ
    have r1 : √(1 - (sin φ / a) ^ 2) = q / a := by
      rw [show 1 - (sin φ / a) ^ 2 = (q / a) ^ 2 by
        rw [div_pow, div_pow, haa, hq2]; field_simp; nlinarith]
      exact sqrt_sq (by positivity)
    have r2 : √(1 - (c / a * tan φ) ^ 2) = q / (a * cos φ) := by
      rw [show 1 - (c / a * tan φ) ^ 2 = (q / (a * cos φ)) ^ 2 by
        rw [tan_eq_sin_div_cos, mul_pow, div_pow, div_pow, div_pow, mul_pow, haa, hq2]
        field_simp
        nlinarith]
      exact sqrt_sq (by positivity)
    have ne1 : ∀ {x y : ℝ}, 0 < y → √(1 - x ^ 2) = y → x ≠ -1 ∧ x ≠ 1 := by
      intro x y hy e
      constructor <;> rintro rfl <;> norm_num at e <;> linarith
    have n1 := ne1 (by positivity) r1
    have n2 := ne1 (by positivity) r2
    have d1 := (hasDerivAt_arcsin n1.1 n1.2).comp φ ((hasDerivAt_sin φ).div_const a)
    have d2 := (hasDerivAt_arcsin n2.1 n2.2).comp φ ((hasDerivAt_tan hp.ne').const_mul (c / a))
    have d := d1.sub (d2.const_mul c)
    refine d.congr_deriv ?_
    rw [r1, r2]
    unfold w
    rw [abs_of_pos hp, max_eq_left hc.le, ← hq]
    field_simp
    nlinarith

theorem quarter (h0 : 0 < c) (h1 : c < 1) : ∫ φ in (0 : ℝ)..π / 2, w c φ = π / 2 * (1 - c) := by
  have hlt : arccos c ≤ π / 2 := arccos_le_pi_div_two.2 h0.le
  rw [← intervalIntegral.integral_add_adjacent_intervals ((w_continuous h0).intervalIntegrable 0 (arccos c))
    ((w_continuous h0).intervalIntegrable _ _), inner h0 h1]
  rw [intervalIntegral.integral_congr (g := fun _ => (0 : ℝ))]
  · simp
  · intro φ hφ
    rw [uIcc_of_le hlt] at hφ
    refine w_zero h0 ?_
    rw [abs_of_nonneg (cos_nonneg_of_mem_Icc ⟨by linarith [hφ.1, arccos_nonneg c, pi_pos], hφ.2⟩)]
    have := cos_le_cos_of_nonneg_of_le_pi (arccos_nonneg c) (by linarith [hφ.2, pi_pos]) hφ.1
    rwa [cos_arccos (by linarith) h1.le] at this

theorem whole (h0 : 0 < c) (h1 : c < 1) (t : ℝ) : ∫ φ in t..t + 2 * π, w c φ = 2 * π * (1 - c) := by
  have ii := fun a b => (w_continuous h0).intervalIntegrable (μ := volume) a b
  have per : Function.Periodic (w c) π := w_period
  have e1 : ∀ s, ∫ φ in s..s + π, w c φ = π * (1 - c) := by
    intro s
    rw [per.intervalIntegral_add_eq s (-(π / 2)), show -(π / 2) + π = π / 2 by ring,
      ← intervalIntegral.integral_add_adjacent_intervals (ii _ 0) (ii 0 _), quarter h0 h1]
    have : ∫ φ in -(π / 2)..0, w c φ = ∫ φ in (0 : ℝ)..π / 2, w c φ := by
      have := intervalIntegral.integral_comp_neg (a := 0) (b := π / 2) (w c)
      simp only [w_even, neg_zero] at this
      exact this.symm
    rw [this, quarter h0 h1]; ring
  rw [← intervalIntegral.integral_add_adjacent_intervals (ii t (t + π)) (ii _ _), e1,
    show t + 2 * π = t + π + π by ring, e1]
  ring

/-- The mean over the azimuth. -/
theorem mean_azimuth (h0 : 0 < c) (h1 : c < 1) (t : ℝ) :
    ∫⁻ u in Icc (0 : ℝ) 1, ENNReal.ofReal (w c (2 * π * u + t)) = ENNReal.ofReal (1 - c) := by
  have hc : Continuous fun u : ℝ => w c (2 * π * u + t) := (w_continuous h0).comp (by fun_prop)
  rw [← ofReal_integral_eq_lintegral_ofReal (hc.continuousOn.integrableOn_Icc)
    (Filter.Eventually.of_forall fun u => w_nonneg h0 _)]
  congr 1
  rw [integral_Icc_eq_integral_Ioc, ← intervalIntegral.integral_of_le zero_le_one,
    intervalIntegral.integral_comp_mul_add (w c) (by positivity)]
  have := whole h0 h1 t
  rw [show 2 * π * 1 + t = t + 2 * π by ring, show 2 * π * 0 + t = t by ring, this]
  rw [smul_eq_mul]; field_simp

open Classical in
/-- At a fixed azimuth. -/
theorem mean_height (h0 : 0 < c) {φ k : ℝ} (hk : k ^ 2 = cos φ ^ 2) :
    (∫⁻ v in Icc (0 : ℝ) 1, if c ^ 2 ≤ (sin (arccos (2 * v - 1)) * k) ^ 2 then (1 : ℝ≥0∞) else 0) =
      ENNReal.ofReal (w c φ) := by
  have hw := w_nonneg h0 φ
  have hw1 := w_le_one h0 φ
  have hsq : ∀ v ∈ Icc (0 : ℝ) 1, (sin (arccos (2 * v - 1)) * k) ^ 2 = (1 - (2 * v - 1) ^ 2) * cos φ ^ 2 := by
    intro v hv
    rw [sin_arccos, mul_pow, sq_sqrt (by nlinarith [hv.1, hv.2]), hk]
  by_cases h : |cos φ| < c
  · rw [w_zero h0 h.le, ENNReal.ofReal_zero]
    rw [setLIntegral_congr_fun (g := fun _ => 0) measurableSet_Icc]
    · simp
    · intro v hv
      simp only
      rw [if_neg]
      rw [hsq v hv, not_le]
      have := sq_abs (cos φ)
      nlinarith [abs_nonneg (cos φ), sq_nonneg (2 * v - 1), sq_nonneg (cos φ), mul_nonneg (sq_nonneg (2 * v - 1)) (sq_nonneg (cos φ))]
  · push Not at h
    have hpos : 0 < |cos φ| := h0.trans_le h
    have hwv : w c φ ^ 2 * cos φ ^ 2 = cos φ ^ 2 - c ^ 2 := by
      unfold w
      rw [max_eq_left h, div_pow, sq_sqrt, sq_abs]
      · have : cos φ ≠ 0 := abs_pos.1 hpos
        field_simp
      · have := sq_abs (cos φ); nlinarith
    have hcp : 0 < cos φ ^ 2 := by have := sq_abs (cos φ); nlinarith
    rw [setLIntegral_congr_fun (g := (Icc ((1 - w c φ) / 2) ((1 + w c φ) / 2)).indicator 1) measurableSet_Icc]
    · rw [lintegral_indicator_one measurableSet_Icc, Measure.restrict_apply measurableSet_Icc,
        inter_eq_left.2 (Icc_subset_Icc (by linarith) (by linarith)), Real.volume_Icc]
      congr 1; ring
    · intro v hv
      simp only [indicator, mem_Icc, Pi.one_apply]
      congr 1
      rw [hsq v hv, eq_iff_iff]
      have e : c ^ 2 ≤ (1 - (2 * v - 1) ^ 2) * cos φ ^ 2 ↔ (2 * v - 1) ^ 2 ≤ w c φ ^ 2 := by
        rw [← mul_le_mul_iff_left₀ (b := (2 * v - 1) ^ 2) hcp, hwv]
        constructor <;> intro h <;> nlinarith
      rw [e, sq_le_sq, abs_of_nonneg hw, abs_le]
      constructor
      · rintro ⟨a, b⟩; constructor <;> linarith
      · rintro ⟨a, b⟩; constructor <;> linarith
end
end PV.Escape
