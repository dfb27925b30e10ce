import Verif.Props.Phase
import Verif.Spec.Directions
import Mathlib.MeasureTheory.Function.JacobianOneDim
import Mathlib.Analysis.SpecialFunctions.Trigonometric.Deriv
import Mathlib.Analysis.SpecialFunctions.Sqrt

/-!
C81: directions follow the stated laws. For every function `f` of the direction, the mean over the
uniform numbers drawn is the mean over the sphere with the density of the law; with `f` the indicator
of a set of directions this is the probability of that set.
-/

namespace PV.Directions
open PV PV.Spec MeasureTheory Set Real
open scoped ENNReal

noncomputable section

/-- Numbers read from a list, one after the other. -/
def script : Rand (List ℝ) := ⟨fun l => (l.headD 0, l.tail)⟩

/-- Change of variable: if `P` maps `[0, b]` one-to-one onto `[0, 1]` and `T` is its inverse, the mean
over the uniform number `p` of `g (T p)` is the integral of `g` with weight `|P'|`. -/
theorem substitute {P P' T : ℝ → ℝ} {b : ℝ} (g : ℝ → ℝ≥0∞) (himg : P '' Icc 0 b = Icc 0 1)
    (hd : ∀ x ∈ Icc 0 b, HasDerivWithinAt P (P' x) (Icc 0 b) x)
    (hT : ∀ x ∈ Icc 0 b, T (P x) = x) :
    ∫⁻ p in Icc (0 : ℝ) 1, g (T p) = ∫⁻ x in Icc 0 b, ENNReal.ofReal |P' x| * g x := by
  have inj : InjOn P (Icc 0 b) := fun x hx y hy h => by rw [← hT x hx, ← hT y hy, h]
  rw [← himg, lintegral_image_eq_lintegral_abs_deriv_mul measurableSet_Icc hd inj]
  exact setLIntegral_congr_fun measurableSet_Icc (fun x hx => by simp only [hT x hx])

theorem azimuth (g : ℝ → ℝ≥0∞) :
    ∫⁻ u in Icc (0 : ℝ) 1, g (2 * π * u) =
      ∫⁻ φ in Icc (0 : ℝ) (2 * π), ENNReal.ofReal (1 / (2 * π)) * g φ := by
  have hp : 0 < 2 * π := by positivity
  have := substitute (P := fun φ => φ / (2 * π)) (P' := fun _ => 1 / (2 * π))
    (T := fun u => 2 * π * u) (b := 2 * π) g ?_ ?_ ?_
  · rw [this]; simp only [abs_of_pos (show 0 < 1 / (2 * π) by positivity)]
  · ext y; constructor
    · rintro ⟨x, ⟨h0, h1⟩, rfl⟩; exact ⟨by positivity, (div_le_one hp).2 h1⟩
    · rintro ⟨h0, h1⟩; exact ⟨2 * π * y, ⟨by positivity, by nlinarith⟩, by field_simp⟩
  · intro x _; exact ((hasDerivAt_id x).div_const _).hasDerivWithinAt
  · intro x _; field_simp

/-- Both changes of variable together. -/
theorem law {P P' T w : ℝ → ℝ} {Θ : ℝ} (himg : P '' Icc 0 Θ = Icc 0 1)
    (hd : ∀ x ∈ Icc 0 Θ, HasDerivWithinAt P (P' x) (Icc 0 Θ) x)
    (hT : ∀ x ∈ Icc 0 Θ, T (P x) = x)
    (hw : ∀ x ∈ Icc 0 Θ, 1 / (2 * π) * |P' x| = w x * sin x) (f : Vec3 ℝ → ℝ≥0∞) :
    mean (fun u p => f (onSphere (T p) (2 * π * u))) = capMean Θ w f := by
  unfold mean capMean
  rw [azimuth (fun φ => ∫⁻ p in Icc (0 : ℝ) 1, f (onSphere (T p) φ))]
  refine lintegral_congr (fun φ => ?_)
  rw [substitute (fun θ => f (onSphere θ φ)) himg hd hT, ← lintegral_const_mul' _ _ ENNReal.ofReal_ne_top]
  refine setLIntegral_congr_fun measurableSet_Icc (fun θ hθ => ?_)
  rw [← mul_assoc, ← ENNReal.ofReal_mul (by positivity), hw θ hθ]

theorem image_of_mono {P : ℝ → ℝ} {Θ : ℝ} (h0 : 0 ≤ Θ) (hc : ContinuousOn P (Icc 0 Θ))
    (hr : ∀ x ∈ Icc 0 Θ, P x ∈ Icc (0 : ℝ) 1) (he : P 0 = 0 ∧ P Θ = 1 ∨ P 0 = 1 ∧ P Θ = 0) :
    P '' Icc 0 Θ = Icc 0 1 := by
  apply Subset.antisymm
  · rintro _ ⟨x, hx, rfl⟩; exact hr x hx
  · rcases he with ⟨a, b⟩ | ⟨a, b⟩
    · have := intermediate_value_Icc h0 hc; rwa [a, b] at this
    · have := intermediate_value_Icc' h0 hc; rwa [a, b] at this

/-- **C81** (isotropic). Directions are uniform on the sphere: density `1/4π` per solid angle. -/
theorem isotropic_uniform (f : Vec3 ℝ → ℝ≥0∞) :
    mean (fun u v => f (PV.isotropic script [u, v]).1) = capMean π (fun _ => 1 / (4 * π)) f := by
  refine law (P := fun θ => (cos θ + 1) / 2) (P' := fun θ => -sin θ / 2)
    (T := fun p => arccos (2 * p - 1)) ?_ ?_ ?_ ?_ f
  · refine image_of_mono pi_pos.le (by fun_prop) (fun x _ => ⟨?_, ?_⟩) (Or.inr ⟨by simp, by simp⟩)
    · linarith [neg_one_le_cos x]
    · linarith [cos_le_one x]
  · intro x _; exact (((hasDerivAt_cos x).add_const 1).div_const 2).hasDerivWithinAt
  · intro x hx
    rw [show 2 * ((cos x + 1) / 2) - 1 = cos x by ring, arccos_cos hx.1 hx.2]
  · intro x hx
    have := sin_nonneg_of_mem_Icc hx
    rw [abs_of_nonpos (by linarith)]; field_simp; ring

theorem cone_cap {Θ : ℝ} (h0 : 0 < Θ) (h1 : Θ ≤ π / 2) (f : Vec3 ℝ → ℝ≥0∞) :
    mean (fun u p => f (onSphere (arcsin (√p * sin Θ)) (2 * π * u))) =
      capMean Θ (fun θ => cos θ / (π * sin Θ ^ 2)) f := by
  have hs : 0 < sin Θ := sin_pos_of_pos_of_lt_pi h0 (by linarith [pi_pos])
  have sn : ∀ x ∈ Icc 0 Θ, 0 ≤ sin x := fun x hx =>
    sin_nonneg_of_nonneg_of_le_pi hx.1 (by linarith [hx.2, pi_pos])
  have sl : ∀ x ∈ Icc 0 Θ, sin x ≤ sin Θ := fun x hx =>
    sin_le_sin_of_le_of_le_pi_div_two (by linarith [hx.1, pi_pos]) h1 hx.2
  refine law (P := fun θ => sin θ ^ 2 / sin Θ ^ 2)
    (P' := fun θ => 2 * sin θ * cos θ / sin Θ ^ 2) ?_ ?_ ?_ ?_ f
  · refine image_of_mono h0.le (by fun_prop (disch := positivity)) (fun x hx => ⟨by positivity, ?_⟩)
      (Or.inl ⟨by simp, div_self (by positivity)⟩)
    rw [div_le_one (by positivity)]
    have := sn x hx; have := sl x hx
    gcongr
  · intro x _
    have := (((hasDerivAt_sin x).pow 2).div_const (sin Θ ^ 2)).hasDerivWithinAt (s := Icc 0 Θ)
    simpa using this
  · intro x hx
    rw [← div_pow, sqrt_sq (div_nonneg (sn x hx) hs.le), div_mul_cancel₀ _ hs.ne',
      arcsin_sin (by linarith [hx.1, pi_pos]) (by linarith [hx.2])]
  · intro x hx
    have := sn x hx
    have hc : 0 ≤ cos x := cos_nonneg_of_mem_Icc ⟨by linarith [hx.1, pi_pos], by linarith [hx.2]⟩
    rw [abs_of_nonneg (by positivity)]; field_simp

/-- **C81** (cone). The directions of a cone of half-angle `Θ` fill exactly the cap around z with a
density proportional to `cos θ`. -/
theorem cone_law {Θ : ℝ} (h0 : 1e-8 < Θ) (h1 : Θ ≤ π / 2) (f : Vec3 ℝ → ℝ≥0∞) :
    (∀ u p, ∃ v l, PV.cone script Θ [p, u] = .ok (v, l)) ∧
    mean (fun u p => match PV.cone script Θ [p, u] with
      | .ok (v, _) => f v
      | .error _ => 0) = capMean Θ (fun θ => cos θ / (π * sin Θ ^ 2)) f := by
  have hΘ : 0 < Θ := lt_trans (by norm_num) h0
  have hn : ¬ (|Θ| ≤ 1e-8 ∨ Θ > π / 2) := by
    push Not; rw [abs_of_pos hΘ]; exact ⟨h0, h1⟩
  constructor
  · intro u p; simp only [PV.cone, if_neg hn]; exact ⟨_, _, rfl⟩
  · rw [← cone_cap hΘ h1 f]
    simp only [PV.cone, if_neg hn]
    rfl

/-- **C81** (Lambertian). Density `cos θ / π` per solid angle on the hemisphere around z. -/
theorem lambertian_cosine (f : Vec3 ℝ → ℝ≥0∞) :
    mean (fun u p => f (PV.lambertian script [p, u]).1) =
      capMean (π / 2) (fun θ => cos θ / π) f := by
  have := cone_cap (Θ := π / 2) (by positivity) le_rfl f
  simp only [sin_pi_div_two, mul_one, one_pow] at this
  rw [← this]; rfl

/-- The Henyey–Greenstein cumulative function of the angle. -/
def hgP (g θ : ℝ) : ℝ := (1 - g ^ 2) / (2 * g) * ((√(1 + g ^ 2 - 2 * g * cos θ))⁻¹ - (1 + g)⁻¹)

theorem hg_root {g : ℝ} (hg : |g| < 1) (θ : ℝ) :
    0 < 1 + g ^ 2 - 2 * g * cos θ ∧ 1 - |g| ≤ √(1 + g ^ 2 - 2 * g * cos θ) ∧
      √(1 + g ^ 2 - 2 * g * cos θ) ≤ 1 + |g| := by
  have hc := abs_le.1 (abs_cos_le_one θ)
  have h1 : g * cos θ ≤ |g| := by
    calc g * cos θ ≤ |g * cos θ| := le_abs_self _
      _ = |g| * |cos θ| := abs_mul _ _
      _ ≤ |g| * 1 := mul_le_mul_of_nonneg_left (abs_cos_le_one θ) (abs_nonneg _)
      _ = |g| := mul_one _
  have h2 : -|g| ≤ g * cos θ := by
    have : |g * cos θ| ≤ |g| := by
      rw [abs_mul]; exact mul_le_of_le_one_right (abs_nonneg _) (abs_cos_le_one θ)
    exact (abs_le.1 this).1
  have e : g ^ 2 = |g| ^ 2 := (sq_abs g).symm
  have a0 := abs_nonneg g
  refine ⟨by nlinarith, ?_, ?_⟩
  · apply le_sqrt_of_sq_le; nlinarith
  · apply sqrt_le_iff.2; constructor <;> nlinarith

theorem hg_cap {g : ℝ} (hg : |g| < 1) (hg0 : g ≠ 0) (f : Vec3 ℝ → ℝ≥0∞) :
    mean (fun u p => f (onSphere (arccos (hgMu g p)) (2 * π * u))) = capMean π (hgDensity g) f := by
  have hgl := abs_lt.1 hg
  have ha : 0 < 1 + g := by linarith
  have hb : 0 < 1 - g := by linarith
  have hq : 0 < 1 - g ^ 2 := by nlinarith
  have form : ∀ θ, hgP g θ = (1 - g) * ((1 + g - √(1 + g ^ 2 - 2 * g * cos θ)) / g) /
      (2 * √(1 + g ^ 2 - 2 * g * cos θ)) := by
    intro θ
    have hr := sqrt_pos.2 (hg_root hg θ).1
    unfold hgP
    generalize √(1 + g ^ 2 - 2 * g * cos θ) = q at *
    field_simp; ring
  refine law (P := hgP g)
    (P' := fun θ => -((1 - g ^ 2) / 2 * sin θ / (√(1 + g ^ 2 - 2 * g * cos θ)) ^ 3))
    (T := fun p => arccos (hgMu g p)) ?_ ?_ ?_ ?_ f
  · refine image_of_mono pi_pos.le ?_ (fun θ _ => ?_) (Or.inr ⟨?_, ?_⟩)
    · unfold hgP
      refine ContinuousOn.mul continuousOn_const (ContinuousOn.sub (ContinuousOn.inv₀ ?_ ?_)
        continuousOn_const)
      · fun_prop
      · intro x _; exact (sqrt_pos.2 (hg_root hg x).1).ne'
    · obtain ⟨hQ, hlo, hhi⟩ := hg_root hg θ
      have hr := sqrt_pos.2 hQ
      rw [form]
      generalize √(1 + g ^ 2 - 2 * g * cos θ) = q at *
      rcases lt_or_gt_of_ne hg0 with h | h
      · rw [abs_of_neg h] at hlo hhi
        have e : (1 + g - q) / g = (q - (1 + g)) / (-g) := by field_simp; ring
        rw [e]
        constructor
        · exact div_nonneg (mul_nonneg hb.le (div_nonneg (by linarith) (by linarith))) (by linarith)
        · rw [div_le_one (by linarith), ← mul_div_assoc, div_le_iff₀ (by linarith)]
          nlinarith
      · rw [abs_of_pos h] at hlo hhi
        constructor
        · exact div_nonneg (mul_nonneg hb.le (div_nonneg (by linarith) h.le)) (by linarith)
        · rw [div_le_one (by linarith), ← mul_div_assoc, div_le_iff₀ h]
          nlinarith
    · rw [form, cos_zero, show 1 + g ^ 2 - 2 * g * 1 = (1 - g) ^ 2 by ring, sqrt_sq hb.le]
      field_simp; ring
    · rw [form, cos_pi, show 1 + g ^ 2 - 2 * g * -1 = (1 + g) ^ 2 by ring, sqrt_sq ha.le]
      simp
  · intro θ _
    have hQ := (hg_root hg θ).1
    have hr := sqrt_pos.2 hQ
    have d1 : HasDerivAt (fun θ => 1 + g ^ 2 - 2 * g * cos θ) (2 * g * sin θ) θ := by
      have := ((hasDerivAt_cos θ).const_mul (2 * g)).const_sub (1 + g ^ 2)
      simpa using this
    have d2 := (((d1.sqrt hQ.ne').inv hr.ne').sub_const ((1 + g)⁻¹)).const_mul ((1 - g ^ 2) / (2 * g))
    refine HasDerivAt.hasDerivWithinAt (d2.congr_deriv ?_)
    field_simp
  · intro θ hθ
    have hQ := (hg_root hg θ).1
    have hr := sqrt_pos.2 hQ
    have e : 1 + g * (2 * hgP g θ - 1) = (1 - g ^ 2) / √(1 + g ^ 2 - 2 * g * cos θ) := by
      unfold hgP; field_simp; ring
    have : hgMu g (hgP g θ) = cos θ := by
      simp only [hgMu]
      rw [e, div_div_eq_mul_div, mul_div_cancel_left₀ _ hq.ne', sq_sqrt hQ.le]
      field_simp; ring
    rw [this, arccos_cos hθ.1 hθ.2]
  · intro θ hθ
    have hr := sqrt_pos.2 (hg_root hg θ).1
    have := sin_nonneg_of_mem_Icc hθ
    rw [abs_neg, abs_of_nonneg (by positivity)]
    unfold hgDensity; field_simp; ring

/-- **C81** (Henyey–Greenstein). The directions of a scatterer with anisotropy `g` follow the
Henyey–Greenstein phase function. -/
theorem hg_phase {g : ℝ} (hg : |g| < 1) (hge : epsZero ≤ |g|) (f : Vec3 ℝ → ℝ≥0∞) :
    mean (fun u p => match PV.henyeyGreenstein script g [p, u] with
      | .ok (v, _) => f v
      | .error _ => 0) = capMean π (hgDensity g) f := by
  have hg0 : g ≠ 0 := by
    rintro rfl
    rw [abs_zero] at hge; unfold epsZero at hge; norm_num at hge
  rw [← hg_cap hg hg0 f]
  unfold mean
  refine lintegral_congr (fun u => setLIntegral_congr_fun measurableSet_Icc (fun p hp => ?_))
  have hd := Phase.hg_den hg hp.1 hp.2
  have : ¬ (2 * g = 0 ∨ 1 + g * (2 * p - 1) = 0) := by
    push Not; exact ⟨by simpa using hg0, hd.ne'⟩
  simp only [PV.henyeyGreenstein, script, List.headD_cons, List.tail_cons, if_neg this,
    if_neg (not_lt.2 hge)]
  rfl

/-- **C81** (engine). The engine's directions follow the same laws: uniform for components and lights
tagged isotropic, `cos θ` on the cap for cones of every half-angle up to 90°, and Henyey–Greenstein. -/
theorem engine_laws (f : Vec3 ℝ → ℝ≥0∞) :
    (∀ x, mean (fun u v => f (kSamplePhase script .isotropic x [u, v]).1) =
      capMean π (fun _ => 1 / (4 * π)) f) ∧
    (∀ Θ, 0 < Θ → Θ ≤ π / 2 → mean (fun u p => f (kSamplePhase script .cone Θ [p, u]).1) =
      capMean Θ (fun θ => cos θ / (π * sin Θ ^ 2)) f) ∧
    (∀ g, |g| < 1 → epsZero ≤ |g| →
      mean (fun u p => f (kSamplePhase script .henyeyGreenstein g [p, u]).1) =
        capMean π (hgDensity g) f) := by
  refine ⟨fun x => ?_, fun Θ h0 h1 => ?_, fun g hg hge => ?_⟩
  · rw [← isotropic_uniform f]
    simp [kSamplePhase, PV.isotropic, sphericalToCart]
  · rw [← cone_cap h0 h1 f]
    simp [kSamplePhase, onSphere, script]
  · have hg0 : g ≠ 0 := by
      rintro rfl
      rw [abs_zero] at hge; unfold epsZero at hge; norm_num at hge
    rw [← hg_cap hg hg0 f]
    simp [kSamplePhase, onSphere, script, hge, hgMu, sq]

/-- The probability of a cap: share of the numbers for which the angle to z is at most `t`. -/
theorem cone_share {Θ t : ℝ} (h1 : Θ ≤ π / 2) (t0 : 0 ≤ t) (ht : t ≤ Θ) (hΘ : 0 < Θ) :
    volume {p : ℝ | p ∈ Icc (0 : ℝ) 1 ∧ arcsin (√p * sin Θ) ≤ t} =
      ENNReal.ofReal (sin t ^ 2 / sin Θ ^ 2) := by
  have hs : 0 < sin Θ := sin_pos_of_pos_of_lt_pi hΘ (by linarith [pi_pos])
  have st : 0 ≤ sin t := sin_nonneg_of_nonneg_of_le_pi t0 (by linarith [pi_pos])
  have sl : sin t ≤ sin Θ := sin_le_sin_of_le_of_le_pi_div_two (by linarith [pi_pos]) h1 ht
  have le1 : sin t ^ 2 / sin Θ ^ 2 ≤ 1 := by
    rw [div_le_one (by positivity)]; gcongr
  have e : {p : ℝ | p ∈ Icc (0 : ℝ) 1 ∧ arcsin (√p * sin Θ) ≤ t} =
      Icc 0 (sin t ^ 2 / sin Θ ^ 2) := by
    ext p
    simp only [mem_ofPred_eq, mem_Icc]
    have key : 0 ≤ p → p ≤ 1 → (arcsin (√p * sin Θ) ≤ t ↔ p ≤ sin t ^ 2 / sin Θ ^ 2) := by
      intro p0 p1
      have sp : √p ≤ 1 := sqrt_le_one.2 p1
      rw [arcsin_le_iff_le_sin ⟨by nlinarith [sqrt_nonneg p], by nlinarith [sin_le_one Θ, sqrt_nonneg p]⟩
        ⟨by linarith [pi_pos], by linarith⟩, le_div_iff₀ (by positivity)]
      constructor
      · intro h
        calc p * sin Θ ^ 2 = (√p * sin Θ) ^ 2 := by rw [mul_pow, sq_sqrt p0]
          _ ≤ sin t ^ 2 := by gcongr
      · intro h
        apply le_of_sq_le_sq _ st
        rw [mul_pow, sq_sqrt p0]; exact h
    constructor
    · rintro ⟨⟨a, b⟩, c⟩; exact ⟨a, (key a b).1 c⟩
    · rintro ⟨a, c⟩; exact ⟨⟨a, c.trans le1⟩, (key a (c.trans le1)).2 c⟩
  rw [e, Real.volume_Icc, sub_zero]

/-- The densities are normalised: with `f = 1` every mean is 1. -/
theorem densities_normalised {g : ℝ} (hg : |g| < 1) (hge : epsZero ≤ |g|) :
    capMean π (fun _ => 1 / (4 * π)) 1 = 1 ∧ capMean (π / 2) (fun θ => cos θ / π) 1 = 1 ∧
      capMean π (hgDensity g) 1 = 1 := by
  refine ⟨?_, ?_, ?_⟩
  · rw [← isotropic_uniform]; simp [mean]
  · rw [← lambertian_cosine]; simp [mean]
  · rw [← (engine_laws 1).2.2 g hg hge]; simp [mean]

/-! Non-vacuity: a cone of 45°, half of whose rays are within 30°; scattering with `g = 0.9`. -/

example (f : Vec3 ℝ → ℝ≥0∞) := cone_law (Θ := π / 4) (by linarith [two_le_pi]) (by linarith [pi_pos]) f
example : volume {p : ℝ | p ∈ Icc (0 : ℝ) 1 ∧ arcsin (√p * sin (π / 4)) ≤ π / 6} =
    ENNReal.ofReal (1 / 2) := by
  rw [cone_share (by linarith [pi_pos]) (by positivity) (by linarith [pi_pos]) (by positivity),
    sin_pi_div_six, sin_pi_div_four, div_pow √2, sq_sqrt (by norm_num)]
  norm_num
example (f : Vec3 ℝ → ℝ≥0∞) := hg_phase (g := 0.9) (by norm_num [abs_of_pos])
  (by rw [abs_of_pos (by norm_num)]; unfold epsZero; norm_num) f

end
end PV.Directions
