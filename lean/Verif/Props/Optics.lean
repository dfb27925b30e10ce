import Verif.Model.Optics
import Verif.Lemmas.Vec
import Mathlib.Analysis.SpecialFunctions.Trigonometric.Bounds

/-!
C35 Fresnel reflectivity, C36 specular reflection, C37 refraction, C38 total internal reflection,
C40 independence of the frame in which the surface interaction is computed.
-/

namespace PV.Optics
open PV Real
noncomputable section

/-! ### C35 -/

/-- Below the critical angle (or into a denser medium) `fresnelR` is given by the two polarised
amplitudes, with `k` the cosine of the refracted angle. -/
private theorem fresnelR_eq {θ n1 n2 : ℝ} (h1 : 0 < n1) (h2 : 0 < n2) (h0 : 0 ≤ θ) (hp : θ < π / 2)
    (hs : n1 * sin θ ≤ n2) :
    ∃ k, 0 ≤ k ∧ k ^ 2 = 1 - (n1 / n2 * sin θ) ^ 2 ∧
      fresnelR θ n1 n2 = some (0.5 * (((n1 * cos θ - n2 * k) / (n1 * cos θ + n2 * k)) ^ 2 +
        ((n1 * k - n2 * cos θ) / (n1 * k + n2 * cos θ)) ^ 2)) := by
  have hc : 0 < cos θ := cos_pos_of_mem_Ioo ⟨by linarith [pi_pos], hp⟩
  have hsin : 0 ≤ sin θ := sin_nonneg_of_nonneg_of_le_pi h0 (by linarith [pi_pos])
  have hr : n1 / n2 * sin θ ≤ 1 := by
    rw [div_mul_eq_mul_div, div_le_one h2]; exact hs
  have hr0 : 0 ≤ n1 / n2 * sin θ := by positivity
  have hq : 0 ≤ 1 - (n1 / n2 * sin θ) ^ 2 := by nlinarith
  refine ⟨√(1 - (n1 / n2 * sin θ) ^ 2), sqrt_nonneg _, sq_sqrt hq, ?_⟩
  have hnt : ¬ (n2 < n1 ∧ θ > arcsin (n2 / n1)) := by
    rintro ⟨_, h⟩
    have : sin θ ≤ n2 / n1 := by rw [le_div_iff₀ h1]; linarith
    have h' : θ ≤ arcsin (n2 / n1) := by
      rw [← arcsin_sin (by linarith [pi_pos]) hp.le]
      exact monotone_arcsin this
    linarith
  have hk := sqrt_nonneg (1 - (n1 / n2 * sin θ) ^ 2)
  have ha : n1 * cos θ + n2 * √(1 - (n1 / n2 * sin θ) ^ 2) ≠ 0 := by positivity
  have hb : n1 * √(1 - (n1 / n2 * sin θ) ^ 2) + n2 * cos θ ≠ 0 := by positivity
  simp only [fresnelR, if_neg hnt, if_neg (not_lt.2 hq), ha, hb, or_self, if_false]

private theorem ratio_sq_le {a b : ℝ} (ha : 0 < a) (hb : 0 ≤ b) : ((a - b) / (a + b)) ^ 2 ≤ 1 := by
  rw [div_pow, div_le_one (by positivity)]
  nlinarith

/-- **C35** (total internal reflection). Above the critical angle everything is reflected. -/
theorem reflectivity_tir {θ n1 n2 : ℝ} (h1 : 0 < n1) (_h0 : 0 ≤ θ) (hp : θ < π / 2)
    (hs : n2 < n1 * sin θ) : fresnelR θ n1 n2 = some 1 := by
  have hn : n2 < n1 := hs.trans_le (by nlinarith [sin_le_one θ])
  have : arcsin (n2 / n1) < θ := by
    rcases lt_or_ge n2 0 with h | h
    · have : arcsin (n2 / n1) < 0 := arcsin_lt_zero.2 (div_neg_of_neg_of_pos h h1)
      linarith
    · rw [arcsin_lt_iff_lt_sin ⟨by linarith [div_nonneg h h1.le], by
        rw [div_le_one h1]; exact hn.le⟩ ⟨by linarith [pi_pos], hp.le⟩]
      rw [div_lt_iff₀ h1]; linarith
  simp [fresnelR, hn, this]

/-- **C35** (range). For all positive refractive indices and every angle of incidence short of
grazing, the reflectivity is a number between 0 and 1. -/
theorem reflectivity_range {θ n1 n2 : ℝ} (h1 : 0 < n1) (h2 : 0 < n2) (h0 : 0 ≤ θ)
    (hp : θ < π / 2) : ∃ r, fresnelR θ n1 n2 = some r ∧ 0 ≤ r ∧ r ≤ 1 := by
  rcases le_or_gt (n1 * sin θ) n2 with hs | hs
  · obtain ⟨k, hk0, -, e⟩ := fresnelR_eq h1 h2 h0 hp hs
    have hc : 0 < cos θ := cos_pos_of_mem_Ioo ⟨by linarith [pi_pos], hp⟩
    refine ⟨_, e, by positivity, ?_⟩
    have a := ratio_sq_le (a := n1 * cos θ) (b := n2 * k) (by positivity) (by positivity)
    have b := ratio_sq_le (a := n2 * cos θ) (b := n1 * k) (by positivity) (by positivity)
    have e2 : ((n1 * k - n2 * cos θ) / (n1 * k + n2 * cos θ)) ^ 2 =
        ((n2 * cos θ - n1 * k) / (n2 * cos θ + n1 * k)) ^ 2 := by
      rw [div_pow, div_pow]; congr 1 <;> ring
    rw [e2]; norm_num; linarith
  · exact ⟨1, reflectivity_tir h1 h0 hp hs, by norm_num, le_refl _⟩

/-- **C35** (partial transmission). Strictly below the critical angle some light is transmitted. -/
theorem reflectivity_lt_one {θ n1 n2 : ℝ} (h1 : 0 < n1) (h2 : 0 < n2) (h0 : 0 ≤ θ)
    (hp : θ < π / 2) (hs : n1 * sin θ < n2) : ∃ r, fresnelR θ n1 n2 = some r ∧ r < 1 := by
  obtain ⟨k, hk0, hk, e⟩ := fresnelR_eq h1 h2 h0 hp hs.le
  have hc : 0 < cos θ := cos_pos_of_mem_Ioo ⟨by linarith [pi_pos], hp⟩
  have hsin : 0 ≤ sin θ := sin_nonneg_of_nonneg_of_le_pi h0 (by linarith [pi_pos])
  have hkp : 0 < k := by
    have : n1 / n2 * sin θ < 1 := by rw [div_mul_eq_mul_div, div_lt_one h2]; exact hs
    have h' : 0 ≤ n1 / n2 * sin θ := by positivity
    have : 0 < k ^ 2 := by rw [hk]; nlinarith
    exact lt_of_le_of_ne hk0 (by rintro rfl; norm_num at this)
  refine ⟨_, e, ?_⟩
  have strict : ∀ a b : ℝ, 0 < a → 0 < b → ((a - b) / (a + b)) ^ 2 < 1 := by
    intro a b ha hb
    rw [div_pow, div_lt_one (by positivity)]; nlinarith [mul_pos ha hb]
  have a := strict (n1 * cos θ) (n2 * k) (by positivity) (by positivity)
  have b := strict (n1 * k) (n2 * cos θ) (by positivity) (by positivity)
  norm_num; linarith

/-- **C35** (normal incidence): `((n1 - n2) / (n1 + n2))²`. -/
theorem reflectivity_normal {n1 n2 : ℝ} (h1 : 0 < n1) (h2 : 0 < n2) :
    fresnelR 0 n1 n2 = some (((n1 - n2) / (n1 + n2)) ^ 2) := by
  obtain ⟨k, hk0, hk, e⟩ := fresnelR_eq (θ := 0) h1 h2 le_rfl (by linarith [pi_pos])
    (by simp [h2.le])
  have : k = 1 := by
    simp at hk
    rcases hk with h | h
    · exact h
    · linarith
  subst this
  rw [e]; simp only [cos_zero, mul_one]; norm_num; ring

/-- **C35** (no interface). Between equal indices nothing is reflected. -/
theorem reflectivity_equal {θ n : ℝ} (h : 0 < n) (h0 : 0 ≤ θ) (hp : θ < π / 2) :
    fresnelR θ n n = some 0 := by
  obtain ⟨k, hk0, hk, e⟩ := fresnelR_eq h h h0 hp (by nlinarith [sin_le_one θ])
  have hc : 0 < cos θ := cos_pos_of_mem_Ioo ⟨by linarith [pi_pos], hp⟩
  have : k = cos θ := by
    rw [div_self h.ne', one_mul, ← cos_sq'] at hk
    exact (sq_eq_sq₀ hk0 hc.le).1 hk
  subst this
  rw [e]; simp

/-- **C35** (reversibility). Light going back along the refracted path is reflected equally. -/
theorem reflectivity_reverse {θ₁ θ₂ n1 n2 : ℝ} (h1 : 0 < n1) (h2 : 0 < n2)
    (a0 : 0 ≤ θ₁) (a1 : θ₁ < π / 2) (b0 : 0 ≤ θ₂) (b1 : θ₂ < π / 2)
    (snell : n1 * sin θ₁ = n2 * sin θ₂) : fresnelR θ₁ n1 n2 = fresnelR θ₂ n2 n1 := by
  have c1 : 0 < cos θ₁ := cos_pos_of_mem_Ioo ⟨by linarith [pi_pos], a1⟩
  have c2 : 0 < cos θ₂ := cos_pos_of_mem_Ioo ⟨by linarith [pi_pos], b1⟩
  obtain ⟨k, hk0, hk, e⟩ := fresnelR_eq h1 h2 a0 a1 (by nlinarith [sin_le_one θ₂])
  obtain ⟨l, hl0, hl, f⟩ := fresnelR_eq h2 h1 b0 b1 (by nlinarith [sin_le_one θ₁])
  have ek : k = cos θ₂ := by
    have : n1 / n2 * sin θ₁ = sin θ₂ := by field_simp; linarith
    rw [this, ← cos_sq'] at hk
    exact (sq_eq_sq₀ hk0 c2.le).1 hk
  have el : l = cos θ₁ := by
    have : n2 / n1 * sin θ₂ = sin θ₁ := by field_simp; linarith
    rw [this, ← cos_sq'] at hl
    exact (sq_eq_sq₀ hl0 c1.le).1 hl
  subst ek el
  rw [e, f]
  congr 2
  simp only [div_pow]
  congr 1 <;> congr 1 <;> ring

/-- **C35** (boundary). At exactly grazing incidence between equal indices both codes compute
`0/0`: the reflectivity is not a number. -/
theorem reflectivity_grazing_nan : fresnelR (π / 2) 1 1 = none := by
  simp [fresnelR]

/-- **C35**. The engine's C function is the same function of angle and indices. -/
theorem engine_reflectivity (θ n1 n2 : ℝ) : kFresnelR θ n1 n2 = fresnelR θ n1 n2 := rfl

/-- glass to air at 30°: the hypotheses of the range, transmission and reversal theorems hold. -/
example : (0 : ℝ) < 1.5 ∧ (0 : ℝ) < 1 ∧ 0 ≤ π / 6 ∧ π / 6 < π / 2 ∧ 1.5 * sin (π / 6) < 1 := by
  refine ⟨by norm_num, by norm_num, by positivity, by linarith [pi_pos], ?_⟩
  rw [sin_pi_div_six]; norm_num

/-- glass to air at 60° is above the critical angle. -/
example : (1 : ℝ) < 1.5 * sin (π / 3) := by
  rw [sin_pi_div_three]
  have : (1.7 : ℝ) < √3 := by
    rw [lt_sqrt (by norm_num)]; norm_num
  nlinarith

/-! ### C36 -/

private theorem along_cases (n d : Vec3 ℝ) :
    (along n d = n ∧ 0 ≤ n.dot d) ∨ (along n d = -n ∧ n.dot d < 0) := by
  unfold along; split
  · next h => exact .inr ⟨rfl, h⟩
  · next h => exact .inl ⟨rfl, not_lt.1 h⟩

theorem along_dot_nonneg (n d : Vec3 ℝ) : 0 ≤ (along n d).dot d := by
  rcases along_cases n d with ⟨e, h⟩ | ⟨e, h⟩ <;> rw [e]
  · exact h
  · rw [Vec3.neg_dot]; linarith

private theorem along_self_dot (n d : Vec3 ℝ) : (along n d).dot (along n d) = n.dot n := by
  rcases along_cases n d with ⟨e, h⟩ | ⟨e, h⟩ <;> rw [e]
  rw [Vec3.neg_dot, Vec3.dot_neg]; ring

/-- The reflected direction, without the case distinction on the side of the normal. -/
theorem specular_eq (d n : Vec3 ℝ) : specular d n = d - (2 * n.dot d) • n := by
  rcases along_cases n d with ⟨e, h⟩ | ⟨e, h⟩ <;> simp only [specular, e]
  rw [Vec3.neg_dot]
  ext <;> simp

/-- **C36**. For a unit normal (of either sign): the length is preserved, the component along the
normal is reversed, everything perpendicular to the normal is unchanged (so the reflected ray lies
in the plane of incidence), reflecting twice restores the ray, and the sign of the normal does not
matter. The engine computes the same vector. -/
theorem reflection {d n : Vec3 ℝ} (hn : n.dot n = 1) :
    (specular d n).dot (specular d n) = d.dot d ∧
    (specular d n).dot n = -d.dot n ∧
    (∀ w : Vec3 ℝ, w.dot n = 0 → (specular d n).dot w = d.dot w) ∧
    specular (specular d n) n = d ∧
    specular d (-n) = specular d n ∧
    kSpecular d n = specular d n := by
  have e2 : (specular d n).dot n = -d.dot n := by
    rw [specular_eq, Vec3.sub_dot, Vec3.smul_dot, hn, n.dot_comm d]; ring
  refine ⟨?_, e2, ?_, ?_, ?_, ?_⟩
  · rw [specular_eq]
    simp only [Vec3.sub_dot, Vec3.dot_sub, Vec3.smul_dot, Vec3.dot_smul, hn, n.dot_comm d]; ring
  · intro w hw
    rw [specular_eq, Vec3.sub_dot, Vec3.smul_dot, n.dot_comm w, hw]; ring
  · rw [specular_eq (specular d n), n.dot_comm, e2, specular_eq, d.dot_comm n]
    ext <;> simp
  · rw [specular_eq, specular_eq, Vec3.neg_dot]
    ext <;> simp
  · rfl

/-- **C36**. The reflected ray stays on the side it came from: a ray travelling into the surface
travels away from it afterwards. -/
theorem reflection_side {d n : Vec3 ℝ} (hn : n.dot n = 1) (h : d.dot n ≠ 0) :
    (specular d n).dot n * d.dot n < 0 := by
  rw [(reflection hn).2.1]
  have := mul_self_pos.2 h
  linarith

example : (⟨0.6, 0, -0.8⟩ : Vec3 ℝ).dot ⟨0, 0, 1⟩ ≠ 0 ∧ (⟨0, 0, 1⟩ : Vec3 ℝ).dot ⟨0, 0, 1⟩ = 1 := by
  norm_num [Vec3.dot]

/-! ### C37 -/

/-- Square of the sine of the angle of incidence. -/
def sinSq (d n : Vec3 ℝ) : ℝ := 1 - d.dot n ^ 2

private theorem refract_some {d n : Vec3 ℝ} {n1 n2 : ℝ} (h2 : 0 < n2)
    (hs : n1 ^ 2 * sinSq d n ≤ n2 ^ 2) :
    ∃ c σ : ℝ, 0 ≤ c ∧ c ^ 2 = 1 - (n1 / n2) ^ 2 * sinSq d n ∧ σ ^ 2 = 1 ∧
      σ * d.dot n = |d.dot n| ∧
      refract d n n1 n2 = some ((n1 / n2) • d + (σ * (c - σ * (n1 / n2) * d.dot n)) • n) := by
  have hq : 0 ≤ 1 - (n1 / n2) ^ 2 * (1 - d.dot n ^ 2) := by
    have : (n1 / n2) ^ 2 * (1 - d.dot n ^ 2) ≤ 1 := by
      rw [div_pow, div_mul_eq_mul_div, div_le_one (by positivity)]; exact hs
    linarith
  refine ⟨√(1 - (n1 / n2) ^ 2 * (1 - d.dot n ^ 2)), if d.dot n < 0 then -1 else 1, sqrt_nonneg _,
    sq_sqrt hq, ?_, ?_, ?_⟩
  · split <;> norm_num
  · split
    · next h => rw [abs_of_neg h]; ring
    · next h => rw [abs_of_nonneg (not_lt.1 h)]; ring
  · simp only [refract, if_neg (not_lt.2 hq)]

/-- **C37**. Up to the critical angle (`n1 sin θ ≤ n2`) the code returns a direction `t` which is a
unit vector, lies in the plane of incidence, satisfies Snell's law as a vector identity
`n2 (t × N) = n1 (d × N)`, and crosses the surface (same side along the normal as `d`). -/
theorem refraction {d n : Vec3 ℝ} {n1 n2 : ℝ} (h2 : 0 < n2) (hd : d.dot d = 1)
    (hn : n.dot n = 1) (hs : n1 ^ 2 * sinSq d n ≤ n2 ^ 2) :
    ∃ t, refract d n n1 n2 = some t ∧ t.dot t = 1 ∧
      (∃ a b : ℝ, t = a • d + b • n) ∧
      n2 • t.cross n = n1 • d.cross n ∧
      0 ≤ t.dot n * d.dot n := by
  obtain ⟨c, σ, hc, hc2, hσ, hσa, e⟩ := refract_some h2 hs
  unfold sinSq at hc2
  refine ⟨_, e, ?_, ⟨_, _, rfl⟩, ?_, ?_⟩
  · simp only [Vec3.add_dot, Vec3.dot_add, Vec3.smul_dot, Vec3.dot_smul, hd, hn, n.dot_comm d]
    linear_combination hc2 + (c ^ 2 - 2 * c * σ * (n1 / n2) * d.dot n + (n1 / n2) ^ 2 * d.dot n ^ 2 * σ ^ 2 - (n1 / n2) ^ 2 * d.dot n ^ 2) * hσ
  · have : n2 * (n1 / n2) = n1 := by field_simp
    ext <;> simp [Vec3.cross]
    · linear_combination (d.y * n.z - d.z * n.y) * this
    · linear_combination (d.z * n.x - d.x * n.z) * this
    · linear_combination (d.x * n.y - d.y * n.x) * this
  · simp only [Vec3.add_dot, Vec3.smul_dot, hn, mul_one]
    have : (n1 / n2 * d.dot n + σ * (c - σ * (n1 / n2) * d.dot n)) * d.dot n = c * |d.dot n| := by
      rw [← hσa]; linear_combination (-(n1 / n2) * d.dot n ^ 2) * hσ
    rw [this]; positivity

/-- **C37** (undeviated). Between equal indices the direction does not change. -/
theorem refraction_equal {d n : Vec3 ℝ} {m : ℝ} (hm : 0 < m) :
    refract d n m m = some d := by
  obtain ⟨c, σ, hc, hc2, hσ, hσa, e⟩ := refract_some (d := d) (n := n) (n1 := m) hm
    (by unfold sinSq; nlinarith [sq_nonneg (m * d.dot n)])
  rw [e, div_self hm.ne']
  have : c = |d.dot n| := by
    rw [div_self hm.ne'] at hc2
    unfold sinSq at hc2
    rw [← sq_eq_sq₀ hc (abs_nonneg _), sq_abs]; linarith
  have h0 : σ * (c - σ * 1 * d.dot n) = 0 := by rw [this, ← hσa]; ring
  rw [h0]
  congr 1
  ext <;> simp

/-- **C37** (reversibility). Strictly below the critical angle, sending the refracted ray back
through the same surface returns the incident ray. -/
theorem refraction_reverse {d n t : Vec3 ℝ} {n1 n2 : ℝ} (h1 : 0 < n1) (h2 : 0 < n2)
    (hn : n.dot n = 1) (hs : n1 ^ 2 * sinSq d n < n2 ^ 2)
    (ht : refract d n n1 n2 = some t) : refract (-t) n n2 n1 = some (-d) := by
  obtain ⟨c, σ, hc, hc2, hσ, hσa, e⟩ := refract_some h2 hs.le
  unfold sinSq at *
  have hcp : 0 < c := by
    have : (n1 / n2) ^ 2 * (1 - d.dot n ^ 2) < 1 := by
      rw [div_pow, div_mul_eq_mul_div, div_lt_one (by positivity)]; exact hs
    have : 0 < c ^ 2 := by rw [hc2]; linarith
    exact lt_of_le_of_ne hc (by rintro rfl; norm_num at this)
  rw [ht] at e
  obtain rfl := Option.some.inj e
  have key : ((n1 / n2) • d + (σ * (c - σ * (n1 / n2) * d.dot n)) • n).dot n = σ * c := by
    simp only [Vec3.add_dot, Vec3.smul_dot, hn]
    linear_combination (-(n1 / n2) * d.dot n) * hσ
  set t := (n1 / n2) • d + (σ * (c - σ * (n1 / n2) * d.dot n)) • n with htd
  have hinv : n2 / n1 * (n1 / n2) = 1 := by field_simp
  have kd : (-t).dot n = -(σ * c) := by rw [Vec3.neg_dot, key]
  have hq : 1 - (n2 / n1) ^ 2 * (1 - (-(σ * c)) ^ 2) = d.dot n ^ 2 := by
    have : (n2 / n1) ^ 2 * (n1 / n2) ^ 2 = 1 := by rw [← mul_pow, hinv, one_pow]
    linear_combination (n2 / n1) ^ 2 * c ^ 2 * hσ + (n2 / n1) ^ 2 * hc2 - (1 - d.dot n ^ 2) * this
  simp only [refract, kd, hq, if_neg (not_lt.2 (sq_nonneg (d.dot n)))]
  have hσ1 : σ = 1 ∨ σ = -1 := by
    have : (σ - 1) * (σ + 1) = 0 := by linear_combination hσ
    rcases mul_eq_zero.1 this with h | h
    · exact .inl (by linarith)
    · exact .inr (by linarith)
  have hneg : (if -(σ * c) < 0 then (-1 : ℝ) else 1) = -σ := by
    rcases hσ1 with rfl | rfl
    · rw [if_pos (by linarith)]
    · rw [if_neg (by linarith)]; norm_num
  rw [hneg, sqrt_sq_eq_abs, ← hσa]
  have hσσ : σ * σ = 1 := by rw [← sq]; exact hσ
  congr 1
  ext <;> simp [htd]
  · linear_combination (-d.x + n.x * d.dot n * σ ^ 2) * hinv + (n2 / n1) * σ * c * n.x * hσ
  · linear_combination (-d.y + n.y * d.dot n * σ ^ 2) * hinv + (n2 / n1) * σ * c * n.y * hσ
  · linear_combination (-d.z + n.z * d.dot n * σ ^ 2) * hinv + (n2 / n1) * σ * c * n.z * hσ

/-- **C37**. Snell's law with angles: if `θ₁`, `θ₂` are the angles that `d` and the refracted
direction make with the normal, then `n1 sin θ₁ = n2 sin θ₂`. -/
theorem refraction_snell {d n t : Vec3 ℝ} {n1 n2 : ℝ} (h1 : 0 < n1) (h2 : 0 < n2)
    (hd : d.dot d = 1) (hn : n.dot n = 1) (hs : n1 ^ 2 * sinSq d n ≤ n2 ^ 2)
    (ht : refract d n n1 n2 = some t) :
    n1 * sin (arccos (d.dot n)) = n2 * sin (arccos (t.dot n)) := by
  obtain ⟨t', e, h1', -, hsn, -⟩ := refraction h2 hd hn hs
  rw [ht] at e; obtain rfl := Option.some.inj e
  have hx : (n2 • t.cross n).dot (n2 • t.cross n) = (n1 • d.cross n).dot (n1 • d.cross n) := by
    rw [hsn]
  simp only [Vec3.smul_dot, Vec3.dot_smul, Vec3.cross_dot_cross, h1', hd, hn] at hx
  rw [sin_arccos, sin_arccos]
  have a : n1 * √(1 - d.dot n ^ 2) = √(n1 ^ 2 * (1 - d.dot n ^ 2)) := by
    rw [sqrt_mul (by positivity), sqrt_sq h1.le]
  have b : n2 * √(1 - t.dot n ^ 2) = √(n2 ^ 2 * (1 - t.dot n ^ 2)) := by
    rw [sqrt_mul (by positivity), sqrt_sq h2.le]
  rw [a, b]; congr 1; linear_combination -hx

/-- **C37**. The engine's refraction is the same function. -/
theorem engine_refract (d n : Vec3 ℝ) (n1 n2 : ℝ) : kRefract d n n1 n2 = refract d n n1 n2 := by
  simp only [kRefract, refract, ← sq]
  rfl

/-- glass to air at sin θ = 0.6: below the critical angle, so the hypotheses hold. -/
example : (⟨0.6, 0, 0.8⟩ : Vec3 ℝ).dot ⟨0.6, 0, 0.8⟩ = 1 ∧
    (1.5 : ℝ) ^ 2 * sinSq ⟨0.6, 0, 0.8⟩ ⟨0, 0, 1⟩ < 1 ^ 2 := by
  norm_num [Vec3.dot, sinSq]

/-! ### C38 -/

private theorem dot_le_one {a b : Vec3 ℝ} (ha : a.dot a = 1) (hb : b.dot b = 1) :
    a.dot b ≤ 1 ∧ -1 ≤ a.dot b := by
  have h := Vec3.cross_dot_cross a b
  rw [ha, hb] at h
  have : 0 ≤ (a.cross b).dot (a.cross b) := 
    add_nonneg (add_nonneg (mul_self_nonneg _) (mul_self_nonneg _)) (mul_self_nonneg _)
  constructor <;> nlinarith

theorem along_unit {n d : Vec3 ℝ} (hn : n.dot n = 1) :
    (along n d).dot (along n d) = 1 := by rw [along_self_dot, hn]

/-- The engine's clamped angle is the arc cosine. -/
theorem kAngle_eq {n d : Vec3 ℝ} (hn : n.dot n = 1) (hd : d.dot d = 1) :
    kAngle n d = arccos ((along n d).dot d) := by
  have h := dot_le_one (along_unit (d := d) hn) hd
  have e : kFlip n d = along n d := rfl
  simp only [kAngle, e, if_neg (not_lt.2 h.1), if_neg (not_lt.2 h.2)]

/-- From "reflectivity is not 1 from the total-reflection branch" to "below the critical angle". -/
private theorem no_tir {δ n1 n2 : ℝ} (h1 : 0 < n1) (h2 : 0 < n2) (h0 : 0 ≤ δ) (hle : δ ≤ 1)
    (h : fresnelR (arccos δ) n1 n2 ≠ some 1) : n1 ^ 2 * (1 - δ ^ 2) ≤ n2 ^ 2 := by
  by_contra hc
  push Not at hc
  apply h
  rcases h0.lt_or_eq with hp | rfl
  · apply reflectivity_tir h1 (arccos_nonneg _) (by rw [arccos_lt_pi_div_two]; exact hp)
    rw [sin_arccos]
    have : n2 = √(n2 ^ 2) := (sqrt_sq h2.le).symm
    have e : n1 * √(1 - δ ^ 2) = √(n1 ^ 2 * (1 - δ ^ 2)) := by
      rw [sqrt_mul (by positivity), sqrt_sq h1.le]
    rw [e]; conv_lhs => rw [this]
    exact sqrt_lt_sqrt (sq_nonneg _) hc
  · have hn : n2 < n1 := by
      rw [← sq_lt_sq₀ h2.le h1.le]; linarith
    have : arcsin (n2 / n1) < π / 2 := by
      rw [arcsin_lt_pi_div_two, div_lt_one h1]; exact hn
    simp [fresnelR, hn, this]

/-- **C38** (engine). Whatever number in `[0, 1)` is drawn, if the engine decides that the ray is
transmitted then the refracted direction exists: the square root is never taken of a negative
number. Total internal reflection always reflects. -/
theorem engine_transmit_defined {n d : Vec3 ℝ} {n1 n2 u : ℝ} (h1 : 0 < n1) (h2 : 0 < n2)
    (hn : n.dot n = 1) (hd : d.dot d = 1) (hu : u < 1)
    (h : (kIsReflected (kReflectivity n d n1 n2) u).1 = false) :
    ∃ t, kTransmit n d n1 n2 = some t := by
  have hne : fresnelR (arccos ((along n d).dot d)) n1 n2 ≠ some 1 := by
    intro e
    rw [kReflectivity, kAngle_eq hn hd, engine_reflectivity, e] at h
    simp [kIsReflected, hu.not_ge] at h
  have hs := no_tir h1 h2 (along_dot_nonneg n d) (dot_le_one (along_unit (d := d) hn) hd).1 hne
  obtain ⟨c, σ, -, -, -, -, e⟩ := refract_some (d := d) (n := along n d) (n1 := n1) h2
    (by unfold sinSq; rw [d.dot_comm]; exact hs)
  exact ⟨_, by rw [kTransmit, engine_refract]; exact e⟩

private theorem allclose_sin {n d : Vec3 ℝ} (hn : n.dot n = 1) (hd : d.dot d = 1)
    (h : allclose n d) : 1 - n.dot d ^ 2 ≤ 4e-10 := by
  obtain ⟨hx, hy, hz⟩ := h
  have bound : ∀ a b : ℝ, |a - b| ≤ 1e-8 + 1e-5 * |b| → |b| ≤ 1 → (a - b) ^ 2 ≤ 1.1e-10 := by
    intro a b hab hb
    have h0 := abs_nonneg (a - b)
    rw [← sq_abs]
    have : |a - b| ≤ 1.001e-5 := by norm_num at *; linarith
    nlinarith
  have le1 : ∀ b : ℝ, b ^ 2 ≤ 1 → |b| ≤ 1 := fun b hb => by
    rw [← sq_le_one_iff_abs_le_one]; exact hb
  simp only [Vec3.dot] at *
  have bx := bound _ _ hx (le1 _ (by nlinarith [sq_nonneg d.y, sq_nonneg d.z]))
  have bY := bound _ _ hy (le1 _ (by nlinarith [sq_nonneg d.x, sq_nonneg d.z]))
  have bz := bound _ _ hz (le1 _ (by nlinarith [sq_nonneg d.x, sq_nonneg d.y]))
  have hs := dot_le_one (a := n) (b := d) hn hd
  simp only [Vec3.dot] at hs
  set δ := n.x * d.x + n.y * d.y + n.z * d.z with hδ
  have : 2 - 2 * δ ≤ 3.3e-10 := by
    have : (n.x - d.x) ^ 2 + (n.y - d.y) ^ 2 + (n.z - d.z) ^ 2 = 2 - 2 * δ := by
      rw [hδ]; linear_combination hn + hd
    rw [← this]; norm_num at *; linarith
  norm_num at *
  nlinarith

/-- **C38** (Python). The same for the Python surface, provided the indices differ by less than a
factor ten thousand: the shortcut of `angle_between` takes nearly perpendicular incidence (up to
1e-5) to be perpendicular. -/
theorem transmit_defined {n d : Vec3 ℝ} {n1 n2 u : ℝ} (h1 : 0 < n1) (h2 : 0 < n2)
    (hratio : n1 ≤ 10000 * n2)
    (hn : n.dot n = 1) (hd : d.dot d = 1) (hu : u < 1)
    (h : (isReflected (pyReflectivity n d n1 n2) u).1 = false) :
    ∃ t, pyTransmit n d n1 n2 = some t := by
  have hl := dot_le_one (along_unit (d := d) hn) hd
  have ha := along_dot_nonneg n d
  have hs : n1 ^ 2 * (1 - (along n d).dot d ^ 2) ≤ n2 ^ 2 := by
    by_cases c : allclose (along n d) d
    · have := allclose_sin (along_unit (d := d) hn) hd c
      have h' : n1 ^ 2 ≤ 10 ^ 8 * n2 ^ 2 := by nlinarith
      have h0 : 0 ≤ 1 - (along n d).dot d ^ 2 := by nlinarith
      have hm := mul_le_mul h' this h0 (by positivity)
      norm_num at hm
      nlinarith [sq_nonneg n2]
    · by_cases c' : allclose (-along n d) d
      · have := allclose_sin (n := -along n d) (d := d)
          (by rw [Vec3.neg_dot, Vec3.dot_neg, along_unit hn]; ring) hd c'
        rw [Vec3.neg_dot] at this
        have h' : n1 ^ 2 ≤ 10 ^ 8 * n2 ^ 2 := by nlinarith
        have h0 : 0 ≤ 1 - (along n d).dot d ^ 2 := by nlinarith
        rw [neg_sq] at this
        have hm := mul_le_mul h' this h0 (by positivity)
        norm_num at hm
        nlinarith [sq_nonneg n2]
      · apply no_tir h1 h2 ha hl.1
        intro e
        simp [pyReflectivity, angleBetween, c, c', e, isReflected, hu.not_ge] at h
  obtain ⟨c, σ, -, -, -, -, e⟩ := refract_some (d := d) (n := along n d) (n1 := n1) h2
    (by unfold sinSq; rw [d.dot_comm]; exact hs)
  exact ⟨_, e⟩

/-- **C38**. Beyond the critical angle every number drawn leads to reflection, in both codes. -/
theorem tir_always_reflects {n d : Vec3 ℝ} {n1 n2 u : ℝ} (h1 : 0 < n1) (h2 : 0 < n2)
    (hn : n.dot n = 1) (hd : d.dot d = 1) (hu : u < 1)
    (hs : n2 ^ 2 < n1 ^ 2 * (1 - d.dot n ^ 2)) :
    (kIsReflected (kReflectivity n d n1 n2) u).1 = true ∧
    (n1 ≤ 10000 * n2 → (isReflected (pyReflectivity n d n1 n2) u).1 = true) := by
  have hsq : (along n d).dot d ^ 2 = d.dot n ^ 2 := by
    rcases along_cases n d with ⟨e, _⟩ | ⟨e, _⟩ <;> rw [e, d.dot_comm]
    rw [Vec3.neg_dot, neg_sq]
  have no : refract d (along n d) n1 n2 = none := by
    have : 1 - (n1 / n2) ^ 2 * (1 - d.dot (along n d) ^ 2) < 0 := by
      rw [d.dot_comm, hsq, div_pow, div_mul_eq_mul_div, sub_neg, one_lt_div (by positivity)]
      exact hs
    simp [refract, this]
  constructor
  · by_contra h
    obtain ⟨t, e⟩ := engine_transmit_defined h1 h2 hn hd hu (Bool.eq_false_iff.2 h)
    rw [kTransmit, engine_refract] at e
    have := no.symm.trans e
    simp at this
  · intro hr
    by_contra h
    obtain ⟨t, e⟩ := transmit_defined h1 h2 hr hn hd hu (Bool.eq_false_iff.2 h)
    have := no.symm.trans e
    simp at this

example : (1 : ℝ) ^ 2 < 1.5 ^ 2 * (1 - (⟨0.8, 0, 0.6⟩ : Vec3 ℝ).dot ⟨0, 0, -1⟩ ^ 2) := by
  norm_num [Vec3.dot]

/-! ### C40 -/

private theorem along_vec {m : Affine ℝ} (h : m.Rigid) (n d : Vec3 ℝ) :
    along (m.vec n) (m.vec d) = m.vec (along n d) := by
  unfold along
  rw [h.dot_vec]
  split
  · rw [Affine.vec_neg]
  · rfl

/-- **C40**. Turning the whole situation turns reflected and refracted directions with it: computing
in the frame of the hit node and converting back gives the same direction as computing in the world
frame. -/
theorem directions_equivariant_partial {m : Affine ℝ} (h : m.Rigid) (n d : Vec3 ℝ) (n1 n2 : ℝ) :
    specular (m.vec d) (m.vec n) = m.vec (specular d n) ∧
    refract (m.vec d) (m.vec n) n1 n2 = (refract d n n1 n2).map m.vec ∧
    pyTransmit (m.vec n) (m.vec d) n1 n2 = (pyTransmit n d n1 n2).map m.vec := by
  have r : ∀ n : Vec3 ℝ, refract (m.vec d) (m.vec n) n1 n2 = (refract d n n1 n2).map m.vec := by
    intro n
    simp only [refract, h.dot_vec]
    split
    · rfl
    · simp only [Affine.vec_add, Affine.vec_smul, Option.map_some]
  refine ⟨?_, r n, ?_⟩
  · rw [specular_eq, specular_eq, h.dot_vec, Affine.vec_sub, Affine.vec_smul]
  · simp only [pyTransmit, along_vec h, r]

/-- **C40** (engine vs. Python). Let `l2w` be the rigid pose of the hit node and `w2l` its inverse.
The Python tracer computes with local normal and local direction, the engine with world normal and
world direction: reflected and transmitted world directions are equal, and so are the
reflectivities unless the shortcut of `angle_between` applies. -/
theorem engine_eq_python {l2w w2l : Affine ℝ} (h : l2w.Rigid) (hw : l2w.Inverse w2l)
    (n d : Vec3 ℝ) (n1 n2 : ℝ) (hn : n.dot n = 1) (hd : d.dot d = 1) :
    kSpecular d (l2w.vec n) = l2w.vec (specular (w2l.vec d) n) ∧
    kTransmit (l2w.vec n) d n1 n2 = (pyTransmit n (w2l.vec d) n1 n2).map l2w.vec ∧
    (¬ allclose (along n (w2l.vec d)) (w2l.vec d) →
      ¬ allclose (-along n (w2l.vec d)) (w2l.vec d) →
      kReflectivity (l2w.vec n) d n1 n2 = pyReflectivity n (w2l.vec d) n1 n2) := by
  have e := directions_equivariant_partial h n (w2l.vec d) n1 n2
  rw [hw.vec_vec h] at e
  refine ⟨e.1, ?_, ?_⟩
  · rw [kTransmit, engine_refract]; exact e.2.2
  · intro a b
    rw [kReflectivity, engine_reflectivity, kAngle_eq (by rw [h.dot_vec, hn]) hd, pyReflectivity,
      angleBetween, if_neg a, if_neg b]
    have : along (l2w.vec n) d = l2w.vec (along n (w2l.vec d)) := by
      rw [← along_vec h, hw.vec_vec h]
    rw [this]
    conv_lhs => rw [← hw.vec_vec h d]
    rw [h.dot_vec, hw.vec_vec h]

/-- **C40** (violated by the shortcut). There is a unit direction, not perpendicular to the surface,
for which `angle_between` reports perpendicular incidence in one frame and the true angle in a
frame turned about the z axis: with the normal `(0.6, 0.8, 0)` relative tolerances apply to both
components, with the normal `(1, 0, 0)` the second component must agree to 1e-8. -/
theorem shortcut_frame_dependent : ∃ (m : Affine ℝ) (n d : Vec3 ℝ), m.Rigid ∧ n.dot n = 1 ∧
    d.dot d = 1 ∧ angleBetween (m.vec n) (m.vec d) = 0 ∧ angleBetween n d ≠ 0 := by
  refine ⟨⟨⟨0.6, -0.8, 0⟩, ⟨0.8, 0.6, 0⟩, ⟨0, 0, 1⟩, ⟨0, 0, 0⟩⟩, ⟨1, 0, 0⟩,
    ⟨(10 ^ 12 - 1) / (10 ^ 12 + 1), 2 * 10 ^ 6 / (10 ^ 12 + 1), 0⟩, ?_, ?_, ?_, ?_, ?_⟩
  · norm_num [Affine.Rigid, Vec3.dot]
  · norm_num [Vec3.dot]
  · norm_num [Vec3.dot]
  · have : allclose (Affine.vec ⟨⟨0.6, -0.8, 0⟩, ⟨0.8, 0.6, 0⟩, ⟨0, 0, 1⟩, ⟨0, 0, 0⟩⟩ ⟨1, 0, 0⟩)
        (Affine.vec ⟨⟨0.6, -0.8, 0⟩, ⟨0.8, 0.6, 0⟩, ⟨0, 0, 1⟩, ⟨0, 0, 0⟩⟩
          ⟨(10 ^ 12 - 1) / (10 ^ 12 + 1), 2 * 10 ^ 6 / (10 ^ 12 + 1), 0⟩) := by
      simp only [allclose, Affine.vec, Vec3.dot]
      refine ⟨?_, ?_, ?_⟩ <;> norm_num [abs_of_pos, abs_of_neg]
    simp [angleBetween, this]
  · have a : ¬ allclose (⟨1, 0, 0⟩ : Vec3 ℝ)
        ⟨(10 ^ 12 - 1) / (10 ^ 12 + 1), 2 * 10 ^ 6 / (10 ^ 12 + 1), 0⟩ := by
      rintro ⟨-, h, -⟩
      norm_num [abs_of_pos, abs_of_neg] at h
    have b : ¬ allclose (-⟨1, 0, 0⟩ : Vec3 ℝ)
        ⟨(10 ^ 12 - 1) / (10 ^ 12 + 1), 2 * 10 ^ 6 / (10 ^ 12 + 1), 0⟩ := by
      rintro ⟨h, -, -⟩
      norm_num [abs_of_pos, abs_of_neg] at h
    rw [angleBetween, if_neg a, if_neg b]
    simp only [ne_eq, arccos_eq_zero, not_le]
    norm_num [Vec3.dot]

example : (⟨⟨0, -1, 0⟩, ⟨1, 0, 0⟩, ⟨0, 0, 1⟩, ⟨1, 2, 3⟩⟩ : Affine ℝ).Rigid := by
  norm_num [Affine.Rigid, Vec3.dot]

end
end PV.Optics
