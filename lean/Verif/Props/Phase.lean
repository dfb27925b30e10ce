import Verif.Model.Phase
import Verif.Lemmas.Vec
import Mathlib.Tactic.FieldSimp
import Mathlib.Tactic.Positivity

/-!
C39 phase functions, C41 orientation of directional phase functions.
-/

namespace PV.Phase
open PV Real
noncomputable section
variable {σ : Type} {R : Rand σ} {s s' : σ} {v : Vec3 ℝ}

theorem spherical_unit (θ φ : ℝ) : (sphericalToCart θ φ).dot (sphericalToCart θ φ) = 1 := by
  simp only [sphericalToCart, Vec3.dot]
  linear_combination sin θ ^ 2 * sin_sq_add_cos_sq φ + sin_sq_add_cos_sq θ

/-- **C39**. Whatever numbers are drawn, every phase function returns a unit vector (or raises). -/
theorem draw_unit (P : PV.Phase) (h : P.draw R s = .ok (v, s')) : v.dot v = 1 := by
  cases P with
  | isotropic =>
    simp only [PV.Phase.draw, PV.isotropic, Except.ok.injEq, Prod.mk.injEq] at h
    rw [← h.1]; exact spherical_unit _ _
  | henyeyGreenstein g =>
    simp only [PV.Phase.draw, PV.henyeyGreenstein, PV.isotropic] at h
    split at h
    · cases h
    · split at h <;> simp only [Except.ok.injEq, Prod.mk.injEq] at h <;> rw [← h.1] <;>
        exact spherical_unit _ _
  | cone t =>
    simp only [PV.Phase.draw, PV.cone] at h
    split at h
    · cases h
    · simp only [Except.ok.injEq, Prod.mk.injEq] at h
      rw [← h.1]; exact spherical_unit _ _
  | lambertian =>
    simp only [PV.Phase.draw, PV.lambertian, Except.ok.injEq, Prod.mk.injEq] at h
    rw [← h.1]; exact spherical_unit _ _

/-- **C39**. The engine always samples a unit vector. -/
theorem engine_unit (tag : PhaseTag) (param : ℝ) (s : σ) :
    (kSamplePhase R tag param s).1.dot (kSamplePhase R tag param s).1 = 1 := by
  unfold kSamplePhase
  split
  · exact spherical_unit _ _
  · split <;> exact spherical_unit _ _

/-- **C39** (isotropic). The z component is the second number drawn stretched to `[-1, 1)`, so it is
uniform when the numbers are; the azimuth is the first number times `2π`. -/
theorem isotropic_law (hR : R.Unit) (s : σ) :
    let u1 := (R.next s).1
    let u2 := (R.next (R.next s).2).1
    let v := (PV.isotropic R s).1
    v.z = 2 * u2 - 1 ∧ v.x = √(1 - v.z ^ 2) * cos (2 * π * u1) ∧
      v.y = √(1 - v.z ^ 2) * sin (2 * π * u1) := by
  have h := hR (R.next s).2
  have hz : (PV.isotropic R s).1.z = 2 * (R.next (R.next s).2).1 - 1 := by
    simp only [PV.isotropic, sphericalToCart]
    exact cos_arccos (by linarith [h.1]) (by linarith [h.2])
  refine ⟨hz, ?_, ?_⟩ <;> simp only [hz] <;>
    simp only [PV.isotropic, sphericalToCart, sin_arccos]

private theorem cone_z {p t : ℝ} (h0 : 0 ≤ p) (h1 : p < 1) (t0 : 0 ≤ t) (t1 : t ≤ π / 2) :
    cos (arcsin (√p * sin t)) = √(1 - p * sin t ^ 2) ∧ cos t ≤ cos (arcsin (√p * sin t)) := by
  have hs : 0 ≤ sin t := sin_nonneg_of_nonneg_of_le_pi t0 (by linarith [pi_pos])
  have hc : 0 ≤ cos t := cos_nonneg_of_neg_pi_div_two_le_of_le (by linarith [pi_pos]) t1
  have e : cos (arcsin (√p * sin t)) = √(1 - p * sin t ^ 2) := by
    rw [cos_arcsin, mul_pow, sq_sqrt h0]
  refine ⟨e, ?_⟩
  rw [e]
  apply le_sqrt_of_sq_le
  have := sin_sq_add_cos_sq t
  nlinarith [sq_nonneg (sin t)]

/-- **C39** (cone). For `0 < θ ≤ π/2` sampled directions are within the angle `θ` of `+z`. -/
theorem cone_within (hR : R.Unit) {t : ℝ} (t0 : 0 < t) (t1 : t ≤ π / 2)
    (h : (PV.Phase.cone t).draw R s = .ok (v, s')) : cos t ≤ v.z ∧ 0 ≤ v.z := by
  simp only [PV.Phase.draw, PV.cone] at h
  split at h
  · cases h
  · simp only [Except.ok.injEq, Prod.mk.injEq] at h
    have hu := hR s
    have := cone_z hu.1 hu.2 t0.le t1
    rw [← h.1]
    refine ⟨this.2, le_trans ?_ this.2⟩
    exact cos_nonneg_of_neg_pi_div_two_le_of_le (by linarith [pi_pos]) t1

/-- **C39** (cone). Half-angles above `π/2` or indistinguishable from 0 are rejected, all others up
to `π/2` are accepted. -/
theorem cone_accepts (t : ℝ) (t0 : 0 ≤ t) :
    ((PV.Phase.cone t).draw R s = .error .valueError ↔ t ≤ 1e-8 ∨ π / 2 < t) ∧
    ((∃ r, (PV.Phase.cone t).draw R s = .ok r) ↔ 1e-8 < t ∧ t ≤ π / 2) := by
  simp only [PV.Phase.draw, PV.cone, abs_of_nonneg t0, gt_iff_lt]
  by_cases h : t ≤ 1e-8 ∨ π / 2 < t
  · rw [if_pos h]
    refine ⟨by simp [h], ?_⟩
    simp only [reduceCtorEq, exists_false, false_iff]
    rcases h with h | h
    · exact fun a => absurd a.1 (not_lt.2 h)
    · exact fun a => absurd a.2 (not_le.2 h)
  · rw [if_neg h]
    push Not at h
    refine ⟨?_, ⟨fun _ => h, fun _ => ⟨_, rfl⟩⟩⟩
    simp only [reduceCtorEq, false_iff, not_or, not_le, not_lt]
    exact h

/-- **C39** (Lambertian). Directions never point to negative z, and `z²` is one minus the first
number drawn: the cosine law. -/
theorem lambertian_law (hR : R.Unit) (s : σ) :
    0 ≤ (PV.lambertian R s).1.z ∧ (PV.lambertian R s).1.z ^ 2 = 1 - (R.next s).1 := by
  have hu := hR s
  have e : (PV.lambertian R s).1.z = √(1 - (R.next s).1) := by
    simp only [PV.lambertian, sphericalToCart]
    rw [cos_arcsin, sq_sqrt hu.1]
  rw [e]
  exact ⟨sqrt_nonneg _, sq_sqrt (by linarith)⟩

theorem hg_den {g p : ℝ} (hg : |g| < 1) (h0 : 0 ≤ p) (h1 : p ≤ 1) :
    0 < 1 + g * (2 * p - 1) := by
  have := abs_lt.1 hg
  rcases le_total 0 g with h | h
  · nlinarith [mul_nonneg h h0]
  · nlinarith [mul_nonneg (neg_nonneg.2 h) (sub_nonneg.2 h1)]

/-- **C39** (Henyey–Greenstein). For `0 < |g| < 1` and every number in `[0, 1]` the sampled cosine is
in `[-1, 1]`, it is -1 at 0 and 1 at 1, increases strictly with the number drawn, and inverts the
Henyey–Greenstein cumulative distribution
`p = (1 - g²)/(2g) · (1/√(1 + g² - 2gμ) - 1/(1 + g))`. -/
theorem hg_law {g p : ℝ} (hg : |g| < 1) (hg0 : g ≠ 0) (h0 : 0 ≤ p) (h1 : p ≤ 1) :
    -1 ≤ hgMu g p ∧ hgMu g p ≤ 1 ∧ hgMu g 0 = -1 ∧ hgMu g 1 = 1 ∧
    (∀ q, p < q → q ≤ 1 → hgMu g p < hgMu g q) ∧
    p = (1 - g ^ 2) / (2 * g) * (1 / √(1 + g ^ 2 - 2 * g * hgMu g p) - 1 / (1 + g)) := by
  have hgl := abs_lt.1 hg
  have hq : 0 < 1 - g ^ 2 := by nlinarith
  have e0 : hgMu g 0 = -1 := by
    have : 1 - g ≠ 0 := by linarith
    simp only [hgMu]; rw [show 1 + g * (2 * 0 - 1) = 1 - g by ring]; field_simp; ring
  have e1 : hgMu g 1 = 1 := by
    have : 1 + g ≠ 0 := by linarith
    simp only [hgMu]; rw [show 1 + g * (2 * 1 - 1) = 1 + g by ring]; field_simp; ring
  have mono : ∀ p q, 0 ≤ p → p < q → q ≤ 1 → hgMu g p < hgMu g q := by
    intro p q h0 hpq hq1
    have da := hg_den hg h0 (by linarith)
    have db := hg_den hg (by linarith) hq1
    have : hgMu g q - hgMu g p = (1 - g ^ 2) ^ 2 * (q - p) *
        ((1 + g * (2 * p - 1)) + (1 + g * (2 * q - 1))) /
        ((1 + g * (2 * p - 1)) ^ 2 * (1 + g * (2 * q - 1)) ^ 2) := by
      simp only [hgMu]; field_simp; ring
    have h' : 0 < hgMu g q - hgMu g p := by
      rw [this]
      have := sub_pos.2 hpq
      positivity
    linarith
  refine ⟨?_, ?_, e0, e1, fun q => mono p q h0, ?_⟩
  · rcases h0.lt_or_eq with h | rfl
    · rw [← e0]; exact (mono 0 p le_rfl h h1).le
    · rw [e0]
  · rcases h1.lt_or_eq with h | rfl
    · rw [← e1]; exact (mono p 1 h0 h le_rfl).le
    · rw [e1]
  · have d := hg_den hg h0 h1
    have : 1 + g ^ 2 - 2 * g * hgMu g p = ((1 - g ^ 2) / (1 + g * (2 * p - 1))) ^ 2 := by
      simp only [hgMu]; field_simp; ring
    rw [this, sqrt_sq (by positivity)]
    have : 1 + g ≠ 0 := by linarith
    have : 1 - g ≠ 0 := by linarith
    field_simp
    ring

/-- **C39** (Henyey–Greenstein). The z component of the direction returned is that cosine. -/
theorem hg_z (hR : R.Unit) {g : ℝ} (hg : |g| < 1) (hge : epsZero ≤ |g|)
    (h : (PV.Phase.henyeyGreenstein g).draw R s = .ok (v, s')) : v.z = hgMu g (R.next s).1 := by
  have hu := hR s
  have hg0 : g ≠ 0 := by
    rintro rfl
    rw [abs_zero] at hge; unfold epsZero at hge; norm_num at hge
  simp only [PV.Phase.draw, PV.henyeyGreenstein] at h
  split at h
  · cases h
  · rw [if_neg (not_lt.2 hge)] at h
    simp only [Except.ok.injEq, Prod.mk.injEq] at h
    have l := hg_law hg hg0 hu.1 hu.2.le
    rw [← h.1]
    exact cos_arccos l.1 l.2.1

/-- **C39** (Henyey–Greenstein, boundary). `g = 0`, the default, raises instead of scattering
isotropically: the division by `2 g` comes before the test for zero. -/
theorem hg_zero_raises : (PV.Phase.henyeyGreenstein 0).draw R s = .error .zeroDivision := by
  simp [PV.Phase.draw, PV.henyeyGreenstein]

/-- For every other `|g| < 1` it does not raise. -/
theorem hg_total (hR : R.Unit) {g : ℝ} (hg : |g| < 1) (hg0 : g ≠ 0) :
    ∃ r, (PV.Phase.henyeyGreenstein g).draw R s = .ok r := by
  have hu := hR s
  have := hg_den hg hu.1 hu.2.le
  simp only [PV.Phase.draw, PV.henyeyGreenstein]
  rw [if_neg (by push Not; exact ⟨by simpa using hg0, this.ne'⟩)]
  split <;> exact ⟨_, rfl⟩

/-- **C39** (agreement). For every phase function the compiler accepts, whenever the Python one
returns, the engine returns the same direction and leaves the random stream in the same state,
except for Henyey–Greenstein parameters below `EPS` in magnitude. -/
theorem engine_eq_python (P : PV.Phase) {tag : PhaseTag} {param : ℝ} (ht : P.tag = some (tag, param))
    (hsmall : ∀ g, P = .henyeyGreenstein g → epsZero ≤ |g|)
    (h : P.draw R s = .ok (v, s')) : kSamplePhase R tag param s = (v, s') := by
  cases P with
  | isotropic =>
    simp only [PV.Phase.tag, Option.some.injEq, Prod.mk.injEq] at ht
    obtain ⟨rfl, rfl⟩ := ht
    simp only [PV.Phase.draw, Except.ok.injEq] at h
    rw [← h]; simp [kSamplePhase, PV.isotropic, sphericalToCart]
  | henyeyGreenstein g =>
    simp only [PV.Phase.tag, Option.some.injEq, Prod.mk.injEq] at ht
    obtain ⟨rfl, rfl⟩ := ht
    have hg := hsmall g rfl
    simp only [PV.Phase.draw, PV.henyeyGreenstein] at h
    split at h
    · cases h
    · rw [if_neg (not_lt.2 hg)] at h
      simp only [Except.ok.injEq] at h
      rw [← h]; simp [kSamplePhase, hg, sphericalToCart, hgMu, sq]
  | cone t =>
    simp only [PV.Phase.tag, Option.some.injEq, Prod.mk.injEq] at ht
    obtain ⟨rfl, rfl⟩ := ht
    simp only [PV.Phase.draw, PV.cone] at h
    split at h
    · cases h
    · simp only [Except.ok.injEq] at h
      rw [← h]; simp [kSamplePhase, sphericalToCart]
  | lambertian => simp [PV.Phase.tag] at ht

/-- The excepted case: for `0 < |g| < EPS` the Python function draws three numbers and the engine
two, so the streams are out of step afterwards. -/
theorem hg_tiny_extra_draw (hR : R.Unit) {g : ℝ} (hg0 : g ≠ 0) (hg : |g| < epsZero) :
    (PV.Phase.henyeyGreenstein g).draw R s = .ok (PV.isotropic R (R.next s).2) ∧
    kSamplePhase R .henyeyGreenstein g s = PV.isotropic R s := by
  have h1 : |g| < 1 := hg.trans (by unfold epsZero; norm_num)
  have hu := hR s
  have := hg_den h1 hu.1 hu.2.le
  constructor
  · simp only [PV.Phase.draw, PV.henyeyGreenstein]
    rw [if_neg (by push Not; exact ⟨by simpa using hg0, this.ne'⟩), if_pos hg]
  · simp [kSamplePhase, not_le.2 hg, PV.isotropic, sphericalToCart]

/-! Non-vacuity: a constant stream is a legal stream, and the phase functions return on it. -/

/-- A stream that always returns one half. -/
def half : Rand ℕ := ⟨fun n => (1 / 2, n + 1)⟩

example : half.Unit := fun _ => by norm_num [half]
example : ∃ r, (PV.Phase.cone (π / 4)).draw half 0 = .ok r :=
  ((cone_accepts (π / 4) (by positivity)).2).2 ⟨by linarith [two_le_pi], by linarith [pi_pos]⟩
example : ∃ r, (PV.Phase.henyeyGreenstein 0.9).draw half 0 = .ok r :=
  hg_total (fun _ => by norm_num [half]) (by norm_num [abs_of_pos]) (by norm_num)

/-! ### C41 -/

/-- Python: the ray is expressed in the frame of its container, `emit` sets the direction there, and
the ray is expressed in the root frame again
(`/repo/pvtrace/algorithm/photon_tracer.py:206-209`). -/
def pyEmitDir (R : Rand σ) (P : PV.Phase) (l2w : Affine ℝ) (s : σ) : Except Err (Vec3 ℝ × σ) :=
  (P.draw R s).map (fun r => (l2w.vec r.1, r.2))

/-- Engine: the sampled direction becomes the world direction
(`/repo/pvtrace/engine/_kernel.pyx:784-787`). -/
def kEmitDir (R : Rand σ) (tag : PhaseTag) (param : ℝ) (_l2w : Affine ℝ) (s : σ) : Vec3 ℝ × σ :=
  kSamplePhase R tag param s

/-- **C41**, what holds: in containers that are not rotated both tracers give the same world
direction. -/
theorem emission_agrees_partial (P : PV.Phase) {tag : PhaseTag} {param : ℝ} {l2w : Affine ℝ}
    (ht : P.tag = some (tag, param)) (hsmall : ∀ g, P = .henyeyGreenstein g → epsZero ≤ |g|)
    (hrot : ∀ v, l2w.vec v = v) (h : pyEmitDir R P l2w s = .ok (v, s')) :
    kEmitDir R tag param l2w s = (v, s') := by
  unfold pyEmitDir at h
  cases hd : P.draw R s with
  | error e => rw [hd] at h; cases h
  | ok r =>
    rw [hd] at h
    obtain ⟨w, t⟩ := r
    simp only [Except.map, Except.ok.injEq, Prod.mk.injEq, hrot] at h
    obtain ⟨rfl, rfl⟩ := h
    exact engine_eq_python P ht hsmall hd

/-- **C41** (Python). Emission is relative to the axes of the containing object: cone directions are
within `θ` of the object's own z axis. -/
theorem python_cone_follows_object (hR : R.Unit) {t : ℝ} (t0 : 0 < t) (t1 : t ≤ π / 2)
    {l2w : Affine ℝ} (hr : l2w.Rigid) (h : pyEmitDir R (.cone t) l2w s = .ok (v, s')) :
    cos t ≤ v.dot (l2w.vec ⟨0, 0, 1⟩) := by
  unfold pyEmitDir at h
  cases hd : (PV.Phase.cone t).draw R s with
  | error e => rw [hd] at h; cases h
  | ok r =>
    rw [hd] at h
    obtain ⟨w, t'⟩ := r
    simp only [Except.map, Except.ok.injEq, Prod.mk.injEq] at h
    obtain ⟨rfl, rfl⟩ := h
    rw [hr.dot_vec]
    simpa [Vec3.dot] using (cone_within hR t0 t1 hd).1

/-- The engine's cone is about the world z axis whatever the orientation of the object. -/
theorem engine_cone_follows_world (hR : R.Unit) {t : ℝ} (t0 : 1e-8 < t) (t1 : t ≤ π / 2)
    (l2w : Affine ℝ) : cos t ≤ (kEmitDir R .cone t l2w s).1.z := by
  have t0' : 0 < t := lt_trans (by norm_num) t0
  obtain ⟨⟨w, s'⟩, h⟩ := ((cone_accepts (R := R) (s := s) t t0'.le).2).2 ⟨t0, t1⟩
  rw [kEmitDir, engine_eq_python (.cone t) rfl (fun g hg => by cases hg) h]
  exact (cone_within hR t0' t1 h).1

/-- **C41** (violated). In an object turned upside down the two tracers emit a narrow cone in
opposite directions, for every random stream. -/
theorem emission_differs (hR : R.Unit) : ∃ (l2w : Affine ℝ) (t : ℝ), l2w.Rigid ∧
    ∃ v s', pyEmitDir R (.cone t) l2w s = .ok (v, s') ∧ v.z < 0 ∧
      0 < (kEmitDir R .cone t l2w s).1.z := by
  refine ⟨⟨⟨1, 0, 0⟩, ⟨0, -1, 0⟩, ⟨0, 0, -1⟩, ⟨0, 0, 0⟩⟩, π / 4, ?_, ?_⟩
  · norm_num [Affine.Rigid, Vec3.dot]
  have t0 : (1e-8 : ℝ) < π / 4 := by linarith [two_le_pi]
  have t1 : π / 4 ≤ π / 2 := by linarith [pi_pos]
  have hc : 0 < cos (π / 4) := cos_pos_of_mem_Ioo ⟨by linarith [pi_pos], by linarith [pi_pos]⟩
  obtain ⟨⟨w, s'⟩, h⟩ := ((cone_accepts (R := R) (s := s) (π / 4) (by positivity)).2).2 ⟨t0, t1⟩
  have hw := (cone_within hR (by positivity) t1 h).1
  refine ⟨_, s', by rw [pyEmitDir, h]; rfl, ?_, ?_⟩
  · simp only [Affine.vec, Vec3.dot]; linarith
  · exact lt_of_lt_of_le hc (engine_cone_follows_world hR t0 t1 _)

end
end PV.Phase
