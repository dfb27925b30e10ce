import Verif.Lemmas.IsotropicLaw
import Verif.Lemmas.Tame
import Verif.Model.Library
import Mathlib.MeasureTheory.Integral.IntervalIntegral.Periodic
import Mathlib.MeasureTheory.Measure.Haar.Unique
import Mathlib.Analysis.SpecialFunctions.Complex.Arg

/-!
Chances of what follows an isotropic emission do not change if all its directions are turned.
-/

namespace PV.Turned
open MeasureTheory Set PV.Spec PV.Sphere
open scoped ENNReal
noncomputable section

/-- A condition on a direction and the numbers behind it. -/
def Joint (Q : Vec3 ℝ → Numbers → Prop) : Prop := MeasurableSet {p : (ℝ × ℝ × ℝ) × Numbers | Q (toVec p.1) p.2}

theorem Joint.chance {Q : Vec3 ℝ → Numbers → Prop} (hQ : Joint Q) : MeasurableVec fun d => independent {t | Q d t} :=
  measurable_measure_prodMk_left (ν := independent) hQ

theorem unit_uniform (g : ℝ → ℝ≥0∞) : ∫⁻ u, g u ∂uniform = ∫⁻ u in Icc (0 : ℝ) 1, g u := by
  rw [uniform]
  exact setLIntegral_congr Ico_ae_eq_Icc

theorem first (A : Set Numbers) (hA : MeasurableSet A) :
    independent A = ∫⁻ u in Icc (0 : ℝ) 1, independent {t | push (u, t) ∈ A} := by
  conv_lhs => rw [← independent_push]
  rw [Measure.map_apply measurable_push hA, Measure.prod_apply (measurable_push hA), unit_uniform]
  rfl

/-- Two numbers make a direction. -/
theorem two_numbers {F : ℝ → ℝ → ℝ × ℝ × ℝ} (hF : Measurable fun p : ℝ × ℝ => F p.1 p.2) {Q : Vec3 ℝ → Numbers → Prop} (hQ : Joint Q) :
    independent {s | Q (toVec (F (s 0) (s 1))) (rest (rest s))} = mean fun u v => independent {t | Q (toVec (F u v)) t} := by
  have hA : MeasurableSet {s : Numbers | Q (toVec (F (s 0) (s 1))) (rest (rest s))} := by
    have h0 : Measurable fun s : Numbers => (s 0, s 1) := by fun_prop
    have h2 : Measurable fun s : Numbers => F (s 0) (s 1) := hF.comp h0
    have h1 : Measurable fun s : Numbers => (F (s 0) (s 1), rest (rest s)) :=
      h2.prodMk (measurable_rest.comp measurable_rest)
    exact h1 hQ
  rw [first _ hA]
  unfold mean
  refine lintegral_congr fun u => ?_
  have hB : MeasurableSet {t : Numbers | push (u, t) ∈ {s : Numbers | Q (toVec (F (s 0) (s 1))) (rest (rest s))}} :=
    (measurable_push.comp measurable_prodMk_left) hA
  rw [first _ hB]
  rfl

/-- Turning all directions. -/
def Indifferent (m : Affine ℝ) (phase : Numbers → Vec3 ℝ × Numbers) : Prop :=
  ∀ Q : Vec3 ℝ → Numbers → Prop, Joint Q →
    independent {s | Q (m.vec (phase s).1) (phase s).2} = independent {s | Q (phase s).1 (phase s).2}

theorem Joint.turned {m : Affine ℝ} (hm : m.Rigid) {Q : Vec3 ℝ → Numbers → Prop} (hQ : Joint Q) : Joint fun d t => Q (m.vec d) t := by
  have h : Measurable fun p : (ℝ × ℝ × ℝ) × Numbers => (turn m p.1, p.2) :=
    ((turn_preserving hm).measurable.comp measurable_fst).prodMk measurable_snd
  exact h hQ

theorem isotropic_indifferent {m : Affine ℝ} (hm : m.Rigid) (g : ℝ) : Indifferent m (kSamplePhase reader .isotropic g) := by
  intro Q hQ
  let F (u v : ℝ) : ℝ × ℝ × ℝ := (Real.cos (Real.arccos (2 * v - 1)), Real.sin (Real.arccos (2 * v - 1)) * Real.cos (2 * Real.pi * u),
    Real.sin (Real.arccos (2 * v - 1)) * Real.sin (2 * Real.pi * u))
  have hF : Measurable fun p : ℝ × ℝ => F p.1 p.2 := by
    have := Real.measurable_arccos
    dsimp only [F]
    fun_prop
  have e : ∀ s, kSamplePhase reader .isotropic g s = (toVec (F (s 0) (s 1)), rest (rest s)) := fun s => by
    simp [kSamplePhase, reader_next, toVec, F, rest]
  have e2 : ∀ u v, toVec (F u v) = (PV.isotropic Directions.script [u, v]).1 := fun u v => by
    simp [PV.isotropic, sphericalToCart, Directions.script, F, toVec]
  simp only [e]
  rw [two_numbers hF hQ, two_numbers hF (hQ.turned hm)]
  simp only [e2]
  exact isotropic_turned hm hQ.chance

theorem unturned {m : Affine ℝ} (hm : ∀ u, m.vec u = u) (phase : Numbers → Vec3 ℝ × Numbers) : Indifferent m phase := by
  intro Q hQ
  simp only [hm]

/-! ### Turns about the z axis -/

theorem unit_shift {h : ℝ → ℝ≥0∞} (hp : Function.Periodic h 1) (b : ℝ) :
    ∫⁻ v in Icc (0 : ℝ) 1, h (v + b) = ∫⁻ v in Icc (0 : ℝ) 1, h v := by
  have e : ∀ t : ℝ, ∫⁻ v in Ioc t (t + 1), h v = ∫⁻ v : UnitAddCircle, hp.lift v := by
    intro t
    rw [← UnitAddCircle.lintegral_preimage t]
    rfl
  rw [setLIntegral_congr Ioc_ae_eq_Icc.symm, setLIntegral_congr (f := h) Ioc_ae_eq_Icc.symm]
  have h0 := e 0
  rw [zero_add] at h0
  rw [h0, ← e b]
  have h2 := (measurePreserving_add_right (volume : Measure ℝ) b).setLIntegral_comp_preimage_emb
    (measurableEmbedding_addRight b) h (Ioc b (b + 1))
  rw [← h2]
  congr 2
  ext x
  simp only [mem_preimage, mem_Ioc]
  constructor <;> rintro ⟨a, b⟩ <;> constructor <;> linarith

theorem unit_flip {h : ℝ → ℝ≥0∞} (hp : Function.Periodic h 1) :
    ∫⁻ v in Icc (0 : ℝ) 1, h (-v) = ∫⁻ v in Icc (0 : ℝ) 1, h v := by
  have h2 := (Measure.measurePreserving_neg (volume : Measure ℝ)).setLIntegral_comp_preimage_emb
    (MeasurableEquiv.neg ℝ).measurableEmbedding (fun v => h (v + -1)) (Icc 0 1)
  rw [unit_shift hp] at h2
  rw [← h2]
  have h3 := (measurePreserving_add_right (volume : Measure ℝ) (-1)).setLIntegral_comp_preimage_emb
    (measurableEmbedding_addRight (-1)) (fun v => h (-v)) (Icc (-1) 0)
  have e : Neg.neg ⁻¹' Icc (0 : ℝ) 1 = Icc (-1) 0 := by
    ext x
    simp only [mem_preimage, mem_Icc]
    constructor <;> rintro ⟨a, b⟩ <;> constructor <;> linarith
  have e3 : (fun x => x + (-1 : ℝ)) ⁻¹' Icc (-1) 0 = Icc 0 1 := by
    ext x
    simp only [mem_preimage, mem_Icc]
    constructor <;> rintro ⟨a, b⟩ <;> constructor <;> linarith
  rw [e]
  rw [e3] at h3
  have e4 : ∀ v, h (-(v + -1)) = h (-v) := fun v => by
    rw [show -(v + -1) = -v + 1 by ring, hp]
  have e5 : ∀ v, h (-v + -1) = h (-v) := fun v => by
    rw [← hp (-v + -1)]; congr 1; ring
  simp only [e4] at h3
  simp only [e5]
  exact h3

/-- A turn that keeps the z axis turns the azimuth. -/
theorem about_z {m : Affine ℝ} (hm : m.Rigid) (hz : m.vec ⟨0, 0, 1⟩ = ⟨0, 0, 1⟩) :
    ∃ b : ℝ, (∀ θ v, m.vec (onSphere θ (2 * Real.pi * v)) = onSphere θ (2 * Real.pi * (v + b))) ∨
      ∀ θ v, m.vec (onSphere θ (2 * Real.pi * v)) = onSphere θ (2 * Real.pi * (-(v + b))) := by
  obtain ⟨⟨a, b, c⟩, ⟨d, e, f⟩, ⟨g, h, i⟩, t⟩ := m
  simp only [Affine.vec, Vec3.dot, mul_zero, mul_one, zero_add, Vec3.mk.injEq] at hz
  obtain ⟨rfl, rfl, rfl⟩ := hz
  simp only [Affine.Rigid, Vec3.dot] at hm
  have hg : g = 0 := by nlinarith
  have hh : h = 0 := by nlinarith
  subst hg hh
  obtain ⟨α, rfl, hb⟩ : ∃ α, Real.cos α = a ∧ Real.sin α = -b := by
    have hn : ‖(⟨a, -b⟩ : ℂ)‖ = 1 := by
      rw [Complex.norm_eq_sqrt_sq_add_sq, Real.sqrt_eq_one]
      simp only
      nlinarith
    have h0 : (⟨a, -b⟩ : ℂ) ≠ 0 := by
      intro h
      rw [h] at hn
      simp at hn
    refine ⟨Complex.arg ⟨a, -b⟩, ?_, ?_⟩
    · rw [Complex.cos_arg h0, hn, div_one]
    · rw [Complex.sin_arg, hn, div_one]
  obtain rfl : b = -Real.sin α := by linarith
  have hpi : 2 * Real.pi * (α / (2 * Real.pi)) = α := by
    field_simp
  obtain ⟨k, hd, he⟩ : ∃ k, d = Real.sin α * k ∧ e = Real.cos α * k := by
    refine ⟨Real.cos α * e + Real.sin α * d, ?_, ?_⟩
    · have := Real.sin_sq_add_cos_sq α
      grind
    · have := Real.sin_sq_add_cos_sq α
      grind
  subst hd he
  have hk : k = 1 ∨ k = -1 := by
    have := Real.sin_sq_add_cos_sq α
    have h2 : (k - 1) * (k + 1) = 0 := by grind
    rcases mul_eq_zero.mp h2 with h | h
    · exact .inl (by linarith)
    · exact .inr (by linarith)
  refine ⟨α / (2 * Real.pi), ?_⟩
  rcases hk with rfl | rfl
  · refine .inl fun θ v => ?_
    simp only [onSphere, Affine.vec, Vec3.dot, mul_add, hpi, Real.cos_add, Real.sin_add, Vec3.mk.injEq]
    refine ⟨?_, ?_, ?_⟩ <;> ring
  · refine .inr fun θ v => ?_
    simp only [onSphere, Affine.vec, Vec3.dot, mul_neg, mul_add, hpi, Real.cos_neg, Real.sin_neg, Real.cos_add, Real.sin_add,
      Vec3.mk.injEq]
    refine ⟨?_, ?_, ?_⟩ <;> ring

theorem around {m : Affine ℝ} (hm : m.Rigid) (hz : m.vec ⟨0, 0, 1⟩ = ⟨0, 0, 1⟩) (T : ℝ → ℝ) (f : Vec3 ℝ → ℝ≥0∞) :
    mean (fun u v => f (m.vec (onSphere (T u) (2 * Real.pi * v)))) = mean fun u v => f (onSphere (T u) (2 * Real.pi * v)) := by
  unfold mean
  refine lintegral_congr fun u => ?_
  have hp : Function.Periodic (fun v => f (onSphere (T u) (2 * Real.pi * v))) 1 := by
    intro v
    simp only [mul_add, mul_one, onSphere, Real.cos_add_two_pi, Real.sin_add_two_pi]
  obtain ⟨b, h | h⟩ := about_z hm hz
  · simp only [h]
    exact unit_shift hp b
  · simp only [h]
    have hq : Function.Periodic (fun v => f (onSphere (T u) (2 * Real.pi * -v))) 1 := by
      intro v
      have e : 2 * Real.pi * -(v + 1) = 2 * Real.pi * -v - 2 * Real.pi := by ring
      simp only [e, onSphere, Real.cos_sub_two_pi, Real.sin_sub_two_pi]
    rw [unit_shift hq b, unit_flip hp]

theorem azimuthal {m : Affine ℝ} (hm : m.Rigid) (hz : m.vec ⟨0, 0, 1⟩ = ⟨0, 0, 1⟩) {T : ℝ → ℝ} (hT : Measurable T)
    {phase : Numbers → Vec3 ℝ × Numbers} (e : ∀ s, phase s = (onSphere (T (s 0)) (2 * Real.pi * s 1), rest (rest s))) :
    Indifferent m phase := by
  intro Q hQ
  let F (u v : ℝ) : ℝ × ℝ × ℝ := (Real.cos (T u), Real.sin (T u) * Real.cos (2 * Real.pi * v),
    Real.sin (T u) * Real.sin (2 * Real.pi * v))
  have hF : Measurable fun p : ℝ × ℝ => F p.1 p.2 := by
    dsimp only [F]
    fun_prop
  have e2 : ∀ u v, onSphere (T u) (2 * Real.pi * v) = toVec (F u v) := fun u v => rfl
  simp only [e, e2]
  rw [two_numbers hF hQ, two_numbers hF (hQ.turned hm)]
  exact around hm hz T fun d => independent {t | Q d t}

/-- A turn about the z axis does not change the chances of any phase function of the engine. -/
theorem upright_indifferent {m : Affine ℝ} (hm : m.Rigid) (hz : m.vec ⟨0, 0, 1⟩ = ⟨0, 0, 1⟩) (tag : PhaseTag) (g : ℝ) :
    Indifferent m (kSamplePhase reader tag g) := by
  by_cases h1 : tag = .henyeyGreenstein ∧ |g| ≥ epsZero
  · refine azimuthal hm hz (T := fun u => Real.arccos (1 / (2 * g) * (1 + g * g - ((1 - g * g) / (1 + g * (2 * u - 1))) ^ 2))) ?_ ?_
    · have := Real.measurable_arccos
      fun_prop
    · intro s
      simp only [kSamplePhase, if_pos h1, reader_next]
      rfl
  by_cases h2 : tag = .cone
  · refine azimuthal hm hz (T := fun u => Real.arcsin (Real.sqrt u * Real.sin g)) ?_ ?_
    · have := Real.measurable_arcsin
      fun_prop
    · intro s
      simp only [kSamplePhase, if_neg h1, if_pos h2, reader_next]
      rfl
  · have e : kSamplePhase reader tag g = kSamplePhase reader .isotropic g := by
      funext s
      simp [kSamplePhase, h1, h2]
    rw [e]
    exact isotropic_indifferent hm g

end
end PV.Turned
