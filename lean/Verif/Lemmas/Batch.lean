import Verif.Spec.Batch
import Mathlib.Probability.StrongLaw
import Mathlib.Probability.Independence.InfinitePi
import Mathlib.Probability.Moments.Variance

namespace PV.Spec
open MeasureTheory Set ProbabilityTheory Filter Topology
noncomputable section

/-- The indicator of a measurable set of sequences, for ray `i`. -/
def mark (A : Set Numbers) (i : ℕ) (ω : Sequences) : ℝ := A.indicator (fun _ => (1 : ℝ)) (ω i)

variable {A : Set Numbers}

theorem mark_measurable (hA : MeasurableSet A) (i : ℕ) : Measurable (mark A i) :=
  (measurable_const.indicator hA).comp (measurable_pi_apply i)

theorem mark_mem (i : ℕ) (ω : Sequences) : mark A i ω ∈ Icc (0 : ℝ) 1 := by
  unfold mark
  by_cases h : ω i ∈ A <;> simp [h]

theorem mark_indep (hA : MeasurableSet A) : iIndepFun (mark A) batch :=
  iIndepFun_infinitePi (P := fun _ => independent)
    (X := fun _ => A.indicator (fun _ => (1 : ℝ)))
    (fun _ => (measurable_const.indicator hA))

theorem mark_integrable (hA : MeasurableSet A) (i : ℕ) : Integrable (mark A i) batch :=
  Integrable.of_bound (mark_measurable hA i).aestronglyMeasurable 1
    (ae_of_all _ fun ω => by
      have := mark_mem (A := A) i ω
      rw [Real.norm_eq_abs, abs_of_nonneg this.1]; exact this.2)

theorem mark_mean (hA : MeasurableSet A) (i : ℕ) : ∫ ω, mark A i ω ∂batch = independent.real A := by
  have hp := measurePreserving_eval_infinitePi (fun _ : ℕ => independent) i
  have : ∫ ω, mark A i ω ∂batch = ∫ s, A.indicator (fun _ => (1 : ℝ)) s ∂independent := by
    rw [← hp.map_eq, integral_map hp.measurable.aemeasurable
      ((measurable_const.indicator hA).aestronglyMeasurable)]
    rfl
  rw [this, integral_indicator hA]
  simp

theorem mark_ident (hA : MeasurableSet A) (i : ℕ) : IdentDistrib (mark A i) (mark A 0) batch batch := by
  refine ⟨(mark_measurable hA i).aemeasurable, (mark_measurable hA 0).aemeasurable, ?_⟩
  have hf : Measurable (A.indicator fun _ => (1 : ℝ)) := measurable_const.indicator hA
  have h : ∀ j, batch.map (mark A j) = independent.map (A.indicator fun _ => (1 : ℝ)) := by
    intro j
    have hp := measurePreserving_eval_infinitePi (fun _ : ℕ => independent) j
    rw [← hp.map_eq, Measure.map_map hf hp.measurable]
    rfl
  rw [h, h]

/-- Two properties that agree up to a null set are counted alike. -/
theorem count_marks {P : Numbers → Prop} (hA : ∀ᵐ s ∂independent, P s ↔ s ∈ A) :
    ∀ᵐ ω ∂batch, ∀ n, (count P n ω : ℝ) = ∑ i ∈ Finset.range n, mark A i ω := by
  have h : ∀ᵐ ω ∂batch, ∀ i, P (ω i) ↔ ω i ∈ A := by
    rw [ae_all_iff]
    intro i
    exact (measurePreserving_eval_infinitePi (fun _ : ℕ => independent) i).quasiMeasurePreserving.ae hA
  filter_upwards [h] with ω hω n
  classical
  unfold count mark
  rw [Finset.card_filter, Nat.cast_sum]
  refine Finset.sum_congr rfl fun i _ => ?_
  by_cases hp : P (ω i)
  · simp [hp, (hω i).1 hp]
  · have hn : ω i ∉ A := fun h => hp ((hω i).2 h)
    simp [hp, hn]

/-- A measurable set that decides. -/
theorem Decided.witness {P : Numbers → Prop} (hP : Decided P) :
    ∃ A, MeasurableSet A ∧ (∀ᵐ s ∂independent, P s ↔ s ∈ A) ∧
      independent.real A = (chance P).toReal := by
  refine ⟨toMeasurable independent {s | P s}, measurableSet_toMeasurable _ _, ?_, ?_⟩
  · filter_upwards [hP.toMeasurable_ae_eq.mem_iff] with s hs
    exact hs.symm
  · rw [Measure.real, measure_toMeasurable]; rfl

theorem marks_variance (hA : MeasurableSet A) (n : ℕ) :
    Var[∑ i ∈ Finset.range n, mark A i; batch] ≤ n * (1 / 4) := by
  have hL : ∀ i ∈ Finset.range n, MemLp (mark A i) 2 batch := fun i _ =>
    MemLp.of_bound (mark_measurable hA i).aestronglyMeasurable 1
      (ae_of_all _ fun ω => by
        have := mark_mem (A := A) i ω
        rw [Real.norm_eq_abs, abs_of_nonneg this.1]; exact this.2)
  rw [IndepFun.variance_sum hL (fun i _ j _ hij => (mark_indep hA).indepFun hij)]
  calc ∑ i ∈ Finset.range n, Var[mark A i; batch] ≤ ∑ _i ∈ Finset.range n, (1 / 4 : ℝ) := by
        refine Finset.sum_le_sum fun i _ => ?_
        have := variance_le_sq_of_bounded (μ := batch) (X := mark A i) (a := 0) (b := 1)
          (ae_of_all _ fun ω => mark_mem i ω) (mark_measurable hA i).aemeasurable
        norm_num at this ⊢
        exact this
    _ = n * (1 / 4) := by simp

end
end PV.Spec
