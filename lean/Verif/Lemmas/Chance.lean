import Verif.Spec.Chance
import Mathlib.MeasureTheory.Measure.Prod

/-!
Chances of events that read the numbers one by one.
-/

namespace PV.Spec
open MeasureTheory Set
noncomputable section

/-- The sequence without its first number. -/
def rest (s : Numbers) : Numbers := fun i => s (i + 1)

theorem reader_next (s : Numbers) : reader.next s = (s 0, rest s) := rfl

/-- A number in front of a sequence. -/
def push (p : ℝ × Numbers) : Numbers := fun i => Nat.casesOn i p.1 p.2

@[simp] theorem push_zero (p : ℝ × Numbers) : push p 0 = p.1 := rfl
@[simp] theorem push_succ (p : ℝ × Numbers) (i : ℕ) : push p (i + 1) = p.2 i := rfl
@[simp] theorem rest_push (p : ℝ × Numbers) : rest (push p) = p.2 := rfl

theorem measurable_push : Measurable push := by
  refine measurable_pi_lambda _ (fun i => ?_)
  cases i with
  | zero => exact measurable_fst
  | succ i => exact (measurable_pi_apply i).comp measurable_snd

theorem measurable_rest : Measurable rest :=
  measurable_pi_lambda _ (fun i => measurable_pi_apply (i + 1))

/-- The first number is independent of the others, which are distributed like the whole sequence. -/
theorem independent_push : (uniform.prod independent).map push = independent := by
  apply Measure.eq_infinitePi
  intro s t ht
  rw [Measure.map_apply measurable_push (MeasurableSet.pi s.countable_toSet (fun i _ => ht i))]
  have e : push ⁻¹' (Set.pi s t) =
      (if 0 ∈ s then t 0 else univ) ×ˢ
        Set.pi ((s.filter (· ≠ 0)).image Nat.pred : Finset ℕ) (fun i => t (i + 1)) := by
    ext ⟨u, v⟩
    simp only [mem_preimage, Set.mem_pi, SetLike.mem_coe, mem_prod, Finset.mem_image, Finset.mem_filter]
    constructor
    · intro h
      refine ⟨?_, ?_⟩
      · split
        · exact h 0 (by assumption)
        · trivial
      · rintro i ⟨j, ⟨hj, h0⟩, rfl⟩
        obtain ⟨k, rfl⟩ := Nat.exists_eq_succ_of_ne_zero h0
        exact h (k + 1) hj
    · rintro ⟨h0, h1⟩ i hi
      cases i with
      | zero => rw [if_pos hi] at h0; exact h0
      | succ i => exact h1 i ⟨i + 1, ⟨hi, by simp⟩, rfl⟩
  rw [e, Measure.prod_prod, independent, Measure.infinitePi_pi _ (fun i _ => ht _),
    Finset.prod_image (by
      intro a ha b hb h
      simp only [Finset.coe_filter, mem_setOf_eq] at ha hb
      obtain ⟨a, rfl⟩ := Nat.exists_eq_succ_of_ne_zero ha.2
      obtain ⟨b, rfl⟩ := Nat.exists_eq_succ_of_ne_zero hb.2
      simpa using h)]
  have e2 : ∏ x ∈ s with x ≠ 0, uniform (t (x.pred + 1)) = ∏ x ∈ s with x ≠ 0, uniform (t x) :=
    Finset.prod_congr rfl (fun x hx => by
      obtain ⟨k, rfl⟩ := Nat.exists_eq_succ_of_ne_zero (Finset.mem_filter.1 hx).2
      rfl)
  rw [e2, ← Finset.prod_filter_mul_prod_filter_not s (fun x => x = 0)]
  congr 1
  split
  · rename_i h
    rw [show s.filter (fun x => x = 0) = {0} by ext x; simp; rintro rfl; exact h, Finset.prod_singleton]
  · rename_i h
    rw [show s.filter (fun x => x = 0) = ∅ by
      ext x; simp only [Finset.mem_filter, Finset.notMem_empty, iff_false]; rintro ⟨a, rfl⟩; exact h a,
      Finset.prod_empty, measure_univ]

/-- The first number decides, the others go on. -/
theorem chance_first (A : Set ℝ) (hA : MeasurableSet A) (E : Set Numbers) (hE : MeasurableSet E) :
    independent {s | s 0 ∈ A ∧ rest s ∈ E} = uniform A * independent E := by
  conv_lhs => rw [← independent_push]
  have hm : MeasurableSet {s : Numbers | s 0 ∈ A ∧ rest s ∈ E} :=
    ((measurable_pi_apply 0) hA).inter (measurable_rest hE)
  rw [Measure.map_apply measurable_push hm, ← Measure.prod_prod]
  rfl

/-- Almost surely all numbers are in `[0, 1)`. -/
theorem in_unit : ∀ᵐ s ∂independent, ∀ i, 0 ≤ s i ∧ s i < 1 := by
  rw [ae_all_iff]
  intro i
  have h : ∀ᵐ u ∂uniform, 0 ≤ u ∧ u < 1 := ae_restrict_mem measurableSet_Ico
  exact (measurePreserving_eval_infinitePi (fun _ => uniform) i).quasiMeasurePreserving.ae h

theorem uniform_below {c : ℝ} (h0 : 0 ≤ c) (h1 : c ≤ 1) : uniform {u | u < c} = ENNReal.ofReal c := by
  rw [uniform, Measure.restrict_apply (show MeasurableSet {u : ℝ | u < c} from measurableSet_Iio),
    show {u : ℝ | u < c} ∩ Ico 0 1 = Ico 0 c by
      ext u; constructor
      · rintro ⟨a, b⟩; exact ⟨b.1, a⟩
      · rintro ⟨a, b⟩; exact ⟨b, a, lt_of_lt_of_le b h1⟩, Real.volume_Ico, sub_zero]

theorem uniform_above {c : ℝ} (h0 : 0 ≤ c) (h1 : c ≤ 1) : uniform {u | ¬ u < c} = ENNReal.ofReal (1 - c) := by
  rw [show {u : ℝ | ¬ u < c} = {u | u < c}ᶜ from rfl, measure_compl (show MeasurableSet {u : ℝ | u < c} from measurableSet_Iio) (measure_ne_top _ _),
    measure_univ, uniform_below h0 h1, ENNReal.ofReal_sub _ h0, ENNReal.ofReal_one]

end
end PV.Spec
