import Verif.Lemmas.Stream

/-!
The chance of what a program does after it has read some numbers: an integral over the numbers read of the chance of
the rest.
-/

namespace PV.Spec
open MeasureTheory Set
noncomputable section
variable {β ε : Type} {f : Numbers → Except ε (β × Numbers)} {n : Numbers → ℕ}

/-- The numbers after which `k` have been read. -/
def After (n : Numbers → ℕ) (f : Numbers → Except ε (β × Numbers)) (k : ℕ) : Set Numbers :=
  {s | n s = k ∧ Yields f (fun _ => True) s}

theorem join_head (k : ℕ) (s t : Numbers) : ∀ i < k, join k (s, t) i = s i := fun i hi => by simp [join, hi]

theorem After.keeps (hf : ReadsBy n f) (k : ℕ) {s s' : Numbers} (h : ∀ i < k, s' i = s i) (hs : s ∈ After n f k) :
    s' ∈ After n f k := by
  obtain ⟨h1, b, t, h2, h3⟩ := hs
  obtain ⟨k1, k2⟩ := hf s s' (by rw [h1]; exact h)
  refine ⟨k1.trans h1, ?_⟩
  rcases k2 with ⟨e, e1, -⟩ | ⟨b', e1, e2⟩
  · rw [h2] at e1; cases e1
  · rw [h2] at e1; cases e1
    exact ⟨b, _, e2, h3⟩

theorem After.result (hf : ReadsBy n f) {k : ℕ} {s : Numbers} (hs : s ∈ After n f k) :
    ∃ b, f s = .ok (b, later k s) ∧ ∀ t, f (join k (s, t)) = .ok (b, t) := by
  obtain ⟨h1, b, t, h2, -⟩ := hs
  have key : ∀ s', (∀ i < k, s' i = s i) → f s' = .ok (b, later k s') := by
    intro s' h
    obtain ⟨-, k2⟩ := hf s s' (by rw [h1]; exact h)
    rcases k2 with ⟨e, e1, -⟩ | ⟨b', e1, e2⟩
    · rw [h2] at e1; cases e1
    · rw [h2] at e1; cases e1
      rw [h1] at e2
      exact e2
  refine ⟨b, key s fun _ _ => rfl, fun t => ?_⟩
  rw [key _ (join_head k s t), later_join]

theorem After.disjoint : Pairwise (Function.onFun (AEDisjoint independent) (After n f)) := by
  intro i j hij
  refine Disjoint.aedisjoint (Set.disjoint_left.2 ?_)
  rintro s ⟨h1, -⟩ ⟨h2, -⟩
  exact hij (h1.symm.trans h2)

theorem After.decided (hn : CountDecided n f) (k : ℕ) : NullMeasurableSet (After n f k) independent := hn k

theorem After.mono (hn : CountDecided n f) (k : ℕ) {g h : Numbers → ENNReal} (H : ∀ s ∈ After n f k, g s ≤ h s) :
    ∫⁻ s in After n f k, g s ∂independent ≤ ∫⁻ s in After n f k, h s ∂independent :=
  lintegral_mono_ae ((ae_restrict_iff'₀ (After.decided hn k)).2 (ae_of_all _ H))

/-- The chance of `A` after `k` numbers. -/
theorem split_at (hf : ReadsBy n f) (hn : CountDecided n f) (k : ℕ) {A : Set Numbers} (hA : MeasurableSet A) :
    independent (After n f k ∩ A) = ∫⁻ s in After n f k, independent {t | join k (s, t) ∈ A} ∂independent := by
  have hJ : MeasurableSet (join k ⁻¹' A) := join_measurable k hA
  rw [← (join_preserving k).measure_preimage ((After.decided hn k).inter hA.nullMeasurableSet)]
  have e : join k ⁻¹' (After n f k ∩ A) = (join k ⁻¹' A) ∩ (After n f k ×ˢ univ) := by
    ext ⟨s, t⟩
    simp only [mem_preimage, mem_inter_iff, mem_prod, mem_univ, and_true]
    constructor
    · rintro ⟨h1, h2⟩
      exact ⟨h2, After.keeps hf k (fun i hi => (join_head k s t i hi).symm) h1⟩
    · rintro ⟨h1, h2⟩
      exact ⟨After.keeps hf k (join_head k s t) h2, h1⟩
  rw [e, ← Measure.restrict_apply hJ, ← Measure.prod_restrict, Measure.restrict_univ, Measure.prod_apply hJ]
  rfl

/-- The chance of what only happens when `f` succeeds. -/
theorem split (hf : ReadsBy n f) (hn : CountDecided n f) {A : Set Numbers} (hA : MeasurableSet A)
    (hs : ∀ s ∈ A, Yields f (fun _ => True) s) :
    independent A = ∑' k, ∫⁻ s in After n f k, independent {t | join k (s, t) ∈ A} ∂independent := by
  have e : A = ⋃ k, (After n f k ∩ A) := by
    ext s
    simp only [mem_iUnion, mem_inter_iff]
    exact ⟨fun h => ⟨n s, ⟨rfl, hs s h⟩, h⟩, fun ⟨_, _, h⟩ => h⟩
  conv_lhs => rw [e]
  rw [measure_iUnion₀ (fun i j hij => (After.disjoint hij).mono inter_subset_left inter_subset_left)
    (fun k => (After.decided hn k).inter hA.nullMeasurableSet)]
  exact tsum_congr fun k => split_at hf hn k hA

theorem join_section (k : ℕ) (s : Numbers) {A : Set Numbers} (hA : MeasurableSet A) :
    MeasurableSet {t | join k (s, t) ∈ A} :=
  (join_measurable k).comp measurable_prodMk_left hA

/-- A program that reads numbers, and how many is decided. -/
def Fair (f : Numbers → Except ε (β × Numbers)) : Prop := ∃ n, ReadsBy n f ∧ CountDecided n f

/-- If what follows has a chance of at most `c` whatever was read, the whole has. -/
theorem Fair.bound (hf : Fair f) {A : Set Numbers} {Q : β → Numbers → Prop} {c : ENNReal}
    (eA : ∀ s, s ∈ A ↔ ∃ b t, f s = .ok (b, t) ∧ Q b t) (hA : MeasurableSet A)
    (h : ∀ s b t, f s = .ok (b, t) → MeasurableSet {t | Q b t} → independent {t | Q b t} ≤ c) : independent A ≤ c := by
  obtain ⟨n, hf, hn⟩ := hf
  rw [split hf hn hA fun s hs => by obtain ⟨b, t, e, -⟩ := (eA s).1 hs; exact ⟨b, t, e, trivial⟩]
  calc ∑' k, ∫⁻ s in After n f k, independent {t | join k (s, t) ∈ A} ∂independent
      ≤ ∑' k, ∫⁻ s in After n f k, c ∂independent := by
        refine ENNReal.tsum_le_tsum fun k => ?_
        refine After.mono hn k fun s hs => ?_
        obtain ⟨b, e1, e2⟩ := After.result hf hs
        have e : {t | join k (s, t) ∈ A} = {t | Q b t} := by
          ext t
          show join k (s, t) ∈ A ↔ Q b t
          rw [eA, e2]
          exact ⟨fun ⟨_, _, h, q⟩ => by cases h; exact q, fun q => ⟨b, t, rfl, q⟩⟩
        have hm := join_section k s hA
        rw [e] at hm ⊢
        exact h s b _ e1 hm
    _ = ∑' k, c * independent (After n f k) := tsum_congr fun k => setLIntegral_const _ _
    _ = c * independent (⋃ k, After n f k) := by rw [ENNReal.tsum_mul_left, measure_iUnion₀ After.disjoint (After.decided hn)]
    _ ≤ c := by
        calc c * independent (⋃ k, After n f k) ≤ c * 1 := by gcongr; exact prob_le_one
          _ = c := mul_one c

/-- Two chances compared, whatever was read; `Z` is a set of numbers that can be left out. -/
theorem Fair.compare (hf : Fair f) {A B Z : Set Numbers} {Q P W : β → Numbers → Prop} {c d : ENNReal}
    (eA : ∀ s, s ∈ A ↔ ∃ b t, f s = .ok (b, t) ∧ Q b t) (hA : MeasurableSet A)
    (eB : ∀ s, s ∈ B ↔ ∃ b t, f s = .ok (b, t) ∧ P b t) (hB : MeasurableSet B)
    (eZ : ∀ s b t, f s = .ok (b, t) → (s ∈ Z ↔ W b t)) (hZ : MeasurableSet Z) (Z0 : independent Z = 0)
    (h : ∀ s b t, f s = .ok (b, t) → MeasurableSet {t | Q b t} → MeasurableSet {t | P b t} → MeasurableSet {t | W b t} →
      independent {t | W b t} = 0 → c * independent {t | Q b t} ≤ d * independent {t | P b t}) :
    c * independent A ≤ d * independent B := by
  obtain ⟨n, hf, hn⟩ := hf
  rw [split hf hn hA fun s hs => by obtain ⟨b, t, e, -⟩ := (eA s).1 hs; exact ⟨b, t, e, trivial⟩,
    split hf hn hB fun s hs => by obtain ⟨b, t, e, -⟩ := (eB s).1 hs; exact ⟨b, t, e, trivial⟩,
    ← ENNReal.tsum_mul_left, ← ENNReal.tsum_mul_left]
  refine ENNReal.tsum_le_tsum fun k => ?_
  have m : ∀ {A : Set Numbers}, MeasurableSet A → Measurable fun s => independent {t | join k (s, t) ∈ A} := fun hA =>
    measurable_measure_prodMk_left (join_measurable k hA)
  rw [← lintegral_const_mul _ (m hA), ← lintegral_const_mul _ (m hB)]
  have z := split_at hf hn k hZ
  rw [measure_mono_null inter_subset_right Z0, eq_comm, lintegral_eq_zero_iff (m hZ)] at z
  rw [Filter.EventuallyEq, ae_restrict_iff'₀ (After.decided hn k)] at z
  refine lintegral_mono_ae ((ae_restrict_iff'₀ (After.decided hn k)).2 ?_)
  filter_upwards [z] with s z hs
  obtain ⟨b, e1, e2⟩ := After.result hf hs
  have eq : ∀ {A : Set Numbers} {Q : β → Numbers → Prop}, (∀ s, s ∈ A ↔ ∃ b t, f s = .ok (b, t) ∧ Q b t) →
      {t | join k (s, t) ∈ A} = {t | Q b t} := by
    intro A Q eA
    ext t
    show join k (s, t) ∈ A ↔ Q b t
    rw [eA, e2]
    exact ⟨fun ⟨_, _, h, q⟩ => by cases h; exact q, fun q => ⟨b, t, rfl, q⟩⟩
  have eqZ : {t | join k (s, t) ∈ Z} = {t | W b t} := by
    ext t
    exact eZ _ b t (e2 t)
  have z := z hs
  have hm := join_section k s hA
  have hm2 := join_section k s hB
  have hm3 := join_section k s hZ
  rw [eq eA] at hm ⊢
  rw [eq eB] at hm2 ⊢
  rw [eqZ] at hm3 z
  exact h s b _ e1 hm hm2 hm3 z

theorem uniform_none {y : ℝ} (hy : ¬ 0 < y) : uniform {u | u < y} = 0 := by
  refine measure_mono_null (t := {u : ℝ | u < 0}) (fun u hu => lt_of_lt_of_le hu (not_lt.1 hy)) ?_
  rw [uniform_below le_rfl zero_le_one]; simp

/-- One number is below `y`: this thins out what follows. -/
theorem thinned {A : Set Numbers} {Q : Numbers → Prop} {y : ℝ} (eA : ∀ s, s ∈ A ↔ s 0 < y ∧ Q (rest s)) (hA : MeasurableSet A) :
    independent A = uniform {u | u < y} * independent {t | Q t} ∧ (0 < y → MeasurableSet {t | Q t}) := by
  have hm : 0 < y → MeasurableSet {t | Q t} := fun hy => by
    have e : {t | Q t} = (fun t => push (0, t)) ⁻¹' A := by
      ext t
      show Q t ↔ push (0, t) ∈ A
      rw [eA]
      simp [hy]
    rw [e]
    exact (measurable_push.comp measurable_prodMk_left) hA
  refine ⟨?_, hm⟩
  by_cases hy : 0 < y
  · rw [← chance_first {u | u < y} measurableSet_Iio _ (hm hy)]
    congr 1
    ext s
    exact eA s
  · rw [uniform_none hy, zero_mul]
    have : ∀ᵐ s ∂independent, s ∉ A := by
      filter_upwards [in_unit] with s hs h
      exact absurd ((eA s).1 h).1 (not_lt.2 ((not_lt.1 hy).trans (hs 0).1))
    exact measure_eq_zero_iff_ae_notMem.2 this

end
end PV.Spec
