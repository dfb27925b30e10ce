import Verif.Spec.Stream
import Verif.Lemmas.Chance
import Verif.Lemmas.Batch
import Mathlib.Probability.Moments.SubGaussian
import Mathlib.Probability.BorelCantelli

namespace PV.Spec
open MeasureTheory Set ProbabilityTheory
variable {β γ ε : Type}

theorem later_zero (s : Numbers) : later 0 s = s := rfl

theorem later_later (a b : ℕ) (s : Numbers) : later a (later b s) = later (b + a) s := by
  funext i
  show s (i + a + b) = s (i + (b + a))
  congr 1
  omega

theorem later_rest (k : ℕ) (s : Numbers) : later k (rest s) = later (k + 1) s := rfl

/-! ### Programs that read -/

theorem Reads.ok (b : β) : Reads (fun s => (.ok (b, s) : Except ε (β × Numbers))) :=
  ⟨fun _ => 0, fun _ _ _ => ⟨rfl, .inr ⟨b, rfl, rfl⟩⟩⟩

theorem Reads.error (e : ε) : Reads (fun _ => (.error e : Except ε (β × Numbers))) :=
  ⟨fun _ => 0, fun _ _ _ => ⟨rfl, .inl ⟨e, rfl, rfl⟩⟩⟩

/-- One number is taken. -/
theorem Reads.draw {g : ℝ → Numbers → Except ε (β × Numbers)} (hg : ∀ u, Reads (g u)) :
    Reads (fun s => g (s 0) (rest s)) := by
  choose n hn using hg
  refine ⟨fun s => n (s 0) (rest s) + 1, fun s s' h => ?_⟩
  dsimp only at h
  have h0 : s' 0 = s 0 := h 0 (by omega)
  have h1 := hn (s 0) (rest s) (rest s') (fun i hi => h (i + 1) (by omega))
  dsimp only
  rw [h0, h1.1]
  refine ⟨rfl, ?_⟩
  rcases h1.2 with ⟨e, e1, e2⟩ | ⟨b, e1, e2⟩
  · exact .inl ⟨e, e1, e2⟩
  · refine .inr ⟨b, ?_, ?_⟩
    · rw [e1, later_rest]
    · rw [e2, later_rest]

/-- One after the other. -/
def andThen (f : Numbers → Except ε (β × Numbers)) (g : β → Numbers → Except ε (γ × Numbers))
    (s : Numbers) : Except ε (γ × Numbers) :=
  match f s with
  | .error e => .error e
  | .ok (b, t) => g b t

theorem Reads.andThen {f : Numbers → Except ε (β × Numbers)} {g : β → Numbers → Except ε (γ × Numbers)}
    (hf : Reads f) (hg : ∀ b, Reads (g b)) : Reads (andThen f g) := by
  obtain ⟨n, hn⟩ := hf
  choose m hm using hg
  refine ⟨fun s => match f s with
    | .error _ => n s
    | .ok (b, _) => n s + m b (later (n s) s), fun s s' h => ?_⟩
  unfold Spec.andThen
  dsimp only at h ⊢
  rcases hn s s (fun _ _ => rfl) with ⟨-, ⟨e, e1, -⟩ | ⟨b, e1, -⟩⟩
  · simp only [e1] at h
    obtain ⟨h1, h2⟩ := hn s s' h
    rcases h2 with ⟨e', e2, e3⟩ | ⟨b, e2, -⟩
    · rw [e1] at e2; cases e2
      simp only [e1, e3]
      exact ⟨h1, .inl ⟨e, rfl, rfl⟩⟩
    · rw [e1] at e2; cases e2
  · simp only [e1] at h
    obtain ⟨h1, h2⟩ := hn s s' (fun i hi => h i (by omega))
    rcases h2 with ⟨e', e2, -⟩ | ⟨b', e2, e3⟩
    · rw [e1] at e2; cases e2
    · rw [e1] at e2
      simp only [Except.ok.injEq, Prod.mk.injEq, and_true] at e2
      subst e2
      obtain ⟨k1, k2⟩ := hm b (later (n s) s) (later (n s) s') (fun i hi => h (i + n s) (by omega))
      simp only [e1, e3]
      rw [h1, k1]
      refine ⟨rfl, ?_⟩
      rcases k2 with ⟨e', e4, e5⟩ | ⟨c, e4, e5⟩
      · exact .inl ⟨e', e4, e5⟩
      · refine .inr ⟨c, ?_, ?_⟩
        · rw [e4, later_later]
        · rw [e5, later_later]

theorem Reads.map {f : Numbers → Except ε (β × Numbers)} (hf : Reads f) (h : β → Except ε γ) :
    Reads (fun s => match f s with
      | .error e => .error e
      | .ok (b, t) => match h b with
        | .error e => .error e
        | .ok c => (.ok (c, t) : Except ε (γ × Numbers))) := by
  refine hf.andThen (g := fun b t => match h b with
        | .error e => .error e
        | .ok c => (.ok (c, t) : Except ε (γ × Numbers))) fun b => ?_
  cases h b with
  | error e => exact Reads.error e
  | ok c => exact Reads.ok c

/-- `andThen` for a function given by cases. -/
theorem Reads.seq {f : Numbers → Except ε (β × Numbers)} {F : Numbers → Except ε (γ × Numbers)}
    {g : β → Numbers → Except ε (γ × Numbers)} (hf : Reads f)
    (h1 : ∀ s e, f s = .error e → F s = .error e) (h2 : ∀ s b t, f s = .ok (b, t) → F s = g b t)
    (hg : ∀ b, Reads (g b)) : Reads F := by
  have : F = Spec.andThen f g := by
    funext s
    unfold Spec.andThen
    rcases h : f s with e | ⟨b, t⟩
    · exact h1 s e h
    · exact h2 s b t h
  rw [this]
  exact hf.andThen hg

/-- First read `f`, then go on. -/
macro "read_step" t:term : tactic => `(tactic|
  (apply Reads.seq $t
   · intro s e h
     simp only [h]
   · intro s b t h
     simp only [h]
     rfl
   intro b
   try dsimp only))

/-- `draw` for a function given by cases. -/
theorem Reads.take {F : Numbers → Except ε (β × Numbers)} {g : ℝ → Numbers → Except ε (β × Numbers)}
    (h : ∀ s u t, reader.next s = (u, t) → F s = g u t) (hg : ∀ u, Reads (g u)) : Reads F := by
  have : F = fun s => g (s 0) (rest s) := funext fun s => h s (s 0) (rest s) rfl
  rw [this]
  exact Reads.draw hg

/-- Take a number, then go on. -/
macro "read_draw" : tactic => `(tactic|
  (apply Reads.take
   · intro s u t h
     simp only [h]
     rfl
   intro u
   try dsimp only))

/-! ### Independence -/

noncomputable section

/-- The first `k` numbers of one stream, then another stream. -/
def join (k : ℕ) (p : Numbers × Numbers) : Numbers := fun i => if i < k then p.1 i else p.2 (i - k)

theorem later_join (k : ℕ) (p : Numbers × Numbers) : later k (join k p) = p.2 := by
  funext i
  simp [later, join]

theorem join_measurable (k : ℕ) : Measurable (join k) := by
  refine measurable_pi_lambda _ fun i => ?_
  unfold join
  by_cases h : i < k
  · simp only [h, if_true]
    exact (measurable_pi_apply i).comp measurable_fst
  · simp only [h, if_false]
    exact (measurable_pi_apply (i - k)).comp measurable_snd

theorem later_measurable (k : ℕ) : Measurable (later k) :=
  measurable_pi_lambda _ fun i => measurable_pi_apply (i + k)

/-- Cutting a stream of independent numbers gives two independent streams. -/
theorem join_preserving (k : ℕ) : MeasurePreserving (join k) (independent.prod independent) independent := by
  refine ⟨join_measurable k, ?_⟩
  apply Measure.eq_infinitePi
  intro s t ht
  rw [Measure.map_apply (join_measurable k) (MeasurableSet.pi s.countable_toSet (fun i _ => ht i))]
  have e : join k ⁻¹' (Set.pi s t) =
      (Set.pi (s.filter (· < k)) t) ×ˢ
        (Set.pi ((s.filter (fun i => ¬ i < k)).image (· - k)) (fun j => t (j + k))) := by
    ext ⟨u, v⟩
    simp only [Set.mem_preimage, Set.mem_pi, Finset.mem_coe, Set.mem_prod, Finset.mem_filter, Finset.mem_image,
      forall_exists_index, and_imp]
    constructor
    · intro h
      refine ⟨fun i hi hk => ?_, fun j i hi hk hj => ?_⟩
      · have := h i hi
        simpa [join, hk] using this
      · have := h i hi
        subst hj
        have e : i - k + k = i := by omega
        rw [e]
        simpa [join, hk] using this
    · rintro ⟨h1, h2⟩ i hi
      by_cases hk : i < k
      · simpa [join, hk] using h1 i hi hk
      · have := h2 (i - k) i hi hk rfl
        have e : i - k + k = i := by omega
        rw [e] at this
        simpa [join, hk] using this
  rw [e, Measure.prod_prod]
  unfold independent
  rw [Measure.infinitePi_pi _ (fun i _ => ht i), Measure.infinitePi_pi _ (fun i _ => ht (i + k)),
    Finset.prod_image (fun a ha b hb h => by
      simp only [Finset.coe_filter, Set.mem_ofPred_eq] at ha hb
      have : a - k = b - k := h
      omega), ← Finset.prod_filter_mul_prod_filter_not s (· < k)]
  congr 1
  refine Finset.prod_congr rfl fun i hi => ?_
  simp only [Finset.mem_filter] at hi
  rw [show i - k + k = i by omega]

/-- What is decided by the first `k` numbers is independent of the stream behind them. -/
theorem head_tail (k : ℕ) {B A : Set Numbers} (hB : ∀ s s', (∀ i < k, s' i = s i) → s ∈ B → s' ∈ B)
    (hBm : NullMeasurableSet B independent) (hA : NullMeasurableSet A independent) :
    independent (B ∩ later k ⁻¹' A) = independent B * independent A := by
  have hl : MeasurePreserving (later k) independent independent := by
    refine ⟨later_measurable k, ?_⟩
    have h1 := (join_preserving k).map_eq
    conv_lhs => rw [← h1]
    rw [Measure.map_map (later_measurable k) (join_measurable k)]
    have : later k ∘ join k = Prod.snd := funext (later_join k)
    rw [this]
    exact measurePreserving_snd.map_eq
  have hm : NullMeasurableSet (B ∩ later k ⁻¹' A) independent :=
    hBm.inter (hA.preimage hl.quasiMeasurePreserving)
  rw [← (join_preserving k).measure_preimage hm, ← Measure.prod_prod]
  congr 1
  ext ⟨u, v⟩
  simp only [Set.mem_preimage, Set.mem_inter_iff, later_join, Set.mem_prod]
  have hu : ∀ i < k, join k (u, v) i = u i := fun i hi => by simp [join, hi]
  constructor
  · rintro ⟨h1, h2⟩
    exact ⟨hB _ _ (fun i hi => (hu i hi).symm) h1, h2⟩
  · rintro ⟨h1, h2⟩
    exact ⟨hB _ _ hu h1, h2⟩

variable {f : Numbers → Except ε (β × Numbers)} {n : Numbers → ℕ}

/-- What is left of the stream is as fresh as a new one. -/
theorem renewal (hf : ReadsBy n f) (hn : CountDecided n f) {E : β → Prop}
    (hE : Decided (Yields f E)) {A : Set Numbers} (hA : NullMeasurableSet A independent) :
    NullMeasurableSet {s | ∃ b t, f s = .ok (b, t) ∧ E b ∧ t ∈ A} independent ∧
    independent {s | ∃ b t, f s = .ok (b, t) ∧ E b ∧ t ∈ A} = chance (Yields f E) * independent A := by
  have hB : ∀ k, NullMeasurableSet {s | n s = k ∧ Yields f E s} independent := by
    intro k
    have : {s | n s = k ∧ Yields f E s} = {s | n s = k ∧ Yields f (fun _ => True) s} ∩ {s | Yields f E s} := by
      ext s
      constructor
      · rintro ⟨h1, b, t, h2, h3⟩
        exact ⟨⟨h1, b, t, h2, trivial⟩, b, t, h2, h3⟩
      · rintro ⟨⟨h1, -⟩, h2⟩
        exact ⟨h1, h2⟩
    rw [this]
    exact (hn k).inter hE
  have hdet : ∀ k s s', (∀ i < k, s' i = s i) → s ∈ {s | n s = k ∧ Yields f E s} →
      s' ∈ {s | n s = k ∧ Yields f E s} := by
    rintro k s s' h ⟨h1, b, t, h2, h3⟩
    obtain ⟨k1, k2⟩ := hf s s' (by rw [h1]; exact h)
    refine ⟨k1.trans h1, ?_⟩
    rcases k2 with ⟨e, e1, -⟩ | ⟨b', e1, e2⟩
    · rw [h2] at e1; cases e1
    · rw [h2] at e1; cases e1
      exact ⟨b, _, e2, h3⟩
  have hl : ∀ k, NullMeasurableSet (later k ⁻¹' A) independent := by
    intro k
    refine hA.preimage (MeasurePreserving.quasiMeasurePreserving ⟨later_measurable k, ?_⟩)
    have h1 := (join_preserving k).map_eq
    conv_lhs => rw [← h1]
    rw [Measure.map_map (later_measurable k) (join_measurable k), show later k ∘ join k = Prod.snd from
      funext (later_join k)]
    exact measurePreserving_snd.map_eq
  have hset : {s | ∃ b t, f s = .ok (b, t) ∧ E b ∧ t ∈ A} =
      ⋃ k, ({s | n s = k ∧ Yields f E s} ∩ later k ⁻¹' A) := by
    ext s
    simp only [Set.mem_ofPred_eq, Set.mem_iUnion, Set.mem_inter_iff, Set.mem_preimage]
    have hs := (hf s s (fun _ _ => rfl)).2
    constructor
    · rintro ⟨b, t, h1, h2, h3⟩
      refine ⟨n s, ⟨rfl, b, t, h1, h2⟩, ?_⟩
      rcases hs with ⟨e, e1, -⟩ | ⟨b', e1, -⟩
      · rw [h1] at e1; cases e1
      · rw [h1] at e1; cases e1; exact h3
    · rintro ⟨k, ⟨h0, b, t, h1, h2⟩, h3⟩
      refine ⟨b, t, h1, h2, ?_⟩
      rcases hs with ⟨e, e1, -⟩ | ⟨b', e1, -⟩
      · rw [h1] at e1; cases e1
      · rw [h1] at e1; cases e1; rw [h0]; exact h3
  have hY : {s | Yields f E s} = ⋃ k, {s | n s = k ∧ Yields f E s} := by
    ext s
    simp
  rw [hset]
  refine ⟨NullMeasurableSet.iUnion fun k => (hB k).inter (hl k), ?_⟩
  have hd : Pairwise (Function.onFun (AEDisjoint independent) fun k => {s | n s = k ∧ Yields f E s}) := by
    intro i j hij
    refine Disjoint.aedisjoint (Set.disjoint_left.2 ?_)
    rintro s ⟨h1, -⟩ ⟨h2, -⟩
    exact hij (h1.symm.trans h2)
  rw [measure_iUnion₀ (fun i j hij => (hd hij).mono inter_subset_left inter_subset_left)
    (fun k => (hB k).inter (hl k))]
  unfold chance
  rw [hY, measure_iUnion₀ hd hB, ← ENNReal.tsum_mul_right]
  exact tsum_congr fun k => head_tail k (hdet k) (hB k) hA

/-! ### Counting independent events -/

section Events
variable {Ω : Type} [MeasurableSpace Ω] {μ : Measure Ω} [IsProbabilityMeasure μ] {A : ℕ → Set Ω}

/-- One if event `i` happens. -/
def sign (A : ℕ → Set Ω) (i : ℕ) : Ω → ℝ := (A i).indicator fun _ => 1

theorem sign_mem (i : ℕ) (ω : Ω) : sign A i ω ∈ Icc (0 : ℝ) 1 := by
  unfold sign
  by_cases h : ω ∈ A i <;> simp [h]

theorem sign_mean (hA : ∀ i, MeasurableSet (A i)) (i : ℕ) : ∫ ω, sign A i ω ∂μ = μ.real (A i) := by
  unfold sign
  rw [integral_indicator (hA i)]
  simp

theorem events_one_side (hA : ∀ i, MeasurableSet (A i)) (hi : iIndepFun (sign A) μ) (n : ℕ) {ε : ℝ} (hε : 0 ≤ ε) :
    μ.real {ω | n * ε ≤ ∑ i ∈ Finset.range n, (sign A i ω - μ.real (A i))} ≤ Real.exp (-(2 * n * ε ^ 2)) ∧
    μ.real {ω | n * ε ≤ ∑ i ∈ Finset.range n, -(sign A i ω - μ.real (A i))} ≤
      Real.exp (-(2 * n * ε ^ 2)) := by
  have hm : ∀ i, Measurable (sign A i) := fun i => measurable_const.indicator (hA i)
  have hs : ∀ i, HasSubgaussianMGF (fun ω => sign A i ω - μ.real (A i)) ((‖(1 : ℝ) - 0‖₊ / 2) ^ 2) μ := by
    intro i
    have := hasSubgaussianMGF_of_mem_Icc (μ := μ) (X := sign A i) (a := 0) (b := 1)
      (hm i).aemeasurable (ae_of_all _ fun ω => sign_mem i ω)
    rwa [sign_mean hA] at this
  have hi1 : iIndepFun (fun i ω => sign A i ω - μ.real (A i)) μ :=
    hi.comp (fun i x => x - μ.real (A i)) fun _ => measurable_id.sub_const _
  have hi' : iIndepFun (fun i ω => -(sign A i ω - μ.real (A i))) μ :=
    hi1.comp (fun _ x => -x) fun _ => measurable_neg
  have hc : (((‖(1 : ℝ) - 0‖₊ / 2) ^ 2 : NNReal) : ℝ) = 1 / 4 := by norm_num
  have he : ∀ x : ℝ, x ≤ Real.exp (-(n * ε) ^ 2 / (2 * n * (1 / 4))) → x ≤ Real.exp (-(2 * n * ε ^ 2)) := by
    intro x hx
    refine hx.trans (le_of_eq ?_)
    congr 1
    rcases Nat.eq_zero_or_pos n with rfl | hn
    · simp
    · have : (n : ℝ) ≠ 0 := by positivity
      field_simp
      ring
  constructor
  · have := HasSubgaussianMGF.measure_sum_range_ge_le_of_iIndepFun hi1 (n := n) (fun i _ => hs i)
      (ε := n * ε) (by positivity)
    rw [hc] at this
    exact he _ this
  · have := HasSubgaussianMGF.measure_sum_range_ge_le_of_iIndepFun hi' (n := n) (fun i _ => (hs i).neg)
      (ε := n * ε) (by positivity)
    rw [hc] at this
    exact he _ this

/-- The share of independent events that happen is close to the mean of their chances. -/
theorem events_error (hA : ∀ i, MeasurableSet (A i)) (hi : iIndepFun (sign A) μ) {n : ℕ} (hn : 0 < n) {ε : ℝ}
    (hε : 0 ≤ ε) :
    μ {ω | ε ≤ |(∑ i ∈ Finset.range n, sign A i ω) / n - (∑ i ∈ Finset.range n, μ.real (A i)) / n|} ≤
      ENNReal.ofReal (2 * Real.exp (-(2 * n * ε ^ 2))) := by
  have hn' : (0 : ℝ) < n := by exact_mod_cast hn
  obtain ⟨h1, h2⟩ := events_one_side hA hi n hε
  have hsub : {ω | ε ≤ |(∑ i ∈ Finset.range n, sign A i ω) / n - (∑ i ∈ Finset.range n, μ.real (A i)) / n|} ⊆
      {ω | n * ε ≤ ∑ i ∈ Finset.range n, (sign A i ω - μ.real (A i))} ∪
        {ω | n * ε ≤ ∑ i ∈ Finset.range n, -(sign A i ω - μ.real (A i))} := by
    intro ω hb
    have hb : ε ≤ |(∑ i ∈ Finset.range n, sign A i ω) / n - (∑ i ∈ Finset.range n, μ.real (A i)) / n| := hb
    have e : ∑ i ∈ Finset.range n, (sign A i ω - μ.real (A i)) =
        n * ((∑ i ∈ Finset.range n, sign A i ω) / n - (∑ i ∈ Finset.range n, μ.real (A i)) / n) := by
      rw [Finset.sum_sub_distrib]
      field_simp
    rcases le_abs.1 hb with h | h
    · left
      show n * ε ≤ _
      rw [e]
      exact mul_le_mul_of_nonneg_left h hn'.le
    · right
      show n * ε ≤ _
      rw [Finset.sum_neg_distrib, e, ← mul_neg]
      exact mul_le_mul_of_nonneg_left h hn'.le
  refine (measure_mono hsub).trans ((measure_union_le _ _).trans ?_)
  rw [two_mul, ENNReal.ofReal_add (Real.exp_pos _).le (Real.exp_pos _).le]
  refine add_le_add ?_ ?_
  · rw [← ofReal_measureReal (measure_ne_top _ _)]
    exact ENNReal.ofReal_le_ofReal h1
  · rw [← ofReal_measureReal (measure_ne_top _ _)]
    exact ENNReal.ofReal_le_ofReal h2

/-- With probability one the share of independent events that happen and the mean of their chances come
together. -/
theorem events_converge (hA : ∀ i, MeasurableSet (A i)) (hi : iIndepFun (sign A) μ) :
    ∀ᵐ ω ∂μ, Filter.Tendsto
      (fun n : ℕ => (∑ i ∈ Finset.range n, sign A i ω) / n - (∑ i ∈ Finset.range n, μ.real (A i)) / n)
      Filter.atTop (nhds 0) := by
  have key : ∀ m : ℕ, ∀ᵐ ω ∂μ, ∀ᶠ n : ℕ in Filter.atTop,
      |(∑ i ∈ Finset.range n, sign A i ω) / n - (∑ i ∈ Finset.range n, μ.real (A i)) / n| < 1 / ((m : ℝ) + 1) := by
    intro m
    set ε : ℝ := 1 / ((m : ℝ) + 1) with hε
    have hε0 : 0 < ε := by positivity
    set D : ℕ → Set Ω := fun n =>
      {ω | ε ≤ |(∑ i ∈ Finset.range n, sign A i ω) / n - (∑ i ∈ Finset.range n, μ.real (A i)) / n|} with hD
    have hb : ∀ n, μ (D n) ≤ ENNReal.ofReal (2 * Real.exp (-(2 * n * ε ^ 2))) := by
      intro n
      rcases Nat.eq_zero_or_pos n with rfl | hn
      · refine (prob_le_one).trans ?_
        simp
      · exact events_error hA hi hn hε0.le
    have hsum : Summable fun n : ℕ => 2 * Real.exp (-(2 * n * ε ^ 2)) := by
      refine Summable.mul_left 2 ?_
      have : (fun n : ℕ => Real.exp (-(2 * n * ε ^ 2))) = fun n : ℕ => Real.exp (-(2 * ε ^ 2)) ^ n := by
        funext n
        rw [← Real.exp_nat_mul]
        congr 1
        ring
      rw [this]
      refine summable_geometric_of_lt_one (Real.exp_pos _).le ?_
      rw [Real.exp_lt_one_iff]
      have : 0 < ε ^ 2 := by positivity
      linarith
    have hfin : ∑' n, μ (D n) ≠ ⊤ := by
      refine ne_top_of_le_ne_top ?_ (ENNReal.tsum_le_tsum hb)
      exact hsum.tsum_ofReal_ne_top
    filter_upwards [ae_eventually_notMem hfin] with ω hω
    filter_upwards [hω] with n hn
    exact not_le.1 hn
  rw [← ae_all_iff] at key
  filter_upwards [key] with ω hω
  rw [Metric.tendsto_nhds]
  intro ε hε
  obtain ⟨m, hm⟩ := exists_nat_one_div_lt hε
  filter_upwards [hω m] with n hn
  rw [Real.dist_eq, sub_zero]
  exact hn.trans hm

end Events

end
end PV.Spec
