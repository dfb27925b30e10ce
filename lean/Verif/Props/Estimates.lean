import Verif.Lemmas.Batch
import Verif.Props.Tally
import Verif.Props.Slab
import Mathlib.Probability.Moments.SubGaussian

/-!
# C98 Counting rays estimates probabilities

A simulation throws many independent rays and counts.
-/

namespace PV.Estimates
open PV.Spec MeasureTheory Set ProbabilityTheory Filter Topology
noncomputable section

variable {P : Numbers → Prop}

/-- **C98** The mean of the count over all batches is `n` times the chance: the estimate is unbiased. -/
theorem expected_count (hP : Decided P) (n : ℕ) :
    ∫ ω, (count P n ω : ℝ) ∂batch = n * (chance P).toReal := by
  obtain ⟨A, hA, hPA, hc⟩ := hP.witness
  have h := count_marks hPA
  rw [integral_congr_ae (g := fun ω => ∑ i ∈ Finset.range n, mark A i ω) (by filter_upwards [h] with ω hω using hω n),
    integral_finsetSum _ fun i _ => mark_integrable hA i]
  simp [mark_mean hA, hc]

/-- **C98** With probability one the fraction of rays tends to the chance as more rays are thrown. -/
theorem estimate_converges (hP : Decided P) :
    ∀ᵐ ω ∂batch, Tendsto (fun n : ℕ => (count P n ω : ℝ) / n) atTop (𝓝 (chance P).toReal) := by
  obtain ⟨A, hA, hPA, hc⟩ := hP.witness
  have h := strong_law_ae_real (mark A) (mark_integrable hA 0)
    (fun i j hij => (mark_indep hA).indepFun hij) (mark_ident hA)
  rw [mark_mean hA, hc] at h
  filter_upwards [h, count_marks hPA] with ω h1 h2
  simpa only [h2] using h1

theorem one_side (hA : MeasurableSet A) (n : ℕ) {ε : ℝ} (hε : 0 ≤ ε) :
    batch.real {ω | n * ε ≤ ∑ i ∈ Finset.range n, (mark A i ω - independent.real A)} ≤
      Real.exp (-(2 * n * ε ^ 2)) ∧
    batch.real {ω | n * ε ≤ ∑ i ∈ Finset.range n, -(mark A i ω - independent.real A)} ≤
      Real.exp (-(2 * n * ε ^ 2)) := by
  have hs : ∀ i, HasSubgaussianMGF (fun ω => mark A i ω - independent.real A) ((‖(1 : ℝ) - 0‖₊ / 2) ^ 2) batch := by
    intro i
    have := hasSubgaussianMGF_of_mem_Icc (μ := batch) (X := mark A i) (a := 0) (b := 1)
      (mark_measurable hA i).aemeasurable (ae_of_all _ fun ω => mark_mem i ω)
    rwa [mark_mean hA] at this
  have hi : iIndepFun (fun i ω => mark A i ω - independent.real A) batch :=
    (mark_indep hA).comp (fun _ x => x - independent.real A) fun _ => measurable_id.sub_const _
  have hi' : iIndepFun (fun i ω => -(mark A i ω - independent.real A)) batch :=
    hi.comp (fun _ x => -x) fun _ => measurable_neg
  have hc : (((‖(1 : ℝ) - 0‖₊ / 2) ^ 2 : NNReal) : ℝ) = 1 / 4 := by norm_num
  have he : ∀ x : ℝ, x ≤ Real.exp (-(n * ε) ^ 2 / (2 * n * (1 / 4))) → x ≤ Real.exp (-(2 * n * ε ^ 2)) := by
    intro x hx
    refine hx.trans (le_of_eq ?_)
    congr 1
    rcases Nat.eq_zero_or_pos n with rfl | hn
    · simp
    · have : (n : ℝ) ≠ 0 := by positivity
      field_simp
      ring
  constructor
  · have := HasSubgaussianMGF.measure_sum_range_ge_le_of_iIndepFun hi (n := n) (fun i _ => hs i)
      (ε := n * ε) (by positivity)
    rw [hc] at this
    exact he _ this
  · have := HasSubgaussianMGF.measure_sum_range_ge_le_of_iIndepFun hi' (n := n) (fun i _ => (hs i).neg)
      (ε := n * ε) (by positivity)
    rw [hc] at this
    exact he _ this

/-- **C98** The chance that the fraction counted among `n` rays is wrong by `ε` or more is at most
`2 exp (-2 n ε²)`: the error falls like one over the square root of the number of rays. -/
theorem estimate_error (hP : Decided P) {n : ℕ} (hn : 0 < n) {ε : ℝ} (hε : 0 ≤ ε) :
    batch {ω | ε ≤ |(count P n ω : ℝ) / n - (chance P).toReal|} ≤
      ENNReal.ofReal (2 * Real.exp (-(2 * n * ε ^ 2))) := by
  obtain ⟨A, hA, hPA, hc⟩ := hP.witness
  have hn' : (0 : ℝ) < n := by exact_mod_cast hn
  obtain ⟨h1, h2⟩ := one_side hA n hε
  rw [hc] at h1 h2
  have hsub : batch {ω | ε ≤ |(count P n ω : ℝ) / n - (chance P).toReal|} ≤
      batch ({ω | n * ε ≤ ∑ i ∈ Finset.range n, (mark A i ω - (chance P).toReal)} ∪
        {ω | n * ε ≤ ∑ i ∈ Finset.range n, -(mark A i ω - (chance P).toReal)}) := by
    apply measure_mono_ae
    filter_upwards [count_marks hPA] with ω hω hb
    have hb : ε ≤ |(count P n ω : ℝ) / n - (chance P).toReal| := hb
    have e : ∑ i ∈ Finset.range n, (mark A i ω - (chance P).toReal) =
        n * ((count P n ω : ℝ) / n - (chance P).toReal) := by
      rw [Finset.sum_sub_distrib, ← hω n]
      simp only [Finset.sum_const, Finset.card_range, nsmul_eq_mul]
      field_simp
    rcases le_abs.1 hb with h | h
    · left
      show n * ε ≤ _
      rw [e]
      exact mul_le_mul_of_nonneg_left h hn'.le
    · right
      show n * ε ≤ _
      rw [Finset.sum_neg_distrib, e, ← mul_neg]
      exact mul_le_mul_of_nonneg_left h hn'.le
  refine hsub.trans ((measure_union_le _ _).trans ?_)
  rw [two_mul, ENNReal.ofReal_add (Real.exp_pos _).le (Real.exp_pos _).le]
  refine add_le_add ?_ ?_
  · rw [← ofReal_measureReal (measure_ne_top _ _)]
    exact ENNReal.ofReal_le_ofReal h1
  · rw [← ofReal_measureReal (measure_ne_top _ _)]
    exact ENNReal.ofReal_le_ofReal h2

section Recorders
variable {α ν : Type} [Field α] [LinearOrder α] [FloorRing α] [DecidableEq ν]

/-- The histories of the first `n` rays, ray `i` traced with sequence `i`. -/
def histories (H : Numbers → List (Step α)) (ω : Sequences) (n : ℕ) : List (List (Step α)) :=
  (List.range n).map fun i => H (ω i)

/-- The ray is seen by the recorder. -/
def Seen (E : TallyEnv α ν) (node : ν) (r : Recorder α) (H : Numbers → List (Step α)) (s : Numbers) : Prop :=
  ∃ e ∈ H s, Counted E node r e

/-- The ray is seen by the recorder, with a value in bin `k` of the histogram. -/
def SeenIn (E : TallyEnv α ν) (node : ν) (r : Recorder α) (a : Hist α) (k : ℕ)
    (H : Numbers → List (Step α)) (s : Numbers) : Prop :=
  ∃ v, firstValues E node r (H s) = some v ∧ a.bin v = some k

open Classical in
theorem countP_range (P : Numbers → Prop) (p : ℕ → Bool) (ω : Sequences) (n : ℕ)
    (h : ∀ i, p i = true ↔ P (ω i)) : (List.range n).countP p = count P n ω := by
  unfold count
  induction n with
  | zero => simp
  | succ n ih =>
    rw [List.range_succ, List.countP_append, ih, Finset.range_add_one, Finset.filter_insert]
    by_cases hp : P (ω n)
    · rw [if_pos hp, Finset.card_insert_of_notMem (by simp), List.countP_singleton, if_pos ((h n).2 hp)]
    · rw [if_neg hp, List.countP_singleton, if_neg (fun hh => hp ((h n).1 hh)), add_zero]

open Classical in
theorem raysWith_count (E : TallyEnv α ν) (node : ν) (r : Recorder α) (H : Numbers → List (Step α))
    (ω : Sequences) (n : ℕ) :
    raysWith E node r (histories H ω n) = count (Seen E node r H) n ω := by
  unfold raysWith histories
  rw [List.countP_map]
  exact countP_range _ _ _ _ fun i => by simp [Seen]

theorem countP_filterMap' {β γ : Type} (f : β → Option γ) (q : γ → Bool) (l : List β) :
    (l.filterMap f).countP q = l.countP fun x => (f x).any q := by
  induction l with
  | nil => rfl
  | cons x l ih =>
    cases hx : f x with
    | none => simp [hx, ih]
    | some y => simp [hx, List.countP_cons, ih]

theorem bin_count (E : TallyEnv α ν) (node : ν) (r : Recorder α) (a : Hist α) (k : ℕ)
    (H : Numbers → List (Step α)) (ω : Sequences) (n : ℕ) :
    ((recorded E node r (histories H ω n)).countP fun v => a.bin v = some k) =
      count (SeenIn E node r a k H) n ω := by
  unfold recorded histories
  rw [countP_filterMap', List.countP_map]
  exact countP_range _ _ _ _ fun i => by simp [SeenIn, Option.any_eq_true]

/-- What the tally of the first `n` rays reports for recorder `j`. -/
def reported (E : TallyEnv α ν) (recs : List (ν × Recorder α)) (H : Numbers → List (Step α))
    (j : ℕ) (ω : Sequences) (n : ℕ) : Option (TallyState α) :=
  (tallyHistories E recs (histories H ω n)).toOption.bind fun out => out[j]?.map (·.2.2)

/-- **C98** The number of rays a recorder reports, divided by the number of rays thrown, tends to the
chance that a ray is seen by the recorder; the content of each bin tends to the chance that a ray is
seen with a value in that bin. -/
theorem recorder_estimates (E : TallyEnv α ν) (recs : List (ν × Recorder α))
    (hnd : (recs.map (·.2.name)).Nodup) (H : Numbers → List (Step α)) {j : ℕ} {node : ν} {r : Recorder α}
    (hj : recs[j]? = some (node, r)) (hd : Decided (Seen E node r H)) :
    ∀ᵐ ω ∂batch, ∀ st : ℕ → TallyState α, (∀ n, reported E recs H j ω n = some (st n)) →
      Tendsto (fun n : ℕ => ((st n).rays : ℝ) / n) atTop (𝓝 (chance (Seen E node r H)).toReal) := by
  filter_upwards [estimate_converges hd] with ω hω st hst
  refine hω.congr fun n => ?_
  congr 2
  have := hst n
  unfold reported at this
  cases ht : tallyHistories E recs (histories H ω n) with
  | error e => rw [ht] at this; cases this
  | ok out =>
    rw [ht] at this
    have ho := Tally.tally_exact E recs hnd _ out ht
    rw [ho] at this
    simp only [Except.toOption, Option.bind_some, List.getElem?_map, hj, Option.map_some, Option.some.injEq] at this
    rw [← this]
    exact ((Tally.recorded_length ..).trans (raysWith_count ..)).symm

theorem histogram_estimates (E : TallyEnv α ν) (recs : List (ν × Recorder α))
    (hnd : (recs.map (·.2.name)).Nodup) (H : Numbers → List (Step α)) {j : ℕ} {node : ν} {r : Recorder α}
    (hj : recs[j]? = some (node, r)) {i : ℕ} {a : Hist α} (hi : r.hists[i]? = some a) (k : ℕ)
    (hd : Decided (SeenIn E node r a k H)) :
    ∀ᵐ ω ∂batch, ∀ (st : ℕ → TallyState α) (b : ℕ → ℕ → ℕ), (∀ n, reported E recs H j ω n = some (st n)) →
      (∀ n, (st n).bins[i]? = some (b n)) →
      Tendsto (fun n : ℕ => (b n k : ℝ) / n) atTop (𝓝 (chance (SeenIn E node r a k H)).toReal) := by
  filter_upwards [estimate_converges hd] with ω hω st b hst hb
  refine hω.congr fun n => ?_
  congr 2
  have := hst n
  unfold reported at this
  cases ht : tallyHistories E recs (histories H ω n) with
  | error e => rw [ht] at this; cases this
  | ok out =>
    rw [ht] at this
    have ho := Tally.tally_exact E recs hnd _ out ht
    rw [ho] at this
    simp only [Except.toOption, Option.bind_some, List.getElem?_map, hj, Option.map_some, Option.some.injEq] at this
    have hbn := hb n
    rw [← this] at hbn
    simp only [List.getElem?_map, hi, Option.map_some, Option.some.injEq] at hbn
    rw [← hbn]
    exact (bin_count ..).symm

/-- **C98** and with `n` rays the fraction reported is wrong by `ε` or more with a chance of at most
`2 exp (-2 n ε²)`. -/
theorem recorder_error (E : TallyEnv α ν) (recs : List (ν × Recorder α))
    (hnd : (recs.map (·.2.name)).Nodup) (H : Numbers → List (Step α)) {j : ℕ} {node : ν} {r : Recorder α}
    (hj : recs[j]? = some (node, r)) (hd : Decided (Seen E node r H)) {n : ℕ} (hn : 0 < n) {ε : ℝ}
    (hε : 0 ≤ ε) :
    batch {ω | ∃ st, reported E recs H j ω n = some st ∧
        ε ≤ |(st.rays : ℝ) / n - (chance (Seen E node r H)).toReal|} ≤
      ENNReal.ofReal (2 * Real.exp (-(2 * n * ε ^ 2))) := by
  refine (measure_mono ?_).trans (estimate_error hd hn hε)
  rintro ω ⟨st, hst, h⟩
  show ε ≤ _
  unfold reported at hst
  cases ht : tallyHistories E recs (histories H ω n) with
  | error e => rw [ht] at hst; cases hst
  | ok out =>
    rw [ht] at hst
    have ho := Tally.tally_exact E recs hnd _ out ht
    rw [ho] at hst
    simp only [Except.toOption, Option.bind_some, List.getElem?_map, hj, Option.map_some, Option.some.injEq] at hst
    rw [← hst] at h
    rwa [show (recorded E node r (histories H ω n)).length = count (Seen E node r H) n ω from
      (Tally.recorded_length ..).trans (raysWith_count ..)] at h

end Recorders

section Total
variable {α ν : Type} [Field α] [LinearOrder α] [FloorRing α]
variable {E : TallyEnv α ν} (hE : ∀ node p, ∃ n, E.exitNormal node p = .ok n)
include hE

theorem tallyPairs_total (prev : Option (Ray α)) (step : Step α) :
    ∀ (ps : List (ν × Recorder α × TallyState α)) (seen : List String),
      ∃ out, tallyPairs E prev step ps seen = .ok out := by
  intro ps
  induction ps with
  | nil => intro seen; exact ⟨_, rfl⟩
  | cons p ps ih =>
    intro seen
    obtain ⟨node, r, st⟩ := p
    have h1 : ∃ q, tallyPair E prev step node r seen st = .ok q := by
      unfold tallyPair
      split
      · exact ⟨_, rfl⟩
      · have : ∃ n, eventNormal E node step = .ok n := by
          unfold eventNormal
          split
          · obtain ⟨n, hn⟩ := hE node step.ray.position
            rw [hn]; exact ⟨_, rfl⟩
          · exact ⟨_, rfl⟩
        obtain ⟨n, hn⟩ := this
        rw [hn]
        dsimp only
        split
        · exact ⟨_, rfl⟩
        · split <;> exact ⟨_, rfl⟩
    obtain ⟨⟨seen', st'⟩, h1⟩ := h1
    obtain ⟨⟨seen'', ps'⟩, h2⟩ := ih seen'
    unfold tallyPairs
    rw [h1]
    dsimp only
    rw [h2]
    exact ⟨_, rfl⟩

theorem tallyHistory_total : ∀ (h : List (Step α)) (prev : Option (Ray α)) (seen : List String)
    (ps : List (ν × Recorder α × TallyState α)), ∃ out, tallyHistory E h prev seen ps = .ok out := by
  intro h
  induction h with
  | nil => intro prev seen ps; exact ⟨_, rfl⟩
  | cons s h ih =>
    intro prev seen ps
    obtain ⟨⟨seen', ps'⟩, h1⟩ := tallyPairs_total hE prev s ps seen
    unfold tallyHistory
    rw [h1]
    exact ih _ _ _

/-- The tally does not fail when the recorders' nodes have a normal wherever rays leave. -/
theorem tally_total (recs : List (ν × Recorder α)) (hs : List (List (Step α))) :
    ∃ out, tallyHistories E recs hs = .ok out := by
  unfold tallyHistories
  generalize recs.map (fun p => (p.1, p.2, TallyState.init p.2)) = ps
  induction hs generalizing ps with
  | nil => exact ⟨_, rfl⟩
  | cons h hs ih =>
    obtain ⟨ps', h1⟩ := tallyHistory_total hE h none [] ps
    unfold tallyAll
    rw [h1]
    exact ih _

end Total

/-! A recorder for rays that leave a scene, on rays of which three tenths leave. -/

/-- Leaves the scene if its first number is below `0.3`, and is killed otherwise. -/
def toss (s : Numbers) : List (Step ℝ) :=
  if s 0 < 0.3 then [⟨⟨0, ⟨0, 0, 1⟩, 555, 0, 0, none⟩, .exit, { hit := some "world" }⟩]
  else [⟨⟨0, ⟨0, 0, 1⟩, 555, 0, 0, none⟩, .kill, { container := some "world" }⟩]

def tossEnv : TallyEnv ℝ Unit := ⟨fun _ => "world", fun _ x => x, fun _ _ => .ok ⟨0, 0, 1⟩, fun x => x⟩

def leaving : Recorder ℝ := { name := "out", event := .exit, atol := 1e-6 }

theorem toss_seen (s : Numbers) : Seen tossEnv () leaving toss s ↔ s 0 < 0.3 := by
  unfold Seen toss
  split <;> rename_i h
  · simp only [h, iff_true, List.mem_singleton]
    refine ⟨_, rfl, ⟨rfl, rfl⟩, ?_⟩
    intro f hf; cases hf
  · simp only [h, iff_false, List.mem_singleton]
    rintro ⟨e, rfl, ⟨h1, -⟩, -⟩
    cases h1

theorem toss_decided : Decided (Seen tossEnv () leaving toss) := by
  unfold Decided
  simp only [toss_seen]
  exact (measurableSet_lt (measurable_pi_apply 0) measurable_const).nullMeasurableSet

theorem toss_chance : (chance (Seen tossEnv () leaving toss)).toReal = 0.3 := by
  have : chance (Seen tossEnv () leaving toss) = ENNReal.ofReal 0.3 := by
    unfold chance
    simp only [toss_seen]
    have := chance_first {u | u < 0.3} measurableSet_Iio univ MeasurableSet.univ
    rw [measure_univ, mul_one, uniform_below (by norm_num) (by norm_num)] at this
    simpa using this
  rw [this, ENNReal.toReal_ofReal (by norm_num)]

theorem toss_reported (ω : Sequences) (n : ℕ) :
    ∃ st, reported tossEnv [((), leaving)] toss 0 ω n = some st := by
  obtain ⟨out, h⟩ := tally_total (E := tossEnv) (fun _ _ => ⟨_, rfl⟩) [((), leaving)] (histories toss ω n)
  have ho := Tally.tally_exact tossEnv [((), leaving)] (by simp) _ out h
  unfold reported
  rw [h, ho]
  exact ⟨_, rfl⟩

example : ∀ᵐ ω ∂batch, ∀ st : ℕ → TallyState ℝ,
    (∀ n, reported tossEnv [((), leaving)] toss 0 ω n = some (st n)) →
      Tendsto (fun n : ℕ => ((st n).rays : ℝ) / n) atTop (𝓝 0.3) := by
  have := recorder_estimates tossEnv [((), leaving)] (by simp) toss (j := 0) rfl toss_decided
  rwa [toss_chance] at this

/-! ### A beam on a slab -/

theorem decided_congr {P Q : Numbers → Prop} (h : ∀ s, (∀ j, 0 ≤ s j ∧ s j < 1) → (P s ↔ Q s))
    (hQ : MeasurableSet {s | Q s}) : Decided P := by
  refine NullMeasurableSet.congr hQ.nullMeasurableSet ?_
  filter_upwards [in_unit] with s hs
  exact propext (h s hs).symm

open PV.Slab
section Slab
variable {D : Slab} {B : Trimesh} {w a x y z : ℝ} {method : EmitMethod}
variable {ray : Ray ℝ} (h : Lit D B w a x y z) (hb : Beam x y z w ray)
include h hb

theorem slab_decided (m : ℕ) (d : Vec3 ℝ) : Decided (Ends (ops D B method) (m + 2) ray .exit d) := by
  refine decided_congr (fun s hs => PathLaw.ends_iff (caught (method := method) h) (attenuates h)
    (lt_trans (by norm_num) h.seen) (enters h hb) hs) ?_
  have h1 : MeasurableSet {s : Numbers | s 0 < R D} := measurableSet_lt (measurable_pi_apply 0) measurable_const
  refine (h1.inter (MeasurableSet.const _)).union (h1.compl.inter ?_)
  have e : {s : Numbers | ∃ k < m, PathLaw.fate (Real.exp (-(a * D.size.z))) (R D) (m + 1) (rest s) = .left k ∧
      (⟨0, 0, sgn k⟩ : Vec3 ℝ) = d} = ⋃ k, {s | k < m} ∩ ({s | PathLaw.fate (Real.exp (-(a * D.size.z))) (R D) (m + 1) (rest s) = .left k} ∩
        {s | (⟨0, 0, sgn k⟩ : Vec3 ℝ) = d}) := by
    ext s; simp
  have hm : MeasurableSet {s : Numbers | ∃ k < m, PathLaw.fate (Real.exp (-(a * D.size.z))) (R D) (m + 1) (rest s) = .left k ∧
      (⟨0, 0, sgn k⟩ : Vec3 ℝ) = d} := by
    rw [e]
    exact MeasurableSet.iUnion fun k => (MeasurableSet.const _).inter
      ((measurable_rest (PathLaw.fate_measurable _ _ _ _)).inter (MeasurableSet.const _))
  exact hm

theorem slab_chance (m : ℕ) :
    (chance (Ends (ops D B method) (m + 2) ray .exit ⟨0, 0, 1⟩)).toReal ≤ transmittance (R D) (pass D a) ∧
    transmittance (R D) (pass D a) ≤
      (chance (Ends (ops D B method) (m + 2) ray .exit ⟨0, 0, 1⟩)).toReal + (R D * pass D a) ^ m := by
  obtain ⟨T, h1, h2, h3⟩ := transmitted_fraction (method := method) h hb m
  have h4 := (geometric_bounds h).2.2.1
  rw [h1, ENNReal.toReal_ofReal']
  refine ⟨max_le h2 h4, h3.trans (by gcongr; exact le_max_left _ _)⟩

/-- **C98** The part of the simulated rays that leaves a slab on the far side tends, as more rays are
thrown, to the transmittance of the textbook, up to the rays cut off by the limit on the number of
steps. -/
theorem simulated_transmittance (m : ℕ) :
    ∀ᵐ ω ∂batch, ∃ T : ℝ,
      Tendsto (fun n : ℕ => (count (Ends (ops D B method) (m + 2) ray .exit ⟨0, 0, 1⟩) n ω : ℝ) / n)
        atTop (𝓝 T) ∧
      T ≤ transmittance (R D) (pass D a) ∧
      transmittance (R D) (pass D a) ≤ T + (R D * pass D a) ^ m := by
  filter_upwards [estimate_converges (slab_decided (method := method) h hb m ⟨0, 0, 1⟩)] with ω hω
  exact ⟨_, hω, slab_chance h hb m⟩

/-- **C98** With `n` rays the simulated fraction is off by `ε`, beyond the rays cut off, with a chance of at
most `2 exp (-2 n ε²)`. -/
theorem simulated_error (m : ℕ) {n : ℕ} (hn : 0 < n) {ε : ℝ} (hε : 0 ≤ ε) :
    batch {ω | ε + (R D * pass D a) ^ m ≤
        |(count (Ends (ops D B method) (m + 2) ray .exit ⟨0, 0, 1⟩) n ω : ℝ) / n -
          transmittance (R D) (pass D a)|} ≤
      ENNReal.ofReal (2 * Real.exp (-(2 * n * ε ^ 2))) := by
  obtain ⟨h1, h2⟩ := slab_chance (method := method) h hb m
  refine (measure_mono ?_).trans (estimate_error (slab_decided (method := method) h hb m ⟨0, 0, 1⟩) hn hε)
  intro ω hω
  have hω : ε + (R D * pass D a) ^ m ≤
        |(count (Ends (ops D B method) (m + 2) ray .exit ⟨0, 0, 1⟩) n ω : ℝ) / n -
          transmittance (R D) (pass D a)| := hω
  have h0 : 0 ≤ (R D * pass D a) ^ m := pow_nonneg (geometric_bounds h).1 m
  show ε ≤ _
  rcases le_abs.1 hω with h | h
  · exact le_trans (by linarith) (le_abs_self _)
  · exact le_trans (by linarith) (neg_le_abs _)

end Slab

/-- A million rays on the tinted slab: off by half a percent or more with a chance below `4e-22`. -/
example (m : ℕ) : batch {ω | 0.005 + (R tinted * pass tinted 2) ^ m ≤
      |(count (Ends (ops tinted kBox .kT) (m + 2) ⟨⟨0.1, 0.2, -3⟩, ⟨0, 0, 1⟩, 555, 0, 0, none⟩ .exit
          ⟨0, 0, 1⟩) 1000000 ω : ℝ) / (1000000 : ℕ) - transmittance (R tinted) (pass tinted 2)|} ≤
    ENNReal.ofReal (2 * Real.exp (-50)) := by
  have := simulated_error (method := .kT)
    (ray := ⟨⟨0.1, 0.2, -3⟩, ⟨0, 0, 1⟩, 555, 0, 0, none⟩) tinted_lit ⟨rfl, rfl, rfl⟩ m (n := 1000000) (by norm_num) (ε := 0.005)
    (by norm_num)
  convert this using 4
  norm_num

end
end PV.Estimates
