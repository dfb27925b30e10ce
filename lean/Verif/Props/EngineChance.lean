import Verif.Spec.Writes
import Verif.Spec.Schedule
import Verif.Lemmas.TameKernel
import Verif.Lemmas.EngineTally
import Verif.Lemmas.Schedule
import Verif.Props.Estimates
import Verif.Props.Budget
import Verif.Props.EngineTally
import Verif.Props.Stream

/-!
C113: every Borel question about a ray traced by the engine has a chance, and the totals of the engine's recorders
estimate these chances, for any number of threads and any schedule.
-/

namespace PV.EngineChance
open MeasureTheory Spec ProbabilityTheory Measured
variable {n : ℕ}

/-! ### Borel conditions -/

theorem basic_writes {X : Type} [MeasurableSpace X] {G : X → List (Effect ℝ (Row ℝ (Fin n) Comp))} (hG : basic G) :
    ∃ fs, ∃ v : X → ℕ → Fin 12 → ℝ, Measurable v ∧ G = fun x => writesAt fs (v x) := by
  obtain ⟨L, hL, rfl⟩ := hG
  have key : ∃ M : List (Effect Unit (RowForm n) × (X → Fin 12 → ℝ)), (∀ m ∈ M, Measurable m.2) ∧
      L = M.map fun m x => effectAt m.1 (m.2 x) := by
    induction L with
    | nil => exact ⟨[], by simp, rfl⟩
    | cons f L ih =>
      obtain ⟨M, hM, e⟩ := ih fun g hg => hL g (List.mem_cons_of_mem _ hg)
      have one : ∃ (a : Effect Unit (RowForm n)) (v : X → Fin 12 → ℝ), Measurable v ∧ f = fun x => effectAt a (v x) := by
        rcases hL f List.mem_cons_self with ⟨i, _, ⟨kind, hit, c, a, comp, _, nrm,
          ⟨p, d, w, t, u, src, ⟨px, py, pz, h1, h2, h3, rfl⟩, ⟨dx, dy, dz, h4, h5, h6, rfl⟩, hw, ht, hu, rfl⟩, hn, rfl⟩, rfl⟩ |
          ⟨i, k, rfl⟩ | ⟨i, rfl⟩ | ⟨i, rfl⟩ | ⟨i, v, hv, rfl⟩ | ⟨i, rfl⟩
        · rcases hn with rfl | ⟨_, ⟨a1, a2, a3, g1, g2, g3, rfl⟩, rfl⟩
          · refine ⟨.write i ⟨kind, hit, c, a, comp, src, false⟩,
              fun x => ![px x, py x, pz x, dx x, dy x, dz x, w x, t x, u x, 0, 0, 0], ?_, rfl⟩
            refine measurable_pi_lambda _ fun j => ?_
            fin_cases j <;> first | assumption | exact measurable_const
          · refine ⟨.write i ⟨kind, hit, c, a, comp, src, true⟩,
              fun x => ![px x, py x, pz x, dx x, dy x, dz x, w x, t x, u x, a1 x, a2 x, a3 x], ?_, rfl⟩
            refine measurable_pi_lambda _ fun j => ?_
            fin_cases j <;> assumption
        · exact ⟨.count i k, fun _ => 0, measurable_const, rfl⟩
        · exact ⟨.distinct i, fun _ => 0, measurable_const, rfl⟩
        · exact ⟨.cross i, fun _ => 0, measurable_const, rfl⟩
        · exact ⟨.sum i (), fun x _ => v x, measurable_pi_lambda _ fun _ => hv, rfl⟩
        · exact ⟨.bin i, fun _ => 0, measurable_const, rfl⟩
      obtain ⟨a, v, hv, rfl⟩ := one
      refine ⟨(a, v) :: M, ?_, ?_⟩
      · intro m hm
        rcases List.mem_cons.1 hm with rfl | hm
        · exact hv
        · exact hM m hm
      · rw [List.map_cons, e]
  obtain ⟨M, hM, rfl⟩ := key
  refine ⟨M.map (·.1), fun x i => ((M[i]?).map fun m => m.2 x).getD 0, ?_, ?_⟩
  · refine measurable_pi_lambda _ fun i => ?_
    rcases h : M[i]? with _ | m
    · simp only [Option.map_none, Option.getD_none]
      exact measurable_const
    · simp only [Option.map_some, Option.getD_some]
      exact hM m (List.mem_of_getElem? h)
  · funext x
    unfold writesAt
    apply List.ext_getElem
    · simp
    · intro i h1 h2
      simp only [List.length_map] at h1
      simp [h1]

/-- **C113** Every Borel question about what the engine writes for a ray has a chance. -/
theorem engine_decided (S : LScene n) (method : EmitMethod) (T : RecTables ℝ (Fin (n + 1))) (slot : LogSlot)
    (maxsteps : ℕ) (ray : KRay ℝ Comp) {E : List (Effect ℝ (Row ℝ (Fin (n + 1)) Comp)) → Prop} (hE : BorelWrites E) :
    Decided (fun s => E (kTraceOne (kOps S reader method) T slot maxsteps ray s).1) := by
  have hr : basic (fun _ : Numbers => ray) := ⟨_, _, _, _, _, _, vec_const ray.position, vec_const ray.direction,
    measurable_const, measurable_const, measurable_const, rfl⟩
  have ht := (kTraceOne_tame (X := Numbers) (s := id) S method T slot maxsteps hr measurable_id).fst
  refine MeasurableSet.nullMeasurableSet (ht.set (fun y _ => E y) fun G hG => ?_)
  obtain ⟨fs, v, hv, rfl⟩ := basic_writes hG
  exact hv (hE fs)

/-! ### Independent rays with different chances -/

section Batch
variable {P : ℕ → Numbers → Prop}

open Classical in
/-- The number of rays among the first `k` for which their own event happens. -/
noncomputable def happen (P : ℕ → Numbers → Prop) (k : ℕ) (ω : Sequences) : ℕ :=
  ((Finset.range k).filter fun i => P i (ω i)).card

theorem events (hP : ∀ i, Decided (P i)) : ∃ A : ℕ → Set Sequences, (∀ i, MeasurableSet (A i)) ∧
    iIndepFun (sign A) batch ∧ (∀ i, batch.real (A i) = (chance (P i)).toReal) ∧
    ∀ᵐ ω ∂batch, ∀ i, P i (ω i) ↔ ω ∈ A i := by
  choose B hB hPB hc using fun i => (hP i).witness
  have hp := fun i => measurePreserving_eval_infinitePi (fun _ : ℕ => independent) i
  refine ⟨fun i => {ω | ω i ∈ B i}, fun i => (hp i).measurable (hB i), ?_, ?_, ?_⟩
  · exact iIndepFun_infinitePi (P := fun _ => independent) (X := fun i => (B i).indicator (fun _ => (1 : ℝ)))
      (fun i => measurable_const.indicator (hB i))
  · intro i
    rw [← hc i]
    unfold Measure.real
    congr 1
    exact (hp i).measure_preimage (hB i).nullMeasurableSet
  · rw [ae_all_iff]
    intro i
    exact (hp i).quasiMeasurePreserving.ae (hPB i)

theorem happen_sign {A : ℕ → Set Sequences} {ω : Sequences} (h : ∀ i, P i (ω i) ↔ ω ∈ A i) (k : ℕ) :
    (happen P k ω : ℝ) = ∑ i ∈ Finset.range k, sign A i ω := by
  classical
  unfold happen sign
  rw [Finset.card_filter, Nat.cast_sum]
  refine Finset.sum_congr rfl fun i _ => ?_
  by_cases hp : P i (ω i)
  · simp [hp, (h i).1 hp]
  · have hn : ω ∉ A i := fun h' => hp ((h i).2 h')
    simp [hp, hn]

theorem happen_error (hP : ∀ i, Decided (P i)) {k : ℕ} (hk : 0 < k) {ε : ℝ} (hε : 0 ≤ ε) :
    batch {ω | ε ≤ |(happen P k ω : ℝ) / k - (∑ i ∈ Finset.range k, (chance (P i)).toReal) / k|} ≤
      ENNReal.ofReal (2 * Real.exp (-(2 * k * ε ^ 2))) := by
  obtain ⟨A, hA, hi, hc, ht⟩ := events hP
  refine le_trans ?_ (events_error hA hi hk hε)
  apply measure_mono_ae
  filter_upwards [ht] with ω hω hb
  have hb : ε ≤ |(happen P k ω : ℝ) / k - (∑ i ∈ Finset.range k, (chance (P i)).toReal) / k| := hb
  show ε ≤ _
  rw [happen_sign hω] at hb
  simpa only [hc] using hb

theorem happen_converges (hP : ∀ i, Decided (P i)) :
    ∀ᵐ ω ∂batch, Filter.Tendsto (fun k : ℕ => (happen P k ω : ℝ) / k -
      (∑ i ∈ Finset.range k, (chance (P i)).toReal) / k) Filter.atTop (nhds 0) := by
  obtain ⟨A, hA, hi, hc, ht⟩ := events hP
  filter_upwards [ht, events_converge hA hi] with ω hω hb
  simpa only [happen_sign hω, hc] using hb

theorem happen_mean (hP : ∀ i, Decided (P i)) (k : ℕ) :
    ∫ ω, (happen P k ω : ℝ) ∂batch = ∑ i ∈ Finset.range k, (chance (P i)).toReal := by
  obtain ⟨A, hA, hi, hc, ht⟩ := events hP
  rw [integral_congr_ae (g := fun ω => ∑ i ∈ Finset.range k, sign A i ω) (by
    filter_upwards [ht] with ω hω using happen_sign hω k), integral_finsetSum]
  · exact Finset.sum_congr rfl fun i _ => by rw [sign_mean hA, hc]
  · intro i _
    exact Integrable.of_bound (measurable_const.indicator (hA i)).aestronglyMeasurable 1 (ae_of_all _ fun ω => by
      have := sign_mem (A := A) i ω
      rw [Real.norm_eq_abs, abs_of_nonneg this.1]
      exact this.2)

theorem happen_all (hP : ∀ i, Decided (P i)) (k : ℕ) :
    batch {ω | ∀ i < k, P i (ω i)} = ∏ i ∈ Finset.range k, chance (P i) := by
  choose B hB hPB hc using fun i => (hP i).witness
  have hp := fun i => measurePreserving_eval_infinitePi (fun _ : ℕ => independent) i
  have h : ∀ᵐ ω ∂batch, ∀ i, P i (ω i) ↔ ω i ∈ B i := by
    rw [ae_all_iff]
    intro i
    exact (hp i).quasiMeasurePreserving.ae (hPB i)
  have e1 : batch {ω | ∀ i < k, P i (ω i)} = batch (Set.pi (Finset.range k) B) := by
    apply measure_congr
    rw [Filter.eventuallyEq_set]
    filter_upwards [h] with ω hω
    simp only [Set.mem_pi, Finset.coe_range, Set.mem_Iio]
    exact forall₂_congr fun i _ => hω i
  rw [e1, batch, Measure.infinitePi_pi _ fun i _ => hB i]
  refine Finset.prod_congr rfl fun i _ => ?_
  apply measure_congr
  rw [Filter.eventuallyEq_set]
  filter_upwards [hPB i] with s hs using hs.symm

end Batch

/-! ### Totals of a bundle -/

section Totals
variable {ν ρ : Type}

theorem alone_eq (ws : List (Effect ℝ ρ)) : (alone ws).distinct = (fun k => total (dDistinct k) ws) ∧
    (alone ws).cross = (fun k => total (dCross k) ws) ∧ (alone ws).sums = (fun k => total (dSum k) ws) ∧
    (alone ws).bins = (fun k => total (dBin k) ws) := by
  unfold alone
  induction ws using List.reverseRecOn with
  | nil => exact ⟨rfl, rfl, rfl, rfl⟩
  | append_singleton ws e ih =>
    obtain ⟨h1, h2, h3, h4⟩ := ih
    rw [List.foldl_append, List.foldl_cons, List.foldl_nil]
    refine ⟨?_, ?_, ?_, ?_⟩ <;> funext k
    · rw [apply_distinct, h1, total_append]; simp [total]
    · rw [apply_cross, h2, total_append]; simp [total]
    · rw [apply_sums, h3, total_append]; simp [total]
    · rw [apply_bins, h4, total_append]; simp [total]

theorem alone_count (ws : List (Effect ℝ ρ)) (i k : ℕ) : alone (ws ++ [.count i k]) = alone ws := by
  unfold alone
  rw [List.foldl_append]
  rfl

variable {κ σ : Type} [DecidableEq ν] (K : KOps ℝ ν κ σ) (T : RecTables ℝ ν) (maxsteps m re : ℕ)

theorem alone_ray (bundle : List (Launch ℝ κ σ)) {i : ℕ} {l : Launch ℝ κ σ} (hl : bundle[i]? = some l) :
    alone (kRay K T maxsteps m re bundle i) = alone (kTraceOne K T (slotOf re m i) maxsteps l.ray l.rng).1 := by
  unfold kRay
  rw [hl]
  dsimp only
  split
  · rfl
  · exact alone_count _ _ _

/-- Whatever the threads and the schedule, the accumulators of a bundle are the sums of what its rays contribute on
their own. -/
theorem totals_add {bundle : List (Launch ℝ κ σ)} {threads : ℕ} {es : List (Tagged ℝ (Row ℝ ν κ))}
    (hes : Execution bundle.length threads (kRay K T maxsteps m re bundle) es) :
    let one i := alone (kRay K T maxsteps m re bundle i)
    let all := (Mem.exec es).merged threads
    all.distinct = (fun k => ∑ i ∈ Finset.range bundle.length, (one i).distinct k) ∧
    all.cross = (fun k => ∑ i ∈ Finset.range bundle.length, (one i).cross k) ∧
    all.sums = (fun k => ∑ i ∈ Finset.range bundle.length, (one i).sums k) ∧
    all.bins = (fun k => ∑ i ∈ Finset.range bundle.length, (one i).bins k) := by
  obtain ⟨m1, m2, m3, m4⟩ := merged_exec threads es hes.tid_lt
  dsimp only
  refine ⟨?_, ?_, ?_, ?_⟩ <;> funext k
  · refine (congrFun m1 k).trans ((Execution.sum_eq hes _).trans ?_)
    exact Finset.sum_congr rfl fun i _ => (congrFun (alone_eq _).1 k).symm
  · refine (congrFun m2 k).trans ((Execution.sum_eq hes _).trans ?_)
    exact Finset.sum_congr rfl fun i _ => (congrFun (alone_eq _).2.1 k).symm
  · refine (congrFun m3 k).trans ((Execution.sum_eq hes _).trans ?_)
    exact Finset.sum_congr rfl fun i _ => (congrFun (alone_eq _).2.2.1 k).symm
  · refine (congrFun m4 k).trans ((Execution.sum_eq hes _).trans ?_)
    exact Finset.sum_congr rfl fun i _ => (congrFun (alone_eq _).2.2.2 k).symm

/-- The calls of `tally` made for a ray. -/
noncomputable def tallied (slot : LogSlot) (l : Launch ℝ κ σ) : List (TallyCall ℝ ν) :=
  match slot with
  | none => callsOf (rayTrace K maxsteps l)
  | some (_, m) => callsOf (rayCut K maxsteps m l).1

theorem total_ray {M : Type} [AddCommMonoid M] (F : Effect ℝ (Row ℝ ν κ) → M) (hw : ∀ i r, F (.write i r) = 0)
    (hc : ∀ i n, F (.count i n) = 0) (slot : LogSlot) (l : Launch ℝ κ σ) {r : ℕ} (hF : LocalTo T r F) {row : RecRow ℝ ν}
    (hr : T.recs[r]? = some row) :
    total F (kTraceOne K T slot maxsteps l.ray l.rng).1 =
      ((tallied K maxsteps slot l).countP fun c => kCounts c row) • F (.cross r) +
        (((tallied K maxsteps slot l).find? fun c => kCounts c row).map fun c => F (.distinct r) +
            (total F (kSums r c.values) + total F (kBins T row c.values))).getD 0 := by
  have := kTallies_total (ρ := Row ℝ ν κ) T r F hF row hr (tallied K maxsteps slot l) (fun _ => false)
  simp only [Bool.false_eq_true, if_false] at this
  rw [← this]
  unfold total
  rw [Budget.sum_talliesOf F hw hc]
  unfold tallied
  rcases slot with _ | ⟨base, m⟩
  · rw [(kTraceOne_none K T maxsteps l).2]
  · rw [(kTraceOne_some K T base m maxsteps l).2.1]

/-- A ray is reported by a recorder at most once. -/
theorem once (slot : LogSlot) (l : Launch ℝ κ σ) {r : ℕ} {row : RecRow ℝ ν} (hr : T.recs[r]? = some row) :
    (alone (kTraceOne K T slot maxsteps l.ray l.rng).1).distinct r ≤ 1 := by
  rw [(alone_eq _).1]
  dsimp only
  rw [total_ray K T maxsteps (dDistinct r) (fun _ _ => rfl) (fun _ _ => rfl) slot l (local_distinct T r) hr]
  rcases (tallied K maxsteps slot l).find? fun c => kCounts c row with _ | c
  · simp [dDistinct]
  · have hb := total_kBins_zero (dDistinct r : Effect ℝ (Row ℝ ν κ) → ℕ) (fun _ => rfl) T row c.values
    simp only [Option.map_some, Option.getD_some, hb]
    simp [dDistinct, total, kSums]

open RecTables in
/-- And in at most one bin of each histogram. -/
theorem once_bin {ps : List (ν × Recorder ℝ)} (hT : compileRecorders ps = some T) (slot : LogSlot) (l : Launch ℝ κ σ)
    {r h b : ℕ} {p : ν × Recorder ℝ} (hp : ps[r]? = some p) {x : Hist ℝ} (hx : p.2.hists[h]? = some x) (hb : b < x.size) :
    (alone (kTraceOne K T slot maxsteps l.ray l.rng).1).bins (sliceStart (allHists ps) (histStart ps r + h) + b) ≤ 1 := by
  have hr := rec_at hT r
  rw [hp] at hr
  rw [(alone_eq _).2.2.2]
  dsimp only
  rw [total_ray K T maxsteps (dBin _) (fun _ _ => rfl) (fun _ _ => rfl) slot l (local_bin hT r h p hp x hx b hb) hr]
  rcases List.find? _ (tallied K maxsteps slot l) with _ | c
  · simp [dBin]
  · have hb := total_own_bin (ρ := Row ℝ ν κ) hT r h p hp x hx b hb _ hr c.values
    simp only [Option.map_some, Option.getD_some]
    rw [hb]
    simp only [dBin, total, kSums]
    split <;> simp [dBin]

theorem seen_iff {r : ℕ} {row : RecRow ℝ ν} (hr : T.recs[r]? = some row) (ws : List (Effect ℝ ρ)) :
    Seen T r ws ↔ (alone ws).distinct r = 1 := by
  unfold Seen engineResult
  rw [hr]
  simp

open RecTables in
theorem bins_eq {ps : List (ν × Recorder ℝ)} (hT : compileRecorders ps = some T) (a : Acc ℝ) {r h : ℕ} {st : TallyState ℝ}
    {f : ℕ → ℕ} (hst : engineResult T a r = some st) (hf : st.bins[h]? = some f) :
    ∃ p x, ps[r]? = some p ∧ p.2.hists[h]? = some x ∧
      f = fun b => if b < x.size then a.bins (sliceStart (allHists ps) (histStart ps r + h) + b) else 0 := by
  unfold engineResult at hst
  rw [rec_at hT] at hst
  obtain ⟨row, hrow, rfl⟩ := Option.map_eq_some_iff.1 hst
  obtain ⟨p, hp, rfl⟩ := Option.map_eq_some_iff.1 hrow
  have hlist := EngineTally.filterMap_range (List.range p.2.hists.length) (fun j =>
    T.hists[histStart ps r + j]?.map fun (hr : HRow ℝ) k => if k < hr.na * hr.nb then a.bins (hr.offset + k) else 0)
    (fun j k => ((p.2.hists[j]?).map fun x => if k < x.size then
      a.bins (sliceStart (allHists ps) (histStart ps r + j) + k) else 0).getD 0) (by
    intro i j hj
    obtain ⟨hi, rfl⟩ := List.getElem?_eq_some_iff.1 hj
    simp only [List.length_range, List.getElem_range] at hi ⊢
    obtain ⟨row', x, _, hr', hx', rfl⟩ := hist_row ps T hT r i p hp hi
    rw [hr', hx']
    simp only [Option.map_some, Option.getD_some, (compileHist_size _ x).1, (compileHist_size _ x).2])
  rw [List.length_range] at hlist
  dsimp only at hf
  rw [hlist, List.getElem?_map] at hf
  obtain ⟨j, hj, rfl⟩ := Option.map_eq_some_iff.1 hf
  obtain ⟨hi, rfl⟩ := List.getElem?_eq_some_iff.1 hj
  simp only [List.length_range, List.getElem_range] at hi ⊢
  refine ⟨p, p.2.hists[h], hp, List.getElem?_eq_getElem hi, ?_⟩
  rw [List.getElem?_eq_getElem hi]
  rfl

open RecTables in
theorem bins_exist {ps : List (ν × Recorder ℝ)} (hT : compileRecorders ps = some T) (a : Acc ℝ) {r h : ℕ}
    {p : ν × Recorder ℝ} {x : Hist ℝ} (hp : ps[r]? = some p) (hx : p.2.hists[h]? = some x) :
    ∃ st f, engineResult T a r = some st ∧ st.bins[h]? = some f := by
  have hlist := EngineTally.filterMap_range (List.range p.2.hists.length) (fun j =>
    T.hists[histStart ps r + j]?.map fun (hr : HRow ℝ) k => if k < hr.na * hr.nb then a.bins (hr.offset + k) else 0)
    (fun j k => ((p.2.hists[j]?).map fun x => if k < x.size then
      a.bins (sliceStart (allHists ps) (histStart ps r + j) + k) else 0).getD 0) (by
    intro i j hj
    obtain ⟨hi, rfl⟩ := List.getElem?_eq_some_iff.1 hj
    simp only [List.length_range, List.getElem_range] at hi ⊢
    obtain ⟨row', x, _, hr', hx', rfl⟩ := hist_row ps T hT r i p hp hi
    rw [hr', hx']
    simp only [Option.map_some, Option.getD_some, (compileHist_size _ x).1, (compileHist_size _ x).2])
  rw [List.length_range] at hlist
  have hh : h < p.2.hists.length := (List.getElem?_eq_some_iff.1 hx).1
  unfold engineResult
  rw [rec_at hT, hp]
  refine ⟨_, fun k => ((p.2.hists[h]?).map fun x => if k < x.size then
    a.bins (sliceStart (allHists ps) (histStart ps r + h) + k) else 0).getD 0, rfl, ?_⟩
  dsimp only
  rw [hlist, List.getElem?_map, List.getElem?_range hh]
  rfl

open RecTables in
theorem seenIn_iff {ps : List (ν × Recorder ℝ)} (hT : compileRecorders ps = some T) {r h b : ℕ} {p : ν × Recorder ℝ}
    {x : Hist ℝ} (hp : ps[r]? = some p) (hx : p.2.hists[h]? = some x) (ws : List (Effect ℝ ρ)) :
    SeenIn T r h b ws ↔
      b < x.size ∧ (alone ws).bins (sliceStart (allHists ps) (histStart ps r + h) + b) = 1 := by
  obtain ⟨st, f, hst, hf⟩ := bins_exist T hT (alone ws) hp hx
  obtain ⟨p', x', hp', hx', rfl⟩ := bins_eq T hT _ hst hf
  rw [hp] at hp'
  cases hp'
  rw [hx] at hx'
  cases hx'
  unfold SeenIn
  constructor
  · rintro ⟨st', f', h1, h2, h3⟩
    rw [hst] at h1
    cases h1
    rw [hf] at h2
    cases h2
    dsimp only at h3
    split at h3
    · exact ⟨by assumption, h3⟩
    · cases h3
  · rintro ⟨h1, h2⟩
    exact ⟨_, _, hst, hf, by rw [if_pos h1]; exact h2⟩

end Totals

/-! ### Borel questions recorders answer -/

theorem writes_distinct (fs : List (Effect Unit (RowForm n))) (v : ℕ → Fin 12 → ℝ) :
    (alone (writesAt fs v)).distinct = (alone (writesAt fs 0)).distinct ∧
      (alone (writesAt fs v)).bins = (alone (writesAt fs 0)).bins := by
  rw [(alone_eq _).1, (alone_eq _).2.2.2, (alone_eq _).1, (alone_eq _).2.2.2]
  have h : ∀ F : Effect ℝ (Row ℝ (Fin n) Comp) → ℕ, (∀ f v w, F (effectAt f v) = F (effectAt f w)) →
      total F (writesAt fs v) = total F (writesAt fs 0) := by
    intro F hF
    unfold total writesAt
    rw [List.map_map, List.map_map]
    exact congrArg List.sum (List.map_congr_left fun f _ => hF _ _ _)
  constructor <;> funext k <;> exact h _ fun f v w => by cases f <;> rfl

theorem result_seen {ν : Type} (T : RecTables ℝ ν) {a b : Acc ℝ} (h1 : a.distinct = b.distinct) (h2 : a.bins = b.bins) (r : ℕ) :
    (engineResult T a r).map (fun st => (st.rays, st.bins)) = (engineResult T b r).map (fun st => (st.rays, st.bins)) := by
  unfold engineResult
  rw [h1, h2, Option.map_map, Option.map_map]
  rfl

theorem seen_borel {ν : Type} (T : RecTables ℝ ν) (r : ℕ) : BorelWrites (n := n) (Seen T r) := by
  intro fs
  have : {v : ℕ → Fin 12 → ℝ | Seen T r (writesAt fs v)} = {v | Seen T r (writesAt fs 0)} := by
    ext v
    have := result_seen T (writes_distinct fs v).1 (writes_distinct fs v).2 r
    simp only [Set.mem_ofPred_eq, Seen]
    constructor
    · rintro ⟨st, h1, h2⟩
      rw [h1] at this
      obtain ⟨st', h3, h4⟩ := Option.map_eq_some_iff.1 this.symm
      exact ⟨st', h3, (congrArg Prod.fst h4).trans h2⟩
    · rintro ⟨st, h1, h2⟩
      rw [h1] at this
      obtain ⟨st', h3, h4⟩ := Option.map_eq_some_iff.1 this
      exact ⟨st', h3, (congrArg Prod.fst h4).trans h2⟩
  rw [this]
  exact MeasurableSet.const _

theorem seenIn_borel {ν : Type} (T : RecTables ℝ ν) (r h b : ℕ) : BorelWrites (n := n) (SeenIn T r h b) := by
  intro fs
  have : {v : ℕ → Fin 12 → ℝ | SeenIn T r h b (writesAt fs v)} = {v | SeenIn T r h b (writesAt fs 0)} := by
    ext v
    have := result_seen T (writes_distinct fs v).1 (writes_distinct fs v).2 r
    simp only [Set.mem_ofPred_eq, SeenIn]
    constructor
    · rintro ⟨st, f, h1, h2, h5⟩
      rw [h1] at this
      obtain ⟨st', h3, h4⟩ := Option.map_eq_some_iff.1 this.symm
      exact ⟨st', f, h3, by rw [show st'.bins = st.bins from congrArg Prod.snd h4]; exact h2, h5⟩
    · rintro ⟨st, f, h1, h2, h5⟩
      rw [h1] at this
      obtain ⟨st', h3, h4⟩ := Option.map_eq_some_iff.1 this
      exact ⟨st', f, h3, by rw [show st'.bins = st.bins from congrArg Prod.snd h4]; exact h2, h5⟩
  rw [this]
  exact MeasurableSet.const _

/-! ### The engine -/

section Engine
variable (S : LScene n) (method : EmitMethod) (T : RecTables ℝ (Fin (n + 1))) (maxsteps m re : ℕ) (rays : ℕ → KRay ℝ Comp)

/-- What the engine writes for ray `i` of a bundle when its numbers are `s`. -/
noncomputable def written (i : ℕ) (s : Numbers) : List (Effect ℝ (Row ℝ (Fin (n + 1)) Comp)) :=
  (kTraceOne (kOps S reader method) T (slotOf re m i) maxsteps (rays i) s).1

theorem rays_happen {ω : Sequences} {k threads r : ℕ} {es : List (Tagged ℝ (Row ℝ (Fin (n + 1)) Comp))}
    (hes : Execution k threads (kRay (kOps S reader method) T maxsteps m re (launched rays ω k)) es) {st : TallyState ℝ}
    (hst : engineResult T ((Mem.exec es).merged threads) r = some st) :
    st.rays = happen (fun i s => Seen T r (written S method T maxsteps m re rays i s)) k ω := by
  have hlen : (launched rays ω k).length = k := by simp [launched]
  have hes' : Execution (launched rays ω k).length threads
      (kRay (kOps S reader method) T maxsteps m re (launched rays ω k)) es := by rwa [hlen]
  obtain ⟨h1, -⟩ := totals_add _ T maxsteps m re hes'
  unfold engineResult at hst
  obtain ⟨row, hrow, rfl⟩ := Option.map_eq_some_iff.1 hst
  dsimp only
  classical
  unfold happen
  rw [h1, Finset.card_filter, hlen]
  refine Finset.sum_congr rfl fun i hi => ?_
  have hl : (launched rays ω k)[i]? = some ⟨rays i, ω i⟩ := by
    simp [launched, Finset.mem_range.1 hi]
  dsimp -failIfUnchanged only
  rw [alone_ray _ T maxsteps m re _ hl]
  have h2 := once (kOps S reader method) T maxsteps (slotOf re m i) ⟨rays i, ω i⟩ hrow
  have h3 : Seen T r (written S method T maxsteps m re rays i (ω i)) ↔ _ := seen_iff T hrow _
  unfold written at h3
  split
  · exact h3.1 (by assumption)
  · rename_i h
    exact Nat.lt_one_iff.1 (lt_of_le_of_ne h2 fun h' => h (h3.2 h'))

theorem bins_happen {recs : List (Fin (n + 1) × Recorder ℝ)} (hT : compileRecorders recs = some T) {ω : Sequences}
    {k threads r h b : ℕ} {es : List (Tagged ℝ (Row ℝ (Fin (n + 1)) Comp))}
    (hes : Execution k threads (kRay (kOps S reader method) T maxsteps m re (launched rays ω k)) es) {st : TallyState ℝ}
    {f : ℕ → ℕ} (hst : engineResult T ((Mem.exec es).merged threads) r = some st) (hf : st.bins[h]? = some f) :
    f b = happen (fun i s => SeenIn T r h b (written S method T maxsteps m re rays i s)) k ω := by
  have hlen : (launched rays ω k).length = k := by simp [launched]
  have hes' : Execution (launched rays ω k).length threads
      (kRay (kOps S reader method) T maxsteps m re (launched rays ω k)) es := by rwa [hlen]
  obtain ⟨-, -, -, h1⟩ := totals_add _ T maxsteps m re hes'
  obtain ⟨p, x, hp, hx, rfl⟩ := bins_eq T hT _ hst hf
  classical
  unfold happen
  rw [Finset.card_filter]
  by_cases hb : b < x.size
  · dsimp only
    rw [if_pos hb, h1, hlen]
    refine Finset.sum_congr rfl fun i hi => ?_
    have hl : (launched rays ω k)[i]? = some ⟨rays i, ω i⟩ := by
      simp [launched, Finset.mem_range.1 hi]
    dsimp -failIfUnchanged only
    rw [alone_ray _ T maxsteps m re _ hl]
    have h2 := once_bin (kOps S reader method) T maxsteps hT (slotOf re m i) ⟨rays i, ω i⟩ hp hx hb
    have h3 : SeenIn T r h b (written S method T maxsteps m re rays i (ω i)) ↔ _ := seenIn_iff T hT hp hx _
    unfold written at h3
    split
    · exact (h3.1 (by assumption)).2
    · rename_i h
      exact Nat.lt_one_iff.1 (lt_of_le_of_ne h2 fun h' => h (h3.2 ⟨hb, h'⟩))
  · dsimp only
    rw [if_neg hb]
    symm
    refine Finset.sum_eq_zero fun i _ => if_neg fun h => hb ?_
    exact ((seenIn_iff T hT hp hx _).1 h).1

/-- **C113** The rays of a bundle are independent: the chance that all of them meet their Borel conditions is the
product of the chances. -/
theorem engine_independent (E : ℕ → List (Effect ℝ (Row ℝ (Fin (n + 1)) Comp)) → Prop) (hE : ∀ i, BorelWrites (E i)) (k : ℕ) :
    batch {ω | ∀ i < k, E i (written S method T maxsteps m re rays i (ω i))} =
      ∏ i ∈ Finset.range k, chance (fun s => E i (written S method T maxsteps m re rays i s)) :=
  happen_all (P := fun i s => E i (written S method T maxsteps m re rays i s))
    (fun i => engine_decided S method T _ maxsteps (rays i) (hE i)) k

/-- **C113** For any number of threads and any schedule, the share of rays a recorder reports differs by `ε` or more
from the mean of the rays' own chances of being reported with chance at most `2 exp (-2 k ε²)`. -/
theorem recorder_error (r : ℕ) {k : ℕ} (hk : 0 < k) {ε : ℝ} (hε : 0 ≤ ε) :
    batch {ω | ∃ threads es st, Execution k threads (kRay (kOps S reader method) T maxsteps m re (launched rays ω k)) es ∧
        engineResult T ((Mem.exec es).merged threads) r = some st ∧
        ε ≤ |(st.rays : ℝ) / k -
          (∑ i ∈ Finset.range k, (chance (fun s => Seen T r (written S method T maxsteps m re rays i s))).toReal) / k|} ≤
      ENNReal.ofReal (2 * Real.exp (-(2 * k * ε ^ 2))) := by
  refine (measure_mono ?_).trans (happen_error
    (P := fun i s => Seen T r (written S method T maxsteps m re rays i s))
    (fun i => engine_decided S method T _ maxsteps (rays i) (seen_borel T r)) hk hε)
  rintro ω ⟨threads, es, st, hes, hst, h⟩
  rw [rays_happen S method T maxsteps m re rays hes hst] at h
  exact h

/-- **C113** With probability one the share of rays a recorder reports and the mean of their chances come together. -/
theorem recorder_converges (r : ℕ) :
    ∀ᵐ ω ∂batch, ∀ (threads : ℕ → ℕ) (es : ℕ → List (Tagged ℝ (Row ℝ (Fin (n + 1)) Comp))) (st : ℕ → TallyState ℝ),
      (∀ k, Execution k (threads k) (kRay (kOps S reader method) T maxsteps m re (launched rays ω k)) (es k)) →
      (∀ k, engineResult T ((Mem.exec (es k)).merged (threads k)) r = some (st k)) →
      Filter.Tendsto (fun k : ℕ => ((st k).rays : ℝ) / k -
        (∑ i ∈ Finset.range k, (chance (fun s => Seen T r (written S method T maxsteps m re rays i s))).toReal) / k)
        Filter.atTop (nhds 0) := by
  filter_upwards [happen_converges (P := fun i s => Seen T r (written S method T maxsteps m re rays i s))
    (fun i => engine_decided S method T _ maxsteps (rays i) (seen_borel T r))] with ω hω threads es st hes hst
  refine hω.congr fun k => ?_
  rw [rays_happen S method T maxsteps m re rays (hes k) (hst k)]

/-- **C113** The same for every bin of a histogram. -/
theorem bin_error {recs : List (Fin (n + 1) × Recorder ℝ)} (hT : compileRecorders recs = some T) (r h b : ℕ) {k : ℕ}
    (hk : 0 < k) {ε : ℝ} (hε : 0 ≤ ε) :
    batch {ω | ∃ threads es st f, Execution k threads (kRay (kOps S reader method) T maxsteps m re (launched rays ω k)) es ∧
        engineResult T ((Mem.exec es).merged threads) r = some st ∧ st.bins[h]? = some f ∧
        ε ≤ |(f b : ℝ) / k -
          (∑ i ∈ Finset.range k, (chance (fun s => SeenIn T r h b (written S method T maxsteps m re rays i s))).toReal) / k|} ≤
      ENNReal.ofReal (2 * Real.exp (-(2 * k * ε ^ 2))) := by
  refine (measure_mono ?_).trans (happen_error
    (P := fun i s => SeenIn T r h b (written S method T maxsteps m re rays i s))
    (fun i => engine_decided S method T _ maxsteps (rays i) (seenIn_borel T r h b)) hk hε)
  rintro ω ⟨threads, es, st, f, hes, hst, hf, h'⟩
  rw [bins_happen S method T maxsteps m re rays hT hes hst hf] at h'
  exact h'

/-- **C113** A bundle of copies of one ray, none of them recorded: the share a recorder reports tends to the chance of
being reported. -/
theorem recorder_estimates (ray : KRay ℝ Comp) (r : ℕ) :
    ∀ᵐ ω ∂batch, ∀ (threads : ℕ → ℕ) (es : ℕ → List (Tagged ℝ (Row ℝ (Fin (n + 1)) Comp))) (st : ℕ → TallyState ℝ),
      (∀ k, Execution k (threads k) (kRay (kOps S reader method) T maxsteps m 0 (launched (fun _ => ray) ω k)) (es k)) →
      (∀ k, engineResult T ((Mem.exec (es k)).merged (threads k)) r = some (st k)) →
      Filter.Tendsto (fun k : ℕ => ((st k).rays : ℝ) / k) Filter.atTop
        (nhds (chance (fun s => Seen T r (kTraceOne (kOps S reader method) T none maxsteps ray s).1)).toReal) := by
  filter_upwards [recorder_converges S method T maxsteps m 0 (fun _ => ray) r] with ω hω threads es st hes hst
  have h := hω threads es st hes hst
  have e : ∀ i, written S method T maxsteps m 0 (fun _ => ray) i =
      fun s => (kTraceOne (kOps S reader method) T none maxsteps ray s).1 := by
    intro i
    funext s
    simp [written, slotOf]
  simp only [e, Finset.sum_const, Finset.card_range, nsmul_eq_mul] at h
  have h2 := h.add_const (chance (fun s => Seen T r (kTraceOne (kOps S reader method) T none maxsteps ray s).1)).toReal
  rw [zero_add] at h2
  refine h2.congr' ?_
  filter_upwards [Filter.eventually_gt_atTop 0] with k hk
  have : (k : ℝ) ≠ 0 := by positivity
  field_simp
  ring

end Engine
end PV.EngineChance
