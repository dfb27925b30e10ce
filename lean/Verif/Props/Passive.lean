import Verif.Props.EngineChanceDemo
import Verif.Props.EventLog

/-!
**C130** Recorders only watch: the event log does not depend on the recorders, and what a recorder reports does not depend on the other
recorders.
-/

namespace PV.Passive
open PV.Spec PV.RecTables PV.EngineChance

section
variable {ν κ σ : Type} [DecidableEq ν] (K : KOps ℝ ν κ σ) {T T' : RecTables ℝ ν}

/-- Two recorders that select the same events make the same of a ray. -/
theorem total_same {M : Type} [AddCommMonoid M] {F F' : Effect ℝ (Row ℝ ν κ) → M} (hw : ∀ i r, F (.write i r) = 0)
    (hc : ∀ i n, F (.count i n) = 0) (hw' : ∀ i r, F' (.write i r) = 0) (hc' : ∀ i n, F' (.count i n) = 0) (maxsteps : ℕ) (slot : LogSlot)
    (l : Launch ℝ κ σ) {r r' : ℕ} (hF : LocalTo T r F) (hF' : LocalTo T' r' F') {row row' : RecRow ℝ ν}
    (hr : T.recs[r]? = some row) (hr' : T'.recs[r']? = some row') (hrow : ∀ c, kCounts c row = kCounts c row')
    (h1 : F (.cross r) = F' (.cross r')) (h2 : F (.distinct r) = F' (.distinct r'))
    (h3 : ∀ v, total F (kSums r v) = total F' (kSums r' v)) (h4 : ∀ v, total F (kBins T row v) = total F' (kBins T' row' v)) :
    total F (kTraceOne K T slot maxsteps l.ray l.rng).1 = total F' (kTraceOne K T' slot maxsteps l.ray l.rng).1 := by
  rw [total_ray K T maxsteps F hw hc slot l hF hr, total_ray K T' maxsteps F' hw' hc' slot l hF' hr']
  simp only [hrow, h1, h2, h3, h4]

variable {maxsteps e re : ℕ} {bundle : List (Launch ℝ κ σ)} {threads threads' : ℕ} {es es' : List (Tagged ℝ (Row ℝ ν κ))}
  (hes : Execution bundle.length threads (kRay K T maxsteps e re bundle) es)
  (hes' : Execution bundle.length threads' (kRay K T' maxsteps e re bundle) es')
include hes hes'

/-- **C130** The event log is the same with any two sets of recorders. -/
theorem log_passive : (Mem.exec es).log = (Mem.exec es').log ∧ (Mem.exec es).counts = (Mem.exec es').counts := by
  have hw : ∀ i < bundle.length, ∀ k, (kRay K T maxsteps e re bundle i).filterMap (rowAt k) =
      (kRay K T' maxsteps e re bundle i).filterMap (rowAt k) := by
    intro i hi k
    have hl : bundle[i]? = some bundle[i] := List.getElem?_eq_getElem hi
    rw [EventLog.filterMap_rowAt, EventLog.filterMap_rowAt, kRay_writes K T maxsteps e re bundle i _ hl,
      kRay_writes K T' maxsteps e re bundle i _ hl]
  have hc : ∀ i < bundle.length, ∀ k, (kRay K T maxsteps e re bundle i).filterMap (countAt k) =
      (kRay K T' maxsteps e re bundle i).filterMap (countAt k) := by
    intro i hi k
    have hl : bundle[i]? = some bundle[i] := List.getElem?_eq_getElem hi
    rw [EventLog.filterMap_countAt, EventLog.filterMap_countAt, kRay_counts K T maxsteps e re bundle i _ hl,
      kRay_counts K T' maxsteps e re bundle i _ hl]
  constructor
  · funext k
    rw [exec_log, exec_log]
    by_cases hx : ∃ i < bundle.length, (kRay K T maxsteps e re bundle i).filterMap (rowAt k) ≠ []
    · obtain ⟨i, hi, hne⟩ := hx
      have only : ∀ T₀ : RecTables ℝ ν, (kRay K T₀ maxsteps e re bundle i).filterMap (rowAt k) ≠ [] → ∀ j < bundle.length, j ≠ i →
          ∀ x ∈ kRay K T₀ maxsteps e re bundle j, rowAt k x = none := by
        intro T₀ h0 j _ hji x hx
        obtain ⟨y, hy, hyr⟩ : ∃ y ∈ kRay K T₀ maxsteps e re bundle i, ∃ row, rowAt k y = some row := by
          by_contra hn
          apply h0
          rw [List.filterMap_eq_nil_iff]
          intro y hy
          by_contra hy'
          exact hn ⟨y, hy, Option.ne_none_iff_exists'.1 hy'⟩
        by_contra hx'
        obtain ⟨row', hxr⟩ := Option.ne_none_iff_exists'.1 hx'
        obtain ⟨row, hyr⟩ := hyr
        have hX : ∃ q, x = .write k q := by
          cases x with
          | write a q =>
            simp only [rowAt] at hxr
            split at hxr
            · rename_i h
              exact ⟨q, by rw [h]⟩
            · cases hxr
          | _ => cases hxr
        have hY : ∃ q, y = .write k q := by
          cases y with
          | write a q =>
            simp only [rowAt] at hyr
            split at hyr
            · rename_i h
              exact ⟨q, by rw [h]⟩
            · cases hyr
          | _ => cases hyr
        obtain ⟨q, rfl⟩ := hX
        obtain ⟨q', rfl⟩ := hY
        exact hji (EventLog.rows_disjoint K T₀ maxsteps e re bundle j i k q q' hx hy)
      rw [Execution.only hes (rowAt k) hi (only T hne), Execution.only hes' (rowAt k) hi (only T' (by rw [← hw i hi k]; exact hne)), hw i hi k]
    · push Not at hx
      have none' : ∀ T₀ : RecTables ℝ ν, (∀ i < bundle.length, (kRay K T₀ maxsteps e re bundle i).filterMap (rowAt k) = []) →
          ∀ j < bundle.length, ∀ x ∈ kRay K T₀ maxsteps e re bundle j, rowAt k x = none :=
        fun T₀ h j hj x hx => List.filterMap_eq_nil_iff.1 (h j hj) x hx
      rw [Execution.none hes (rowAt k) (none' T hx), Execution.none hes' (rowAt k) (none' T' fun i hi => by rw [← hw i hi k, hx i hi])]
  · funext k
    rw [exec_counts, exec_counts]
    by_cases hx : ∃ i < bundle.length, (kRay K T maxsteps e re bundle i).filterMap (countAt k) ≠ []
    · obtain ⟨i, hi, hne⟩ := hx
      have only : ∀ T₀ : RecTables ℝ ν, (kRay K T₀ maxsteps e re bundle i).filterMap (countAt k) ≠ [] → ∀ j < bundle.length, j ≠ i →
          ∀ x ∈ kRay K T₀ maxsteps e re bundle j, countAt k x = none := by
        intro T₀ h0 j _ hji x hx
        obtain ⟨y, hy, hyr⟩ : ∃ y ∈ kRay K T₀ maxsteps e re bundle i, ∃ row, countAt k y = some row := by
          by_contra hn
          apply h0
          rw [List.filterMap_eq_nil_iff]
          intro y hy
          by_contra hy'
          exact hn ⟨y, hy, Option.ne_none_iff_exists'.1 hy'⟩
        by_contra hx'
        obtain ⟨row', hxr⟩ := Option.ne_none_iff_exists'.1 hx'
        obtain ⟨row, hyr⟩ := hyr
        have hX : ∃ q, x = .count k q := by
          cases x with
          | count a q =>
            simp only [countAt] at hxr
            split at hxr
            · rename_i h
              exact ⟨q, by rw [h]⟩
            · cases hxr
          | _ => cases hxr
        have hY : ∃ q, y = .count k q := by
          cases y with
          | count a q =>
            simp only [countAt] at hyr
            split at hyr
            · rename_i h
              exact ⟨q, by rw [h]⟩
            · cases hyr
          | _ => cases hyr
        obtain ⟨q, rfl⟩ := hX
        obtain ⟨q', rfl⟩ := hY
        exact hji ((EventLog.counts_in_bounds K T₀ maxsteps e re bundle i k q' hy).2.2 j q hx)
      rw [Execution.only hes (countAt k) hi (only T hne), Execution.only hes' (countAt k) hi (only T' (by rw [← hc i hi k]; exact hne)),
        hc i hi k]
    · push Not at hx
      have none' : ∀ T₀ : RecTables ℝ ν, (∀ i < bundle.length, (kRay K T₀ maxsteps e re bundle i).filterMap (countAt k) = []) →
          ∀ j < bundle.length, ∀ x ∈ kRay K T₀ maxsteps e re bundle j, countAt k x = none :=
        fun T₀ h j hj x hx => List.filterMap_eq_nil_iff.1 (h j hj) x hx
      rw [Execution.none hes (countAt k) (none' T hx), Execution.none hes' (countAt k) (none' T' fun i hi => by rw [← hc i hi k, hx i hi])]

/-- **C130** What a recorder reports does not depend on the other recorders, on its place among them, on its name or on its histograms:
wherever there is a recorder for the same events at the same place, it reports the same rays, crossings and moments, and every histogram
that both of them keep has the same bins. -/
theorem recorder_passive {recs recs' : List (ν × Recorder ℝ)} (hT : compileRecorders recs = some T) (hT' : compileRecorders recs' = some T')
    {r r' : ℕ} {p p' : ν × Recorder ℝ} (hp : recs[r]? = some p) (hp' : recs'[r']? = some p') (hn : p.1 = p'.1)
    (he : p.2.event = p'.2.event) (hf : p.2.facet = p'.2.facet) (ha : p.2.atol = p'.2.atol) {st st' : TallyState ℝ}
    (hst : engineResult T ((Mem.exec es).merged threads) r = some st)
    (hst' : engineResult T' ((Mem.exec es').merged threads') r' = some st') :
    st.rays = st'.rays ∧ st.crossings = st'.crossings ∧ st.moments = st'.moments ∧
      ∀ (h h' : ℕ) (x : Hist ℝ), p.2.hists[h]? = some x → p'.2.hists[h']? = some x → st.bins[h]? = st'.bins[h']? := by
  obtain ⟨a1, a2, a3, a4⟩ := totals_add K T maxsteps e re hes
  obtain ⟨b1, b2, b3, b4⟩ := totals_add K T' maxsteps e re hes'
  have hr := rec_at hT r
  have hr' := rec_at hT' r'
  rw [hp, Option.map_some] at hr
  rw [hp', Option.map_some] at hr'
  have hone : ∀ {M : Type} [AddCommMonoid M] (g g' : Acc ℝ → M) (F F' : Effect ℝ (Row ℝ ν κ) → M), (∀ i r, F (.write i r) = 0) →
      (∀ i n, F (.count i n) = 0) → (∀ i r, F' (.write i r) = 0) → (∀ i n, F' (.count i n) = 0) → LocalTo T r F → LocalTo T' r' F' →
      F (.cross r) = F' (.cross r') → F (.distinct r) = F' (.distinct r') → (∀ v, total F (kSums r v) = total F' (kSums r' v)) →
      (∀ v, total F (kBins T ⟨p.1, p.2.event, p.2.facet, p.2.atol, histStart recs r, p.2.hists.length⟩ v) =
        total F' (kBins T' ⟨p'.1, p'.2.event, p'.2.facet, p'.2.atol, histStart recs' r', p'.2.hists.length⟩ v)) →
      (∀ ws : List (Effect ℝ (Row ℝ ν κ)), g (alone ws) = total F ws) → (∀ ws : List (Effect ℝ (Row ℝ ν κ)), g' (alone ws) = total F' ws) →
      ∑ i ∈ Finset.range bundle.length, g (alone (kRay K T maxsteps e re bundle i)) =
        ∑ i ∈ Finset.range bundle.length, g' (alone (kRay K T' maxsteps e re bundle i)) := by
    intro M _ g g' F F' hw hc hw' hc' hF hF' h1 h2 h3 h4 hg hg'
    refine Finset.sum_congr rfl fun i hi => ?_
    have hl := List.getElem?_eq_getElem (Finset.mem_range.1 hi)
    rw [alone_ray K T maxsteps e re bundle hl, alone_ray K T' maxsteps e re bundle hl, hg, hg']
    refine total_same K hw hc hw' hc' maxsteps _ _ hF hF' hr hr' (fun c => ?_) h1 h2 h3 h4
    unfold kCounts
    dsimp only
    rw [hn, he, hf, ha]
  have z : ∀ {M : Type} [AddCommMonoid M] {F F' : Effect ℝ (Row ℝ ν κ) → M}, (∀ b, F (.bin b) = 0) → (∀ b, F' (.bin b) = 0) → ∀ v,
      total F (kBins T ⟨p.1, p.2.event, p.2.facet, p.2.atol, histStart recs r, p.2.hists.length⟩ v) =
        total F' (kBins T' ⟨p'.1, p'.2.event, p'.2.facet, p'.2.atol, histStart recs' r', p'.2.hists.length⟩ v) := by
    intro M _ F F' h h' v
    rw [total_kBins_zero F h, total_kBins_zero F' h']
  have hst0 := hst
  have hst0' := hst'
  unfold engineResult at hst hst'
  rw [hr] at hst
  rw [hr'] at hst'
  have hst := Option.some.inj hst
  have hst' := Option.some.inj hst'
  refine ⟨?_, ?_, ?_, ?_⟩
  · rw [← hst, ← hst']
    dsimp only
    rw [a1, b1]
    exact hone (fun a => a.distinct r) (fun a => a.distinct r') (dDistinct r) (dDistinct r') (fun _ _ => rfl) (fun _ _ => rfl)
      (fun _ _ => rfl) (fun _ _ => rfl) (local_distinct T r) (local_distinct T' r') rfl (by simp [dDistinct]) (fun _ => rfl)
      (z (fun _ => rfl) (fun _ => rfl)) (fun ws => congrFun (alone_eq ws).1 r) (fun ws => congrFun (alone_eq ws).1 r')
  · rw [← hst, ← hst']
    dsimp only
    rw [a2, b2]
    exact hone (fun a => a.cross r) (fun a => a.cross r') (dCross r) (dCross r') (fun _ _ => rfl) (fun _ _ => rfl)
      (fun _ _ => rfl) (fun _ _ => rfl) (local_cross T r) (local_cross T' r') (by simp [dCross]) rfl (fun _ => rfl)
      (z (fun _ => rfl) (fun _ => rfl)) (fun ws => congrFun (alone_eq ws).2.1 r) (fun ws => congrFun (alone_eq ws).2.1 r')
  · rw [← hst, ← hst']
    dsimp only
    have hs : ∀ q < 8, ((Mem.exec es).merged threads).sums (r * 8 + q) = ((Mem.exec es').merged threads').sums (r' * 8 + q) := by
      intro q hq
      rw [a3, b3]
      refine hone (fun a => a.sums (r * 8 + q)) (fun a => a.sums (r' * 8 + q)) (dSum (r * 8 + q)) (dSum (r' * 8 + q)) (fun _ _ => rfl)
        (fun _ _ => rfl) (fun _ _ => rfl) (fun _ _ => rfl) (local_sum T r q hq) (local_sum T' r' q hq) rfl rfl (fun v => ?_)
        (z (fun _ => rfl) (fun _ => rfl)) (fun ws => congrFun (alone_eq ws).2.2.1 _) (fun ws => congrFun (alone_eq ws).2.2.1 _)
      unfold total kSums
      simp only [List.map_cons, List.map_nil, dSum, Nat.add_left_cancel_iff]
    funext i
    rw [hs _ (by omega), hs _ (by omega)]
  · intro h h' x hx hx'
    obtain ⟨s1, f, hs1, hb1⟩ := bins_exist T hT ((Mem.exec es).merged threads) hp hx
    obtain ⟨s2, f', hs2, hb2⟩ := bins_exist T' hT' ((Mem.exec es').merged threads') hp' hx'
    rw [hst0] at hs1
    rw [hst0'] at hs2
    cases hs1
    cases hs2
    rw [hb1, hb2]
    obtain ⟨q, y, hq, hy, rfl⟩ := bins_eq T hT _ hst0 hb1
    obtain ⟨q', y', hq', hy', rfl⟩ := bins_eq T' hT' _ hst0' hb2
    rw [hp] at hq
    cases hq
    rw [hp'] at hq'
    cases hq'
    rw [hx] at hy
    cases hy
    rw [hx'] at hy'
    cases hy'
    congr 1
    funext b
    split
    · rename_i hb
      rw [a4, b4]
      refine hone (fun a => a.bins _) (fun a => a.bins _) (dBin _) (dBin _) (fun _ _ => rfl) (fun _ _ => rfl) (fun _ _ => rfl)
        (fun _ _ => rfl) (local_bin hT r h p hp x hx b hb) (local_bin hT' r' h' p' hp' x hx' b hb) rfl rfl (fun v => rfl) (fun v => ?_)
        (fun ws => congrFun (alone_eq ws).2.2.2 _) (fun ws => congrFun (alone_eq ws).2.2.2 _)
      rw [total_own_bin hT r h p hp x hx b hb _ hr v, total_own_bin hT' r' h' p' hp' x hx' b hb _ hr' v]
    · rfl

end

/-! ### A black ball -/

open PV.Library

/-- Three recorders, the last of which is the recorder of C113. -/
def three : List (Fin 2 × Recorder ℝ) :=
  [(0, { name := "out", event := .exit, atol := 0 }),
    (1, { name := "in", event := .entering, atol := 0, hists := [.one ⟨.wavelength, 400, 800, 4⟩] }), (1, lostRec)]

def threeTables : RecTables ℝ (Fin 2) := ⟨[⟨0, .exit, none, 0, 0, 0⟩, ⟨1, .entering, none, 0, 0, 1⟩, ⟨1, .lost, none, 0, 1, 0⟩],
  [⟨.wavelength, none, 4, 1, 400, 800, 0, 1, 0⟩], 4⟩

theorem three_compiles : compileRecorders three = some threeTables := by
  simp [compileRecorders, compileRecs, compileHists, compileHist, lostRec, three, threeTables, Selector.isVolume, Hist.size]

/-- One ray in the ball, with one recorder and with three: the share of rays lost is reported in the same way. -/
example (s : Numbers) : ∃ es es' st st',
    Execution 1 1 (kRay (kOps ballScene reader .kT) lostTables 1 128 0 [⟨midRay, s⟩]) es ∧
    Execution 1 1 (kRay (kOps ballScene reader .kT) threeTables 1 128 0 [⟨midRay, s⟩]) es' ∧
    engineResult lostTables ((Mem.exec es).merged 1) 0 = some st ∧ engineResult threeTables ((Mem.exec es').merged 1) 2 = some st' ∧
    st.rays = st'.rays ∧ st.crossings = st'.crossings := by
  have h1 := EventLog.sequential 1 1 (fun _ => 0) (fun _ => one_pos) (kRay (kOps ballScene reader .kT) lostTables 1 128 0 [⟨midRay, s⟩])
  have h2 := EventLog.sequential 1 1 (fun _ => 0) (fun _ => one_pos) (kRay (kOps ballScene reader .kT) threeTables 1 128 0 [⟨midRay, s⟩])
  have h := recorder_passive (bundle := [⟨midRay, s⟩]) (kOps ballScene reader .kT) h1 h2 lost_compiles three_compiles (r := 0) (r' := 2)
    rfl rfl rfl rfl rfl rfl (st := _) (st' := _) rfl rfl
  exact ⟨_, _, _, _, h1, h2, rfl, rfl, h.1, h.2.1⟩

end PV.Passive
