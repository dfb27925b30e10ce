import Verif.Spec.Live
import Verif.Props.Simulate
import Verif.Props.RecTables
import Verif.Props.EngineTally

/-!
C91: the numbers and paths the studio shows while it traces.
-/

namespace PV.Live
open PV.Spec PV.EventLog PV.Budget PV.RecTables PV.Simulate
set_option linter.unusedSectionVars false
variable {α ν κ σ : Type} [Field α] [LinearOrder α] [IsStrictOrderedRing α] [FloorRing α] [DecidableEq ν]

/-- What is sent for recorder `r`. -/
def shownOf (ps : List (ν × Recorder α)) (a : Acc α) (p : (ν × Recorder α) × ℕ) : Shown α where
  rays := a.distinct p.2
  crossings := a.cross p.2
  meanWavelength := a.sums (p.2 * 8 + (0 * 2 + 0)) / ((max (a.distinct p.2) 1 : ℕ) : α)
  meanAngle := a.sums (p.2 * 8 + (1 * 2 + 0)) / ((max (a.distinct p.2) 1 : ℕ) : α)
  hists := p.1.2.hists.zipIdx.map fun h =>
    ((List.range h.1.size).map fun k => a.bins (sliceStart (allHists ps) (histStart ps p.2 + h.2) + k),
      shapeOf h.1)

theorem slice_range (total : ℕ) (bins : ℕ → ℕ) (offset size : ℕ) (h : offset + size ≤ total) :
    sliceOf total bins offset size = (List.range size).map fun k => bins (offset + k) := by
  unfold sliceOf
  apply List.ext_getElem
  · simp; omega
  · intro i h1 h2
    simp

theorem payload_eq {ps : List (ν × Recorder α)} {T : RecTables α ν} (hT : compileRecorders ps = some T)
    (a : Acc α) :
    recorderPayload ps T a = some (ps.zipIdx.map fun p => (p.1.2.name, shownOf ps a p)) := by
  refine mapM_some _ _ _ fun p hp => ?_
  have hp' : ps[p.2]? = some p.1 := by
    rw [List.mem_zipIdx_iff_getElem?] at hp
    exact hp
  rw [rec_at hT, hp']
  dsimp only [Option.map_some]
  have hh : p.1.2.hists.zipIdx.mapM (histValues T a (histStart ps p.2)) =
      some (shownOf ps a p).hists := by
    refine mapM_some _ _ _ fun h hm => ?_
    rw [List.mem_zipIdx_iff_getElem?] at hm
    have hlt := (List.getElem?_eq_some_iff.1 hm).1
    have hx := histStart_add_lt hp' hlt
    rw [hm] at hx
    have hin := slice_inside _ _ _ hx
    unfold histValues
    rw [row_at hT, hx]
    dsimp only [Option.map_some]
    rw [(compileHist_size _ h.1).2, total_bins hT]
    rcases h with ⟨h | ⟨x, y⟩, i⟩
    · exact congrArg some (Prod.ext (slice_range _ _ _ _ hin) rfl)
    · exact congrArg some (Prod.ext (slice_range _ _ _ _ hin) rfl)
  simp only [hh]
  rfl

/-- What is sent shows the result of the recorder. -/
theorem shown_shows {ps : List (ν × Recorder α)} {T : RecTables α ν} (hT : compileRecorders ps = some T)
    (a : Acc α) (r : ℕ) (p : ν × Recorder α) (hp : ps[r]? = some p) :
    ∃ st, engineResult T a r = some st ∧ Shows p.2 st (shownOf ps a (p, r)) := by
  unfold engineResult
  rw [rec_at hT, hp]
  have hrow : ∀ h x, p.2.hists[h]? = some x → T.hists[histStart ps r + h]? =
      some (compileHist (sliceStart (allHists ps) (histStart ps r + h)) x) := by
    intro h x hx
    rw [row_at hT, histStart_add_lt hp (List.getElem?_eq_some_iff.1 hx).1, hx]
    rfl
  have hbins : ((List.range p.2.hists.length).filterMap fun h =>
      T.hists[histStart ps r + h]?.map fun (hr : HRow α) k =>
        if k < hr.na * hr.nb then a.bins (hr.offset + k) else 0) =
      p.2.hists.zipIdx.map fun h k =>
        if k < h.1.size then a.bins (sliceStart (allHists ps) (histStart ps r + h.2) + k) else 0 := by
    have := EngineTally.filterMap_range p.2.hists.zipIdx (fun h =>
      T.hists[histStart ps r + h]?.map fun (hr : HRow α) k =>
        if k < hr.na * hr.nb then a.bins (hr.offset + k) else 0)
      (fun h k => if k < h.1.size then a.bins (sliceStart (allHists ps) (histStart ps r + h.2) + k) else 0)
      (by
        intro i x hx
        rw [List.getElem?_zipIdx] at hx
        obtain ⟨y, hy, rfl⟩ := Option.map_eq_some_iff.1 hx
        rw [hrow i y hy, Option.map_some, (compileHist_size _ y).1, (compileHist_size _ y).2]
        simp)
    rwa [List.length_zipIdx] at this
  refine ⟨_, rfl, ?_⟩
  refine ⟨rfl, rfl, fun h => ?_, fun h => ?_, ⟨?_, ?_⟩, ?_⟩
  · change _ / ((max _ 1 : ℕ) : α) = _ / ((_ : ℕ) : α)
    rw [Nat.max_eq_left (Nat.succ_le_of_lt h)]
    rfl
  · change _ / ((max _ 1 : ℕ) : α) = _ / ((_ : ℕ) : α)
    rw [Nat.max_eq_left (Nat.succ_le_of_lt h)]
    rfl
  · simp [shownOf]
  · dsimp only
    rw [hbins]
    simp
  · intro h x b hx hb
    dsimp only at hb
    rw [hbins, List.getElem?_map, List.getElem?_zipIdx, hx] at hb
    simp only [Option.map_some, Option.some.injEq] at hb
    subst hb
    simp only [shownOf, List.getElem?_map, List.getElem?_zipIdx, hx, Option.map_some, Option.some.injEq,
      Prod.mk.injEq, and_true, Nat.zero_add]
    refine List.map_congr_left fun k hk => ?_
    rw [if_pos (List.mem_range.1 hk)]

/-! ### Accumulation over the bundles -/

/-- The result of a traced bundle. -/
def resultOf (re : ℕ) (p : Part α ν κ σ) : Result α ν κ where
  rays := p.bundle.length
  acc := (Mem.exec p.es).merged p.threads
  mem := Mem.exec p.es
  recorded := nRecorded re p.bundle.length

theorem plus_sum (l : List (Acc α)) : ∀ (a : Acc α) (k : ℕ),
    (l.foldl Acc.plus a).distinct k = a.distinct k + (l.map (·.distinct k)).sum ∧
    (l.foldl Acc.plus a).cross k = a.cross k + (l.map (·.cross k)).sum ∧
    (l.foldl Acc.plus a).sums k = a.sums k + (l.map (·.sums k)).sum ∧
    (l.foldl Acc.plus a).bins k = a.bins k + (l.map (·.bins k)).sum := by
  induction l with
  | nil => intro a k; simp
  | cons b l ih =>
    intro a k
    obtain ⟨h1, h2, h3, h4⟩ := ih (Acc.plus a b) k
    rw [List.foldl_cons, h1, h2, h3, h4]
    simp [Acc.plus, add_assoc]

/-- The messages, one after the other. -/
theorem liveFrom_get {ps : List (ν × Recorder α)} {T : RecTables α ν} (hT : compileRecorders ps = some T)
    (m total maxPaths : ℕ) : ∀ (rs : List (Result α ν κ)) (acc : Acc α) (traced sent : ℕ),
    ∃ msgs, liveFrom ps T m total maxPaths acc traced sent rs = some msgs ∧ msgs.length = rs.length ∧
      (∀ k msg, msgs[k]? = some msg → msg.total = total ∧
        msg.traced = traced + ((rs.take (k + 1)).map (·.rays)).sum ∧
        msg.recorders = (ps.zipIdx.map fun p => (p.1.2.name,
          shownOf ps (((rs.take (k + 1)).map (·.acc)).foldl Acc.plus acc) p)) ∧
        ∃ r, rs[k]? = some r ∧ msg.paths = extractPaths r.mem r.recorded m
          (maxPaths - (sent + ((msgs.take k).map (·.paths.length)).sum))) ∧
      (sent ≤ maxPaths → sent + (msgs.map (·.paths.length)).sum ≤ maxPaths) := by
  intro rs
  induction rs with
  | nil => intro acc traced sent; exact ⟨[], rfl, rfl, by simp, by simp⟩
  | cons r rs ih =>
    intro acc traced sent
    have hp : (if sent < maxPaths then extractPaths r.mem r.recorded m (maxPaths - sent) else []) =
        extractPaths r.mem r.recorded m (maxPaths - sent) := by
      split_ifs with hs
      · rfl
      · rw [Nat.sub_eq_zero_of_le (by omega)]
        simp [extractPaths]
    have hl : (extractPaths r.mem r.recorded m (maxPaths - sent)).length ≤ maxPaths - sent := by
      unfold extractPaths
      refine (List.length_filterMap_le _ _).trans ?_
      rw [List.length_range]
      exact Nat.min_le_right _ _
    unfold liveFrom
    dsimp only
    rw [payload_eq hT, hp]
    obtain ⟨msgs, h1, h2, h3, h4⟩ := ih (Acc.plus acc r.acc) (traced + r.rays)
      (sent + (extractPaths r.mem r.recorded m (maxPaths - sent)).length)
    refine ⟨⟨traced + r.rays, total, ps.zipIdx.map fun p => (p.1.2.name, shownOf ps (Acc.plus acc r.acc) p),
      extractPaths r.mem r.recorded m (maxPaths - sent)⟩ :: msgs, ?_, by simp [h2], ?_, ?_⟩
    · rw [h1]
      rfl
    · intro k msg hk
      cases k with
      | zero =>
        cases hk
        exact ⟨rfl, by simp, rfl, r, rfl, by simp⟩
      | succ k =>
        obtain ⟨a, b, c, r', hr', d⟩ := h3 k msg (by simpa using hk)
        refine ⟨a, ?_, c, r', by simpa using hr', ?_⟩
        · rw [b]; simp [add_assoc]
        · rw [d]; simp [add_assoc]
    · intro hs
      have := h4 (by omega)
      simp only [List.map_cons, List.sum_cons]
      omega

/-- **C91**, numbers. While a run is going on, message `k` shows, for every recorder, what one run of all
rays traced so far would report, whatever the threads and schedules of the bundles and of that run. -/
theorem live_numbers (K : KOps α ν κ σ) {ps : List (ν × Recorder α)} {T : RecTables α ν}
    (hT : compileRecorders ps = some T) (maxsteps maxEvents recordEvery total maxPaths : ℕ)
    (parts : List (Part α ν κ σ))
    (hp : PlaceIndependent K maxsteps maxEvents recordEvery (parts.flatMap (·.bundle)))
    (hx : ∀ p ∈ parts, Execution p.bundle.length p.threads
      (kRay K T maxsteps maxEvents recordEvery p.bundle) p.es) :
    ∃ msgs, live ps T maxEvents total maxPaths (parts.map (resultOf recordEvery)) = some msgs ∧
      msgs.length = parts.length ∧
      ∀ k msg, msgs[k]? = some msg →
        let rays := (parts.take (k + 1)).flatMap (·.bundle)
        msg.traced = rays.length ∧ msg.total = total ∧ msg.recorders.map (·.1) = ps.map (·.2.name) ∧
        ∀ threads es, Execution rays.length threads (kRay K T maxsteps maxEvents recordEvery rays) es →
          ∀ (r : ℕ) (p : ν × Recorder α), ps[r]? = some p →
            ∃ s st, msg.recorders[r]? = some (p.2.name, s) ∧
              engineResult T ((Mem.exec es).merged threads) r = some st ∧ Shows p.2 st s := by
  obtain ⟨msgs, h1, h2, h3, _⟩ := liveFrom_get (κ := κ) hT maxEvents total maxPaths
    (parts.map (resultOf recordEvery)) Acc.zero 0 0
  refine ⟨msgs, h1, by simpa using h2, fun k msg hk => ?_⟩
  obtain ⟨a, b, c, _⟩ := h3 k msg hk
  refine ⟨?_, a, ?_, ?_⟩
  · rw [b, ← List.map_take, List.map_map, List.length_flatMap]
    simp only [Nat.zero_add]
    rfl
  · rw [c, List.map_map]
    apply List.ext_getElem
    · simp
    · intro i _ _; simp
  · intro threads es hes r p hpr
    obtain ⟨st, hst, hs⟩ := shown_shows hT ((Mem.exec es).merged threads) r p hpr
    refine ⟨_, st, ?_, hst, hs⟩
    rw [c, List.getElem?_map, List.getElem?_zipIdx, hpr]
    simp only [Option.map_some, Option.some.injEq, Prod.mk.injEq, true_and, Nat.zero_add]
    congr 1
    have hsub : ∀ p ∈ parts.take (k + 1), p ∈ parts := fun p h => List.mem_of_mem_take h
    have key := stream_tallies_partial K T maxsteps maxEvents recordEvery (parts.take (k + 1))
      (by
        rcases hp with hp | hp | hp
        · exact .inl hp
        · exact .inr (.inl hp)
        · refine .inr (.inr fun l hl => hp l ?_)
          obtain ⟨q, hq, hl⟩ := List.mem_flatMap.1 hl
          exact List.mem_flatMap.2 ⟨q, hsub q hq, hl⟩)
      (fun p h => hx p (hsub p h)) threads es hes
    have hs := plus_sum (((parts.map (resultOf recordEvery)).take (k + 1)).map (·.acc)) Acc.zero
    simp only [← List.map_take, List.map_map, Function.comp_def, resultOf, Acc.zero, zero_add] at hs
    generalize hA : (((parts.map (resultOf recordEvery)).take (k + 1)).map (·.acc)).foldl Acc.plus Acc.zero = A
    have hA' := hs
    simp only [← List.map_take, List.map_map, Function.comp_def, resultOf] at hA
    rw [show (Acc.zero : Acc α) = ⟨fun _ => 0, fun _ => 0, fun _ => 0, fun _ => 0⟩ from rfl] at hA
    rw [hA] at hA'
    generalize (Mem.exec es).merged threads = B at key ⊢
    obtain ⟨d, c, s, b⟩ := A
    obtain ⟨d', c', s', b'⟩ := B
    congr 1
    · funext k'; exact (hA' k').1.trans (key k').1
    · funext k'; exact (hA' k').2.1.trans (key k').2.1
    · funext k'; exact (hA' k').2.2.1.trans (key k').2.2.1
    · funext k'; exact (hA' k').2.2.2.trans (key k').2.2.2

/-! ### Paths -/

theorem npRound_close (d : ℕ) (x : α) : |npRound d x - x| ≤ 1 / (2 * 10 ^ d) := by
  have h10 : (0 : α) < 10 ^ d := by positivity
  have h0 := Int.floor_le (x * 10 ^ d)
  have h1 := Int.lt_floor_add_one (x * 10 ^ d)
  have key : ∀ n : ℤ, |(n : α) - x * 10 ^ d| ≤ 1 / 2 → |(n : α) / 10 ^ d - x| ≤ 1 / (2 * 10 ^ d) := by
    intro n hn
    have e : (n : α) / 10 ^ d - x = (n - x * 10 ^ d) / 10 ^ d := by field_simp
    rw [e, abs_div, abs_of_pos h10, div_le_div_iff₀ h10 (by positivity)]
    nlinarith
  unfold npRound
  refine key _ ?_
  split_ifs with a b c
  · rw [abs_le]; constructor <;> linarith
  · rw [abs_le]; push_cast; constructor <;> linarith
  · rw [abs_le]; constructor <;> linarith
  · rw [abs_le]; push_cast; constructor <;> linarith

theorem path_of_rows (rows : List (Row α ν κ)) :
    PathOf rows ⟨rows.map fun r => roundVec 6 r.ray.position, rows.map fun r => npRound 2 r.ray.wavelength⟩ := by
  constructor
  · rw [List.forall₂_map_right_iff]
    exact List.forall₂_same.2 fun r _ => ⟨npRound_close 6 _, npRound_close 6 _, npRound_close 6 _⟩
  · rw [List.forall₂_map_right_iff]
    exact List.forall₂_same.2 fun r _ => npRound_close 2 _

/-- The paths of a bundle: the logged events of its recorded rays, in order, without those of a single
event. -/
theorem extract_exact (K : KOps α ν κ σ) (T : RecTables α ν) (maxsteps m re : ℕ)
    (bundle : List (Launch α κ σ)) (threads : ℕ) (es : List (Tagged α (Row α ν κ)))
    (h : Execution bundle.length threads (kRay K T maxsteps m re bundle) es) (limit : ℕ) :
    List.Forall₂ PathOf (((List.range (min (nRecorded re bundle.length) limit)).map fun j =>
        loggedRows (kRay K T maxsteps m re bundle (j * re))).filter fun rows => 2 ≤ rows.length)
      (extractPaths (Mem.exec es) (nRecorded re bundle.length) m limit) := by
  unfold extractPaths
  have hj : ∀ j ∈ List.range (min (nRecorded re bundle.length) limit), j < nRecorded re bundle.length :=
    fun j hj => lt_of_lt_of_le (List.mem_range.1 hj) (Nat.min_le_left _ _)
  generalize List.range (min (nRecorded re bundle.length) limit) = js at hj ⊢
  induction js with
  | nil => exact .nil
  | cons j js ih =>
    replace ih := ih fun j hm => hj j (List.mem_cons_of_mem _ hm)
    obtain ⟨h1, h2⟩ := memory_of_ray K T maxsteps m re bundle threads es h j (hj j List.mem_cons_self)
    have hlog : ((List.range ((Mem.exec es).counts j)).map fun k =>
        ((Mem.exec es).log (j * m + k)).getD blankRow) =
        loggedRows (kRay K T maxsteps m re bundle (j * re)) := by
      apply List.ext_getElem?
      intro k
      rw [List.getElem?_map]
      by_cases hk : k < (Mem.exec es).counts j
      · rw [List.getElem?_range hk, Option.map_some, h2 k hk]
        rw [h1] at hk
        rw [List.getElem?_eq_getElem hk]
        rfl
      · rw [List.getElem?_eq_none (by simpa using hk)]
        rw [h1] at hk
        rw [List.getElem?_eq_none (by omega)]
        rfl
    rw [List.map_cons, List.filter_cons]
    by_cases hc : (Mem.exec es).counts j < 2
    · rw [if_neg (by rw [← h1]; simpa using hc), List.filterMap_cons_none (by rw [if_pos hc])]
      exact ih
    · rw [if_pos (by rw [← h1]; simp only [decide_eq_true_eq]; omega), List.filterMap_cons_some (by rw [if_neg hc])]
      rw [hlog]
      exact .cons (path_of_rows _) ih

/-- **C91**, paths. Message `k` brings the logged events of the first recorded rays of bundle `k`, as many
as are still allowed, and over the whole run there are never more than `max_paths`. -/
theorem live_paths (K : KOps α ν κ σ) {ps : List (ν × Recorder α)} {T : RecTables α ν}
    (hT : compileRecorders ps = some T) (maxsteps maxEvents recordEvery total maxPaths : ℕ)
    (parts : List (Part α ν κ σ))
    (hx : ∀ p ∈ parts, Execution p.bundle.length p.threads
      (kRay K T maxsteps maxEvents recordEvery p.bundle) p.es) (msgs : List (Message α))
    (h : live ps T maxEvents total maxPaths (parts.map (resultOf recordEvery)) = some msgs) :
    (msgs.map (·.paths.length)).sum ≤ maxPaths ∧
    ∀ (k : ℕ) msg part, msgs[k]? = some msg → parts[k]? = some part →
      List.Forall₂ PathOf
        (((List.range (min (nRecorded recordEvery part.bundle.length)
            (maxPaths - ((msgs.take k).map (·.paths.length)).sum))).map fun j =>
          loggedRows (kRay K T maxsteps maxEvents recordEvery part.bundle (j * recordEvery))).filter
            fun rows => 2 ≤ rows.length)
        msg.paths := by
  obtain ⟨msgs', h1, _, h3, h4⟩ := liveFrom_get (κ := κ) hT maxEvents total maxPaths
    (parts.map (resultOf recordEvery)) Acc.zero 0 0
  unfold live at h
  rw [h1] at h
  cases h
  refine ⟨by simpa using h4 (Nat.zero_le _), fun k msg part hk hpart => ?_⟩
  obtain ⟨_, _, _, r, hr, hp⟩ := h3 k msg hk
  rw [List.getElem?_map, hpart] at hr
  cases hr
  rw [hp, Nat.zero_add]
  exact extract_exact K T maxsteps maxEvents recordEvery part.bundle part.threads part.es
    (hx part (List.mem_of_getElem? hpart)) _

/-! ### Descriptions -/

/-- **C91**, labels. The `started` message describes every recorder: its event, its node and, for each
histogram, the properties and the edges of the bins. -/
theorem described (nodeName : ν → String) {ps : List (ν × Recorder α)} {T : RecTables α ν}
    (hT : compileRecorders ps = some T) :
    ∃ ms, histogramMeta nodeName ps T = some ms ∧ List.Forall₂ (Labels nodeName) ps ms := by
  let entry (p : (ν × Recorder α) × ℕ) : String × RecMeta α := (p.1.2.name, ⟨p.1.2.event, nodeName p.1.1,
    p.1.2.hists.zipIdx.map fun h => ⟨sliceStart (allHists ps) (histStart ps p.2 + h.2),
      (axesOf h.1).map fun a => (a.prop, edges a)⟩⟩)
  refine ⟨ps.zipIdx.map entry, mapM_some _ _ _ fun p hp => ?_, ?_⟩
  · have hp' : ps[p.2]? = some p.1 := by
      rw [List.mem_zipIdx_iff_getElem?] at hp
      exact hp
    rw [rec_at hT, hp']
    dsimp only [Option.map_some]
    have hh : p.1.2.hists.zipIdx.mapM (histMeta T (histStart ps p.2)) = some (entry p).2.hists := by
      refine mapM_some _ _ _ fun h hm => ?_
      rw [List.mem_zipIdx_iff_getElem?] at hm
      have hx := histStart_add_lt hp' (List.getElem?_eq_some_iff.1 hm).1
      rw [hm] at hx
      unfold histMeta
      rw [row_at hT, hx]
      dsimp only [Option.map_some]
      rw [(compileHist_size _ h.1).2]
      rcases h with ⟨h | ⟨x, y⟩, i⟩ <;> rfl
    rw [hh]
    rfl
  · rw [List.forall₂_iff_get]
    refine ⟨by simp, fun i h1 h2 => ?_⟩
    simp only [List.get_eq_getElem, List.getElem_map, List.getElem_zipIdx, Nat.zero_add]
    refine ⟨rfl, rfl, rfl, ?_⟩
    simp only [entry, List.map_map, Function.comp_def]
    apply List.ext_getElem
    · simp
    · intro j _ _; simp [edges]

/-- A recorder that counted nothing has no mean, but the page is sent zero. -/
theorem mean_zero_shown (st : TallyState ℝ) {ps : List (ν × Recorder ℝ)} (a : Acc ℝ)
    (p : (ν × Recorder ℝ) × ℕ) (hT : compileRecorders ps = some T) (hp : ps[p.2]? = some p.1)
    (hst : engineResult T a p.2 = some st) (hsum : a.sums (p.2 * 8) = 0) (h : a.distinct p.2 = 0) :
    st.mean 0 = none ∧ (shownOf ps a p).meanWavelength = 0 := by
  unfold engineResult at hst
  rw [rec_at hT, hp] at hst
  cases hst
  refine ⟨by simp [TallyState.mean, h], by simp [shownOf, hsum]⟩

/-! ### A run -/

/-- The three rays of `EngineTally.slabRays` as one bundle. -/
def slabPart : Part ℚ Bool Unit ℕ := ⟨EngineTally.slabRays, 2, EngineTally.slabRun⟩

/-- The run meets the hypotheses of the theorems above. -/
example : compileRecorders EngineTally.slabRecs = some EngineTally.slabTables ∧
    PlaceIndependent EngineTally.slab 10 20 1 ([slabPart, slabPart].flatMap (·.bundle)) ∧
    ∀ p ∈ [slabPart, slabPart], Execution p.bundle.length p.threads
      (kRay EngineTally.slab EngineTally.slabTables 10 20 1 p.bundle) p.es := by
  refine ⟨by decide +kernel, .inl (le_refl _), ?_⟩
  intro p hp
  simp at hp
  subst hp
  exact EngineTally.slab_execution

/-- Two such bundles, with at most four paths: the numbers double, and one path is left for the second. -/
example : ((live EngineTally.slabRecs EngineTally.slabTables 20 6 4 ([slabPart, slabPart].map (resultOf 1))).map
    fun ms => ms.map fun m => m.recorders.map fun s => (s.2.rays, s.2.hists.map (·.1))) =
    some [[(3, [[1, 2]]), (2, [[1, 1], [0, 0, 2, 0]]), (1, [])],
      [(6, [[2, 4]]), (4, [[2, 2], [0, 0, 4, 0]]), (2, [])]] := by decide +kernel

example : ((live EngineTally.slabRecs EngineTally.slabTables 20 6 4 ([slabPart, slabPart].map (resultOf 1))).map
    fun ms => ms.map fun m => (m.traced, m.paths.map (·.points.length))) =
    some [(3, [4, 4, 3]), (6, [4])] := by decide +kernel

end PV.Live
