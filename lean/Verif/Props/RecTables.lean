import Verif.Lemmas.RecTables

/-!
C16: storage of histograms in the engine.
-/

namespace PV.RecTables
set_option linter.unusedSectionVars false
variable {α ν : Type} [Field α] [LinearOrder α] [FloorRing α] [DecidableEq ν]

/-- The bins of `rec_bins` that belong to row `h` of the histogram tables. -/
def slice (h : HRow α) : Set ℕ := {b | h.offset ≤ b ∧ b < h.offset + h.na * h.nb}

theorem row_at {ps : List (ν × Recorder α)} {T : RecTables α ν} (hT : compileRecorders ps = some T)
    (k : ℕ) : T.hists[k]? = (allHists ps)[k]?.map (compileHist (sliceStart (allHists ps) k)) := by
  obtain ⟨rfl, _⟩ := compileRecorders_eq hT
  simp only [(compileRecs_hists 0 0 ps).1, compileHists_get, Nat.zero_add]

theorem total_bins {ps : List (ν × Recorder α)} {T : RecTables α ν} (hT : compileRecorders ps = some T) :
    T.totalBins = ((allHists ps).map Hist.size).sum := by
  obtain ⟨rfl, _⟩ := compileRecorders_eq hT
  simp only [(compileRecs_hists 0 0 ps).2, Nat.zero_add]

theorem rec_at {ps : List (ν × Recorder α)} {T : RecTables α ν} (hT : compileRecorders ps = some T)
    (r : ℕ) : T.recs[r]? = ps[r]?.map fun p =>
      ⟨p.1, p.2.event, p.2.facet, p.2.atol, histStart ps r, p.2.hists.length⟩ := by
  obtain ⟨rfl, _⟩ := compileRecorders_eq hT
  simp only [compileRecs_get, Nat.zero_add]

/-- The slices lie inside the bin array and each bin of the array lies in exactly one of them. -/
theorem slices_partition (ps : List (ν × Recorder α)) (T : RecTables α ν)
    (hT : compileRecorders ps = some T) :
    (∀ h ∈ T.hists, ∀ b ∈ slice h, b < T.totalBins) ∧
    (∀ b < T.totalBins, ∃! k : ℕ, ∃ h, T.hists[k]? = some h ∧ b ∈ slice h) := by
  have hget : ∀ (k : ℕ) h, T.hists[k]? = some h → ∃ x, (allHists ps)[k]? = some x ∧
      h.offset = sliceStart (allHists ps) k ∧ h.na * h.nb = x.size := by
    intro k h hk
    rw [row_at hT] at hk
    obtain ⟨x, hx, rfl⟩ := Option.map_eq_some_iff.1 hk
    exact ⟨x, hx, (compileHist_size _ x).2, (compileHist_size _ x).1⟩
  constructor
  · intro h hh b hb
    obtain ⟨k, hk⟩ := List.mem_iff_getElem?.1 hh
    obtain ⟨x, hx, ho, hs⟩ := hget k h hk
    have := slice_inside (allHists ps) k x hx
    rw [total_bins hT]
    unfold slice at hb
    rw [ho, hs] at hb
    exact lt_of_lt_of_le hb.2 this
  · intro b hb
    rw [total_bins hT] at hb
    obtain ⟨k, x, h1, h2, h3⟩ := slice_cover (allHists ps) b hb
    refine ⟨k, ⟨compileHist (sliceStart (allHists ps) k) x, by rw [row_at hT, h1]; rfl, ?_⟩, ?_⟩
    · unfold slice
      rw [Set.mem_ofPred_eq, (compileHist_size _ x).1, (compileHist_size _ x).2]
      exact ⟨h2, h3⟩
    · rintro k' ⟨h', hk', hb'⟩
      obtain ⟨x', hx', ho, hs⟩ := hget k' h' hk'
      unfold slice at hb'
      rw [Set.mem_ofPred_eq, ho, hs] at hb'
      exact slice_unique (allHists ps) k' k b x' x hx' h1 hb'.1 hb'.2 h2 h3

/-- Histogram `h` of recorder `r` has a row of its own. -/
theorem hist_row (ps : List (ν × Recorder α)) (T : RecTables α ν)
    (hT : compileRecorders ps = some T) (r h : ℕ) (p : ν × Recorder α) (hp : ps[r]? = some p)
    (hh : h < p.2.hists.length) :
    ∃ row x, T.recs[r]?.map (·.histStart) = some (histStart ps r) ∧
      T.hists[histStart ps r + h]? = some row ∧ p.2.hists[h]? = some x ∧
      row = compileHist (sliceStart (allHists ps) (histStart ps r + h)) x := by
  obtain ⟨x, hx⟩ : ∃ x, p.2.hists[h]? = some x := ⟨_, List.getElem?_eq_getElem hh⟩
  refine ⟨_, x, by rw [rec_at hT, hp]; rfl, ?_, hx, rfl⟩
  rw [row_at hT, histStart_add_lt hp hh, hx]
  rfl

theorem histStart_step (ps : List (ν × Recorder α)) (r r' : ℕ) (p : ν × Recorder α)
    (hp : ps[r]? = some p) (hlt : r < r') : histStart ps r + p.2.hists.length ≤ histStart ps r' := by
  induction ps generalizing r r' with
  | nil => cases hp
  | cons q ps ih =>
    obtain ⟨j, rfl⟩ : ∃ j, r' = j + 1 := ⟨r' - 1, by omega⟩
    have e : ∀ r, histStart (q :: ps) (r + 1) = q.2.hists.length + histStart ps r := by
      intro r; simp [histStart, allHists]
    rw [e]
    cases r with
    | zero =>
      simp only [List.getElem?_cons_zero, Option.some.injEq] at hp
      subst hp
      have : histStart (q :: ps) 0 = 0 := rfl
      omega
    | succ r =>
      rw [e]
      have := ih r j (by simpa using hp) (by omega)
      omega

/-- Different histograms of the same or of different recorders have different rows. -/
theorem hist_row_injective (ps : List (ν × Recorder α)) (r r' h h' : ℕ) (p p' : ν × Recorder α)
    (hp : ps[r]? = some p) (hp' : ps[r']? = some p') (hh : h < p.2.hists.length)
    (hh' : h' < p'.2.hists.length) (heq : histStart ps r + h = histStart ps r' + h') :
    r = r' ∧ h = h' := by
  rcases Nat.lt_trichotomy r r' with hlt | rfl | hgt
  · have := histStart_step ps r r' p hp hlt; omega
  · exact ⟨rfl, by omega⟩
  · have := histStart_step ps r' r p' hp' hgt; omega

/-- The increment made for one histogram lies in its slice. -/
theorem bin_in_slice (h : Hist α) (o : ℕ) (v : Values α) (b : ℕ)
    (hb : kHistBin (compileHist o h) v = some b) : b ∈ slice (compileHist o h) := by
  rw [kHistBin_eq] at hb
  obtain ⟨k, hk, rfl⟩ := Option.map_eq_some_iff.1 hb
  have := Tally.bin_lt hk
  unfold slice
  rw [Set.mem_ofPred_eq, (compileHist_size o h).1, (compileHist_size o h).2]
  omega

/-- An increment for one histogram never changes what is reported for another histogram, nor any
other number reported. -/
theorem increment_local (ps : List (ν × Recorder α)) (T : RecTables α ν)
    (hT : compileRecorders ps = some T) (r h r' h' : ℕ) (p p' : ν × Recorder α)
    (hp : ps[r]? = some p) (hp' : ps[r']? = some p') (hh : h < p.2.hists.length)
    (hh' : h' < p'.2.hists.length) (row : HRow α) (hrow : T.hists[histStart ps r + h]? = some row)
    (v : Values α) (b : ℕ) (hb : kHistBin row v = some b) (a : Acc α) (res res' : TallyState α)
    (h1 : engineResult T a r' = some res)
    (h2 : engineResult T (a.apply (.bin b : Effect α Unit)) r' = some res') :
    res'.rays = res.rays ∧ res'.crossings = res.crossings ∧ res'.moments = res.moments ∧
    ((r, h) ≠ (r', h') → res'.bins[h']? = res.bins[h']?) ∧
    ((r, h) = (r', h') → ∃ f k, res.bins[h']? = some f ∧ res'.bins[h']? = some (incr f k) ∧
      p.2.hists[h]?.bind (fun x => x.bin v) = some k) := by
  have hrecs : T.recs[r']? = some ⟨p'.1, p'.2.event, p'.2.facet, p'.2.atol, histStart ps r',
      p'.2.hists.length⟩ := by rw [rec_at hT, hp']; rfl
  unfold engineResult at h1 h2
  rw [hrecs, Option.map_some, Option.some.injEq] at h1 h2
  -- the reported list of bins
  have hbins : ∀ a : Acc α, ((List.range p'.2.hists.length).filterMap fun h =>
      T.hists[histStart ps r' + h]?.map fun (hr : HRow α) k =>
        if k < hr.na * hr.nb then a.bins (hr.offset + k) else 0)[h']? =
      T.hists[histStart ps r' + h']?.map fun (hr : HRow α) k =>
        if k < hr.na * hr.nb then a.bins (hr.offset + k) else 0 := by
    intro a
    have hall : ∀ n, (∀ h < n, ∃ y, T.hists[histStart ps r' + h]? = some y) → ∀ j < n,
        ((List.range n).filterMap fun h =>
          T.hists[histStart ps r' + h]?.map fun (hr : HRow α) k =>
            if k < hr.na * hr.nb then a.bins (hr.offset + k) else 0)[j]? =
        T.hists[histStart ps r' + j]?.map fun (hr : HRow α) k =>
          if k < hr.na * hr.nb then a.bins (hr.offset + k) else 0 := by
      intro n hn j hj
      have : ((List.range n).filterMap fun h =>
          T.hists[histStart ps r' + h]?.map fun (hr : HRow α) k =>
            if k < hr.na * hr.nb then a.bins (hr.offset + k) else 0).map some =
          (List.range n).map fun h =>
            T.hists[histStart ps r' + h]?.map fun (hr : HRow α) k =>
              if k < hr.na * hr.nb then a.bins (hr.offset + k) else 0 := by
        clear hj
        induction n with
        | zero => rfl
        | succ n ih =>
          rw [List.range_succ, List.filterMap_append, List.map_append, List.map_append,
            ih fun h hh => hn h (by omega)]
          obtain ⟨y, hy⟩ := hn n (by omega)
          simp [hy]
      have hg := congrArg (fun l => l[j]?) this
      simp only [List.getElem?_map, List.getElem?_range hj, Option.map_some] at hg
      obtain ⟨y, hy⟩ := hn j hj
      rw [hy] at hg ⊢
      simp only [Option.map_some] at hg ⊢
      obtain ⟨z, hz, hz'⟩ := Option.map_eq_some_iff.1 hg
      rw [hz]; exact hz'
    exact hall _ (fun k hk => by
      obtain ⟨y, _, _, hy, _, _⟩ := hist_row ps T hT r' k p' hp' hk
      exact ⟨y, hy⟩) h' hh'
  obtain ⟨row', x', _, hrow', hx', hxr'⟩ := hist_row ps T hT r' h' p' hp' hh'
  obtain ⟨row2, x, _, hrow2, hx, hxr⟩ := hist_row ps T hT r h p hp hh
  rw [hrow] at hrow2
  simp only [Option.some.injEq] at hrow2
  subst hrow2
  subst h1 h2
  refine ⟨rfl, rfl, rfl, ?_, ?_⟩
  · intro hne
    dsimp only
    rw [hbins, hbins, hrow']
    simp only [Option.map_some, Option.some.injEq]
    funext k
    by_cases hk : k < row'.na * row'.nb
    · rw [if_pos hk, if_pos hk]
      simp only [Acc.apply, incr]
      rw [if_neg]
      intro hkb
      apply hne
      have hmem : b ∈ slice row := by rw [hxr] at hb ⊢; exact bin_in_slice x _ v b hb
      have hmem' : b ∈ slice row' := ⟨by omega, by omega⟩
      have huniq := (slices_partition ps T hT).2 b
        ((slices_partition ps T hT).1 row (List.mem_of_getElem? hrow) b hmem)
      have := huniq.unique ⟨row, hrow, hmem⟩ ⟨row', hrow', hmem'⟩
      obtain ⟨e1, e2⟩ := hist_row_injective ps r r' h h' p p' hp hp' hh hh' this
      rw [e1, e2]
    · rw [if_neg hk, if_neg hk]
  · intro heq
    simp only [Prod.mk.injEq] at heq
    obtain ⟨rfl, rfl⟩ := heq
    rw [hrow] at hrow'
    simp only [Option.some.injEq] at hrow'
    subst hrow'
    dsimp only
    rw [hbins, hbins, hrow]
    have hb' := hb
    rw [hxr, kHistBin_eq] at hb'
    obtain ⟨k, hk, rfl⟩ := Option.map_eq_some_iff.1 hb'
    refine ⟨_, k, rfl, ?_, by rw [hx]; exact hk⟩
    simp only [Option.map_some, Option.some.injEq]
    have hlt := Tally.bin_lt hk
    have hsz : row.na * row.nb = x.size := by rw [hxr]; exact (compileHist_size _ x).1
    have hof : row.offset = sliceStart (allHists ps) (histStart ps r + h) := by
      rw [hxr]; exact (compileHist_size _ x).2
    funext j
    simp only [Acc.apply, incr]
    rw [← hof]
    by_cases hj : j < row.na * row.nb
    · simp only [if_pos hj]
      by_cases hjk : j = k
      · rw [if_pos hjk, if_pos (by rw [hjk])]
      · rw [if_neg hjk, if_neg (by omega)]
    · simp only [if_neg hj]
      rw [if_neg (by omega)]

/-- Every accumulator entry written by `tally` lies inside its array: `n_recorders` counters,
`8 * n_recorders` sums and `total_bins` bins. -/
theorem tally_in_bounds {ρ : Type} (ps : List (ν × Recorder α)) (T : RecTables α ν)
    (hT : compileRecorders ps = some T) (c : TallyCall α ν) (seen : ℕ → Bool) :
    ∀ e ∈ (kTally (ρ := ρ) T c seen).1,
      match e with
      | .distinct r => r < T.recs.length
      | .cross r => r < T.recs.length
      | .sum i _ => i < T.recs.length * 8
      | .bin b => b < T.totalBins
      | _ => False := by
  have key : ∀ (rs : List (RecRow α ν)) (i : ℕ) (seen : ℕ → Bool), i + rs.length ≤ T.recs.length →
      ∀ e ∈ (kTallyFrom (ρ := ρ) T c rs i seen).1,
      match e with
      | .distinct r => r < T.recs.length
      | .cross r => r < T.recs.length
      | .sum i _ => i < T.recs.length * 8
      | .bin b => b < T.totalBins
      | _ => False := by
    intro rs
    induction rs with
    | nil => intro _ _ _ e he; cases he
    | cons r rs ih =>
      intro i seen hi e he
      simp only [List.length_cons] at hi
      simp only [kTallyFrom] at he
      rcases List.mem_append.1 he with he | he
      · unfold kTallyOne at he
        split_ifs at he
        · simp only [List.mem_singleton] at he
          subst he
          show i < _
          omega
        · simp only [kSums, List.mem_cons, List.mem_append, List.not_mem_nil, or_false] at he
          rcases he with rfl | rfl | h | he
          · show i < _; omega
          · show i < _; omega
          · rcases h with rfl | rfl | rfl | rfl | rfl | rfl | rfl | rfl <;> (show _ < _) <;> omega
          · unfold kBins at he
            obtain ⟨h, _, hh⟩ := List.mem_filterMap.1 he
            cases hr : T.hists[h]? with
            | none => rw [hr] at hh; cases hh
            | some row =>
              rw [hr] at hh
              obtain ⟨b, hb, rfl⟩ := Option.map_eq_some_iff.1 hh
              show b < T.totalBins
              refine (slices_partition ps T hT).1 row (List.mem_of_getElem? hr) b ?_
              rw [row_at hT] at hr
              obtain ⟨x, _, rfl⟩ := Option.map_eq_some_iff.1 hr
              exact bin_in_slice x _ _ b hb
        · cases he
      · exact ih (i + 1) _ (by omega) e he
  exact key T.recs 0 seen (by omega)

/-- The per-ray array `rseen` of the kernel has 256 entries (`MAX_RECORDERS`,
`/repo/pvtrace/engine/_kernel.pyx:67,622`): an accepted scene never has more recorders, and `tally` only
sets entries of recorders. -/
theorem seen_in_bounds {ρ : Type} (ps : List (ν × Recorder α)) (T : RecTables α ν)
    (hT : compileRecorders ps = some T) (c : TallyCall α ν) (seen : ℕ → Bool) :
    T.recs.length ≤ 256 ∧ ∀ i, (kTally (ρ := ρ) T c seen).2 i ≠ seen i → i < 256 := by
  have hlen : T.recs.length ≤ 256 := by
    unfold compileRecorders at hT
    split_ifs at hT with h1 h2 h3
    cases hT
    have : ∀ (ps : List (ν × Recorder α)) (a b : ℕ), (compileRecs a b ps).1.length = ps.length := by
      intro ps
      induction ps with
      | nil => intros; rfl
      | cons p ps ih => intro a b; simp [compileRecs, ih]
    dsimp only
    rw [this]
    omega
  refine ⟨hlen, ?_⟩
  have key : ∀ (rs : List (RecRow α ν)) (i : ℕ) (seen : ℕ → Bool), ∀ j,
      (kTallyFrom (ρ := ρ) T c rs i seen).2 j ≠ seen j → j < i + rs.length := by
    intro rs
    induction rs with
    | nil => intro _ _ j h; exact absurd rfl h
    | cons r rs ih =>
      intro i seen j h
      simp only [kTallyFrom] at h
      rw [List.length_cons]
      by_cases hj : (kTallyOne (ρ := ρ) T c r i seen).2 j = seen j
      · rw [← hj] at h
        have := ih _ _ j h
        omega
      · unfold kTallyOne at hj
        split_ifs at hj with h1 h2
        · exact absurd rfl hj
        · by_cases hji : j = i
          · omega
          · simp [hji] at hj
        · exact absurd rfl hj
  intro j hj
  have := key T.recs 0 seen j hj
  omega

/-! ### Example -/

def h1 : Hist ℚ := .one ⟨.wavelength, 400, 800, 4⟩
def h2 : Hist ℚ := .heat ⟨.x, -1, 1, 2⟩ ⟨.y, -1, 1, 3⟩

/-- Two recorders with three histograms of 4, 6 and 4 bins. -/
def two : List (Bool × Recorder ℚ) :=
  [(true, { name := "a", event := .entering, atol := 0, hists := [h1, h2] }),
   (false, { name := "b", event := .exit, atol := 0, hists := [h1] })]

example : (compileRecorders two).map (fun T => (T.hists.map fun h => (h.offset, h.na * h.nb),
    T.recs.map fun r => (r.histStart, r.histN), T.totalBins)) =
    some ([(0, 4), (4, 6), (10, 4)], [(0, 2), (2, 1)], 14) := by decide +kernel

/-- An increment of the heatmap: bin 9 of the array, bin 5 of the heatmap. -/
example : kHistBin (compileHist 4 h2) ⟨555, 0, 0, 0, ⟨1/2, 1/2, 0⟩⟩ = some 9 := by decide +kernel

end PV.RecTables
