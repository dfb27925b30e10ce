import Verif.Props.EventLog

/-!
C12, C19: what the event budget `max_events` does to tallies and histories.
-/

namespace PV.Budget
set_option linter.unusedSectionVars false
open PV.Spec PV.EventLog
variable {α ν κ σ : Type} [Field α] [LinearOrder α] [FloorRing α] [DecidableEq ν]

/-! ### Shape of a pass -/

theorem kBody_cont (K : KOps α ν κ σ) (maxsteps count : ℕ) (ray ray' : KRay α κ) (s s' : σ)
    (h : (kBody K maxsteps count ray s).2 = .cont ray' s') :
    (∃ r, rowsOf (kBody K maxsteps count ray s).1 = [r] ∧ r.ray = ray' ∧
      (r.kind = .reflect ∨ r.kind = .transmit)) ∨
    (∃ a b, rowsOf (kBody K maxsteps count ray s).1 = [a, b] ∧ a.kind = .absorb ∧
      (b.kind = .emit ∨ b.kind = .scatter) ∧ b.ray = ray') := by
  unfold kBody at h ⊢
  cases hn : K.nextHit ray.position ray.direction with
  | none => rw [hn] at h; cases h
  | some x =>
    obtain ⟨hit, container, adjacent, t0⟩ := x
    rw [hn] at h
    dsimp only at h ⊢
    split_ifs at h ⊢ with h1 h2
    · cases hd : isAbsorbed (K.depth container ray.wavelength s).1 t0 with
      | some d =>
        rw [hd] at h
        dsimp only at h ⊢
        right
        unfold kAbsorb at h ⊢
        dsimp only at h ⊢
        split_ifs at h ⊢ <;> first
          | contradiction
          | (cases h; done)
          | (cases h; exact ⟨_, _, rfl, rfl, .inl rfl, rfl⟩)
          | (cases h; exact ⟨_, _, rfl, rfl, .inr rfl, rfl⟩)
      | none =>
        rw [hd] at h
        dsimp only at h ⊢
        left
        unfold kSurface at h ⊢
        cases adjacent with
        | none => cases h
        | some a =>
          dsimp only at h ⊢
          split_ifs at h ⊢ <;> first
            | contradiction
            | (cases h; exact ⟨_, rfl, rfl, .inl rfl⟩)
            | (cases h; exact ⟨_, rfl, rfl, .inr rfl⟩)

theorem kBody_stop (K : KOps α ν κ σ) (maxsteps count : ℕ) (ray : KRay α κ) (s : σ)
    (h : (kBody K maxsteps count ray s).2 = .stop) :
    (rowsOf (kBody K maxsteps count ray s).1 = [] ∧
      K.nextHit ray.position ray.direction = none) ∨
    (∃ r, (rowsOf (kBody K maxsteps count ray s).1).getLast? = some r ∧ Terminal r.kind) := by
  unfold kBody at h ⊢
  cases hn : K.nextHit ray.position ray.direction with
  | none => exact .inl ⟨rfl, rfl⟩
  | some x =>
    obtain ⟨hit, container, adjacent, t0⟩ := x
    right
    rw [hn] at h
    dsimp only at h ⊢
    split_ifs at h ⊢ with h1 h2
    · exact ⟨_, rfl, .inr (.inr (.inr rfl))⟩
    · exact ⟨_, rfl, .inl rfl⟩
    · cases hd : isAbsorbed (K.depth container ray.wavelength s).1 t0 with
      | some d =>
        rw [hd] at h
        dsimp only at h ⊢
        unfold kAbsorb at h ⊢
        dsimp only at h ⊢
        split_ifs at h ⊢ <;> first
          | contradiction
          | (cases h; done)
          | exact ⟨_, rfl, .inr (.inl rfl)⟩
          | exact ⟨_, rfl, .inr (.inr (.inl rfl))⟩
      | none =>
        rw [hd] at h
        dsimp only at h ⊢
        unfold kSurface at h ⊢
        cases adjacent with
        | none => exact ⟨_, rfl, .inr (.inr (.inr rfl))⟩
        | some a =>
          dsimp only at h ⊢
          split_ifs at h ⊢ <;> cases h

/-! ### C19 -/

/-- The history ends with a terminal event, or with a ray that meets nothing any more. -/
def Complete (K : KOps α ν κ σ) (rows : List (Row α ν κ)) : Prop :=
  ∃ r, rows.getLast? = some r ∧
    (Terminal r.kind ∨ K.nextHit r.ray.position r.ray.direction = none)

/-- The last two rows are an absorption and its re-emission. -/
def EndsInReemission (rows : List (Row α ν κ)) : Prop :=
  ∃ pre a b, rows = pre ++ [a, b] ∧ a.kind = .absorb ∧ (b.kind = .emit ∨ b.kind = .scatter)

theorem getLast?_append_some {β : Type} {a b : List β} {r : β} (h : b.getLast? = some r) :
    (a ++ b).getLast? = some r := by
  rw [List.getLast?_append, h]; rfl

theorem cut_shape (K : KOps α ν κ σ) (maxsteps m : ℕ) :
    ∀ (fuel count nev : ℕ) (ray : KRay α κ) (s : σ), nev ≤ m → 0 < fuel →
      maxsteps + 1 ≤ fuel + count →
      let cut := kCut K maxsteps m fuel count nev ray s
      let L := (rowsOf cut.1 ++ (cut.2.map budgetKill).toList).take (m - nev)
      (L = [] ∧ (K.nextHit ray.position ray.direction = none ∨ nev = m)) ∨
      Complete K L ∨ (nev + L.length = m ∧ EndsInReemission L) := by
  intro fuel
  induction fuel with
  | zero => intro _ _ _ _ _ h; omega
  | succ fuel ih =>
    intro count nev ray s hm _ hf
    dsimp only
    simp only [kCut]
    by_cases hc : nev + 1 ≥ m
    · rw [if_pos hc]
      by_cases he : nev = m
      · left; simp [he]
      · right; left
        have : m - nev = 1 := by omega
        rw [this]
        exact ⟨budgetKill ray, rfl, .inl (.inr (.inr (.inr rfl)))⟩
    · rw [if_neg hc]
      have hle := kBody_rows_le K maxsteps (count + 1) ray s
      cases hb : (kBody K maxsteps (count + 1) ray s).2 with
      | stop =>
        dsimp only
        rw [Option.map_none, Option.toList_none, List.append_nil, List.take_of_length_le (by omega)]
        rcases kBody_stop K maxsteps (count + 1) ray s hb with ⟨h1, h2⟩ | ⟨r, h1, h2⟩
        · exact .inl ⟨h1, .inl h2⟩
        · exact .inr (.inl ⟨r, h1, .inl h2⟩)
      | cont ray' s' =>
        dsimp only
        have hcnt : ¬ maxsteps < count + 1 := fun hc => by
          rw [kBody_stops K hc] at hb; cases hb
        have := ih (count + 1) (nev + (rowsOf (kBody K maxsteps (count + 1) ray s).1).length) ray' s'
          (by omega) (by omega) (by omega)
        dsimp only at this
        generalize hcut : kCut K maxsteps m fuel (count + 1)
          (nev + (rowsOf (kBody K maxsteps (count + 1) ray s).1).length) ray' s' = cut at this ⊢
        rw [rowsOf_append, List.append_assoc, List.take_append,
          List.take_of_length_le (by omega : (rowsOf (kBody K maxsteps (count + 1) ray s).1).length
            ≤ m - nev), Nat.sub_sub]
        generalize (rowsOf cut.1 ++ (cut.2.map budgetKill).toList).take
          (m - (nev + (rowsOf (kBody K maxsteps (count + 1) ray s).1).length)) = L at this ⊢
        rcases this with ⟨h1, h2⟩ | ⟨r, h1, h2⟩ | ⟨h1, pre, a, b, h2, h3, h4⟩
        · subst h1
          rw [List.append_nil]
          rcases kBody_cont K maxsteps (count + 1) ray ray' s s' hb with
            ⟨r, g1, g2, _⟩ | ⟨a, b, g1, g2, g3, g4⟩
          · rw [g1] at h2 ⊢
            right; left
            refine ⟨r, rfl, .inr ?_⟩
            rw [g2]
            rcases h2 with h2 | h2
            · exact h2
            · simp only [List.length_singleton] at h2; omega
          · rw [g1] at h2 ⊢
            right
            rcases h2 with h2 | h2
            · left
              refine ⟨b, rfl, .inr ?_⟩
              rw [g4]; exact h2
            · right
              exact ⟨by simpa using h2, [], a, b, rfl, g2, g3⟩
        · right; left
          exact ⟨r, getLast?_append_some h1, h2⟩
        · right; right
          refine ⟨by rw [List.length_append]; omega,
            rowsOf (kBody K maxsteps (count + 1) ray s).1 ++ pre, a, b, ?_, h3, h4⟩
          rw [h2, List.append_assoc]

theorem logged_eq (K : KOps α ν κ σ) (T : RecTables α ν) (maxsteps m re : ℕ)
    (bundle : List (Launch α κ σ)) (i : ℕ) (l : Launch α κ σ) (hl : bundle[i]? = some l)
    (hre : 0 < re) (hi : i % re = 0) :
    loggedRows (kRay K T maxsteps m re bundle i) = (rayRows K maxsteps m l).take m := by
  unfold loggedRows
  rw [kRay_writes K T maxsteps m re bundle i l hl]
  unfold slotOf
  rw [if_pos ⟨hre, hi⟩]
  simp only [kRecords, Nat.sub_zero, List.map_map]
  exact List.zipIdx_map_fst _ _

/-- C19, the part that holds: with `max_events >= 2` a recorded history is complete, unless the
budget was used up by an absorption followed by re-emission. -/
theorem history_complete_partial (K : KOps α ν κ σ) (T : RecTables α ν)
    (maxsteps maxEvents recordEvery : ℕ) (bundle : List (Launch α κ σ)) (i : ℕ)
    (hi : i < bundle.length) (hre : 0 < recordEvery) (hrec : i % recordEvery = 0)
    (hm : 2 ≤ maxEvents) :
    let rows := loggedRows (kRay K T maxsteps maxEvents recordEvery bundle i)
    Complete K rows ∨ (rows.length = maxEvents ∧ EndsInReemission rows) := by
  obtain ⟨l, hl⟩ : ∃ l, bundle[i]? = some l := ⟨_, List.getElem?_eq_getElem hi⟩
  dsimp only
  rw [logged_eq K T maxsteps maxEvents recordEvery bundle i l hl hre hrec]
  have := cut_shape K maxsteps maxEvents (maxsteps + 1) 0 1 l.ray l.rng (by omega) (by omega)
    (by omega)
  unfold rayRows rayCut
  have h1 : min 1 maxEvents = 1 := by omega
  rw [h1]
  dsimp only at this
  obtain ⟨j, rfl⟩ : ∃ j, maxEvents = j + 1 := ⟨maxEvents - 1, by omega⟩
  rw [List.take_succ_cons]
  rw [show j + 1 - 1 = j from rfl] at this
  generalize ((rowsOf (kCut K maxsteps (j + 1) (maxsteps + 1) 0 1 l.ray l.rng).1 ++
    ((kCut K maxsteps (j + 1) (maxsteps + 1) 0 1 l.ray l.rng).2.map budgetKill).toList)).take j
    = L at this ⊢
  rcases this with ⟨h1, h2⟩ | ⟨r, h1, h2⟩ | ⟨h1, pre, a, b, h2, h3, h4⟩
  · subst h1
    rcases h2 with h2 | h2
    · exact .inl ⟨_, rfl, .inr h2⟩
    · omega
  · refine .inl ⟨r, ?_, h2⟩
    rw [← List.singleton_append]
    exact getLast?_append_some h1
  · refine .inr ⟨by rw [List.length_cons]; omega, generateRow l.ray :: pre, a, b, ?_, h3, h4⟩
    rw [h2]; rfl

/-- The full history of a ray: what it records with a budget larger than any history. -/
def fullHistory (K : KOps α ν κ σ) (maxsteps : ℕ) (l : Launch α κ σ) : List (Row α ν κ) :=
  loggedRows (kTraceOne K ⟨[], [], 0⟩ (some (0, 2 * maxsteps + 5)) maxsteps l.ray l.rng).1

theorem kCut_none (K : KOps α ν κ σ) (maxsteps m : ℕ) :
    ∀ (fuel count nev : ℕ) (ray : KRay α κ) (s : σ),
      nev + (rowsOf (kTrace K maxsteps fuel count ray s)).length + 2 ≤ m →
      (kCut K maxsteps m fuel count nev ray s).2 = none := by
  intro fuel
  induction fuel with
  | zero => intros; rfl
  | succ fuel ih =>
    intro count nev ray s h
    simp only [kCut]
    rw [if_neg (by omega)]
    cases hb : (kBody K maxsteps (count + 1) ray s).2 with
    | stop => rfl
    | cont ray' s' =>
      dsimp only
      apply ih
      simp only [kTrace, hb, rowsOf_append, List.length_append] at h
      omega

theorem rayCut_fits (K : KOps α ν κ σ) (maxsteps m : ℕ) (l : Launch α κ σ)
    (h : (rowsOf (rayTrace K maxsteps l)).length + 3 ≤ m) :
    (rayCut K maxsteps m l) = (rayTrace K maxsteps l, none) := by
  have h2 : (rayCut K maxsteps m l).2 = none := by
    apply kCut_none
    change min 1 m + (rowsOf (rayTrace K maxsteps l)).length + 2 ≤ m
    omega
  have h1 := (kCut_prefix K maxsteps m (maxsteps + 1) 0 (min 1 m) l.ray l.rng).2 h2
  exact Prod.ext h1 h2

theorem fullHistory_eq (K : KOps α ν κ σ) (maxsteps : ℕ) (l : Launch α κ σ) :
    fullHistory K maxsteps l = generateRow l.ray :: rowsOf (rayTrace K maxsteps l) := by
  have hle := kTrace_rows_le K maxsteps (maxsteps + 1) 0 l.ray l.rng
  change (rowsOf (rayTrace K maxsteps l)).length ≤ _ at hle
  unfold fullHistory loggedRows
  rw [(kTraceOne_some K ⟨[], [], 0⟩ 0 (2 * maxsteps + 5) maxsteps l).1]
  simp only [kRecords, Nat.sub_zero, List.map_map]
  have : rayRows K maxsteps (2 * maxsteps + 5) l =
      generateRow l.ray :: rowsOf (rayTrace K maxsteps l) := by
    unfold rayRows
    rw [rayCut_fits K maxsteps _ l (by omega)]
    simp
  rw [this]
  refine (List.zipIdx_map_fst _ _).trans ?_
  rw [List.take_of_length_le (by rw [List.length_cons]; omega)]

/-- A full history is always complete and has at most `2 * maxsteps + 3` events. -/
theorem full_history_complete (K : KOps α ν κ σ) (maxsteps : ℕ) (l : Launch α κ σ) :
    Complete K (fullHistory K maxsteps l) ∧ (fullHistory K maxsteps l).length ≤ 2 * maxsteps + 3 := by
  have hle := kTrace_rows_le K maxsteps (maxsteps + 1) 0 l.ray l.rng
  have hlen : (fullHistory K maxsteps l).length ≤ 2 * maxsteps + 3 := by
    rw [fullHistory_eq, List.length_cons]
    change (rowsOf (rayTrace K maxsteps l)).length ≤ _ at hle
    omega
  refine ⟨?_, hlen⟩
  have h := history_complete_partial K (⟨[], [], 0⟩ : RecTables α ν) maxsteps (2 * maxsteps + 5) 1 [l] 0
    (by simp) (by omega) (by omega) (by omega)
  have e : loggedRows (kRay K ⟨[], [], 0⟩ maxsteps (2 * maxsteps + 5) 1 [l] 0) =
      fullHistory K maxsteps l := by
    rw [logged_eq K _ maxsteps _ 1 [l] 0 l rfl (by omega) (by omega)]
    unfold fullHistory loggedRows
    rw [(kTraceOne_some K ⟨[], [], 0⟩ 0 (2 * maxsteps + 5) maxsteps l).1]
    simp only [kRecords, Nat.sub_zero, List.map_map]
    exact (List.zipIdx_map_fst _ _).symm
  dsimp only at h
  rw [e] at h
  rcases h with h | ⟨h, _⟩
  · exact h
  · omega

/-- A recorded history is a prefix of the full history, followed by at most a KILL of the ray
as it was in the last event: nothing is left out in the middle. -/
theorem history_prefix (K : KOps α ν κ σ) (T : RecTables α ν)
    (maxsteps maxEvents recordEvery : ℕ) (bundle : List (Launch α κ σ)) (i : ℕ) (l : Launch α κ σ)
    (hl : bundle[i]? = some l) (hre : 0 < recordEvery) (hrec : i % recordEvery = 0) :
    ∃ pre, pre <+: fullHistory K maxsteps l ∧
      (loggedRows (kRay K T maxsteps maxEvents recordEvery bundle i) = pre ∨
       ∃ ray, loggedRows (kRay K T maxsteps maxEvents recordEvery bundle i) =
        pre ++ [⟨.kill, none, none, none, none, ray, none⟩] ∧ pre.length + 1 = maxEvents) := by
  rw [logged_eq K T maxsteps maxEvents recordEvery bundle i l hl hre hrec, fullHistory_eq]
  have hp : rowsOf (rayCut K maxsteps maxEvents l).1 <+: rowsOf (rayTrace K maxsteps l) := by
    obtain ⟨t, ht⟩ := (kCut_prefix K maxsteps maxEvents (maxsteps + 1) 0 (min 1 maxEvents) l.ray
      l.rng).1
    refine ⟨rowsOf t, ?_⟩
    rw [← rowsOf_append]
    exact congrArg rowsOf ht
  have hfit := kCut_fits K maxsteps maxEvents (maxsteps + 1) 0 (min 1 maxEvents) l.ray l.rng
    (by omega)
  change min 1 maxEvents + (rowsOf (rayCut K maxsteps maxEvents l).1).length ≤ maxEvents ∧ _ at hfit
  have hpre : generateRow l.ray :: rowsOf (rayCut K maxsteps maxEvents l).1 <+:
      generateRow l.ray :: rowsOf (rayTrace K maxsteps l) := by
    obtain ⟨t, ht⟩ := hp
    exact ⟨t, by rw [List.cons_append, ht]⟩
  by_cases hlast : (rayCut K maxsteps maxEvents l).2.isSome ∧
      (rowsOf (rayCut K maxsteps maxEvents l).1).length + 2 = maxEvents
  · obtain ⟨ray, hr⟩ := Option.isSome_iff_exists.1 hlast.1
    refine ⟨_, hpre, .inr ⟨ray, ?_, by rw [List.length_cons]; omega⟩⟩
    unfold rayRows
    rw [hr, List.take_of_length_le]
    · rfl
    · simp only [Option.map_some, Option.toList_some, List.length_cons, List.length_append,
        List.length_nil]
      omega
  · refine ⟨(rayRows K maxsteps maxEvents l).take maxEvents, ?_, .inl rfl⟩
    unfold rayRows
    cases hr : (rayCut K maxsteps maxEvents l).2 with
    | none =>
      rw [Option.map_none, Option.toList_none, List.append_nil]
      exact (List.take_prefix _ _).trans hpre
    | some ray =>
      have h2 := hfit.2 (by
        change (rayCut K maxsteps maxEvents l).2.isSome; rw [hr]; rfl)
      change maxEvents ≤ min 1 maxEvents + (rowsOf (rayCut K maxsteps maxEvents l).1).length + 1
        at h2
      have hlen : (rowsOf (rayCut K maxsteps maxEvents l).1).length + 2 ≠ maxEvents := fun h =>
        hlast ⟨by rw [hr]; rfl, h⟩
      have : maxEvents ≤ (rowsOf (rayCut K maxsteps maxEvents l).1).length + 1 := by omega
      rw [← List.cons_append, List.take_append_of_le_length (by rw [List.length_cons]; omega)]
      exact (List.take_prefix _ _).trans hpre

/-- C19 is violated: an absorption and re-emission that fill the log hide the end of the ray. -/
theorem reemission_hides_end :
    let rows := loggedRows (kRay fog noRecorders 10 3 1 three 0)
    rows.map (·.kind) = [.generate, .absorb, .scatter] ∧ ¬ Complete fog rows ∧
    (fullHistory fog 10 ⟨ray0, ()⟩).length = 22 := by
  refine ⟨by decide +kernel, ?_, by decide +kernel⟩
  rintro ⟨r, h1, h2⟩
  have h3 : (loggedRows (kRay fog noRecorders 10 3 1 three 0)).getLast?.map (·.kind) =
      some .scatter := by decide +kernel
  rw [h1] at h3
  have h4 : r.kind = .scatter := by simpa using h3
  rcases h2 with h2 | h2
  · unfold Terminal at h2; rw [h4] at h2; simp at h2
  · simp [fog] at h2

/-- With `max_events = 1` only the GENERATE event is kept. -/
theorem budget_one : (loggedRows (kRay fog noRecorders 10 1 1 three 0)).map (·.kind) =
    [.generate] := by decide +kernel

/-- Non-vacuity of `history_complete_partial`: budget 4 ends with KILL. -/
example : (loggedRows (kRay fog noRecorders 10 4 1 three 0)).map (·.kind) =
    [.generate, .absorb, .scatter, .kill] := by decide +kernel

/-! ### C12 -/

/-- The budget is never reached: no recording, or every full history has at most
`max_events - 2` events. -/
def BudgetSuffices (K : KOps α ν κ σ) (maxsteps maxEvents recordEvery : ℕ)
    (bundle : List (Launch α κ σ)) : Prop :=
  recordEvery = 0 ∨ ∀ l ∈ bundle, (fullHistory K maxsteps l).length + 2 ≤ maxEvents

theorem tallies_eq (K : KOps α ν κ σ) (T : RecTables α ν) (maxsteps m re : ℕ)
    (bundle : List (Launch α κ σ)) (hb : BudgetSuffices K maxsteps m re bundle)
    (i : ℕ) (l : Launch α κ σ) (hl : bundle[i]? = some l) :
    talliesOf (kRay K T maxsteps m re bundle i) =
      (kTallies (ρ := Row α ν κ) T (callsOf (rayTrace K maxsteps l)) fun _ => false).1 := by
  rw [kRay_tallies K T maxsteps m re bundle i l hl]
  split_ifs with hc
  · rcases hb with hb | hb
    · omega
    · have := hb l (List.mem_of_getElem? hl)
      rw [fullHistory_eq, List.length_cons] at this
      rw [rayCut_fits K maxsteps m l (by omega)]
  · rfl

theorem sum_talliesOf {ρ M : Type} [AddCommMonoid M] (f : Effect α ρ → M)
    (hw : ∀ i r, f (.write i r) = 0) (hc : ∀ i n, f (.count i n) = 0) (es : List (Effect α ρ)) :
    (es.map f).sum = ((talliesOf es).map f).sum := by
  induction es with
  | nil => rfl
  | cons e es ih =>
    rw [List.map_cons, List.sum_cons, ih]
    cases e <;> simp [talliesOf, hw, hc]

/-- C12, the part that holds: recorder tallies are the same for any two settings of `record_every`
and `max_events` whose budget is not reached (and any threads and schedules). -/
theorem tallies_independent_partial (K : KOps α ν κ σ) (T : RecTables α ν) (maxsteps : ℕ)
    (bundle : List (Launch α κ σ)) (maxEvents maxEvents' recordEvery recordEvery' : ℕ)
    (hb : BudgetSuffices K maxsteps maxEvents recordEvery bundle)
    (hb' : BudgetSuffices K maxsteps maxEvents' recordEvery' bundle)
    (threads threads' : ℕ) (es es' : List (Tagged α (Row α ν κ)))
    (h : Execution bundle.length threads (kRay K T maxsteps maxEvents recordEvery bundle) es)
    (h' : Execution bundle.length threads' (kRay K T maxsteps maxEvents' recordEvery' bundle) es') :
    (Mem.exec es).merged threads = (Mem.exec es').merged threads' := by
  have key : ∀ {M : Type} [AddCommMonoid M] (f : Effect α (Row α ν κ) → M),
      (∀ i r, f (.write i r) = 0) → (∀ i n, f (.count i n) = 0) →
      (es.map fun e => f e.effect).sum = (es'.map fun e => f e.effect).sum := by
    intro M _ f hw hc
    rw [Execution.sum_eq h, Execution.sum_eq h']
    refine Finset.sum_congr rfl fun i hi => ?_
    have hi := Finset.mem_range.1 hi
    obtain ⟨l, hl⟩ : ∃ l, bundle[i]? = some l := ⟨_, List.getElem?_eq_getElem hi⟩
    rw [sum_talliesOf f hw hc, sum_talliesOf f hw hc (kRay K T maxsteps maxEvents' _ bundle i),
      tallies_eq K T maxsteps maxEvents recordEvery bundle hb i l hl,
      tallies_eq K T maxsteps maxEvents' recordEvery' bundle hb' i l hl]
  obtain ⟨a1, a2, a3, a4⟩ := merged_exec threads es h.tid_lt
  obtain ⟨b1, b2, b3, b4⟩ := merged_exec threads' es' h'.tid_lt
  have f1 : ((Mem.exec es).merged threads).distinct = ((Mem.exec es').merged threads').distinct := by
    rw [a1, b1]; exact funext fun k => key _ (fun _ _ => rfl) (fun _ _ => rfl)
  have f2 : ((Mem.exec es).merged threads).cross = ((Mem.exec es').merged threads').cross := by
    rw [a2, b2]; exact funext fun k => key _ (fun _ _ => rfl) (fun _ _ => rfl)
  have f3 : ((Mem.exec es).merged threads).sums = ((Mem.exec es').merged threads').sums := by
    rw [a3, b3]; exact funext fun k => key _ (fun _ _ => rfl) (fun _ _ => rfl)
  have f4 : ((Mem.exec es).merged threads).bins = ((Mem.exec es').merged threads').bins := by
    rw [a4, b4]; exact funext fun k => key _ (fun _ _ => rfl) (fun _ _ => rfl)
  generalize (Mem.exec es).merged threads = A at *
  generalize (Mem.exec es').merged threads' = B at *
  obtain ⟨_, _, _, _⟩ := A
  obtain ⟨_, _, _, _⟩ := B
  simp only at f1 f2 f3 f4
  rw [f1, f2, f3, f4]

/-- `max_events >= 2 * maxsteps + 5` always suffices. -/
theorem large_budget_suffices (K : KOps α ν κ σ) (maxsteps maxEvents recordEvery : ℕ)
    (bundle : List (Launch α κ σ)) (h : 2 * maxsteps + 5 ≤ maxEvents) :
    BudgetSuffices K maxsteps maxEvents recordEvery bundle :=
  .inr fun l _ => by have := (full_history_complete K maxsteps l).2; omega

/-- C12 is violated: the same three rays are counted as killed without histories, and not counted
when histories with four events each are kept. -/
theorem budget_changes_tallies :
    let run (maxEvents recordEvery : ℕ) : Acc ℚ := (Mem.exec ((List.range 3).flatMap fun i =>
      (kRay fog oneRecorder 10 maxEvents recordEvery three i).map fun e => ⟨i, 0, e⟩)).merged 1
    (run 4 0).distinct 0 = 3 ∧ (run 4 1).distinct 0 = 0 ∧ (run 4 2).distinct 0 = 1 ∧
    (run 25 1).distinct 0 = 3 := by
  decide +kernel

end PV.Budget
