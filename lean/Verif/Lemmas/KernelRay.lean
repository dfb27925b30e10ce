import Verif.Lemmas.Kernel

namespace PV
set_option linter.unusedSectionVars false
variable {α ν κ σ : Type} [Field α] [LinearOrder α] [FloorRing α] [DecidableEq ν]

/-- The row of the GENERATE event. -/
def generateRow (ray : KRay α κ) : Row α ν κ := ⟨.generate, none, none, none, none, ray, none⟩

/-- The cut of a recorded ray. -/
def rayCut (K : KOps α ν κ σ) (maxsteps m : ℕ) (l : Launch α κ σ) :
    List (KOut α ν κ) × Option (KRay α κ) :=
  kCut K maxsteps m (maxsteps + 1) 0 (min 1 m) l.ray l.rng

/-- The calls of a ray without an event budget. -/
def rayTrace (K : KOps α ν κ σ) (maxsteps : ℕ) (l : Launch α κ σ) : List (KOut α ν κ) :=
  kTrace K maxsteps (maxsteps + 1) 0 l.ray l.rng

/-- The rows a recorded ray tries to record. -/
def rayRows (K : KOps α ν κ σ) (maxsteps m : ℕ) (l : Launch α κ σ) : List (Row α ν κ) :=
  generateRow l.ray :: (rowsOf (rayCut K maxsteps m l).1 ++
    ((rayCut K maxsteps m l).2.map budgetKill).toList)

theorem kTraceOne_none (K : KOps α ν κ σ) (T : RecTables α ν) (maxsteps : ℕ)
    (l : Launch α κ σ) :
    writesOf (kTraceOne K T none maxsteps l.ray l.rng).1 = [] ∧
    talliesOf (kTraceOne K T none maxsteps l.ray l.rng).1 =
      (kTallies (ρ := Row α ν κ) T (callsOf (rayTrace K maxsteps l)) fun _ => false).1 := by
  obtain ⟨h1, h2, _⟩ := kLoop_none K T maxsteps (maxsteps + 1) 0 0 (fun _ => false) l.ray l.rng
  simp only [kTraceOne, kRecord, List.nil_append]
  exact ⟨h1, h2⟩

theorem kTraceOne_some (K : KOps α ν κ σ) (T : RecTables α ν) (base m maxsteps : ℕ)
    (l : Launch α κ σ) :
    writesOf (kTraceOne K T (some (base, m)) maxsteps l.ray l.rng).1 =
      kRecords (some (base, m)) 0 (rayRows K maxsteps m l) ∧
    talliesOf (kTraceOne K T (some (base, m)) maxsteps l.ray l.rng).1 =
      (kTallies (ρ := Row α ν κ) T (callsOf (rayCut K maxsteps m l).1) fun _ => false).1 ∧
    (kTraceOne K T (some (base, m)) maxsteps l.ray l.rng).2 =
      min m (rayRows K maxsteps m l).length := by
  simp only [kTraceOne, kRecord, rayRows, rayCut]
  by_cases hm : 0 ≥ m
  · have hm0 : m = 0 := by omega
    subst hm0
    obtain ⟨h1, h2, h3⟩ := kLoop_some K T base 0 maxsteps (maxsteps + 1) 0 0 (fun _ => false)
      l.ray l.rng le_rfl
    rw [if_pos hm]
    simp only [List.nil_append, Nat.min_zero]
    refine ⟨?_, h2, ?_⟩
    · rw [h1]; simp [kRecords]
    · rw [h3]; simp
  · obtain ⟨h1, h2, h3⟩ := kLoop_some K T base m maxsteps (maxsteps + 1) 0 1 (fun _ => false)
      l.ray l.rng (by omega)
    rw [if_neg hm]
    have h1m : min 1 m = 1 := by omega
    simp only [h1m]
    refine ⟨?_, ?_, ?_⟩
    · rw [writesOf_append, h1]
      have := kRecords_append base m 0 [generateRow (ν := ν) l.ray]
        (rowsOf (kCut K maxsteps m (maxsteps + 1) 0 1 l.ray l.rng).1 ++
          ((kCut K maxsteps m (maxsteps + 1) 0 1 l.ray l.rng).2.map budgetKill).toList)
        (by simp; omega)
      rw [List.singleton_append] at this
      rw [this]
      obtain ⟨j, hj⟩ : ∃ j, m = j + 1 := ⟨m - 1, by omega⟩
      subst hj
      simp [kRecords, writesOf, generateRow]
    · rw [talliesOf_append, h2]; rfl
    · rw [h3]; simp only [List.length_cons]; omega

/-- The number of rows a recorded ray tries to record. -/
theorem rayRows_length (K : KOps α ν κ σ) (maxsteps m : ℕ) (l : Launch α κ σ) :
    (rayRows K maxsteps m l).length ≤ m + 2 ∧
      (m ≠ 0 → (rayRows K maxsteps m l).length ≤ m + 1) := by
  have := (kCut_fits K maxsteps m (maxsteps + 1) 0 (min 1 m) l.ray l.rng (by omega)).1
  have h2 : ((rayCut K maxsteps m l).2.map (budgetKill (ν := ν))).toList.length ≤ 1 := by
    cases (rayCut K maxsteps m l).2 <;> simp
  simp only [rayRows, List.length_cons, List.length_append]
  change min 1 m + (rowsOf (rayCut K maxsteps m l).1).length ≤ m at this
  constructor
  · omega
  · intro _; omega

/-- Log writes of ray `i`. -/
theorem kRay_writes (K : KOps α ν κ σ) (T : RecTables α ν) (maxsteps m re : ℕ)
    (bundle : List (Launch α κ σ)) (i : ℕ) (l : Launch α κ σ) (hl : bundle[i]? = some l) :
    writesOf (kRay K T maxsteps m re bundle i) =
      kRecords (slotOf re m i) 0 (rayRows K maxsteps m l) := by
  unfold kRay
  rw [hl]
  dsimp only
  unfold slotOf
  split_ifs with h
  · dsimp only
    rw [writesOf_append, (kTraceOne_some K T _ m maxsteps l).1]
    simp [writesOf]
  · dsimp only
    rw [(kTraceOne_none K T maxsteps l).1]
    rfl

/-- Recorder writes of ray `i`. -/
theorem kRay_tallies (K : KOps α ν κ σ) (T : RecTables α ν) (maxsteps m re : ℕ)
    (bundle : List (Launch α κ σ)) (i : ℕ) (l : Launch α κ σ) (hl : bundle[i]? = some l) :
    talliesOf (kRay K T maxsteps m re bundle i) =
      (kTallies (ρ := Row α ν κ) T (callsOf
        (if re > 0 ∧ i % re = 0 then (rayCut K maxsteps m l).1 else rayTrace K maxsteps l))
        fun _ => false).1 := by
  unfold kRay
  rw [hl]
  dsimp only
  unfold slotOf
  split_ifs with h
  · dsimp only
    rw [talliesOf_append, (kTraceOne_some K T _ m maxsteps l).2.1]
    simp [talliesOf]
  · dsimp only
    rw [(kTraceOne_none K T maxsteps l).2]

theorem kTallies_no_write {ρ : Type} (T : RecTables α ν) (cs : List (TallyCall α ν)) (seen : ℕ → Bool) :
    ∀ e ∈ (kTallies (ρ := ρ) T cs seen).1, (∀ i r, e ≠ .write i r) ∧ (∀ i n, e ≠ .count i n) := by
  induction cs generalizing seen with
  | nil => intro e he; cases he
  | cons c cs ih =>
    intro e he
    simp only [kTallies] at he
    rcases List.mem_append.1 he with he | he
    · have := (writesOf_kTallyFrom (ρ := ρ) T c T.recs 0 seen).2
      unfold kTally at he
      rw [← this] at he
      have h2 := (List.mem_filter.1 he).2
      cases e <;> simp_all
    · exact ih _ e he

/-- The entries of `counts` written by the calls of a pass, of the loop and of a trace. -/
theorem kRun_no_count (T : RecTables α ν) (slot : LogSlot) :
    ∀ (os : List (KOut α ν κ)) (nev : ℕ) (seen : ℕ → Bool),
      ∀ e ∈ (kRun T slot os nev seen).1, ∀ i n, e ≠ .count i n := by
  intro os
  induction os with
  | nil => intro _ _ e he; cases he
  | cons o os ih =>
    intro nev seen e he
    cases o with
    | tally c =>
      simp only [kRun] at he
      rcases List.mem_append.1 he with he | he
      · have := kTallies_no_write (ρ := Row α ν κ) T [c] seen e
          (by simpa [kTallies] using he)
        exact this.2
      · exact ih _ _ e he
    | record row =>
      simp only [kRun] at he
      rcases List.mem_append.1 he with he | he
      · unfold kRecord at he
        cases slot with
        | none => cases he
        | some p =>
          dsimp only at he
          split_ifs at he
          · cases he
          · intro i n hc; simp [hc] at he
      · exact ih _ _ e he

theorem kLoop_no_count (K : KOps α ν κ σ) (T : RecTables α ν) (slot : LogSlot) (maxsteps : ℕ) :
    ∀ (fuel count nev : ℕ) (seen : ℕ → Bool) (ray : KRay α κ) (s : σ),
      ∀ e ∈ (kLoop K T slot maxsteps fuel count nev seen ray s).1, ∀ i n, e ≠ .count i n := by
  intro fuel
  induction fuel with
  | zero => intro _ _ _ _ _ e he; cases he
  | succ fuel ih =>
    intro count nev seen ray s e he
    simp only [kLoop] at he
    split_ifs at he
    · dsimp only at he
      have := kRun_no_count T slot [.record (⟨.kill, none, none, none, none, ray, none⟩ : Row α ν κ)]
        nev seen e (by simpa [kRun] using he)
      exact this
    · cases hb : (kBody K maxsteps (count + 1) ray s).2 with
      | stop =>
        rw [hb] at he
        exact kRun_no_count T slot _ _ _ e he
      | cont ray' s' =>
        rw [hb] at he
        rcases List.mem_append.1 he with he | he
        · exact kRun_no_count T slot _ _ _ e he
        · exact ih _ _ _ _ _ e he

theorem kTraceOne_no_count (K : KOps α ν κ σ) (T : RecTables α ν) (slot : LogSlot) (maxsteps : ℕ)
    (ray : KRay α κ) (s : σ) :
    ∀ e ∈ (kTraceOne K T slot maxsteps ray s).1, ∀ i n, e ≠ .count i n := by
  intro e he
  simp only [kTraceOne] at he
  rcases List.mem_append.1 he with he | he
  · exact kRun_no_count T slot [.record (generateRow (ν := ν) ray)] 0 (fun _ => false) e
      (by simpa [kRun, generateRow] using he)
  · exact kLoop_no_count K T slot maxsteps _ _ _ _ _ _ e he

/-- The entries of `counts` written by ray `i`. -/
def countsOf {ρ : Type} (es : List (Effect α ρ)) : List (ℕ × ℕ) :=
  es.filterMap fun e => match e with | .count i n => some (i, n) | _ => none

theorem kRay_counts (K : KOps α ν κ σ) (T : RecTables α ν) (maxsteps m re : ℕ)
    (bundle : List (Launch α κ σ)) (i : ℕ) (l : Launch α κ σ) (hl : bundle[i]? = some l) :
    countsOf (kRay K T maxsteps m re bundle i) =
      if re > 0 ∧ i % re = 0 then [(i / re, min m (rayRows K maxsteps m l).length)] else [] := by
  have hnil : ∀ slot, countsOf (kTraceOne K T slot maxsteps l.ray l.rng).1 = [] := by
    intro slot
    unfold countsOf
    rw [List.filterMap_eq_nil_iff]
    intro e he
    have := kTraceOne_no_count K T slot maxsteps l.ray l.rng e he
    cases e <;> simp_all
  unfold kRay
  rw [hl]
  dsimp only
  unfold slotOf
  split_ifs with h
  · dsimp only
    unfold countsOf at hnil ⊢
    rw [List.filterMap_append, hnil, (kTraceOne_some K T _ m maxsteps l).2.2]
    simp
  · dsimp only
    rw [hnil]

end PV
