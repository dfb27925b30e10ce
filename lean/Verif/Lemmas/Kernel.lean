import Verif.Model.Kernel
import Mathlib.Tactic.Common
import Mathlib.Tactic.Ring
import Mathlib.Data.List.Basic

namespace PV
set_option linter.unusedSectionVars false
variable {α ν κ σ : Type} [Field α] [LinearOrder α] [FloorRing α] [DecidableEq ν]

/-- All calls of `record` and `tally` the loop makes when there is no event budget. -/
def kTrace (K : KOps α ν κ σ) (maxsteps : ℕ) : ℕ → ℕ → KRay α κ → σ → List (KOut α ν κ)
  | 0, _, _, _ => []
  | fuel + 1, count, ray, s =>
    let b := kBody K maxsteps (count + 1) ray s
    match b.2 with
    | .stop => b.1
    | .cont ray s => b.1 ++ kTrace K maxsteps fuel (count + 1) ray s

/-- Rows of the `record` calls. -/
def rowsOf (os : List (KOut α ν κ)) : List (Row α ν κ) :=
  os.filterMap fun o => match o with | .record r => some r | .tally _ => none

/-- Calls of `tally`. -/
def callsOf (os : List (KOut α ν κ)) : List (TallyCall α ν) :=
  os.filterMap fun o => match o with | .record _ => none | .tally c => some c

@[simp] theorem rowsOf_nil : rowsOf ([] : List (KOut α ν κ)) = [] := rfl
@[simp] theorem rowsOf_record (r : Row α ν κ) (os : List (KOut α ν κ)) :
    rowsOf (.record r :: os) = r :: rowsOf os := rfl
@[simp] theorem rowsOf_tally (c : TallyCall α ν) (os : List (KOut α ν κ)) :
    rowsOf (.tally c :: os) = rowsOf os := rfl
@[simp] theorem rowsOf_append (a b : List (KOut α ν κ)) : rowsOf (a ++ b) = rowsOf a ++ rowsOf b := by
  simp [rowsOf]
@[simp] theorem callsOf_nil : callsOf ([] : List (KOut α ν κ)) = [] := rfl
@[simp] theorem callsOf_record (r : Row α ν κ) (os : List (KOut α ν κ)) :
    callsOf (.record r :: os) = callsOf os := rfl
@[simp] theorem callsOf_tally (c : TallyCall α ν) (os : List (KOut α ν κ)) :
    callsOf (.tally c :: os) = c :: callsOf os := rfl
@[simp] theorem callsOf_append (a b : List (KOut α ν κ)) :
    callsOf (a ++ b) = callsOf a ++ callsOf b := by
  simp [callsOf]

/-- The log writes among effects. -/
def writesOf {ρ : Type} (es : List (Effect α ρ)) : List (ℕ × ρ) :=
  es.filterMap fun e => match e with | .write i r => some (i, r) | _ => none

/-- The effects that concern recorders. -/
def talliesOf {ρ : Type} (es : List (Effect α ρ)) : List (Effect α ρ) :=
  es.filter fun e => match e with | .write _ _ => false | .count _ _ => false | _ => true

@[simp] theorem writesOf_append {ρ : Type} (a b : List (Effect α ρ)) :
    writesOf (a ++ b) = writesOf a ++ writesOf b := by simp [writesOf]
@[simp] theorem talliesOf_append {ρ : Type} (a b : List (Effect α ρ)) :
    talliesOf (a ++ b) = talliesOf a ++ talliesOf b := by simp [talliesOf]

/-- A pass makes at most two records. -/
theorem kBody_rows_le (K : KOps α ν κ σ) (maxsteps count : ℕ) (ray : KRay α κ) (s : σ) :
    (rowsOf (kBody K maxsteps count ray s).1).length ≤ 2 := by
  unfold kBody
  cases K.nextHit ray.position ray.direction with
  | none => simp
  | some h =>
    obtain ⟨hit, container, adjacent, t0⟩ := h
    dsimp only
    split_ifs
    · simp
    · simp
    · cases isAbsorbed (K.depth container ray.wavelength s).1 t0 with
      | some d =>
        dsimp only
        unfold kAbsorb
        dsimp only
        split_ifs <;> simp
      | none =>
        dsimp only
        unfold kSurface
        cases adjacent with
        | none => simp
        | some a => dsimp only; split_ifs <;> simp

/-- A pass beyond `maxsteps` stops. -/
theorem kBody_stops (K : KOps α ν κ σ) {maxsteps count : ℕ} (h : maxsteps < count)
    (ray : KRay α κ) (s : σ) : (kBody K maxsteps count ray s).2 = .stop := by
  unfold kBody
  cases K.nextHit ray.position ray.direction with
  | none => rfl
  | some h' =>
    obtain ⟨hit, container, adjacent, t0⟩ := h'
    dsimp only
    rw [if_pos h]

theorem kTrace_fuel (K : KOps α ν κ σ) (maxsteps : ℕ) :
    ∀ (fuel count : ℕ) (ray : KRay α κ) (s : σ), maxsteps + 1 ≤ fuel + count → 0 < fuel →
      ∀ fuel', fuel ≤ fuel' →
      kTrace K maxsteps fuel' count ray s = kTrace K maxsteps fuel count ray s := by
  intro fuel
  induction fuel with
  | zero => intro _ _ _ _ h; omega
  | succ fuel ih =>
    intro count ray s h _ fuel' hf
    obtain ⟨f, rfl⟩ : ∃ f, fuel' = f + 1 := ⟨fuel' - 1, by omega⟩
    simp only [kTrace]
    cases hb : (kBody K maxsteps (count + 1) ray s).2 with
    | stop => rfl
    | cont ray' s' =>
      dsimp only
      have hc : ¬ maxsteps < count + 1 := fun hc => by
        rw [kBody_stops K hc] at hb; cases hb
      rw [ih (count + 1) ray' s' (by omega) (by omega) f (by omega)]

theorem kLoop_fuel (K : KOps α ν κ σ) (T : RecTables α ν) (slot : LogSlot) (maxsteps : ℕ) :
    ∀ (fuel count nev : ℕ) (seen : ℕ → Bool) (ray : KRay α κ) (s : σ),
      maxsteps + 1 ≤ fuel + count → 0 < fuel → ∀ fuel', fuel ≤ fuel' →
      kLoop K T slot maxsteps fuel' count nev seen ray s =
        kLoop K T slot maxsteps fuel count nev seen ray s := by
  intro fuel
  induction fuel with
  | zero => intro _ _ _ _ _ _ h; omega
  | succ fuel ih =>
    intro count nev seen ray s h _ fuel' hf
    obtain ⟨f, rfl⟩ : ∃ f, fuel' = f + 1 := ⟨fuel' - 1, by omega⟩
    simp only [kLoop]
    split_ifs
    · rfl
    cases hb : (kBody K maxsteps (count + 1) ray s).2 with
    | stop => rfl
    | cont ray' s' =>
      dsimp only
      have hc : ¬ maxsteps < count + 1 := fun hc => by
        rw [kBody_stops K hc] at hb; cases hb
      rw [ih (count + 1) _ _ ray' s' (by omega) (by omega) f (by omega)]

/-- The trace of at most `2 * (maxsteps + 1)` records. -/
theorem kTrace_rows_le (K : KOps α ν κ σ) (maxsteps : ℕ) :
    ∀ (fuel count : ℕ) (ray : KRay α κ) (s : σ),
      (rowsOf (kTrace K maxsteps fuel count ray s)).length ≤ 2 * fuel := by
  intro fuel
  induction fuel with
  | zero => intros; simp [kTrace]
  | succ fuel ih =>
    intro count ray s
    simp only [kTrace]
    have := kBody_rows_le K maxsteps (count + 1) ray s
    cases hb : (kBody K maxsteps (count + 1) ray s).2 with
    | stop => dsimp only; omega
    | cont ray' s' =>
      dsimp only
      rw [rowsOf_append, List.length_append]
      have := ih (count + 1) ray' s'
      omega

/-! ### Effects of the calls of a pass -/

theorem writesOf_kTallyFrom {ρ : Type} (T : RecTables α ν) (c : TallyCall α ν) :
    ∀ (rs : List (RecRow α ν)) (i : ℕ) (seen : ℕ → Bool),
      writesOf (kTallyFrom (ρ := ρ) T c rs i seen).1 = [] ∧
      talliesOf (kTallyFrom (ρ := ρ) T c rs i seen).1 = (kTallyFrom (ρ := ρ) T c rs i seen).1 := by
  intro rs
  induction rs with
  | nil => intros; exact ⟨rfl, rfl⟩
  | cons r rs ih =>
    intro i seen
    simp only [kTallyFrom]
    have hb : ∀ v : Values α, writesOf (kBins (ρ := ρ) T r v) = [] ∧
        talliesOf (kBins (ρ := ρ) T r v) = kBins (ρ := ρ) T r v := by
      intro v
      have hall : ∀ e ∈ kBins (ρ := ρ) T r v, ∃ k, e = .bin k := by
        intro e he
        unfold kBins at he
        obtain ⟨h, _, hh⟩ := List.mem_filterMap.1 he
        cases hT : T.hists[h]? with
        | none => rw [hT] at hh; cases hh
        | some row =>
          rw [hT] at hh; dsimp only at hh
          cases hk : kHistBin row v with
          | none => rw [hk] at hh; cases hh
          | some k => rw [hk] at hh; exact ⟨k, by simpa using hh.symm⟩
      constructor
      · unfold writesOf
        rw [List.filterMap_eq_nil_iff]
        intro e he
        obtain ⟨k, rfl⟩ := hall e he
        rfl
      · unfold talliesOf
        rw [List.filter_eq_self]
        intro e he
        obtain ⟨k, rfl⟩ := hall e he
        rfl
    have h1 : writesOf (kTallyOne (ρ := ρ) T c r i seen).1 = [] ∧
        talliesOf (kTallyOne (ρ := ρ) T c r i seen).1 = (kTallyOne (ρ := ρ) T c r i seen).1 := by
      unfold kTallyOne
      split_ifs
      · exact ⟨rfl, rfl⟩
      · have e : ∀ l : List (Effect α ρ),
            (.cross i :: .distinct i :: (kSums i c.values ++ l) : List (Effect α ρ)) =
            (.cross i :: .distinct i :: kSums i c.values) ++ l := fun l => rfl
        simp only [e]
        rw [writesOf_append, talliesOf_append, (hb c.values).1, (hb c.values).2]
        exact ⟨rfl, rfl⟩
      · exact ⟨rfl, rfl⟩
    rw [writesOf_append, talliesOf_append, h1.1, h1.2, (ih _ _).1, (ih _ _).2]
    exact ⟨rfl, rfl⟩

/-- `tally` applied to a list of calls. -/
def kTallies {ρ : Type} (T : RecTables α ν) : List (TallyCall α ν) → (ℕ → Bool) →
    List (Effect α ρ) × (ℕ → Bool)
  | [], seen => ([], seen)
  | c :: cs, seen =>
    let w := kTally T c seen
    let r := kTallies T cs w.2
    (w.1 ++ r.1, r.2)

theorem kTallies_append {ρ : Type} (T : RecTables α ν) (a b : List (TallyCall α ν))
    (seen : ℕ → Bool) :
    kTallies (ρ := ρ) T (a ++ b) seen =
      ((kTallies (ρ := ρ) T a seen).1 ++ (kTallies (ρ := ρ) T b (kTallies (ρ := ρ) T a seen).2).1,
        (kTallies (ρ := ρ) T b (kTallies (ρ := ρ) T a seen).2).2) := by
  induction a generalizing seen with
  | nil => rfl
  | cons c a ih => simp [kTallies, ih, List.append_assoc]

/-- The writes of a list of record calls that fit, the number of events afterwards. -/
def kRecords {ρ : Type} : LogSlot → ℕ → List ρ → List (ℕ × ρ)
  | none, _, _ => []
  | some (base, m), nev, rows => ((rows.take (m - nev)).zipIdx (base + nev)).map fun p => (p.2, p.1)

/-- Number of events after recording `n` rows. -/
def nevAfter : LogSlot → ℕ → ℕ → ℕ
  | none, nev, _ => nev
  | some (_, m), nev, n => nev + min n (m - nev)

theorem kRun_eq (T : RecTables α ν) (slot : LogSlot) :
    ∀ (os : List (KOut α ν κ)) (nev : ℕ) (seen : ℕ → Bool),
      writesOf (kRun T slot os nev seen).1 = kRecords slot nev (rowsOf os) ∧
      talliesOf (kRun T slot os nev seen).1 =
        (kTallies (ρ := Row α ν κ) T (callsOf os) seen).1 ∧
      (kRun T slot os nev seen).2.1 = nevAfter slot nev (rowsOf os).length ∧
      (kRun T slot os nev seen).2.2 = (kTallies (ρ := Row α ν κ) T (callsOf os) seen).2 := by
  intro os
  induction os with
  | nil =>
    intro nev seen
    cases slot <;> simp [kRun, kRecords, nevAfter, kTallies, writesOf, talliesOf]
  | cons o os ih =>
    intro nev seen
    cases o with
    | tally c =>
      obtain ⟨h1, h2, h3, h4⟩ := ih nev (kTally (ρ := Row α ν κ) T c seen).2
      have hw := writesOf_kTallyFrom (ρ := Row α ν κ) T c T.recs 0 seen
      simp only [kRun, writesOf_append, talliesOf_append, h1, h2, h3, h4, rowsOf_tally,
        callsOf_tally, kTallies]
      unfold kTally
      rw [hw.1, hw.2]
      refine ⟨?_, ?_, ?_, ?_⟩ <;> first | rfl | trivial
    | record row =>
      cases slot with
      | none =>
        obtain ⟨h1, h2, h3, h4⟩ := ih nev seen
        simp only [kRun, kRecord, List.nil_append, h1, h2, h3, h4, callsOf_record, kRecords,
          nevAfter, and_self]
      | some p =>
        obtain ⟨base, m⟩ := p
        simp only [kRun, kRecord]
        by_cases hm : nev ≥ m
        · obtain ⟨h1, h2, h3, h4⟩ := ih nev seen
          rw [if_pos hm]
          have : m - nev = 0 := by omega
          simp only [List.nil_append, h1, h2, h3, h4, callsOf_record, rowsOf_record, kRecords,
            nevAfter, this]
          simp
        · obtain ⟨h1, h2, h3, h4⟩ := ih (nev + 1) seen
          rw [if_neg hm]
          obtain ⟨j, hj⟩ : ∃ j, m - nev = j + 1 := ⟨m - nev - 1, by omega⟩
          have hj' : m - (nev + 1) = j := by omega
          simp only [writesOf_append, talliesOf_append, h1, h2, h3, h4, callsOf_record,
            rowsOf_record, kRecords, nevAfter, hj, hj']
          refine ⟨?_, rfl, ?_, trivial⟩
          · simp [writesOf, List.take_succ_cons, List.zipIdx_cons, add_assoc]
          · simp only [List.length_cons]
            omega

/-! ### The loop -/

/-- Without a log the loop tallies the whole trace and writes nothing. -/
theorem kLoop_none (K : KOps α ν κ σ) (T : RecTables α ν) (maxsteps : ℕ) :
    ∀ (fuel count nev : ℕ) (seen : ℕ → Bool) (ray : KRay α κ) (s : σ),
      writesOf (kLoop K T none maxsteps fuel count nev seen ray s).1 = [] ∧
      talliesOf (kLoop K T none maxsteps fuel count nev seen ray s).1 =
        (kTallies (ρ := Row α ν κ) T (callsOf (kTrace K maxsteps fuel count ray s)) seen).1 ∧
      (kLoop K T none maxsteps fuel count nev seen ray s).2 = nev := by
  intro fuel
  induction fuel with
  | zero => intros; simp [kLoop, kTrace, writesOf, talliesOf, kTallies]
  | succ fuel ih =>
    intro count nev seen ray s
    obtain ⟨h1, h2, h3, h4⟩ := kRun_eq T none (kBody K maxsteps (count + 1) ray s).1 nev seen
    simp only [kLoop, kTrace, kExhausted, Bool.false_eq_true, if_false]
    cases hb : (kBody K maxsteps (count + 1) ray s).2 with
    | stop => exact ⟨h1, h2, h3⟩
    | cont ray' s' =>
      dsimp only
      obtain ⟨g1, g2, g3⟩ := ih (count + 1)
        (kRun T none (kBody K maxsteps (count + 1) ray s).1 nev seen).2.1
        (kRun T none (kBody K maxsteps (count + 1) ray s).1 nev seen).2.2 ray' s'
      rw [writesOf_append, talliesOf_append, h1, h2, g1, g2, g3, h4, h3, callsOf_append,
        kTallies_append]
      exact ⟨rfl, rfl, rfl⟩

/-- The calls made before the event budget stops the ray, and the ray then, if it does. -/
def kCut (K : KOps α ν κ σ) (maxsteps m : ℕ) :
    ℕ → ℕ → ℕ → KRay α κ → σ → List (KOut α ν κ) × Option (KRay α κ)
  | 0, _, _, _, _ => ([], none)
  | fuel + 1, count, nev, ray, s =>
    if nev + 1 ≥ m then ([], some ray)
    else
      let b := kBody K maxsteps (count + 1) ray s
      match b.2 with
      | .stop => (b.1, none)
      | .cont ray s =>
        let r := kCut K maxsteps m fuel (count + 1) (nev + (rowsOf b.1).length) ray s
        (b.1 ++ r.1, r.2)

/-- The row written when the budget is exhausted. -/
def budgetKill (ray : KRay α κ) : Row α ν κ := ⟨.kill, none, none, none, none, ray, none⟩

theorem kCut_fits (K : KOps α ν κ σ) (maxsteps m : ℕ) :
    ∀ (fuel count nev : ℕ) (ray : KRay α κ) (s : σ), nev ≤ m →
      nev + (rowsOf (kCut K maxsteps m fuel count nev ray s).1).length ≤ m ∧
      ((kCut K maxsteps m fuel count nev ray s).2.isSome →
        m ≤ nev + (rowsOf (kCut K maxsteps m fuel count nev ray s).1).length + 1) := by
  intro fuel
  induction fuel with
  | zero => intro count nev ray s h; simp [kCut, h]
  | succ fuel ih =>
    intro count nev ray s h
    have hle := kBody_rows_le K maxsteps (count + 1) ray s
    simp only [kCut]
    by_cases hm : nev + 1 ≥ m
    · rw [if_pos hm]
      simp only [rowsOf_nil, List.length_nil, add_zero]
      exact ⟨h, fun _ => hm⟩
    · rw [if_neg hm]
      cases hb : (kBody K maxsteps (count + 1) ray s).2 with
      | stop => simp only [Option.isSome_none, Bool.false_eq_true, false_implies, and_true]; omega
      | cont ray' s' =>
        dsimp only
        obtain ⟨i1, i2⟩ := ih (count + 1)
          (nev + (rowsOf (kBody K maxsteps (count + 1) ray s).1).length) ray' s' (by omega)
        rw [rowsOf_append, List.length_append]
        exact ⟨by omega, fun h => by have := i2 h; omega⟩

/-- The calls before the cut are a prefix of the whole trace, all of it if there is no cut. -/
theorem kCut_prefix (K : KOps α ν κ σ) (maxsteps m : ℕ) :
    ∀ (fuel count nev : ℕ) (ray : KRay α κ) (s : σ),
      (kCut K maxsteps m fuel count nev ray s).1 <+: kTrace K maxsteps fuel count ray s ∧
      ((kCut K maxsteps m fuel count nev ray s).2 = none →
        (kCut K maxsteps m fuel count nev ray s).1 = kTrace K maxsteps fuel count ray s) := by
  intro fuel
  induction fuel with
  | zero => intros; simp [kCut, kTrace]
  | succ fuel ih =>
    intro count nev ray s
    simp only [kCut, kTrace]
    by_cases hm : nev + 1 ≥ m
    · rw [if_pos hm]; simp
    · rw [if_neg hm]
      cases hb : (kBody K maxsteps (count + 1) ray s).2 with
      | stop => simp
      | cont ray' s' =>
        dsimp only
        obtain ⟨i1, i2⟩ := ih (count + 1)
          (nev + (rowsOf (kBody K maxsteps (count + 1) ray s).1).length) ray' s'
        exact ⟨(List.prefix_append_right_inj _).2 i1, fun h => by rw [i2 h]⟩

theorem kRecords_append {ρ : Type} (base m nev : ℕ) (a b : List ρ) (h : nev + a.length ≤ m) :
    kRecords (some (base, m)) nev (a ++ b) =
      kRecords (some (base, m)) nev a ++ kRecords (some (base, m)) (nev + a.length) b := by
  have h1 : a.length ≤ m - nev := by omega
  simp only [kRecords]
  rw [List.take_append, List.take_of_length_le h1, List.zipIdx_append, List.map_append]
  congr 3
  · congr 1
    omega
  · omega

/-- With a log the loop executes the calls up to the cut and then tries to record a KILL. -/
theorem kLoop_some (K : KOps α ν κ σ) (T : RecTables α ν) (base m maxsteps : ℕ) :
    ∀ (fuel count nev : ℕ) (seen : ℕ → Bool) (ray : KRay α κ) (s : σ), nev ≤ m →
      let cut := kCut K maxsteps m fuel count nev ray s
      let rows := rowsOf cut.1 ++ (cut.2.map budgetKill).toList
      writesOf (kLoop K T (some (base, m)) maxsteps fuel count nev seen ray s).1 =
        kRecords (some (base, m)) nev rows ∧
      talliesOf (kLoop K T (some (base, m)) maxsteps fuel count nev seen ray s).1 =
        (kTallies (ρ := Row α ν κ) T (callsOf cut.1) seen).1 ∧
      (kLoop K T (some (base, m)) maxsteps fuel count nev seen ray s).2 =
        min m (nev + rows.length) := by
  intro fuel
  induction fuel with
  | zero =>
    intro count nev seen ray s h
    simp [kLoop, kCut, writesOf, talliesOf, kTallies, kRecords, h]
  | succ fuel ih =>
    intro count nev seen ray s h
    simp only [kLoop, kCut, kExhausted, decide_eq_true_eq]
    by_cases hm : nev + 1 ≥ m
    · rw [if_pos hm, if_pos hm]
      simp only [rowsOf_nil, callsOf_nil, Option.map_some, Option.toList, List.nil_append,
        kTallies, kRecord]
      by_cases hn : nev ≥ m
      · have : m - nev = 0 := by omega
        rw [if_pos hn]
        simp only [kRecords, this, writesOf, talliesOf, List.length_cons, List.length_nil]
        refine ⟨by simp, by simp, by omega⟩
      · have : m - nev = 1 := by omega
        rw [if_neg hn]
        simp only [kRecords, this, writesOf, talliesOf, List.length_cons, List.length_nil]
        refine ⟨by simp [budgetKill], by simp, by omega⟩
    · rw [if_neg hm, if_neg hm]
      have hle := kBody_rows_le K maxsteps (count + 1) ray s
      obtain ⟨h1, h2, h3, h4⟩ :=
        kRun_eq T (some (base, m)) (kBody K maxsteps (count + 1) ray s).1 nev seen
      have hnev : nevAfter (some (base, m)) nev
          (rowsOf (kBody K maxsteps (count + 1) ray s).1).length =
          nev + (rowsOf (kBody K maxsteps (count + 1) ray s).1).length := by
        simp only [nevAfter]; omega
      rw [hnev] at h3
      cases hb : (kBody K maxsteps (count + 1) ray s).2 with
      | stop =>
        simp only [Option.map_none, Option.toList, List.append_nil]
        refine ⟨h1, h2, ?_⟩
        rw [h3]; omega
      | cont ray' s' =>
        dsimp only
        obtain ⟨g1, g2, g3⟩ := ih (count + 1)
          (nev + (rowsOf (kBody K maxsteps (count + 1) ray s).1).length)
          (kRun T (some (base, m)) (kBody K maxsteps (count + 1) ray s).1 nev seen).2.2 ray' s'
          (by omega)
        rw [writesOf_append, talliesOf_append, h1, h2, h3, g1, g2, g3, rowsOf_append,
          callsOf_append, kTallies_append, h4]
        refine ⟨?_, rfl, ?_⟩
        · rw [List.append_assoc, kRecords_append base m nev
            (rowsOf (kBody K maxsteps (count + 1) ray s).1) _ (by omega)]
        simp only [List.length_append]
        omega

end PV
