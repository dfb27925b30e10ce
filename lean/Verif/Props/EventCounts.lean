import Verif.Model.EventCounts
import Verif.Props.Budget
import Verif.Props.EventLog

/-!
C131: `event_counts()` counts what `histories()` shows, and the counts balance.
-/

namespace PV.EventCounts
open PV PV.Spec PV.EventLog PV.Budget
variable {α ν κ σ : Type} [Field α] [LinearOrder α] [IsStrictOrderedRing α] [FloorRing α]
  [DecidableEq ν]

/-- How often `event` occurs in a list of histories. -/
def shown (hs : List (List (Step α))) (event : Event) : ℕ :=
  (hs.map fun h => (h.map (·.event)).count event).sum

theorem code_injective : Function.Injective kernelCode := by
  intro a b h
  cases a <;> cases b <;> first | rfl | cases h

/-- The kinds of the logged rows, ray by ray. -/
def loggedKinds (K : KOps α ν κ σ) (T : RecTables α ν) (maxsteps m re : ℕ)
    (bundle : List (Launch α κ σ)) : List Event :=
  (List.range (nRecorded re bundle.length)).flatMap fun j =>
    (loggedRows (kRay K T maxsteps m re bundle (j * re))).map (·.kind)

theorem masked_eq (K : KOps α ν κ σ) (T : RecTables α ν) (maxsteps m re : ℕ)
    (bundle : List (Launch α κ σ)) (threads : ℕ) (es : List (Tagged α (Row α ν κ)))
    (h : Execution bundle.length threads (kRay K T maxsteps m re bundle) es) :
    maskedKinds (Mem.exec es) (nRecorded re bundle.length) m =
      (loggedKinds K T maxsteps m re bundle).map kernelCode := by
  unfold maskedKinds loggedKinds
  rw [List.map_flatMap]
  refine List.flatMap_congr fun j hj => ?_
  have hj := List.mem_range.1 hj
  obtain ⟨hre, hi⟩ := mul_lt_of_lt_nRecorded hj
  obtain ⟨l, hl⟩ : ∃ l, bundle[j * re]? = some l := ⟨_, List.getElem?_eq_getElem hi⟩
  obtain ⟨h1, h2⟩ := memory_of_ray K T maxsteps m re bundle threads es h j hj
  have hle : (Mem.exec es).counts j ≤ m := by
    rw [h1, logged_eq K T maxsteps m re bundle _ l hl hre (Nat.mul_mod_left j re),
      List.length_take]
    exact Nat.min_le_left _ _
  have hf : ((List.range m).filter fun k => k < (Mem.exec es).counts j) =
      List.range ((Mem.exec es).counts j) := by
    obtain ⟨d, hd⟩ := Nat.exists_eq_add_of_le hle
    rw [hd, List.range_add, List.filter_append, List.filter_eq_self.2, List.filter_eq_nil_iff.2,
      List.append_nil]
    · simp
    · simp
  rw [hf, List.map_map]
  apply List.ext_getElem?
  intro k
  rw [List.getElem?_map, List.getElem?_map]
  by_cases hk : k < (Mem.exec es).counts j
  · rw [List.getElem?_range hk, Option.map_some, h2 k hk]
    rw [h1] at hk
    rw [List.getElem?_eq_getElem hk]
    rfl
  · rw [List.getElem?_eq_none (by simpa using hk)]
    rw [h1] at hk
    rw [List.getElem?_eq_none (by simpa using hk)]
    rfl

/-- Reading the distinct codes of a list of events and their numbers. -/
theorem counter_of (ks : List Event) :
    ∃ c : List (Event × ℕ),
      (((ks.map kernelCode).dedup.insertionSort (· ≤ ·)).mapM fun v =>
        (eventOfCode v).map fun event => (event, (ks.map kernelCode).count v)) = some c ∧
      (c.map Prod.fst).Nodup ∧ ∀ e n, (e, n) ∈ c ↔ 0 < n ∧ n = ks.count e := by
  classical
  let g : ℕ → Event × ℕ := fun v =>
    ((eventOfCode v).getD .generate, (ks.map kernelCode).count v)
  have hmem : ∀ v, v ∈ (ks.map kernelCode).dedup.insertionSort (· ≤ ·) ↔ ∃ e ∈ ks, kernelCode e = v := by
    intro v
    rw [List.mem_insertionSort, List.mem_dedup, List.mem_map]
  have hcount : ∀ e, (ks.map kernelCode).count (kernelCode e) = ks.count e := fun e =>
    List.count_map_of_injective ks kernelCode code_injective e
  refine ⟨((ks.map kernelCode).dedup.insertionSort (· ≤ ·)).map g, mapM_some _ _ _ fun v hv => ?_, ?_,
    fun e n => ?_⟩
  · obtain ⟨e, _, rfl⟩ := (hmem v).1 hv
    simp only [g, code_round_trip, Option.map_some, Option.getD_some]
  · rw [List.map_map]
    refine List.Nodup.map_on ?_ ((List.perm_insertionSort _ _).nodup_iff.2 (List.nodup_dedup _))
    intro x hx y hy hxy
    obtain ⟨e, _, rfl⟩ := (hmem x).1 hx
    obtain ⟨e', _, rfl⟩ := (hmem y).1 hy
    simp only [g, Function.comp, code_round_trip, Option.getD_some] at hxy
    rw [hxy]
  · rw [List.mem_map]
    constructor
    · rintro ⟨v, hv, hg⟩
      obtain ⟨e', he', rfl⟩ := (hmem v).1 hv
      simp only [g, code_round_trip, Option.getD_some, hcount, Prod.mk.injEq] at hg
      obtain ⟨rfl, rfl⟩ := hg
      exact ⟨List.count_pos_iff.2 he', rfl⟩
    · rintro ⟨hn, rfl⟩
      refine ⟨kernelCode e, (hmem _).2 ⟨e, List.count_pos_iff.1 hn, rfl⟩, ?_⟩
      simp only [g, code_round_trip, Option.getD_some, hcount]

theorem lookup_of (c : List (Event × ℕ)) (f : Event → ℕ) (hn : (c.map Prod.fst).Nodup)
    (h : ∀ e n, (e, n) ∈ c ↔ 0 < n ∧ n = f e) (e : Event) : counterAt c e = f e := by
  unfold counterAt
  cases hl : c.lookup e with
  | some n =>
    have : (e, n) ∈ c := by
      clear h hn
      induction c with
      | nil => simp at hl
      | cons p c ih =>
        obtain ⟨a, b⟩ := p
        rw [List.lookup_cons] at hl
        by_cases hea : e = a
        · subst hea
          simp at hl
          subst hl
          exact List.mem_cons_self
        · have : (e == a) = false := by simpa using hea
          rw [this] at hl
          exact List.mem_cons_of_mem _ (ih hl)
    exact ((h e n).1 this).2
  | none =>
    have hnot := List.lookup_eq_none_iff.1 hl
    by_contra hne
    have hpos : 0 < f e := Nat.pos_of_ne_zero fun h0 => hne (by rw [h0]; rfl)
    have := hnot _ ((h e (f e)).2 ⟨hpos, rfl⟩)
    simp at this

/-- C131: for every number of threads and every schedule, `event_counts()` succeeds whenever
`histories()` does, lists each event at most once, and lists exactly the events that occur in the
histories with the number of times they occur there. -/
theorem counts_shown (K : KOps α ν κ σ) (T : RecTables α ν) (N : KNames ν κ)
    (maxsteps maxEvents recordEvery : ℕ) (bundle : List (Launch α κ σ))
    (sources : List (Option String)) (hs : sources.length = bundle.length) (threads : ℕ)
    (es : List (Tagged α (Row α ν κ)))
    (h : Execution bundle.length threads (kRay K T maxsteps maxEvents recordEvery bundle) es) :
    ∃ hist c, histories N (Mem.exec es) recordEvery maxEvents sources = some hist ∧
      eventCounts (Mem.exec es) (nRecorded recordEvery bundle.length) maxEvents = some c ∧
      (c.map Prod.fst).Nodup ∧
      (∀ e n, (e, n) ∈ c ↔ 0 < n ∧ n = shown hist e) ∧
      ∀ e, counterAt c e = shown hist e := by
  obtain ⟨c, h1, h2, h3⟩ := counter_of (loggedKinds K T maxsteps maxEvents recordEvery bundle)
  have hshow : ∀ e, shown ((List.range (nRecorded recordEvery bundle.length)).map fun j =>
        (loggedRows (kRay K T maxsteps maxEvents recordEvery bundle (j * recordEvery))).map
          (eventOf N ((sources[j * recordEvery]?).join))) e =
      (loggedKinds K T maxsteps maxEvents recordEvery bundle).count e := by
    intro e
    unfold shown loggedKinds
    rw [List.count_flatMap, List.map_map]
    congr 1
    refine List.map_congr_left fun j _ => ?_
    simp only [Function.comp, List.map_map]
    rfl
  refine ⟨_, c, histories_exact K T N maxsteps maxEvents recordEvery bundle sources hs threads es h,
    ?_, h2, fun e n => by rw [hshow]; exact h3 e n, fun e => by rw [hshow]; exact lookup_of c _ h2 h3 e⟩
  unfold eventCounts
  split_ifs with h0
  · have : loggedKinds K T maxsteps maxEvents recordEvery bundle = [] := by
      unfold loggedKinds; rw [h0]; rfl
    rw [this] at h1
    simpa using h1
  · dsimp only
    rw [masked_eq K T maxsteps maxEvents recordEvery bundle threads es h]
    exact h1

/-- Rows that balance: nothing is generated, everything absorbed is emitted, scattered, lost or used
up, and at most `ends` rows end a history. -/
structure Balanced (rows : List (Row α ν κ)) (ends : ℕ) : Prop where
  generate : (rows.map (·.kind)).count .generate = 0
  absorb : (rows.map (·.kind)).count .absorb =
    (rows.map (·.kind)).count .emit + (rows.map (·.kind)).count .scatter +
      (rows.map (·.kind)).count .nonradiative + (rows.map (·.kind)).count .react
  ended : (rows.map (·.kind)).count .exit + (rows.map (·.kind)).count .nonradiative +
      (rows.map (·.kind)).count .react + (rows.map (·.kind)).count .kill = ends

omit [IsStrictOrderedRing α] [FloorRing α] in
theorem kBody_balanced (K : KOps α ν κ σ) (maxsteps count : ℕ) (ray : KRay α κ) (s : σ) :
    ∃ ends, Balanced (rowsOf (kBody K maxsteps count ray s).1) ends ∧ ends ≤ 1 ∧
      (∀ ray' s', (kBody K maxsteps count ray s).2 = .cont ray' s' → ends = 0) ∧
      ((kBody K maxsteps count ray s).2 = .stop →
        K.nextHit ray.position ray.direction ≠ none → ends = 1) ∧
      (maxsteps < count → (kBody K maxsteps count ray s).2 = .stop) := by
  unfold kBody
  cases hx : K.nextHit ray.position ray.direction with
  | none => exact ⟨0, ⟨rfl, rfl, rfl⟩, by omega, by simp, by simp, by simp⟩
  | some h =>
    obtain ⟨hit, container, adjacent, t0⟩ := h
    dsimp only
    by_cases hc : count > maxsteps
    · rw [if_pos hc]
      exact ⟨1, ⟨rfl, rfl, rfl⟩, by omega, by simp, by simp, by simp⟩
    rw [if_neg hc]
    by_cases hr : hit = K.root
    · rw [if_pos hr]
      exact ⟨1, ⟨rfl, rfl, rfl⟩, by omega, by simp, by simp, by simp⟩
    rw [if_neg hr]
    cases isAbsorbed (K.depth container ray.wavelength s).1 t0 with
    | some d =>
      dsimp only
      unfold kAbsorb
      dsimp only
      split_ifs
      all_goals first
        | exact ⟨0, ⟨rfl, rfl, rfl⟩, by omega, by simp, by simp, fun h => absurd h hc⟩
        | exact ⟨1, ⟨rfl, rfl, rfl⟩, by omega, by simp, by simp, by simp⟩
    | none =>
      dsimp only
      unfold kSurface
      cases adjacent with
      | none => exact ⟨1, ⟨rfl, rfl, rfl⟩, by omega, by simp, by simp, by simp⟩
      | some a =>
        dsimp only
        split_ifs
        all_goals exact ⟨0, ⟨rfl, rfl, rfl⟩, by omega, by simp, by simp, fun h => absurd h hc⟩

omit [IsStrictOrderedRing α] in
theorem kCut_balanced (K : KOps α ν κ σ) (maxsteps m : ℕ) :
    ∀ (fuel count nev : ℕ) (ray : KRay α κ) (s : σ), nev ≤ m →
      ∃ ends, Balanced (rowsOf (kCut K maxsteps m fuel count nev ray s).1) ends ∧
        ends + (kCut K maxsteps m fuel count nev ray s).2.toList.length ≤ 1 ∧
        nev + (rowsOf (kCut K maxsteps m fuel count nev ray s).1).length ≤ m ∧
        (maxsteps < count + fuel → (∀ x d, K.nextHit x d ≠ none) → 0 < fuel →
          ends + (kCut K maxsteps m fuel count nev ray s).2.toList.length = 1) := by
  intro fuel
  induction fuel with
  | zero =>
    intro count nev ray s hm
    exact ⟨0, ⟨rfl, rfl, rfl⟩, by simp [kCut], by simpa [kCut] using hm,
      fun _ _ h => absurd h (by omega)⟩
  | succ fuel ih =>
    intro count nev ray s hm
    by_cases hn : nev + 1 ≥ m
    · have : kCut K maxsteps m (fuel + 1) count nev ray s = ([], some ray) := by
        simp only [kCut, if_pos hn]
      rw [this]
      exact ⟨0, ⟨rfl, rfl, rfl⟩, by simp, by simpa using hm, fun _ _ _ => by simp⟩
    have hle := kBody_rows_le K maxsteps (count + 1) ray s
    obtain ⟨a, ha, ha1, hac, has, haf⟩ := kBody_balanced K maxsteps (count + 1) ray s
    cases hb : (kBody K maxsteps (count + 1) ray s).2 with
    | stop =>
      have : kCut K maxsteps m (fuel + 1) count nev ray s =
          ((kBody K maxsteps (count + 1) ray s).1, none) := by
        simp only [kCut, if_neg hn, hb]
      rw [this]
      exact ⟨a, ha, by simpa using ha1, by dsimp only; omega, fun _ hx _ => by simp [has hb (hx _ _)]⟩
    | cont ray' s' =>
      obtain ⟨b, hbal, hb1, hb2, hbe⟩ := ih (count + 1)
        (nev + (rowsOf (kBody K maxsteps (count + 1) ray s).1).length) ray' s' (by omega)
      have h0 := hac _ _ hb
      subst h0
      have : kCut K maxsteps m (fuel + 1) count nev ray s =
          ((kBody K maxsteps (count + 1) ray s).1 ++ (kCut K maxsteps m fuel (count + 1)
            (nev + (rowsOf (kBody K maxsteps (count + 1) ray s).1).length) ray' s').1,
            (kCut K maxsteps m fuel (count + 1)
              (nev + (rowsOf (kBody K maxsteps (count + 1) ray s).1).length) ray' s').2) := by
        simp only [kCut, if_neg hn, hb]
      rw [this]
      refine ⟨b, ?_, hb1, ?_, fun hm hx _ => hbe (by omega) hx ?_⟩
      · simp only [rowsOf_append]
        obtain ⟨p1, p2, p3⟩ := ha
        obtain ⟨q1, q2, q3⟩ := hbal
        constructor <;> simp only [List.map_append, List.count_append] <;> omega
      · simp only [rowsOf_append, List.length_append]
        omega
      · by_contra hf
        have hlt : maxsteps < count + 1 := by omega
        rw [haf hlt] at hb
        cases hb

/-- What the rows of one recorded ray look like. -/
theorem ray_balanced (K : KOps α ν κ σ) (T : RecTables α ν) (maxsteps m re : ℕ)
    (bundle : List (Launch α κ σ)) (hm : 0 < m) (j : ℕ) (hj : j < nRecorded re bundle.length) :
    ∃ (rows : KRay α κ × List (Row α ν κ)) (ends : ℕ),
      loggedRows (kRay K T maxsteps m re bundle (j * re)) = generateRow rows.1 :: rows.2 ∧
      Balanced rows.2 ends ∧ ends ≤ 1 ∧
      (BudgetSuffices K maxsteps m re bundle → (∀ x d, K.nextHit x d ≠ none) → ends = 1) := by
  obtain ⟨hre, hi⟩ := mul_lt_of_lt_nRecorded hj
  obtain ⟨l, hl⟩ : ∃ l, bundle[j * re]? = some l := ⟨_, List.getElem?_eq_getElem hi⟩
  have h1 : min 1 m = 1 := by omega
  obtain ⟨ends, hbal, he, hlen, hf⟩ :=
    kCut_balanced K maxsteps m (maxsteps + 1) 0 1 l.ray l.rng (by omega)
  rw [logged_eq K T maxsteps m re bundle _ l hl hre (Nat.mul_mod_left j _)]
  have hfit : BudgetSuffices K maxsteps m re bundle → (rayCut K maxsteps m l).2 = none := by
    intro hb
    have hfits : (fullHistory K maxsteps l).length + 2 ≤ m := by
      rcases hb with hb | hb
      · omega
      · exact hb l (List.mem_of_getElem? hl)
    rw [fullHistory_eq, List.length_cons] at hfits
    rw [rayCut_fits K maxsteps m l (by omega)]
  unfold rayRows
  obtain ⟨n, rfl⟩ : ∃ n, m = n + 1 := ⟨m - 1, by omega⟩
  rw [List.take_succ_cons]
  have hcut : rayCut K maxsteps (n + 1) l =
      kCut K maxsteps (n + 1) (maxsteps + 1) 0 1 l.ray l.rng := by
    unfold rayCut; rw [h1]
  rw [hcut] at hfit ⊢
  generalize kCut K maxsteps (n + 1) (maxsteps + 1) 0 1 l.ray l.rng = cut at hbal he hlen hf hfit ⊢
  obtain ⟨calls, rest⟩ := cut
  dsimp only at hbal he hlen hf hfit ⊢
  cases rest with
  | none =>
    refine ⟨(l.ray, rowsOf calls), ends, ?_, hbal, by simpa using he,
      fun _ hx => by simpa using hf (by omega) hx (by omega)⟩
    simp only [Option.map_none, Option.toList_none, List.append_nil]
    rw [List.take_of_length_le (by omega)]
  | some r =>
    have h0 : ends = 0 := by simp at he; omega
    subst h0
    by_cases hfull : (rowsOf calls).length + 1 ≤ n
    · refine ⟨(l.ray, rowsOf calls ++ [budgetKill r]), 1, ?_, ?_, le_rfl, fun hb _ => rfl⟩
      · simp only [Option.map_some, Option.toList_some]
        rw [List.take_of_length_le (by simpa using hfull)]
      · obtain ⟨q1, q2, q3⟩ := hbal
        constructor <;>
          simp only [List.map_append, List.count_append, List.map_cons, List.map_nil, budgetKill,
            List.count_cons, List.count_nil] <;> simp <;> omega
    · refine ⟨(l.ray, rowsOf calls), 0, ?_, hbal, by omega, fun hb _ => by simpa using hfit hb⟩
      simp only [Option.map_some, Option.toList_some]
      rw [List.take_append_of_le_length (by omega), List.take_of_length_le (by omega)]

theorem counts_logged (K : KOps α ν κ σ) (T : RecTables α ν)
    (maxsteps maxEvents recordEvery : ℕ) (bundle : List (Launch α κ σ)) (threads : ℕ)
    (es : List (Tagged α (Row α ν κ)))
    (h : Execution bundle.length threads (kRay K T maxsteps maxEvents recordEvery bundle) es)
    (c : List (Event × ℕ))
    (hc : eventCounts (Mem.exec es) (nRecorded recordEvery bundle.length) maxEvents = some c)
    (e : Event) :
    counterAt c e = ((List.range (nRecorded recordEvery bundle.length)).map fun j =>
      ((loggedRows (kRay K T maxsteps maxEvents recordEvery bundle (j * recordEvery))).map
        (·.kind)).count e).sum := by
  obtain ⟨hist, c', h1, h2, _, _, h5⟩ := counts_shown K T ⟨fun _ => "", fun _ => ""⟩ maxsteps
    maxEvents recordEvery bundle (List.replicate bundle.length none) (by simp) threads es h
  rw [hc] at h2
  cases h2
  rw [h5, Option.some.inj (h1.symm.trans (histories_exact K T _ maxsteps maxEvents recordEvery bundle
    _ (by simp) threads es h))]
  unfold shown
  rw [List.map_map]
  congr 1
  refine List.map_congr_left fun j _ => ?_
  simp only [Function.comp, List.map_map]
  rfl

/-- C131, balance: whatever the event budget cuts off, the counts of `event_counts()` balance: one
generated event for each recorded ray, as many absorptions as emissions, scatterings, losses and
reactions together, and at most one final event for each recorded ray. -/
theorem counts_balance (K : KOps α ν κ σ) (T : RecTables α ν)
    (maxsteps maxEvents recordEvery : ℕ) (bundle : List (Launch α κ σ)) (threads : ℕ)
    (es : List (Tagged α (Row α ν κ)))
    (h : Execution bundle.length threads (kRay K T maxsteps maxEvents recordEvery bundle) es)
    (hm : 0 < maxEvents) (c : List (Event × ℕ))
    (hc : eventCounts (Mem.exec es) (nRecorded recordEvery bundle.length) maxEvents = some c) :
    counterAt c .generate = nRecorded recordEvery bundle.length ∧
    counterAt c .absorb = counterAt c .emit + counterAt c .scatter + counterAt c .nonradiative +
      counterAt c .react ∧
    counterAt c .exit + counterAt c .nonradiative + counterAt c .react + counterAt c .kill ≤
      nRecorded recordEvery bundle.length ∧
    (BudgetSuffices K maxsteps maxEvents recordEvery bundle → (∀ x d, K.nextHit x d ≠ none) →
      counterAt c .exit + counterAt c .nonradiative + counterAt c .react + counterAt c .kill =
        nRecorded recordEvery bundle.length) := by
  simp only [counts_logged K T maxsteps maxEvents recordEvery bundle threads es h c hc]
  have key := ray_balanced K T maxsteps maxEvents recordEvery bundle hm
  generalize nRecorded recordEvery bundle.length = n at key ⊢
  clear hc h
  induction n with
  | zero => simp
  | succ n ih =>
    obtain ⟨i1, i2, i3, i4⟩ := ih fun j hj => key j (by omega)
    obtain ⟨⟨r0, rows⟩, ends, k0, ⟨k1, k2, k3⟩, k4, k5⟩ := key n (by omega)
    dsimp only at k0 k1 k2 k3
    simp only [List.range_succ, List.map_append, List.sum_append, List.map_cons, List.map_nil,
      List.sum_cons, List.sum_nil, k0, generateRow, List.count_cons] at i1 i2 i3 i4 ⊢
    simp only [show ((Event.generate == Event.generate) = true) = True from by simp,
      show ((Event.generate == Event.absorb) = true) = False from by simp,
      show ((Event.generate == Event.emit) = true) = False from by simp,
      show ((Event.generate == Event.scatter) = true) = False from by simp,
      show ((Event.generate == Event.nonradiative) = true) = False from by simp,
      show ((Event.generate == Event.react) = true) = False from by simp,
      show ((Event.generate == Event.exit) = true) = False from by simp,
      show ((Event.generate == Event.kill) = true) = False from by simp, if_true, if_false,
      Nat.add_zero]
    refine ⟨by omega, by omega, by omega, fun hb hn => ?_⟩
    have := k5 hb hn
    have := i4 hb hn
    omega

/-- Three rays, every second recorded, on two threads: the counts, in order of code. -/
example : eventCounts (Mem.exec interleaved) 2 9 =
    some [(.generate, 2), (.absorb, 4), (.scatter, 4), (.kill, 2)] := by decide +kernel

example : BudgetSuffices fog 2 9 2 EventLog.three ∧ (∀ x d, fog.nextHit x d ≠ none) :=
  ⟨large_budget_suffices _ _ _ _ _ (by omega), fun _ _ => by simp [fog]⟩

/-- With a budget of three events the final events are missing: no ray has ended, so the equality of
the last part needs its hypothesis. -/
theorem final_missing : ∃ es : List (Tagged ℚ (Row ℚ Bool Unit)), ∃ c,
    Execution 3 1 (kRay fog oneRecorder 2 3 1 EventLog.three) es ∧
    eventCounts (Mem.exec es) (nRecorded 1 3) 3 = some c ∧
    c = [(.generate, 3), (.absorb, 3), (.scatter, 3)] ∧
    counterAt c .exit + counterAt c .nonradiative + counterAt c .react + counterAt c .kill = 0 :=
  ⟨_, [(.generate, 3), (.absorb, 3), (.scatter, 3)],
    sequential 3 1 (fun _ => 0) (fun _ => by omega) _, by decide +kernel, rfl, by decide +kernel⟩

end PV.EventCounts
