import Verif.Model.StudioPaths
import Verif.Props.StudioLive

/-!
**C137** The lines on the page are the paths of the first recorded rays of the run.
-/

namespace PV.Live
open PV.Spec PV.EventLog PV.Budget PV.RecTables PV.Simulate
set_option linter.unusedSectionVars false

section page
variable {α : Type}

theorem add_exact : ∀ (ps : List (Path α)) (C : Canvas α), C.count = C.lines.length → C.count ≤ 400 →
    (C.add ps).lines = (C.lines ++ ps.filter fun p => 2 ≤ p.points.length).take 400 ∧
      (C.add ps).count = (C.add ps).lines.length ∧ (C.add ps).count ≤ 400 := by
  intro ps
  induction ps with
  | nil =>
    intro C hc hl
    refine ⟨?_, hc, hl⟩
    rw [List.filter_nil, List.append_nil, List.take_of_length_le (by omega)]
    rfl
  | cons p ps ih =>
    intro C hc hl
    unfold Canvas.add
    split_ifs with h1 h2
    · refine ⟨?_, hc, hl⟩
      rw [List.take_append_of_le_length (by omega), List.take_of_length_le (by omega)]
    · rw [List.filter_cons_of_neg (by simpa using h2)]
      exact ih C hc hl
    · have := ih ⟨C.lines ++ [p], C.count + 1⟩ (by simp [hc]) (show C.count + 1 ≤ 400 by omega)
      rw [List.filter_cons_of_pos (by simp only [decide_eq_true_eq]; omega)]
      simpa using this

theorem show_from : ∀ (ms : List (Message α)) (C : Canvas α), C.count = C.lines.length → C.count ≤ 400 →
    (ms.foldl (fun C m => C.add m.paths) C).lines =
      (C.lines ++ (ms.flatMap (·.paths)).filter fun p => 2 ≤ p.points.length).take 400 := by
  intro ms
  induction ms with
  | nil =>
    intro C hc hl
    rw [List.flatMap_nil, List.filter_nil, List.append_nil, List.take_of_length_le (by omega)]
    rfl
  | cons m ms ih =>
    intro C hc hl
    obtain ⟨h1, h2, h3⟩ := add_exact m.paths C hc hl
    rw [List.foldl_cons, ih _ h2 h3, h1, List.flatMap_cons, List.filter_append, ← List.append_assoc]
    generalize C.lines ++ m.paths.filter (fun p => decide (2 ≤ p.points.length)) = a
    generalize (ms.flatMap (·.paths)).filter (fun p => decide (2 ≤ p.points.length)) = b
    rcases le_total a.length 400 with h | h
    · rw [List.take_of_length_le (l := a) h]
    · rw [List.take_append_of_le_length (l₁ := a) h, List.take_append_of_le_length (by simpa using h), List.take_take, min_self]

/-- **C137** Whatever was drawn before, the messages of a run leave the first 400 of its paths of two points or more, in order. -/
theorem page_draws (C : Canvas α) (ms : List (Message α)) :
    (C.show ms).lines = ((ms.flatMap (·.paths)).filter fun p => 2 ≤ p.points.length).take 400 := by
  unfold Canvas.show
  rw [show_from ms C.clear rfl (Nat.zero_le _)]
  rfl

end page

variable {α ν κ σ : Type} [Field α] [LinearOrder α] [IsStrictOrderedRing α] [FloorRing α] [DecidableEq ν]

theorem extract_long (mem : Mem α (Row α ν κ)) (recorded m limit : ℕ) :
    ∀ p ∈ extractPaths mem recorded m limit, 2 ≤ p.points.length := by
  intro p hp
  unfold extractPaths at hp
  obtain ⟨j, -, h⟩ := List.mem_filterMap.1 hp
  split_ifs at h with hc
  cases h
  simp only [List.length_map, List.length_range]
  omega

theorem sent_long {ps : List (ν × Recorder α)} {T : RecTables α ν} (hT : compileRecorders ps = some T) {m total maxPaths : ℕ}
    {rs : List (Result α ν κ)} {msgs : List (Message α)} (h : live ps T m total maxPaths rs = some msgs) :
    (∀ p ∈ msgs.flatMap (·.paths), 2 ≤ p.points.length) ∧ (msgs.flatMap (·.paths)).length ≤ maxPaths := by
  obtain ⟨msgs', h1, -, h3, h4⟩ := liveFrom_get (κ := κ) hT m total maxPaths rs Acc.zero 0 0
  unfold live at h
  rw [h1] at h
  cases h
  refine ⟨fun p hp => ?_, ?_⟩
  · obtain ⟨msg, hm, hp⟩ := List.mem_flatMap.1 hp
    obtain ⟨k, hk⟩ := List.getElem?_of_mem hm
    obtain ⟨-, -, -, r, -, e⟩ := h3 k msg hk
    rw [e] at hp
    exact extract_long _ _ _ _ p hp
  · rw [List.length_flatMap]
    simpa using h4 (Nat.zero_le _)

/-- **C137** If a run asks for no more than 400 paths (the page leaves it at 200), the page draws all that are sent. -/
theorem all_drawn {ps : List (ν × Recorder α)} {T : RecTables α ν} (hT : compileRecorders ps = some T) {m total maxPaths : ℕ}
    (hm : maxPaths ≤ 400) {rs : List (Result α ν κ)} {msgs : List (Message α)} (h : live ps T m total maxPaths rs = some msgs)
    (C : Canvas α) : (C.show msgs).lines = msgs.flatMap (·.paths) := by
  obtain ⟨h1, h2⟩ := sent_long hT h
  rw [page_draws, List.filter_eq_self.2 (fun p hp => by simpa using h1 p hp), List.take_of_length_le (h2.trans hm)]

/-- The histories of the recorded rays of a bundle. -/
def recordedRows (K : KOps α ν κ σ) (T : RecTables α ν) (maxsteps m re : ℕ) (p : Part α ν κ σ) : List (List (Row α ν κ)) :=
  (List.range (nRecorded re p.bundle.length)).map fun j => loggedRows (kRay K T maxsteps m re p.bundle (j * re))

theorem live_first (K : KOps α ν κ σ) {ps : List (ν × Recorder α)} {T : RecTables α ν} (maxsteps m re total maxPaths : ℕ) :
    ∀ (parts : List (Part α ν κ σ)) (_ : ∀ p ∈ parts, Execution p.bundle.length p.threads (kRay K T maxsteps m re p.bundle) p.es)
      (_ : ∀ p ∈ parts, ∀ rows ∈ recordedRows K T maxsteps m re p, 2 ≤ rows.length) (acc : Acc α) (traced sent : ℕ)
      (msgs : List (Message α)) (_ : liveFrom ps T m total maxPaths acc traced sent (parts.map (resultOf re)) = some msgs),
      List.Forall₂ PathOf ((parts.flatMap (recordedRows K T maxsteps m re)).take (maxPaths - sent)) (msgs.flatMap (·.paths)) := by
  intro parts
  induction parts with
  | nil =>
    intro _ _ acc traced sent msgs h
    cases h
    simp
  | cons p parts ih =>
    intro hx hl acc traced sent msgs h
    have hp : (if sent < maxPaths then extractPaths (resultOf re p).mem (resultOf re p).recorded m (maxPaths - sent) else []) =
        extractPaths (Mem.exec p.es) (nRecorded re p.bundle.length) m (maxPaths - sent) := by
      split_ifs with hs
      · rfl
      · rw [Nat.sub_eq_zero_of_le (by omega)]
        simp [extractPaths]
    rw [List.map_cons] at h
    unfold liveFrom at h
    dsimp only at h
    rw [hp] at h
    have he := extract_exact K T maxsteps m re p.bundle p.threads p.es (hx p List.mem_cons_self) (maxPaths - sent)
    have hr : (List.range (min (nRecorded re p.bundle.length) (maxPaths - sent))).map
        (fun j => loggedRows (kRay K T maxsteps m re p.bundle (j * re))) = (recordedRows K T maxsteps m re p).take (maxPaths - sent) := by
      unfold recordedRows
      rw [← List.map_take, List.take_range, min_comm]
    rw [hr, List.filter_eq_self.2 fun rows hm => by simpa using hl p List.mem_cons_self rows (List.mem_of_mem_take hm)] at he
    have hlen := he.length_eq
    rw [List.length_take] at hlen
    cases hR : recorderPayload ps T (Acc.plus acc (resultOf re p).acc) with
    | none => rw [hR] at h; cases h
    | some recs =>
      rw [hR] at h
      simp only [Option.bind_eq_bind, Option.bind_some, Option.bind_eq_some_iff] at h
      obtain ⟨rest, hrest, h⟩ := h
      cases h
      have := ih (fun q hq => hx q (List.mem_cons_of_mem _ hq)) (fun q hq => hl q (List.mem_cons_of_mem _ hq)) _ _ _ rest hrest
      rw [List.flatMap_cons, List.flatMap_cons, List.take_append]
      refine List.rel_append he ?_
      rwa [show maxPaths - sent - (recordedRows K T maxsteps m re p).length =
        maxPaths - (sent + (extractPaths (Mem.exec p.es) (nRecorded re p.bundle.length) m (maxPaths - sent)).length) by omega]

/-- **C137** The lines on the page are, in order, the paths of the first recorded rays of the run: with a limit of at most 400 paths, and if
no recorded ray has a single event, as many as the limit allows. -/
theorem first_rays_drawn (K : KOps α ν κ σ) {ps : List (ν × Recorder α)} {T : RecTables α ν} (hT : compileRecorders ps = some T)
    (maxsteps m re total maxPaths : ℕ) (hm : maxPaths ≤ 400) (parts : List (Part α ν κ σ))
    (hx : ∀ p ∈ parts, Execution p.bundle.length p.threads (kRay K T maxsteps m re p.bundle) p.es)
    (hl : ∀ p ∈ parts, ∀ rows ∈ recordedRows K T maxsteps m re p, 2 ≤ rows.length) (msgs : List (Message α))
    (h : live ps T m total maxPaths (parts.map (resultOf re)) = some msgs) (C : Canvas α) :
    List.Forall₂ PathOf ((parts.flatMap (recordedRows K T maxsteps m re)).take maxPaths) (C.show msgs).lines := by
  rw [all_drawn hT hm h]
  exact live_first K maxsteps m re total maxPaths parts hx hl Acc.zero 0 0 msgs h

/-- A ray that meets something when it starts has two events or more. -/
theorem long_enough (K : KOps α ν κ σ) (T : RecTables α ν) (maxsteps re : ℕ) {m : ℕ} (hm : 2 ≤ m) (p : Part α ν κ σ)
    (hh : ∀ l ∈ p.bundle, K.nextHit l.ray.position l.ray.direction ≠ none) :
    ∀ rows ∈ recordedRows K T maxsteps m re p, 2 ≤ rows.length := by
  intro rows hr
  obtain ⟨j, hj, rfl⟩ := List.mem_map.1 hr
  rw [List.mem_range] at hj
  have hre : 0 < re := by
    by_contra h
    unfold nRecorded at hj
    rw [if_neg (by omega)] at hj
    omega
  have hi : j * re < p.bundle.length := by
    unfold nRecorded at hj
    rw [if_pos hre, Nat.lt_iff_add_one_le, Nat.le_div_iff_mul_le hre, Nat.add_mul, one_mul] at hj
    omega
  have hl : p.bundle[j * re]? = some p.bundle[j * re] := List.getElem?_eq_getElem hi
  have hmod : j * re % re = 0 := Nat.mul_mod_left _ _
  have h := history_complete_partial K T maxsteps m re p.bundle (j * re) hi hre hmod hm
  dsimp only at h
  rcases h with ⟨r, h1, h2⟩ | ⟨h, -⟩
  · by_contra hlt
    rw [logged_eq K T maxsteps m re p.bundle (j * re) _ hl hre hmod] at h1 hlt
    obtain ⟨k, rfl⟩ : ∃ k, m = k + 1 := ⟨m - 1, by omega⟩
    unfold rayRows at h1 hlt
    rw [List.take_succ_cons] at h1 hlt
    rw [List.length_cons] at hlt
    generalize List.take k _ = rest at h1 hlt
    obtain rfl : rest = [] := List.eq_nil_of_length_eq_zero (by omega)
    simp only [List.getLast?_singleton, Option.some.injEq] at h1
    subst h1
    rcases h2 with h2 | h2
    · simp [Terminal, generateRow] at h2
    · exact hh _ (List.getElem_mem hi) h2
  · omega

/-- **C137** For rays that start inside the world, with room for two events in the log: the lines are the paths of the first recorded rays. -/
theorem rays_drawn (K : KOps α ν κ σ) {ps : List (ν × Recorder α)} {T : RecTables α ν} (hT : compileRecorders ps = some T)
    (maxsteps re total : ℕ) {m maxPaths : ℕ} (hm : 2 ≤ m) (hp : maxPaths ≤ 400) (parts : List (Part α ν κ σ))
    (hx : ∀ p ∈ parts, Execution p.bundle.length p.threads (kRay K T maxsteps m re p.bundle) p.es)
    (hh : ∀ p ∈ parts, ∀ l ∈ p.bundle, K.nextHit l.ray.position l.ray.direction ≠ none) (msgs : List (Message α))
    (h : live ps T m total maxPaths (parts.map (resultOf re)) = some msgs) (C : Canvas α) :
    List.Forall₂ PathOf ((parts.flatMap (recordedRows K T maxsteps m re)).take maxPaths) (C.show msgs).lines :=
  first_rays_drawn K hT maxsteps m re total maxPaths hp parts hx (fun p h => long_enough K T maxsteps re hm p (hh p h)) msgs h C

/-- The hypotheses are met: six recorded rays in two bundles, of which four are drawn. -/
example (C : Canvas ℚ) : ∃ msgs, live EngineTally.slabRecs EngineTally.slabTables 20 6 4 ([slabPart, slabPart].map (resultOf 1)) = some msgs ∧
    List.Forall₂ PathOf
      (([slabPart, slabPart].flatMap (recordedRows EngineTally.slab EngineTally.slabTables 10 20 1)).take 4) (C.show msgs).lines := by
  have hT : compileRecorders EngineTally.slabRecs = some EngineTally.slabTables := by decide +kernel
  obtain ⟨msgs, h1, -⟩ := liveFrom_get (κ := Unit) hT 20 6 4 ([slabPart, slabPart].map (resultOf 1)) Acc.zero 0 0
  refine ⟨msgs, h1, rays_drawn EngineTally.slab hT 10 1 6 (by norm_num) (by norm_num) _ ?_ ?_ msgs h1 C⟩
  · intro p hp
    simp at hp
    subst hp
    exact EngineTally.slab_execution
  · intro p hp
    simp at hp
    subst hp
    decide +kernel

/-- A path of one point is left out. -/
example : (Canvas.show (⟨[], 7⟩ : Canvas ℚ) [⟨1, 2, [], [⟨[0], [555]⟩, ⟨[0, 0], [555, 600]⟩]⟩]).lines = [⟨[0, 0], [555, 600]⟩] := by
  decide +kernel

end PV.Live
