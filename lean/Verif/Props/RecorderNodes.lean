import Verif.Model.RecorderNodes
import Verif.Props.RecTables
import Mathlib.Tactic.NormNum

/-!
**C135** Every recorder of a scene is in the results.
-/

namespace PV.RecorderNodes
variable {α : Type}

theorem mem_engine {nodes : List (RecNode α)} {i : ℕ} {r : Recorder α} :
    (i, r) ∈ engineRecorders nodes ↔ ∃ v, (solidNodes nodes)[i]? = some v ∧ r ∈ v.recorders := by
  unfold engineRecorders
  rw [List.mem_flatMap]
  constructor
  · rintro ⟨⟨v, j⟩, hv, hr⟩
    obtain ⟨r', hr', e⟩ := List.mem_map.1 hr
    cases e
    exact ⟨v, List.mk_mem_zipIdx_iff_getElem?.1 hv, hr'⟩
  · rintro ⟨v, hv, hr⟩
    exact ⟨(v, i), List.mk_mem_zipIdx_iff_getElem?.2 hv, List.mem_map.2 ⟨r, hr, rfl⟩⟩

theorem names_nodup [Zero α] [One α] {ps : List (ℕ × Recorder α)} {T : RecTables α ℕ} (h : compileRecorders ps = some T) :
    (ps.map (·.2.name)).Nodup := by
  unfold compileRecorders at h
  split_ifs at h with h1 h2 h3
  exact h3

/-- **C135** The engine's results list every recorder of every node with a geometry once, and nothing else. -/
theorem engine_lists [Zero α] [One α] {nodes : List (RecNode α)} {names : List String} (h : engineNames nodes = some names) :
    names.Nodup ∧ ∀ x, x ∈ names ↔ ∃ v ∈ nodes, v.geometry = true ∧ ∃ r ∈ v.recorders, r.name = x := by
  obtain ⟨T, hT, rfl⟩ := Option.map_eq_some_iff.1 h
  refine ⟨names_nodup hT, fun x => ?_⟩
  rw [List.mem_map]
  constructor
  · rintro ⟨⟨i, r⟩, hr, rfl⟩
    obtain ⟨v, hv, hr⟩ := mem_engine.1 hr
    obtain ⟨h1, h2⟩ := List.mem_filter.1 (List.mem_of_getElem? hv)
    exact ⟨v, h1, h2, r, hr, rfl⟩
  · rintro ⟨v, hv, hg, r, hr, rfl⟩
    obtain ⟨i, hi⟩ := List.mem_iff_getElem?.1 (List.mem_filter.2 ⟨hv, hg⟩ : v ∈ solidNodes nodes)
    exact ⟨(i, r), mem_engine.2 ⟨v, hi, hr⟩, rfl⟩

/-- **C135** And each line of its table is about the node the recorder was put on. -/
theorem engine_node [Field α] [LinearOrder α] [FloorRing α] {nodes : List (RecNode α)} {T : RecTables α ℕ} (h : compileRecorders (engineRecorders nodes) = some T)
    {k : ℕ} {row : RecRow α ℕ} (hr : T.recs[k]? = some row) :
    ∃ v r, (solidNodes nodes)[row.node]? = some v ∧ r ∈ v.recorders ∧ ((engineRecorders nodes).map (·.2.name))[k]? = some r.name ∧
      row.event = r.event ∧ row.facet = r.facet ∧ row.atol = r.atol := by
  rw [RecTables.rec_at h k] at hr
  obtain ⟨⟨i, r⟩, hp, rfl⟩ := Option.map_eq_some_iff.1 hr
  obtain ⟨v, hv, hm⟩ := mem_engine.1 (List.mem_of_getElem? hp)
  exact ⟨v, r, hv, hm, by rw [List.getElem?_map, hp]; rfl, rfl, rfl, rfl⟩

theorem mem_tally {nodes : List (RecNode α)} {x : String} :
    x ∈ tallyNames nodes ↔ ∃ v ∈ nodes, ∃ r ∈ v.recorders, r.name = x := by
  unfold tallyNames tallyPairsOf
  simp only [List.mem_reverse, List.mem_dedup, List.mem_map, List.mem_flatMap]
  constructor
  · rintro ⟨_, ⟨v, hv, r, hr, rfl⟩, rfl⟩
    exact ⟨v, hv, r, hr, rfl⟩
  · rintro ⟨v, hv, r, hr, rfl⟩
    exact ⟨(v, r), ⟨v, hv, r, hr, rfl⟩, rfl⟩

/-- The names of the engine's recorders when every recorder is on a node with a geometry. -/
theorem all_names {nodes : List (RecNode α)} (hg : ∀ v ∈ nodes, v.recorders ≠ [] → v.geometry = true) :
    (engineRecorders nodes).map (·.2.name) = (tallyPairsOf nodes).map (·.2.name) := by
  have h1 : ∀ (l : List (RecNode α)) (k : ℕ), ((l.zipIdx k).flatMap fun p => p.1.recorders.map fun r => (p.2, r)).map (·.2.name) =
      l.flatMap fun v => v.recorders.map (·.name) := by
    intro l
    induction l with
    | nil => intro k; rfl
    | cons v l ih =>
      intro k
      rw [List.zipIdx_cons, List.flatMap_cons, List.map_append, ih, List.flatMap_cons, List.map_map]
      rfl
  have h2 : ∀ l : List (RecNode α), (∀ v ∈ l, v.recorders ≠ [] → v.geometry = true) →
      ((l.filter (·.geometry)).flatMap fun v => v.recorders.map (·.name)) = l.flatMap fun v => v.recorders.map (·.name) := by
    intro l
    induction l with
    | nil => intro _; rfl
    | cons v l ih =>
      intro hl
      have ih := ih fun w hw => hl w (List.mem_cons_of_mem _ hw)
      by_cases hv : v.geometry = true
      · rw [List.filter_cons_of_pos hv, List.flatMap_cons, List.flatMap_cons, ih]
      · have : v.recorders = [] := by
          by_contra h
          exact hv (hl v List.mem_cons_self h)
        rw [List.filter_cons_of_neg hv, List.flatMap_cons, this, ih]
        rfl
  unfold engineRecorders tallyPairsOf solidNodes
  rw [h1, h2 nodes hg, List.map_flatMap]
  congr 1
  funext v
  rw [List.map_map]
  rfl

/-- **C135** If all recorders are on nodes with a geometry, the engine's results and those from histories have the same entries, in the
same order. -/
theorem same_lists_partial [Zero α] [One α] {nodes : List (RecNode α)} (hg : ∀ v ∈ nodes, v.recorders ≠ [] → v.geometry = true)
    {names : List String} (h : engineNames nodes = some names) : names = tallyNames nodes := by
  obtain ⟨T, hT, rfl⟩ := Option.map_eq_some_iff.1 h
  have hn := names_nodup hT
  rw [all_names hg] at hn
  unfold tallyNames
  rw [(List.nodup_reverse.2 hn).dedup, List.reverse_reverse, all_names hg]

/-- **C135** (violated) A recorder on a node without a geometry, such as a light, is accepted and left out of the engine's results; results
from histories list it. -/
theorem left_out [Zero α] [One α] {nodes : List (RecNode α)} {names : List String} (h : engineNames nodes = some names) {v : RecNode α}
    (hv : v ∈ nodes) {r : Recorder α} (hr : r ∈ v.recorders) (hx : ∀ w ∈ nodes, w.geometry = true → ∀ s ∈ w.recorders, s.name ≠ r.name) :
    r.name ∉ names ∧ r.name ∈ tallyNames nodes := by
  refine ⟨fun hm => ?_, mem_tally.2 ⟨v, hv, r, hr, rfl⟩⟩
  obtain ⟨w, hw, hg, s, hs, e⟩ := ((engine_lists h).2 _).1 hm
  exact hx w hw hg s hs e

/-! ### The hypotheses are met -/

/-- A world, a plate with two recorders, and a lamp. -/
def plate (lamp : List (Recorder ℚ)) : List (RecNode ℚ) :=
  [⟨"world", true, [⟨"out", .exit, none, 1e-6, []⟩]⟩, ⟨"lamp", false, lamp⟩,
   ⟨"plate", true, [⟨"top", .escaping, some ⟨0, 0, 1⟩, 1e-6, []⟩, ⟨"loss", .lost, none, 1e-6, []⟩]⟩]

example : engineNames (plate []) = some ["out", "top", "loss"] ∧ tallyNames (plate []) = ["out", "top", "loss"] ∧
    ∀ v ∈ plate [], v.recorders ≠ [] → v.geometry = true := by decide +kernel

/-- **C135** (violated) The same with a recorder on the lamp. -/
theorem lamp_left_out : engineNames (plate [⟨"emitted", .escaping, none, 1e-6, []⟩]) = some ["out", "top", "loss"] ∧
    tallyNames (plate [⟨"emitted", .escaping, none, 1e-6, []⟩]) = ["out", "emitted", "top", "loss"] := by decide +kernel

end PV.RecorderNodes
