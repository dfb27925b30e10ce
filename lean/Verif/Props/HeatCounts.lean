import Verif.Props.Tally

/-!
**C14** The entries of a reported heatmap.
-/

namespace PV.Tally
open PV.Spec
set_option linter.unusedSectionVars false
variable {α ν : Type} [Field α] [LinearOrder α] [FloorRing α] [IsStrictOrderedRing α]

/-- **C14** Entry `(i, j)` of a heatmap reported after a run is the number of rays whose first counted event has its first property between
the edges `i` and `i + 1` of the first axis and its second between the edges `j` and `j + 1` of the second, if no value lies below the
start of its axis. -/
theorem heat_counts_partial (E : TallyEnv α ν) (recs : List (ν × Recorder α)) (hnd : (recs.map (·.2.name)).Nodup)
    (hs : List (List (Step α))) {out : List (ν × Recorder α × TallyState α)} (h : tallyHistories E recs hs = .ok out)
    {node : ν} {r : Recorder α} {st : TallyState α} (ho : (node, r, st) ∈ out) {m : ℕ} {a b : Axis α}
    (hm : r.hists[m]? = some (.heat a b)) (ha : a.Valid) (hb : b.Valid)
    (hv : ∀ v ∈ recorded E node r hs, a.start ≤ v.get a.prop ∧ b.start ≤ v.get b.prop) :
    ∃ values, st.bins[m]? = some values ∧ ∀ i < a.bins, ∀ j < b.bins, heatCount b values i j =
      (recorded E node r hs).countP fun v => decide ((a.edge i ≤ v.get a.prop ∧ v.get a.prop < a.edge (i + 1)) ∧
        (b.edge j ≤ v.get b.prop ∧ v.get b.prop < b.edge (j + 1))) := by
  rw [tally_exact E recs hnd hs out h] at ho
  obtain ⟨p, -, hp⟩ := List.mem_map.1 ho
  simp only [Prod.mk.injEq] at hp
  obtain ⟨rfl, rfl, rfl⟩ := hp
  refine ⟨_, by simp only [List.getElem?_map, hm, Option.map_some]; rfl, fun i hi j hj => ?_⟩
  unfold heatCount
  refine List.countP_congr fun v hx => ?_
  rw [decide_eq_true_iff, decide_eq_true_iff]
  exact heat_bin_partial a b ha hb v (hv v hx).1 (hv v hx).2 i j hi hj

/-- A recorder with a heatmap of 2 × 3 bins: wavelength against path length. -/
def rec3 : Recorder ℚ := { rec1 with hists := [.heat ⟨.wavelength, 500, 600, 2⟩ ⟨.pathlength, 0, 3, 3⟩] }

/-- A run with it: one ray is counted, at 555 nm after a path of 2, in entry (1, 2); its values are not below the starts. -/
example : (match tallyHistories env1 [((), rec3)] [hist1] with
    | .ok out => decide (out.map (fun p => p.2.2.bins.map fun b =>
        (List.range 2).map fun i => (List.range 3).map fun j => heatCount (⟨.pathlength, 0, 3, 3⟩ : Axis ℚ) b i j) = [[[[0, 0, 0], [0, 0, 1]]]])
    | .error _ => false) = true ∧
    (∀ v ∈ recorded env1 () rec3 [hist1], 500 ≤ v.get .wavelength ∧ 0 ≤ v.get .pathlength) := by
  refine ⟨by decide +kernel, fun v hv => ?_⟩
  obtain ⟨h, hh, hf⟩ := List.mem_filterMap.1 hv
  rw [List.mem_singleton] at hh
  subst hh
  obtain ⟨p, hp, rfl⟩ := Option.map_eq_some_iff.1 hf
  have hall : ∀ p ∈ withPrev none hist1, 500 ≤ (valuesOf env1 () p).get .wavelength ∧ 0 ≤ (valuesOf env1 () p).get .pathlength := by
    intro p hp
    simp only [withPrev, hist1, List.map_cons, List.map_nil, List.zip_cons_cons, List.zip_nil_right, List.mem_cons, List.not_mem_nil,
      or_false] at hp
    rcases hp with rfl | rfl | rfl | rfl | rfl <;> norm_num [valuesOf, Values.get, into, outOf, ray1]
  exact hall p (List.mem_of_find?_eq_some hp)

example : (⟨.wavelength, 500, 600, 2⟩ : Axis ℚ).Valid ∧ (⟨.pathlength, 0, 3, 3⟩ : Axis ℚ).Valid := by
  refine ⟨⟨?_, ?_⟩, ?_, ?_⟩ <;> norm_num

end PV.Tally
