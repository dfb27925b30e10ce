import Verif.Lemmas.Tally
import Verif.Model.RecorderResult
import Mathlib.Tactic.Linarith
import Mathlib.Tactic.FieldSimp
import Mathlib.Tactic.Positivity
import Mathlib.Algebra.Order.BigOperators.Group.Finset
import Mathlib.Algebra.BigOperators.Intervals

/-!
C10, C14, C15: what the Python tally counts and reports.
-/

namespace PV.Tally
set_option linter.unusedSectionVars false
open PV.Spec
variable {α ν : Type} [Field α] [LinearOrder α] [FloorRing α]

/-! ### C10 -/

/-- Everything a recorder accumulates, for recorders with distinct names: counts, moments and
bins are those of the first counted event of each ray. -/
theorem tally_exact (E : TallyEnv α ν) (recs : List (ν × Recorder α))
    (hnd : (recs.map (·.2.name)).Nodup) (hs : List (List (Step α)))
    (out : List (ν × Recorder α × TallyState α)) (h : tallyHistories E recs hs = .ok out) :
    out = recs.map fun p => (p.1, p.2,
      { rays := (recorded E p.1 p.2 hs).length
        crossings := crossings E p.1 p.2 hs
        moments := fun i => (((recorded E p.1 p.2 hs).map fun v => v.get (momentProp i)).sum,
          ((recorded E p.1 p.2 hs).map fun v =>
            v.get (momentProp i) * v.get (momentProp i)).sum)
        bins := p.2.hists.map fun a k => (recorded E p.1 p.2 hs).countP fun v => a.bin v = some k }) := by
  unfold tallyHistories at h
  have := tallyAll_eq (by rw [List.map_map]; exact hnd) h
  rw [this, List.map_map]
  refine List.map_congr_left fun p _ => ?_
  simp only [Function.comp]
  rw [fold_run]

theorem mem_withPrev {prev : Option (Ray α)} {h : List (Step α)} {s : Step α} :
    s ∈ h ↔ ∃ p ∈ withPrev prev h, p.2 = s := by
  induction h generalizing prev with
  | nil => simp [withPrev]
  | cons a h ih =>
    have hw : withPrev prev (a :: h) = (prev, a) :: withPrev (some a.ray) h := by
      simp [withPrev]
    rw [hw, List.mem_cons, ih (prev := some a.ray)]
    simp [eq_comm]

theorem firstValues_isSome (E : TallyEnv α ν) (node : ν) (r : Recorder α) (h : List (Step α)) :
    (firstValues E node r h).isSome ↔ ∃ s ∈ h, Counted E node r s := by
  unfold firstValues
  rw [Option.isSome_map, List.find?_isSome]
  constructor
  · rintro ⟨p, hp, hc⟩
    exact ⟨p.2, (mem_withPrev (prev := none)).2 ⟨p, hp, rfl⟩, by simpa using hc⟩
  · rintro ⟨s, hs, hc⟩
    obtain ⟨p, hp, rfl⟩ := (mem_withPrev (prev := none)).1 hs
    exact ⟨p, hp, by simpa using hc⟩

/-- One set of recorded values per ray with a counted event. -/
theorem recorded_length (E : TallyEnv α ν) (node : ν) (r : Recorder α)
    (hs : List (List (Step α))) : (recorded E node r hs).length = raysWith E node r hs := by
  classical
  unfold recorded raysWith
  induction hs with
  | nil => simp
  | cons h hs ih =>
    rw [List.filterMap_cons, List.countP_cons, ← ih]
    have := firstValues_isSome E node r h
    cases hf : firstValues E node r h with
    | none =>
      rw [hf] at this
      have hn : ¬ ∃ s ∈ h, Counted E node r s := fun hx => by simpa using this.2 hx
      simp [hn]
    | some v =>
      rw [hf] at this
      have hn : ∃ s ∈ h, Counted E node r s := this.1 rfl
      simp [hn]

theorem raysWith_le_crossings (E : TallyEnv α ν) (node : ν) (r : Recorder α)
    (hs : List (List (Step α))) : raysWith E node r hs ≤ crossings E node r hs := by
  classical
  unfold raysWith crossings
  induction hs with
  | nil => simp
  | cons h hs ih =>
    rw [List.countP_cons, List.map_cons, List.sum_cons, add_comm]
    refine Nat.add_le_add ?_ ih
    split_ifs with hx
    · have hx : ∃ s ∈ h, Counted E node r s := by simpa using hx
      obtain ⟨s, hs, hc⟩ := hx
      exact List.countP_pos_iff.2 ⟨s, hs, by simpa using hc⟩
    · exact Nat.zero_le _

theorem binIndex_lt {v : α} {a : Axis α} {k : ℕ} (h : binIndex v a = some k) : k < a.bins := by
  unfold binIndex at h
  dsimp only at h
  split_ifs at h with hk
  cases h
  omega

/-- A bin index is inside the array. -/
theorem bin_lt {h : Hist α} {v : Values α} {k : ℕ} (hb : h.bin v = some k) : k < h.size := by
  cases h with
  | one a => exact binIndex_lt hb
  | heat a b =>
    simp only [Hist.bin] at hb
    cases ha : binIndex (v.get a.prop) a with
    | none => rw [ha] at hb; cases hb
    | some i =>
      cases hb' : binIndex (v.get b.prop) b with
      | none => rw [ha, hb'] at hb; cases hb
      | some j =>
        rw [ha, hb'] at hb
        simp only [Option.some.injEq] at hb
        have := binIndex_lt ha
        have := binIndex_lt hb'
        simp only [Hist.size]
        have : (i + 1) * b.bins ≤ a.bins * b.bins := Nat.mul_le_mul_right _ (by omega)
        have : (i + 1) * b.bins = i * b.bins + b.bins := by ring
        omega

/-- The total of the bins is the number of values with a bin. -/
theorem bins_total (h : Hist α) (vs : List (Values α)) :
    ∑ k ∈ Finset.range h.size, vs.countP (fun v => h.bin v = some k) =
      vs.countP (fun v => (h.bin v).isSome) := by
  induction vs with
  | nil => simp
  | cons v vs ih =>
    simp only [List.countP_cons, Finset.sum_add_distrib, ih]
    congr 1
    cases hb : h.bin v with
    | none => simp
    | some k =>
      have := bin_lt hb
      simp [this]

/-- C10. For recorders with distinct names, on every set of histories: `rays` is the number of
rays with a counted event, `crossings` the number of counted events, `rays <= crossings`,
`rays <= number of rays traced`, and the total of each histogram is at most `rays`. -/
theorem recorder_counts (E : TallyEnv α ν) (recs : List (ν × Recorder α))
    (hnd : (recs.map (·.2.name)).Nodup) (hs : List (List (Step α)))
    (out : List (ν × Recorder α × TallyState α)) (h : tallyHistories E recs hs = .ok out) :
    out.map (fun p => (p.1, p.2.1)) = recs ∧
    ∀ p ∈ out,
      p.2.2.rays = raysWith E p.1 p.2.1 hs ∧ p.2.2.crossings = crossings E p.1 p.2.1 hs ∧
      p.2.2.rays ≤ p.2.2.crossings ∧ p.2.2.rays ≤ hs.length ∧
      p.2.2.bins.length = p.2.1.hists.length ∧
      ∀ (i : ℕ) (a : Hist α) (b : ℕ → ℕ), p.2.1.hists[i]? = some a → p.2.2.bins[i]? = some b →
        ∑ k ∈ Finset.range a.size, b k ≤ p.2.2.rays := by
  have ho := tally_exact E recs hnd hs out h
  constructor
  · rw [ho, List.map_map]
    simp [Function.comp_def]
  · intro p hp
    rw [ho] at hp
    obtain ⟨q, _, rfl⟩ := List.mem_map.1 hp
    refine ⟨recorded_length .., rfl, ?_, ?_, by simp, ?_⟩
    · rw [recorded_length]; exact raysWith_le_crossings ..
    · exact List.length_filterMap_le ..
    · intro i a b ha hb
      simp only [List.getElem?_map, ha, Option.map_some, Option.some.injEq] at hb
      subst hb
      simp only
      rw [bins_total]
      exact List.countP_le_length

/-! A scene with one node, called `slab`, and a ray that enters and leaves it twice. -/

def env1 : TallyEnv ℚ Unit where
  name _ := "slab"
  localPos _ p := p
  exitNormal _ _ := .ok ⟨0, 0, 1⟩
  acos x := x

def ray1 (z t : ℚ) : Ray ℚ := ⟨⟨0, 0, z⟩, ⟨0, 0, 1⟩, 555, t, t, none⟩

def into (z t : ℚ) : Step ℚ :=
  ⟨ray1 z t, .transmit, { hit := some "slab", container := some "world", adjacent := some "slab",
                          normal := some ⟨0, 0, -1⟩ }⟩
def outOf (z t : ℚ) : Step ℚ :=
  ⟨ray1 z t, .transmit, { hit := some "slab", container := some "slab", adjacent := some "world",
                          normal := some ⟨0, 0, 1⟩ }⟩

def rec1 : Recorder ℚ :=
  { name := "top", event := .escaping, facet := some ⟨0, 0, 1⟩, atol := 1/1000,
    hists := [.one ⟨.wavelength, 500, 600, 10⟩] }
def rec2 : Recorder ℚ := { name := "in", event := .entering, atol := 1/1000 }

def hist1 : List (Step ℚ) :=
  [⟨ray1 0 0, .generate, {}⟩, into 1 1, outOf 2 2, into 3 3, outOf 4 4]

example : ∃ out, tallyHistories env1 [((), rec1), ((), rec2)] [hist1, [⟨ray1 0 0, .generate, {}⟩]]
      = .ok out ∧ out.map (fun p => (p.2.2.rays, p.2.2.crossings)) = [(1, 2), (1, 2)] ∧
      (out.map fun p => p.2.2.bins.map fun b => (List.range 10).map b) =
        [[[0, 0, 0, 0, 0, 1, 0, 0, 0, 0]], []] := by
  cases h : tallyHistories env1 [((), rec1), ((), rec2)]
    [hist1, [⟨ray1 0 0, .generate, {}⟩]] with
  | error e =>
    exfalso
    have : (match tallyHistories env1 [((), rec1), ((), rec2)]
      [hist1, [⟨ray1 0 0, .generate, {}⟩]] with | .ok _ => true | .error _ => false) = true := by
      decide +kernel
    rw [h] at this
    cases this
  | ok out =>
    refine ⟨out, rfl, ?_⟩
    have : (match tallyHistories env1 [((), rec1), ((), rec2)]
        [hist1, [⟨ray1 0 0, .generate, {}⟩]] with
      | .ok out => decide (out.map (fun p => (p.2.2.rays, p.2.2.crossings)) = [(1, 2), (1, 2)] ∧
        (out.map fun p => p.2.2.bins.map fun b => (List.range 10).map b) =
          [[[0, 0, 0, 0, 0, 1, 0, 0, 0, 0]], []])
      | .error _ => false) = true := by
      decide +kernel
    rw [h] at this
    simpa using this

example : ([((), rec1), ((), rec2)].map fun p : Unit × Recorder ℚ => p.2.name).Nodup := by decide

/-- With equal names the second recorder misses rays: two recorders called `x`, one for rays
entering and one for rays leaving; the ray does both, the second recorder reports 0 rays. (The
engine rejects such scenes.) -/
theorem equal_names_miss_rays :
    (tallyHistories env1 [((), { rec2 with name := "x" }), ((), { rec1 with name := "x" })]
      [hist1]).toOption.map (fun out => out.map fun p => (p.2.2.rays, p.2.2.crossings)) =
      some [(1, 2), (0, 2)] := by
  decide +kernel

/-! ### C14 -/

section bins
variable [IsStrictOrderedRing α]

theorem truncZ_eq_iff {x : α} {k : ℕ} :
    truncZ x = k ↔ (k ≠ 0 ∧ (k : α) ≤ x ∧ x < k + 1) ∨ (k = 0 ∧ -1 < x ∧ x < 1) := by
  unfold truncZ
  by_cases hx : 0 ≤ x
  · rw [if_pos hx, Int.floor_eq_iff]
    push_cast
    by_cases hk : k = 0
    · subst hk
      simp only [ne_eq, not_true_eq_false, false_and, Nat.cast_zero, zero_add, true_and, false_or]
      exact ⟨fun h => ⟨by linarith, h.2⟩, fun h => ⟨hx, h.2⟩⟩
    · simp [hk]
  · rw [if_neg hx, Int.ceil_eq_iff]
    push Not at hx
    by_cases hk : k = 0
    · subst hk
      simp only [Nat.cast_zero, Int.cast_zero, zero_sub]
      constructor
      · intro h; exact .inr ⟨trivial, h.1, by linarith⟩
      · rintro (⟨h, _⟩ | ⟨_, h1, _⟩)
        · exact absurd rfl h
        · exact ⟨h1, hx.le⟩
    · have hk' : (1 : α) ≤ k := by exact_mod_cast Nat.one_le_iff_ne_zero.2 hk
      push_cast
      constructor
      · intro h; exfalso; linarith [h.1]
      · rintro (⟨_, h, _⟩ | ⟨h, _⟩)
        · exfalso; linarith
        · exact absurd h hk

theorem binIndex_eq_some_iff {v : α} {a : Axis α} {k : ℕ} :
    binIndex v a = some k ↔ k < a.bins ∧
      truncZ ((v - a.start) / (a.stop - a.start) * (a.bins : α)) = k := by
  unfold binIndex
  dsimp only
  split_ifs with h
  · simp only [Option.some.injEq]
    omega
  · simp only [false_iff, not_and]
    intro hk he
    apply h
    omega

/-- Width of a bin. -/
def width (a : Axis α) : α := (a.stop - a.start) / a.bins

theorem edge_eq (a : Axis α) (k : ℕ) : a.edge k = a.start + k * width a := by
  unfold Axis.edge width
  ring

theorem width_pos {a : Axis α} (ha : a.Valid) : 0 < width a := by
  unfold width
  have : (0 : α) < a.bins := by exact_mod_cast ha.2
  have := sub_pos.2 ha.1
  positivity

theorem scaled_eq {a : Axis α} (v : α) :
    (v - a.start) / (a.stop - a.start) * (a.bins : α) = (v - a.start) / width a := by
  unfold width
  rw [div_div_eq_mul_div]
  ring

/-- Exactly which values land in bin `k`: for `k >= 1` those between the reported edges, for bin 0
also the values up to one bin width below `start`. -/
theorem bin_exact (a : Axis α) (ha : a.Valid) (v : α) (k : ℕ) :
    binIndex v a = some k ↔ k < a.bins ∧
      ((k ≠ 0 ∧ a.edge k ≤ v ∧ v < a.edge (k + 1)) ∨
       (k = 0 ∧ a.start - width a < v ∧ v < a.edge 1)) := by
  have hw := width_pos ha
  rw [binIndex_eq_some_iff, scaled_eq, truncZ_eq_iff, le_div_iff₀ hw, div_lt_iff₀ hw,
    lt_div_iff₀ hw, div_lt_iff₀ hw]
  simp only [edge_eq, Nat.cast_add, Nat.cast_one]
  refine and_congr_right fun _ => or_congr (and_congr_right fun _ => and_congr ?_ ?_)
    (and_congr_right fun _ => and_congr ?_ ?_)
  · exact le_sub_iff_add_le'
  · exact sub_lt_iff_lt_add'
  · constructor <;> intro h <;> linarith
  · exact sub_lt_iff_lt_add'

/-- C14, for values not below `start`: the value is counted in bin `k` exactly when
`edges[k] <= v < edges[k+1]`. Missing: values below `start` (see `below_start_counted`). -/
theorem bin_iff_partial (a : Axis α) (ha : a.Valid) (v : α) (hv : a.start ≤ v) (k : ℕ)
    (hk : k < a.bins) :
    binIndex v a = some k ↔ a.edge k ≤ v ∧ v < a.edge (k + 1) := by
  rw [bin_exact a ha]
  have hw := width_pos ha
  by_cases h0 : k = 0
  · subst h0
    simp only [hk, ne_eq, not_true_eq_false, false_and, true_and, false_or, edge_eq,
      Nat.cast_zero, zero_mul, add_zero]
    constructor
    · intro h; exact ⟨hv, h.2⟩
    · intro h; exact ⟨by linarith, h.2⟩
  · simp [hk, h0]

/-- The first edge is `start` and the last is `stop`. -/
theorem edge_ends (a : Axis α) (ha : a.Valid) : a.edge 0 = a.start ∧ a.edge a.bins = a.stop := by
  have : (0 : α) < a.bins := by exact_mod_cast ha.2
  constructor
  · simp [Axis.edge]
  · unfold Axis.edge
    field_simp
    ring

/-- Values at or beyond `stop` are not counted. -/
theorem beyond_stop (a : Axis α) (ha : a.Valid) (v : α) (hv : a.stop ≤ v) : binIndex v a = none := by
  cases h : binIndex v a with
  | none => rfl
  | some k =>
    exfalso
    have hw := width_pos ha
    obtain ⟨hk, h⟩ := (bin_exact a ha v k).1 h
    have hlast : a.edge (k + 1) ≤ a.stop := by
      rw [← (edge_ends a ha).2, edge_eq, edge_eq]
      have : ((k + 1 : ℕ) : α) ≤ a.bins := by exact_mod_cast hk
      nlinarith
    rcases h with ⟨_, _, h⟩ | ⟨rfl, _, h⟩
    · linarith
    · simp only [zero_add] at hlast
      linarith

/-- Every value in `[start, stop)` is counted in some bin. -/
theorem inside_counted (a : Axis α) (ha : a.Valid) (v : α) (h1 : a.start ≤ v) (h2 : v < a.stop) :
    ∃ k, k < a.bins ∧ binIndex v a = some k := by
  have hw := width_pos ha
  have hn : (0 : α) < a.bins := by exact_mod_cast ha.2
  have hq : 0 ≤ (v - a.start) / width a := div_nonneg (by linarith) hw.le
  have hlt : (v - a.start) / width a < a.bins := by
    rw [div_lt_iff₀ hw]
    have : (a.bins : α) * width a = a.stop - a.start := by
      unfold width; field_simp
    linarith
  have hz : truncZ ((v - a.start) / width a) = ⌊(v - a.start) / width a⌋ := by
    unfold truncZ; rw [if_pos hq]
  have hf0 : 0 ≤ ⌊(v - a.start) / width a⌋ := Int.floor_nonneg.2 hq
  have hfl : ⌊(v - a.start) / width a⌋ < (a.bins : ℤ) := by
    rw [Int.floor_lt]; exact_mod_cast hlt
  have hk : ⌊(v - a.start) / width a⌋.toNat < a.bins := by omega
  refine ⟨⌊(v - a.start) / width a⌋.toNat, hk, ?_⟩
  rw [binIndex_eq_some_iff, scaled_eq, hz]
  exact ⟨hk, by omega⟩

/-- C14 fails: every value less than one bin width below `start` is counted in bin 0. -/
theorem below_start_counted (a : Axis α) (ha : a.Valid) (v : α) (h1 : a.start - width a < v)
    (h2 : v < a.start) : binIndex v a = some 0 := by
  rw [bin_exact a ha]
  have hw := width_pos ha
  refine ⟨ha.2, .inr ⟨rfl, h1, ?_⟩⟩
  rw [edge_eq]
  push_cast
  linarith

/-- C14 for the two axes of a heatmap, for values not below the starts. -/
theorem heat_bin_partial (a b : Axis α) (ha : a.Valid) (hb : b.Valid) (v : Values α)
    (hva : a.start ≤ v.get a.prop) (hvb : b.start ≤ v.get b.prop) (i j : ℕ) (hi : i < a.bins)
    (hj : j < b.bins) :
    (Hist.heat a b).bin v = some (i * b.bins + j) ↔
      (a.edge i ≤ v.get a.prop ∧ v.get a.prop < a.edge (i + 1)) ∧
      (b.edge j ≤ v.get b.prop ∧ v.get b.prop < b.edge (j + 1)) := by
  rw [← bin_iff_partial a ha _ hva i hi, ← bin_iff_partial b hb _ hvb j hj]
  simp only [Hist.bin]
  cases h1 : binIndex (v.get a.prop) a with
  | none => simp
  | some i' =>
    cases h2 : binIndex (v.get b.prop) b with
    | none => simp
    | some j' =>
      have hi' := binIndex_lt h1
      have hj' := binIndex_lt h2
      simp only [Option.some.injEq]
      constructor
      · intro h
        have e1 : (i' * b.bins + j') / b.bins = i' := by
          rw [mul_comm, Nat.mul_add_div (by omega), Nat.div_eq_of_lt hj', add_zero]
        have e2 : (i * b.bins + j) / b.bins = i := by
          rw [mul_comm, Nat.mul_add_div (by omega), Nat.div_eq_of_lt hj, add_zero]
        have : i' = i := by rw [← e1, ← e2, h]
        subst this
        exact ⟨rfl, by omega⟩
      · rintro ⟨rfl, rfl⟩; rfl

end bins

example : (⟨.wavelength, 500, 600, 10⟩ : Axis ℚ).Valid := by constructor <;> norm_num [Axis.Valid]
example : binIndex (555 : ℚ) ⟨.wavelength, 500, 600, 10⟩ = some 5 := by decide +kernel
/-- 495 nm is counted in the bin reported as 500–510 nm. -/
example : binIndex (495 : ℚ) ⟨.wavelength, 500, 600, 10⟩ = some 0 := by decide +kernel

/-! ### C15 -/

theorem sum_sq_identity (l : List ℝ) (m : ℝ) :
    (l.map fun x => (x - m) ^ 2).sum =
      (l.map fun x => x * x).sum - 2 * m * l.sum + l.length * m ^ 2 := by
  induction l with
  | nil => simp
  | cons x l ih =>
    simp only [List.map_cons, List.sum_cons, List.length_cons, ih]
    push_cast
    ring

/-- C15. Over the values `xs` of property `i` recorded for the distinct rays, `mean` is the
arithmetic mean, `std` the population standard deviation (so the clamp of the variance never
acts) and `error` the standard error; without rays all three are `nan`. -/
theorem statistics {ν : Type} (E : TallyEnv ℝ ν) (recs : List (ν × Recorder ℝ))
    (hnd : (recs.map (·.2.name)).Nodup) (hs : List (List (Step ℝ)))
    (out : List (ν × Recorder ℝ × TallyState ℝ)) (h : tallyHistories E recs hs = .ok out)
    (p : ν × Recorder ℝ × TallyState ℝ) (hp : p ∈ out) (i : Fin 4) :
    let xs := (recorded E p.1 p.2.1 hs).map fun v => v.get (momentProp i)
    (xs = [] → p.2.2.mean i = none ∧ p.2.2.std i = none ∧ p.2.2.error i = none) ∧
    (xs ≠ [] →
      let mean : ℝ := xs.sum / (xs.length : ℝ)
      let variance : ℝ := (xs.map fun x => (x - mean) ^ 2).sum / (xs.length : ℝ)
      p.2.2.mean i = some mean ∧ 0 ≤ variance ∧ p.2.2.std i = some (Real.sqrt variance) ∧
      p.2.2.error i = some (Real.sqrt variance / Real.sqrt (xs.length : ℝ))) := by
  intro xs
  have ho := tally_exact E recs hnd hs out h
  rw [ho] at hp
  obtain ⟨q, _, rfl⟩ := List.mem_map.1 hp
  have hlen : (recorded E q.1 q.2 hs).length = xs.length := by simp [xs]
  constructor
  · intro hx
    rw [hx] at hlen
    simp [TallyState.mean, TallyState.std, TallyState.error, hlen]
  · intro hx mean variance
    have h0 : xs.length ≠ 0 := by simpa using hx
    have hpos : (0 : ℝ) < xs.length := by exact_mod_cast Nat.pos_of_ne_zero h0
    have hvar : 0 ≤ variance := by
      refine div_nonneg (List.sum_nonneg ?_) hpos.le
      intro y hy
      obtain ⟨x, _, rfl⟩ := List.mem_map.1 hy
      positivity
    have hsq : ((recorded E q.1 q.2 hs).map fun v =>
        v.get (momentProp i) * v.get (momentProp i)) = xs.map fun x => x * x := by
      simp [xs, List.map_map, Function.comp_def]
    have hv : (xs.map fun x => x * x).sum / xs.length - mean * mean = variance := by
      simp only [variance, sum_sq_identity, mean]
      field_simp
      ring
    have hstd : (((recorded E q.1 q.2 hs).map fun v =>
        v.get (momentProp i) * v.get (momentProp i)).sum / (xs.length : ℝ) - mean * mean) =
        variance := by rw [hsq, hv]
    refine ⟨?_, hvar, ?_, ?_⟩
    · simp only [TallyState.mean, hlen, if_neg h0, mean, xs]
    · simp only [TallyState.std, hlen, if_neg h0]
      rw [show (recorded E q.1 q.2 hs).map (fun v => v.get (momentProp i)) = xs from rfl]
      change some (Real.sqrt (max (_ / (xs.length : ℝ) - mean * mean) 0)) = _
      rw [hstd, max_eq_left hvar]
    · simp only [TallyState.error, TallyState.std, hlen, if_neg h0]
      change some (Real.sqrt (max (_ / (xs.length : ℝ) - mean * mean) 0) / _) = _
      rw [hstd, max_eq_left hvar]

end PV.Tally
