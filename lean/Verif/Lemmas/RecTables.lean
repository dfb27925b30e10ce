import Verif.Lemmas.Kernel
import Verif.Lemmas.Schedule
import Verif.Props.Tally

namespace PV
set_option linter.unusedSectionVars false
variable {α ν : Type}

section
variable [Zero α] [One α]

/-- Start of the slice of histogram `k` in a list of histograms stored one after the other. -/
def sliceStart (hs : List (Hist α)) (k : ℕ) : ℕ := ((hs.take k).map Hist.size).sum

@[simp] theorem sliceStart_zero (hs : List (Hist α)) : sliceStart hs 0 = 0 := by simp [sliceStart]

theorem sliceStart_cons (h : Hist α) (hs : List (Hist α)) (k : ℕ) :
    sliceStart (h :: hs) (k + 1) = h.size + sliceStart hs k := by simp [sliceStart]

theorem compileHists_end (o : ℕ) (hs : List (Hist α)) :
    (compileHists o hs).2 = o + (hs.map Hist.size).sum := by
  induction hs generalizing o with
  | nil => rfl
  | cons h hs ih => simp only [compileHists, ih, List.map_cons, List.sum_cons]; omega

theorem compileHists_get (o : ℕ) (hs : List (Hist α)) (k : ℕ) :
    (compileHists o hs).1[k]? = hs[k]?.map (compileHist (o + sliceStart hs k)) := by
  induction hs generalizing o k with
  | nil => rfl
  | cons h hs ih =>
    cases k with
    | zero => simp [compileHists]
    | succ k =>
      simp only [compileHists, List.getElem?_cons_succ, ih, sliceStart_cons, Nat.add_assoc]

theorem compileHists_length (o : ℕ) (hs : List (Hist α)) :
    (compileHists o hs).1.length = hs.length := by
  induction hs generalizing o with
  | nil => rfl
  | cons h hs ih => simp [compileHists, ih]

theorem compileHists_append (o : ℕ) (a b : List (Hist α)) :
    (compileHists o (a ++ b)).1 =
      (compileHists o a).1 ++ (compileHists (compileHists o a).2 b).1 := by
  induction a generalizing o with
  | nil => rfl
  | cons h a ih => simp [compileHists, ih]

/-- The histograms of all recorders in order. -/
def allHists (ps : List (ν × Recorder α)) : List (Hist α) := ps.flatMap fun p => p.2.hists

/-- Index of the first histogram of recorder `r`. -/
def histStart (ps : List (ν × Recorder α)) (r : ℕ) : ℕ := (allHists (ps.take r)).length

theorem compileRecs_hists (start o : ℕ) (ps : List (ν × Recorder α)) :
    (compileRecs start o ps).2.1 = (compileHists o (allHists ps)).1 ∧
    (compileRecs start o ps).2.2 = o + ((allHists ps).map Hist.size).sum := by
  induction ps generalizing start o with
  | nil => exact ⟨rfl, rfl⟩
  | cons p ps ih =>
    obtain ⟨node, r⟩ := p
    obtain ⟨h1, h2⟩ := ih (start + r.hists.length) (compileHists o r.hists).2
    have ha : allHists ((node, r) :: ps) = r.hists ++ allHists ps := rfl
    rw [compileHists_end] at h1 h2
    simp only [compileRecs, ha, h1, h2, compileHists_append, compileHists_end, List.map_append,
      List.sum_append]
    exact ⟨trivial, by omega⟩

theorem compileRecs_get (start o : ℕ) (ps : List (ν × Recorder α)) (r : ℕ) :
    (compileRecs start o ps).1[r]? = ps[r]?.map fun p =>
      ⟨p.1, p.2.event, p.2.facet, p.2.atol, start + histStart ps r, p.2.hists.length⟩ := by
  induction ps generalizing start o r with
  | nil => rfl
  | cons p ps ih =>
    obtain ⟨node, q⟩ := p
    cases r with
    | zero => simp [compileRecs, histStart, allHists]
    | succ r =>
      simp only [compileRecs, List.getElem?_cons_succ, ih]
      congr 1
      funext p
      congr 1
      simp [histStart, allHists, Nat.add_assoc]

theorem histStart_add_lt {ps : List (ν × Recorder α)} {r : ℕ} {p : ν × Recorder α}
    (hp : ps[r]? = some p) {h : ℕ} (hh : h < p.2.hists.length) :
    (allHists ps)[histStart ps r + h]? = p.2.hists[h]? := by
  induction ps generalizing r with
  | nil => cases hp
  | cons q ps ih =>
    have ha : allHists (q :: ps) = q.2.hists ++ allHists ps := rfl
    cases r with
    | zero =>
      simp only [List.getElem?_cons_zero, Option.some.injEq] at hp
      subst hp
      have : histStart (q :: ps) 0 = 0 := rfl
      rw [ha, this, Nat.zero_add, List.getElem?_append_left hh]
    | succ r =>
      rw [List.getElem?_cons_succ] at hp
      have : histStart (q :: ps) (r + 1) = q.2.hists.length + histStart ps r := by
        simp [histStart, allHists]
      rw [ha, this, List.getElem?_append_right (by omega), ← ih hp]
      congr 1
      omega

/-- Every bin of consecutive slices lies in exactly one slice. -/
theorem slice_cover (hs : List (Hist α)) (b : ℕ) (hb : b < (hs.map Hist.size).sum) :
    ∃ k h, hs[k]? = some h ∧ sliceStart hs k ≤ b ∧ b < sliceStart hs k + h.size := by
  induction hs generalizing b with
  | nil => simp at hb
  | cons h hs ih =>
    simp only [List.map_cons, List.sum_cons] at hb
    by_cases hlt : b < h.size
    · exact ⟨0, h, rfl, by simp, by simpa using hlt⟩
    · obtain ⟨k, h', h1, h2, h3⟩ := ih (b - h.size) (by omega)
      refine ⟨k + 1, h', by simpa using h1, ?_, ?_⟩ <;> rw [sliceStart_cons] <;> omega

theorem slice_inside (hs : List (Hist α)) (k : ℕ) (h : Hist α) (hk : hs[k]? = some h) :
    sliceStart hs k + h.size ≤ (hs.map Hist.size).sum := by
  induction hs generalizing k with
  | nil => cases hk
  | cons h' hs ih =>
    cases k with
    | zero =>
      simp only [List.getElem?_cons_zero, Option.some.injEq] at hk
      subst hk
      simp
    | succ k =>
      rw [sliceStart_cons]
      have := ih k (by simpa using hk)
      simp only [List.map_cons, List.sum_cons]
      omega

theorem slice_order (hs : List (Hist α)) (k k' : ℕ) (h : Hist α) (hk : hs[k]? = some h)
    (hlt : k < k') : sliceStart hs k + h.size ≤ sliceStart hs k' := by
  induction hs generalizing k k' with
  | nil => cases hk
  | cons h' hs ih =>
    obtain ⟨j, rfl⟩ : ∃ j, k' = j + 1 := ⟨k' - 1, by omega⟩
    rw [sliceStart_cons]
    cases k with
    | zero =>
      simp only [List.getElem?_cons_zero, Option.some.injEq] at hk
      subst hk
      simp
    | succ k =>
      rw [sliceStart_cons]
      have := ih k j (by simpa using hk) (by omega)
      omega

theorem slice_unique (hs : List (Hist α)) (k k' b : ℕ) (h h' : Hist α) (hk : hs[k]? = some h)
    (hk' : hs[k']? = some h') (h1 : sliceStart hs k ≤ b) (h2 : b < sliceStart hs k + h.size)
    (h3 : sliceStart hs k' ≤ b) (h4 : b < sliceStart hs k' + h'.size) : k = k' := by
  rcases Nat.lt_trichotomy k k' with hlt | heq | hgt
  · have := slice_order hs k k' h hk hlt; omega
  · exact heq
  · have := slice_order hs k' k h' hk' hgt; omega

theorem compileHist_size (o : ℕ) (h : Hist α) :
    (compileHist o h).na * (compileHist o h).nb = h.size ∧ (compileHist o h).offset = o := by
  cases h <;> simp [compileHist, Hist.size]

end

section
variable [Field α] [LinearOrder α] [FloorRing α] [DecidableEq ν]

theorem kBin_eq (v : α) (a : Axis α) : kBin v a.start a.stop a.bins = binIndex v a := by
  unfold kBin binIndex
  dsimp only
  by_cases h : 0 ≤ truncZ ((v - a.start) / (a.stop - a.start) * (a.bins : α)) ∧
      truncZ ((v - a.start) / (a.stop - a.start) * (a.bins : α)) < (a.bins : ℤ)
  · rw [if_pos h, if_neg (by omega)]
  · rw [if_neg h, if_pos (by omega)]

/-- The engine increments the bin that Python increments, inside the slice. -/
theorem kHistBin_eq (o : ℕ) (h : Hist α) (v : Values α) :
    kHistBin (compileHist o h) v = (h.bin v).map (o + ·) := by
  cases h with
  | one a =>
    simp only [kHistBin, compileHist, Hist.bin, kBin_eq]
    cases binIndex (v.get a.prop) a <;> rfl
  | heat a b =>
    simp only [kHistBin, compileHist, Hist.bin, kBin_eq]
    cases binIndex (v.get a.prop) a with
    | none => rfl
    | some i =>
      cases binIndex (v.get b.prop) b with
      | none => rfl
      | some j => simp [Nat.add_assoc]

theorem compileRecorders_eq {ps : List (ν × Recorder α)} {T : RecTables α ν}
    (h : compileRecorders ps = some T) :
    T = ⟨(compileRecs 0 0 ps).1, (compileRecs 0 0 ps).2.1, (compileRecs 0 0 ps).2.2⟩ ∧
    (ps.map (·.2.name)).Nodup := by
  unfold compileRecorders at h
  split_ifs at h with h1 h2 h3
  simp only [Option.some.injEq] at h
  exact ⟨h.symm, by simpa using h3⟩

end
end PV
