import Verif.Lemmas.KernelRay
import Verif.Props.RecTables

namespace PV
set_option linter.unusedSectionVars false
open Spec
variable {α ν κ σ : Type} [Field α] [LinearOrder α] [FloorRing α] [DecidableEq ν]

/-! ### One recorder in `tally` -/

section one
variable {ρ M : Type} [AddCommMonoid M]

/-- Sum of a functional over effects. -/
def total (F : Effect α ρ → M) (es : List (Effect α ρ)) : M := (es.map F).sum

omit [Field α] [LinearOrder α] [FloorRing α] in
@[simp] theorem total_nil (F : Effect α ρ → M) : total F [] = 0 := rfl
omit [Field α] [LinearOrder α] [FloorRing α] in
theorem total_append (F : Effect α ρ → M) (a b : List (Effect α ρ)) :
    total F (a ++ b) = total F a + total F b := by simp [total]

/-- `F` does not see the writes for recorders other than `r`. -/
def LocalTo (T : RecTables α ν) (r : ℕ) (F : Effect α ρ → M) : Prop :=
  ∀ i row c seen, T.recs[i]? = some row → i ≠ r → total F (kTallyOne T c row i seen).1 = 0

theorem kTallyFrom_total (T : RecTables α ν) (c : TallyCall α ν) (r : ℕ) (F : Effect α ρ → M)
    (hF : LocalTo T r F) (row : RecRow α ν) (hr : T.recs[r]? = some row) :
    ∀ (rs : List (RecRow α ν)) (i : ℕ) (seen : ℕ → Bool),
      (∀ j x, rs[j]? = some x → T.recs[i + j]? = some x) →
      total F (kTallyFrom (ρ := ρ) T c rs i seen).1 =
        (if i ≤ r ∧ r < i + rs.length then total F (kTallyOne (ρ := ρ) T c row r seen).1 else 0) ∧
      (kTallyFrom (ρ := ρ) T c rs i seen).2 r =
        (if i ≤ r ∧ r < i + rs.length then (kTallyOne (ρ := ρ) T c row r seen).2 r else seen r) := by
  intro rs
  induction rs with
  | nil => intro i seen _; simp [kTallyFrom, show ¬ (i ≤ r ∧ r < i) by omega]
  | cons x rs ih =>
    intro i seen hrs
    have hx : T.recs[i]? = some x := by simpa using hrs 0 x rfl
    obtain ⟨h1, h2⟩ := ih (i + 1) (kTallyOne (ρ := ρ) T c x i seen).2 fun j y hj => by
      have := hrs (j + 1) y (by simpa using hj)
      rwa [show i + (j + 1) = i + 1 + j by omega] at this
    simp only [kTallyFrom, total_append, h1, h2, List.length_cons]
    by_cases hir : i = r
    · subst hir
      rw [hx, Option.some.injEq] at hr
      subst hr
      simp
    · have h0 : total F (kTallyOne (ρ := ρ) T c x i seen).1 = 0 := hF i x c seen hx hir
      rw [h0, zero_add]
      have hseen : (kTallyOne (ρ := ρ) T c x i seen).2 r = seen r := by
        unfold kTallyOne
        split_ifs
        · rfl
        · exact if_neg fun h => hir h.symm
        · rfl
      have hone : (kTallyOne (ρ := ρ) T c row r (kTallyOne (ρ := ρ) T c x i seen).2).1 =
            (kTallyOne (ρ := ρ) T c row r seen).1 ∧
          (kTallyOne (ρ := ρ) T c row r (kTallyOne (ρ := ρ) T c x i seen).2).2 r =
            (kTallyOne (ρ := ρ) T c row r seen).2 r := by
        generalize (kTallyOne (ρ := ρ) T c x i seen).2 = seen' at hseen
        unfold kTallyOne
        rw [hseen]
        split_ifs <;> simp [hseen]
      have hiff : (i + 1 ≤ r ∧ r < i + 1 + rs.length) ↔ (i ≤ r ∧ r < i + (rs.length + 1)) := by
        omega
      rw [hone.1, hone.2, hseen]
      simp only [hiff]
      exact ⟨trivial, trivial⟩

/-- What the writes for recorder `r` add up to: one `cross` per counted call, and the record of the
first counted call unless the recorder was already seen. -/
theorem kTallies_total (T : RecTables α ν) (r : ℕ) (F : Effect α ρ → M)
    (hF : LocalTo T r F) (row : RecRow α ν) (hr : T.recs[r]? = some row) :
    ∀ (cs : List (TallyCall α ν)) (seen : ℕ → Bool),
      total F (kTallies (ρ := ρ) T cs seen).1 =
        (cs.countP fun c => kCounts c row) • F (.cross r) +
        (if seen r then 0 else
          (((cs.find? fun c => kCounts c row).map fun c => F (.distinct r) +
            (total F (kSums r c.values) + total F (kBins T row c.values))).getD 0)) := by
  intro cs
  induction cs with
  | nil => intro seen; simp [kTallies]
  | cons c cs ih =>
    intro seen
    have hlt : r < T.recs.length := (List.getElem?_eq_some_iff.1 hr).1
    obtain ⟨h1, h2⟩ := kTallyFrom_total (ρ := ρ) T c r F hF row hr T.recs 0 seen
      (fun j x hj => by simpa using hj)
    rw [if_pos (by omega)] at h1 h2
    simp only [kTallies, total_append]
    change total F (kTally (ρ := ρ) T c seen).1 = _ at h1
    change (kTally (ρ := ρ) T c seen).2 r = _ at h2
    rw [h1, ih, h2]
    unfold kTallyOne
    by_cases hc : kCounts c row = true
    · rw [if_pos hc, List.countP_cons, if_pos hc, List.find?_cons_of_pos (p := fun c => kCounts c row) hc]
      by_cases hs : seen r = true
      · simp only [hs, if_true]
        simp only [total, List.map_cons, List.map_nil, List.sum_cons, List.sum_nil, add_zero]
        rw [succ_nsmul, add_comm]
      · simp only [hs, Bool.false_eq_true, if_false, if_true, add_zero]
        rw [← List.cons_append, ← List.cons_append, total_append]
        simp only [total, List.map_cons, List.sum_cons, Option.map_some, Option.getD_some]
        rw [succ_nsmul]
        abel
    · rw [if_neg hc, List.countP_cons, if_neg hc, List.find?_cons_of_neg (p := fun c => kCounts c row) hc]
      simp only [total_nil, zero_add, Nat.add_zero]

end one

/-! ### The functionals read by the results -/

section functionals
variable {ρ : Type}

theorem total_kBins_zero {M : Type} [AddCommMonoid M] (F : Effect α ρ → M)
    (hF : ∀ b, F (.bin b) = 0) (T : RecTables α ν) (row : RecRow α ν) (v : Values α) :
    total F (kBins T row v) = 0 := by
  unfold total kBins
  generalize List.range' row.histStart row.histN = l
  induction l with
  | nil => rfl
  | cons h l ih =>
    rw [List.filterMap_cons]
    cases hT : T.hists[h]? with
    | none => exact ih
    | some x =>
      dsimp only
      cases hb : kHistBin x v with
      | none => exact ih
      | some b => simp only [Option.map_some, List.map_cons, List.sum_cons, hF, zero_add]; exact ih

theorem local_cross (T : RecTables α ν) (r : ℕ) : LocalTo (ρ := ρ) T r (dCross r) := by
  intro i row c seen _ hne
  have hb := total_kBins_zero (dCross r : Effect α ρ → ℕ) (fun _ => rfl) T row c.values
  have hri : ¬ r = i := fun h => hne h.symm
  unfold kTallyOne
  split_ifs
  · simp [total, dCross, hri]
  · rw [← List.cons_append, ← List.cons_append, total_append, hb]
    simp [total, dCross, kSums, hri]
  · rfl

theorem local_distinct (T : RecTables α ν) (r : ℕ) : LocalTo (ρ := ρ) T r (dDistinct r) := by
  intro i row c seen _ hne
  have hb := total_kBins_zero (dDistinct r : Effect α ρ → ℕ) (fun _ => rfl) T row c.values
  have hri : ¬ r = i := fun h => hne h.symm
  unfold kTallyOne
  split_ifs
  · simp [total, dDistinct]
  · rw [← List.cons_append, ← List.cons_append, total_append, hb]
    simp [total, dDistinct, kSums, hri]
  · rfl

theorem local_sum (T : RecTables α ν) (r q : ℕ) (hq : q < 8) :
    LocalTo (ρ := ρ) T r (dSum (r * 8 + q)) := by
  intro i row c seen _ hne
  have hb := total_kBins_zero (dSum (r * 8 + q) : Effect α ρ → α) (fun _ => rfl) T row c.values
  have hi : ∀ k < 8, ¬ r * 8 + q = i * 8 + k := by intro k hk; omega
  have hi0 : ¬ r * 8 + q = i * 8 := hi 0 (by omega)
  unfold kTallyOne
  split_ifs
  · simp [total, dSum]
  · rw [← List.cons_append, ← List.cons_append, total_append, hb]
    simp only [total, List.map_cons, List.map_nil, List.sum_cons, List.sum_nil, dSum, kSums,
      hi0, hi 1 (by omega), hi 2 (by omega), hi 3 (by omega), hi 4 (by omega),
      hi 5 (by omega), hi 6 (by omega), hi 7 (by omega), if_false, add_zero]
  · rfl

/-- The increments of one bin by `kBins`. -/
theorem total_bin_kBins (T : RecTables α ν) (row : RecRow α ν) (v : Values α) (b : ℕ) :
    total (dBin b : Effect α ρ → ℕ) (kBins T row v) =
      (List.range' row.histStart row.histN).countP fun h =>
        (T.hists[h]?.bind fun x => kHistBin x v) = some b := by
  unfold total kBins
  generalize List.range' row.histStart row.histN = l
  induction l with
  | nil => rfl
  | cons h l ih =>
    rw [List.filterMap_cons, List.countP_cons, ← ih]
    cases hT : T.hists[h]? with
    | none => simp
    | some x =>
      dsimp only
      cases hb : kHistBin x v with
      | none => simp [hb]
      | some b' =>
        simp only [Option.map_some, List.map_cons, List.sum_cons, dBin, Option.bind_some, hb,
          Option.some.injEq, decide_eq_true_eq, eq_comm (a := b)]
        exact Nat.add_comm _ _

open RecTables in
theorem local_bin {ps : List (ν × Recorder α)} {T : RecTables α ν}
    (hT : compileRecorders ps = some T) (r h : ℕ) (p : ν × Recorder α) (hp : ps[r]? = some p)
    (x : Hist α) (hx : p.2.hists[h]? = some x) (k : ℕ) (hk : k < x.size) :
    LocalTo (ρ := ρ) T r (dBin (sliceStart (allHists ps) (histStart ps r + h) + k)) := by
  intro i row c seen hrow hne
  have hh : h < p.2.hists.length := (List.getElem?_eq_some_iff.1 hx).1
  have hxx : (allHists ps)[histStart ps r + h]? = some x := by
    rw [histStart_add_lt hp hh, hx]
  have hb : total (dBin (sliceStart (allHists ps) (histStart ps r + h) + k) : Effect α ρ → ℕ)
      (kBins T row c.values) = 0 := by
    rw [total_bin_kBins, List.countP_eq_zero]
    intro j hj hcon
    simp only [decide_eq_true_eq] at hcon
    rw [rec_at hT] at hrow
    obtain ⟨q, hq, rfl⟩ := Option.map_eq_some_iff.1 hrow
    simp only [List.mem_range'_1] at hj
    obtain ⟨j', rfl⟩ : ∃ j', j = histStart ps i + j' := ⟨j - histStart ps i, by omega⟩
    obtain ⟨row', x', _, hr', hx', hxr'⟩ := hist_row ps T hT i j' q hq (by omega)
    rw [hr', Option.bind_some, hxr', kHistBin_eq] at hcon
    obtain ⟨k', hk', he⟩ := Option.map_eq_some_iff.1 hcon
    have hlt' := Tally.bin_lt hk'
    have hxx' : (allHists ps)[histStart ps i + j']? = some x' := by
      rw [histStart_add_lt hq (by omega), hx']
    have := slice_unique (allHists ps) _ _
      (sliceStart (allHists ps) (histStart ps r + h) + k) x x' hxx hxx' (by omega) (by omega)
      (by omega) (by omega)
    exact hne (hist_row_injective ps r i h j' p q hp hq hh (by omega) this).1.symm
  unfold kTallyOne
  split_ifs
  · simp [total, dBin]
  · rw [← List.cons_append, ← List.cons_append, total_append, hb]
    simp [total, dBin, kSums]
  · rfl

open RecTables in
/-- The increments of bin `k` of histogram `h` of recorder `r` made for one record. -/
theorem total_own_bin {ps : List (ν × Recorder α)} {T : RecTables α ν}
    (hT : compileRecorders ps = some T) (r h : ℕ) (p : ν × Recorder α) (hp : ps[r]? = some p)
    (x : Hist α) (hx : p.2.hists[h]? = some x) (k : ℕ) (hk : k < x.size) (row : RecRow α ν)
    (hrow : T.recs[r]? = some row) (v : Values α) :
    total (dBin (sliceStart (allHists ps) (histStart ps r + h) + k) : Effect α ρ → ℕ)
      (kBins T row v) = if x.bin v = some k then 1 else 0 := by
  have hh : h < p.2.hists.length := (List.getElem?_eq_some_iff.1 hx).1
  have hxx : (allHists ps)[histStart ps r + h]? = some x := by
    rw [histStart_add_lt hp hh, hx]
  rw [rec_at hT, hp] at hrow
  simp only [Option.map_some, Option.some.injEq] at hrow
  subst hrow
  rw [total_bin_kBins]
  have hiff : ∀ j ∈ List.range' (histStart ps r) p.2.hists.length,
      ((T.hists[j]?.bind fun x => kHistBin x v) =
        some (sliceStart (allHists ps) (histStart ps r + h) + k)) ↔
      (j = histStart ps r + h ∧ x.bin v = some k) := by
    intro j hj
    simp only [List.mem_range'_1] at hj
    obtain ⟨j', rfl⟩ : ∃ j', j = histStart ps r + j' := ⟨j - histStart ps r, by omega⟩
    obtain ⟨row', x', _, hr', hx', hxr'⟩ := hist_row ps T hT r j' p hp (by omega)
    have hxx' : (allHists ps)[histStart ps r + j']? = some x' := by
      rw [histStart_add_lt hp (by omega), hx']
    rw [hr', Option.bind_some, hxr', kHistBin_eq]
    constructor
    · intro hcon
      obtain ⟨k', hk', he⟩ := Option.map_eq_some_iff.1 hcon
      have hlt' := Tally.bin_lt hk'
      have hu := slice_unique (allHists ps) _ _
        (sliceStart (allHists ps) (histStart ps r + h) + k) x x' hxx hxx' (by omega) (by omega)
        (by omega) (by omega)
      have : j' = h := by omega
      subst this
      rw [hx, Option.some.injEq] at hx'
      subst hx'
      exact ⟨rfl, by rw [hk']; congr 1; omega⟩
    · rintro ⟨he, hb⟩
      have : j' = h := by omega
      subst this
      rw [hx, Option.some.injEq] at hx'
      subst hx'
      rw [hb]; rfl
  have hcount : ((List.range' (histStart ps r) p.2.hists.length).countP fun j =>
        decide ((T.hists[j]?.bind fun x => kHistBin x v) =
          some (sliceStart (allHists ps) (histStart ps r + h) + k))) =
      (List.range' (histStart ps r) p.2.hists.length).countP fun j =>
        decide (j = histStart ps r + h ∧ x.bin v = some k) := by
    apply List.countP_congr
    intro j hj
    simp only [decide_eq_true_eq]
    exact hiff j hj
  rw [hcount]
  by_cases hb : x.bin v = some k
  · simp only [hb, and_true, if_true]
    have : ((List.range' (histStart ps r) p.2.hists.length).countP fun j =>
        decide (j = histStart ps r + h)) =
        (List.range' (histStart ps r) p.2.hists.length).count (histStart ps r + h) := by
      unfold List.count
      apply List.countP_congr
      intro j _
      simp
    rw [this, List.count_eq_one_of_mem List.nodup_range' (by simp only [List.mem_range'_1]; omega)]
  · simp [hb]

end functionals
end PV
