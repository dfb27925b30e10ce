import Verif.Spec.EventLog
import Verif.Lemmas.KernelRay
import Verif.Lemmas.Schedule
import Mathlib.Data.Rat.Floor

/-!
C17, C18, C13: the event log is in bounds, rays do not share rows, `histories()` returns what was
recorded, and nothing depends on threads or on their interleaving.
-/

namespace PV.EventLog
set_option linter.unusedSectionVars false
open PV.Spec
variable {α ν κ σ : Type} [Field α] [LinearOrder α] [FloorRing α] [DecidableEq ν]

/-! ### C17 -/

theorem div_lt_nRecorded {re i n : ℕ} (hre : 0 < re) (hi : i < n) : i / re < nRecorded re n := by
  unfold nRecorded
  rw [if_pos hre, Nat.div_lt_iff_lt_mul hre]
  have := Nat.lt_div_mul_add (a := n + re - 1) hre
  omega

theorem mul_lt_of_lt_nRecorded {re j n : ℕ} (h : j < nRecorded re n) : 0 < re ∧ j * re < n := by
  unfold nRecorded at h
  split_ifs at h with hre
  · refine ⟨hre, ?_⟩
    have h2 := Nat.div_mul_le_self (n + re - 1) re
    have h3 : (j + 1) * re ≤ (n + re - 1) / re * re := Nat.mul_le_mul_right _ h
    rw [Nat.add_mul] at h3
    omega
  · omega

theorem mem_kRecords {ρ : Type} {base m : ℕ} {rows : List ρ} {p : ℕ × ρ}
    (h : p ∈ kRecords (some (base, m)) 0 rows) : base ≤ p.1 ∧ p.1 < base + m := by
  simp only [kRecords, List.mem_map] at h
  obtain ⟨q, hq, rfl⟩ := h
  have h1 := List.le_snd_of_mem_zipIdx hq
  have h2 := List.snd_lt_add_of_mem_zipIdx hq
  have h3 := List.length_take_le (m - 0) rows
  simp only at *
  omega

theorem mem_writesOf {ρ : Type} {es : List (Effect α ρ)} {i : ℕ} {row : ρ}
    (h : .write i row ∈ es) : (i, row) ∈ writesOf es :=
  List.mem_filterMap.2 ⟨_, h, rfl⟩

theorem write_slot (K : KOps α ν κ σ) (T : RecTables α ν) (maxsteps m re : ℕ)
    (bundle : List (Launch α κ σ)) {i idx : ℕ} {row : Row α ν κ}
    (h : .write idx row ∈ kRay K T maxsteps m re bundle i) :
    i < bundle.length ∧ 0 < re ∧ i % re = 0 ∧ i / re * m ≤ idx ∧ idx < i / re * m + m := by
  have hw := mem_writesOf h
  cases hl : bundle[i]? with
  | none => unfold kRay at hw; rw [hl] at hw; cases hw
  | some l =>
    rw [kRay_writes K T maxsteps m re bundle i l hl] at hw
    have hi : i < bundle.length := (List.getElem?_eq_some_iff.1 hl).1
    unfold slotOf at hw
    split_ifs at hw with hc
    · have := mem_kRecords hw
      exact ⟨hi, hc.1, hc.2, this.1, this.2⟩
    · simp [kRecords] at hw

/-- Every row written lies inside the allocated arrays, which have `nRecorded * max_events` rows. -/
theorem rows_in_bounds (K : KOps α ν κ σ) (T : RecTables α ν) (maxsteps maxEvents recordEvery : ℕ)
    (bundle : List (Launch α κ σ)) (i index : ℕ) (row : Row α ν κ)
    (h : .write index row ∈ kRay K T maxsteps maxEvents recordEvery bundle i) :
    index < nRecorded recordEvery bundle.length * maxEvents := by
  obtain ⟨hi, hre, _, _, h2⟩ := write_slot K T maxsteps maxEvents recordEvery bundle h
  have := div_lt_nRecorded hre hi
  calc index < i / recordEvery * maxEvents + maxEvents := h2
    _ = (i / recordEvery + 1) * maxEvents := by ring
    _ ≤ _ := Nat.mul_le_mul_right _ this

/-- Two different rays never write the same row. -/
theorem rows_disjoint (K : KOps α ν κ σ) (T : RecTables α ν) (maxsteps maxEvents recordEvery : ℕ)
    (bundle : List (Launch α κ σ)) (i j index : ℕ) (row row' : Row α ν κ)
    (h : .write index row ∈ kRay K T maxsteps maxEvents recordEvery bundle i)
    (h' : .write index row' ∈ kRay K T maxsteps maxEvents recordEvery bundle j) : i = j := by
  obtain ⟨_, hre, hi, a1, a2⟩ := write_slot K T maxsteps maxEvents recordEvery bundle h
  obtain ⟨_, _, hj, b1, b2⟩ := write_slot K T maxsteps maxEvents recordEvery bundle h'
  have key : ∀ x y m idx : ℕ, x * m ≤ idx → idx < x * m + m → y * m ≤ idx → idx < y * m + m →
      x = y := by
    intro x y m idx h1 h2 h3 h4
    have hx : x * m < (y + 1) * m := by rw [Nat.add_mul, Nat.one_mul]; omega
    have hy : y * m < (x + 1) * m := by rw [Nat.add_mul, Nat.one_mul]; omega
    have := Nat.lt_of_mul_lt_mul_right hx
    have := Nat.lt_of_mul_lt_mul_right hy
    omega
  have hd := key _ _ _ _ a1 a2 b1 b2
  rw [← Nat.div_add_mod i recordEvery, ← Nat.div_add_mod j recordEvery, hi, hj, hd]

theorem mem_countsOf {ρ : Type} {es : List (Effect α ρ)} {i n : ℕ}
    (h : .count i n ∈ es) : (i, n) ∈ countsOf es :=
  List.mem_filterMap.2 ⟨_, h, rfl⟩

theorem count_slot (K : KOps α ν κ σ) (T : RecTables α ν) (maxsteps m re : ℕ)
    (bundle : List (Launch α κ σ)) {i idx n : ℕ}
    (h : .count idx n ∈ kRay K T maxsteps m re bundle i) :
    i < bundle.length ∧ 0 < re ∧ i % re = 0 ∧ idx = i / re ∧ n ≤ m := by
  have hw := mem_countsOf h
  cases hl : bundle[i]? with
  | none => unfold kRay at hw; rw [hl] at hw; cases hw
  | some l =>
    rw [kRay_counts K T maxsteps m re bundle i l hl] at hw
    have hi : i < bundle.length := (List.getElem?_eq_some_iff.1 hl).1
    split_ifs at hw with hc
    · simp only [List.mem_singleton, Prod.mk.injEq] at hw
      exact ⟨hi, hc.1, hc.2, hw.1, by omega⟩
    · cases hw

/-- The entry of `counts` a ray writes is in bounds, is its own, and does not exceed
`max_events`. -/
theorem counts_in_bounds (K : KOps α ν κ σ) (T : RecTables α ν) (maxsteps maxEvents recordEvery : ℕ)
    (bundle : List (Launch α κ σ)) (i index n : ℕ)
    (h : .count index n ∈ kRay K T maxsteps maxEvents recordEvery bundle i) :
    index < nRecorded recordEvery bundle.length ∧ n ≤ maxEvents ∧
      ∀ j n', .count index n' ∈ kRay K T maxsteps maxEvents recordEvery bundle j → j = i := by
  obtain ⟨hi, hre, hm, rfl, hn⟩ := count_slot K T maxsteps maxEvents recordEvery bundle h
  refine ⟨div_lt_nRecorded hre hi, hn, fun j n' hj => ?_⟩
  obtain ⟨_, _, hm', hd, _⟩ := count_slot K T maxsteps maxEvents recordEvery bundle hj
  rw [← Nat.div_add_mod i recordEvery, ← Nat.div_add_mod j recordEvery, hm, hm', hd]

/-! ### C13 -/

/-- Log, counts and recorder tallies are the same for every number of threads, every assignment of
rays to threads and every interleaving. -/
theorem schedule_independent (K : KOps α ν κ σ) (T : RecTables α ν)
    (maxsteps maxEvents recordEvery : ℕ) (bundle : List (Launch α κ σ)) (threads threads' : ℕ)
    (es es' : List (Tagged α (Row α ν κ)))
    (h : Execution bundle.length threads (kRay K T maxsteps maxEvents recordEvery bundle) es)
    (h' : Execution bundle.length threads' (kRay K T maxsteps maxEvents recordEvery bundle) es') :
    (Mem.exec es).log = (Mem.exec es').log ∧
    (Mem.exec es).counts = (Mem.exec es').counts ∧
    (Mem.exec es).merged threads = (Mem.exec es').merged threads' := by
  refine ⟨?_, ?_, ?_⟩
  · funext k
    rw [exec_log, exec_log]
    by_cases hx : ∃ i < bundle.length, ∃ row,
        .write k row ∈ kRay K T maxsteps maxEvents recordEvery bundle i
    · obtain ⟨i, hi, row, hr⟩ := hx
      have honly : ∀ j < bundle.length, j ≠ i →
          ∀ e ∈ kRay K T maxsteps maxEvents recordEvery bundle j, rowAt k e = none := by
        intro j _ hne e he
        cases e with
        | write idx row' =>
          simp only [rowAt]
          rw [if_neg]
          rintro rfl
          exact hne (rows_disjoint K T maxsteps maxEvents recordEvery bundle j i k row' row he hr)
        | _ => rfl
      rw [Execution.only h (rowAt k) hi honly, Execution.only h' (rowAt k) hi honly]
    · have hno : ∀ j < bundle.length,
          ∀ e ∈ kRay K T maxsteps maxEvents recordEvery bundle j, rowAt k e = none := by
        intro j hj e he
        cases e with
        | write idx row' =>
          simp only [rowAt]
          rw [if_neg]
          rintro rfl
          exact hx ⟨j, hj, row', he⟩
        | _ => rfl
      rw [Execution.none h (rowAt k) hno, Execution.none h' (rowAt k) hno]
  · funext k
    rw [exec_counts, exec_counts]
    by_cases hx : ∃ i < bundle.length, ∃ n,
        .count k n ∈ kRay K T maxsteps maxEvents recordEvery bundle i
    · obtain ⟨i, hi, n, hr⟩ := hx
      have honly : ∀ j < bundle.length, j ≠ i →
          ∀ e ∈ kRay K T maxsteps maxEvents recordEvery bundle j, countAt k e = none := by
        intro j _ hne e he
        cases e with
        | count idx n' =>
          simp only [countAt]
          rw [if_neg]
          rintro rfl
          exact hne ((counts_in_bounds K T maxsteps maxEvents recordEvery bundle i k n hr).2.2
            j n' he)
        | _ => rfl
      rw [Execution.only h (countAt k) hi honly, Execution.only h' (countAt k) hi honly]
    · have hno : ∀ j < bundle.length,
          ∀ e ∈ kRay K T maxsteps maxEvents recordEvery bundle j, countAt k e = none := by
        intro j hj e he
        cases e with
        | count idx n' =>
          simp only [countAt]
          rw [if_neg]
          rintro rfl
          exact hx ⟨j, hj, n', he⟩
        | _ => rfl
      rw [Execution.none h (countAt k) hno, Execution.none h' (countAt k) hno]
  · obtain ⟨a1, a2, a3, a4⟩ := merged_exec threads es h.tid_lt
    obtain ⟨b1, b2, b3, b4⟩ := merged_exec threads' es' h'.tid_lt
    have e1 : ∀ k, (es.map fun e => dDistinct k e.effect).sum =
        (es'.map fun e => dDistinct k e.effect).sum := fun k => by
      rw [Execution.sum_eq h, Execution.sum_eq h']
    have e2 : ∀ k, (es.map fun e => dCross k e.effect).sum =
        (es'.map fun e => dCross k e.effect).sum := fun k => by
      rw [Execution.sum_eq h, Execution.sum_eq h']
    have e3 : ∀ k, (es.map fun e => dSum k e.effect).sum =
        (es'.map fun e => dSum k e.effect).sum := fun k => by
      rw [Execution.sum_eq h, Execution.sum_eq h']
    have e4 : ∀ k, (es.map fun e => dBin k e.effect).sum =
        (es'.map fun e => dBin k e.effect).sum := fun k => by
      rw [Execution.sum_eq h, Execution.sum_eq h']
    have f1 : ((Mem.exec es).merged threads).distinct = ((Mem.exec es').merged threads').distinct := by
      rw [a1, b1]; exact funext e1
    have f2 : ((Mem.exec es).merged threads).cross = ((Mem.exec es').merged threads').cross := by
      rw [a2, b2]; exact funext e2
    have f3 : ((Mem.exec es).merged threads).sums = ((Mem.exec es').merged threads').sums := by
      rw [a3, b3]; exact funext e3
    have f4 : ((Mem.exec es).merged threads).bins = ((Mem.exec es').merged threads').bins := by
      rw [a4, b4]; exact funext e4
    generalize (Mem.exec es).merged threads = A at *
    generalize (Mem.exec es').merged threads' = B at *
    obtain ⟨_, _, _, _⟩ := A
    obtain ⟨_, _, _, _⟩ := B
    simp only at f1 f2 f3 f4
    rw [f1, f2, f3, f4]

/-- Entry `r` of thread `tid` in an accumulator array of `threads` rows of `n` entries,
`/repo/pvtrace/engine/_kernel.pyx:638-641`: threads never share an entry and stay in the array. -/
theorem thread_slices (threads n tid tid' r r' : ℕ) (ht : tid < threads) (hr : r < n) (hr' : r' < n) :
    tid * n + r < threads * n ∧ (tid * n + r = tid' * n + r' → tid = tid' ∧ r = r') := by
  constructor
  · calc tid * n + r < tid * n + n := by omega
      _ = (tid + 1) * n := by ring
      _ ≤ _ := Nat.mul_le_mul_right _ ht
  · intro h
    have hn : 0 < n := by omega
    have h1 : (tid * n + r) / n = tid := by
      rw [Nat.mul_comm, Nat.mul_add_div hn, Nat.div_eq_of_lt hr, Nat.add_zero]
    have h2 : (tid' * n + r') / n = tid' := by
      rw [Nat.mul_comm, Nat.mul_add_div hn, Nat.div_eq_of_lt hr', Nat.add_zero]
    rw [h, h2] at h1
    subst h1
    exact ⟨rfl, by omega⟩

/-! ### C18 -/

theorem code_round_trip (e : Event) : eventOfCode (kernelCode e) = some e := by cases e <;> rfl

theorem readRow_eq (N : KNames ν κ) (source : Option String) (row : Row α ν κ) :
    readRow N source row = some (eventOf N source row) := by
  unfold readRow eventOf
  rw [code_round_trip]
  cases row.ray.source <;> simp

theorem filterMap_rowAt {ρ : Type} (k : ℕ) (es : List (Effect α ρ)) :
    es.filterMap (rowAt k) = (writesOf es).filterMap fun p => if k = p.1 then some p.2 else none := by
  unfold writesOf
  rw [List.filterMap_filterMap]
  congr 1
  funext e
  cases e <;> simp [rowAt]

theorem filterMap_countAt {ρ : Type} (k : ℕ) (es : List (Effect α ρ)) :
    es.filterMap (countAt k) = (countsOf es).filterMap fun p => if k = p.1 then some p.2 else none := by
  unfold countsOf
  rw [List.filterMap_filterMap]
  congr 1
  funext e
  cases e <;> simp [countAt]

theorem filterMap_zipIdx {ρ : Type} (rows : List ρ) (b k : ℕ) :
    (((rows.zipIdx b).map fun p => (p.2, p.1)).filterMap
      fun p => if b + k = p.1 then some p.2 else none) = rows[k]?.toList := by
  induction rows generalizing b k with
  | nil => simp
  | cons r rows ih =>
    rw [List.zipIdx_cons, List.map_cons, List.filterMap_cons]
    cases k with
    | zero =>
      have hno : (((rows.zipIdx (b + 1)).map fun p => (p.2, p.1)).filterMap
          fun p => if b + 0 = p.1 then some p.2 else none) = [] := by
        rw [List.filterMap_eq_nil_iff]
        intro p hp
        obtain ⟨q, hq, rfl⟩ := List.mem_map.1 hp
        have := List.le_snd_of_mem_zipIdx hq
        simp only
        rw [if_neg (by omega)]
      rw [hno]
      simp
    | succ k =>
      have := ih (b + 1) k
      have e : b + (k + 1) = b + 1 + k := by omega
      rw [e, this, if_neg (by simp only; omega)]
      simp

theorem mapM_some {β γ : Type} (f : β → Option γ) (g : β → γ) (l : List β)
    (h : ∀ x ∈ l, f x = some (g x)) : l.mapM f = some (l.map g) := by
  induction l with
  | nil => rfl
  | cons a l ih =>
    rw [List.mapM_cons, h a List.mem_cons_self, ih fun x hx => h x (List.mem_cons_of_mem _ hx)]
    rfl

/-- What is in memory after any execution, for a recorded ray. -/
theorem memory_of_ray (K : KOps α ν κ σ) (T : RecTables α ν)
    (maxsteps m re : ℕ) (bundle : List (Launch α κ σ)) (threads : ℕ)
    (es : List (Tagged α (Row α ν κ)))
    (h : Execution bundle.length threads (kRay K T maxsteps m re bundle) es)
    (j : ℕ) (hj : j < nRecorded re bundle.length) :
    (Mem.exec es).counts j = (loggedRows (kRay K T maxsteps m re bundle (j * re))).length ∧
    ∀ k < (Mem.exec es).counts j, (Mem.exec es).log (j * m + k) =
      (loggedRows (kRay K T maxsteps m re bundle (j * re)))[k]? := by
  obtain ⟨hre, hi⟩ := mul_lt_of_lt_nRecorded hj
  obtain ⟨l, hl⟩ : ∃ l, bundle[j * re]? = some l := ⟨_, List.getElem?_eq_getElem hi⟩
  have hmod : j * re % re = 0 := Nat.mul_mod_left j re
  have hdiv : j * re / re = j := Nat.mul_div_left j hre
  have hw := kRay_writes K T maxsteps m re bundle (j * re) l hl
  have hc := kRay_counts K T maxsteps m re bundle (j * re) l hl
  rw [if_pos ⟨hre, hmod⟩, hdiv] at hc
  have hslot : slotOf re m (j * re) = some (j * m, m) := by
    unfold slotOf; rw [if_pos ⟨hre, hmod⟩, hdiv]
  rw [hslot] at hw
  have hrows : loggedRows (kRay K T maxsteps m re bundle (j * re)) =
      (rayRows K maxsteps m l).take m := by
    unfold loggedRows
    rw [hw]
    simp only [kRecords, Nat.sub_zero, List.map_map]
    rw [← List.zipIdx_map_fst (j * m + 0) ((rayRows K maxsteps m l).take m)]
    congr 1
    rw [List.zipIdx_map_fst]
  have hcount : (Mem.exec es).counts j = min m (rayRows K maxsteps m l).length := by
    rw [exec_counts, Execution.only h (countAt j) hi, filterMap_countAt, hc]
    · simp
    · intro i _ hne e he
      cases e with
      | count idx n' =>
        simp only [countAt]
        rw [if_neg]
        rintro rfl
        obtain ⟨_, _, hm', hd, _⟩ := count_slot K T maxsteps m re bundle he
        apply hne
        rw [← Nat.div_add_mod i re, hm', ← hd, Nat.add_zero, Nat.mul_comm]
      | _ => rfl
  refine ⟨?_, fun k hk => ?_⟩
  · rw [hrows, hcount, List.length_take]
  · rw [hcount] at hk
    rw [exec_log, Execution.only h (rowAt (j * m + k)) hi, filterMap_rowAt, hw, hrows]
    · simp only [kRecords, Nat.sub_zero, Nat.add_zero]
      rw [filterMap_zipIdx]
      cases ((rayRows K maxsteps m l).take m)[k]? <;> rfl
    · intro i _ hne e he
      cases e with
      | write idx row =>
        simp only [rowAt]
        rw [if_neg]
        rintro rfl
        obtain ⟨_, _, hm', h1, h2⟩ := write_slot K T maxsteps m re bundle he
        apply hne
        have hij : i / re = j := by
          have hx : i / re * m < (j + 1) * m := by rw [Nat.add_mul, Nat.one_mul]; omega
          have hy : j * m < (i / re + 1) * m := by rw [Nat.add_mul, Nat.one_mul]; omega
          have := Nat.lt_of_mul_lt_mul_right hx
          have := Nat.lt_of_mul_lt_mul_right hy
          omega
        rw [← Nat.div_add_mod i re, hm', hij, Nat.add_zero, Nat.mul_comm]
      | _ => rfl

/-- `histories()` yields for each `j` exactly the events recorded for ray `j * record_every`, in
order, with that ray's source. -/
theorem histories_exact (K : KOps α ν κ σ) (T : RecTables α ν) (N : KNames ν κ)
    (maxsteps maxEvents recordEvery : ℕ) (bundle : List (Launch α κ σ))
    (sources : List (Option String)) (hs : sources.length = bundle.length) (threads : ℕ)
    (es : List (Tagged α (Row α ν κ)))
    (h : Execution bundle.length threads (kRay K T maxsteps maxEvents recordEvery bundle) es) :
    histories N (Mem.exec es) recordEvery maxEvents sources =
      some ((List.range (nRecorded recordEvery bundle.length)).map fun j =>
        (loggedRows (kRay K T maxsteps maxEvents recordEvery bundle (j * recordEvery))).map
          (eventOf N ((sources[j * recordEvery]?).join))) := by
  unfold histories
  rw [hs]
  refine mapM_some _ _ _ fun j hj => ?_
  have hj := List.mem_range.1 hj
  obtain ⟨hre, hi⟩ := mul_lt_of_lt_nRecorded hj
  obtain ⟨h1, h2⟩ := memory_of_ray K T maxsteps maxEvents recordEvery bundle threads es h j hj
  unfold historyAt
  have hidx : (recordedIndices recordEvery sources.length)[j]? = some (j * recordEvery) := by
    unfold recordedIndices
    rw [if_neg (by omega), List.getElem?_map, hs]
    unfold nRecorded at hj
    rw [if_pos hre] at hj
    simp [hj]
  rw [hidx]
  dsimp only
  obtain ⟨src, hsrc⟩ : ∃ src, sources[j * recordEvery]? = some src :=
    ⟨_, List.getElem?_eq_getElem (by omega)⟩
  rw [hsrc]
  dsimp only [Option.join_some]
  have hlog : ((List.range ((Mem.exec es).counts j)).map fun k =>
      ((Mem.exec es).log (j * maxEvents + k)).getD blankRow) =
      loggedRows (kRay K T maxsteps maxEvents recordEvery bundle (j * recordEvery)) := by
    apply List.ext_getElem?
    intro k
    rw [List.getElem?_map]
    by_cases hk : k < (Mem.exec es).counts j
    · rw [List.getElem?_range hk, Option.map_some, h2 k hk]
      rw [h1] at hk
      rw [List.getElem?_eq_getElem hk]
      rfl
    · rw [List.getElem?_eq_none (by simpa using hk)]
      rw [h1] at hk
      rw [List.getElem?_eq_none (by omega)]
      rfl
  rw [hlog]
  exact mapM_some _ _ _ fun row _ => readRow_eq N src row

/-- `num_recorded`, `recorded_indices` and the number of histories agree: one for each multiple of
`record_every` below the number of rays, none when `record_every = 0`. -/
theorem recorded_indices (recordEvery n : ℕ) :
    (recordedIndices recordEvery n).length = nRecorded recordEvery n ∧
    (0 < recordEvery → ∀ i, i ∈ recordedIndices recordEvery n ↔ i < n ∧ recordEvery ∣ i) ∧
    (recordedIndices recordEvery n).Pairwise (· < ·) ∧
    (0 < recordEvery → n ≤ nRecorded recordEvery n * recordEvery ∧
      nRecorded recordEvery n * recordEvery < n + recordEvery) ∧
    nRecorded 0 n = 0 := by
  refine ⟨?_, ?_, ?_, ?_, rfl⟩
  · unfold recordedIndices nRecorded
    split_ifs <;> first | omega | simp
  · intro hre i
    have hr : recordedIndices recordEvery n =
        (List.range (nRecorded recordEvery n)).map (· * recordEvery) := by
      unfold recordedIndices nRecorded
      rw [if_neg (by omega), if_pos hre]
    rw [hr, List.mem_map]
    constructor
    · rintro ⟨j, hj, rfl⟩
      exact ⟨(mul_lt_of_lt_nRecorded (List.mem_range.1 hj)).2, Dvd.intro_left j rfl⟩
    · rintro ⟨hi, c, rfl⟩
      refine ⟨c, List.mem_range.2 ?_, Nat.mul_comm _ _⟩
      have := div_lt_nRecorded hre hi
      rwa [Nat.mul_div_cancel_left c hre] at this
  · unfold recordedIndices
    split_ifs with hc
    · exact List.Pairwise.nil
    · rw [List.pairwise_map]
      refine List.pairwise_lt_range.imp fun hab => ?_
      exact Nat.mul_lt_mul_of_pos_right hab (by omega)
  · intro hre
    unfold nRecorded
    rw [if_pos hre]
    have h1 := Nat.div_mul_le_self (n + recordEvery - 1) recordEvery
    have h2 := Nat.lt_div_mul_add (a := n + recordEvery - 1) hre
    omega

/-! ### Examples -/

/-- Rays one after the other, each on a thread of its own choice: such executions always exist. -/
theorem sequential {ρ : Type} (n threads : ℕ) (tid : ℕ → ℕ) (htid : ∀ i, tid i < threads)
    (writes : ℕ → List (Effect α ρ)) :
    Execution n threads writes
      ((List.range n).flatMap fun i => (writes i).map fun e => ⟨i, tid i, e⟩) where
  ray_lt := by
    intro e he
    obtain ⟨i, hi, he⟩ := List.mem_flatMap.1 he
    obtain ⟨x, _, rfl⟩ := List.mem_map.1 he
    exact List.mem_range.1 hi
  tid_lt := by
    intro e he
    obtain ⟨i, hi, he⟩ := List.mem_flatMap.1 he
    obtain ⟨x, _, rfl⟩ := List.mem_map.1 he
    exact htid i
  order := by
    intro i hi
    induction n with
    | zero => omega
    | succ n ih =>
      rw [List.range_succ, List.flatMap_append, List.filter_append, List.map_append]
      have hnil : ∀ k ≤ i, (((List.range k).flatMap fun i => (writes i).map fun e =>
          (⟨i, tid i, e⟩ : Tagged α ρ)).filter fun e => e.ray = i) = [] := by
        intro k hk
        rw [List.filter_eq_nil_iff]
        intro e he
        obtain ⟨j, hj, he⟩ := List.mem_flatMap.1 he
        obtain ⟨x, _, rfl⟩ := List.mem_map.1 he
        have := List.mem_range.1 hj
        simp only [decide_eq_true_eq]
        omega
      have hself : ∀ j, (((writes j).map fun e => (⟨j, tid j, e⟩ : Tagged α ρ)).filter
          fun e => e.ray = i) = if j = i then (writes j).map fun e => ⟨j, tid j, e⟩ else [] := by
        intro j
        split_ifs with hji
        · rw [List.filter_eq_self]
          intro e he
          obtain ⟨x, _, rfl⟩ := List.mem_map.1 he
          simpa using hji
        · rw [List.filter_eq_nil_iff]
          intro e he
          obtain ⟨x, _, rfl⟩ := List.mem_map.1 he
          simpa using hji
      rw [List.flatMap_cons, List.flatMap_nil, List.append_nil, hself]
      by_cases h : n = i
      · subst h
        rw [hnil n le_rfl, if_pos rfl]
        simp [Function.comp_def]
      · rw [if_neg h, ih (by omega)]
        simp

/-- A scene of a scattering block (`false`) in a world (`true`) that a ray can never leave:
every step is a scattering event of length 1. -/
def fog : KOps ℚ Bool Unit Unit where
  root := true
  nextHit _ _ := some (false, false, some true, 10)
  nidx _ := 1
  depth _ _ s := (some 1, s)
  pick _ _ s := ((), s)
  kind _ := .scatterer
  yields _ s := (true, s)
  phase _ s := (⟨0, 0, 1⟩, s)
  emission _ w s := (w, s)
  radDelay _ s := (0, s)
  nrDelay _ s := (0, s)
  localPos _ p := p
  normal _ _ := ⟨0, 0, 1⟩
  acos x := x
  reflects _ _ _ _ _ s := (false, s)
  reflectDir d _ := d
  transmitDir _ _ _ _ d := d

def ray0 : KRay ℚ Unit := ⟨⟨0, 0, 0⟩, ⟨0, 0, 1⟩, 555, 0, 0, none⟩

/-- Three equal rays. -/
def three : List (Launch ℚ Unit Unit) := [⟨ray0, ()⟩, ⟨ray0, ()⟩, ⟨ray0, ()⟩]

def noRecorders : RecTables ℚ Bool := ⟨[], [], 0⟩

def killed : Recorder ℚ := { name := "killed", event := .killed, atol := 0 }

/-- A recorder of killed rays on the block. -/
def oneRecorder : RecTables ℚ Bool := ⟨[⟨false, .killed, none, 0, 0, 0⟩], [], 0⟩

example : compileRecorders [(false, killed)] = some oneRecorder := by decide +kernel

/-- Rays 0 and 2 are recorded, rows 0-3 and 4-7. -/
example : ((kRay fog noRecorders 10 4 2 three 0).map fun e =>
      match e with | .write i r => (i, some r.kind) | .count _ n => (n, none) | _ => (0, none)) =
    [(0, some .generate), (1, some .absorb), (2, some .scatter), (3, some .kill), (4, none)] ∧
    kRay fog noRecorders 10 4 2 three 1 = [] ∧
    (writesOf (kRay fog noRecorders 10 4 2 three 2)).map (·.1) = [4, 5, 6, 7] ∧
    nRecorded 2 three.length * 4 = 8 := by
  decide +kernel

/-- The writes of the three rays, ray by ray on one thread, and dealt out over two threads with rays
0 and 1 taking turns. -/
def inTurn : List (Tagged ℚ (Row ℚ Bool Unit)) :=
  (List.range 3).flatMap fun i => (kRay fog oneRecorder 2 9 2 three i).map fun e => ⟨i, 0, e⟩

def interleaved : List (Tagged ℚ (Row ℚ Bool Unit)) :=
  ((kRay fog oneRecorder 2 9 2 three 2).map fun e => ⟨2, 1, e⟩) ++
  (List.zipWith (fun a b => [(⟨0, 0, a⟩ : Tagged ℚ (Row ℚ Bool Unit)), ⟨1, 1, b⟩])
    ((kRay fog oneRecorder 2 9 2 three 0).take 10) (kRay fog oneRecorder 2 9 2 three 1)).flatten ++
  ((kRay fog oneRecorder 2 9 2 three 0).drop 10).map fun e => ⟨0, 0, e⟩

example : Execution 3 1 (kRay fog oneRecorder 2 9 2 three) inTurn :=
  sequential 3 1 (fun _ => 0) (fun _ => Nat.one_pos) _

theorem interleaved_execution : Execution 3 2 (kRay fog oneRecorder 2 9 2 three) interleaved := by
  refine ⟨?_, ?_, ?_⟩ <;> decide +kernel

/-- Rays 0 and 2 are killed and recorded, ray 1 is killed and not recorded. -/
example : inTurn.map (·.ray) ≠ interleaved.map (·.ray) ∧
    ((Mem.exec interleaved).merged 2).distinct 0 = 3 ∧
    (Mem.exec interleaved).counts 1 = 6 := by
  decide +kernel

example : (loggedRows (kRay fog noRecorders 10 5 1 three 1)).map (·.kind) =
    [.generate, .absorb, .scatter, .absorb, .scatter] := by decide +kernel

end PV.EventLog
