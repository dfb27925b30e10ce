import Mathlib.Data.List.Sort
import Verif.Model.EngineResult

/-!
`EngineResult.event_counts`, `/repo/pvtrace/engine/api.py:139-154`.
-/

namespace PV
variable {α ν κ : Type}

/-- `kinds[mask]`, `/repo/pvtrace/engine/api.py:148-149`: the array of codes has `max_events` columns
for each recorded ray, and the mask keeps the columns below the ray's count. Selecting by a mask
reads row by row. -/
def maskedKinds [Zero α] (mem : Mem α (Row α ν κ)) (numRecorded maxEvents : ℕ) : List ℕ :=
  (List.range numRecorded).flatMap fun j =>
    ((List.range maxEvents).filter fun k => k < mem.counts j).map fun k =>
      kernelCode ((mem.log (j * maxEvents + k)).getD blankRow).kind

/-- `event_counts()`, `/repo/pvtrace/engine/api.py:139-154`: `np.unique` gives the distinct codes in
ascending order with their numbers. `none` is the `ValueError` of `Event(...)`. -/
def eventCounts [Zero α] (mem : Mem α (Row α ν κ)) (numRecorded maxEvents : ℕ) :
    Option (List (Event × ℕ)) :=
  if numRecorded = 0 then some []
  else
    let kinds := maskedKinds mem numRecorded maxEvents
    (kinds.dedup.insertionSort (· ≤ ·)).mapM fun v =>
      (eventOfCode v).map fun event => (event, kinds.count v)

/-- `counter[event]` of a `collections.Counter`: a missing key counts zero. -/
def counterAt (c : List (Event × ℕ)) (event : Event) : ℕ :=
  (c.lookup event).getD 0

end PV
