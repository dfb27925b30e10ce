import Verif.Model.Ray
import Mathlib.Algebra.Order.Floor.Ring

/-!
Recorders: their specification (`/repo/pvtrace/engine/recorder.py`), the Python tally
(`/repo/pvtrace/engine/tally.py`) and the statistics reported for one recorder
(`/repo/pvtrace/engine/api.py:26-78`).
-/

namespace PV

/-- `EVENTS`, `/repo/pvtrace/engine/recorder.py:45-53`. -/
inductive Selector
  | entering | escaping | reflected | lost | reacted | killed | exit
deriving DecidableEq, Repr

/-- `PROPERTIES`, `/repo/pvtrace/engine/recorder.py:33-41`. -/
inductive RayProp
  | wavelength | angle | duration | pathlength | x | y | z
deriving DecidableEq, Repr

/-- `Histogram`, `/repo/pvtrace/engine/recorder.py:56-71`. -/
structure Axis (α : Type) where
  prop : RayProp
  start : α
  stop : α
  bins : ℕ
deriving DecidableEq, Repr

/-- What `Histogram.__init__` accepts, `/repo/pvtrace/engine/recorder.py:59-67`. -/
def Axis.Valid {α : Type} [LT α] (a : Axis α) : Prop := a.start < a.stop ∧ 1 ≤ a.bins

/-- `Histogram` or `Heatmap`, `/repo/pvtrace/engine/recorder.py:56-84`. -/
inductive Hist (α : Type)
  | one (a : Axis α)
  | heat (a b : Axis α)
deriving DecidableEq, Repr

/-- Number of bins. -/
def Hist.size {α : Type} : Hist α → ℕ
  | .one a => a.bins
  | .heat a b => a.bins * b.bins

def Hist.Valid {α : Type} [LT α] : Hist α → Prop
  | .one a => a.Valid
  | .heat a b => a.Valid ∧ b.Valid

/-- `Recorder`, `/repo/pvtrace/engine/recorder.py:87-119`. -/
structure Recorder (α : Type) where
  name : String
  event : Selector
  facet : Option (Vec3 α) := none
  atol : α
  hists : List (Hist α) := []
deriving DecidableEq, Repr

/-- The dictionary passed to `accumulate`, `/repo/pvtrace/engine/tally.py:140-146`. -/
structure Values (α : Type) where
  wavelength : α
  angle : α
  duration : α
  pathlength : α
  position : Vec3 α
deriving DecidableEq, Repr

/-- `values[prop]`; `prop_value` in the engine, `/repo/pvtrace/engine/_kernel.pyx:482-498`. -/
def Values.get {α : Type} (v : Values α) : RayProp → α
  | .wavelength => v.wavelength
  | .angle => v.angle
  | .duration => v.duration
  | .pathlength => v.pathlength
  | .x => v.position.x
  | .y => v.position.y
  | .z => v.position.z

section
variable {α : Type} [Field α] [LinearOrder α] [FloorRing α]

/-- Python's `int(x)` and C's `(int)x`: truncation towards zero. The engine's cast is undefined
outside the range of `int`; that is not modelled. -/
def truncZ (x : α) : ℤ := if 0 ≤ x then ⌊x⌋ else ⌈x⌉

/-- `_bin_index`, `/repo/pvtrace/engine/tally.py:81-83`; `none` for `-1`. -/
def binIndex (value : α) (a : Axis α) : Option ℕ :=
  let index := truncZ ((value - a.start) / (a.stop - a.start) * (a.bins : α))
  if 0 ≤ index ∧ index < (a.bins : ℤ) then some index.toNat else none

/-- Bin of the flattened array to increment, `/repo/pvtrace/engine/tally.py:68-78`. -/
def Hist.bin (h : Hist α) (v : Values α) : Option ℕ :=
  match h with
  | .one a => binIndex (v.get a.prop) a
  | .heat a b =>
    match binIndex (v.get a.prop) a, binIndex (v.get b.prop) b with
    | some ia, some ib => some (ia * b.bins + ib)
    | _, _ => none

end

/-- `bins[i] += 1`. -/
def incr (f : ℕ → ℕ) (i : ℕ) : ℕ → ℕ := fun k => if k = i then f k + 1 else f k

/-- `_TallyState`, `/repo/pvtrace/engine/tally.py:50-62`. `moments` is the `(4, 2)` array as sums and
sums of squares of wavelength, angle, duration and path length; arrays of bins are functions on
indices. -/
structure TallyState (α : Type) where
  rays : ℕ
  crossings : ℕ
  moments : Fin 4 → α × α
  bins : List (ℕ → ℕ)

/-- `_TallyState.__init__`, `/repo/pvtrace/engine/tally.py:51-62`. -/
def TallyState.init {α : Type} [Zero α] (r : Recorder α) : TallyState α :=
  { rays := 0, crossings := 0, moments := fun _ => (0, 0), bins := r.hists.map fun _ _ => 0 }

/-- The four moment properties in order, `/repo/pvtrace/engine/tally.py:66`,
`/repo/pvtrace/engine/api.py:14`. -/
def momentProp : Fin 4 → RayProp
  | 0 => .wavelength
  | 1 => .angle
  | 2 => .duration
  | 3 => .pathlength

section
variable {α : Type} [Field α] [LinearOrder α] [FloorRing α]

/-- `_TallyState.accumulate`, `/repo/pvtrace/engine/tally.py:64-78`. -/
def TallyState.accumulate (r : Recorder α) (st : TallyState α) (v : Values α) : TallyState α :=
  { st with
    rays := st.rays + 1
    moments := fun i =>
      ((st.moments i).1 + v.get (momentProp i),
       (st.moments i).2 + v.get (momentProp i) * v.get (momentProp i))
    bins := List.zipWith (fun h b =>
      match Hist.bin h v with
      | none => b
      | some i => incr b i) r.hists st.bins }

end

/-- What the Python tally takes from the scene. -/
structure TallyEnv (α ν : Type) where
  /-- `node.name` -/
  name : ν → String
  /-- `_local_position(root, node, ·)`, `/repo/pvtrace/engine/tally.py:15-18` -/
  localPos : ν → Vec3 α → Vec3 α
  /-- outward normal of the node at a world point, in the world frame,
  `/repo/pvtrace/engine/tally.py:118-121` -/
  exitNormal : ν → Vec3 α → Except Err (Vec3 α)
  /-- `np.arccos` -/
  acos : α → α

section
variable {α ν : Type} [Field α] [LinearOrder α] [FloorRing α]

/-- `_incidence_angle`, `/repo/pvtrace/engine/tally.py:21-23`. -/
def TallyEnv.incidence (E : TallyEnv α ν) (direction normal : Vec3 α) : α :=
  E.acos (min |direction.dot normal| 1)

/-- `_matches`, `/repo/pvtrace/engine/tally.py:26-47`. -/
def tallyMatches (kind : Selector) (name : String) (event : Event) (info : Meta α) : Bool :=
  if event = .transmit ∧ info.hit = some name then
    if kind = .entering then decide (info.adjacent = some name)
    else if kind = .escaping then decide (info.container = some name)
    else false
  else if event = .reflect ∧ kind = .reflected then
    decide (info.hit = some name ∧ info.adjacent = some name)
  else if event = .nonradiative ∧ kind = .lost then decide (info.container = some name)
  else if event = .react ∧ kind = .reacted then decide (info.container = some name)
  else if event = .kill ∧ kind = .killed then decide (info.container = some name)
  else if event = .exit ∧ kind = .exit then decide (info.hit = some name)
  else false

/-- `any(abs(f - n) > atol for f, n in zip(facet, normal))`. -/
def facetOff (atol : α) (facet normal : Vec3 α) : Bool :=
  decide (|facet.x - normal.x| > atol) || decide (|facet.y - normal.y| > atol) ||
    decide (|facet.z - normal.z| > atol)

/-- The normal used for an event, `/repo/pvtrace/engine/tally.py:117-121`. -/
def eventNormal (E : TallyEnv α ν) (node : ν) (step : Step α) : Except Err (Option (Vec3 α)) :=
  if step.event = .exit ∧ step.info.normal = none then
    match E.exitNormal node step.ray.position with
    | .error e => .error e
    | .ok n => .ok (some n)
  else .ok step.info.normal

/-- The facet test, `/repo/pvtrace/engine/tally.py:122-127`: true when the event is skipped. -/
def facetSkip (r : Recorder α) (normal : Option (Vec3 α)) : Bool :=
  match r.facet with
  | none => false
  | some f =>
    match normal with
    | none => true
    | some n => facetOff r.atol f n

/-- One pass of the inner loop, `/repo/pvtrace/engine/tally.py:112-146`, for the pair
`(node, recorder, state)`. Python's `previous_ray or ray` is `prev.getD ray`: a `Ray` is always
true. -/
def tallyPair (E : TallyEnv α ν) (prev : Option (Ray α)) (step : Step α) (node : ν)
    (r : Recorder α) (seen : List String) (st : TallyState α) :
    Except Err (List String × TallyState α) :=
  if ¬ tallyMatches r.event (E.name node) step.event step.info then .ok (seen, st)
  else
    match eventNormal E node step with
    | .error e => .error e
    | .ok normal =>
      if facetSkip r normal then .ok (seen, st)
      else
        let st := { st with crossings := st.crossings + 1 }
        if r.name ∈ seen then .ok (seen, st)
        else
          let incident :=
            if step.event = .exit then step.ray.direction else (prev.getD step.ray).direction
          let angle :=
            match normal with
            | none => 0
            | some n => E.incidence incident n
          .ok (r.name :: seen, st.accumulate r
            { wavelength := step.ray.wavelength, angle := angle, duration := step.ray.duration,
              pathlength := step.ray.travelled,
              position := E.localPos node step.ray.position })

/-- The loop over `pairs`, `/repo/pvtrace/engine/tally.py:112-146`. -/
def tallyPairs (E : TallyEnv α ν) (prev : Option (Ray α)) (step : Step α) :
    List (ν × Recorder α × TallyState α) → List String →
    Except Err (List String × List (ν × Recorder α × TallyState α))
  | [], seen => .ok (seen, [])
  | (node, r, st) :: ps, seen =>
    match tallyPair E prev step node r seen st with
    | .error e => .error e
    | .ok (seen, st) =>
      match tallyPairs E prev step ps seen with
      | .error e => .error e
      | .ok (seen, ps) => .ok (seen, (node, r, st) :: ps)

/-- The loop over one history, `/repo/pvtrace/engine/tally.py:110-147`. -/
def tallyHistory (E : TallyEnv α ν) : List (Step α) → Option (Ray α) → List String →
    List (ν × Recorder α × TallyState α) → Except Err (List (ν × Recorder α × TallyState α))
  | [], _, _, ps => .ok ps
  | step :: rest, prev, seen, ps =>
    match tallyPairs E prev step ps seen with
    | .error e => .error e
    | .ok (seen, ps) => tallyHistory E rest (some step.ray) seen ps

/-- The loop over histories, `/repo/pvtrace/engine/tally.py:107-147`. -/
def tallyAll (E : TallyEnv α ν) : List (List (Step α)) →
    List (ν × Recorder α × TallyState α) → Except Err (List (ν × Recorder α × TallyState α))
  | [], ps => .ok ps
  | h :: hs, ps =>
    match tallyHistory E h none [] ps with
    | .error e => .error e
    | .ok ps => tallyAll E hs ps

/-- `tally_histories`, `/repo/pvtrace/engine/tally.py:86-156`: final states in the order of
`pairs`. `recs` lists the recorders with their nodes in the order of the scene tree. The result
dictionary, keyed by recorder name, keeps the last of several equal names. -/
def tallyHistories (E : TallyEnv α ν) (recs : List (ν × Recorder α))
    (histories : List (List (Step α))) : Except Err (List (ν × Recorder α × TallyState α)) :=
  tallyAll E histories (recs.map fun p => (p.1, p.2, TallyState.init p.2))

end

end PV
