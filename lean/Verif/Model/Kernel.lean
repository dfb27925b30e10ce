import Verif.Model.KernelTally
import Verif.Model.Tracer

/-!
The compiled tracer: `trace_one` and `trace_bundle`,
`/repo/pvtrace/engine/_kernel.pyx:562-1115`, over arbitrary behaviour of geometry, materials and
surfaces (`KOps`). Each ray's trace is the list of its writes to shared memory (`Effect`) in
program order.
-/

namespace PV
variable {α ν κ σ : Type}

/-- State of the ray inside `trace_one`; `source = none` is `-1`. -/
@[ext] structure KRay (α κ : Type) where
  position : Vec3 α
  direction : Vec3 α
  wavelength : α
  travelled : α
  duration : α
  source : Option κ
deriving DecidableEq, Repr

/-- Arguments of `record`, `/repo/pvtrace/engine/_kernel.pyx:562-597`, in the order of the log
columns; `none` is `-1` or a `NULL` normal (stored as zeros). -/
structure Row (α ν κ : Type) where
  kind : Event
  hit : Option ν
  container : Option ν
  adjacent : Option ν
  component : Option κ
  ray : KRay α κ
  normal : Option (Vec3 α)
deriving DecidableEq, Repr

/-- The parts of the compiled scene used by `trace_one`. -/
structure KOps (α ν κ σ : Type) where
  root : ν
  /-- hit, container, adjacent and `t0`, `/repo/pvtrace/engine/_kernel.pyx:665-714` -/
  nextHit : Vec3 α → Vec3 α → Option (ν × ν × Option ν × α)
  /-- `S.nidx` -/
  nidx : ν → α
  /-- `/repo/pvtrace/engine/_kernel.pyx:747-761`; `none` is `INFINITY` -/
  depth : ν → α → σ → Option α × σ
  /-- selected component, `/repo/pvtrace/engine/_kernel.pyx:768-781` -/
  pick : ν → α → σ → κ × σ
  /-- `S.comp_type` -/
  kind : κ → CompKind
  /-- `rng_uniform(&rng) < S.comp_qy[comp]` -/
  yields : κ → σ → Bool × σ
  /-- `sample_phase` -/
  phase : κ → σ → Vec3 α × σ
  /-- emission wavelength, `/repo/pvtrace/engine/_kernel.pyx:795-807` -/
  emission : κ → α → σ → α × σ
  /-- time added at `/repo/pvtrace/engine/_kernel.pyx:808-809`, 0 without a draw -/
  radDelay : κ → σ → α × σ
  /-- time added at `/repo/pvtrace/engine/_kernel.pyx:817-818`, 0 without a draw -/
  nrDelay : κ → σ → α × σ
  /-- `transform_point(S.w2l + node * 16, ...)` -/
  localPos : ν → Vec3 α → Vec3 α
  /-- `local_normal` at a world position, transformed to the world frame -/
  normal : ν → Vec3 α → Vec3 α
  /-- `acos` -/
  acos : α → α
  /-- `u < r` for hit, container, adjacent, normal and direction,
  `/repo/pvtrace/engine/_kernel.pyx:865-874` -/
  reflects : ν → ν → ν → Vec3 α → Vec3 α → σ → Bool × σ
  /-- `specular_reflect(direction, nrm, new_dir)` -/
  reflectDir : Vec3 α → Vec3 α → Vec3 α
  /-- direction after transmission, `/repo/pvtrace/engine/_kernel.pyx:885-889` -/
  transmitDir : ν → ν → ν → Vec3 α → Vec3 α → Vec3 α

/-- What a pass of the loop does to shared memory: calls of `record` and of `tally`. -/
inductive KOut (α ν κ : Type)
  | record (row : Row α ν κ)
  | tally (c : TallyCall α ν)

/-- How a pass ends. -/
inductive KNext (α κ σ : Type)
  | cont (ray : KRay α κ) (rng : σ)
  | stop

section
variable [Field α] [LinearOrder α]

/-- `pos[i] + direction[i] * t`, `travelled += t`, `duration += t * n / C_CM_PER_S`. -/
def KRay.advance (r : KRay α κ) (t n : α) : KRay α κ :=
  { r with
    position := ⟨r.position.x + r.direction.x * t, r.position.y + r.direction.y * t,
      r.position.z + r.direction.z * t⟩
    travelled := r.travelled + t
    duration := r.duration + t * n / lightSpeed }

/-- The values passed to `tally`. -/
def kValues (K : KOps α ν κ σ) (node : ν) (ray : KRay α κ) (angle : α) : Values α :=
  { wavelength := ray.wavelength, angle := angle, duration := ray.duration,
    pathlength := ray.travelled, position := K.localPos node ray.position }

/-- Angle for EXIT, `/repo/pvtrace/engine/_kernel.pyx:739-743`. -/
def kExitAngle (K : KOps α ν κ σ) (normal direction : Vec3 α) : α :=
  let ddot := |normal.dot direction|
  K.acos (if ddot > 1 then 1 else ddot)

/-- Angle of incidence, `/repo/pvtrace/engine/_kernel.pyx:853-863`. -/
def kIncidence (K : KOps α ν κ σ) (normal direction : Vec3 α) : α :=
  let flipped := if normal.dot direction < 0 then -normal else normal
  let ddot := flipped.dot direction
  K.acos (if ddot > 1 then 1 else if ddot < -1 then -1 else ddot)

/-- Volume interaction, `/repo/pvtrace/engine/_kernel.pyx:763-832`. -/
def kAbsorb (K : KOps α ν κ σ) (container : ν) (ray : KRay α κ) (d : α) (s : σ) :
    List (KOut α ν κ) × KNext α κ σ :=
  let ray := ray.advance d (K.nidx container)
  let (comp, s) := K.pick container ray.wavelength s
  let a : KOut α ν κ := .record ⟨.absorb, none, some container, none, some comp, ray, none⟩
  let ctype := K.kind comp
  let (radiative, s) :=
    if ctype = .scatterer ∨ ctype = .luminophore then K.yields comp s else (false, s)
  if radiative then
    let (dir, s) := K.phase comp s
    let ray := { ray with direction := dir, source := some comp }
    if ctype = .luminophore then
      let (w, s) := K.emission comp ray.wavelength s
      let (delay, s) := K.radDelay comp s
      let ray := { ray with wavelength := w, duration := ray.duration + delay }
      ([a, .record ⟨.emit, none, some container, none, some comp, ray, none⟩], .cont ray s)
    else
      ([a, .record ⟨.scatter, none, some container, none, some comp, ray, none⟩], .cont ray s)
  else
    let (delay, _) := K.nrDelay comp s
    let ray := { ray with duration := ray.duration + delay }
    let kind : Event := if ctype = .reactor then .react else .nonradiative
    let sel : Selector := if ctype = .reactor then .reacted else .lost
    ([a, .record ⟨kind, none, some container, none, some comp, ray, none⟩,
      .tally ⟨sel, container, none, kValues K container ray 0⟩], .stop)

/-- Surface interaction, `/repo/pvtrace/engine/_kernel.pyx:834-895`. -/
def kSurface [DecidableEq ν] (K : KOps α ν κ σ) (hit container : ν) (adjacent : Option ν)
    (ray : KRay α κ) (t0 : α) (s : σ) : List (KOut α ν κ) × KNext α κ σ :=
  let ray := ray.advance t0 (K.nidx container)
  match adjacent with
  | none => ([.record ⟨.kill, some hit, some container, none, none, ray, none⟩], .stop)
  | some adj =>
    let nrm := K.normal hit ray.position
    let angle := kIncidence K nrm ray.direction
    let (refl, s) := K.reflects hit container adj nrm ray.direction s
    if refl then
      let ray := { ray with direction := K.reflectDir ray.direction nrm }
      ([.record ⟨.reflect, some hit, some container, adjacent, none, ray, some nrm⟩] ++
        (if container ≠ hit then [.tally ⟨.reflected, hit, some nrm, kValues K hit ray angle⟩]
          else []), .cont ray s)
    else
      let ray := { ray with direction := K.transmitDir hit container adj nrm ray.direction }
      let sel : Selector := if container = hit then .escaping else .entering
      ([.record ⟨.transmit, some hit, some container, adjacent, none, ray, some nrm⟩,
        .tally ⟨sel, hit, some nrm, kValues K hit ray angle⟩], .cont ray s)

/-- One pass of the loop of `trace_one` after the budget test,
`/repo/pvtrace/engine/_kernel.pyx:665-895`; `count` is the value after `count += 1`. -/
def kBody [DecidableEq ν] (K : KOps α ν κ σ) (maxsteps : ℕ) (count : ℕ) (ray : KRay α κ) (s : σ) :
    List (KOut α ν κ) × KNext α κ σ :=
  match K.nextHit ray.position ray.direction with
  | none => ([], .stop)
  | some (hit, container, adjacent, t0) =>
    if count > maxsteps then
      ([.record ⟨.kill, none, some container, none, none, ray, none⟩,
        .tally ⟨.killed, container, none, kValues K container ray 0⟩], .stop)
    else if hit = K.root then
      let ray := ray.advance t0 (K.nidx container)
      let nrm := K.normal hit ray.position
      ([.record ⟨.exit, some hit, some container, adjacent, none, ray, none⟩,
        .tally ⟨.exit, hit, some nrm, kValues K hit ray (kExitAngle K nrm ray.direction)⟩], .stop)
    else
      let (depth, s) := K.depth container ray.wavelength s
      match isAbsorbed depth t0 with
      | some d => kAbsorb K container ray d s
      | none => kSurface K hit container adjacent ray t0 s

variable [FloorRing α] [DecidableEq ν]

/-- Where a ray logs: first row and `max_events`; `none` when `base < 0`. -/
abbrev LogSlot := Option (ℕ × ℕ)

/-- `record`, `/repo/pvtrace/engine/_kernel.pyx:579-597`: the write and the new `count[0]`. -/
def kRecord {ρ : Type} (slot : LogSlot) (nevents : ℕ) (row : ρ) : List (Effect α ρ) × ℕ :=
  match slot with
  | none => ([], nevents)
  | some (base, maxEvents) =>
    if nevents ≥ maxEvents then ([], nevents) else ([.write (base + nevents) row], nevents + 1)

/-- Execution of the calls of one pass. The engine skips `tally` when there is no recorder; the
loop of `tally` is then empty. -/
def kRun (T : RecTables α ν) (slot : LogSlot) : List (KOut α ν κ) → ℕ → (ℕ → Bool) →
    List (Effect α (Row α ν κ)) × ℕ × (ℕ → Bool)
  | [], nev, seen => ([], nev, seen)
  | .record row :: os, nev, seen =>
    let w := kRecord slot nev row
    let r := kRun T slot os w.2 seen
    (w.1 ++ r.1, r.2)
  | .tally c :: os, nev, seen =>
    let w := kTally T c seen
    let r := kRun T slot os nev w.2
    (w.1 ++ r.1, r.2)

/-- The budget test, `/repo/pvtrace/engine/_kernel.pyx:660`: `base >= 0 and nevents >=
max_events - 1`. -/
def kExhausted (slot : LogSlot) (nevents : ℕ) : Bool :=
  match slot with
  | none => false
  | some (_, maxEvents) => decide (nevents + 1 ≥ maxEvents)

/-- The loop of `trace_one`, `/repo/pvtrace/engine/_kernel.pyx:654-895`, with fuel: writes and the
final `nevents`. The fuel `maxsteps + 1` is always enough (`PV.Kernel.fuel_enough`). -/
def kLoop (K : KOps α ν κ σ) (T : RecTables α ν) (slot : LogSlot) (maxsteps : ℕ) :
    ℕ → ℕ → ℕ → (ℕ → Bool) → KRay α κ → σ → List (Effect α (Row α ν κ)) × ℕ
  | 0, _, nev, _, _, _ => ([], nev)
  | fuel + 1, count, nev, seen, ray, s =>
    if kExhausted slot nev then
      let w := kRecord slot nev (⟨.kill, none, none, none, none, ray, none⟩ : Row α ν κ)
      (w.1, w.2)
    else
      let b := kBody K maxsteps (count + 1) ray s
      let w := kRun T slot b.1 nev seen
      match b.2 with
      | .stop => (w.1, w.2.1)
      | .cont ray s =>
        let r := kLoop K T slot maxsteps fuel (count + 1) w.2.1 w.2.2 ray s
        (w.1 ++ r.1, r.2)

/-- `trace_one`, `/repo/pvtrace/engine/_kernel.pyx:603-897`: writes in program order and the number
of events. -/
def kTraceOne (K : KOps α ν κ σ) (T : RecTables α ν) (slot : LogSlot) (maxsteps : ℕ)
    (ray : KRay α κ) (s : σ) : List (Effect α (Row α ν κ)) × ℕ :=
  let w := kRecord slot 0 (⟨.generate, none, none, none, none, ray, none⟩ : Row α ν κ)
  let r := kLoop K T slot maxsteps (maxsteps + 1) 0 w.2 (fun _ => false) ray s
  (w.1 ++ r.1, r.2)

/-- The log slot of ray `i`, `/repo/pvtrace/engine/_kernel.pyx:1065-1068`. A `record_every` below 1
records nothing. -/
def slotOf (recordEvery maxEvents i : ℕ) : LogSlot :=
  if recordEvery > 0 ∧ i % recordEvery = 0 then some ((i / recordEvery) * maxEvents, maxEvents)
  else none

/-- `n_recorded`, `/repo/pvtrace/engine/_kernel.pyx:924-926`. -/
def nRecorded (recordEvery n : ℕ) : ℕ :=
  if recordEvery > 0 then (n + recordEvery - 1) / recordEvery else 0

/-- A launched ray of the bundle: initial state and generator seeded with `seed + i`. -/
structure Launch (α κ σ : Type) where
  ray : KRay α κ
  rng : σ

/-- What ray `i` of a bundle writes, `/repo/pvtrace/engine/_kernel.pyx:1063-1085`. -/
def kRay (K : KOps α ν κ σ) (T : RecTables α ν) (maxsteps maxEvents recordEvery : ℕ)
    (bundle : List (Launch α κ σ)) (i : ℕ) : List (Effect α (Row α ν κ)) :=
  match bundle[i]? with
  | none => []
  | some l =>
    let slot := slotOf recordEvery maxEvents i
    let r := kTraceOne K T slot maxsteps l.ray l.rng
    match slot with
    | none => r.1
    | some _ => r.1 ++ [.count (i / recordEvery) r.2]

end

/-- Shared memory during `trace_bundle`: the event log (`none` for a row never written), `counts`
and the accumulators of every thread. -/
structure Mem (α ρ : Type) where
  log : ℕ → Option ρ
  counts : ℕ → ℕ
  acc : ℕ → Acc α

def Mem.init {ρ : Type} [Zero α] : Mem α ρ := ⟨fun _ => none, fun _ => 0, fun _ => Acc.zero⟩

/-- Thread `tid` executes one write. -/
def Mem.step {ρ : Type} [Add α] (m : Mem α ρ) (tid : ℕ) (e : Effect α ρ) : Mem α ρ :=
  { log :=
      match e with
      | .write i row => fun k => if k = i then some row else m.log k
      | _ => m.log
    counts :=
      match e with
      | .count i n => fun k => if k = i then n else m.counts k
      | _ => m.counts
    acc := fun t => if t = tid then (m.acc t).apply e else m.acc t }

/-- One write of an execution: which ray, which thread, which write. -/
structure Tagged (α ρ : Type) where
  ray : ℕ
  tid : ℕ
  effect : Effect α ρ

/-- Memory after a global order of writes. -/
def Mem.exec {ρ : Type} [Zero α] [Add α] (es : List (Tagged α ρ)) : Mem α ρ :=
  es.foldl (fun m e => m.step e.tid e.effect) Mem.init

/-- The merged accumulators `acc.sum(axis=0)`, `/repo/pvtrace/engine/_kernel.pyx:1088-1091`. -/
def Mem.merged {ρ : Type} [AddCommMonoid α] (m : Mem α ρ) (threads : ℕ) : Acc α where
  distinct k := ((List.range threads).map fun t => (m.acc t).distinct k).sum
  cross k := ((List.range threads).map fun t => (m.acc t).cross k).sum
  sums k := ((List.range threads).map fun t => (m.acc t).sums k).sum
  bins k := ((List.range threads).map fun t => (m.acc t).bins k).sum

end PV
