import Verif.Model.Ray
import Mathlib.Data.List.Dedup
import Mathlib.Algebra.Order.Group.Abs

/-!
The command line run into a database: the workers' queue items
(`/repo/pvtrace/scene/scene.py:35-89`), the thread that writes them
(`/repo/pvtrace/cli/main.py:40-164`), the tables (`/repo/pvtrace/data/schema.sql`) and the queries
(`/repo/pvtrace/cli/db.py`).
-/

namespace PV.Database
variable {α π : Type}

/-! ### Workers -/

/-- `is_end_ray`, `/repo/pvtrace/scene/scene.py:35-59`. -/
def isEndRay (event : Event) (info : Meta α) : Bool :=
  if event = .emit ∨ event = .scatter ∨ event = .absorb then false
  else if event = .generate ∨ event = .nonradiative ∨ event = .react ∨ event = .kill ∨
      event = .exit then true
  else if event = .reflect ∨ event = .transmit then
    if info.hit = info.adjacent ∧ event = .reflect then true
    else if info.hit = info.adjacent ∧ event = .transmit then true
    else if info.hit = info.container ∧ event = .transmit then true
    else false
  else false

/-- One queue item: `(pid, idx, ray, event, metadata)`. -/
structure Item (α π : Type) where
  pid : π
  idx : ℕ
  step : Step α
deriving DecidableEq, Repr

/-- `do_simulation_add_to_queue`, `/repo/pvtrace/scene/scene.py:62-89`: the items one task puts, in
order. `hists` are the lists of items yielded by `step_forward` for the task's rays.
Simplification: no exception is raised. -/
def workerItems (pid : π) (endRays : Bool) (hists : List (List (Step α))) : List (Item α π) :=
  hists.zipIdx.flatMap fun p =>
    (p.1.filter fun s => !endRays || isEndRay s.event s.info).map fun s => ⟨pid, p.2, s⟩

/-! ### Tables -/

/-- Table `ray`, `/repo/pvtrace/data/schema.sql:1-13`. Simplification: the nine numeric and text
columns after `throw_id` are one `Ray`. The row id is the place in the table, from 1. -/
structure RayRow (α : Type) where
  throwId : ℕ
  ray : Ray α
deriving DecidableEq, Repr

/-- Table `event`, `/repo/pvtrace/data/schema.sql:16-28`. `NULL` is `none`. -/
structure EventRow (α : Type) where
  rayId : ℕ
  kind : Event
  component : Option String
  hit : Option String
  container : Option String
  adjacent : Option String
  facet : Option String
  ni : Option α
  nj : Option α
  nk : Option α
deriving DecidableEq, Repr

structure Db (α : Type) where
  rays : List (RayRow α)
  events : List (EventRow α)
deriving Repr

/-- `write_ray`, `/repo/pvtrace/cli/main.py:40-54`; also returns `lastrowid`. -/
def writeRay (db : Db α) (ray : Ray α) (throwId : ℕ) : Db α × ℕ :=
  ({ db with rays := db.rays ++ [⟨throwId, ray⟩] }, db.rays.length + 1)

/-- `write_event`, `/repo/pvtrace/cli/main.py:57-84`. No metadata of the tracer has the key `facet`
(`/repo/pvtrace/algorithm/photon_tracer.py:154-273`), so that column is `NULL`. -/
def writeEvent (db : Db α) (event : Event) (info : Meta α) (rayId : ℕ) : Db α :=
  { db with events := db.events ++
    [{ rayId := rayId
       kind := event
       component := info.component
       hit := info.hit
       container := info.container
       adjacent := info.adjacent
       facet := none
       ni := info.normal.map Vec3.x
       nj := info.normal.map Vec3.y
       nk := info.normal.map Vec3.z }] }

/-! ### The monitor thread -/

/-- `d[key] = value` on a dictionary kept as a list of pairs in order of insertion. -/
def setKey {κ β : Type} [DecidableEq κ] (key : κ) (value : β) : List (κ × β) → List (κ × β)
  | [] => [(key, value)]
  | p :: d => if p.1 = key then (key, value) :: d else p :: setKey key value d

/-- Local variables of `monitor_queue`, `/repo/pvtrace/cli/main.py:116-119`, with the database, the
number of `progress.update(1)` calls (`completed`) and the histories sent to the renderer. -/
structure Monitor (α π : Type) where
  completed : ℕ
  counts : List (π × ℕ)
  ids : List ((π × ℕ) × ℕ)
  history : List (π × List (Ray α × Event))
  rendered : List (List (Ray α × Event))
  db : Db α

def Monitor.init : Monitor α π :=
  { completed := 0, counts := [], ids := [], history := [], rendered := [], db := ⟨[], []⟩ }

variable [DecidableEq π]

/-- `/repo/pvtrace/cli/main.py:133-139`. -/
def countItem (m : Monitor α π) (it : Item α π) : Monitor α π :=
  let counts := setKey it.pid (it.idx + 1) m.counts
  if (counts.map (·.2)).sum > m.completed then
    { m with counts := counts, completed := m.completed + 1 }
  else { m with counts := counts }

/-- `/repo/pvtrace/cli/main.py:141-154`. `skip` is at least 1 (`render_every`,
`/repo/pvtrace/cli/main.py:187`). The renderer is present. -/
def nameItem (skip : ℕ) (m : Monitor α π) (it : Item α π) : Monitor α π :=
  if (m.ids.lookup (it.pid, it.idx)).isSome then m
  else
    let ids := m.ids ++ [((it.pid, it.idx), m.ids.length)]
    let rendered := match m.history.lookup it.pid with
      | some h => if h.length > 1 then m.rendered ++ [h] else m.rendered
      | none => m.rendered
    let history :=
      if ids.length % skip = 0 ∨ it.idx = 0 then setKey it.pid [] m.history
      else m.history.filter fun p => p.1 ≠ it.pid
    { m with ids := ids, rendered := rendered, history := history }

/-- `/repo/pvtrace/cli/main.py:155-156`. -/
def noteItem (m : Monitor α π) (it : Item α π) : Monitor α π :=
  match m.history.lookup it.pid with
  | none => m
  | some h => { m with history := setKey it.pid (h ++ [(it.step.ray, it.step.event)]) m.history }

/-- `/repo/pvtrace/cli/main.py:158-162`. The key is always present here. -/
def storeItem (m : Monitor α π) (it : Item α π) : Monitor α π :=
  let (db, rowid) := writeRay m.db it.step.ray ((m.ids.lookup (it.pid, it.idx)).getD 0)
  { m with db := writeEvent db it.step.event it.step.info rowid }

/-- One pass of the loop of `monitor_queue` that gets an item,
`/repo/pvtrace/cli/main.py:129-162`. -/
def monitorItem (skip : ℕ) (m : Monitor α π) (it : Item α π) : Monitor α π :=
  storeItem (noteItem (nameItem skip (countItem m it) it) it) it

/-- `monitor_queue` on the items in the order in which it gets them. -/
def monitor (skip : ℕ) (items : List (Item α π)) : Monitor α π :=
  items.foldl (monitorItem skip) Monitor.init

/-! ### Shutdown -/

/-- State of a run: items still to be put by the workers, the queue, items taken by the monitor,
the flag `stop` and whether `monitor_queue` has returned. -/
structure Run (β : Type) where
  pending : List β
  queue : List β
  written : List β
  stop : Bool
  done : Bool

/-- Steps of the processes and threads, `/repo/pvtrace/cli/main.py:121-133,218-246` and
`/repo/pvtrace/scene/scene.py:83-88`; `size` is the capacity of the queue. Simplifications:
`simulate` returns without an exception; `pending` is in the order of arrival at the queue. -/
inductive Run.Next {β : Type} (size : ℕ) : Run β → Run β → Prop
  /-- a worker puts an item -/
  | put (r : Run β) (x : β) (rest : List β) (hp : r.pending = x :: rest)
      (hq : r.queue.length < size) :
      Run.Next size r { r with pending := rest, queue := r.queue ++ [x] }
  /-- the monitor gets an item and writes it -/
  | get (r : Run β) (x : β) (rest : List β) (hd : r.done = false) (hq : r.queue = x :: rest) :
      Run.Next size r { r with queue := rest, written := r.written ++ [x] }
  /-- `simulate` has returned, the main thread sees an empty queue and sets `stop` -/
  | setStop (r : Run β) (hp : r.pending = []) (hq : r.queue = []) :
      Run.Next size r { r with stop := true }
  /-- the monitor sees `stop` and an empty queue and returns -/
  | finish (r : Run β) (hs : r.stop = true) (hq : r.queue = []) (hd : r.done = false) :
      Run.Next size r { r with done := true }

/-- Start of the run. -/
def Run.start {β : Type} (items : List β) : Run β :=
  { pending := items, queue := [], written := [], stop := false, done := false }

/-! ### Queries -/

/-- The six commands of `pvtrace count` (`/repo/pvtrace/cli/count.py:17-207`), `pvtrace spectrum`
(`/repo/pvtrace/cli/spectrum.py:57-315`) and `pvtrace time` (`/repo/pvtrace/cli/time.py:60-305`). -/
inductive Cmd
  | reflected | entering | escaping | lost | reacted | killed
deriving DecidableEq, Repr

/-- `other_column` of `_boundary_query`, `/repo/pvtrace/cli/db.py:25-42`. -/
inductive Other
  | adjacent | container
deriving DecidableEq, Repr

/-- Options of the commands. -/
structure Filters (α : Type) where
  nx : Option α := none
  ny : Option α := none
  nz : Option α := none
  facet : Option String := none
  source : Option String := none
  atol : α

/-- SQL `column = ?` with a text parameter; `NULL` is not equal to anything. -/
def sqlEq (column : Option String) (value : String) : Bool := decide (column = some value)

section
variable [AddCommGroup α] [LinearOrder α]

/-- One clause of `_normal_clauses`, `/repo/pvtrace/cli/db.py:13-22`. -/
def normalClause (value : Option α) (atol : α) (column : Option α) : Bool :=
  match value with
  | none => true
  | some v => match column with
    | none => false
    | some c => decide (|v - c| ≤ atol)

/-- `if facet:`, `if source:`: a missing or empty text is no filter. -/
def textClause (value column : Option String) : Bool :=
  match value with
  | none => true
  | some v => if v = "" then true else sqlEq column v

/-- `WHERE` of `_boundary_query`, `/repo/pvtrace/cli/db.py:42-63`. -/
def boundaryWhere (node : String) (kind : Event) (other : Other) (f : Filters α) (r : RayRow α)
    (e : EventRow α) : Bool :=
  sqlEq e.hit node &&
  sqlEq (match other with | .adjacent => e.adjacent | .container => e.container) node &&
  decide (e.kind = kind) &&
  normalClause f.nx f.atol e.ni && normalClause f.ny f.atol e.nj && normalClause f.nz f.atol e.nk &&
  textClause f.facet e.facet && textClause f.source r.ray.source

/-- `WHERE` of `_volume_query`, `/repo/pvtrace/cli/db.py:70-83`. -/
def volumeWhere (node : String) (kind : Event) (f : Filters α) (r : RayRow α) (e : EventRow α) :
    Bool :=
  sqlEq e.container node && decide (e.kind = kind) && textClause f.source r.ray.source

/-- The clause behind each command, `/repo/pvtrace/cli/db.py:93-305`; the volume commands pass on
only `source`. -/
def Cmd.where (c : Cmd) (node : String) (f : Filters α) : RayRow α → EventRow α → Bool :=
  match c with
  | .reflected => boundaryWhere node .reflect .adjacent f
  | .entering => boundaryWhere node .transmit .adjacent f
  | .escaping => boundaryWhere node .transmit .container f
  | .lost => volumeWhere node .nonradiative f
  | .reacted => volumeWhere node .react f
  | .killed => volumeWhere node .kill f

end

/-- `ray INNER JOIN event ON ray.rowid = event.ray_id`. -/
def join (db : Db α) : List (RayRow α × EventRow α) :=
  db.rays.zipIdx.flatMap fun p =>
    (db.events.filter fun e => decide (p.2 + 1 = e.rayId)).map fun e => (p.1, e)

section
variable [AddCommGroup α] [LinearOrder α]

/-- `SELECT DISTINCT columns … WHERE …`; the order of the rows is not specified by SQL. -/
def select {β : Type} [DecidableEq β] (db : Db α) (c : Cmd) (node : String) (f : Filters α)
    (columns : RayRow α → β) : List β :=
  (((join db).filter fun p => c.where node f p.1 p.2).map fun p => columns p.1).dedup

/-- `pvtrace count`: `SELECT COUNT('throw_id') FROM (SELECT DISTINCT throw_id …)`. -/
def count (db : Db α) (c : Cmd) (node : String) (f : Filters α) : ℕ :=
  (select db c node f RayRow.throwId).length

/-- `pvtrace spectrum`: columns `throw_id, wavelength`. -/
def spectrum (db : Db α) (c : Cmd) (node : String) (f : Filters α) : List (ℕ × α) :=
  select db c node f fun r => (r.throwId, r.ray.wavelength)

/-- `pvtrace time`: columns `throw_id, duration`. -/
def time (db : Db α) (c : Cmd) (node : String) (f : Filters α) : List (ℕ × α) :=
  select db c node f fun r => (r.throwId, r.ray.duration)

end

/-! ### Output -/

/-- A NumPy array made by `numpy.array(result)` from rows `(throw_id, value)` or from values. -/
inductive Arr (α : Type)
  | rows (l : List (ℕ × α))
  | flat (l : List α)

/-- `result[:, 1]`: an array with one axis raises `IndexError`. -/
def Arr.column1 : Arr α → Except Err (List α)
  | .rows l => .ok (l.map (·.2))
  | .flat _ => .error .indexError

/-- What `spectrum` and `time` hand to `handle_output`
(`/repo/pvtrace/cli/spectrum.py`, `/repo/pvtrace/cli/time.py:60-305`); `none` when there is no row.
`time lost`, `time reacted` and `time killed` pass the unzipped samples. -/
inductive Report
  | spectrum | time
deriving DecidableEq, Repr

def reported (rep : Report) (c : Cmd) (result : List (ℕ × α)) : Option (Arr α) :=
  if result.length > 0 then
    match rep, c with
    | .time, .lost => some (.flat (result.map (·.2)))
    | .time, .reacted => some (.flat (result.map (·.2)))
    | .time, .killed => some (.flat (result.map (·.2)))
    | _, _ => some (.rows result)
  else none

end PV.Database
