import Mathlib.Data.List.Basic

/-!
The run control of the studio: the websocket handler of `/repo/pvtrace/studio/server.py:198-274`, and what the page makes of its
messages, `/repo/pvtrace/studio/static/app.js:1258-1313`.

The server runs in one thread; coroutines change places only at an `await`, and the handlers of the other requests run in the same
loop. A turn below is what a run does between two of its `await`s. Simplifications: one connection; a message that is sent arrives, and messages arrive in
the order of sending; what is in a message is left out except for the run it comes from (which the real messages do not name), the
scene its labels are made from, the scene its counts are made from, and how many bundles it covers.
-/

namespace PV.StudioRun
variable {ν : Type}

/-- The messages, `/repo/pvtrace/studio/server.py:214-215,245-256,264-265`. -/
inductive Msg (ν : Type)
  | started (run total : ℕ) (labels : ν)
  | bundle (run count total : ℕ) (labels counts : ν)
  | done (run : ℕ)
  | error
deriving DecidableEq

/-- Where a run is: not begun; `started` is sent; the stream is made and `count` bundles are sent; ended. -/
inductive Phase (ν : Type)
  | created
  | announced (labels : ν)
  | tracing (labels counts : ν) (count : ℕ)
  | over
deriving DecidableEq

/-- A task `run(params)`, `/repo/pvtrace/studio/server.py:204`; `total` is the number of bundles of
`simulate_stream`, `/repo/pvtrace/engine/api.py:246-264`. -/
structure Task (ν : Type) where
  total : ℕ
  phase : Phase ν
deriving DecidableEq

/-- `studio.scene`, `stop["flag"]`, the tasks in the order of their creation, and whether the page is connected. -/
structure Server (ν : Type) where
  scene : Option ν
  stop : Bool
  tasks : List (Task ν)
  connected : Bool
deriving DecidableEq

/-- What can happen: a document or an edit is applied, a command arrives, the page leaves, a task has a turn; `fails` says that
tracing the next bundle raises. -/
inductive Act (ν : Type)
  | edit (scene : ν)
  | run (total : ℕ)
  | stop
  | leave
  | turn (i : ℕ) (fails : Bool)
deriving DecidableEq

/-- `studio.scene = None` at first, `/repo/pvtrace/studio/server.py:47-50,199-202`. -/
def fresh : Server ν := ⟨none, false, [], true⟩

/-- The task `i` is now in the phase `p`. -/
def Server.put (S : Server ν) (i : ℕ) (t : Task ν) (p : Phase ν) : Server ν := { S with tasks := S.tasks.set i { t with phase := p } }

/-- What a task does when it has its turn, `/repo/pvtrace/studio/server.py:212-256`. `fits labels counts` says that arrays made for one
scene can be added to those made for the other (`distinct += ...` raises otherwise). An exception in a task ends it without a message:
nobody awaits it. A task that sends to a page that has left gets an exception. -/
def turn (fits : ν → ν → Bool) (S : Server ν) (i : ℕ) (fails : Bool) (t : Task ν) : Server ν × List (Msg ν) :=
  match t.phase with
  | .over => (S, [])
  | .created =>
    match S.scene with
    | none => (S.put i t .over, [])
    | some v => if S.connected then (S.put i t (.announced v), [.started i t.total v]) else (S.put i t .over, [])
  | .announced m =>
    match S.scene with
    | none => (S.put i t .over, [])
    | some v => (S.put i t (.tracing m v 0), [])
  | .tracing m v k =>
    if k < t.total ∧ fails then (S.put i t .over, [])
    else if t.total ≤ k ∨ S.stop then (S.put i t .over, if S.connected then [.done i] else [])
    else if fits m v ∧ S.connected then (S.put i t (.tracing m v (k + 1)), [.bundle i (k + 1) t.total m v])
    else (S.put i t .over, [])

/-- One thing happens, `/repo/pvtrace/studio/server.py:52-74,258-274`. When the page leaves, the task made last is cancelled. -/
def step (fits : ν → ν → Bool) (S : Server ν) : Act ν → Server ν × List (Msg ν)
  | .edit v => ({ S with scene := some v }, [])
  | .run n =>
    if S.connected then
      match S.scene with
      | none => (S, [.error])
      | some _ => ({ S with stop := false, tasks := S.tasks ++ [⟨n, .created⟩] }, [])
    else (S, [])
  | .stop => if S.connected then ({ S with stop := true }, []) else (S, [])
  | .leave =>
    if S.connected then
      ({ S with stop := true, connected := false,
                tasks := S.tasks.set (S.tasks.length - 1) { S.tasks.getLastD ⟨0, .over⟩ with phase := .over } }, [])
    else (S, [])
  | .turn i fails =>
    match S.tasks[i]? with
    | none => (S, [])
    | some t => turn fits S i fails t

/-- All that happens, and the messages in order. -/
def exec (fits : ν → ν → Bool) : Server ν → List (Act ν) → Server ν × List (Msg ν)
  | S, [] => (S, [])
  | S, a :: as =>
    let (S, ms) := step fits S a
    let (S, ms') := exec fits S as
    (S, ms ++ ms')

/-- What the page shows: `histogramMeta` (with the run it is from), `latest` (the run, the scene its counts are from and how many bundles
they cover), the runs whose paths are drawn, and the progress bar as a fraction. -/
structure Page (ν : Type) where
  labels : Option (ℕ × ν)
  latest : Option (ℕ × ν × ℕ)
  paths : List ℕ
  progress : ℕ × ℕ
deriving DecidableEq

def blank : Page ν := ⟨none, none, [], (0, 1)⟩

/-- `socket.onmessage`, `/repo/pvtrace/studio/static/app.js:1271-1296`. -/
def Page.read (P : Page ν) : Msg ν → Page ν
  | .started r _ m => ⟨some (r, m), none, [], (0, 1)⟩
  | .bundle r k n _ v => { P with latest := some (r, v, k), paths := P.paths ++ [r], progress := (k, n) }
  | .done _ => { P with progress := (1, 1) }
  | .error => P

/-- The page after some messages. -/
def Page.readAll (P : Page ν) (ms : List (Msg ν)) : Page ν := ms.foldl Page.read P

/-- What `startRun` sends, `/repo/pvtrace/studio/static/app.js:1299-1307`. -/
def startRun (n : ℕ) : List (Act ν) := [.stop, .run n]

end PV.StudioRun
