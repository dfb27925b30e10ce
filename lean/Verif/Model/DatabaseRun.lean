import Verif.Model.Database

/-!
The life of one command `pvtrace simulate` as seen by its database file: the start
(`/repo/pvtrace/cli/main.py:30-37,196-209`), the workers, the thread that writes, and the end
(`/repo/pvtrace/cli/main.py:116-162,211-246`), with exceptions in any of them.
-/

namespace PV.Database
variable {α π σ ε : Type}

/-- Why the command ends before it traces anything. -/
inductive StartErr (ε : Type)
  | parse (e : ε)
  | aborted
deriving DecidableEq, Repr

/-- `/repo/pvtrace/cli/main.py:196-209`: `parsed` is the outcome of `parse`, `old` the database file
of the scene if there is one, `answer` what the user replies. Also returns the file afterwards:
`os.remove` followed by `prepare_database` (`/repo/pvtrace/cli/main.py:30-37`), which makes two empty
tables. -/
def prepare (parsed : Except ε σ) (old : Option (Db α)) (overwrite answer : Bool) :
    Except (StartErr ε) σ × Option (Db α) :=
  match parsed with
  | .error e => (.error (.parse e), old)
  | .ok scene =>
    match old with
    | none => (.ok scene, some ⟨[], []⟩)
    | some db =>
      if overwrite then (.ok scene, some ⟨[], []⟩)
      else if answer then (.ok scene, some ⟨[], []⟩)
      else (.error .aborted, some db)

/-- The call of `scene_obj.simulate` in the main thread. -/
inductive Sim
  | running | returned | raised
deriving DecidableEq, Repr

/-- The monitor thread; `dead` after an exception other than `Empty`. -/
inductive Thread
  | running | returned | dead
deriving DecidableEq, Repr

/-- State of the command. `uncommitted`: the rows of an item have been inserted (or are being
inserted) but `connection.commit()` has not returned. `disk`: the rows in the file. `exit`: the end of
the command, `some true` after it has printed `OK`. -/
structure Cli (α π : Type) where
  pending : List (Item α π)
  queue : List (Item α π)
  mon : Monitor α π
  uncommitted : Bool
  disk : Db α
  sim : Sim
  stop : Bool
  thread : Thread
  exit : Option Bool

/-- Start of tracing with the given file. -/
def Cli.start (items : List (Item α π)) (disk : Db α) : Cli α π :=
  { pending := items, queue := [], mon := { Monitor.init with db := disk }, uncommitted := false,
    disk := disk, sim := .running, stop := false, thread := .running, exit := none }

/-- Steps of the processes and threads; `size` is the capacity of the queue. Simplifications:
`pending` is in the order of arrival at the queue; the transaction of an item is one step that may
fail, and SQLite transactions are atomic. -/
inductive Cli.Next [DecidableEq π] (size skip : ℕ) : Cli α π → Cli α π → Prop
  /-- a worker puts an item, `/repo/pvtrace/scene/scene.py:83-88`; workers go on when another one has
  failed -/
  | put (r : Cli α π) (x : Item α π) (rest : List (Item α π)) (hp : r.pending = x :: rest)
      (hq : r.queue.length < size) (he : r.exit = none) :
      Cli.Next size skip r { r with pending := rest, queue := r.queue ++ [x] }
  /-- the monitor gets an item and inserts its rows, `/repo/pvtrace/cli/main.py:129-161` -/
  | get (r : Cli α π) (x : Item α π) (rest : List (Item α π)) (ht : r.thread = .running)
      (hu : r.uncommitted = false) (hq : r.queue = x :: rest) :
      Cli.Next size skip r
        { r with queue := rest, mon := monitorItem skip r.mon x, uncommitted := true }
  /-- `connection.commit()`, `/repo/pvtrace/cli/main.py:162` -/
  | commit (r : Cli α π) (ht : r.thread = .running) (hu : r.uncommitted = true) :
      Cli.Next size skip r { r with uncommitted := false, disk := r.mon.db }
  /-- an exception in the monitor before the commit has returned, for example from SQLite or the
  renderer: the thread ends, the transaction is rolled back -/
  | fail (r : Cli α π) (ht : r.thread = .running) (hu : r.uncommitted = true) :
      Cli.Next size skip r { r with uncommitted := false, thread := .dead }
  /-- `simulate` returns -/
  | simReturns (r : Cli α π) (hs : r.sim = .running) (hp : r.pending = []) :
      Cli.Next size skip r { r with sim := .returned }
  /-- `simulate` raises the exception of a worker, `/repo/pvtrace/scene/scene.py:301` -/
  | simRaises (r : Cli α π) (hs : r.sim = .running) :
      Cli.Next size skip r { r with sim := .raised }
  /-- the main thread sees an empty queue and sets `stop`, `/repo/pvtrace/cli/main.py:240-243` -/
  | setStop (r : Cli α π) (hs : r.sim ≠ .running) (hq : r.queue = []) (hn : r.stop = false) :
      Cli.Next size skip r { r with stop := true }
  /-- the monitor sees `stop` and an empty queue, `/repo/pvtrace/cli/main.py:123-127` -/
  | finish (r : Cli α π) (hs : r.stop = true) (hq : r.queue = []) (hu : r.uncommitted = false)
      (ht : r.thread = .running) : Cli.Next size skip r { r with thread := .returned }
  /-- `monitor_thread.join()` returns, `/repo/pvtrace/cli/main.py:244-245` -/
  | leave (r : Cli α π) (hs : r.stop = true) (ht : r.thread ≠ .running) (he : r.exit = none) :
      Cli.Next size skip r { r with exit := some (decide (r.sim = .returned)) }

end PV.Database
