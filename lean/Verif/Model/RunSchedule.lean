import Mathlib.Algebra.BigOperators.Group.Finset.Basic

/-!
Simulations started from the studio page, `/repo/pvtrace/studio/server.py:199-276`. The server is one
event loop: code between two `await`s runs undisturbed, and at an `await` any other request may be
handled. A world is changed by one such piece of code at a time; an execution is any list of them.

Simplifications: scenes and results are abstract; a bundle of zero rays and closing the connection
are left out.
-/

namespace PV.Run

/-- `scene ↦` results of its bundles, and `totals += result` (`/repo/pvtrace/studio/server.py:233-236`)
for arrays made for one scene (`compiled`) and results of another; `none` if NumPy raises because the
shapes differ. -/
structure Machine (σ R : Type) where
  zero : R
  res : σ → ℕ → R
  accumulate : σ → σ → R → R → Option R

/-- Messages sent to the page: the scene whose recorder names label the numbers is that of
`compiled`. -/
inductive Msg (σ R : Type)
  | started (labels : σ)
  | bundle (labels : σ) (count : ℕ) (totals : R)
  | done
deriving DecidableEq

/-- Where a task is suspended. -/
inductive Pc (σ R : Type)
  /-- created, not begun -/
  | created
  /-- in `await ws.send_json({"type": "started"...})`, after `compile_scene(studio.scene)` -/
  | started (compiled : σ)
  /-- in `await loop.run_in_executor(None, next, stream, None)` -/
  | waiting (compiled stream : σ) (k : ℕ) (totals : R)
  /-- in `await ws.send_json({"type": "bundle"...})` -/
  | sending (compiled stream : σ) (k : ℕ) (totals : R)
  | finished
  | failed
deriving DecidableEq

/-- One `run(params)` with the number of bundles asked for and the messages sent so far. -/
structure Task (σ R : Type) where
  total : ℕ
  pc : Pc σ R := .created
  out : List (Msg σ R) := []
deriving DecidableEq

/-- The code from one `await` to the next, `/repo/pvtrace/studio/server.py:205-256`. -/
def Task.advance {σ R : Type} (M : Machine σ R) (scene : σ) (stop : Bool) (t : Task σ R) : Task σ R :=
  match t.pc with
  | .created => { t with pc := .started scene, out := t.out ++ [.started scene] }
  | .started c => { t with pc := .waiting c scene 0 M.zero }
  | .waiting c s k acc =>
    if t.total ≤ k ∨ stop then { t with pc := .finished, out := t.out ++ [.done] }
    else
      match M.accumulate c s acc (M.res s k) with
      | none => { t with pc := .failed }
      | some acc' => { t with pc := .sending c s (k + 1) acc', out := t.out ++ [.bundle c (k + 1) acc'] }
  | .sending c s k acc => { t with pc := .waiting c s k acc }
  | .finished => t
  | .failed => t

/-- `studio.scene`, the shared `stop` flag and the tasks of the connection. -/
structure World (σ R : Type) where
  scene : σ
  stop : Bool := false
  tasks : List (Task σ R) := []

/-- What the event loop does next: a new document is applied, a `run` or `stop` message arrives
(`/repo/pvtrace/studio/server.py:258-271`), or a suspended task goes on. -/
inductive Act (σ : Type)
  | edit (scene : σ)
  | run (total : ℕ)
  | stop
  | resume (i : ℕ)
deriving DecidableEq

variable {σ R : Type}

def World.step (M : Machine σ R) (w : World σ R) : Act σ → World σ R
  | .edit s => { w with scene := s }
  | .run n => { w with stop := false, tasks := w.tasks ++ [{ total := n }] }
  | .stop => { w with stop := true }
  | .resume i => { w with tasks := w.tasks.modify i (Task.advance M w.scene w.stop) }

/-- An execution. -/
def World.exec (M : Machine σ R) (w : World σ R) (acts : List (Act σ)) : World σ R :=
  acts.foldl (World.step M) w

end PV.Run
