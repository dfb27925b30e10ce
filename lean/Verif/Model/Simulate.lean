import Verif.Model.Kernel

/-!
How a run is organised: `Scene.emit`, `do_simulation` and `Scene.simulate`
(`/repo/pvtrace/scene/scene.py`), `emit_bundle` (`/repo/pvtrace/engine/emit.py`) and
`simulate_stream` (`/repo/pvtrace/engine/api.py`).
-/

namespace PV.Simulate
variable {ℓ ρ η σ : Type}

/-- What a run uses: the light nodes in level order, one emitted ray of a light in the frame of the
root (`light.emit(1)` yields one ray, then `representation`), tracing of a ray to a history
(`photon_tracer.follow`) and `np.random.seed`. -/
structure Stage (ℓ ρ η σ : Type) where
  lights : List ℓ
  emit : ℓ → σ → Except Err (ρ × σ)
  trace : ρ → σ → Except Err (η × σ)
  seeded : ℕ → σ

/-- Ray `idx` of `Scene.emit`, `/repo/pvtrace/scene/scene.py:147-151`. Without lights `idx % 0`
raises. -/
def emitAt (P : Stage ℓ ρ η σ) (idx : ℕ) (s : σ) : Except Err (ρ × σ) :=
  if P.lights.length = 0 then .error .zeroDivision
  else
    match P.lights[idx % P.lights.length]? with
    | none => .error .indexError
    | some l => P.emit l s

/-- The list of `Scene.emit(num_rays)` when the rays are drawn one after the other,
`/repo/pvtrace/scene/scene.py:141-151`, from index `idx` on. -/
def emitFrom (P : Stage ℓ ρ η σ) : ℕ → ℕ → σ → Except Err (List ρ × σ)
  | _, 0, s => .ok ([], s)
  | idx, k + 1, s =>
    match emitAt P idx s with
    | .error e => .error e
    | .ok (ray, s) =>
      match emitFrom P (idx + 1) k s with
      | .error e => .error e
      | .ok (rays, s) => .ok (ray :: rays, s)

/-- The loop of `do_simulation`, `/repo/pvtrace/scene/scene.py:28-32`. `Scene.emit` is a generator:
each ray is traced before the next one is drawn. -/
def traceFrom (P : Stage ℓ ρ η σ) : ℕ → ℕ → σ → Except Err (List η)
  | _, 0, _ => .ok []
  | idx, k + 1, s =>
    match emitAt P idx s with
    | .error e => .error e
    | .ok (ray, s) =>
      match P.trace ray s with
      | .error e => .error e
      | .ok (h, s) =>
        match traceFrom P (idx + 1) k s with
        | .error e => .error e
        | .ok hs => .ok (h :: hs)

/-- `do_simulation`, `/repo/pvtrace/scene/scene.py:22-32`; `s` is the state of `np.random` found. -/
def doSimulation (P : Stage ℓ ρ η σ) (numRays : ℕ) (seed : Option ℕ) (s : σ) : Except Err (List η) :=
  traceFrom P 0 numRays (match seed with | some k => P.seeded k | none => s)

/-- `remainder`, `/repo/pvtrace/scene/scene.py:272-275`. -/
def remainder (numRays workers : ℕ) : ℕ :=
  let perWorker := numRays / workers
  if perWorker * workers < numRays then numRays % (perWorker * workers)
  else (perWorker * workers) % numRays

/-- `rays`, `/repo/pvtrace/scene/scene.py:280-281`. -/
def shares (numRays workers : ℕ) : List ℕ :=
  match List.replicate workers (numRays / workers) with
  | [] => []
  | r :: rs => (r + remainder numRays workers) :: rs

/-- Results of the workers in worker order, `/repo/pvtrace/scene/scene.py:304-313`. Every worker is a
process of its own, so its result depends on its arguments only. `seeds` are the numbers drawn with
`randint`. -/
def gather (P : Stage ℓ ρ η σ) (s : σ) : List (ℕ × ℕ) → Except Err (List η)
  | [] => .ok []
  | (n, seed) :: rest =>
    match doSimulation P n (some seed) s with
    | .error e => .error e
    | .ok hs =>
      match gather P s rest with
      | .error e => .error e
      | .ok hs' => .ok (hs ++ hs')

/-- The number of workers, `/repo/pvtrace/scene/scene.py:256-259`. -/
def workerCount (cpus : ℕ) (workers : Option ℕ) : ℕ := workers.getD (max 1 (cpus / 2))

/-- `Scene.simulate` without a queue, `/repo/pvtrace/scene/scene.py:256-313`. `seeds` is what
`np.random.randint(0, 2**31 - 1, workers)` returns, one entry per worker. -/
def simulate (P : Stage ℓ ρ η σ) (cpus numRays : ℕ) (workers seed : Option ℕ) (s : σ)
    (seeds : ℕ → ℕ) : Except Err (List η) :=
  let w := workerCount cpus workers
  if w = 1 then doSimulation P numRays seed s
  else if w = 0 then .error .zeroDivision
  else if numRays / w = 0 then doSimulation P numRays seed s
  else
    match seed with
    | some _ => .error .valueError
    | none => gather P s ((shares numRays w).zipIdx.map fun p => (p.1, seeds p.2))

/-! ### Emission of a bundle -/

/-- `np.arange(start, stop, step)` with a positive step. -/
def arange (start stop step : ℕ) : List ℕ :=
  (List.range ((stop - start + step - 1) / step)).map fun k => start + k * step

/-- `array[rows] = value`. -/
def assign {β : Type} (array : ℕ → Option β) (rows : List ℕ) (value : β) : ℕ → Option β :=
  fun k => if k ∈ rows then some value else array k

/-- The light that fills each row in `emit_bundle`, `/repo/pvtrace/engine/emit.py:92-135`; `none` is a
row never written. Both the vectorised branch and the fallback (`zip(rows, node.emit(n))`) fill the
rows `arange(index, num_rays, len(lights))`. -/
def bundleLights (lights : List ℓ) (numRays : ℕ) : ℕ → Option ℓ :=
  lights.zipIdx.foldl (fun array p => assign array (arange p.2 numRays lights.length) p.1)
    fun _ => none

/-! ### Streaming -/

/-- The calls of `simulate` made by `simulate_stream`, `/repo/pvtrace/engine/api.py:257-264`: number
of rays and seed of each bundle, and whether the loop has ended within the fuel. -/
def stream (numRays bundle seed : ℕ) : ℕ → ℕ → List (ℕ × ℕ) × Bool
  | 0, _ => ([], false)
  | fuel + 1, traced =>
    if traced < numRays then
      let n := min bundle (numRays - traced)
      let r := stream numRays bundle seed fuel (traced + n)
      ((n, seed + traced) :: r.1, r.2)
    else ([], true)

end PV.Simulate
