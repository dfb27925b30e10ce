import Verif.Model.Simulate
import Verif.Model.Light
import Verif.Model.Library
import Verif.Spec.Stream

/-!
The Python tracer with the state in which it leaves `np.random`: a simulation in one process draws the
numbers of all its rays from one generator, `/repo/pvtrace/scene/scene.py:22-33`. The functions follow those
of `Model/Tracer` line by line; `PV.Stream.follow_same` shows that they agree with them.
-/

namespace PV.Stream
variable {α ν κ σ : Type}

/-- `/repo/pvtrace/algorithm/photon_tracer.py:190-233`: the events, the ray if the loop goes on, and the
state of `np.random`. -/
def absorbPass [Field α] (O : Ops α ν κ σ) (container : ν) (ray : Ray α) (d : α) (s : σ) :
    Except Err ((List (Step α) × Option (Ray α)) × σ) :=
  let ray := ray.propagate d (O.refractiveIndex container)
  match O.component container ray.wavelength s with
  | .error e => .error e
  | .ok (comp, s) =>
    let info : Meta α := { component := some (O.compName comp), container := some (O.name container) }
    let a : Step α := ⟨ray, .absorb, info⟩
    match O.isRadiative comp ray s with
    | .error e => .error e
    | .ok (radiative, s) =>
      if radiative then
        match O.emit container comp ray s with
        | .error e => .error e
        | .ok (ray, s) =>
          match O.compKind comp with
          | .luminophore => .ok (([a, ⟨ray, .emit, info⟩], some ray), s)
          | .other => .error .valueError
          | _ => .ok (([a, ⟨ray, .scatter, info⟩], some ray), s)
      else
        match O.nonradiativeAbsorb comp ray s with
        | .error e => .error e
        | .ok (ray, s) =>
          match O.compKind comp with
          | .reactor => .ok (([a, ⟨ray, .react, info⟩], none), s)
          | _ => .ok (([a, ⟨ray, .nonradiative, info⟩], none), s)

/-- `/repo/pvtrace/algorithm/photon_tracer.py:234-273`. -/
def surfacePass [Field α] (O : Ops α ν κ σ) (h : HitInfo ν α) (ray : Ray α) (s : σ) :
    Except Err ((List (Step α) × Option (Ray α)) × σ) :=
  let ray := ray.propagate h.dist (O.refractiveIndex h.container)
  match O.normal h.hit ray.position with
  | .error e => .error e
  | .ok normal =>
    let info : Meta α :=
      { hit := some (O.name h.hit), container := some (O.name h.container),
        adjacent := h.adjacent.map O.name, normal := some normal }
    match O.isReflected h.hit h.container h.adjacent ray s with
    | .error e => .error e
    | .ok (reflected, s) =>
      if reflected then
        match O.reflect h.hit h.container h.adjacent ray s with
        | .error e => .error e
        | .ok (ray, s) => .ok (([⟨ray, .reflect, info⟩], some ray), s)
      else
        match O.transmit h.hit h.container h.adjacent ray s with
        | .error e => .error e
        | .ok (ray, s) =>
          match h.adjacent with
          | none => .error .attributeError
          | some _ => .ok (([⟨ray, .transmit, info⟩], some ray), s)

/-- One pass of the loop, `/repo/pvtrace/algorithm/photon_tracer.py:156-273`. -/
def pass [Field α] [LinearOrder α] [DecidableEq ν] (O : Ops α ν κ σ) (maxsteps : ℕ)
    (maxpathlength : Option α) (count : ℕ) (ray : Ray α) (s : σ) :
    Except Err ((List (Step α) × Option (Ray α)) × σ) :=
  match O.intersections ray.position ray.direction with
  | .error e => .error e
  | .ok xs =>
    match nextHit O.eps (O.distBetween ray.position) xs with
    | .error e => .error e
    | .ok none => .ok (([], none), s)
    | .ok (some h) =>
      if count > maxsteps ∨ beyond ray.travelled maxpathlength then
        .ok (([⟨ray, .kill, { container := some (O.name h.container) }⟩], none), s)
      else if h.hit = O.root then
        .ok (([⟨ray.propagate h.dist (O.refractiveIndex h.container), .exit,
            { hit := some (O.name h.hit), container := some (O.name h.container),
              adjacent := h.adjacent.map O.name }⟩], none), s)
      else
        match O.penetrationDepth h.container ray.wavelength s with
        | .error e => .error e
        | .ok (depth, s) =>
          match isAbsorbed depth h.dist with
          | some d => absorbPass O h.container ray d s
          | none => surfacePass O h ray s

/-- The loop of `step_forward`; `maxsteps + 1` passes are always enough. -/
def passes [Field α] [LinearOrder α] [DecidableEq ν] (O : Ops α ν κ σ) (maxsteps : ℕ)
    (maxpathlength : Option α) : ℕ → ℕ → Ray α → σ → Except Err (List (Step α) × σ)
  | 0, _, _, _ => .error .unboundLocal
  | fuel + 1, count, ray, s =>
    match pass O maxsteps maxpathlength (count + 1) ray s with
    | .error e => .error e
    | .ok ((es, next), s) =>
      match next with
      | none => .ok (es, s)
      | some ray =>
        match passes O maxsteps maxpathlength fuel (count + 1) ray s with
        | .error e => .error e
        | .ok (es', s) => .ok (es ++ es', s)

/-- `follow`, `/repo/pvtrace/algorithm/photon_tracer.py:317-328`. -/
def follow [Field α] [LinearOrder α] [DecidableEq ν] (O : Ops α ν κ σ) (maxsteps : ℕ)
    (maxpathlength : Option α) (ray : Ray α) (s : σ) : Except Err (List (Ray α × Event) × σ) :=
  match passes O maxsteps maxpathlength (maxsteps + 1) 0 ray s with
  | .error e => .error e
  | .ok (es, s) => .ok ((ray, .generate) :: es.map (fun e => (e.ray, e.event)), s)

noncomputable section

/-- A new ray as it enters `follow`. Simplification: a wavelength `nan` (a sample outside a table) is treated as
an exception. -/
def launched (r : Light.Emitted) : Except Err (Ray ℝ) :=
  match r.wavelength with
  | none => .error .valueError
  | some w => .ok ⟨r.position, r.direction, w, 0, 0, some r.source⟩

/-- One ray of `Scene.emit`: `light.emit(1)` and `representation`, `/repo/pvtrace/scene/scene.py:147-151`. -/
def launch (L : Light.Lamp) (s : Spec.Numbers) : Except Err (Ray ℝ × Spec.Numbers) :=
  match L.one s with
  | .error e => .error e
  | .ok (r, s) =>
    match launched (r.representation L.toRoot) with
    | .error e => .error e
    | .ok ray => .ok (ray, s)

/-- One ray of a simulation: emitted and traced, `/repo/pvtrace/scene/scene.py:28-31`. -/
def throw {ℓ ρ η σ : Type} (P : Simulate.Stage ℓ ρ η σ) (idx : ℕ) (s : σ) : Except Err (η × σ) :=
  match Simulate.emitAt P idx s with
  | .error e => .error e
  | .ok (ray, s) => P.trace ray s

/-- A simulation of a library scene in one process with one stream of numbers,
`/repo/pvtrace/scene/scene.py:22-32`. -/
def stage (lamps : List Light.Lamp) (S : LScene n) (B : Trimesh) (method : EmitMethod) (maxsteps : ℕ)
    (maxpathlength : Option ℝ) (seeded : ℕ → Spec.Numbers) :
    Simulate.Stage Light.Lamp (Ray ℝ) (List (Ray ℝ × Event)) Spec.Numbers :=
  ⟨lamps, launch, Stream.follow (pyOps S B Spec.reader method) maxsteps maxpathlength, seeded⟩

end
end PV.Stream
