import Verif.Model.NextHit

/-!
The Python tracer: `step_forward` and `follow` of
`/repo/pvtrace/algorithm/photon_tracer.py:112-328`, over arbitrary behaviour of the scene's
geometry, materials, surfaces and components.
-/

namespace PV
variable {α ν κ σ : Type}

/-- Class of a component, as told apart by `isinstance` in
`/repo/pvtrace/algorithm/photon_tracer.py:203-221`. `other` is any class that is neither a
`Luminophore`, a `Scatterer` nor a `Reactor`; an `Absorber` is a `Scatterer` subclass. -/
inductive CompKind
  | luminophore | scatterer | absorber | reactor | other
deriving DecidableEq, Repr

/-- Everything `step_forward` calls, as arbitrary functions. `ν` are nodes, `κ` components and
`σ` the state of `np.random`. Functions that may raise return `Except`. -/
structure Ops (α ν κ σ : Type) where
  /-- `scene.root` -/
  root : ν
  /-- `node.name` -/
  name : ν → String
  /-- `EPS_ZERO` -/
  eps : α
  /-- `distance_between` -/
  distBetween : Vec3 α → Vec3 α → α
  /-- `scene.intersections(position, direction)`, sorted, in the root frame -/
  intersections : Vec3 α → Vec3 α → Except Err (List (Inter ν α))
  /-- `node.geometry.material.refractive_index` -/
  refractiveIndex : ν → α
  /-- `node.geometry.material.penetration_depth(wavelength)`; `none` is `inf` -/
  penetrationDepth : ν → α → σ → Except Err (Option α × σ)
  /-- `node.geometry.material.component(wavelength)` -/
  component : ν → α → σ → Except Err (κ × σ)
  compName : κ → String
  compKind : κ → CompKind
  /-- `component.is_radiative(ray)` -/
  isRadiative : κ → Ray α → σ → Except Err (Bool × σ)
  /-- `component.emit(ray.representation(root, container)).representation(container, root)` -/
  emit : ν → κ → Ray α → σ → Except Err (Ray α × σ)
  /-- `component.nonradiative_absorb(ray)` -/
  nonradiativeAbsorb : κ → Ray α → σ → Except Err (Ray α × σ)
  /-- outward normal of the hit node at a world point, in the world frame -/
  normal : ν → Vec3 α → Except Err (Vec3 α)
  /-- `surface.is_reflected(local_ray, hit.geometry, container, adjacent)` -/
  isReflected : ν → ν → Option ν → Ray α → σ → Except Err (Bool × σ)
  /-- `surface.reflect(...)` and back to the root frame -/
  reflect : ν → ν → Option ν → Ray α → σ → Except Err (Ray α × σ)
  /-- `surface.transmit(...)` and back to the root frame -/
  transmit : ν → ν → Option ν → Ray α → σ → Except Err (Ray α × σ)

/-- How one pass of the loop body ends: `continue`, `break` or an exception. -/
inductive Next (α σ : Type)
  | cont (ray : Ray α) (rng : σ)
  | stop
  | raise (e : Err)

/-- `is_absorbed`, `/repo/pvtrace/material/material.py:22-24`: `depth < full_distance`. -/
def isAbsorbed [LinearOrder α] (depth : Option α) (full : α) : Option α :=
  match depth with
  | none => none
  | some d => if d < full then some d else none

/-- Volume interaction, `/repo/pvtrace/algorithm/photon_tracer.py:190-233`. -/
def absorbBody [Field α] (O : Ops α ν κ σ) (container : ν) (ray : Ray α) (d : α) (s : σ) :
    List (Step α) × Next α σ :=
  let ray := ray.propagate d (O.refractiveIndex container)
  match O.component container ray.wavelength s with
  | .error e => ([], .raise e)
  | .ok (comp, s) =>
    let info : Meta α := { component := some (O.compName comp), container := some (O.name container) }
    let a : Step α := ⟨ray, .absorb, info⟩
    match O.isRadiative comp ray s with
    | .error e => ([a], .raise e)
    | .ok (true, s) =>
      match O.emit container comp ray s with
      | .error e => ([a], .raise e)
      | .ok (ray, s) =>
        match O.compKind comp with
        | .luminophore => ([a, ⟨ray, .emit, info⟩], .cont ray s)
        | .other => ([a], .raise .valueError)
        | _ => ([a, ⟨ray, .scatter, info⟩], .cont ray s)
    | .ok (false, s) =>
      match O.nonradiativeAbsorb comp ray s with
      | .error e => ([a], .raise e)
      | .ok (ray, _) =>
        match O.compKind comp with
        | .reactor => ([a, ⟨ray, .react, info⟩], .stop)
        | _ => ([a, ⟨ray, .nonradiative, info⟩], .stop)

/-- Surface interaction, `/repo/pvtrace/algorithm/photon_tracer.py:234-273`. -/
def surfaceBody [Field α] (O : Ops α ν κ σ) (h : HitInfo ν α) (ray : Ray α) (s : σ) :
    List (Step α) × Next α σ :=
  let ray := ray.propagate h.dist (O.refractiveIndex h.container)
  match O.normal h.hit ray.position with
  | .error e => ([], .raise e)
  | .ok normal =>
    let info : Meta α :=
      { hit := some (O.name h.hit), container := some (O.name h.container),
        adjacent := h.adjacent.map O.name, normal := some normal }
    match O.isReflected h.hit h.container h.adjacent ray s with
    | .error e => ([], .raise e)
    | .ok (true, s) =>
      match O.reflect h.hit h.container h.adjacent ray s with
      | .error e => ([], .raise e)
      | .ok (ray, s) => ([⟨ray, .reflect, info⟩], .cont ray s)
    | .ok (false, s) =>
      match O.transmit h.hit h.container h.adjacent ray s with
      | .error e => ([], .raise e)
      | .ok (ray, s) =>
        match h.adjacent with
        | none => ([], .raise .attributeError)
        | some _ => ([⟨ray, .transmit, info⟩], .cont ray s)

/-- Python's `ray.travelled > maxpathlength`; `none` is `np.inf`. -/
def beyond [LinearOrder α] (travelled : α) (maxpathlength : Option α) : Bool :=
  match maxpathlength with
  | none => false
  | some m => decide (m < travelled)

/-- One pass of the `while True` loop of `step_forward`,
`/repo/pvtrace/algorithm/photon_tracer.py:156-273`; `count` is the value after `count += 1`.
A negative `maxsteps` behaves like 0 and is not represented. -/
def body [Field α] [LinearOrder α] [DecidableEq ν] (O : Ops α ν κ σ) (maxsteps : ℕ)
    (maxpathlength : Option α) (count : ℕ) (ray : Ray α) (s : σ) :
    List (Step α) × Next α σ :=
  match O.intersections ray.position ray.direction with
  | .error e => ([], .raise e)
  | .ok xs =>
    match nextHit O.eps (O.distBetween ray.position) xs with
    | .error e => ([], .raise e)
    | .ok none => ([], .stop)
    | .ok (some h) =>
      if count > maxsteps ∨ beyond ray.travelled maxpathlength then
        ([⟨ray, .kill, { container := some (O.name h.container) }⟩], .stop)
      else if h.hit = O.root then
        ([⟨ray.propagate h.dist (O.refractiveIndex h.container), .exit,
            { hit := some (O.name h.hit), container := some (O.name h.container),
              adjacent := h.adjacent.map O.name }⟩], .stop)
      else
        match O.penetrationDepth h.container ray.wavelength s with
        | .error e => ([], .raise e)
        | .ok (depth, s) =>
          match isAbsorbed depth h.dist with
          | some d => absorbBody O h.container ray d s
          | none => surfaceBody O h ray s

/-- How a run of the generator ends. -/
inductive Outcome
  | finished
  | raised (e : Err)
  | outOfFuel
deriving DecidableEq, Repr

/-- The loop of `step_forward`, with fuel. -/
def loop [Field α] [LinearOrder α] [DecidableEq ν] (O : Ops α ν κ σ) (maxsteps : ℕ)
    (maxpathlength : Option α) : ℕ → ℕ → Ray α → σ → List (Step α) × Outcome
  | 0, _, _, _ => ([], .outOfFuel)
  | fuel + 1, count, ray, s =>
    match body O maxsteps maxpathlength (count + 1) ray s with
    | (es, .stop) => (es, .finished)
    | (es, .raise e) => (es, .raised e)
    | (es, .cont ray s) =>
      let r := loop O maxsteps maxpathlength fuel (count + 1) ray s
      (es ++ r.1, r.2)

/-- `step_forward`: everything yielded, and how the generator ended,
`/repo/pvtrace/algorithm/photon_tracer.py:112-273`. -/
def stepForward [Field α] [LinearOrder α] [DecidableEq ν] (O : Ops α ν κ σ) (maxsteps : ℕ)
    (maxpathlength : Option α) (fuel : ℕ) (ray : Ray α) (s : σ) : List (Step α) × Outcome :=
  let r := loop O maxsteps maxpathlength fuel 0 ray s
  (⟨ray, .generate, {}⟩ :: r.1, r.2)

/-- `follow`, `/repo/pvtrace/algorithm/photon_tracer.py:317-328`: the pairs `(ray, event)`, or the
exception. The fuel `maxsteps + 1` is always enough (theorem `PV.Tracer.terminates`). -/
def follow [Field α] [LinearOrder α] [DecidableEq ν] (O : Ops α ν κ σ) (maxsteps : ℕ)
    (maxpathlength : Option α) (ray : Ray α) (s : σ) : Except Outcome (List (Ray α × Event)) :=
  match stepForward O maxsteps maxpathlength (maxsteps + 1) ray s with
  | (es, .finished) => .ok (es.map (fun e => (e.ray, e.event)))
  | (_, o) => .error o

end PV
