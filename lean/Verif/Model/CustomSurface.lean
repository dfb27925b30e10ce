import Verif.Model.Library
import Verif.Model.Lsc

/-!
Surfaces with delegates written by the user, `/repo/pvtrace/material/surface.py:13-76,203-272`.
Simplification: a delegate is a function of the ray in the frame of the object, the two neighbours and
the random numbers; it does not change the scene.
-/

namespace PV
noncomputable section

/-- What `reflectivity` may return: an `int` or `float` (`none` is `nan`), or any other object (a
`numpy.float32`, `None`, a string). -/
inductive Answer
  | number (r : Option ℝ)
  | other

/-- What `reflected_direction` and `transmitted_direction` may return: a tuple of three numbers, a
tuple of another length, or something that is not a tuple. -/
inductive Bearing
  | triple (d : Vec3 ℝ)
  | tuple (length : ℕ)
  | other

/-- A `SurfaceDelegate`, `/repo/pvtrace/material/surface.py:13-76`. Arguments: the ray in the frame of
the object hit, `container`, `adjacent`. -/
structure CustomDelegate (n : ℕ) (σ : Type) where
  reflectivity : Ray ℝ → Fin (n + 1) → Option (Fin (n + 1)) → σ → Except Err (Answer × σ)
  reflected : Ray ℝ → Fin (n + 1) → Option (Fin (n + 1)) → σ → Except Err (Bearing × σ)
  transmitted : Ray ℝ → Fin (n + 1) → Option (Fin (n + 1)) → σ → Except Err (Bearing × σ)

variable {n : ℕ} {σ : Type}

/-- `Surface.is_reflected`, `/repo/pvtrace/material/surface.py:231-240`. -/
def CustomDelegate.isReflected (D : CustomDelegate n σ) (R : Rand σ) (ray : Ray ℝ) (c : Fin (n + 1))
    (a : Option (Fin (n + 1))) (s : σ) : Except Err (Bool × σ) :=
  match D.reflectivity ray c a s with
  | .error e => .error e
  | .ok (.other, _) => .error .valueError
  | .ok (.number r, s) =>
    let (u, s') := R.next s
    let b := PV.isReflected r u
    .ok (b.1, if b.2 then s' else s)

/-- The checks of `Surface.reflect` and `Surface.transmit`,
`/repo/pvtrace/material/surface.py:248-256,264-272`. A tuple of length 3 whose entries are not numbers is
not represented. -/
def Bearing.check : Bearing → Except Err (Vec3 ℝ)
  | .triple d => .ok d
  | .tuple _ => .error .valueError
  | .other => .error .valueError

/-- `Surface.reflect` (`/repo/pvtrace/material/surface.py:242-256`) or `Surface.transmit`
(`/repo/pvtrace/material/surface.py:258-272`) and back to the root frame,
`/repo/pvtrace/algorithm/photon_tracer.py:245-247,260-262`. -/
def LNode.bend (N : LNode) (answer : Ray ℝ → σ → Except Err (Bearing × σ)) (ray : Ray ℝ) (s : σ) :
    Except Err (Ray ℝ × σ) :=
  match answer (ray.representation N.w2l) s with
  | .error e => .error e
  | .ok (b, s) => N.turn ray b.check s

/-- Everything `step_forward` calls, for a scene whose objects have the given delegates. -/
def customOps (S : LScene n) (D : Fin (n + 1) → CustomDelegate n σ) (B : Trimesh) (R : Rand σ)
    (method : EmitMethod) : Ops ℝ (Fin (n + 1)) Comp σ :=
  { pyOps S B R method with
    isReflected := fun h c a ray s => (D h).isReflected R (ray.representation (S.node h).w2l) c a s
    reflect := fun h c a ray s => (S.node h).bend (fun ray s => (D h).reflected ray c a s) ray s
    transmit := fun h c a ray s => (S.node h).bend (fun ray s => (D h).transmitted ray c a s) ray s }

/-- The default delegate of a node as such an object: `NullSurfaceDelegate` and
`FresnelSurfaceDelegate`, `/repo/pvtrace/material/surface.py:79-177,216-223`. -/
def builtin (S : LScene n) (h : Fin (n + 1)) : CustomDelegate n σ where
  reflectivity ray c a s :=
    match S.reflectivity h c a ray with
    | .error e => .error e
    | .ok r => .ok (.number r, s)
  reflected ray _ _ s :=
    match S.reflected h ray with
    | .error e => .error e
    | .ok d => .ok (.triple d, s)
  transmitted ray c a s :=
    match S.transmitted h c a ray with
    | .error e => .error e
    | .ok d => .ok (.triple d, s)

/-- `OptionalMirrorAndSolarCell`, `/repo/pvtrace/device/lsc.py:22-62`, on the object `h`. -/
def cellDelegate (S : LScene n) (h : Fin (n + 1)) (cells : Finset Lsc.Facet) (mirror : Bool) : CustomDelegate n σ where
  reflectivity ray c a s :=
    match a with
    | none => .error .attributeError
    | some a =>
      match pyNormal (S.node h).geom ray.position with
      | .error e => .error e
      | .ok m => .ok (.number (Lsc.reflectivity cells mirror m ray.direction (S.node c).index (S.node a).index), s)
  reflected ray _ _ s :=
    match pyNormal (S.node h).geom ray.position with
    | .error e => .error e
    | .ok m => .ok (.triple (specular ray.direction m), s)
  transmitted ray c a s :=
    match a with
    | none => .error .attributeError
    | some a =>
      match pyNormal (S.node h).geom ray.position with
      | .error e => .error e
      | .ok m =>
        match Lsc.transmitted cells m ray.direction (S.node c).index (S.node a).index with
        | none => .error .valueError
        | some d => .ok (.triple d, s)

/-- `AirGapMirror`, `/repo/pvtrace/device/lsc.py:65-86`. -/
def gapDelegate (S : LScene n) (R : Rand σ) (h : Fin (n + 1)) (diffuse : Bool) : CustomDelegate n σ where
  reflectivity _ _ _ s := .ok (.number (some 1), s)
  reflected ray c a s :=
    match a with
    | none => .error .attributeError
    | some a =>
      match pyNormal (S.node h).geom ray.position with
      | .error e => .error e
      | .ok m =>
        let draw := lambertian R s
        match Lsc.airGapReflected diffuse draw.1 m ray.direction (S.node c).index (S.node a).index with
        | .error e => .error e
        | .ok none => .error .valueError
        | .ok (some d) => .ok (.triple d, if diffuse then draw.2 else s)
  transmitted := (builtin S h).transmitted

end
end PV
