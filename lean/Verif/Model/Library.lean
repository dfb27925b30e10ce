import Verif.Model.Geometry
import Verif.Model.Material
import Verif.Model.Optics
import Verif.Model.Kernel
import Verif.Model.KernelHit
import Mathlib.Data.List.FinRange

/-!
Scenes made of the library's own shapes, materials, components and surfaces, and what the two
tracers do with them: `pyOps` fills in the calls of `/repo/pvtrace/algorithm/photon_tracer.py`,
`kOps` those of `trace_one` in `/repo/pvtrace/engine/_kernel.pyx`.
-/

namespace PV
noncomputable section
open Classical
variable {σ : Type} {n : ℕ}

/-- `np.linalg.norm`, `/repo/pvtrace/geometry/utils.py:425-428`. -/
def Vec3.norm (v : Vec3 ℝ) : ℝ := Real.sqrt (v.dot v)

/-- `distance_between`, `/repo/pvtrace/geometry/utils.py:425-428`. -/
def distanceBetween (p q : Vec3 ℝ) : ℝ := (p - q).norm

/-- The two delegates of `/repo/pvtrace/material/surface.py:79-177`, which are also the two surface
tags of `/repo/pvtrace/engine/compiler.py:237-247`. -/
inductive SurfaceKind
  | fresnel | null
deriving DecidableEq

/-- A node with geometry. `l2w` is `node.transformation_to(root)` and `w2l` the transformation back
(`/repo/pvtrace/scene/node.py:73-95`; in the engine `S.l2w` and `S.w2l`,
`/repo/pvtrace/engine/compiler.py:225-233`). Nodes without geometry only matter through these
transformations (`PV.Node.scene_intersections`). -/
structure LNode where
  name : String
  geom : Geom
  l2w : Affine ℝ
  w2l : Affine ℝ
  index : ℝ
  surface : SurfaceKind
  comps : List Comp

/-- A scene with `n + 1` nodes in the order of the scene tree; node 0 is `scene.root`. -/
structure LScene (n : ℕ) where
  node : Fin (n + 1) → LNode

/-- The answers of `trimesh` for a box of the given size: `mesh.ray.intersects_location`,
`/repo/pvtrace/geometry/mesh.py:45-63`, as parameters of the ray. -/
abbrev Trimesh := Vec3 ℝ → Vec3 ℝ → Vec3 ℝ → List ℝ

/-- The ray of a scene query in the frame of a node. -/
def LNode.localOrigin (N : LNode) (o : Vec3 ℝ) : Vec3 ℝ := N.w2l.point o
def LNode.localDir (N : LNode) (d : Vec3 ℝ) : Vec3 ℝ := N.w2l.vec d

/-- The box answers of trimesh, for boxes only. -/
def LNode.boxHits (B : Trimesh) (N : LNode) (o d : Vec3 ℝ) : List ℝ :=
  match N.geom with
  | .box s => B s (N.localOrigin o) (N.localDir d)
  | _ => []

/-- Ray parameters reported by the geometry of a node, `/repo/pvtrace/scene/node.py:153-154`. -/
def LNode.pyTs (B : Trimesh) (N : LNode) (o d : Vec3 ℝ) : List ℝ :=
  pyIntersect (N.boxHits B o d) N.geom (N.localOrigin o) (N.localDir d)

/-- One `Intersection` of a node, converted to the root frame: `/repo/pvtrace/scene/node.py:155-162`,
`/repo/pvtrace/geometry/intersection.py:27-33`. `distance` is measured in the frame of the node. -/
def LNode.inter (N : LNode) (v : Fin (n + 1)) (o d : Vec3 ℝ) (t : ℝ) : Inter (Fin (n + 1)) ℝ :=
  let p := N.localOrigin o + t • N.localDir d
  ⟨v, N.l2w.point p, distanceBetween (N.localOrigin o) p⟩

/-- `Scene.intersections`, `/repo/pvtrace/scene/scene.py:153-195`: forward intersections of all
nodes, sorted by the distance of the point from the ray in the root frame. The order before
sorting is that of `PV.Node.scene_intersections`. -/
def LScene.intersections (S : LScene n) (B : Trimesh) (o d : Vec3 ℝ) :
    List (Inter (Fin (n + 1)) ℝ) :=
  let all := (List.finRange (n + 1)).flatMap fun v =>
    ((S.node v).pyTs B o d).map ((S.node v).inter v o d)
  sortedBy (fun x => (x.point - o).norm)
    (all.filter fun x => d.dot x.point - d.dot o > epsZero)

/-- `FresnelSurfaceDelegate.reflectivity` and `NullSurfaceDelegate.reflectivity`,
`/repo/pvtrace/material/surface.py:85-88,107-131`. `adjacent.geometry` of `None` raises
`AttributeError`. -/
def LScene.reflectivity (S : LScene n) (h c : Fin (n + 1)) (a : Option (Fin (n + 1))) (ray : Ray ℝ) :
    Except Err (Option ℝ) :=
  match (S.node h).surface with
  | .null => .ok (some 0)
  | .fresnel =>
    match a with
    | none => .error .attributeError
    | some a =>
      match pyNormal (S.node h).geom ray.position with
      | .error e => .error e
      | .ok normal => .ok (pyReflectivity normal ray.direction (S.node c).index (S.node a).index)

/-- `reflected_direction`, `/repo/pvtrace/material/surface.py:90-94,133-151`. -/
def LScene.reflected (S : LScene n) (h : Fin (n + 1)) (ray : Ray ℝ) : Except Err (Vec3 ℝ) :=
  match (S.node h).surface with
  | .null => .error .notImplemented
  | .fresnel =>
    match pyNormal (S.node h).geom ray.position with
    | .error e => .error e
    | .ok normal => .ok (specular ray.direction normal)

/-- `transmitted_direction`, `/repo/pvtrace/material/surface.py:96-99,153-177`. A direction of `nan`s
is mapped to an error; it does not occur (`PV.Optics.transmit_defined`). -/
def LScene.transmitted (S : LScene n) (h c : Fin (n + 1)) (a : Option (Fin (n + 1))) (ray : Ray ℝ) :
    Except Err (Vec3 ℝ) :=
  match (S.node h).surface with
  | .null => .ok ray.direction
  | .fresnel =>
    match a with
    | none => .error .attributeError
    | some a =>
      match pyNormal (S.node h).geom ray.position with
      | .error e => .error e
      | .ok normal =>
        match pyTransmit normal ray.direction (S.node c).index (S.node a).index with
        | none => .error .valueError
        | some d => .ok d

/-- `Surface.is_reflected`, `/repo/pvtrace/material/surface.py:231-240`, on the local ray. -/
def LScene.isReflected (S : LScene n) (R : Rand σ) (h c : Fin (n + 1)) (a : Option (Fin (n + 1)))
    (ray : Ray ℝ) (s : σ) : Except Err (Bool × σ) :=
  match S.reflectivity h c a (ray.representation (S.node h).w2l) with
  | .error e => .error e
  | .ok r =>
    let (u, s') := R.next s
    let b := PV.isReflected r u
    .ok (b.1, if b.2 then s' else s)

/-- The new direction of a local ray put back into the root frame: `replace(ray, direction=...)` and
`.representation(hit, scene.root)`, `/repo/pvtrace/algorithm/photon_tracer.py:245-247,260-262`. -/
def LNode.turn (N : LNode) (ray : Ray ℝ) (d : Except Err (Vec3 ℝ)) (s : σ) : Except Err (Ray ℝ × σ) :=
  match d with
  | .error e => .error e
  | .ok d =>
    .ok (({ ray.representation N.w2l with direction := d } : Ray ℝ).representation N.l2w, s)

/-- Everything `step_forward` calls, for a scene of the library's own parts. -/
def pyOps (S : LScene n) (B : Trimesh) (R : Rand σ) (method : EmitMethod) :
    Ops ℝ (Fin (n + 1)) Comp σ where
  root := 0
  name v := (S.node v).name
  eps := epsZero
  distBetween := distanceBetween
  intersections o d := .ok (S.intersections B o d)
  refractiveIndex v := (S.node v).index
  penetrationDepth v w s := penetrationDepth R (S.node v).comps w s
  component v w s := pickComponent R (S.node v).comps w s
  compName c := c.name
  compKind c := c.kind
  isRadiative c _ s := .ok (c.isRadiative R s)
  emit v c ray s :=
    match c.emit R method (ray.representation (S.node v).w2l) s with
    | .error e => .error e
    | .ok (ray, s) => .ok (ray.representation (S.node v).l2w, s)
  nonradiativeAbsorb c ray s := .ok (c.nonradiativeAbsorb R ray s)
  normal v p :=
    match pyNormal (S.node v).geom ((S.node v).w2l.point p) with
    | .error e => .error e
    | .ok m => .ok ((S.node v).l2w.vec m)
  isReflected h c a ray s := S.isReflected R h c a ray s
  reflect h _ _ ray s :=
    (S.node h).turn ray (S.reflected h (ray.representation (S.node h).w2l)) s
  transmit h c a ray s :=
    (S.node h).turn ray (S.transmitted h c a (ray.representation (S.node h).w2l)) s

/-! ### Engine -/

/-- A component for empty tables; never selected (`alpha = 0`). -/
def noComp : Comp := ⟨"", .other, .const 0, .const 0, 0, none, none, .isotropic⟩

/-- The engine's coefficient of one component, `/repo/pvtrace/engine/_kernel.pyx:753-758`. Scenes
with histograms are rejected before tracing; the value 0 stands for them. -/
def Comp.kCoef (c : Comp) (w : ℝ) : ℝ := ((compileDist c.absDist).bind (kCoefficient · w)).getD 0

/-- Coefficients of all components of a node. -/
def LNode.kCoefs (N : LNode) (w : ℝ) : List ℝ := N.comps.map (·.kCoef w)

/-- `comp_tau_rad`, `comp_tau_nr`: 0 for `None`, `/repo/pvtrace/engine/compiler.py:284-290`; the delay
added at `/repo/pvtrace/engine/_kernel.pyx:808-809,817-818`. -/
def kDelay (R : Rand σ) (tau : Option ℝ) (s : σ) : ℝ × σ :=
  let tau := tau.getD 0
  if tau > 0 then
    let (u, s) := R.next s
    (-Real.log (1 - u) * tau, s)
  else (0, s)

/-- Surface decision, `/repo/pvtrace/engine/_kernel.pyx:865-874`. -/
def LScene.kReflects (S : LScene n) (R : Rand σ) (h c a : Fin (n + 1)) (nrm d : Vec3 ℝ) (s : σ) :
    Bool × σ :=
  let r := match (S.node h).surface with
    | .null => some 0
    | .fresnel => kReflectivity nrm d (S.node c).index (S.node a).index
  let (u, s') := R.next s
  let b := kIsReflected r u
  (b.1, if b.2 then s' else s)

/-- The tables of a compiled scene as used by `trace_one`. Components are named by themselves, not by
their position in the flat tables. -/
def kOps (S : LScene n) (R : Rand σ) (method : EmitMethod) : KOps ℝ (Fin (n + 1)) Comp σ where
  root := 0
  nextHit o d := kNextHit (List.finRange (n + 1)) fun v =>
    kIntersect (S.node v).geom ((S.node v).w2l.point o) ((S.node v).w2l.vec d)
  nidx v := (S.node v).index
  depth v w s := kDepth R ((S.node v).kCoefs w).sum s
  pick v w s :=
    let (u, s) := R.next s
    (((S.node v).comps[kPick ((S.node v).kCoefs w) u]?).getD noComp, s)
  kind c := c.kind
  yields c s :=
    let (u, s) := R.next s
    (decide (u < c.qy), s)
  phase c s :=
    let t := c.phase.tag.getD (.isotropic, 0)
    kSamplePhase R t.1 t.2 s
  emission c w s :=
    let (u, s) := R.next s
    (((compileDist c.emsDist).bind fun T => kEmitWavelength T method w u).getD 0, s)
  radDelay c s := kDelay R c.tauRad s
  nrDelay c s := kDelay R c.tauNr s
  localPos v p := (S.node v).w2l.point p
  normal v p := (S.node v).l2w.vec (kNormal (S.node v).geom ((S.node v).w2l.point p))
  acos := Real.arccos
  reflects h c a nrm d s := S.kReflects R h c a nrm d s
  reflectDir d nrm := kSpecular d nrm
  transmitDir h c a nrm d :=
    match (S.node h).surface with
    | .null => d
    | .fresnel => (kTransmit nrm d (S.node c).index (S.node a).index).getD d

end
end PV
