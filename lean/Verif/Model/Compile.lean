import Verif.Model.Library
import Verif.Model.EngineResult

/-!
Lowering of a scene to flat tables, `/repo/pvtrace/engine/compiler.py:55-326`, and the reads of those
tables in `trace_one`, `/repo/pvtrace/engine/_kernel.pyx:203-897`.

Nodes and components are row numbers here (`int` in the engine). `kOps` of `Verif.Model.Library`
describes the same operations on the objects of the scene.

Simplifications: all row numbers and counts fit the 32 bit integers they are stored in, and tables
are lists; a read outside a table is `none` for spectra and 0 for the other columns
(`PV.Compile.in_bounds` shows that it does not happen).
-/

namespace PV
noncomputable section
open Classical
variable {σ : Type}

/-- What `compile_scene` and `trace_bundle` may raise. -/
inductive CompileErr
  | unsupported | attributeError | typeError | valueError
deriving DecidableEq, Repr

/-- A surface delegate by its exact type, `/repo/pvtrace/engine/compiler.py:237-247`. -/
inductive Delegate
  | fresnel | null | custom
deriving DecidableEq

/-- A shape by its class: one of the three known classes, or any other (`Mesh`). -/
inductive Shape
  | known (g : Geom)
  | other

/-- A component object. `comp.kind` is its class, `other` for classes that are neither `Scatterer`
nor derived from it. -/
structure PyComp where
  comp : Comp
  /-- `_abs_dist` exists: false for an `int` coefficient,
  `/repo/pvtrace/material/component.py:107-120` -/
  hasDist : Bool := true
  /-- `hist=True` given together with a constant coefficient -/
  constHist : Bool := false
  /-- an instance of a subclass that overrides methods of the class -/
  overrides : Bool := false

/-- `Material`, `/repo/pvtrace/material/material.py:8-24`. -/
structure PyMaterial where
  index : ℝ
  delegate : Delegate
  comps : List PyComp

/-- A geometry object with its material. -/
structure PyGeom where
  shape : Shape
  material : Option PyMaterial
  /-- an instance of a subclass that overrides methods of the class -/
  overrides : Bool := false

/-- A node of the scene in the order of `PreOrderIter`. `l2w` is `node.transformation_to(root)`. -/
structure PyNode where
  name : String
  geometry : Option PyGeom
  l2w : Affine ℝ

/-- Determinant of the 3x3 part. -/
def Affine.det (m : Affine ℝ) : ℝ :=
  m.r0.x * (m.r1.y * m.r2.z - m.r1.z * m.r2.y) - m.r0.y * (m.r1.x * m.r2.z - m.r1.z * m.r2.x) +
    m.r0.z * (m.r1.x * m.r2.y - m.r1.y * m.r2.x)

/-- `np.linalg.inv` of a homogeneous matrix, `/repo/pvtrace/engine/compiler.py:233`, by cofactors. -/
def Affine.inv (m : Affine ℝ) : Affine ℝ :=
  let d := m.det
  let r0 : Vec3 ℝ := ⟨(m.r1.y * m.r2.z - m.r1.z * m.r2.y) / d,
    (m.r0.z * m.r2.y - m.r0.y * m.r2.z) / d, (m.r0.y * m.r1.z - m.r0.z * m.r1.y) / d⟩
  let r1 : Vec3 ℝ := ⟨(m.r1.z * m.r2.x - m.r1.x * m.r2.z) / d,
    (m.r0.x * m.r2.z - m.r0.z * m.r2.x) / d, (m.r0.z * m.r1.x - m.r0.x * m.r1.z) / d⟩
  let r2 : Vec3 ℝ := ⟨(m.r1.x * m.r2.y - m.r1.y * m.r2.x) / d,
    (m.r0.y * m.r2.x - m.r0.x * m.r2.y) / d, (m.r0.x * m.r1.y - m.r0.y * m.r1.x) / d⟩
  ⟨r0, r1, r2, ⟨-(r0.dot m.t), -(r1.dot m.t), -(r2.dot m.t)⟩⟩

/-- `np.allclose(rotation @ rotation.T, np.eye(3), atol=1e-9)`,
`/repo/pvtrace/engine/compiler.py:227-228`; the relative tolerance keeps its default 1e-5. -/
def rigidTest (m : Affine ℝ) : Prop :=
  |m.r0.dot m.r0 - 1| ≤ 1e-9 + 1e-5 ∧ |m.r1.dot m.r1 - 1| ≤ 1e-9 + 1e-5 ∧
  |m.r2.dot m.r2 - 1| ≤ 1e-9 + 1e-5 ∧ |m.r0.dot m.r1| ≤ 1e-9 ∧ |m.r0.dot m.r2| ≤ 1e-9 ∧
  |m.r1.dot m.r2| ≤ 1e-9

/-- The 16 numbers of a matrix in row order. -/
def Affine.flat (m : Affine ℝ) : List ℝ :=
  [m.r0.x, m.r0.y, m.r0.z, m.t.x, m.r1.x, m.r1.y, m.r1.z, m.t.y, m.r2.x, m.r2.y, m.r2.z, m.t.z,
   0, 0, 0, 1]

/-- `_compile_geometry`, `/repo/pvtrace/engine/compiler.py:208-223`: `geom_type[i]` and the row
`geom_params[i]`. -/
def compileGeometry : Shape → Except CompileErr (ℕ × List ℝ)
  | .known (.box s) => .ok (0, [s.x, s.y, s.z, 0])
  | .known (.sphere r) => .ok (1, [r, 0, 0, 0])
  | .known (.cylinder l r) => .ok (2, [l, r, 0, 0])
  | .other => .error .unsupported

/-- `_surface_tag`, `/repo/pvtrace/engine/compiler.py:237-247`. -/
def surfaceTag : Delegate → Except CompileErr ℕ
  | .fresnel => .ok 0
  | .null => .ok 1
  | .custom => .error .unsupported

/-- Numbers of the phase tags, `/repo/pvtrace/engine/compiler.py:41-43`. -/
def PhaseTag.code : PhaseTag → ℕ
  | .isotropic => 0
  | .henyeyGreenstein => 1
  | .cone => 2

/-- `_phase_tag`, `/repo/pvtrace/engine/compiler.py:300-310`. -/
def phaseTag (p : Phase) : Except CompileErr (ℕ × ℝ) :=
  match p.tag with
  | some t => .ok (t.1.code, t.2)
  | none => .error .unsupported

/-- The component tables while they grow. `rows` is `comp_rows`. -/
structure CState where
  rows : List (List ℝ) := []
  absX : List ℝ := []
  absY : List ℝ := []
  emsX : List ℝ := []
  emsCdf : List ℝ := []
  names : List String := []

/-- The column of `n` numbers. -/
def column (f : ℕ → ℝ) (n : ℕ) : List ℝ := (List.range n).map f

/-- `_compile_distribution`, `/repo/pvtrace/engine/compiler.py:312-326`: start, length and the
numbers appended to `xs` and `ys`; `start` is `len(xs)`. -/
def appendDist (c : PyComp) (start : ℕ) : Except CompileErr (ℕ × ℕ × List ℝ × List ℝ) :=
  if ¬ c.hasDist then .error .attributeError
  else
    match c.comp.absDist with
    | .const y => if c.constHist then .error .unsupported else .ok (start, 1, [0], [y])
    | .table T hist =>
      if hist then .error .unsupported else .ok (start, T.n, column T.x T.n, column T.y T.n)

/-- The emission part of `_compile_component`, `/repo/pvtrace/engine/compiler.py:272-283`. A constant
has `_x = None`, which cannot be extended: `TypeError`. -/
def appendEmission (c : PyComp) (start : ℕ) : Except CompileErr (ℕ × ℕ × List ℝ × List ℝ) :=
  if c.comp.kind = .luminophore then
    match c.comp.emsDist with
    | .const _ => .error .typeError
    | .table T hist =>
      if hist then .error .unsupported else .ok (start, T.n, column T.x T.n, column T.cdf T.n)
  else .ok (0, 0, [], [])

/-- Component tags, `/repo/pvtrace/engine/compiler.py:34-37,252-264`. -/
def kindTag : CompKind → Except CompileErr ℕ
  | .reactor => .ok 3
  | .absorber => .ok 0
  | .luminophore => .ok 2
  | .scatterer => .ok 1
  | .other => .error .unsupported

/-- `_compile_component`, `/repo/pvtrace/engine/compiler.py:251-298`, with the two `append`s of
`/repo/pvtrace/engine/compiler.py:102-107`. -/
def compileComp (st : CState) (c : PyComp) : Except CompileErr CState :=
  match kindTag c.comp.kind with
  | .error e => .error e
  | .ok ctype =>
    match phaseTag c.comp.phase with
    | .error e => .error e
    | .ok (ptype, pparam) =>
      match appendDist c st.absX.length with
      | .error e => .error e
      | .ok (astart, an, ax, ay) =>
        match appendEmission c st.emsX.length with
        | .error e => .error e
        | .ok (estart, en, ex, ec) =>
          .ok { rows := st.rows ++ [[(ctype : ℝ), c.comp.qy, (truthy c.comp.tauRad).getD 0,
                  (truthy c.comp.tauNr).getD 0, (ptype : ℝ), pparam, (astart : ℝ), (an : ℝ),
                  (estart : ℝ), (en : ℝ)]]
                absX := st.absX ++ ax
                absY := st.absY ++ ay
                emsX := st.emsX ++ ex
                emsCdf := st.emsCdf ++ ec
                names := st.names ++ [c.comp.name] }

/-- The loop over the components of a material. -/
def compileComps : CState → List PyComp → Except CompileErr CState
  | st, [] => .ok st
  | st, c :: cs =>
    match compileComp st c with
    | .error e => .error e
    | .ok st => compileComps st cs

/-- The tables of nodes while they grow. -/
structure NState where
  names : List String := []
  geomType : List ℕ := []
  geomParams : List ℝ := []
  l2w : List ℝ := []
  w2l : List ℝ := []
  nidx : List ℝ := []
  surf : List ℕ := []
  compStart : List ℕ := []
  compCount : List ℕ := []

/-- One pass of the loop over nodes, `/repo/pvtrace/engine/compiler.py:86-108`. -/
def compileNode (st : NState × CState) (name : String) (l2w : Affine ℝ) (g : PyGeom) :
    Except CompileErr (NState × CState) :=
  match compileGeometry g.shape with
  | .error e => .error e
  | .ok (gtype, params) =>
    if ¬ rigidTest l2w then .error .unsupported
    else
      match g.material with
      | none => .error .unsupported
      | some m =>
        match surfaceTag m.delegate with
        | .error e => .error e
        | .ok tag =>
          match compileComps st.2 m.comps with
          | .error e => .error e
          | .ok cst =>
            .ok ({ names := st.1.names ++ [name]
                   geomType := st.1.geomType ++ [gtype]
                   geomParams := st.1.geomParams ++ params
                   l2w := st.1.l2w ++ l2w.flat
                   w2l := st.1.w2l ++ l2w.inv.flat
                   nidx := st.1.nidx ++ [m.index]
                   surf := st.1.surf ++ [tag]
                   compStart := st.1.compStart ++ [st.2.rows.length]
                   compCount := st.1.compCount ++ [m.comps.length] }, cst)

/-- The loop over the geometry nodes. -/
def compileNodes : NState × CState → List (String × Affine ℝ × PyGeom) →
    Except CompileErr (NState × CState)
  | st, [] => .ok st
  | st, (name, l2w, g) :: rest =>
    match compileNode st name l2w g with
    | .error e => .error e
    | .ok st => compileNodes st rest

/-- The tables handed to the kernel, `/repo/pvtrace/engine/compiler.py:74-131`,
`/repo/pvtrace/engine/_kernel.pyx:121-146`. -/
structure Tables where
  nodes : NState
  compType : List ℕ
  qy : List ℝ
  tauRad : List ℝ
  tauNr : List ℝ
  phaseType : List ℕ
  phaseParam : List ℝ
  absStart : List ℕ
  absN : List ℕ
  emsStart : List ℕ
  emsN : List ℕ
  absX : List ℝ
  absY : List ℝ
  emsX : List ℝ
  emsCdf : List ℝ
  compNames : List String

/-- `rows[:, k].copy()`. -/
def rowCol (rows : List (List ℝ)) (k : ℕ) : List ℝ := rows.map (fun r => r.getD k 0)

/-- `rows[:, k].astype(np.int32)` for columns that are never negative. -/
def rowInts (rows : List (List ℝ)) (k : ℕ) : List ℕ := rows.map (fun r => ⌊r.getD k 0⌋₊)

/-- The columns, `/repo/pvtrace/engine/compiler.py:110-131`. -/
def mkTables (n : NState) (c : CState) : Tables where
  nodes := n
  compType := rowInts c.rows 0
  qy := rowCol c.rows 1
  tauRad := rowCol c.rows 2
  tauNr := rowCol c.rows 3
  phaseType := rowInts c.rows 4
  phaseParam := rowCol c.rows 5
  absStart := rowInts c.rows 6
  absN := rowInts c.rows 7
  emsStart := rowInts c.rows 8
  emsN := rowInts c.rows 9
  absX := c.absX
  absY := c.absY
  emsX := c.emsX
  emsCdf := c.emsCdf
  compNames := c.names

/-- `[node for node in PreOrderIter(scene.root) if node.geometry is not None]`. -/
def geometryNodes (scene : List PyNode) : List (String × Affine ℝ × PyGeom) :=
  scene.filterMap fun v => v.geometry.map fun g => (v.name, v.l2w, g)

/-- `CompiledScene.__init__` without recorders, `/repo/pvtrace/engine/compiler.py:58-131`. `scene`
lists all nodes, `scene.root` first; a scene has at least its root. `root_id` is 0, because the root
is the first of the geometry nodes. -/
def compileScene (scene : List PyNode) : Except CompileErr Tables :=
  if geometryNodes scene = [] then .error .unsupported
  else if (scene.head?.bind (·.geometry)).isNone then .error .unsupported
  else
    match compileNodes ({}, {}) (geometryNodes scene) with
    | .error e => .error e
    | .ok (n, c) => .ok (mkTables n c)

/-- `engine.simulate` up to the parallel loop, `/repo/pvtrace/engine/api.py:197-246`,
`/repo/pvtrace/engine/_kernel.pyx:929-930`. -/
def engineAccepts (scene : List PyNode) : Except CompileErr Tables :=
  match compileScene scene with
  | .error e => .error e
  | .ok T => if T.nodes.geomType.length > 128 then .error .valueError else .ok T

/-! ### Reads of the kernel -/

namespace Tables

/-- `transform_vector(m + node * 16, v)`, `/repo/pvtrace/engine/_kernel.pyx:213-216`. -/
def readVec (m : List ℝ) (node : ℕ) (v : Vec3 ℝ) : Vec3 ℝ :=
  let row (i : ℕ) := m.getD (node * 16 + i * 4) 0 * v.x + m.getD (node * 16 + (i * 4 + 1)) 0 * v.y +
    m.getD (node * 16 + (i * 4 + 2)) 0 * v.z
  ⟨row 0, row 1, row 2⟩

/-- `transform_point(m + node * 16, p)`, `/repo/pvtrace/engine/_kernel.pyx:207-210`. -/
def readPoint (m : List ℝ) (node : ℕ) (p : Vec3 ℝ) : Vec3 ℝ :=
  let row (i : ℕ) := m.getD (node * 16 + i * 4) 0 * p.x + m.getD (node * 16 + (i * 4 + 1)) 0 * p.y +
    m.getD (node * 16 + (i * 4 + 2)) 0 * p.z + m.getD (node * 16 + (i * 4 + 3)) 0
  ⟨row 0, row 1, row 2⟩

variable (T : Tables)

/-- `S.geom_type[node]` and `S.geom_params + node * 4` as the functions of the kernel read them,
`/repo/pvtrace/engine/_kernel.pyx:349-356,361-391`. -/
def geom (node : ℕ) : Geom :=
  let p (k : ℕ) := T.nodes.geomParams.getD (node * 4 + k) 0
  let gtype := T.nodes.geomType.getD node 0
  if gtype = 0 then .box ⟨p 0, p 1, p 2⟩
  else if gtype = 1 then .sphere (p 0)
  else .cylinder (p 0) (p 1)

/-- `S.surf_type[node] == SURF_FRESNEL`. -/
def isFresnel (node : ℕ) : Bool := decide (T.nodes.surf.getD node 0 = 0)

/-- `S.nidx[node]`. -/
def index (node : ℕ) : ℝ := T.nodes.nidx.getD node 0

/-- Reads relative to `table + start`. -/
def slice (l : List ℝ) (start : ℕ) : ℕ → Option ℝ := fun i => l[start + i]?

/-- The coefficient of component `comp`, `/repo/pvtrace/engine/_kernel.pyx:753-758,774-779`. -/
def coefficient (comp : ℕ) (w : ℝ) : ℝ :=
  (kInterp w (slice T.absX (T.absStart.getD comp 0)) (slice T.absY (T.absStart.getD comp 0))
    (T.absN.getD comp 0)).getD 0

/-- The coefficients of the components of a node, in the order of the loop. -/
def coefficients (node : ℕ) (w : ℝ) : List ℝ :=
  (List.range (T.nodes.compCount.getD node 0)).map
    (fun k => T.coefficient (T.nodes.compStart.getD node 0 + k) w)

/-- `S.comp_type[comp]` compared with the tags `/repo/pvtrace/engine/_kernel.pyx:54-57`. -/
def kind (comp : ℕ) : CompKind :=
  match T.compType.getD comp 0 with
  | 0 => .absorber
  | 1 => .scatterer
  | 2 => .luminophore
  | 3 => .reactor
  | _ => .other

/-- `S.comp_phase_type[comp]` as compared in `sample_phase`. -/
def phase (comp : ℕ) : PhaseTag :=
  match T.phaseType.getD comp 0 with
  | 1 => .henyeyGreenstein
  | 2 => .cone
  | _ => .isotropic

/-- Emission wavelength, `/repo/pvtrace/engine/_kernel.pyx:792-807`. -/
def emission (method : EmitMethod) (comp : ℕ) (wavelength u : ℝ) : ℝ :=
  let ax := slice T.emsX (T.emsStart.getD comp 0)
  let ay := slice T.emsCdf (T.emsStart.getD comp 0)
  let an := T.emsN.getD comp 0
  let p1 :=
    if method = .full then some 0
    else
      let nm := if method = .kT then 1240 / (1240 / wavelength + 1.5 * kB * 300) else wavelength
      kInterp nm ax ay an
  (p1.bind (fun p1 => kInterp (p1 + (1 - p1) * u) ay ax an)).getD 0

/-- The delay added for a lifetime read from a table. -/
def delay (R : Rand σ) (tau : ℝ) (s : σ) : ℝ × σ :=
  if tau > 0 then
    let (u, s) := R.next s
    (-Real.log (1 - u) * tau, s)
  else (0, s)

/-- The reads of `trace_one`, `/repo/pvtrace/engine/_kernel.pyx:654-895`, on the tables. -/
def ops (R : Rand σ) (method : EmitMethod) : KOps ℝ ℕ ℕ σ where
  root := 0
  nextHit o d := kNextHit (List.range T.nodes.geomType.length) fun v =>
    kIntersect (T.geom v) (readPoint T.nodes.w2l v o) (readVec T.nodes.w2l v d)
  nidx := T.index
  depth v w s := kDepth R (T.coefficients v w).sum s
  pick v w s :=
    let (u, s) := R.next s
    (T.nodes.compStart.getD v 0 + kPick (T.coefficients v w) u, s)
  kind := T.kind
  yields c s :=
    let (u, s) := R.next s
    (decide (u < T.qy.getD c 0), s)
  phase c s := kSamplePhase R (T.phase c) (T.phaseParam.getD c 0) s
  emission c w s :=
    let (u, s) := R.next s
    (T.emission method c w u, s)
  radDelay c s := delay R (T.tauRad.getD c 0) s
  nrDelay c s := delay R (T.tauNr.getD c 0) s
  localPos v p := readPoint T.nodes.w2l v p
  normal v p := readVec T.nodes.l2w v (kNormal (T.geom v) (readPoint T.nodes.w2l v p))
  acos := Real.arccos
  reflects h c a nrm d s :=
    let r := if T.isFresnel h then kReflectivity nrm d (T.index c) (T.index a) else some 0
    let (u, s') := R.next s
    let b := kIsReflected r u
    (b.1, if b.2 then s' else s)
  reflectDir d nrm := kSpecular d nrm
  transmitDir h c a nrm d :=
    if T.isFresnel h then (kTransmit nrm d (T.index c) (T.index a)).getD d else d

/-- `compiled.node_names` and `compiled.component_names`, `/repo/pvtrace/engine/api.py:169-193`. -/
def names : KNames ℕ ℕ := ⟨fun v => T.nodes.names.getD v "", fun c => T.compNames.getD c ""⟩

end Tables
end
end PV
