import Verif.Model.Dist
import Verif.Model.Phase
import Verif.Model.Tracer
import Mathlib.Analysis.SpecialFunctions.Log.Basic
import Mathlib.Algebra.Order.Floor.Ring
import Mathlib.Algebra.Order.Archimedean.Real.Basic

/-!
Materials and components: `/repo/pvtrace/material/material.py`, `/repo/pvtrace/material/component.py`,
and the volume part of the engine's loop, `/repo/pvtrace/engine/_kernel.pyx:747-832`.
-/

namespace PV
noncomputable section
open Classical
variable {σ : Type}

/-- A component: `Scatterer`, `Absorber`, `Reactor` or `Luminophore`
(`/repo/pvtrace/material/component.py:33-440`) after construction. `emsDist` is used by luminophores
only. Simplification: the base class `Component` (kind `other`), which has no `coefficient`, cannot
be part of a material that is traced and is not represented by values of this type in scenes. -/
structure Comp where
  name : String
  kind : CompKind
  absDist : Dist ℝ
  emsDist : Dist ℝ
  qy : ℝ
  tauRad : Option ℝ
  tauNr : Option ℝ
  phase : Phase

/-- The quantum yield computed by `Scatterer.__init__`,
`/repo/pvtrace/material/component.py:118-132`. `np.nan` (nothing given) is rejected. -/
def mkYield (quantumYield tauRad tauNr : Option ℝ) : Except Err ℝ :=
  match tauRad, tauNr with
  | some r, some n => if n + r = 0 then .error .zeroDivision else .ok (n / (n + r))
  | _, _ =>
    match quantumYield with
    | some q => .ok q
    | none => .error .valueError

/-- `Absorber.__init__`, `/repo/pvtrace/material/component.py:215-224`: yield passed on. -/
def absorberYield (tauNr : Option ℝ) : Except Err ℝ := mkYield (some 0) (some 0) tauNr

/-- `component.coefficient(wavelength)`, `/repo/pvtrace/material/component.py:134-138`. The value
`nan` never occurs for constructed distributions (`PV.Dist.call_nonneg`); it is mapped to an
error. -/
def Comp.coefficient (c : Comp) (w : ℝ) : Except Err ℝ :=
  match c.absDist.call w with
  | .error e => .error e
  | .ok none => .error .valueError
  | .ok (some v) => .ok v

/-- `[x.coefficient(wavelength) for x in self.components]`. -/
def coefficients (comps : List Comp) (w : ℝ) : Except Err (List ℝ) :=
  comps.mapM (fun c => c.coefficient w)

/-- `Material.penetration_depth`, `/repo/pvtrace/material/material.py:26-47`. `np.isclose(alpha, 0)`
is `|alpha| <= 1e-8`. `none` is `inf`. Infinite coefficients are not represented. -/
def penetrationDepth (R : Rand σ) (comps : List Comp) (w : ℝ) (s : σ) :
    Except Err (Option ℝ × σ) :=
  match coefficients comps w with
  | .error e => .error e
  | .ok cs =>
    let alpha := cs.sum
    if |alpha| ≤ 1e-8 then .ok (none, s)
    else
      let (u, s) := R.next s
      .ok (some (-Real.log (1 - u) / alpha), s)

/-- `np.interp(x, xs, ys)` with its default behaviour outside the table. -/
def npInterpClamp (xs ys : ℕ → ℝ) (n : ℕ) (x : ℝ) : ℝ :=
  if x < xs 0 then ys 0
  else if xs (n - 1) < x then ys (n - 1)
  else (npInterp xs ys n x).getD 0

/-- `np.hstack([0, cumsum(coefs)])`. -/
def cumsum (cs : List ℝ) (k : ℕ) : ℝ := (cs.take k).sum

/-- The index computed by `Material.component` for the number `u`,
`/repo/pvtrace/material/material.py:53-62`. An empty list makes `max` raise `ValueError`, and a
maximum of zero makes every entry `nan` and `int(nan)` raise `ValueError`. -/
def pickIndex (cs : List ℝ) (u : ℝ) : Except Err ℕ :=
  if ∃ c ∈ cs, c < 0 then .error .valueError
  else
    let count := cs.length
    let cdf := fun k => cumsum cs k
    let mx := (List.range count).foldl (fun m k => max m (cdf (k + 1))) (cdf 1)
    if count = 0 ∨ mx = 0 then .error .valueError
    else
      let pdf := fun k => if k = 0 then 0 else cdf k / mx
      .ok ⌊npInterpClamp pdf (fun k => (k : ℝ)) (count + 1) u⌋₊

/-- `Material.component`, `/repo/pvtrace/material/material.py:49-63`. -/
def pickComponent (R : Rand σ) (comps : List Comp) (w : ℝ) (s : σ) : Except Err (Comp × σ) :=
  match coefficients comps w with
  | .error e => .error e
  | .ok cs =>
    let (u, s) := R.next s
    match pickIndex cs u with
    | .error e => .error e
    | .ok i =>
      match comps[i]? with
      | none => .error .indexError
      | some c => .ok (c, s)

/-- `is_radiative`: `/repo/pvtrace/material/component.py:24-25,140-143,226-229`. -/
def Comp.isRadiative (R : Rand σ) (c : Comp) (s : σ) : Bool × σ :=
  match c.kind with
  | .scatterer | .luminophore =>
    let (u, s) := R.next s
    (decide (u < c.qy), s)
  | _ => (false, s)

/-- Python's truth value of an optional float. -/
def truthy : Option ℝ → Option ℝ
  | none => none
  | some t => if t = 0 then none else some t

/-- `nonradiative_absorb`, `/repo/pvtrace/material/component.py:27-28,145-155`. -/
def Comp.nonradiativeAbsorb (R : Rand σ) (c : Comp) (ray : Ray ℝ) (s : σ) : Ray ℝ × σ :=
  match truthy c.tauNr with
  | none => (ray, s)
  | some t =>
    let (u, s) := R.next s
    ({ ray with duration := ray.duration + -Real.log (1 - u) * t }, s)

/-- `emit_method`: `/repo/pvtrace/material/component.py:402-425`. -/
inductive EmitMethod
  | kT | boltzmann | redshift | full | other
deriving DecidableEq

/-- `kB` in eV/K, `/repo/pvtrace/material/component.py:13-14`,
`/repo/pvtrace/engine/_kernel.pyx:34`. -/
def kB : ℝ := 1.380649e-23 / 1.60217662e-19

/-- Wavelength shifted by the thermal energy, `/repo/pvtrace/material/component.py:406-408`
(`T = 300`). -/
def thermalShift (nm : ℝ) : ℝ := 1240 / (1240 / nm + 3 / 2 * kB * 300)

/-- The lower limit `p1`, `/repo/pvtrace/material/component.py:402-423`. `lookup` of a constructed
distribution is never `nan`. An unknown method leaves `p1` unbound. -/
def lowerLimit (D : Dist ℝ) (method : EmitMethod) (nm : ℝ) : Except Err ℝ :=
  let look (x : ℝ) : Except Err ℝ :=
    match D.lookup x with
    | .error e => .error e
    | .ok none => .error .valueError
    | .ok (some p) => .ok p
  match method with
  | .kT => if nm = 0 then .error .zeroDivision else look (thermalShift nm)
  | .boltzmann => .error .notImplemented
  | .redshift => look nm
  | .full => .ok 0
  | .other => .error .unboundLocal

/-- `gamma = np.random.uniform(p1, 1.0); wavelength = dist.sample(gamma)`,
`/repo/pvtrace/material/component.py:424-426`, for the number `u` in `[0, 1)`. -/
def emitWavelength (D : Dist ℝ) (method : EmitMethod) (nm u : ℝ) : Except Err ℝ :=
  match lowerLimit D method nm with
  | .error e => .error e
  | .ok p1 =>
    match D.sample (p1 + (1 - p1) * u) with
    | .error e => .error e
    | .ok none => .error .valueError
    | .ok (some x) => .ok x

/-- `component.emit(ray, method=...)` in the frame of the container:
`Scatterer.emit` `/repo/pvtrace/material/component.py:157-162`,
`Luminophore.emit` `/repo/pvtrace/material/component.py:381-440`. -/
def Comp.emit (R : Rand σ) (method : EmitMethod) (c : Comp) (ray : Ray ℝ) (s : σ) :
    Except Err (Ray ℝ × σ) :=
  match c.phase.draw R s with
  | .error e => .error e
  | .ok (direction, s) =>
    if c.kind = .luminophore then
      let (u, s) := R.next s
      match emitWavelength c.emsDist method ray.wavelength u with
      | .error e => .error e
      | .ok wavelength =>
        match truthy c.tauRad with
        | none => .ok ({ ray with direction, wavelength, source := some c.name }, s)
        | some t =>
          let (u, s) := R.next s
          .ok ({ ray with direction, wavelength, source := some c.name,
                          duration := ray.duration + -Real.log (1 - u) * t }, s)
    else .ok ({ ray with direction, source := some c.name }, s)

/-! ### Engine -/

/-- Reads of a table slice of length `n`: `none` outside. -/
def reads (f : ℕ → ℝ) (n : ℕ) : ℕ → Option ℝ := fun i => if i < n then some (f i) else none

/-- `_compile_distribution`, `/repo/pvtrace/engine/compiler.py:312-326`: the slice of the flat table
as index function and length. Histograms are rejected (`UnsupportedSceneError`). -/
def compileDist : Dist ℝ → Option (Table ℝ)
  | .const y => some ⟨1, fun _ => 0, fun _ => y⟩
  | .table T hist => if hist then none else some T

/-- Coefficient of one component in the engine,
`/repo/pvtrace/engine/_kernel.pyx:753-758`. -/
def kCoefficient (T : Table ℝ) (w : ℝ) : Option ℝ := kInterp w (reads T.x T.n) (reads T.y T.n) T.n

/-- Absorption depth in the engine, `/repo/pvtrace/engine/_kernel.pyx:759-761`. -/
def kDepth (R : Rand σ) (alpha : ℝ) (s : σ) : Option ℝ × σ :=
  if alpha > 1e-8 then
    let (u, s) := R.next s
    (some (-Real.log (1 - u) / alpha), s)
  else (none, s)

/-- The loop over components, `/repo/pvtrace/engine/_kernel.pyx:770-781`: index of the first
component with `target <= running`, starting with `running` and index `k`; `none` if the loop
finishes without `break`. -/
def kPickFrom (target running : ℝ) (k : ℕ) : List ℝ → Option ℕ
  | [] => none
  | c :: cs =>
    if target ≤ running + c then some k else kPickFrom target (running + c) (k + 1) cs

/-- Component index chosen by the engine for the number `u`; `comp = cbase` is the default. -/
def kPick (cs : List ℝ) (u : ℝ) : ℕ := (kPickFrom (u * cs.sum) 0 0 cs).getD 0

/-- Emission wavelength in the engine, `/repo/pvtrace/engine/_kernel.pyx:789-802`; the tables are
`ems_x` and `ems_cdf`. Methods other than the three below are rejected before tracing
(`EMIT_METHODS`, `/repo/pvtrace/engine/compiler.py:46-50`). -/
def kEmitWavelength (T : Table ℝ) (method : EmitMethod) (wavelength u : ℝ) : Option ℝ :=
  let p1 :=
    if method = .full then some 0
    else
      let nm := if method = .kT then 1240 / (1240 / wavelength + 1.5 * kB * 300) else wavelength
      kInterp nm (reads T.x T.n) (reads T.cdf T.n) T.n
  p1.bind (fun p1 => kInterp (p1 + (1 - p1) * u) (reads T.cdf T.n) (reads T.x T.n) T.n)

end
end PV
