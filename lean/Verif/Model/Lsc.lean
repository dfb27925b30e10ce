import Verif.Model.Ray
import Verif.Model.Optics
import Mathlib.Data.Fintype.Basic
import Mathlib.Algebra.Order.Field.Basic
import Mathlib.Algebra.BigOperators.Group.Finset.Basic

/-!
The luminescent solar concentrator of `/repo/pvtrace/device/lsc.py`: its table of entering and
leaving rays, the counts made from it, and its surfaces.
-/

namespace PV.Lsc

/-- Facet names, `/repo/pvtrace/device/lsc.py:448-453`. -/
inductive Facet
  | left | right | near | far | top | bottom
deriving DecidableEq, Repr

instance : Fintype Facet := ⟨{.left, .right, .near, .far, .top, .bottom}, fun x => by cases x <;> decide⟩

/-- `kind` of a row, `/repo/pvtrace/device/lsc.py:387,394`. -/
inductive Kind
  | entrance | exit
deriving DecidableEq, Repr

/-- Exceptions: `UnboundLocalError`, `IndexError`, `KeyError`, `ValueError`, `TypeError`. -/
inductive LErr
  | unboundLocal | index | key | value | type
deriving DecidableEq, Repr

/-- What `follow` returns for one ray. -/
abbrev History (α : Type) := List (Ray α × Event)

/-- `store`, `/repo/pvtrace/device/lsc.py:345`. -/
structure Store (α : Type) where
  entrance : History α := []
  exit : History α := []
deriving DecidableEq

/-- A row of the data frame, `/repo/pvtrace/device/lsc.py:379-399`. -/
structure Row (α : Type) where
  ray : Ray α
  kind : Kind
  event : Event
  facet : Option Facet
deriving DecidableEq

/-- One line of the table of counts. -/
structure Count where
  solarIn : ℕ
  solarOut : ℕ
  lumOut : ℕ
  lumIn : ℕ
deriving DecidableEq, Repr

/-- `LSC`: the configuration and what a simulation leaves behind,
`/repo/pvtrace/device/lsc.py:95-113`. -/
structure Device (α : Type) where
  size : Vec3 α
  lights : List String
  components : List String
  cells : Finset Facet
  store : Option (Store α) := none
  df : Option (List (Row α)) := none
  counts : Option (Facet → Count) := none

section
variable {α : Type} [Field α] [LinearOrder α]

/-- The body of the loop over rays, `/repo/pvtrace/device/lsc.py:351-359`. -/
def record (st : Store α) (h : History α) : Except LErr (Store α) :=
  match h[1]?, h.getLast? with
  | some e, some last =>
    let st := { st with entrance := st.entrance ++ [e] }
    if last.2 = .absorb ∨ last.2 = .kill then .ok { st with exit := st.exit ++ [last] }
    else if last.2 = .exit then
      match h.dropLast.getLast? with
      | some p => .ok { st with exit := st.exit ++ [p] }
      | none => .error .index
    else .ok st
  | _, _ => .error .index

/-- The loop over rays, `/repo/pvtrace/device/lsc.py:349-368`. -/
def recordAll (st : Store α) : List (History α) → Except LErr (Store α)
  | [] => .ok st
  | h :: hs =>
    match record st h with
    | .error e => .error e
    | .ok st => recordAll st hs

/-- `EPS_ZERO`, `/repo/pvtrace/geometry/utils.py:11`. -/
def epsZero : α := 2.220446049250313e-13

/-- `np.isclose(x, c, atol=EPS_ZERO)`. -/
def close (x c : α) : Bool := decide (|x - c| ≤ epsZero + 1e-5 * |c|)

/-- `label_facets`, `/repo/pvtrace/device/lsc.py:435-454`: later labels replace earlier ones. -/
def label (size : Vec3 α) (p : Vec3 α) : Option Facet :=
  let f := if close p.x (-0.5 * size.x) then some .left else none
  let f := if close p.x (0.5 * size.x) then some .right else f
  let f := if close p.y (-0.5 * size.y) then some .far else f
  let f := if close p.y (0.5 * size.y) then some .near else f
  let f := if close p.z (-0.5 * size.z) then some .bottom else f
  if close p.z (0.5 * size.z) then some .top else f

/-- `_make_dataframe`, `expand_coords` and `label_facets`, `/repo/pvtrace/device/lsc.py:379-454`. -/
def frame (size : Vec3 α) (st : Store α) : List (Row α) :=
  st.entrance.map (fun e => ⟨e.1, .entrance, e.2, label size e.1.position⟩) ++
    st.exit.map (fun e => ⟨e.1, .exit, e.2, label size e.1.position⟩)

/-- `simulate`, `/repo/pvtrace/device/lsc.py:338-377`, given the histories that tracing yields. The
local variable `store` is only bound if nothing is stored yet. An empty frame has no column to
expand. -/
def simulate (D : Device α) (hs : List (History α)) : Device α × Option LErr :=
  match D.store with
  | some _ => (D, some .unboundLocal)
  | none =>
    match recordAll {} hs with
    | .error e => (D, some e)
    | .ok st =>
      let rows := frame D.size st
      ({ D with store := some st, df := some rows }, if rows.isEmpty then some .key else none)

/-- The filter of `spectrum` on one row, `/repo/pvtrace/device/lsc.py:515-566`. -/
def wanted (facets : List Facet) (kind : Option Kind) (sources : List String)
    (events : Option (List Event)) (r : Row α) : Bool :=
  (match kind with | none => true | some k => r.kind = k) &&
  (match r.ray.source with | none => false | some s => sources.contains s) &&
  (facets.isEmpty || (match r.facet with | none => false | some f => facets.contains f)) &&
  (match events with | none => true | some es => es.contains r.event)

/-- `spectrum`, `/repo/pvtrace/device/lsc.py:505-566`; `source = none` is `"all"`. Simplification: the
selected rows are returned, not only their wavelengths. -/
def spectrum (D : Device α) (facets : List Facet) (kind : Option Kind) (source : Option (List String))
    (events : Option (List Event)) : Except LErr (List (Row α)) :=
  match D.df with
  | none => .error .value
  | some rows =>
    if rows.isEmpty then .error .key
    else
      let all := D.components ++ D.lights
      match source with
      | none => .ok (rows.filter (wanted facets kind all events))
      | some s =>
        if s.all all.contains then .ok (rows.filter (wanted facets kind s events))
        else .error .value

/-- Number of rows of one of the queries of `_make_counts`. -/
def number (rows : List (Row α)) (f : Facet) (kind : Kind) (sources : List String) : ℕ :=
  (rows.filter (wanted [f] (some kind) sources none)).length

/-- `_make_counts`, `/repo/pvtrace/device/lsc.py:456-503`, without the cache. -/
def table (D : Device α) (rows : List (Row α)) (f : Facet) : Count :=
  ⟨number rows f .entrance D.lights, number rows f .exit D.lights,
    number rows f .exit D.components, number rows f .entrance D.components⟩

/-- `counts`, `/repo/pvtrace/device/lsc.py:568-577`, with the cache of `_make_counts`. -/
def counts (D : Device α) : Device α × Except LErr (Facet → Count) :=
  match D.df with
  | none => (D, .error .type)
  | some rows =>
    match D.counts with
    | some c => (D, .ok c)
    | none =>
      if rows.isEmpty then (D, .error .key)
      else ({ D with counts := some (table D rows) }, .ok (table D rows))

/-- Numbers behind `summary`, `/repo/pvtrace/device/lsc.py:579-598`. -/
structure Summary where
  collected : ℕ
  escaped : ℕ
  incident : ℕ
  lost : ℕ
deriving DecidableEq, Repr

/-- `summary`, `/repo/pvtrace/device/lsc.py:579-621`. Simplification: numerators and denominators
only. -/
def summary (D : Device α) : Except LErr Summary :=
  match (counts D).2 with
  | .error e => .error e
  | .ok c =>
    match spectrum D [] (some .exit) none (some [.absorb]) with
    | .error e => .error e
    | .ok lost => .ok
      ⟨∑ f ∈ D.cells, (c f).lumOut, ∑ f ∈ D.cellsᶜ, (c f).lumOut, ∑ f, (c f).solarIn, lost.length⟩

end

noncomputable section

open Classical in
/-- The solar cell at a normal, `/repo/pvtrace/device/lsc.py:38-45,53-58`. -/
def cellAt (cells : Finset Facet) (normal : Vec3 ℝ) : Option Facet :=
  if allclose ⟨-1, 0, 0⟩ normal ∧ .left ∈ cells then some .left
  else if allclose ⟨1, 0, 0⟩ normal ∧ .right ∈ cells then some .right
  else if allclose ⟨0, -1, 0⟩ normal ∧ .near ∈ cells then some .near
  else if allclose ⟨0, 1, 0⟩ normal ∧ .far ∈ cells then some .far
  else none

open Classical in
/-- `OptionalMirrorAndSolarCell.reflectivity`, `/repo/pvtrace/device/lsc.py:31-48`. -/
def reflectivity (cells : Finset Facet) (mirror : Bool) (normal direction : Vec3 ℝ) (n1 n2 : ℝ) :
    Option ℝ :=
  if allclose ⟨0, 0, -1⟩ normal ∧ mirror then some 1
  else if (cellAt cells normal).isSome then some 0
  else pyReflectivity normal direction n1 n2

/-- `OptionalMirrorAndSolarCell.transmitted_direction`, `/repo/pvtrace/device/lsc.py:50-62`. -/
def transmitted (cells : Finset Facet) (normal direction : Vec3 ℝ) (n1 n2 : ℝ) : Option (Vec3 ℝ) :=
  if (cellAt cells normal).isSome then some direction else pyTransmit normal direction n1 n2

open Classical in
/-- `AirGapMirror.reflected_direction`, `/repo/pvtrace/device/lsc.py:73-86`; `sample` is the result of
`lambertian()`. -/
def airGapReflected (lambertian : Bool) (sample normal direction : Vec3 ℝ) (n1 n2 : ℝ) :
    Except Err (Option (Vec3 ℝ)) :=
  if ¬ lambertian then .ok (pyTransmit normal direction n1 n2)
  else if ¬ allclose ⟨0, 0, 1⟩ normal then .error .notImplemented
  else .ok (some sample)

end
end PV.Lsc
