import Verif.Model.KernelTally
import Verif.Model.EngineResult
import Verif.Model.RecorderResult

/-!
What the studio sends to the page while it traces: `/repo/pvtrace/studio/server.py:203-252` and
`501-574`. Recorder names are distinct in a compiled scene (`compileRecorders`), so the dictionaries of
the messages are lists here, in the order of the recorders.
-/

namespace PV.Live
variable {α ν κ : Type}

/-- `np.round(x, d)`: to `d` decimals, halves to the even digit. -/
def npRound [Field α] [LinearOrder α] [FloorRing α] (d : ℕ) (x : α) : α :=
  let y := x * 10 ^ d
  let f := ⌊y⌋
  let r := y - f
  let n : ℤ := if r < 1 / 2 then f else if 1 / 2 < r then f + 1 else if f % 2 = 0 then f else f + 1
  n / 10 ^ d

/-- One entry of `histograms` in the `started` message, `/repo/pvtrace/studio/server.py:507-524`: the
properties and the edges of each axis. -/
structure HistMeta (α : Type) where
  offset : ℕ
  axes : List (RayProp × List α)

structure RecMeta (α : Type) where
  event : Selector
  node : String
  hists : List (HistMeta α)

/-- `np.linspace(a.start, a.stop, a.bins + 1)`. -/
def edges [Field α] (a : Axis α) : List α := (List.range (a.bins + 1)).map a.edge

/-- One pass of the inner loop of `_histogram_meta`, `/repo/pvtrace/studio/server.py:506-523`; `start` is
`compiled.rec_hist_start[r]`, `none` is an `IndexError`. -/
def histMeta [Field α] (T : RecTables α ν) (start : ℕ) (h : Hist α × ℕ) : Option (HistMeta α) :=
  match T.hists[start + h.2]? with
  | none => none
  | some hr =>
    match h.1 with
    | .heat a b => some ⟨hr.offset, [(a.prop, edges a), (b.prop, edges b)]⟩
    | .one a => some ⟨hr.offset, [(a.prop, edges a)]⟩

/-- `_histogram_meta`, `/repo/pvtrace/studio/server.py:501-529`; `ps` are the recorders of the compiled
scene with their nodes, `none` is an `IndexError`. -/
def histogramMeta [Field α] (name : ν → String) (ps : List (ν × Recorder α)) (T : RecTables α ν) :
    Option (List (String × RecMeta α)) :=
  ps.zipIdx.mapM fun p =>
    match T.recs[p.2]? with
    | none => none
    | some row => do
      let hists ← p.1.2.hists.zipIdx.mapM (histMeta T row.histStart)
      pure (p.1.2.name, ⟨p.1.2.event, name row.node, hists⟩)

/-- One entry of `recorders` in a `bundle` message; `shape` is present for heat maps. -/
structure Shown (α : Type) where
  rays : ℕ
  crossings : ℕ
  meanWavelength : α
  meanAngle : α
  hists : List (List ℕ × Option (ℕ × ℕ))

/-- `bins[offset:offset + size]` of an array of `total` entries. -/
def sliceOf (total : ℕ) (bins : ℕ → ℕ) (offset size : ℕ) : List ℕ :=
  (((List.range total).map bins).drop offset).take size

/-- One pass of the inner loop of `_recorder_payload`, `/repo/pvtrace/studio/server.py:537-545`. -/
def histValues (T : RecTables α ν) (a : Acc α) (start : ℕ) (h : Hist α × ℕ) :
    Option (List ℕ × Option (ℕ × ℕ)) :=
  match T.hists[start + h.2]? with
  | none => none
  | some hr =>
    match h.1 with
    | .heat x y => some (sliceOf T.totalBins a.bins hr.offset (x.bins * y.bins), some (x.bins, y.bins))
    | .one x => some (sliceOf T.totalBins a.bins hr.offset x.bins, none)

/-- `_recorder_payload`, `/repo/pvtrace/studio/server.py:532-554`. -/
def recorderPayload [Field α] (ps : List (ν × Recorder α)) (T : RecTables α ν) (a : Acc α) :
    Option (List (String × Shown α)) :=
  ps.zipIdx.mapM fun p =>
    match T.recs[p.2]? with
    | none => none
    | some row => do
      let hists ← p.1.2.hists.zipIdx.mapM (histValues T a row.histStart)
      let n := max (a.distinct p.2) 1
      pure (p.1.2.name,
        { rays := a.distinct p.2
          crossings := a.cross p.2
          meanWavelength := a.sums (p.2 * 8 + (0 * 2 + 0)) / (n : α)
          meanAngle := a.sums (p.2 * 8 + (1 * 2 + 0)) / (n : α)
          hists := hists })

/-- A path in a `bundle` message. -/
structure Path (α : Type) where
  points : List (Vec3 α)
  wavelengths : List α
deriving DecidableEq

/-- `np.round(points, 6)`, for one point. -/
def roundVec [Field α] [LinearOrder α] [FloorRing α] (d : ℕ) (p : Vec3 α) : Vec3 α :=
  ⟨npRound d p.x, npRound d p.y, npRound d p.z⟩

/-- `_extract_paths`, `/repo/pvtrace/studio/server.py:557-574`. `recorded` is `result.num_recorded`; the
rows are read as in `histories`. -/
def extractPaths [Field α] [LinearOrder α] [FloorRing α] (mem : Mem α (Row α ν κ))
    (recorded maxEvents limit : ℕ) : List (Path α) :=
  (List.range (min recorded limit)).filterMap fun j =>
    if mem.counts j < 2 then none
    else
      let rows := (List.range (mem.counts j)).map fun k => (mem.log (j * maxEvents + k)).getD blankRow
      some ⟨rows.map fun r => roundVec 6 r.ray.position, rows.map fun r => npRound 2 r.ray.wavelength⟩

/-- `distinct += ...; crossings += ...; sums += ...; bins += ...`,
`/repo/pvtrace/studio/server.py:233-236`. -/
def Acc.plus [Add α] (a b : Acc α) : Acc α :=
  ⟨fun k => a.distinct k + b.distinct k, fun k => a.cross k + b.cross k, fun k => a.sums k + b.sums k,
    fun k => a.bins k + b.bins k⟩

/-- One result of the stream: its number of rays, its accumulators and its event log. -/
structure Result (α ν κ : Type) where
  rays : ℕ
  acc : Acc α
  mem : Mem α (Row α ν κ)
  recorded : ℕ

/-- A `bundle` message without the speed. -/
structure Message (α : Type) where
  traced : ℕ
  total : ℕ
  recorders : List (String × Shown α)
  paths : List (Path α)

/-- The loop of `run`, `/repo/pvtrace/studio/server.py:222-252`, over the results of the stream until it
ends or is stopped. `traced` is the number reported by `simulate_stream`
(`/repo/pvtrace/engine/api.py:257-264`). -/
def liveFrom [Field α] [LinearOrder α] [FloorRing α] (ps : List (ν × Recorder α)) (T : RecTables α ν)
    (maxEvents total maxPaths : ℕ) : Acc α → ℕ → ℕ → List (Result α ν κ) → Option (List (Message α))
  | _, _, _, [] => some []
  | acc, traced, sent, r :: rs => do
    let acc := Acc.plus acc r.acc
    let paths := if sent < maxPaths then extractPaths r.mem r.recorded maxEvents (maxPaths - sent) else []
    let recorders ← recorderPayload ps T acc
    let rest ← liveFrom ps T maxEvents total maxPaths acc (traced + r.rays) (sent + paths.length) rs
    pure (⟨traced + r.rays, total, recorders, paths⟩ :: rest)

/-- `run(params)`, with `np.zeros` at the start. -/
def live [Field α] [LinearOrder α] [FloorRing α] (ps : List (ν × Recorder α)) (T : RecTables α ν)
    (maxEvents total maxPaths : ℕ) (rs : List (Result α ν κ)) : Option (List (Message α)) :=
  liveFrom ps T maxEvents total maxPaths Acc.zero 0 0 rs

end PV.Live
